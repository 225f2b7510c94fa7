import Verif.EvalConst.Model
/-! Specification: the value C gives to a preprocessor expression (C17 6.10.1 and 6.6), on
mathematical integers; bitwise operators act on 64-bit `intmax_t`. -/
namespace Verif.EvalConst.Spec
open Verif.EvalConst

def bits64 (f : BitVec 64 → BitVec 64 → BitVec 64) (a b : Int) : Int :=
  (f (BitVec.ofInt 64 a) (BitVec.ofInt 64 b)).toInt

/-- C's binary operators, on exact integers; `none` when C gives no value. -/
def bin (op : Bin) (a b : Int) : Option Int :=
  match op with
  | .add => some (a + b)
  | .sub => some (a - b)
  | .mul => some (a * b)
  | .div => if b = 0 then none else some (a.tdiv b)
  | .rem => if b = 0 then none else some (a.tmod b)
  | .and => some (bits64 (· &&& ·) a b)
  | .or => some (bits64 (· ||| ·) a b)
  | .xor => some (bits64 (· ^^^ ·) a b)
  | .shl => if b < 0 then none else some (a * 2 ^ b.toNat)
  | .shr => if b < 0 then none else some (a / 2 ^ b.toNat)
  | .eq => some (if a = b then 1 else 0)
  | .ne => some (if a = b then 0 else 1)
  | .le => some (if a ≤ b then 1 else 0)
  | .ge => some (if b ≤ a then 1 else 0)
  | .lt => some (if a < b then 1 else 0)
  | .gt => some (if b < a then 1 else 0)

/-- C value of an expression.  Logical operators yield 0 or 1; remaining identifiers are 0;
integer tokens carry their value negated (`-s`). -/
def value : Expr → Option Int
  | .int s => some (-s)
  | .chr v => some v
  | .parens e => value e
  | .bnot e => (value e).map (fun v => -v - 1)
  | .lnot e => (value e).map (fun v => if v = 0 then 1 else 0)
  | .neg e => (value e).map (fun v => -v)
  | .plus e => value e
  | .bin op a b => (value a).bind fun x => (value b).bind fun y => bin op x y
  | .land a b => (value a).bind fun x =>
      if x = 0 then some 0 else (value b).map (fun y => if y = 0 then 0 else 1)
  | .lor a b => (value a).bind fun x =>
      if x = 0 then (value b).map (fun y => if y = 0 then 0 else 1) else some 1
  | .cond c a b => (value c).bind fun x => if x = 0 then value b else value a
  | .defined m => some (if m then 1 else 0)
  | .ident _ => some 0
  | .other => none

/-- Expressions whose value is visibly 0 or 1. -/
def isBool : Expr → Bool
  | .parens e => isBool e
  | .lnot _ | .land _ _ | .lor _ _ | .defined _ | .ident _ => true
  | .bin op _ _ => op ∈ [Bin.eq, .ne, .le, .ge, .lt, .gt]
  | .int s => s = 0 ∨ s = -1
  | _ => false

mutual
/-- `&&`/`||` whose *value* matters have a visibly boolean right operand. -/
def okV : Expr → Bool
  | .parens e | .bnot e | .neg e | .plus e => okV e
  | .lnot e => okB e
  | .bin _ a b => okV a && okV b
  | .land a b | .lor a b => okB a && okV b && isBool b
  | .cond c a b => okB c && okV a && okV b
  | _ => true
/-- The same when only the truth of the expression matters. -/
def okB : Expr → Bool
  | .parens e | .plus e => okB e
  | .lnot e => okB e
  | .bnot e | .neg e => okV e
  | .bin _ a b => okV a && okV b
  | .land a b | .lor a b => okB a && okB b
  | .cond c a b => okB c && okB a && okB b
  | _ => true
end

end Verif.EvalConst.Spec
