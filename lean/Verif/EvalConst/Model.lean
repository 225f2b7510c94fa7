import Verif.Base
/-! Model of `eval_constant` (pnut.c:1282-1400), the evaluator of `#if` and constant expressions. -/
namespace Verif.EvalConst
open Verif

/-- Arithmetic binary operators handled by the common case pnut.c:1338-1372 plus binary `+`, `-`
(pnut.c:1316-1325). -/
inductive Bin where
  | add | sub | mul | div | rem | and | or | xor | shl | shr | eq | ne | le | ge | lt | gt
  deriving DecidableEq, Repr

/-- Expression trees as built by the parser (pnut.c: parse_*_expression). -/
inductive Expr where
  /-- `INTEGER` & co; the parser stores the value negated (pnut.c:1308). -/
  | int (stored : Int)
  /-- `CHARACTER` -/
  | chr (v : Int)
  | parens (e : Expr)
  | bnot (e : Expr)
  | lnot (e : Expr)
  | neg (e : Expr)
  | plus (e : Expr)
  | bin (op : Bin) (a b : Expr)
  | land (a b : Expr)
  | lor (a b : Expr)
  | cond (c a b : Expr)
  /-- `defined X`; `isMacro` says whether `X` is a macro at that point -/
  | defined (isMacro : Bool)
  /-- an identifier left after macro expansion -/
  | ident (name : Nat)
  /-- any node kind not handled (default case, pnut.c:1394-1398, other calls pnut.c:1378-1381) -/
  | other
  deriving Repr

/-- C `int` range (32-bit int). -/
def inInt (v : Int) : Bool := decide (-2147483648 ≤ v ∧ v ≤ 2147483647)

/-- Result of a signed operation: overflow is undefined behaviour. -/
def chk (v : Int) : Res Int := if inInt v then .ok v else .ub

/-- `&`, `|`, `^` on 32-bit two's complement ints. -/
def bits (f : BitVec 32 → BitVec 32 → BitVec 32) (a b : Int) : Int :=
  (f (BitVec.ofInt 32 a) (BitVec.ofInt 32 b)).toInt

def b2i (b : Bool) : Int := if b then 1 else 0

/-- The inner `switch` pnut.c:1354-1371 and pnut.c:1323-1324, C semantics of each operator on
`int`, undefined behaviour explicit (division by zero, overflow, bad shift counts, left shift of
a negative value). -/
def evalBin (op : Bin) (a b : Int) : Res Int :=
  match op with
  | .add => chk (a + b)
  | .sub => chk (a - b)
  | .mul => chk (a * b)
  | .div => if b = 0 then .ub else chk (a.tdiv b)
  | .rem => if b = 0 then .ub else (chk (a.tdiv b)).bind fun _ => .ok (a.tmod b)
  | .and => .ok (bits (· &&& ·) a b)
  | .or => .ok (bits (· ||| ·) a b)
  | .xor => .ok (bits (· ^^^ ·) a b)
  | .shl => if b < 0 ∨ b ≥ 32 ∨ a < 0 then .ub else chk (a * 2 ^ b.toNat)
  | .shr => if b < 0 ∨ b ≥ 32 then .ub else .ok (a / 2 ^ b.toNat)
  | .eq => .ok (b2i (a == b))
  | .ne => .ok (b2i (a != b))
  | .le => .ok (b2i (decide (a ≤ b)))
  | .ge => .ok (b2i (decide (a ≥ b)))
  | .lt => .ok (b2i (decide (a < b)))
  | .gt => .ok (b2i (decide (a > b)))

/-- pnut.c:1282-1400 `eval_constant`. -/
def eval (ifMacro : Bool) : Expr → Res Int
  | .int s => if s > 0 then .fatal else chk (-s)
  | .chr v => .ok v
  | .parens e => eval ifMacro e
  | .bnot e => (eval ifMacro e).bind fun v => .ok (-v - 1)
  | .lnot e => (eval ifMacro e).bind fun v => .ok (b2i (v == 0))
  | .neg e => (eval ifMacro e).bind fun v => chk (-v)
  | .plus e => eval ifMacro e
  | .bin op a b => (eval ifMacro a).bind fun x => (eval ifMacro b).bind fun y => evalBin op x y
  | .land a b => (eval ifMacro a).bind fun x => if x = 0 then .ok 0 else eval ifMacro b
  | .lor a b => (eval ifMacro a).bind fun x => if x ≠ 0 then .ok 1 else eval ifMacro b
  | .cond c a b => (eval ifMacro c).bind fun x => if x ≠ 0 then eval ifMacro a else eval ifMacro b
  | .defined m => if ifMacro then .ok (b2i m) else .fatal
  | .ident _ => if ifMacro then .ok 0 else .fatal
  | .other => .fatal

/-- pnut.c:1459, 1464: the decision taken by `#if`/`#elif`. -/
def ifDecision (e : Expr) : Res Bool := (eval true e).bind fun v => .ok (v != 0)

end Verif.EvalConst
