import Verif.Cg.Model
import Verif.Cg.Spec
/-! The fragment of C for which the theorems hold: expressions where the types pnut computes lead to the
same machine operation as the types of C.  Everything here is a static check on the program text. -/
namespace Verif.Cg
open Verif Verif.Gen Verif.Gen.Spec Spec

/-- How the value of an expression is used: only compared to zero, or only its low `n` bytes (none, if
the value is dropped). -/
inductive Md where | test | low (n : Nat)
deriving DecidableEq, Repr

/-- Element type of a pointer or array. -/
def elemTy : CTy → Option CTy
  | .ptr t => some t
  | .arr _ t => some t
  | _ => none

/-- Element types that pnut scales correctly: not arrays. -/
def elemOk (C : Ctx) (t : CTy) : Bool :=
  (match t with
   | .arr _ _ => false
   | .long _ => decide (C.w = 8)
   | _ => true) && decide (1 ≤ sizeof C.w C.T t) && decide (sizeof C.w C.T t < 2147483648)

/-- The word that holds a value of type `a` also holds the value converted to `b`. -/
def convOk (C : Ctx) (a b : CTy) : Bool :=
  decide (sizeof C.w C.T b = C.w) ||
  (isInt a && isInt b &&
    ((isSigned a == isSigned b && decide (sizeof C.w C.T a ≤ sizeof C.w C.T b)) ||
     (!isSigned a && isSigned b && decide (sizeof C.w C.T a < sizeof C.w C.T b))))

/-- The results of operations in type `t` wrap like words, or not at all. -/
def wrapOk (C : Ctx) (t : CTy) : Bool := isSigned t || decide (sizeof C.w C.T t = C.w)

/-- Operators whose low bits do not depend on the signedness of the operands. -/
def insens : Bop → Bool
  | .add | .sub | .mul | .band | .bor | .bxor | .shl | .eq | .ne => true
  | _ => false

/-- Operators whose result on nonnegative operands is nonnegative and not larger than an operand, in
any number of bits. -/
def shrinks : Bop → Bool
  | .div | .mod | .band | .bor | .bxor | .shr | .lt | .gt | .le | .ge | .eq | .ne => true
  | _ => false

/-- Arithmetic in type `t`; `ps`: pnut uses the signed instruction; `na`, `nb`: the operands are known
not to be negative. -/
def arithOk (C : Ctx) (op : Bop) (t : CTy) (ps na nb : Bool) : Bool :=
  (isSigned t && (insens op || ps || (na && nb))) ||
  (!isSigned t && decide (sizeof C.w C.T t = C.w) && (insens op || !ps)) ||
  (!isSigned t && decide (sizeof C.w C.T t < C.w) && shrinks op && na && nb)

/-- `a op b`: `ta`, `tb` are the types of C, `pa`, `pb` those pnut computes. -/
def binOk (C : Ctx) (op : Bop) (ta tb pa pb : CTy) (na nb : Bool) : Bool :=
  if isInt ta && isInt tb then
    !is_pointer_type pa && !is_pointer_type pb && scalar C.w ta && scalar C.w tb &&
    (match (if isShift op then promote C.w ta else usual C.w ta tb) with
     | some t => arithOk C op t (both_signed pa pb) na nb
     | none => false)
  else match op, ta, tb with
    | .add, .ptr t, tb => elemTy pa == some t && !is_pointer_type pb && elemOk C t && scalar C.w tb
    | .add, ta, .ptr t => elemTy pb == some t && !is_pointer_type pa && elemOk C t && scalar C.w ta
    | .sub, .ptr t, .ptr _ => elemTy pa == some t && is_pointer_type pb && elemOk C t &&
        is_power_of_2 (sizeof C.w C.T t)
    | .sub, .ptr t, tb => elemTy pa == some t && !is_pointer_type pb && elemOk C t && scalar C.w tb
    | .eq, ta, tb | .ne, ta, tb => scalar C.w ta && scalar C.w tb
    | .lt, .ptr _, .ptr _ | .gt, .ptr _, .ptr _ | .le, .ptr _, .ptr _ | .ge, .ptr _, .ptr _ => both_signed pa pb
    | _, _, _ => false

/-- Expressions known to be 0 or 1. -/
def isBool : E → Bool
  | .bin op _ _ => op.isCmp
  | .lnot _ | .land _ _ | .lor _ _ => true
  | .paren e => isBool e
  | _ => false

/-- Expressions known not to be negative: literals, `sizeof`, unsigned types. -/
def nonneg (C : Ctx) (κ : Nat → Option VK) : E → Bool
  | .num _ | .sizeofT _ | .sizeofE _ => true
  | .chr v => decide (0 ≤ v)
  | .paren e => nonneg C κ e
  | e => isBool e || match ctype C κ e with
    | some t => isInt t && !isSigned t
    | none => false

/-- The type pnut computes, and the type in C. -/
def vt (C : Ctx) (Γ : Env) (e : E) : Option CTy :=
  match value_type C.T Γ e with
  | .ok t => some t
  | _ => none

/-- Member offsets: pnut takes 0 for unions. -/
def unionOk (C : Ctx) (t : CTy) (m : Nat) : Bool :=
  match t with
  | .agg true tag => C.T.off tag m == some 0
  | .agg false _ => true
  | _ => false

/-- Operators on integers whose low `n` bytes depend only on the low `n` bytes of the operands (for
`<<`, of the left operand). -/
def lowOp : Bop → Bool
  | .add | .sub | .mul | .band | .bor | .bxor | .shl => true
  | _ => false

/-- `a op b` on integers, used modulo `2^(8n)`. -/
def lowOk (C : Ctx) (op : Bop) (ta tb pa pb : CTy) (n : Nat) : Bool :=
  isInt ta && isInt tb && scalar C.w ta && scalar C.w tb && !is_pointer_type pa && !is_pointer_type pb && lowOp op &&
  (match (if isShift op then promote C.w ta else usual C.w ta tb) with
   | some t => decide (n ≤ sizeof C.w C.T t)
   | none => false)

/-- `m` needs at most the low `n` bytes. -/
def Md.le (m : Md) (n : Nat) : Bool :=
  match m with
  | .test => false
  | .low k => decide (k ≤ n)

/-- `++` and `--`: pnut scales pointers correctly. -/
def incElem (C : Ctx) : CTy → Bool
  | .ptr t => elemOk C t
  | _ => true

/-- The word left by `++` or `--` is the value of the object. -/
def incWide (C : Ctx) : CTy → Bool
  | .char _ | .short _ => false
  | t => isPtr t || wrapOk C t

mutual
/-- Supported expressions, for each use of their value. -/
def Sup (C : Ctx) (Γ : Env) (κ : Nat → Option VK) : Md → E → Bool
  | _, .num _ | _, .chr _ | _, .str _ _ | _, .var _ | _, .sizeofT _ => true
  | _, .deref e => Sup C Γ κ (.low C.w) e &&
      (match vt C Γ e, ctype C κ e with
       | some p, some t => elemTy p == elemTy t && (match elemTy t with | some t => elemOk C t | none => false)
       | _, _ => false)
  | _, .addr e => SupL C Γ κ e
  | m, .neg e | m, .bnot e =>
      (match ctype C κ (.neg e) with
       | some t => scalar C.w t &&
          (if m.le (sizeof C.w C.T t) then Sup C Γ κ m e else wrapOk C t && Sup C Γ κ (.low C.w) e)
       | none => false)
  | m, .plus e => Sup C Γ κ m e
  | m, .paren e => Sup C Γ κ m e
  | _, .lnot e => Sup C Γ κ .test e
  | m, .incdec post _ e => SupL C Γ κ e &&
      (match vt C Γ e, ctype C κ e with
       | some p, some t => p == t && incElem C t && (m.le (sizeof C.w C.T t) || post || incWide C t)
       | _, _ => false)
  | _, .sizeofE e => match vt C Γ e, ctype C κ e with
      | some p, some t => decide (sizeof C.w C.T p = sizeof C.w C.T t)
      | _, _ => false
  | m, .bin op a b =>
      (match vt C Γ a, vt C Γ b, ctype C κ a, ctype C κ b with
       | some pa, some pb, some ta, some tb =>
          (match m with
           | .low n => lowOk C op ta tb pa pb n && Sup C Γ κ (.low n) a &&
              Sup C Γ κ (.low (if isShift op then C.w else n)) b
           | .test => false) ||
          (Sup C Γ κ (.low C.w) a && Sup C Γ κ (.low C.w) b &&
            binOk C op (decay ta) (decay tb) pa pb (nonneg C κ a) (nonneg C κ b))
       | _, _, _, _ => false)
  | m, .comma a b => Sup C Γ κ (.low 0) a && Sup C Γ κ m b
  | _, .index a b => Sup C Γ κ (.low C.w) a && Sup C Γ κ (.low C.w) b &&
      (match vt C Γ a, vt C Γ b, ctype C κ a, ctype C κ b with
       | some pa, some pb, some ta, some tb =>
          binOk C .add (decay ta) (decay tb) pa pb false false && (isPtr (decay ta) || isPtr (decay tb))
       | _, _, _, _ => false)
  | m, .assign a b => SupL C Γ κ a &&
      (match ctype C κ a, ctype C κ b with
       | some ta, some tb =>
          if m.le (sizeof C.w C.T ta) then Sup C Γ κ (.low (sizeof C.w C.T ta)) b
          else Sup C Γ κ (.low C.w) b && convOk C (decay tb) ta
       | _, _ => false)
  | m, .opassign op a b => SupL C Γ κ a &&
      (match vt C Γ a, vt C Γ b, ctype C κ a, ctype C κ b with
       | some pa, some pb, some ta, some tb => pa == ta &&
          ((m.le (sizeof C.w C.T ta) && lowOk C op ta tb pa pb (sizeof C.w C.T ta) &&
            Sup C Γ κ (.low (if isShift op then C.w else sizeof C.w C.T ta)) b) ||
          (Sup C Γ κ (.low C.w) b && binOk C op ta (decay tb) pa pb (nonneg C κ a) (nonneg C κ b) &&
            (m.le (sizeof C.w C.T ta) ||
              (match binTy C.w op ta (decay tb) with | some t => convOk C t ta | none => false))))
       | _, _, _, _ => false)
  | m, .land a b => Sup C Γ κ .test a &&
      (match m with
       | .test => Sup C Γ κ .test b
       | .low 0 => Sup C Γ κ (.low 0) b
       | .low n => isBool b && Sup C Γ κ (.low n) b)
  | m, .lor a b =>
      (match m with
       | .test => Sup C Γ κ .test a && Sup C Γ κ .test b
       | .low 0 => Sup C Γ κ .test a && Sup C Γ κ (.low 0) b
       | .low n => isBool a && Sup C Γ κ (.low C.w) a && isBool b && Sup C Γ κ (.low n) b)
  | m, .cond c a b => Sup C Γ κ .test c &&
      (match ctype C κ a, ctype C κ b, ctype C κ (.cond c a b) with
       | some ta, some tb, some t =>
          if m.le (sizeof C.w C.T t) then Sup C Γ κ m a && Sup C Γ κ m b
          else Sup C Γ κ (.low C.w) a && Sup C Γ κ (.low C.w) b && convOk C (decay ta) t && convOk C (decay tb) t
       | _, _, _ => false)
  | m, .cast t e =>
      (match vt C Γ e, ctype C κ e with
       | some p, some te =>
          (match type_width C.w C.T t false, type_width C.w C.T p false with
           | .ok k, .ok kp =>
              if k < kp then Sup C Γ κ (.low k) e
              else if m.le k then Sup C Γ κ m e
              else Sup C Γ κ (.low C.w) e && convOk C (decay te) t
           | _, _ => false)
       | _, _ => false)
  | _, .dot e m => SupL C Γ κ e &&
      (match vt C Γ e, ctype C κ e with
       | some p, some t => p == t && unionOk C t m
       | _, _ => false)
  | _, .arrow e m => Sup C Γ κ (.low C.w) e &&
      (match vt C Γ e, ctype C κ e with
       | some (.ptr p), some t => some p == elemTy t && unionOk C p m
       | _, _ => false)
  | m, .call f args => SupA C Γ κ args && (m == .low 0 || match ctype C κ (.call f args) with
      | some .void => false
      | _ => true)
  | _, .anil | _, .acons _ _ => false

/-- Supported lvalues. -/
def SupL (C : Ctx) (Γ : Env) (κ : Nat → Option VK) : E → Bool
  | .var _ => true
  | .deref e => Sup C Γ κ (.low C.w) e &&
      (match vt C Γ e, ctype C κ e with
       | some p, some t => elemTy p == elemTy t && (match elemTy t with | some t => elemOk C t | none => false)
       | _, _ => false)
  | .paren e => SupL C Γ κ e
  | .index a b => Sup C Γ κ (.low C.w) a && Sup C Γ κ (.low C.w) b &&
      (match vt C Γ a, vt C Γ b, ctype C κ a, ctype C κ b with
       | some pa, some pb, some ta, some tb =>
          binOk C .add (decay ta) (decay tb) pa pb false false && isPtr (decay ta)
       | _, _, _, _ => false)
  | .dot e m => SupL C Γ κ e &&
      (match vt C Γ e, ctype C κ e with
       | some p, some t => p == t && unionOk C t m
       | _, _ => false)
  | .arrow e m => Sup C Γ κ (.low C.w) e &&
      (match vt C Γ e, ctype C κ e with
       | some (.ptr p), some t => some p == elemTy t && unionOk C p m
       | _, _ => false)
  | _ => false

/-- Supported argument lists. -/
def SupA (C : Ctx) (Γ : Env) (κ : Nat → Option VK) : E → Bool
  | .anil => true
  | .acons e es => Sup C Γ κ (.low C.w) e && SupA C Γ κ es
  | _ => false
end

end Verif.Cg
