import Verif.Cg.Syntax
import Verif.Gen.PtrProps
/-! Specification of the meaning of C expressions, statements and functions (C11 6.3, 6.5, 6.8), for a
target with words of `w` bytes.

A value is an integer: the value of an integer expression, or the address (0 ≤ a < 2^(8w)) a pointer
holds.  Memory maps an address to `none` (no object there), `some none` (not initialised) or a
byte.  `none` as a result of evaluation means that C does not define the behaviour (overflow, access
outside the objects, division by 0, ...).  Besides the objects the memory records what the program has asked of the
system (`io`); only the functions of the library (`Ctx.lib`, any specification) ask.

Choices C leaves to the implementation: operands are evaluated from left to right, arguments from
right to left, the address of the left operand of an assignment before the right operand; a
conversion to a signed type wraps; `>>` of a negative number is arithmetic; `char` is signed; an `enum`
type is a signed integer of `w` bytes.  The addresses of local variables and parameters are chosen
downward from the stack pointer `sp`, which every operand being held, argument and return address moves by one
word; the stack ends at `lim`, and an execution that comes closer than 5 words to it has no meaning here. -/
namespace Verif.Cg.Spec
open Verif Verif.Gen Verif.Gen.Spec

/-- The memory, and what the program has asked of the system so far, in order. -/
structure Mem where
  at_ : Int → Option (Option Nat)
  io : List X86.Spec.Event := []

instance : CoeFun Mem (fun _ => Int → Option (Option Nat)) := ⟨Mem.at_⟩

/-- Word size, structure types, end of the stack, the meaning of the library functions (their result and the memory
afterwards, where C defines them), and the addresses of the string literals. -/
structure Ctx where
  w : Nat
  T : Tags
  lim : Int
  lib : Nat → List Int → Mem → Option (Int × Mem) := fun _ _ _ => none
  strAt : Nat → Int := fun _ => 0

/-- The `k` bytes at `a`, least significant first; defined if all are initialised. -/
def loadN (M : Mem) (a : Int) : Nat → Option Nat
  | 0 => some 0
  | k + 1 => match M a with
    | some (some b) => (loadN M (a + 1) k).bind fun n => some (b + 256 * n)
    | _ => none

/-- Store the low `k` bytes of `v` at `a`; defined if there are objects there. -/
def storeN (M : Mem) (a v : Int) : Nat → Option Mem
  | 0 => some M
  | k + 1 =>
    if (M a).isSome then
      storeN { M with at_ := fun x => if x = a then some (some (v % 256).toNat) else M x } (a + 1) (v / 256) k
    else none

/-- New uninitialised object. -/
def alloc (M : Mem) (a : Int) (k : Nat) : Mem := { M with at_ := fun x => if a ≤ x ∧ x < a + k then some none else M x }
/-- End of life of all objects in a range. -/
def free (M : Mem) (a : Int) (k : Nat) : Mem := { M with at_ := fun x => if a ≤ x ∧ x < a + k then none else M x }

/-- Integer types. -/
def isInt : CTy → Bool
  | .char _ | .short _ | .int _ | .long _ | .enum => true
  | _ => false
def isPtr : CTy → Bool
  | .ptr _ => true
  | _ => false
/-- Types whose objects hold one value; `long` has 8 bytes, more than a word of the 32-bit target. -/
def scalar (w : Nat) : CTy → Bool
  | .long _ => w = 8
  | t => isInt t || isPtr t

def isSigned : CTy → Bool
  | .char u | .short u | .int u | .long u => !u
  | .enum => true
  | _ => false

/-- Conversion of a value to type `t` (6.3.1.3, 6.3.2.3). -/
def conv (C : Ctx) (t : CTy) (v : Int) : Int :=
  if isSigned t then Int.bmod v (2 ^ (8 * sizeof C.w C.T t)) else v % (2 ^ (8 * sizeof C.w C.T t) : Nat)

/-- Value of an object of scalar type. -/
def loadT (C : Ctx) (M : Mem) (a : Int) (t : CTy) : Option Int :=
  if scalar C.w t then (loadN M a (sizeof C.w C.T t)).bind fun n => some (conv C t n) else none
def storeT (C : Ctx) (M : Mem) (a : Int) (t : CTy) (v : Int) : Option Mem :=
  if scalar C.w t then storeN M a v (sizeof C.w C.T t) else none

/-- Arrays become pointers (6.3.2.1). -/
def decay : CTy → CTy
  | .arr _ t => .ptr t
  | t => t

/-- Integer promotion (6.3.1.1). -/
def promote (w : Nat) : CTy → Option CTy
  | .char _ | .short _ => some (.int false)
  | .int u => some (.int u)
  | .long u => some (.long u)
  | .enum => some (if w = 8 then .long false else .int false)
  | _ => none

/-- Usual arithmetic conversions (6.3.1.8) of promoted types. -/
def common : CTy → CTy → CTy
  | .long u, .long v => .long (u || v)
  | .long u, _ => .long u
  | _, .long v => .long v
  | .int u, .int v => .int (u || v)
  | _, _ => .int false

def usual (w : Nat) (a b : CTy) : Option CTy :=
  (promote w a).bind fun a => (promote w b).bind fun b => some (common a b)

/-- The result `r` of an operation in type `t`: overflow of a signed type is undefined, unsigned types
wrap. -/
def chk (C : Ctx) (t : CTy) (r : Int) : Option Int :=
  if isSigned t then (if conv C t r = r then some r else none) else some (conv C t r)

def bitop (C : Ctx) (t : CTy) (f : ∀ n, BitVec n → BitVec n → BitVec n) (a b : Int) : Int :=
  conv C t (f (8 * sizeof C.w C.T t) (BitVec.ofInt _ a) (BitVec.ofInt _ b)).toInt

/-- Arithmetic in type `t` on operands of that type (6.5.5 - 6.5.7, 6.5.10 - 6.5.12). -/
def arith (C : Ctx) (op : Bop) (t : CTy) (a b : Int) : Option Int :=
  match op with
  | .add => chk C t (a + b)
  | .sub => chk C t (a - b)
  | .mul => chk C t (a * b)
  | .div => if b = 0 then none else chk C t (a.tdiv b)
  | .mod => if b = 0 then none else (chk C t (a.tdiv b)).bind fun _ => some (a.tmod b)
  | .band => some (bitop C t (fun _ x y => x &&& y) a b)
  | .bor => some (bitop C t (fun _ x y => x ||| y) a b)
  | .bxor => some (bitop C t (fun _ x y => x ^^^ y) a b)
  | .shl => if 0 ≤ b ∧ b < 8 * sizeof C.w C.T t ∧ (isSigned t = true → 0 ≤ a) then chk C t (a * 2 ^ b.toNat) else none
  | .shr => if 0 ≤ b ∧ b < 8 * sizeof C.w C.T t then some (a / 2 ^ b.toNat) else none
  | _ => none

def cmpz (op : Bop) (a b : Int) : Bool :=
  match op with
  | .lt => a < b
  | .gt => a > b
  | .le => a ≤ b
  | .ge => a ≥ b
  | .eq => a = b
  | .ne => a ≠ b
  | _ => false

def isShift : Bop → Bool
  | .shl | .shr => true
  | _ => false

/-- Type of `a op b`; `ta`, `tb` are decayed. -/
def binTy (w : Nat) (op : Bop) (ta tb : CTy) : Option CTy :=
  if op.isCmp then some (.int false)
  else if isInt ta && isInt tb then
    if isShift op then promote w ta else usual w ta tb
  else match op, ta, tb with
    | .add, .ptr t, tb => if isInt tb then some (.ptr t) else none
    | .add, ta, .ptr t => if isInt ta then some (.ptr t) else none
    | .sub, .ptr t, .ptr _ => some (if w = 8 then .long false else .int false)
    | .sub, .ptr t, tb => if isInt tb then some (.ptr t) else none
    | _, _, _ => none

/-- A pointer result must be an address (6.5.6; staying inside the object is not required here). -/
def chkP (C : Ctx) (r : Int) : Option Int :=
  if 0 ≤ r ∧ r < (2 ^ (8 * C.w) : Nat) then some r else none

def b2i (b : Bool) : Int := if b then 1 else 0

/-- `a op b` for operands of (decayed) types `ta`, `tb`.  `<`, `>`, `<=`, `>=` on pointers are defined here
if both addresses are in the same half of the address space. -/
def binV (C : Ctx) (op : Bop) (ta tb : CTy) (a b : Int) : Option Int :=
  if isInt ta && isInt tb then
    if op.isCmp then (usual C.w ta tb).bind fun t => some (b2i (cmpz op (conv C t a) (conv C t b)))
    else if isShift op then (promote C.w ta).bind fun t => arith C op t a b
    else (usual C.w ta tb).bind fun t => arith C op t (conv C t a) (conv C t b)
  else match op, ta, tb with
    | .add, .ptr t, tb => if isInt tb then chkP C (a + b * sizeof C.w C.T t) else none
    | .add, ta, .ptr t => if isInt ta then chkP C (b + a * sizeof C.w C.T t) else none
    | .sub, .ptr t, .ptr t' =>
      if t = t' ∧ sizeof C.w C.T t ≠ 0 ∧ (a - b) % sizeof C.w C.T t = 0 ∧
        Int.bmod (a - b) (2 ^ (8 * C.w)) = a - b then some ((a - b) / sizeof C.w C.T t) else none
    | .sub, .ptr t, tb => if isInt tb then chkP C (a - b * sizeof C.w C.T t) else none
    | .eq, ta, tb | .ne, ta, tb =>
      if (isPtr ta || isPtr tb) && (isPtr ta || isInt ta) && (isPtr tb || isInt tb) then
        some (b2i (cmpz op (a % (2 ^ (8 * C.w) : Nat)) (b % (2 ^ (8 * C.w) : Nat)))) else none
    | .lt, .ptr _, .ptr _ | .gt, .ptr _, .ptr _ | .le, .ptr _, .ptr _ | .ge, .ptr _, .ptr _ =>
      if (a < (2 ^ (8 * C.w - 1) : Nat)) = (b < (2 ^ (8 * C.w - 1) : Nat)) then some (b2i (cmpz op a b)) else none
    | _, _, _ => none

/-- What an identifier denotes. -/
inductive VK where
  | var (t : CTy)
  | cst (v : Int)
  | fn (ret : CTy)

/-- What is in scope: the meaning of the identifiers, the addresses of the variables, and the return
type of the current function. -/
structure Env where
  kind : Nat → Option VK
  addr : Nat → Int
  rett : CTy

def Env.setVar (ρ : Env) (x : Nat) (t : CTy) (a : Int) : Env :=
  { ρ with kind := fun y => if y = x then some (.var t) else ρ.kind y
           addr := fun y => if y = x then a else ρ.addr y }

/-- `size_t` (unsigned, one word). -/
def sizeTy (w : Nat) : CTy := if w = 8 then .long true else .int true

/-- Type of `c ? a : b` (6.5.15), branches decayed. -/
def condTy (w : Nat) (ta tb : CTy) : Option CTy :=
  if isInt ta && isInt tb then usual w ta tb
  else if isPtr ta then some ta
  else if isPtr tb then some tb
  else none

/-- Type of an expression; `kind` gives the declarations in scope. -/
def ctype (C : Ctx) (kind : Nat → Option VK) : E → Option CTy
  | .num _ | .chr _ => some (.int false)
  | .str _ bs => some (.arr (bs.length + 1) (.char false))
  | .var x => (kind x).bind fun
    | .var t => some t
    | .cst _ => some (.int false)
    | .fn _ => none
  | .deref e => (ctype C kind e).bind fun t => match decay t with
    | .ptr t => some t
    | _ => none
  | .addr e => (ctype C kind e).bind fun t => some (.ptr t)
  | .neg e | .bnot e | .plus e => (ctype C kind e).bind fun t => promote C.w t
  | .lnot _ => some (.int false)
  | .paren e => ctype C kind e
  | .incdec _ _ e => ctype C kind e
  | .sizeofT _ | .sizeofE _ => some (sizeTy C.w)
  | .bin op a b => (ctype C kind a).bind fun ta => (ctype C kind b).bind fun tb =>
      binTy C.w op (decay ta) (decay tb)
  | .comma _ b => (ctype C kind b).bind fun t => some (decay t)
  | .index a b => (ctype C kind a).bind fun ta => (ctype C kind b).bind fun tb =>
      match decay ta, decay tb with
      | .ptr t, tb => if isInt tb then some t else none
      | ta, .ptr t => if isInt ta then some t else none
      | _, _ => none
  | .assign a _ | .opassign _ a _ => ctype C kind a
  | .land _ _ | .lor _ _ => some (.int false)
  | .cond _ a b => (ctype C kind a).bind fun ta => (ctype C kind b).bind fun tb =>
      condTy C.w (decay ta) (decay tb)
  | .cast t _ => some t
  | .dot e m => (ctype C kind e).bind fun
    | .agg _ tag => C.T.mem tag m
    | _ => none
  | .arrow e m => (ctype C kind e).bind fun t => match decay t with
    | .ptr (.agg _ tag) => C.T.mem tag m
    | _ => none
  | .call f _ => (kind f).bind fun
    | .fn r => some r
    | _ => none
  | .anil | .acons _ _ => none

/-- Offset of a member. -/
def offset (C : Ctx) : CTy → Nat → Option Nat
  | .agg _ tag, m => C.T.off tag m
  | _, _ => none

/-- Value of the object of type `t` at address `a`: arrays become pointers. -/
def rvalue (C : Ctx) (M : Mem) (a : Int) (t : CTy) : Option Int :=
  match t with
  | .arr _ _ => some a
  | t => loadT C M a t

/-- There is room for the evaluation of one operator. -/
def Room (C : Ctx) (sp : Int) : Prop := C.lim + 5 * C.w ≤ sp
instance (C : Ctx) (sp : Int) : Decidable (Room C sp) := inferInstanceAs (Decidable (_ ≤ _))

/-- Meaning of a call: name, argument values, stack pointer, memory. -/
abbrev CallF := Nat → List Int → Int → Mem → Option (Int × Mem)

/-- Number of arguments. -/
def nargs : E → Nat
  | .acons _ es => nargs es + 1
  | _ => 0

mutual
/-- Value of an expression and the memory after its side effects. -/
def evalE (C : Ctx) (cf : CallF) (ρ : Env) : E → Int → Mem → Option (Int × Mem)
  | .num v, sp, M => if Room C sp ∧ v < 2147483648 then some (v, M) else none
  | .chr v, sp, M => if Room C sp ∧ -128 ≤ v ∧ v ≤ 127 then some (v, M) else none
  | .str k _, sp, M => if Room C sp ∧ 0 ≤ C.strAt k ∧ C.strAt k < (2 ^ (8 * C.w) : Nat) then some (C.strAt k, M) else none
  | .var x, sp, M => if Room C sp then
      (ρ.kind x).bind fun
      | .var t => (rvalue C M (ρ.addr x) t).bind fun v => some (v, M)
      | .cst v => if -2147483648 ≤ v ∧ v < 2147483648 then some (v, M) else none
      | .fn _ => none
    else none
  | .deref e, sp, M => if Room C sp then
      (ctype C ρ.kind (.deref e)).bind fun t =>
      (evalE C cf ρ e sp M).bind fun (a, M) => (rvalue C M a t).bind fun v => some (v, M)
    else none
  | .addr e, sp, M => if Room C sp then evalL C cf ρ e sp M else none
  | .neg e, sp, M => if Room C sp then
      (ctype C ρ.kind (.neg e)).bind fun t =>
      (evalE C cf ρ e sp M).bind fun (v, M) => (chk C t (-v)).bind fun v => some (v, M)
    else none
  | .bnot e, sp, M => if Room C sp then
      (ctype C ρ.kind (.bnot e)).bind fun t =>
      (evalE C cf ρ e sp M).bind fun (v, M) => (chk C t (-1 - v)).bind fun v => some (v, M)
    else none
  | .plus e, sp, M => if Room C sp then
      (ctype C ρ.kind (.plus e)).bind fun _ => evalE C cf ρ e sp M
    else none
  | .paren e, sp, M => if Room C sp then evalE C cf ρ e sp M else none
  | .lnot e, sp, M => if Room C sp then
      (evalE C cf ρ e (sp - C.w) M).bind fun (v, M) => some (b2i (v = 0), M)
    else none
  | .incdec post dec e, sp, M => if Room C sp then
      (ctype C ρ.kind e).bind fun t =>
      (evalL C cf ρ e sp M).bind fun (a, M) =>
      (loadT C M a t).bind fun v =>
      (binV C (if dec then .sub else .add) t (.int false) v 1).bind fun r =>
      (storeT C M a t (conv C t r)).bind fun M =>
      some (if post then v else conv C t r, M)
    else none
  | .sizeofT t, sp, M => if Room C sp ∧ sizeof C.w C.T t < 2147483648 then some (sizeof C.w C.T t, M) else none
  | .sizeofE e, sp, M => if Room C sp then
      (ctype C ρ.kind e).bind fun t => if sizeof C.w C.T t < 2147483648 then some (sizeof C.w C.T t, M) else none
    else none
  | .bin op a b, sp, M => if Room C sp then
      (ctype C ρ.kind a).bind fun ta => (ctype C ρ.kind b).bind fun tb =>
      (evalE C cf ρ a sp M).bind fun (va, M) =>
      (evalE C cf ρ b (sp - C.w) M).bind fun (vb, M) =>
      (binV C op (decay ta) (decay tb) va vb).bind fun v => some (v, M)
    else none
  | .comma a b, sp, M => if Room C sp then
      (evalE C cf ρ a sp M).bind fun (_, M) => evalE C cf ρ b (sp - C.w) M
    else none
  | .index a b, sp, M => if Room C sp then
      (ctype C ρ.kind (.index a b)).bind fun t =>
      (ctype C ρ.kind a).bind fun ta => (ctype C ρ.kind b).bind fun tb =>
      (evalE C cf ρ a sp M).bind fun (va, M) =>
      (evalE C cf ρ b (sp - C.w) M).bind fun (vb, M) =>
      (binV C .add (decay ta) (decay tb) va vb).bind fun p =>
      (rvalue C M p t).bind fun v => some (v, M)
    else none
  | .assign a b, sp, M => if Room C sp then
      (ctype C ρ.kind a).bind fun t =>
      (evalL C cf ρ a sp M).bind fun (p, M) =>
      (evalE C cf ρ b (sp - C.w) M).bind fun (v, M) =>
      (storeT C M p t (conv C t v)).bind fun M => some (conv C t v, M)
    else none
  | .opassign op a b, sp, M => if Room C sp ∧ op.isCmp = false then
      (ctype C ρ.kind a).bind fun t => (ctype C ρ.kind b).bind fun tb =>
      (evalL C cf ρ a sp M).bind fun (p, M) =>
      (loadT C M p t).bind fun va =>
      (evalE C cf ρ b (sp - 2 * C.w) M).bind fun (vb, M) =>
      (binV C op t (decay tb) va vb).bind fun r =>
      (storeT C M p t (conv C t r)).bind fun M => some (conv C t r, M)
    else none
  | .land a b, sp, M => if Room C sp then
      (evalE C cf ρ a sp M).bind fun (va, M) =>
      if va = 0 then some (0, M)
      else (evalE C cf ρ b sp M).bind fun (vb, M) => some (b2i (vb ≠ 0), M)
    else none
  | .lor a b, sp, M => if Room C sp then
      (evalE C cf ρ a sp M).bind fun (va, M) =>
      if va ≠ 0 then some (1, M)
      else (evalE C cf ρ b sp M).bind fun (vb, M) => some (b2i (vb ≠ 0), M)
    else none
  | .cond c a b, sp, M => if Room C sp then
      (ctype C ρ.kind (.cond c a b)).bind fun t =>
      if scalar C.w t then
        (evalE C cf ρ c sp M).bind fun (v, M) =>
        (if v ≠ 0 then evalE C cf ρ a sp M else evalE C cf ρ b sp M).bind fun (v, M) =>
        some (conv C t v, M)
      else none
    else none
  | .cast t e, sp, M => if Room C sp ∧ scalar C.w t then
      (evalE C cf ρ e sp M).bind fun (v, M) => some (conv C t v, M)
    else none
  | .dot e m, sp, M => if Room C sp then
      (ctype C ρ.kind e).bind fun te => (ctype C ρ.kind (.dot e m)).bind fun t =>
      (offset C te m).bind fun o =>
      (evalL C cf ρ e sp M).bind fun (p, M) =>
      (chkP C (p + o)).bind fun p => (rvalue C M p t).bind fun v => some (v, M)
    else none
  | .arrow e m, sp, M => if Room C sp then
      (ctype C ρ.kind (.deref e)).bind fun te => (ctype C ρ.kind (.arrow e m)).bind fun t =>
      (offset C te m).bind fun o =>
      (evalE C cf ρ e sp M).bind fun (p, M) =>
      (chkP C (p + o)).bind fun p => (rvalue C M p t).bind fun v => some (v, M)
    else none
  | .call f args, sp, M => if Room C sp then
      (ctype C ρ.kind (.call f args)).bind fun _ => (evalA C cf ρ args sp M).bind fun (vs, M) => cf f vs (sp - nargs args * C.w) M
    else none
  | .anil, _, _ | .acons _ _, _, _ => none

/-- Address of the object an expression designates. -/
def evalL (C : Ctx) (cf : CallF) (ρ : Env) : E → Int → Mem → Option (Int × Mem)
  | .var x, sp, M => if Room C sp then
      (ρ.kind x).bind fun
      | .var _ => some (ρ.addr x, M)
      | _ => none
    else none
  | .deref e, sp, M => if Room C sp then
      (ctype C ρ.kind (.deref e)).bind fun _ => evalE C cf ρ e sp M
    else none
  | .paren e, sp, M => if Room C sp then evalL C cf ρ e sp M else none
  | .index a b, sp, M => if Room C sp then
      (ctype C ρ.kind (.index a b)).bind fun _ =>
      (ctype C ρ.kind a).bind fun ta => (ctype C ρ.kind b).bind fun tb =>
      (evalE C cf ρ a sp M).bind fun (va, M) =>
      (evalE C cf ρ b (sp - C.w) M).bind fun (vb, M) =>
      (binV C .add (decay ta) (decay tb) va vb).bind fun p => some (p, M)
    else none
  | .dot e m, sp, M => if Room C sp then
      (ctype C ρ.kind e).bind fun te => (ctype C ρ.kind (.dot e m)).bind fun _ =>
      (offset C te m).bind fun o =>
      (evalL C cf ρ e sp M).bind fun (p, M) =>
      (chkP C (p + o)).bind fun p => some (p, M)
    else none
  | .arrow e m, sp, M => if Room C sp then
      (ctype C ρ.kind (.deref e)).bind fun te => (ctype C ρ.kind (.arrow e m)).bind fun _ =>
      (offset C te m).bind fun o =>
      (evalE C cf ρ e sp M).bind fun (p, M) =>
      (chkP C (p + o)).bind fun p => some (p, M)
    else none
  | _, _, _ => none

/-- Values of the arguments. -/
def evalA (C : Ctx) (cf : CallF) (ρ : Env) : E → Int → Mem → Option (List Int × Mem)
  | .anil, _, M => some ([], M)
  | .acons e es, sp, M =>
    (evalA C cf ρ es sp M).bind fun (vs, M) =>
    (evalE C cf ρ e (sp - nargs es * C.w) M).bind fun (v, M) => some (v :: vs, M)
  | _, _, _ => none
end

/-- How a statement ends. -/
inductive Out where
  | norm | brk | cont
  | ret (v : Int)
deriving DecidableEq, Repr

/-- Words a local variable takes. -/
def words (C : Ctx) (t : CTy) : Nat := (sizeof C.w C.T t + C.w - 1) / C.w

/-- Constant of a `case` label. -/
def caseConst (κ : Nat → Option VK) : E → Option Int
  | .num v => if v < 2147483648 then some v else none
  | .chr v => if -128 ≤ v ∧ v ≤ 127 then some v else none
  | .neg (.num v) => if v < 2147483648 then some (-v) else none
  | .var x => (κ x).bind fun
    | .cst v => if -2147483648 ≤ v ∧ v < 2147483648 then some v else none
    | _ => none
  | .paren e => caseConst κ e
  | _ => none

/-- The statement from the first label `case e` with `is e` on, inside the labels of one statement. -/
def enterCase (is : E → Bool) : St → Option St
  | .case e s => if is e then some s else enterCase is s
  | .dflt s => enterCase is s
  | _ => none
/-- The statement from the label `default` on. -/
def enterDflt : St → Option St
  | .case _ s => enterDflt s
  | .dflt s => some s
  | _ => none
/-- The list of statements from the first statement that has the label. -/
def fromLabel (f : St → Option St) : St → Option St
  | .bstmt s rest => match f s with
    | some s => some (.bstmt s rest)
    | none => fromLabel f rest
  | .bdecl _ _ _ rest => fromLabel f rest
  | _ => none

/-- Bind the parameters: argument `i` is held in the `i`-th word from `a` on. -/
def bindParams (C : Ctx) : List (Nat × CTy) → List Int → Int → Env → Mem → Option (Env × Mem)
  | [], [], _, ρ, M => some (ρ, M)
  | (x, t) :: ps, v :: vs, a, ρ, M =>
    if scalar C.w (decay t) then
      (storeN (alloc M a (sizeof C.w C.T (decay t))) a v (sizeof C.w C.T (decay t))).bind fun M =>
      bindParams C ps vs (a + C.w) (ρ.setVar x (decay t) a) M
    else none
  | _, _, _, _, _ => none

mutual
/-- Execution of a statement; the first argument bounds the depth of the execution, a larger bound
gives the same result. `cs` holds the functions of the program, `ρ0` the global declarations. -/
def exec (C : Ctx) (cs : Nat → Option Fun) (ρ0 : Env) : Nat → Env → St → Int → Mem → Option (Out × Mem)
  | 0, _, _, _, _ => none
  | n + 1, ρ, s, sp, M =>
    match s with
    | .skip => some (.norm, M)
    | .expr e => (evalE C (call C cs ρ0 n) ρ e sp M).bind fun (_, M) => some (.norm, M)
    | .ifte c a b => (evalE C (call C cs ρ0 n) ρ c sp M).bind fun (v, M) =>
        if v ≠ 0 then exec C cs ρ0 n ρ a sp M else exec C cs ρ0 n ρ b sp M
    | .whil c b => (evalE C (call C cs ρ0 n) ρ c sp M).bind fun (v, M) =>
        if v = 0 then some (.norm, M)
        else (exec C cs ρ0 n ρ b sp M).bind fun
          | (.brk, M) => some (.norm, M)
          | (.ret v, M) => some (.ret v, M)
          | (_, M) => exec C cs ρ0 n ρ (.whil c b) sp M
    | .forr .skip c p b =>
        (match c with
          | some c => (evalE C (call C cs ρ0 n) ρ c sp M)
          | none => some (1, M)).bind fun (v, M) =>
        if v = 0 then some (.norm, M)
        else (exec C cs ρ0 n ρ b sp M).bind fun
          | (.brk, M) => some (.norm, M)
          | (.ret v, M) => some (.ret v, M)
          | (_, M) => (exec C cs ρ0 n ρ p sp M).bind fun
            | (.norm, M) => exec C cs ρ0 n ρ (.forr .skip c p b) sp M
            | _ => none
    | .forr i c p b => (exec C cs ρ0 n ρ i sp M).bind fun
        | (.norm, M) => exec C cs ρ0 n ρ (.forr .skip c p b) sp M
        | _ => none
    | .doW b c => (exec C cs ρ0 n ρ b sp M).bind fun
        | (.brk, M) => some (.norm, M)
        | (.ret v, M) => some (.ret v, M)
        | (_, M) => (evalE C (call C cs ρ0 n) ρ c sp M).bind fun (v, M) =>
          if v = 0 then some (.norm, M) else exec C cs ρ0 n ρ (.doW b c) sp M
    | .switch e (.blk b) => if Room C (sp - C.w) then
        (ctype C ρ.kind e).bind fun te => (promote C.w te).bind fun t =>
        (evalE C (call C cs ρ0 n) ρ e sp M).bind fun (v, M) =>
        (match fromLabel (enterCase fun k => (caseConst ρ.kind k).map (conv C t) == some v) b with
          | some b' => execItems C cs ρ0 n ρ b' (sp - C.w) M
          | none => match fromLabel enterDflt b with
            | some b' => execItems C cs ρ0 n ρ b' (sp - C.w) M
            | none => some (.norm, M)).bind fun
        | (.brk, M) => some (.norm, M)
        | r => some r
        else none
    | .case _ s | .dflt s => exec C cs ρ0 n ρ s sp M
    | .brk => some (.brk, M)
    | .cont => some (.cont, M)
    | .ret none => if ρ.rett = .void then some (.ret 0, M) else none
    | .ret (some e) => if scalar C.w ρ.rett then
        (evalE C (call C cs ρ0 n) ρ e sp M).bind fun (v, M) => some (.ret (conv C ρ.rett v), M)
        else none
    | .blk b => execItems C cs ρ0 n ρ b sp M
    | _ => none

/-- Execution of the statements and declarations of a block. -/
def execItems (C : Ctx) (cs : Nat → Option Fun) (ρ0 : Env) : Nat → Env → St → Int → Mem → Option (Out × Mem)
  | 0, _, _, _, _ => none
  | n + 1, ρ, s, sp, M =>
    match s with
    | .bnil => some (.norm, M)
    | .bstmt s rest => (exec C cs ρ0 n ρ s sp M).bind fun
        | (.norm, M) => execItems C cs ρ0 n ρ rest sp M
        | r => some r
    | .bdecl x t init rest =>
        let sp' := sp - words C t * C.w
        let ρ' := ρ.setVar x t sp'
        if C.lim ≤ sp' then
          (match init with
            | none => some (alloc M sp' (sizeof C.w C.T t))
            | some e => (evalE C (call C cs ρ0 n) ρ' e sp' (alloc M sp' (sizeof C.w C.T t))).bind fun (v, M) =>
                storeT C M sp' t (conv C t v)).bind fun M =>
          (execItems C cs ρ0 n ρ' rest sp' M).bind fun (o, M) =>
          some (o, free M sp' (words C t * C.w))
        else none
    | _ => none

/-- A call: the arguments are held in the words from `sp` on, the return address in the word below.  A function that the program does
not define is a library function; it may read three words of arguments. -/
def call (C : Ctx) (cs : Nat → Option Fun) (ρ0 : Env) : Nat → CallF
  | 0, _, _, _, _ => none
  | n + 1, f, vs, sp, M =>
    match cs f with
    | none => if Room C sp ∧ sp + 3 * C.w ≤ (2 ^ (8 * C.w) : Nat) then C.lib f vs M else none
    | some fd =>
    if C.lim + C.w ≤ sp then
      (bindParams C fd.params vs sp { ρ0 with rett := fd.ret } M).bind fun (ρ, M) =>
      (execItems C cs ρ0 n ρ fd.body (sp - C.w) M).bind fun
      | (.ret v, M) => some (v, free M sp (fd.params.length * C.w))
      | (.norm, M) => if fd.ret = .void then some (0, free M sp (fd.params.length * C.w)) else none
      | _ => none
    else none
end

end Verif.Cg.Spec
