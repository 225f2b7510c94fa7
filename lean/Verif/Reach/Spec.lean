import Verif.Cg.ProgSpec
/-! Specification: what a C program does on the way, whether or not it ever comes to an end.

`Cg.Spec.evalE`, `exec` and `call` say what an expression, statement or call does when it completes.  Here `Leads a b` says that a C implementation carrying out `a` comes to carry out `b`, a part of it:
everything in `a` that precedes `b` has completed, as `evalE` and `exec` say, with the memory that `b` starts from (the order of evaluation and the places of variables are those of `Cg.Spec`).
So a program that loops for ever, or calls `exit`, is described by what it reaches. -/
namespace Verif.Reach.Spec
open Verif Verif.Gen Verif.Gen.Spec Verif.Cg Verif.Cg.Spec

/-- Something that is being carried out, from the memory `M` on, with the stack pointer `sp`. -/
inductive Act where
  /-- finding the value of an expression -/
  | rv (ρ : Env) (e : E) (sp : Int) (M : Mem)
  /-- finding the object that an expression designates -/
  | lv (ρ : Env) (e : E) (sp : Int) (M : Mem)
  /-- finding the values of the arguments of a call -/
  | ar (ρ : Env) (e : E) (sp : Int) (M : Mem)
  /-- a statement -/
  | st (ρ : Env) (s : St) (sp : Int) (M : Mem)
  /-- the rest of the statements and declarations of a block -/
  | it (ρ : Env) (s : St) (sp : Int) (M : Mem)
  /-- a `for` statement (condition, step, body), at the test of its condition -/
  | lp (ρ : Env) (c : Option E) (p b : St) (sp : Int) (M : Mem)
  /-- a call of the function `f`; the arguments are in the words from `sp` on -/
  | fn (f : Nat) (vs : List Int) (sp : Int) (M : Mem)

/-- The operand whose value is found first, with nothing before it. -/
def firstE : E → Option E
  | .deref e | .neg e | .bnot e | .plus e | .paren e | .arrow e _ => some e
  | .bin _ a _ | .comma a _ | .index a _ | .land a _ | .lor a _ | .cond a _ _ => some a
  | _ => none
/-- The operand that is needed as an object, first. -/
def firstL : E → Option E
  | .addr e | .incdec _ _ e | .dot e _ => some e
  | .assign a _ | .opassign _ a _ => some a
  | _ => none
/-- Operators that need the values of both operands, the left one first. -/
def both : E → Option (E × E)
  | .bin _ a b | .comma a b | .index a b => some (a, b)
  | _ => none
/-- The parts of an expression that designates an object: an operand whose value is needed, or an object. -/
def inValue : E → Option E
  | .deref e | .arrow e _ => some e
  | .index a _ => some a
  | _ => none
def inObject : E → Option E
  | .paren e | .dot e _ => some e
  | _ => none

/-- The loop goes on after its body has ended like this. -/
def goesOn : Out → Bool
  | .norm | .cont => true
  | _ => false

/-- The condition of a `for` statement: the value (not zero if it is left out), and the memory afterwards. -/
def forCond (C : Ctx) (cf : CallF) (ρ : Env) : Option E → Int → Mem → Option (Int × Mem)
  | some c, sp, M => evalE C cf ρ c sp M
  | none, _, M => some (1, M)

variable (C : Ctx) (cs : Nat → Option Fun) (ρ0 : Env)

inductive Leads : Act → Act → Prop
  -- values
  | first {ρ e a sp M} : Room C sp → firstE e = some a → Leads (.rv ρ e sp M) (.rv ρ a sp M)
  | cast {ρ t e sp M} : Room C sp → scalar C.w t = true → Leads (.rv ρ (.cast t e) sp M) (.rv ρ e sp M)
  | object {ρ e a sp M} : Room C sp → firstL e = some a → Leads (.rv ρ e sp M) (.lv ρ a sp M)
  | lnot {ρ e sp M} : Room C sp → Leads (.rv ρ (.lnot e) sp M) (.rv ρ e (sp - C.w) M)
  | right {n ρ e a b sp M va M1} : Room C sp → both e = some (a, b) → evalE C (call C cs ρ0 n) ρ a sp M = some (va, M1) →
      Leads (.rv ρ e sp M) (.rv ρ b (sp - C.w) M1)
  | assign {n ρ a b sp M t pa M1} : Room C sp → ctype C ρ.kind a = some t → scalar C.w t = true → evalL C (call C cs ρ0 n) ρ a sp M = some (pa, M1) →
      Leads (.rv ρ (.assign a b) sp M) (.rv ρ b (sp - C.w) M1)
  | opassign {n ρ op a b sp M t pa M1 va} : Room C sp → ctype C ρ.kind a = some t → evalL C (call C cs ρ0 n) ρ a sp M = some (pa, M1) → loadT C M1 pa t = some va →
      Leads (.rv ρ (.opassign op a b) sp M) (.rv ρ b (sp - 2 * C.w) M1)
  | land {n ρ a b sp M va M1} : Room C sp → evalE C (call C cs ρ0 n) ρ a sp M = some (va, M1) → va ≠ 0 → Leads (.rv ρ (.land a b) sp M) (.rv ρ b sp M1)
  | lor {n ρ a b sp M M1} : Room C sp → evalE C (call C cs ρ0 n) ρ a sp M = some (0, M1) → Leads (.rv ρ (.lor a b) sp M) (.rv ρ b sp M1)
  | condT {n ρ c a b sp M v M1} : Room C sp → evalE C (call C cs ρ0 n) ρ c sp M = some (v, M1) → v ≠ 0 → Leads (.rv ρ (.cond c a b) sp M) (.rv ρ a sp M1)
  | condF {n ρ c a b sp M M1} : Room C sp → evalE C (call C cs ρ0 n) ρ c sp M = some (0, M1) → Leads (.rv ρ (.cond c a b) sp M) (.rv ρ b sp M1)
  | args {ρ f as sp M} : Room C sp → Leads (.rv ρ (.call f as) sp M) (.ar ρ as sp M)
  | call {n ρ f as sp M vs M1} : Room C sp → evalA C (call C cs ρ0 n) ρ as sp M = some (vs, M1) →
      Leads (.rv ρ (.call f as) sp M) (.fn f vs (sp - nargs as * C.w) M1)
  -- objects
  | value {ρ e a sp M} : Room C sp → inValue e = some a → Leads (.lv ρ e sp M) (.rv ρ a sp M)
  | inner {ρ e a sp M} : Room C sp → inObject e = some a → Leads (.lv ρ e sp M) (.lv ρ a sp M)
  | index {n ρ a b sp M va M1} : Room C sp → evalE C (call C cs ρ0 n) ρ a sp M = some (va, M1) → Leads (.lv ρ (.index a b) sp M) (.rv ρ b (sp - C.w) M1)
  -- arguments, the last one first
  | others {ρ e es sp M} : Leads (.ar ρ (.acons e es) sp M) (.ar ρ es sp M)
  | arg {n ρ e es sp M vs M1} : evalA C (call C cs ρ0 n) ρ es sp M = some (vs, M1) → Leads (.ar ρ (.acons e es) sp M) (.rv ρ e (sp - nargs es * C.w) M1)
  -- statements
  | expr {ρ e sp M} : Leads (.st ρ (.expr e) sp M) (.rv ρ e sp M)
  | ifC {ρ c a b sp M} : Leads (.st ρ (.ifte c a b) sp M) (.rv ρ c sp M)
  | ifT {n ρ c a b sp M v M1} : evalE C (call C cs ρ0 n) ρ c sp M = some (v, M1) → v ≠ 0 → Leads (.st ρ (.ifte c a b) sp M) (.st ρ a sp M1)
  | ifF {n ρ c a b sp M M1} : evalE C (call C cs ρ0 n) ρ c sp M = some (0, M1) → Leads (.st ρ (.ifte c a b) sp M) (.st ρ b sp M1)
  | whileC {ρ c b sp M} : Leads (.st ρ (.whil c b) sp M) (.rv ρ c sp M)
  | whileB {n ρ c b sp M v M1} : evalE C (call C cs ρ0 n) ρ c sp M = some (v, M1) → v ≠ 0 → Leads (.st ρ (.whil c b) sp M) (.st ρ b sp M1)
  | whileN {n ρ c b sp M v M1 o M2} : evalE C (call C cs ρ0 n) ρ c sp M = some (v, M1) → v ≠ 0 → exec C cs ρ0 n ρ b sp M1 = some (o, M2) → goesOn o = true →
      Leads (.st ρ (.whil c b) sp M) (.st ρ (.whil c b) sp M2)
  | forI {ρ i c p b sp M} : Leads (.st ρ (.forr i c p b) sp M) (.st ρ i sp M)
  | forL {n ρ i c p b sp M M1} : exec C cs ρ0 n ρ i sp M = some (.norm, M1) → Leads (.st ρ (.forr i c p b) sp M) (.lp ρ c p b sp M1)
  | forC {ρ c p b sp M} : Leads (.lp ρ (some c) p b sp M) (.rv ρ c sp M)
  | forB {n ρ c p b sp M v M1} : forCond C (call C cs ρ0 n) ρ c sp M = some (v, M1) → v ≠ 0 → Leads (.lp ρ c p b sp M) (.st ρ b sp M1)
  | forS {n ρ c p b sp M v M1 o M2} : forCond C (call C cs ρ0 n) ρ c sp M = some (v, M1) → v ≠ 0 → exec C cs ρ0 n ρ b sp M1 = some (o, M2) → goesOn o = true →
      Leads (.lp ρ c p b sp M) (.st ρ p sp M2)
  | forN {n ρ c p b sp M v M1 o M2 M3} : forCond C (call C cs ρ0 n) ρ c sp M = some (v, M1) → v ≠ 0 → exec C cs ρ0 n ρ b sp M1 = some (o, M2) → goesOn o = true →
      exec C cs ρ0 n ρ p sp M2 = some (.norm, M3) → Leads (.lp ρ c p b sp M) (.lp ρ c p b sp M3)
  | doB {ρ b c sp M} : Leads (.st ρ (.doW b c) sp M) (.st ρ b sp M)
  | doC {n ρ b c sp M o M1} : exec C cs ρ0 n ρ b sp M = some (o, M1) → goesOn o = true → Leads (.st ρ (.doW b c) sp M) (.rv ρ c sp M1)
  | doN {n ρ b c sp M o M1 v M2} : exec C cs ρ0 n ρ b sp M = some (o, M1) → goesOn o = true → evalE C (call C cs ρ0 n) ρ c sp M1 = some (v, M2) → v ≠ 0 →
      Leads (.st ρ (.doW b c) sp M) (.st ρ (.doW b c) sp M2)
  | switchE {ρ e b sp M} : Leads (.st ρ (.switch e b) sp M) (.rv ρ e sp M)
  | switchC {n ρ e b sp M te t v M1 b'} : Room C (sp - C.w) → ctype C ρ.kind e = some te → promote C.w te = some t → evalE C (call C cs ρ0 n) ρ e sp M = some (v, M1) →
      fromLabel (enterCase fun k => (caseConst ρ.kind k).map (conv C t) == some v) b = some b' → Leads (.st ρ (.switch e (.blk b)) sp M) (.it ρ b' (sp - C.w) M1)
  | switchD {n ρ e b sp M te t v M1 b'} : Room C (sp - C.w) → ctype C ρ.kind e = some te → promote C.w te = some t → evalE C (call C cs ρ0 n) ρ e sp M = some (v, M1) →
      fromLabel (enterCase fun k => (caseConst ρ.kind k).map (conv C t) == some v) b = none → fromLabel enterDflt b = some b' →
      Leads (.st ρ (.switch e (.blk b)) sp M) (.it ρ b' (sp - C.w) M1)
  | case {ρ e s sp M} : Leads (.st ρ (.case e s) sp M) (.st ρ s sp M)
  | dflt {ρ s sp M} : Leads (.st ρ (.dflt s) sp M) (.st ρ s sp M)
  | ret {ρ e sp M} : Leads (.st ρ (.ret (some e)) sp M) (.rv ρ e sp M)
  | blk {ρ b sp M} : Leads (.st ρ (.blk b) sp M) (.it ρ b sp M)
  -- blocks
  | stmt {ρ s rest sp M} : Leads (.it ρ (.bstmt s rest) sp M) (.st ρ s sp M)
  | rest {n ρ s rest sp M M1} : exec C cs ρ0 n ρ s sp M = some (.norm, M1) → Leads (.it ρ (.bstmt s rest) sp M) (.it ρ rest sp M1)
  | init {ρ x t e rest sp M} : C.lim ≤ sp - words C t * C.w → scalar C.w t = true →
      Leads (.it ρ (.bdecl x t (some e) rest) sp M) (.rv (ρ.setVar x t (sp - words C t * C.w)) e (sp - words C t * C.w) (alloc M (sp - words C t * C.w) (sizeof C.w C.T t)))
  | decl {ρ x t rest sp M} : C.lim ≤ sp - words C t * C.w →
      Leads (.it ρ (.bdecl x t none rest) sp M) (.it (ρ.setVar x t (sp - words C t * C.w)) rest (sp - words C t * C.w) (alloc M (sp - words C t * C.w) (sizeof C.w C.T t)))
  | declI {n ρ x t e rest sp M v M1 M2} : C.lim ≤ sp - words C t * C.w →
      evalE C (call C cs ρ0 n) (ρ.setVar x t (sp - words C t * C.w)) e (sp - words C t * C.w) (alloc M (sp - words C t * C.w) (sizeof C.w C.T t)) = some (v, M1) →
      storeT C M1 (sp - words C t * C.w) t (conv C t v) = some M2 →
      Leads (.it ρ (.bdecl x t (some e) rest) sp M) (.it (ρ.setVar x t (sp - words C t * C.w)) rest (sp - words C t * C.w) M2)
  -- calls of functions of the program
  | body {f fd vs sp M ρ M1} : cs f = some fd → C.lim + C.w ≤ sp → bindParams C fd.params vs sp { ρ0 with rett := fd.ret } M = some (ρ, M1) →
      Leads (.fn f vs sp M) (.it ρ fd.body (sp - C.w) M1)

/-- Going on like that, a C implementation carrying out `a` comes to `b`. -/
inductive Reaches : Act → Act → Prop
  | here {a} : Reaches a a
  | step {a b c} : Leads C cs ρ0 a b → Reaches b c → Reaches a c

end Verif.Reach.Spec
