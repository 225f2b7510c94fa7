import Verif.Cg.Sup
/-! The fragment of C for which the theorems hold: statements and functions. -/
namespace Verif.Cg
open Verif Verif.Gen Verif.Gen.Spec Spec

def isExprSt : St → Bool
  | .skip | .expr _ => true
  | _ => false

/-- No `continue` for the loop whose body this is (pnut's `do` loops go to the start of the body). -/
def noCont : St → Bool
  | .cont => false
  | .ifte _ a b => noCont a && noCont b
  | .switch _ b => noCont b
  | .case _ s | .dflt s | .blk s => noCont s
  | .bstmt s r => noCont s && noCont r
  | .bdecl _ _ _ r => noCont r
  | _ => true

/-- A `case` label of a `switch` on a value of type `te`. -/
def caseOk (C : Ctx) (κ : Nat → Option VK) (te : CTy) (e : E) : Bool :=
  match caseConst κ e, promote C.w te with
  | some c, some t => wrapOk C t || decide (0 ≤ c)
  | _, _ => false

/-- A local variable comes into scope (where it is does not matter here). -/
def setLocal (Γ : Env) (x : Nat) (t : CTy) : Env := { Γ with locals := ⟨x, 0, t, false⟩ :: Γ.locals }
def setKind (κ : Nat → Option VK) (x : Nat) (t : CTy) : Nat → Option VK := fun y => if y = x then some (.var t) else κ y

/-- Types of local variables: pnut takes one word for a `long`. -/
def declOk (C : Ctx) : CTy → Bool
  | .long _ => decide (C.w = 8)
  | _ => true

/-- Supported statements and lists of statements of a function that returns `rett`; `lab` is the type of the
operand of `switch` if labels may stand here. -/
def SupS (C : Ctx) (rett : CTy) : St → Option CTy → Env → (Nat → Option VK) → Bool
  | .skip, _, _, _ | .brk, _, _, _ | .cont, _, _, _ | .ret none, _, _, _ | .bnil, _, _, _ => true
  | .expr e, _, Γ, κ => Sup C Γ κ (.low 0) e
  | .ifte c a b, _, Γ, κ => Sup C Γ κ .test c && SupS C rett a none Γ κ && SupS C rett b none Γ κ
  | .whil c b, _, Γ, κ => Sup C Γ κ .test c && SupS C rett b none Γ κ
  | .forr i c p b, _, Γ, κ => isExprSt i && isExprSt p && SupS C rett i none Γ κ && SupS C rett p none Γ κ &&
      (match c with | some c => Sup C Γ κ .test c | none => true) && SupS C rett b none Γ κ
  | .doW b c, _, Γ, κ => SupS C rett b none Γ κ && Sup C Γ κ .test c && noCont b
  | .switch e (.blk b), _, Γ, κ => Sup C Γ κ (.low C.w) e &&
      (match ctype C κ e with | some te => SupS C rett b (some te) Γ κ | none => false)
  | .switch _ _, _, _, _ => false
  | .case e s, lab, Γ, κ => (match lab with | some te => caseOk C κ te e | none => false) && SupS C rett s lab Γ κ
  | .dflt s, lab, Γ, κ => lab.isSome && SupS C rett s lab Γ κ
  | .ret (some e), _, Γ, κ => Sup C Γ κ (.low C.w) e &&
      (match ctype C κ e with | some te => convOk C (decay te) rett | none => false)
  | .blk b, _, Γ, κ => SupS C rett b none Γ κ
  | .bstmt s rest, lab, Γ, κ => SupS C rett s lab Γ κ && SupS C rett rest lab Γ κ
  | .bdecl x t init rest, lab, Γ, κ => lab.isNone && declOk C t &&
      (match init with | some e => Sup C (setLocal Γ x t) (setKind κ x t) (.low (sizeof C.w C.T t)) e | none => true) &&
      SupS C rett rest none (setLocal Γ x t) (setKind κ x t)

/-- The parameters come into scope. -/
def paramEnv (Γ : Env) : List (Nat × CTy) → Env
  | [] => Γ
  | (x, t) :: ps => paramEnv { Γ with locals := ⟨x, 0, decay t, true⟩ :: Γ.locals } ps
def paramKind (κ : Nat → Option VK) : List (Nat × CTy) → (Nat → Option VK)
  | [] => κ
  | (x, t) :: ps => paramKind (setKind κ x (decay t)) ps

/-- Supported functions. -/
def SupF (C : Ctx) (Γ : Env) (κ : Nat → Option VK) (f : Fun) : Bool :=
  SupS C f.ret f.body none (paramEnv { Γ with locals := [], loops := [] } f.params) (paramKind κ f.params)

end Verif.Cg
