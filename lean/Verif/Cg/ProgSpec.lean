import Verif.Cg.Spec
/-! Specification: what is in scope in a program, and in a function of the program. -/
namespace Verif.Cg.Spec
open Verif Verif.Gen Verif.Gen.Spec

/-- A program: its global variables with their places in the block of global variables, its functions
its enumeration constants, and the library functions that are declared (name and return type). -/
structure Program where
  globals : List (Nat × Int × CTy)
  funs : List Fun
  enums : List (Nat × Int)
  libs : List (Nat × CTy) := []

/-- The definition of a function. -/
def Program.fn (p : Program) (f : Nat) : Option Fun := p.funs.find? (·.name = f)

/-- Return type of a function, of the program or of the library. -/
def Program.fnTy (p : Program) (f : Nat) : Option CTy :=
  match p.fn f with
  | some fd => some fd.ret
  | none => (p.libs.find? (·.1 = f)).map (·.2)

/-- What a global identifier denotes. -/
def Program.kind (p : Program) (x : Nat) : Option VK :=
  match p.globals.find? (·.1 = x) with
  | some (_, _, t) => some (.var t)
  | none => match p.fnTy x with
    | some r => some (.fn r)
    | none => (p.enums.find? (·.1 = x)).map fun c => .cst c.2

/-- Address of a global variable, if the block of global variables begins at `G`. -/
def Program.addr (p : Program) (G : Int) (x : Nat) : Int :=
  match p.globals.find? (·.1 = x) with
  | some (_, o, _) => G + o
  | none => 0

/-- The global declarations. -/
def Program.env (p : Program) (G : Int) : Env := ⟨p.kind, p.addr G, .void⟩

/-- The global variables lie in the address space. -/
def Program.InSpace (p : Program) (C : Ctx) (G : Int) : Prop :=
  ∀ v ∈ p.globals, 0 ≤ G + v.2.1 ∧ G + v.2.1 < (2 ^ (8 * C.w) : Nat)

/-- What is in scope inside a function: the variables `vs` (name, type, address), the innermost first, hide the
global declarations. -/
def Env.scope (ρ : Env) (vs : List (Nat × CTy × Int)) : Env :=
  vs.foldr (fun v ρ => ρ.setVar v.1 v.2.1 v.2.2) ρ

/-- A call with a sufficient bound on the depth. -/
def Program.calls (p : Program) (C : Ctx) (G : Int) (f : Nat) (vs : List Int) (sp : Int) (M : Mem) (v : Int) (M' : Mem) : Prop :=
  ∃ n, call C p.fn (p.env G) n f vs sp M = some (v, M')

end Verif.Cg.Spec
