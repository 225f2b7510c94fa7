import Verif.Code.Props
/-! Model of named labels: `codegen_goto` (exe.c:1219-1232), labelled statements (exe.c:2323-2333), `cgc_add_goto_label` and `cgc_lookup_goto_label` (env.c:36-44, 88-90, 221-228) and the scope of `cgc_locals_fun` (exe.c:2375, 2415), on top of the code buffer of C28.

Simplifications: everything else that the code generator does is a sequence of the other operations of the code buffer (with labels that it has allocated itself) and of allocations in the heap; of `cgc_locals_fun` only the bindings of labels are kept (the lookup passes over
the others). -/
namespace Verif.Goto
open Verif Verif.Code

/-- What the code generator does in a function. -/
inductive Ev where
  | emit (b : Int)
  | use (l : Nat)
  | defl (l : Nat)
  | setfs (v : Int)
  /-- another allocation of `n` words (`alloc_obj`, pnut.c:332-344; the end of the heap is not modelled) -/
  | alloc (n : Nat)
  | goto (x : Nat)
  | label (x : Nat)
  deriving DecidableEq

/-- `cgc_locals_fun` (the latest binding first: name, label) and `heap_alloc`. -/
structure T where
  env : List (Nat × Nat)
  next : Nat
  deriving DecidableEq

/-- `cgc_lookup_goto_label` (env.c:88-90, 36-44). -/
def lookup : List (Nat × Nat) → Nat → Option Nat
  | [], _ => none
  | (y, l) :: r, x => if y = x then some l else lookup r x

/-- The label for a name, allocated if it is new (exe.c:1222-1229, 2325-2330): `alloc_goto_label` takes 3 words (exe.c:422-429), the binding 5 (env.c:222). -/
def labelOf (x : Nat) (t : T) : Nat × T :=
  match lookup t.env x with
  | some l => (l, t)
  | none => (t.next, ⟨(x, t.next) :: t.env, t.next + 3 + 5⟩)

/-- One event: the operation on the code buffer. -/
def step : Ev → T → List Op × T
  | .emit b, t => ([.emit b], t)
  | .use l, t => ([.use l], t)
  | .defl l, t => ([.defl l], t)
  | .setfs v, t => ([.setfs v], t)
  | .alloc n, t => ([], { t with next := t.next + n })
  | .goto x, t => ([.goto (labelOf x t).1], (labelOf x t).2)
  | .label x, t => ([.defg (labelOf x t).1], (labelOf x t).2)

/-- The events of a function, in order. -/
def steps : List Ev → T → List Op × T
  | [], t => ([], t)
  | e :: es, t => let (o, t1) := step e t; let (os, t2) := steps es t1; (o ++ os, t2)

/-- `codegen_glo_fun_decl` (exe.c:2367-2416): `cgc_locals_fun` is restored at the end. -/
def function (es : List Ev) (t : T) : List Op × T := let (os, t') := steps es t; (os, { t' with env := t.env })

def functions : List (List Ev) → T → List Op × T
  | [], t => ([], t)
  | f :: fs, t => let (o, t1) := function f t; let (os, t2) := functions fs t1; (o ++ os, t2)

/-- The operations of a program; at the start there are no labels (`n`: `heap_alloc`). -/
def ops (n : Nat) (fs : List (List Ev)) : List Op := (functions fs ⟨[], n⟩).1

/-- `heap[lbl]` (exe.c:424): the labels that `alloc_goto_label` has made. Simplification: those that are used (each one is used as soon as it is made). -/
def kind (os : List Op) (l : Nat) : Kind := if os.any fun o => o = .goto l ∨ o = .defg l then .goto else .generic

/-- The code generator. -/
def compile (w n : Nat) (fs : List (List Ev)) : Res S := run w (kind (ops n fs)) (ops n fs) S.init

/-- The labels that `assert_all_labels_defined` looks at (exe.c:376-393, `SAFE_MODE`), of those with names. -/
def labels (os : List Op) : List Nat := os.filterMap fun | .goto l => some l | .defg l => some l | _ => none

end Verif.Goto
