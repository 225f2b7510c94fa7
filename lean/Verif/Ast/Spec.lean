import Verif.Ast.Model
/-! Specification: a store of independent records. -/
namespace Verif.Ast.Spec
open Verif.Ast (Op)

/-- A node as an immutable record: operator, number of children, and its slots (the children, or
the single value when there is no child). -/
structure Node where
  op : Int
  nb : Nat
  slots : List Int
  deriving Repr, DecidableEq

/-- What each operation should do on a list of records: only the designated record changes. -/
def step (ns : List Node) : Op → List Node
  | .new0 op v => ns ++ [⟨op, 0, [v]⟩]
  | .new1 op a => ns ++ [⟨op, 1, [a]⟩]
  | .new2 op a b => ns ++ [⟨op, 2, [a, b]⟩]
  | .new3 op a b c => ns ++ [⟨op, 3, [a, b, c]⟩]
  | .new4 op a b c d => ns ++ [⟨op, 4, [a, b, c, d]⟩]
  | .set n i v => ns.modify n (fun x => { x with slots := x.slots.set i v })
  | .clone n => match ns[n]? with
    | some x => ns ++ [x]
    | none => ns

def run (ns : List Node) (os : List Op) : List Node := os.foldl step ns

/-- Operator codes fit in 10 bits, and updates stay within the slots of an existing node. -/
def Legal (ns : List Node) : Op → Prop
  | .new0 op _ | .new1 op _ | .new2 op _ _ | .new3 op _ _ _ | .new4 op _ _ _ _ => 0 ≤ op ∧ op < 1024
  | .set n i _ => ∃ x, ns[n]? = some x ∧ i < x.slots.length
  | .clone n => n < ns.length

def LegalRun (ns : List Node) : List Op → Prop
  | [] => True
  | o :: os => Legal ns o ∧ LegalRun (step ns o) os

end Verif.Ast.Spec
