import Verif.Layout.Model
/-! Specification: the layout rules of the C ABI for the types of the model, written without
reference to the compiler's algorithm, and the notions "part of an object", "separate parts". -/
namespace Verif.Layout.Spec
open Verif.Layout

/-- `n` plus the least padding that makes it a multiple of `a`. -/
def padTo (a n : Nat) : Nat := n + (a - n % a) % a

mutual
/-- Alignment of a type: that of its most aligned scalar. -/
def alignof (w : Nat) : Ty → Nat
  | .void => 1 | .char => 1 | .short => 2 | .int => 4 | .long => 8 | .enum => w | .ptr => w
  | .arr _ t => alignof w t
  | .agg _ ms => alignofMs w ms
def alignofMs (w : Nat) : Ms → Nat
  | .nil => 0
  | .cons _ t rest => Nat.max (alignof w t) (alignofMs w rest)
end

mutual
/-- Size of a type. -/
def sizeof (w : Nat) : Ty → Nat
  | .void => 1 | .char => 1 | .short => 2 | .int => 4 | .long => 8 | .enum => w | .ptr => w
  | .arr n t => n * sizeof w t
  | .agg false ms => padTo (alignofMs w ms) (extent w ms 0)
  | .agg true ms => padTo (alignofMs w ms) (widest w ms)
/-- Members laid out one after the other from offset `o`, each padded to its alignment (a
zero-length array takes no room at all): the offset of the end. -/
def extent (w : Nat) : Ms → Nat → Nat
  | .nil, o => o
  | .cons _ t rest, o =>
    extent w rest (if sizeof w t = 0 then o else padTo (alignof w t) o + sizeof w t)
def widest (w : Nat) : Ms → Nat
  | .nil => 0
  | .cons _ t rest => Nat.max (sizeof w t) (widest w rest)
end

/-- The `i`-th member. -/
def nth : Ms → Nat → Option (Option Nat × Ty)
  | .nil, _ => none
  | .cons n t _, 0 => some (n, t)
  | .cons _ _ rest, i + 1 => nth rest i

/-- End of the member before the `i`-th one, in a struct laid out from offset `o`. -/
def prevEnd (w : Nat) : Ms → Nat → Nat → Nat
  | _, o, 0 => o
  | .nil, o, _ + 1 => o
  | .cons _ t rest, o, i + 1 =>
    prevEnd w rest (if sizeof w t = 0 then o else padTo (alignof w t) o + sizeof w t) i

mutual
/-- The types that can be laid out: no aggregate without members, `long` only with 8-byte words, an
anonymous member is an aggregate. -/
def Legal (w : Nat) : Ty → Prop
  | .long => w = 8
  | .arr _ t => Legal w t
  | .agg _ ms => ms ≠ .nil ∧ LegalMs w ms
  | _ => True
def LegalMs (w : Nat) : Ms → Prop
  | .nil => True
  | .cons n t rest => (n = none → ∃ u ms, t = .agg u ms) ∧ Legal w t ∧ LegalMs w rest
end

/-- The member name `a` of aggregate `T` denotes the part reached by the positions `p` (through
anonymous members), of type `t`. -/
inductive Names (a : Nat) : Ty → List Nat → Ty → Prop
  | here {u ms i t} : nth ms i = some (some a, t) → Names a (.agg u ms) [i] t
  | anon {u ms i T p t} : nth ms i = some (none, T) → Names a T p t →
      Names a (.agg u ms) (i :: p) t

/-- Names are unambiguous, as C requires of the members of an aggregate. -/
def Unambiguous (T : Ty) : Prop :=
  ∀ a p t q t', Names a T p t → Names a T q t' → p = q ∧ t = t'

/-- The access expression `ss` applied to an object of type `T` designates the part at positions
`p` (member positions and in-range indices), of type `t`. -/
inductive Designates : Ty → List Step → List Nat → Ty → Prop
  | nil {T} : Designates T [] [] T
  | mem {T a p t ss q t'} : Names a T p t → Designates t ss q t' →
      Designates T (.mem a :: ss) (p ++ q) t'
  | idx {n T i ss q t'} : i < n → Designates T ss q t' →
      Designates (.arr n T) (.idx i :: ss) (i :: q) t'

/-- Two parts separated by C: they part ways at a struct or at an array (not at a union). -/
inductive Apart : Ty → List Nat → List Nat → Prop
  | fld {ms i j p q} : i ≠ j → Apart (.agg false ms) (i :: p) (j :: q)
  | elt {n t i j p q} : i ≠ j → Apart (.arr n t) (i :: p) (j :: q)
  | inFld {u ms i nm t p q} : nth ms i = some (nm, t) → Apart t p q →
      Apart (.agg u ms) (i :: p) (i :: q)
  | inElt {n t i p q} : Apart t p q → Apart (.arr n t) (i :: p) (i :: q)

/-- The accesses that pnut's address computation supports: on a union, the member is named directly
(it is not inside an anonymous member); the elements of an indexed array are not arrays. -/
def Direct : Ty → List Step → Prop
  | _, [] => True
  | T, .mem a :: ss =>
      (∀ ms, T = .agg true ms → ∀ p t, Names a T p t → p.length = 1) ∧
      ∀ p t, Names a T p t → Direct t ss
  | T, .idx _ :: ss => ∀ n t, T = .arr n t → (∀ m e, t ≠ .arr m e) ∧ Direct t ss

/-- The type of the part at positions `p`. -/
def part : Ty → List Nat → Option Ty
  | T, [] => some T
  | .arr n t, i :: p => if i < n then part t p else none
  | .agg _ ms, i :: p => match nth ms i with
    | some (_, t) => part t p
    | none => none
  | _, _ :: _ => none

/-- Where pnut puts the part at positions `p`: in a struct, right after the previous member. -/
def partOff (w : Nat) : Ty → List Nat → Nat
  | _, [] => 0
  | .arr _ t, i :: p => i * sizeof w t + partOff w t p
  | .agg u ms, i :: p => match nth ms i with
    | some (_, t) => (if u then 0 else prevEnd w ms 0 i) + partOff w t p
    | none => 0
  | _, _ :: _ => 0

/-- Where the C ABI puts it: at the next multiple of its alignment. -/
def abiOff (w : Nat) : Ty → List Nat → Nat
  | _, [] => 0
  | .arr _ t, i :: p => i * sizeof w t + abiOff w t p
  | .agg u ms, i :: p => match nth ms i with
    | some (_, t) => (if u then 0 else padTo (alignof w t) (prevEnd w ms 0 i)) + abiOff w t p
    | none => 0
  | _, _ :: _ => 0

mutual
/-- No padding is needed between the members of any struct in the type. -/
def Dense (w : Nat) : Ty → Prop
  | .arr _ t => Dense w t
  | .agg u ms => DenseMs w u ms 0
  | _ => True
def DenseMs (w : Nat) (u : Bool) : Ms → Nat → Prop
  | .nil, _ => True
  | .cons _ t rest, o =>
    Dense w t ∧ (u = false → alignof w t ∣ o) ∧ DenseMs w u rest (if u then 0 else o + sizeof w t)
end

end Verif.Layout.Spec
