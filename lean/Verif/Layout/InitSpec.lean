import Verif.Layout.InitModel
import Verif.Layout.Spec
/-! Specification of initialisation (C99 6.7.8): the value each scalar part must have. -/
namespace Verif.Layout.Spec
open Verif.Layout

def Scalar : Ty → Bool
  | .arr _ _ => false
  | .agg _ _ => false
  | _ => true

def nthInit : Inits → Nat → Option Init
  | .nil, _ => none
  | .cons x _, 0 => some x
  | .cons _ rest, i + 1 => nthInit rest i

/-- The value that initialiser `x` of an object of type `T` prescribes for the part at positions
`p`: its initialiser if it has one, the corresponding part of the copied object (at `src` in memory
`m0`), the corresponding byte of a string, and 0 for parts without initialiser. `none`: nothing is
prescribed (members of a union other than the first). -/
def expected (w : Nat) (sp : List Nat → Int) (m0 : Mem) : Ty → Init → List Nat → Option Int
  | _, .expr v, [] => some v
  | T, .obj src, p => match part T p with
    | some t => some (load m0 (src + partOff w T p) (sizeof w t))
    | none => none
  | .arr _ _, .str bs, [i] => some (bs.getD i 0)
  | .ptr, .str bs, [] => some (sp bs)
  | .arr _ e, .list is, i :: p => match nthInit is i with
    | some x => expected w sp m0 e x p
    | none => some 0
  | .agg false ms, .list is, i :: p => match nthInit is i, nth ms i with
    | some x, some (_, t) => expected w sp m0 t x p
    | none, _ => some 0
    | _, none => none
  | .agg true ms, .list (.cons x .nil), 0 :: p => match nth ms 0 with
    | some (_, t) => expected w sp m0 t x p
    | none => none
  | _, .list (.cons (.expr v) .nil), [] => some v
  | _, .list (.cons (.str bs) .nil), [] => some (sp bs)
  | _, _, _ => none

mutual
/-- The initialiser suits the type (C99 6.7.8 constraints; `{ }` around every nested aggregate, as
pnut requires), copied objects lie outside the object being initialised, `[lo, hi)`, and their
sizes are whole numbers of words. -/
def Fits (w lo hi : Nat) : Init → Ty → Prop
  | .expr _, T => Scalar T
  | .obj src, T => (∃ u ms, T = .agg u ms) ∧ w ∣ sizeof w T ∧ (src + sizeof w T ≤ lo ∨ hi ≤ src)
  | .str bs, T => (∀ b ∈ bs, b < 256) ∧ ((∃ n, T = .arr n .char ∧ bs.length ≤ n) ∨ T = .ptr)
  | .list is, T =>
    match T with
    | .arr n e => FitsAll w lo hi is e n
    | .agg false ms => FitsMs w lo hi is ms
    | .agg true ms => FitsU w lo hi is ms
    | _ => (∃ v, is = .cons (.expr v) .nil) ∨ (∃ bs, is = .cons (.str bs) .nil)
def FitsAll (w lo hi : Nat) : Inits → Ty → Nat → Prop
  | .nil, _, _ => True
  | .cons x rest, e, n => 0 < n ∧ Fits w lo hi x e ∧ FitsAll w lo hi rest e (n - 1)
def FitsMs (w lo hi : Nat) : Inits → Ms → Prop
  | .nil, _ => True
  | .cons _ _, .nil => False
  | .cons x is, .cons _ t rest => Fits w lo hi x t ∧ FitsMs w lo hi is rest
def FitsU (w lo hi : Nat) : Inits → Ms → Prop
  | .cons x .nil, .cons _ t _ => Fits w lo hi x t
  | _, _ => False
end

/-- In memory `m`, the object of type `T` at address `a` has the value that `x` prescribes. -/
def Initialised (w : Nat) (sp : List Nat → Int) (m0 m : Mem) (T : Ty) (a : Nat) (x : Init) : Prop :=
  ∀ p t v, part T p = some t → Scalar t = true → expected w sp m0 T x p = some v →
    (load m (a + partOff w T p) (sizeof w t) : Int) = v % (2 ^ (8 * sizeof w t) : Nat)

end Verif.Layout.Spec
