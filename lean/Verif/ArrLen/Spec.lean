import Verif.ArrLen.Model
/-! Specification: the number of elements of an array (C99 6.7.8, paragraphs 14 and 22, without elided braces). -/
namespace Verif.ArrLen.Spec
open Verif

/-- `Elements n i k`: an array declared with length `n` (0: none) and initializer `i` has `k` elements. -/
inductive Elements : Nat → Option Ini → Nat → Prop
  | sized {n} : 0 < n → Elements n none n
  | sizedList {n is} : 0 < n → is.length ≤ n → Elements n (some (.list is)) n
  /-- the null byte at the end need not fit -/
  | sizedStr {n bs} : 0 < n → bs.length ≤ n → Elements n (some (.str bs)) n
  | list {is} : is ≠ [] → Elements 0 (some (.list is)) is.length
  | str {bs} : Elements 0 (some (.str bs)) (bs.length + 1)

/-- What a declaration with this type (`none`: no array) has for a number of elements. -/
inductive Has : Option Nat → Option Ini → Option Nat → Prop
  | other {i} : Has none i none
  | arr {n i k} : Elements n i k → Has (some n) i (some k)

/-- `All h ds ks`: the declarations `ds`, with the types that `h` had at the start, have these numbers of elements. -/
inductive All (h : Nodes) : List (Nat × Option Ini) → List (Option Nat) → Prop
  | nil : All h [] []
  | cons {t i r k ks} : Has (h t) i k → All h r ks → All h ((t, i) :: r) (k :: ks)

/-- No array type without a length is used by two declarators (as in one declaration made with a typedef name). -/
def Unshared (h : Nodes) (ds : List (Nat × Option Ini)) : Prop := ds.Pairwise fun a b => h a.1 = some 0 → a.1 ≠ b.1

end Verif.ArrLen.Spec
