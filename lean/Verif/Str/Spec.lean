import Verif.Lit.Spec
/-! Specification of string literal contents (C99 6.4.4.4, 6.4.5), independent of the scanner. -/
namespace Verif.Str.Spec
open Verif.Lit.Spec

/-- Simple escapes: letter after the backslash and the byte denoted. -/
def simpleEscapes : List (Nat × Nat) :=
  [(97, 7), (98, 8), (102, 12), (110, 10), (114, 13), (116, 9), (118, 11), (92, 92), (39, 39), (34, 34)]

/-- `Item quote cs b next`: the characters `cs` are one C character item denoting byte `b` when
followed by `next` (the lookahead matters because digits are taken maximally). -/
inductive Item (quote : Nat) : List Nat → Nat → List Nat → Prop
  | plain {c next} : c ≠ 92 → c ≠ quote → c ≠ 10 → c < 256 → Item quote [c] c next
  | simple {e b next} : (e, b) ∈ simpleEscapes → Item quote [92, e] b next
  /-- one to three octal digits, maximal -/
  | oct {cs ds next} : Spells 8 cs ds → 1 ≤ ds.length → ds.length ≤ 3 →
      (ds.length < 3 → Stops 8 next) → value 8 ds < 256 → Item quote (92 :: cs) (value 8 ds) next
  /-- hexadecimal digits, any number, maximal -/
  | hex {cs ds next} : Spells 16 cs ds → 1 ≤ ds.length → Stops 16 next → value 16 ds < 256 →
      Item quote (92 :: 120 :: cs) (value 16 ds) next

/-- `Contents quote cs bs next`: `cs` is the content of a literal denoting `bs`, followed by `next`. -/
inductive Contents (quote : Nat) : List Nat → List Nat → List Nat → Prop
  | nil {next} : Contents quote [] [] next
  | cons {cs b cs' bs next} : Item quote cs b (cs' ++ next) → Contents quote cs' bs next →
      Contents quote (cs ++ cs') (b :: bs) next

/-- The restriction needed for pnut: hexadecimal escapes of at most two digits. -/
inductive ShortHex (quote : Nat) : List Nat → List Nat → List Nat → Prop
  | nil {next} : ShortHex quote [] [] next
  | cons {cs b cs' bs next} : Item quote cs b (cs' ++ next) →
      (∀ t, cs = 92 :: 120 :: t → t.length ≤ 2) → ShortHex quote cs' bs next →
      ShortHex quote (cs ++ cs') (b :: bs) next

end Verif.Str.Spec
