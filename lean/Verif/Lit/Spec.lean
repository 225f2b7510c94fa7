/-! Specification of C integer literals (C99 6.4.4.1), independent of the scanner. -/
namespace Verif.Lit.Spec

/-- The digits `0-9 a-z A-Z` spelled by character codes. -/
inductive IsDigit : Nat → Nat → Prop
  | dec (d : Nat) : d < 10 → IsDigit (48 + d) d
  | lower (d : Nat) : 10 ≤ d → d < 36 → IsDigit (97 + (d - 10)) d
  | upper (d : Nat) : 10 ≤ d → d < 36 → IsDigit (65 + (d - 10)) d

/-- `cs` spells the digit list `ds` in base `b`. -/
inductive Spells (b : Nat) : List Nat → List Nat → Prop
  | nil : Spells b [] []
  | cons {c d cs ds} : IsDigit c d → d < b → Spells b cs ds → Spells b (c :: cs) (d :: ds)

/-- Value of a digit list, most significant digit first. -/
def value (b : Nat) (ds : List Nat) : Nat := ds.foldl (fun v d => v * b + d) 0

/-- The next character, if any, is not a digit of base `b`. -/
def Stops (b : Nat) (rest : List Nat) : Prop := ∀ c d t, rest = c :: t → IsDigit c d → b ≤ d

/-- A C integer literal (without suffix): spelling, base and digits. -/
inductive Literal : List Nat → Nat → List Nat → Prop
  | dec {cs ds} : Spells 10 cs ds → ds.head? ≠ some 0 → ds ≠ [] → Literal cs 10 ds
  | oct {cs ds} : Spells 8 cs ds → Literal (48 :: cs) 8 ds
  | hexl {cs ds} : Spells 16 cs ds → ds ≠ [] → Literal (48 :: 120 :: cs) 16 ds
  | hexu {cs ds} : Spells 16 cs ds → ds ≠ [] → Literal (48 :: 88 :: cs) 16 ds

/-- What follows an octal literal must not turn `0` into a hexadecimal prefix. -/
def Follows (b : Nat) (ds rest : List Nat) : Prop :=
  Stops b rest ∧ (b = 8 → ds = [] → ∀ t, rest ≠ 120 :: t ∧ rest ≠ 88 :: t)

def U (c : Nat) : Prop := c = 117 ∨ c = 85
def L (c : Nat) : Prop := c = 108 ∨ c = 76

/-- An integer suffix (C99 6.4.4.1): its spelling, whether it says unsigned, and how often it says long. -/
inductive Suffix : List Nat → Bool → Nat → Prop
  | none : Suffix [] false 0
  | u {c} : U c → Suffix [c] true 0
  | l {c} : L c → Suffix [c] false 1
  | ll {c} : L c → Suffix [c, c] false 2
  | ul {c d} : U c → L d → Suffix [c, d] true 1
  | lu {c d} : L c → U d → Suffix [c, d] true 1
  | ull {c d} : U c → L d → Suffix [c, d, d] true 2
  | llu {c d} : L c → U d → Suffix [c, c, d] true 2

/-- No further character of a suffix follows. -/
def SuffixEnds (rest : List Nat) : Prop := ∀ c t, rest = c :: t → ¬ U c ∧ ¬ L c

end Verif.Lit.Spec
