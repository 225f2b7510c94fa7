import Verif.Lex.Spec
/-! Specification for line continuations: phase 2 of C is `Lex.Spec.splice`. -/
namespace Verif.Cont.Spec

/-- A line ends in two, four, ... backslashes. -/
def EvenEnd (file : List Nat) : Prop := ∃ pre k post, file = pre ++ List.replicate (2 * k + 2) 92 ++ 10 :: post ∧ pre.getLast? ≠ some 92

/-- The file with lines joined the way pnut does it: a backslash and the character behind it are taken together; both go if it is a line end. -/
def joined : List Nat → List Nat
  | 92 :: c :: r => if c = 10 then joined r else 92 :: c :: joined r
  | c :: r => c :: joined r
  | [] => []

/-- The number of the line on which the next character stands, after `pre`. -/
def lineAfter (pre : List Nat) : Nat := 1 + pre.count 10

end Verif.Cont.Spec
