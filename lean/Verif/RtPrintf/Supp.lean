import Verif.RtPrintf.Spec
import Verif.RtPrintf.Model
/-! What the theorems on the shell's `printf` ask of a format and its arguments, beyond C's rules. -/
namespace Verif.RtPrintf

/-- The value of the argument for `*` satisfies a condition. -/
def headInt (args : List Arg) (f : Int → Bool) : Bool :=
  match args with
  | .int v :: _ => f v
  | _ => true

/-- A conversion specification within what `_printf` does as C: no `l`, no `.` alone, no negative
precision by `*`, no negative width by `*` for `c` and none of 0 for `s`; the argument of `o u x X` is not
negative (and in 32 bits), that of `c` is a byte, that of `s` has no newline at its end. -/
def okSpec (sp : Spec) (args : List Arg) : Bool :=
  let args1 := if sp.width = .star then args.tail else args
  let args2 := if sp.prec = .star then args1.tail else args1
  decide (sp.longs = 0) && (!sp.dot || decide (sp.prec ≠ .no)) &&
  (decide (sp.width ≠ .star) || headInt args fun v =>
    (decide (sp.ch ≠ 99) || decide (0 ≤ v)) && (decide (sp.ch ≠ 115) || decide (v ≠ 0))) &&
  (decide (sp.prec ≠ .star) || headInt args1 fun v => decide (0 ≤ v)) &&
  (match args2 with
   | .int v :: _ =>
     (!isUnsigned sp.ch || (decide (0 ≤ v) && decide (v < 2 ^ 32))) &&
     (decide (sp.ch ≠ 99) || (decide (0 ≤ v) && decide (v ≤ 255)))
   | .str s :: _ => decide (s.getLast? ≠ some 10)
   | [] => true)

/-- All the conversion specifications of a format are. -/
def okFmt : Nat → List Nat → List Arg → Bool
  | 0, _, _ => true
  | _ + 1, [], _ => true
  | n + 1, c :: t, args =>
    if c ≠ 37 then okFmt n t args
    else if t.head? = some 37 then okFmt n t.tail args
    else
      match parseSpec t with
      | none => true
      | some q =>
        okSpec q.1 args &&
        match cSpec q.1 args with
        | none => true
        | some x => okFmt n q.2 x.2

/-- A string in memory: its bytes, from 1 to 255, and a 0 after them. -/
def StrAt (m : Mem) : Int → List Nat → Prop
  | a, [] => m a = some 0
  | a, c :: t => 1 ≤ c ∧ c ≤ 255 ∧ m a = some (c : Int) ∧ StrAt m (a + 1) t

/-- The word passed for an argument: the integer, or the address of the string. -/
def WordOf (m : Mem) : Arg → Int → Prop
  | .int v, x => x = v
  | .str s, x => StrAt m x s

/-- The words passed for the arguments. -/
def WordsOf (m : Mem) : List Arg → List Int → Prop
  | [], ws => ws = []
  | a :: as, ws => ∃ w r, ws = w :: r ∧ WordOf m a w ∧ WordsOf m as r

end Verif.RtPrintf
