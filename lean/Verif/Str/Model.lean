import Verif.Lit.Model
/-! Model of string and character literal scanning (pnut.c:1047-1110, 2213-2240).
The input list's head is `ch`, the empty list is `ch == EOF`. Characters are 0..255 as returned by
`fgetc`. -/
namespace Verif.Str
open Verif Verif.Lit

/-- pnut.c:1019-1045 `accum_digit(base)` for a few digits: accumulated value (the C code keeps it
negated in `val`, or positive in `val_32`; both give the same `DIGIT_BYTE`), `none` when the current
character is not a digit. At most 3 digits, so no overflow. -/
def accumDigit (base : Nat) (v : Nat) : List Nat → Option (Nat × List Nat)
  | [] => none
  | c :: inp => if digitOf c ≥ base then none else some (v * base + digitOf c, inp)

/-- `accum_digit(base);` with the result ignored. -/
def tryDigit (base : Nat) (p : Nat × List Nat) : Nat × List Nat :=
  (accumDigit base p.1 p.2).getD p

/-- pnut.c:1047-1095 `get_string_char`: returns `val` and the remaining input.
On the empty input `val = EOF`, which no caller does. -/
def getStringChar : List Nat → Res (Nat × List Nat)
  | [] => .ub
  | c :: inp =>
    if c ≠ 92 then .ok (c, inp)
    else match inp with
      | [] => .fatal
      | e :: inp1 =>
        if 48 ≤ e ∧ e ≤ 55 then
          let p := tryDigit 8 (tryDigit 8 (tryDigit 8 (0, e :: inp1)))
          .ok (p.1 % 256, p.2)
        else if e = 120 ∨ e = 88 then
          match accumDigit 16 0 inp1 with
          | none => .fatal
          | some p => let q := tryDigit 16 p; .ok (q.1 % 256, q.2)
        else if e = 97 then .ok (7, inp1)
        else if e = 98 then .ok (8, inp1)
        else if e = 102 then .ok (12, inp1)
        else if e = 110 then .ok (10, inp1)
        else if e = 114 then .ok (13, inp1)
        else if e = 116 then .ok (9, inp1)
        else if e = 118 then .ok (11, inp1)
        else if e = 92 ∨ e = 39 ∨ e = 34 then .ok (e, inp1)
        else .fatal

/-- pnut.c:1097-1110 `accum_string_until(end)`: the bytes appended to the pool and the remaining
input.  `fuel` bounds the loop; each iteration consumes a character so `inp.length` suffices
(see `accumUntil_fuel`). -/
def accumUntilF : Nat → Nat → List Nat → Res (List Nat × List Nat)
  | 0, _, _ => .diverge
  | _ + 1, _, [] => .fatal
  | fuel + 1, stop, c :: inp =>
    if c = stop then .ok ([], inp)
    else (getStringChar (c :: inp)).bind fun (v, r) =>
      (accumUntilF fuel stop r).bind fun (bs, r') => .ok (v :: bs, r')

def accumUntil (stop : Nat) (inp : List Nat) : Res (List Nat × List Nat) :=
  accumUntilF (inp.length + 1) stop inp

/-- pnut.c:2229-2240: a string literal, after the opening quote. -/
def scanString (inp : List Nat) : Res (List Nat × List Nat) := accumUntil 34 inp

/-- pnut.c:2213-2227: a character literal, after the opening quote. -/
def scanChar (inp : List Nat) : Res (Nat × List Nat) :=
  match inp with
  | [] => .fatal
  | _ => (getStringChar inp).bind fun (v, r) =>
    match r with
    | 39 :: r' => .ok (v, r')
    | _ => .fatal

end Verif.Str
