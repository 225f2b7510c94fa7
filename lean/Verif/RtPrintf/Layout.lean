import Verif.Base
/-! How a conversion is laid out for given flags, width and precision (C99 7.19.6.1 paragraphs 4-8; POSIX
XBD 5 "File Format Notation", to which the `printf` utility refers, prescribes the same layouts).  This
is neither code of pnut nor the specification of a property: both the C library function and the shell
utility are described with it.  Texts are lists of bytes. -/
namespace Verif.RtPrintf

structure Flags where
  minus : Bool
  plus : Bool
  space : Bool
  alt : Bool
  zero : Bool
  deriving DecidableEq, Repr

/-- The flags given by a list of flag characters. -/
def Flags.of (l : List Nat) : Flags :=
  ⟨decide (45 ∈ l), decide (43 ∈ l), decide (32 ∈ l), decide (35 ∈ l), decide (48 ∈ l)⟩

def isFlag (c : Nat) : Bool := c = 32 ∨ c = 35 ∨ c = 43 ∨ c = 45 ∨ c = 48
def isDigit (c : Nat) : Bool := 48 ≤ c ∧ c ≤ 57
/-- `d`, `i`. -/
def isSigned (c : Nat) : Bool := c = 100 ∨ c = 105
/-- `o`, `u`, `x`, `X`. -/
def isUnsigned (c : Nat) : Bool := c = 111 ∨ c = 117 ∨ c = 120 ∨ c = 88

def digitChar (upper : Bool) (d : Nat) : Nat :=
  if d < 10 then 48 + d else if upper then 55 + d else 87 + d

def digitsAux : Nat → Nat → Bool → Nat → List Nat → List Nat
  | 0, _, _, _, acc => acc
  | k + 1, b, up, n, acc => if n = 0 then acc else digitsAux k b up (n / b) (digitChar up (n % b) :: acc)

/-- The digits of a number in a base, without leading zeros (none for 0). -/
def digits (b : Nat) (upper : Bool) (n : Nat) : List Nat := digitsAux n b upper n []

/-- The decimal text of a number. -/
def showNat (n : Nat) : List Nat := if n = 0 then [48] else digits 10 false n
def showInt (v : Int) : List Nat := if v < 0 then 45 :: showNat v.natAbs else showNat v.natAbs

/-- The number written by decimal digits. -/
def decVal (ds : List Nat) : Nat := ds.foldl (fun a d => 10 * a + (d - 48)) 0

def base (ch : Nat) : Nat := if ch = 111 then 8 else if ch = 120 ∨ ch = 88 then 16 else 10

/-- A field: prefix, body, filled to the width with spaces on the left, on the right or with zeros
between the prefix and the body. -/
def field (fl : Flags) (zeros : Bool) (w : Nat) (pre body : List Nat) : List Nat :=
  let fill := w - (pre.length + body.length)
  if fl.minus then pre ++ body ++ List.replicate fill 32
  else if zeros then pre ++ List.replicate fill 48 ++ body
  else List.replicate fill 32 ++ pre ++ body

/-- An integer, given by its sign and magnitude, by `d i o u x X`. -/
def layInt (fl : Flags) (w : Nat) (p : Option Nat) (ch : Nat) (neg : Bool) (mag : Nat) : List Nat :=
  let ds := digits (base ch) (decide (ch = 88)) mag
  let body := List.replicate (p.getD 1 - ds.length) 48 ++ ds
  let body := if fl.alt ∧ ch = 111 ∧ body.head? ≠ some 48 then 48 :: body else body
  let pre :=
    if isSigned ch then (if neg then [45] else if fl.plus then [43] else if fl.space then [32] else [])
    else if fl.alt ∧ mag ≠ 0 ∧ (ch = 120 ∨ ch = 88) then [48, ch] else []
  field fl (fl.zero && p.isNone) w pre body

/-- A string by `s`: cut at the precision. -/
def layStr (fl : Flags) (w : Nat) (p : Option Nat) (s : List Nat) : List Nat :=
  field fl false w [] (match p with | none => s | some k => s.take k)

end Verif.RtPrintf
