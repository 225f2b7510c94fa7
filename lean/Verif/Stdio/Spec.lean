import Verif.Stdio.Model
/-! The conversions of C11 7.21.6.1 that stdio.c supports. -/
namespace Verif.Stdio.Spec
open Verif.Stdio

/-- The characters of a number: `Nat.toDigits`, as bytes. -/
def digits (base n : Nat) : List Nat := (Nat.toDigits base n).map Char.toNat

inductive Conv where
  | d | u | o | x
  deriving DecidableEq

/-- A piece of a format. -/
inductive Dir where
  | lit (c : Nat)
  | percent
  | int (k : Conv) (zero : Bool) (width : Nat)
  | chr
  | str

/-- How the piece is written in the format. -/
def Dir.text : Dir → List Nat
  | .lit c => [c]
  | .percent => [37, 37]
  | .int k zero width =>
    [37] ++ (if zero then [48] else []) ++ (if width = 0 then [] else digits 10 width) ++
      [match k with | .d => 100 | .u => 117 | .o => 111 | .x => 120]
  | .chr => [37, 99]
  | .str => [37, 115]

/-- The format string. -/
def text (ds : List Dir) : List Nat := ds.flatMap Dir.text

/-- Sign and digits of a converted `int` (taken as `unsigned` by %u, %o, %x). -/
def number : Conv → Int → List Nat × List Nat
  | .d, n => (if n < 0 then [45] else [], digits 10 n.natAbs)
  | .u, n => ([], digits 10 (n % 2 ^ 32).toNat)
  | .o, n => ([], digits 8 (n % 2 ^ 32).toNat)
  | .x, n => ([], digits 16 (n % 2 ^ 32).toNat)

/-- Padding to the field width: spaces before the sign, or zeros after it. -/
def field (zero : Bool) (width : Nat) : List Nat × List Nat → List Nat
  | (sign, ds) =>
    let fill := width - (sign.length + ds.length)
    if zero then sign ++ List.replicate fill 48 ++ ds else List.replicate fill 32 ++ sign ++ ds

/-- What C prints. -/
def output : List Dir → List Arg → Option (List Nat)
  | [], _ => some []
  | .lit c :: ds, args => (output ds args).map ([c] ++ ·)
  | .percent :: ds, args => (output ds args).map ([37] ++ ·)
  | .int k zero width :: ds, .int n :: args => (output ds args).map (field zero width (number k n) ++ ·)
  | .chr :: ds, .int n :: args => (output ds args).map ([(n % 256).toNat] ++ ·)
  | .str :: ds, .str s :: args => (output ds args).map (s ++ ·)
  | _ :: _, _ => none

/-- The arguments are C values: an `int` has 32 bits, a string holds no NUL. -/
def Arg.Valid : Arg → Prop
  | .int n => -2 ^ 31 ≤ n ∧ n < 2 ^ 31
  | .str s => ∀ b ∈ s, b ≠ 0

/-- The format is well formed: literal characters are neither NUL nor `%`. -/
def Dir.Valid : Dir → Prop
  | .lit c => c ≠ 0 ∧ c ≠ 37
  | _ => True

/-- What stdio.c gets right: fields narrower than 100, and %u, %o, %x of values below `2^31`. -/
def Supported : List Dir → List Arg → Prop
  | .int k _ width :: ds, .int n :: args => width < 100 ∧ (k = .d ∨ 0 ≤ n) ∧ Supported ds args
  | .chr :: ds, _ :: args => Supported ds args
  | .str :: ds, _ :: args => Supported ds args
  | .lit _ :: ds, args => Supported ds args
  | .percent :: ds, args => Supported ds args
  | _, _ => True

end Verif.Stdio.Spec
