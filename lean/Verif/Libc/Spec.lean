import Verif.Libc.Model
/-! What the C standard says (C11 7.4, 7.22, 7.24), on a memory of bytes. -/
namespace Verif.Libc.Spec
open Verif.Libc

/-- The bytes `bs` are at address `a`. -/
def Bytes (m : Mem) (a : Nat) (bs : List Nat) : Prop := ∀ i, i < bs.length → m (a + i) = bs[i]!

/-- A string with the characters `bs` (bytes 1..255) is at `a`. -/
structure Str (m : Mem) (a : Nat) (bs : List Nat) : Prop where
  chars : Bytes m a bs
  nul : m (a + bs.length) = 0
  nz : ∀ b ∈ bs, b ≠ 0
  byte : ∀ b ∈ bs, b < 256

/-- Nothing outside of `[a, a+n)` changed. -/
def Only (m m' : Mem) (a n : Nat) : Prop := ∀ x, x < a ∨ a + n ≤ x → m' x = m x

/-- Sign of the comparison of two strings of bytes: lexicographic, as unsigned characters. -/
def compare : List Nat → List Nat → Int
  | [], [] => 0
  | [], _ :: _ => -1
  | _ :: _, [] => 1
  | a :: l, b :: r => if a < b then -1 else if b < a then 1 else compare l r

/-- Position of the first occurrence. -/
def first (c : Nat) : List Nat → Option Nat
  | [] => none
  | b :: bs => if b = c then some 0 else (first c bs).map (· + 1)

/-- Position of the last occurrence. -/
def last (c : Nat) : List Nat → Option Nat
  | [] => none
  | b :: bs => match last c bs with
    | some i => some (i + 1)
    | none => if b = c then some 0 else none

/-- The ASCII characters of a class, spelled out. -/
def member (s : String) (c : Int) : Bool := (s.toList.map fun ch => (ch.toNat : Int)).contains c

def lower := "abcdefghijklmnopqrstuvwxyz"
def upper := "ABCDEFGHIJKLMNOPQRSTUVWXYZ"
def digits := "0123456789"
def punct := "!\"#$%&'()*+,-./:;<=>?@[\\]^_`{|}~"

/-- `HexDigit c v`: the character `c` is a digit with value `v` (`0`-`9`, `a`-`f`, `A`-`F`). -/
inductive HexDigit : Int → Nat → Prop
  | dec (v : Nat) : v < 10 → HexDigit (48 + v) v
  | lower (v : Nat) : 10 ≤ v → v < 16 → HexDigit (97 + (v - 10 : Nat)) v
  | upper (v : Nat) : 10 ≤ v → v < 16 → HexDigit (65 + (v - 10 : Nat)) v

end Verif.Libc.Spec
