import Verif.Code.Model
/-! Specification for C27 and C28: little-endian values, and where each operation's code lies. -/
namespace Verif.Code.Spec

/-- Value of a sequence of bytes, least significant first. -/
def value : List Int → Int
  | [] => 0
  | b :: bs => b + 256 * value bs

/-- `bs` is the `k`-byte little-endian two's complement encoding of `v`. -/
def Encodes (k : Nat) (v : Int) (bs : List Int) : Prop :=
  bs.length = k ∧ (∀ b ∈ bs, 0 ≤ b ∧ b < 256) ∧ Int.bmod (value bs) (2 ^ (8 * k)) = v

/-- The `k` cells of the buffer from position `p`. -/
def cells (code : Nat → Int) (p k : Nat) : List Int := (List.range k).map fun i => code (p + i)

/-- Number of bytes of code each operation produces: a label operand is 4 bytes; a goto is an
`add sp, imm32` (6 bytes, 7 with the REX prefix) and a `jmp rel32` (5 bytes). -/
def size1 (w : Nat) : Op → Nat
  | .emit _ => 1
  | .use _ => 4
  | .goto _ => if w = 8 then 12 else 11
  | _ => 0

def size (w : Nat) : List Op → Nat
  | [] => 0
  | o :: os => size1 w o + size w os

/-- The frame size in force after some operations (0 at start). -/
def fsAt : Int → List Op → Int
  | v, [] => v
  | _, .setfs v :: os => fsAt v os
  | v, _ :: os => fsAt v os

end Verif.Code.Spec
namespace Verif.Code.Spec
/-- The number held by an integer object of pnut: a small non-negative number is stored negated in the
handle itself, a larger one as two 32-bit halves in the heap, low half first (pnut.c:1002-1017). -/
def objVal (heap : Nat → Int) (obj : Int) : Int :=
  if obj ≤ 0 then -obj
  else heap obj.toNat % 4294967296 + 4294967296 * (heap (obj.toNat + 1) % 4294967296)

/-- No label is defined before the first byte of code is emitted. -/
def DefsPositive (w : Nat) (ops : List Op) : Prop :=
  ∀ pre o post l, ops = pre ++ o :: post → (o = .defl l ∨ o = .defg l) → 0 < size w pre

/-- Two's complement range of `8k` bits. -/
def inRange (k : Nat) (n : Int) : Prop := -2 ^ (8 * k - 1) ≤ n ∧ n < 2 ^ (8 * k - 1)
end Verif.Code.Spec
