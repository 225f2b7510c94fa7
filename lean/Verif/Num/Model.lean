import Verif.Base
/-! Model of the integer printers. Output is a list of character codes. -/
namespace Verif.Num
open Verif

/-- pnut.c:268-271 `putint_aux`: `n <= 0`, truncated division and remainder.
(The C `int` operations never overflow here: division by 10 and a digit.) -/
def putintAux (n : Int) : List Int :=
  (if _h : n ≤ -10 then putintAux (n.tdiv 10) else []) ++ [48 - n.tmod 10]
termination_by n.natAbs
decreasing_by
  have : (n.tdiv 10).natAbs = n.natAbs / 10 := by rw [Int.natAbs_tdiv]; rfl
  omega

/-- pnut.c:273-280 `putint`; `-n` cannot overflow since `n >= 0` on that branch. -/
def putint (n : Int) : List Int :=
  if n < 0 then 45 :: putintAux n else putintAux (-n)

/-- The characters of `"0123456789abcdef"` (sh.c:213). -/
def hexChars : List Int := [48, 49, 50, 51, 52, 53, 54, 55, 56, 57, 97, 98, 99, 100, 101, 102]

/-- sh.c:213, 219 `(n >> k) & mask` with arithmetic shift on a 32-bit `int`. -/
def shiftMask (n : BitVec 32) (k : Nat) (mask : BitVec 32) : BitVec 32 := n.sshiftRight k &&& mask

theorem shiftMask4 (n : BitVec 32) : shiftMask n 4 0x0fffffff#32 = n >>> 4 := by
  apply BitVec.eq_of_getLsbD_eq
  intro i hi
  simp only [shiftMask, BitVec.getLsbD_and, BitVec.getLsbD_ushiftRight, BitVec.getLsbD_sshiftRight]
  have : (0x0fffffff#32).getLsbD i = decide (i < 28) := by
    have : (0x0fffffff#32) = BitVec.ofNat 32 (2 ^ 28 - 1) := rfl
    rw [this, BitVec.getLsbD_ofNat, Nat.testBit_two_pow_sub_one]
    simp [hi]
  rw [this]
  by_cases h : i < 28
  · simp [h, show ¬ 32 ≤ i by omega, show 4 + i < 32 by omega]
  · simp only [h, decide_false, Bool.and_false]
    rw [BitVec.getLsbD_of_ge _ _ (by omega)]

theorem shiftMask3 (n : BitVec 32) : shiftMask n 3 0x1fffffff#32 = n >>> 3 := by
  apply BitVec.eq_of_getLsbD_eq
  intro i hi
  simp only [shiftMask, BitVec.getLsbD_and, BitVec.getLsbD_ushiftRight, BitVec.getLsbD_sshiftRight]
  have : (0x1fffffff#32).getLsbD i = decide (i < 29) := by
    have : (0x1fffffff#32) = BitVec.ofNat 32 (2 ^ 29 - 1) := rfl
    rw [this, BitVec.getLsbD_ofNat, Nat.testBit_two_pow_sub_one]
    simp [hi]
  rw [this]
  by_cases h : i < 29
  · simp [h, show ¬ 32 ≤ i by omega, show 3 + i < 32 by omega]
  · simp only [h, decide_false, Bool.and_false]
    rw [BitVec.getLsbD_of_ge _ _ (by omega)]

theorem shiftMask4_toNat (n : BitVec 32) : (shiftMask n 4 0x0fffffff#32).toNat = n.toNat / 16 := by
  rw [shiftMask4, BitVec.toNat_ushiftRight, Nat.shiftRight_eq_div_pow]

theorem shiftMask3_toNat (n : BitVec 32) : (shiftMask n 3 0x1fffffff#32).toNat = n.toNat / 8 := by
  rw [shiftMask3, BitVec.toNat_ushiftRight, Nat.shiftRight_eq_div_pow]

/-- sh.c:210-214 `puthex_unsigned` on a 32-bit `int`. -/
def puthex (n : BitVec 32) : List Int :=
  (if _h : shiftMask n 4 0x0fffffff#32 ≠ 0#32 then puthex (shiftMask n 4 0x0fffffff#32) else []) ++
    [hexChars.getD (n &&& 15#32).toNat 0]
termination_by n.toNat
decreasing_by
  rw [shiftMask4_toNat]
  have h2 : (shiftMask n 4 0x0fffffff#32).toNat ≠ 0 := fun h =>
    _h (BitVec.eq_of_toNat_eq (by simpa using h))
  rw [shiftMask4_toNat] at h2
  omega

/-- sh.c:216-220 `putoct_unsigned`. -/
def putoct (n : BitVec 32) : List Int :=
  (if _h : shiftMask n 3 0x1fffffff#32 ≠ 0#32 then putoct (shiftMask n 3 0x1fffffff#32) else []) ++
    [48 + (n &&& 7#32).toInt]
termination_by n.toNat
decreasing_by
  rw [shiftMask3_toNat]
  have h2 : (shiftMask n 3 0x1fffffff#32).toNat ≠ 0 := fun h =>
    _h (BitVec.eq_of_toNat_eq (by simpa using h))
  rw [shiftMask3_toNat] at h2
  omega

/-- `print_text` on integer nodes (sh.c:313-320); values as stored by `wrap_int`,
`wrap_int_hex`, `wrap_int_oct` (sh.c:82-101). -/
inductive IntText where
  | dec (n : BitVec 32)
  | hex (n : BitVec 32)
  | oct (n : BitVec 32)

def printInt : IntText → List Int
  | .dec n => putint n.toInt
  | .hex n => 48 :: 120 :: puthex n
  | .oct n => 48 :: putoct n

/-- pnut.c:613-626 `accum_string_integer` (32-bit configuration): the characters appended.
`-n` overflows for `INT_MIN`; that outcome is `ub`. -/
def accumStringNat (n : Nat) : List Int :=
  (if _h : n > 9 then accumStringNat (n / 10) else []) ++ [(48 : Int) + ((n % 10 : Nat) : Int)]
termination_by n
decreasing_by omega

def accumStringInteger (n : Int) : Res (List Int) :=
  if n < 0 then (if n = -2147483648 then .ub else .ok (45 :: accumStringNat (-n).toNat))
  else .ok (accumStringNat n.toNat)

end Verif.Num
