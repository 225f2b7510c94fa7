import Verif.Cg.Val
/-! Bitwise operations in different numbers of bits. -/
namespace Verif.Cg
open Verif Verif.Gen Verif.Gen.Spec Verif.X86 Verif.X86.Spec Spec

abbrev BF := ∀ n, BitVec n → BitVec n → BitVec n

/-- Operations that work bit by bit. -/
structure Bitwise (f : BF) : Prop where
  sw : ∀ n m (x y : BitVec n), (f n x y).setWidth m = f m (x.setWidth m) (y.setWidth m)
  se : ∀ n m (x y : BitVec n), (f n x y).signExtend m = f m (x.signExtend m) (y.signExtend m)

theorem bitwise_and : Bitwise (fun _ x y => x &&& y) := ⟨fun _ _ _ _ => BitVec.setWidth_and, fun _ _ _ _ => BitVec.signExtend_and⟩
theorem bitwise_or : Bitwise (fun _ x y => x ||| y) := ⟨fun _ _ _ _ => BitVec.setWidth_or, fun _ _ _ _ => BitVec.signExtend_or⟩
theorem bitwise_xor : Bitwise (fun _ x y => x ^^^ y) := ⟨fun _ _ _ _ => BitVec.setWidth_xor, fun _ _ _ _ => BitVec.signExtend_xor⟩

theorem toInt_emod {n m : Nat} (b : BitVec n) (h : m ≤ n) : b.toInt % (2 ^ m : Nat) = ((b.setWidth m).toNat : Int) := by
  rw [BitVec.toInt_eq_toNat_bmod, bmod_emod_dvd (ptwo_dvd h), BitVec.toNat_setWidth]
  push_cast; rfl

theorem ofInt_congr {n : Nat} {x y : Int} (h : x % (2 ^ n : Nat) = y % (2 ^ n : Nat)) : BitVec.ofInt n x = BitVec.ofInt n y := by
  apply BitVec.eq_of_toNat_eq
  rw [BitVec.toNat_ofInt, BitVec.toNat_ofInt, h]

theorem setWidth_ofInt {n m : Nat} (h : m ≤ n) (x : Int) : (BitVec.ofInt n x).setWidth m = BitVec.ofInt m x := by
  apply BitVec.eq_of_toNat_eq
  have : (((BitVec.ofInt n x).setWidth m).toNat : Int) = ((BitVec.ofInt m x).toNat : Int) := by
    rw [← toInt_emod _ h, BitVec.toInt_ofInt, bmod_emod_dvd (ptwo_dvd h), BitVec.toNat_ofInt]
    have := Int.emod_nonneg x (show ((2 ^ m : Nat) : Int) ≠ 0 by have := ptwo_pos m; omega)
    omega
  omega

/-- Low bits only depend on the low bits. -/
theorem bitwise_low {f : BF} (hf : Bitwise f) {n k m : Nat} (hn : m ≤ n) (hk : m ≤ k) {x y a b : Int}
    (hx : x % (2 ^ m : Nat) = a % (2 ^ m : Nat)) (hy : y % (2 ^ m : Nat) = b % (2 ^ m : Nat)) :
    (f n (BitVec.ofInt n x) (BitVec.ofInt n y)).toInt % (2 ^ m : Nat) =
    (f k (BitVec.ofInt k a) (BitVec.ofInt k b)).toInt % (2 ^ m : Nat) := by
  rw [toInt_emod _ hn, toInt_emod _ hk, hf.sw, hf.sw, setWidth_ofInt hn, setWidth_ofInt hn, setWidth_ofInt hk, setWidth_ofInt hk,
    ofInt_congr hx, ofInt_congr hy]

/-- Sign extension. -/
theorem bitwise_signed {f : BF} (hf : Bitwise f) {n k : Nat} (hk : 1 ≤ k) (h : k ≤ n) {a b : Int}
    (ha : Int.bmod a (2 ^ k) = a) (hb : Int.bmod b (2 ^ k) = b) :
    (f n (BitVec.ofInt n a) (BitVec.ofInt n b)).toInt = (f k (BitVec.ofInt k a) (BitVec.ofInt k b)).toInt := by
  have e : ∀ a, Int.bmod a (2 ^ k) = a → BitVec.ofInt n a = (BitVec.ofInt k a).signExtend n := by
    intro a ha
    apply BitVec.eq_of_toInt_eq
    rw [BitVec.toInt_signExtend_of_le h, BitVec.toInt_ofInt, BitVec.toInt_ofInt, ha]
    have h1 := bmod_range hk a
    have h2 := pow_le (i := k - 1) (j := n - 1) (by omega)
    rw [ha] at h1
    exact bmod_id (by omega) (by omega) (by omega)
  rw [e a ha, e b hb, ← hf.se, BitVec.toInt_signExtend_of_le h]

/-- Zero extension. -/
theorem bitwise_unsigned {f : BF} (hf : Bitwise f) {n k : Nat} (h : k < n) {a b : Int}
    (ha0 : 0 ≤ a) (ha : a < (2 ^ k : Nat)) (hb0 : 0 ≤ b) (hb : b < (2 ^ k : Nat)) :
    (f n (BitVec.ofInt n a) (BitVec.ofInt n b)).toInt = (f k (BitVec.ofInt k a) (BitVec.ofInt k b)).toInt % (2 ^ k : Nat) := by
  have e : ∀ a : Int, 0 ≤ a → a < (2 ^ k : Nat) → BitVec.ofInt n a = (BitVec.ofInt k a).setWidth n := by
    intro a h0 h1
    apply BitVec.eq_of_toNat_eq
    have h2 := pow_le (i := k) (j := n) (by omega)
    rw [BitVec.toNat_setWidth, BitVec.toNat_ofInt, BitVec.toNat_ofInt, Int.emod_eq_of_lt h0 h1, Int.emod_eq_of_lt h0 (by omega),
      Nat.mod_eq_of_lt (by omega)]
  rw [e a ha0 ha, e b hb0 hb, ← hf.sw, toInt_emod _ (Nat.le_refl k), BitVec.setWidth_eq, BitVec.toInt_eq_toNat_of_lt,
    BitVec.toNat_setWidth, Nat.mod_eq_of_lt]
  · have := (f k (BitVec.ofInt k a) (BitVec.ofInt k b)).isLt
    have := Nat.pow_le_pow_right (n := 2) (by decide) (Nat.le_of_lt h)
    omega
  · rw [BitVec.toNat_setWidth]
    have h1 := (f k (BitVec.ofInt k a) (BitVec.ofInt k b)).isLt
    have h2 := Nat.pow_le_pow_right (n := 2) (by decide) (show k ≤ n - 1 by omega)
    have e2 : (2 ^ n : Nat) = 2 * 2 ^ (n - 1) := by rw [← Nat.pow_succ']; congr 1; omega
    have := Nat.mod_le (f k (BitVec.ofInt k a) (BitVec.ofInt k b)).toNat (2 ^ n)
    omega

end Verif.Cg
