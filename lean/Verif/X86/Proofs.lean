import Verif.X86.Model
import Verif.X86.Spec
namespace Verif.X86
open Spec

theorem b8_nat (n : Nat) : b8 (n : Int) = n % 256 := by unfold b8; omega
theorem b8_lt (a : Int) : b8 a < 256 := by unfold b8; omega

theorem rex8 (r1 r2 : Nat) : rex_prefix 8 r1 r2 =
    [72 + 4 * (if r1 ≥ 8 then 1 else 0) + (if r2 ≥ 8 then 1 else 0)] := by
  unfold rex_prefix b8
  by_cases h1 : r1 ≥ 8 <;> by_cases h2 : r2 ≥ 8 <;> simp [h1, h2]

theorem rex4 (r1 r2 : Nat) : rex_prefix 4 r1 r2 = [] := by simp [rex_prefix]

theorem mod_rm_eq (r1 r2 : Nat) : mod_rm r1 r2 = [192 + (r1 % 8) * 8 + r2 % 8] := by
  unfold mod_rm b8
  congr 1
  omega

theorem mem_byte (r1 r2 : Nat) :
    b8 (0x80 + ((r1 % 8 : Nat) * 8 : Int) + (r2 % 8 : Nat)) = 128 + (r1 % 8) * 8 + r2 % 8 := by
  unfold b8
  omega

theorem s32_i32le (n : Int) (h : -2147483648 ≤ n) (h' : n < 2147483648) :
    s32 (b8 n) (b8 (n / 2^8)) (b8 (n / 2^16)) (b8 (n / 2^24)) = n := by
  unfold s32 b8
  simp only [Int.reducePow]
  split <;> omega

theorem imm32_i32le (n : Int) (h : -2147483648 ≤ n) (h' : n < 2147483648) (t : List Nat) :
    imm32 (i32le n ++ t) = some (n, t) := by
  simp [imm32, i32le, s32_i32le n h h']
  exact s32_i32le n h h'

theorem imm64_i64le (n : Int) (h : -2147483648 ≤ n) (h' : n < 2147483648) (t : List Nat) :
    imm64 (i64le n ++ t) = some (n, t) := by
  have : s64 (b8 n) (b8 (n / 2^8)) (b8 (n / 2^16)) (b8 (n / 2^24)) (b8 (n / 2^31))
      (b8 (n / 2^31 / 2^8)) (b8 (n / 2^31 / 2^16)) (b8 (n / 2^31 / 2^24)) = n := by
    by_cases hn : 0 ≤ n
    · have e : n / 2^31 = 0 := by omega
      rw [e]
      have h0 : b8 0 = 0 := rfl
      simp only [show (0:Int) / 2^8 = 0 from rfl, show (0:Int) / 2^16 = 0 from rfl,
        show (0:Int) / 2^24 = 0 from rfl, h0]
      unfold s64 b8
      simp only [Int.reducePow]
      split <;> omega
    · have e : n / 2^31 = -1 := by omega
      rw [e]
      have h0 : b8 (-1) = 255 := rfl
      simp only [show (-1:Int) / 2^8 = -1 from rfl, show (-1:Int) / 2^16 = -1 from rfl,
        show (-1:Int) / 2^24 = -1 from rfl, h0]
      unfold s64 b8
      simp only [Int.reducePow]
      split <;> omega
  simp only [imm64, i64le, i32le, List.cons_append, List.nil_append]
  rw [this]

/-- register-register ModR/M -/
theorem modrm_rr (R B a b : Nat) (t : List Nat) (X) (ha : a / 8 = R) (hb : b / 8 = B) :
    modrm R X B ((192 + (a % 8) * 8 + b % 8) :: t) = some (a, .reg b, t) := by
  unfold modrm
  have h1 : (192 + (a % 8) * 8 + b % 8) / 64 = 3 := by omega
  have h2 : (192 + (a % 8) * 8 + b % 8) / 8 % 8 = a % 8 := by omega
  have h3 : (192 + (a % 8) * 8 + b % 8) % 8 = b % 8 := by omega
  simp only [h1, h2, h3, if_true]
  simp
  omega

/-- the displaced memory ModR/M + optional SIB + disp32 used by mov_memory -/
theorem modrm_mem (R B a b : Nat) (off : Int) (t : List Nat)
    (ha : a / 8 = R) (hb : b / 8 = B) (hb16 : b < 16)
    (h : -2147483648 ≤ off) (h' : off < 2147483648) :
    modrm R 0 B ((128 + (a % 8) * 8 + b % 8) ::
      ((if b = 4 ∨ b = 12 then [b8 0x24] else []) ++ (i32le off ++ t))) = some (a, .mem b off, t) := by
  unfold modrm
  have h1 : (128 + (a % 8) * 8 + b % 8) / 64 = 2 := by omega
  have h2 : (128 + (a % 8) * 8 + b % 8) / 8 % 8 = a % 8 := by omega
  have h3 : (128 + (a % 8) * 8 + b % 8) % 8 = b % 8 := by omega
  simp only [h1, h2, h3]
  have e24 : b8 0x24 = 36 := rfl
  by_cases hs : b % 8 = 4
  · have : b = 4 ∨ b = 12 := by omega
    simp only [this, if_true, hs, e24, List.cons_append, List.nil_append]
    simp [imm32_i32le off h h']
    omega
  · have : ¬ (b = 4 ∨ b = 12) := by omega
    simp only [this, if_false, hs, List.nil_append]
    simp [imm32_i32le off h h']
    omega
end Verif.X86
namespace Verif.X86
open Spec

theorem dec_rex (a b : Nat) (t : List Nat) :
    decode 8 ((72 + 4 * (if a ≥ 8 then 1 else 0) + (if b ≥ 8 then 1 else 0)) :: t) =
      body 8 8 true (if a ≥ 8 then 1 else 0) 0 (if b ≥ 8 then 1 else 0) t := by
  unfold decode afterOpSize
  by_cases h1 : a ≥ 8 <;> by_cases h2 : b ≥ 8 <;> simp [h1, h2]

theorem dec_norex (w op : Nat) (t : List Nat) (h : op ≠ 0x66) (h' : op < 0x40 ∨ 0x50 ≤ op) :
    decode w (op :: t) = body w 4 false 0 0 0 (op :: t) := by
  have hh : ¬ (w = 8 ∧ 0x40 ≤ op ∧ op < 0x50) := by omega
  simp only [decode, afterOpSize, if_neg h, if_neg hh]
  simp

theorem dec_66 (w op : Nat) (t : List Nat) (h' : op < 0x40 ∨ 0x50 ≤ op) :
    decode w (0x66 :: op :: t) = body w 2 false 0 0 0 (op :: t) := by
  have hh : ¬ (w = 8 ∧ 0x40 ≤ op ∧ op < 0x50) := by omega
  simp only [decode, afterOpSize, if_neg hh]
  simp

theorem hi_ge {a : Nat} (h : a < 16) : a / 8 = if a ≥ 8 then 1 else 0 := by
  split <;> omega

end Verif.X86
