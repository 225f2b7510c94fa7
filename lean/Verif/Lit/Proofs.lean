import Verif.Lit.Model
import Verif.Lit.Spec
namespace Verif.Lit
open Verif Spec

theorem digitOf_of_isDigit {c d : Nat} (h : IsDigit c d) : digitOf c = d := by
  cases h <;> simp only [digitOf] <;> split <;> (try split) <;> (try split) <;> omega

theorem isDigit_of_digitOf {c : Nat} (h : digitOf c < 99) : IsDigit c (digitOf c) := by
  unfold digitOf at *
  split at h
  · rename_i h1
    rw [if_pos h1]
    have := IsDigit.dec (c - 48) (by omega)
    rwa [show 48 + (c - 48) = c by omega] at this
  · rename_i h1
    rw [if_neg h1]
    split at h
    · rename_i h2
      rw [if_pos h2]
      have := IsDigit.upper (c - 65 + 10) (by omega) (by omega)
      rwa [show 65 + (c - 65 + 10 - 10) = c by omega] at this
    · rename_i h2
      rw [if_neg h2]
      split at h
      · rename_i h3
        rw [if_pos h3]
        have := IsDigit.lower (c - 97 + 10) (by omega) (by omega)
        rwa [show 97 + (c - 97 + 10 - 10) = c by omega] at this
      · omega

theorem digitOf_lt_iff {c : Nat} : digitOf c < 36 ∨ digitOf c = 99 := by
  unfold digitOf; split <;> (try split) <;> (try split) <;> omega

theorem stops_ge {b : Nat} {c : Nat} {t : List Nat} (hb : b ≤ 36) (h : Stops b (c :: t)) :
    digitOf c ≥ b := by
  by_cases hd : digitOf c < 99
  · exact h c _ t rfl (isDigit_of_digitOf hd)
  · omega

theorem spells_lt {b : Nat} {cs ds : List Nat} (h : Spells b cs ds) : ∀ d ∈ ds, d < b := by
  induction h with
  | nil => simp
  | cons h1 h2 h3 ih => simpa using ⟨h2, ih⟩

/-- value with an accumulator -/
def valueFrom (b v : Nat) (ds : List Nat) : Nat := ds.foldl (fun v d => v * b + d) v

theorem valueFrom_ge {b : Nat} (hb : 1 ≤ b) (v : Nat) (ds : List Nat) : v ≤ valueFrom b v ds := by
  induction ds generalizing v with
  | nil => simp [valueFrom]
  | cons d ds ih =>
    simp only [valueFrom, List.foldl_cons]
    have := ih (v * b + d)
    have h2 : v * 1 ≤ v * b := Nat.mul_le_mul_left v hb
    simp only [valueFrom] at this
    omega

theorem accum32_ok {b d v : Nat} (h : v * b + d ≤ 2147483648) :
    accum32 b (-(v : Int)) d = .ok (-((v * b + d : Nat) : Int)) := by
  have e : (-(v:Int)) * (b:Int) = -((v * b : Nat) : Int) := by
    rw [Int.neg_mul]; simp
  unfold accum32 chk32
  rw [e, if_pos (by omega)]
  simp only [Res.bind_ok]
  rw [if_pos (by omega)]
  congr 1; omega

theorem accum32_ub {b d v : Nat} (h : v * b + d > 2147483648) :
    accum32 b (-(v : Int)) d = .ub := by
  have e : (-(v:Int)) * (b:Int) = -((v * b : Nat) : Int) := by
    rw [Int.neg_mul]; simp
  unfold accum32 chk32
  rw [e]
  split
  · simp only [Res.bind_ok]
    rw [if_neg (by omega)]
  · rfl

theorem loop32_ok {b : Nat} (hb : 2 ≤ b) (hb' : b ≤ 36) {cs ds : List Nat} (hs : Spells b cs ds)
    (rest : List Nat) (hr : Stops b rest) (v : Nat) (hv : valueFrom b v ds ≤ 2147483648) :
    loop32 b (-(v : Int)) (cs ++ rest) = .ok (-(valueFrom b v ds : Int), rest) := by
  induction hs generalizing v with
  | nil =>
    cases rest with
    | nil => rfl
    | cons c t =>
      have := stops_ge hb' hr
      simp [loop32, this, valueFrom]
  | @cons c d cs ds h1 h2 h3 ih =>
    have hd := digitOf_of_isDigit h1
    have hge : valueFrom b (v * b + d) ds ≥ v * b + d := valueFrom_ge (by omega) _ _
    have hv' : valueFrom b (v * b + d) ds ≤ 2147483648 := hv
    simp only [List.cons_append, loop32, hd]
    rw [if_neg (by omega), accum32_ok (by omega)]
    simp only [Res.bind_ok]
    exact ih _ hv'

theorem loop32_ub {b : Nat} (hb : 2 ≤ b) {cs ds : List Nat} (hs : Spells b cs ds)
    (rest : List Nat) (v : Nat) (hv0 : v ≤ 2147483648) (hv : valueFrom b v ds > 2147483648) :
    loop32 b (-(v : Int)) (cs ++ rest) = .ub := by
  induction hs generalizing v with
  | nil => simp [valueFrom] at hv; omega
  | @cons c d cs ds h1 h2 h3 ih =>
    have hd := digitOf_of_isDigit h1
    have hv' : valueFrom b (v * b + d) ds > 2147483648 := hv
    simp only [List.cons_append, loop32, hd]
    rw [if_neg (by omega)]
    by_cases h : v * b + d ≤ 2147483648
    · rw [accum32_ok h]
      exact ih _ h hv'
    · rw [accum32_ub (by omega)]; rfl

/-- the non-hexadecimal branch of the leading-zero case -/
theorem number32_oct (wb : Bool) (inp : List Nat)
    (h : ∀ t, inp ≠ 120 :: t ∧ inp ≠ 88 :: t) :
    number32 wb (48 :: inp) = (loop32 8 0 inp).bind fun (v, r) =>
        .ok (if wb then (if v = 0 then .int else .oct) else .int, v, r) := by
  unfold number32
  split
  · rename_i inp1 he
    injection he with _ he; subst he
    split
    · exact absurd rfl (h _).1
    · exact absurd rfl (h _).2
    · rfl
  · rename_i hh; exact absurd rfl (hh _)

theorem number32_dec (wb : Bool) (inp : List Nat) (h : ∀ t, inp ≠ 48 :: t) :
    number32 wb inp = (loop32 10 0 inp).bind fun (v, r) => .ok (.int, v, r) := by
  unfold number32
  split
  · rename_i inp1; exact absurd rfl (h inp1)
  · rfl

theorem number32_hex (wb : Bool) (x : Nat) (hx : x = 120 ∨ x = 88) (inp : List Nat)
    (h : curDigit inp < 16) :
    number32 wb (48 :: x :: inp) = (loop32 16 0 inp).bind fun (v, r) =>
      .ok (if wb then .hex else .int, v, r) := by
  rcases hx with rfl | rfl <;> simp [number32, Nat.not_le.mpr h]

/-! ### 64-bit part -/

def U64.val (x : U64) : Nat := x.lo.toNat + 4294967296 * x.hi.toNat

theorem lsr16_eq (x : BitVec 32) : lsr16 x = x >>> 16 := by
  apply BitVec.eq_of_getLsbD_eq
  intro i hi
  simp only [lsr16, BitVec.getLsbD_and, BitVec.getLsbD_ushiftRight, BitVec.getLsbD_sshiftRight]
  have : (0xffff#32).getLsbD i = decide (i < 16) := by
    have : (0xffff#32) = BitVec.ofNat 32 (2 ^ 16 - 1) := rfl
    rw [this, BitVec.getLsbD_ofNat, Nat.testBit_two_pow_sub_one]
    simp [hi]
  rw [this]
  by_cases h : i < 16
  · simp [h, show ¬ 32 ≤ i by omega, show 16 + i < 32 by omega]
  · simp only [h, decide_false, Bool.and_false]
    rw [BitVec.getLsbD_of_ge _ _ (by omega)]

theorem lsr16_toNat (x : BitVec 32) : (lsr16 x).toNat = x.toNat / 65536 := by
  rw [lsr16_eq, BitVec.toNat_ushiftRight, Nat.shiftRight_eq_div_pow]

theorem and16_toNat (x : BitVec 32) : (x &&& 0xffff#32).toNat = x.toNat % 65536 := by
  rw [BitVec.toNat_and]
  exact Nat.and_two_pow_sub_one_eq_mod x.toNat 16

theorem sshr16_toNat (x : BitVec 32) (h : x.toNat < 2147483648) :
    (x.sshiftRight 16).toNat = x.toNat / 65536 := by
  rw [BitVec.sshiftRight_eq_of_msb_false, BitVec.toNat_ushiftRight, Nat.shiftRight_eq_div_pow]
  rw [BitVec.msb_eq_false_iff_two_mul_lt]; omega

theorem mul_val (x : U64) (y : BitVec 32) (hy : y.toNat < 32768) :
    (mul x y).val = x.val * y.toNat % 18446744073709551616 := by
  obtain ⟨xl, xh⟩ := x
  have hxl := xl.isLt
  have hxh := xh.isLt
  have e_yhi : (lsr16 y).toNat = 0 := by rw [lsr16_toNat]; omega
  have e_yhi' : lsr16 y = 0#32 := BitVec.eq_of_toNat_eq (by simpa using e_yhi)
  have e_ylo : y &&& 0xffff#32 = y := BitVec.eq_of_toNat_eq (by rw [and16_toNat]; omega)
  simp only [mul, e_yhi', e_ylo, U64.val]
  simp only [BitVec.mul_zero, BitVec.zero_add]
  generalize hA : xl.toNat % 65536 = A
  generalize hB : xl.toNat / 65536 = B
  have hxl2 : xl.toNat = A + 65536 * B := by omega
  have hA' : A < 65536 := by omega
  have hB' : B < 65536 := by omega
  have hY : y.toNat < 32768 := hy
  generalize hYn : y.toNat = Y at *
  have hAY : A * Y ≤ 65535 * 32767 := Nat.mul_le_mul (by omega) (by omega)
  have hBY : B * Y ≤ 65535 * 32767 := Nat.mul_le_mul (by omega) (by omega)
  have e_lo : ((xl &&& 0xffff#32) * y).toNat = A * Y := by
    rw [BitVec.toNat_mul, and16_toNat, hA, hYn, Nat.mod_eq_of_lt (by omega)]
  have e_m2 : ((lsr16 xl) * y).toNat = B * Y := by
    rw [BitVec.toNat_mul, lsr16_toNat, hB, hYn, Nat.mod_eq_of_lt (by omega)]
  have e_m1 : (((xl &&& 0xffff#32) * y).sshiftRight 16).toNat = A * Y / 65536 := by
    rw [sshr16_toNat _ (by rw [e_lo]; omega), e_lo]
  have e_m3 : (((((xl &&& 0xffff#32) * y).sshiftRight 16) &&& 0xffff#32) +
      ((lsr16 xl) * y &&& 0xffff#32)).toNat = A * Y / 65536 % 65536 + B * Y % 65536 := by
    rw [BitVec.toNat_add, and16_toNat, and16_toNat, e_m1, e_m2, Nat.mod_eq_of_lt (by omega)]
  generalize hm1 : ((xl &&& 0xffff#32) * y).sshiftRight 16 = m1 at *
  generalize hm2 : (lsr16 xl) * y = m2 at *
  generalize hlo : (xl &&& 0xffff#32) * y = lo at *
  generalize hm3 : (m1 &&& 0xffff#32) + (m2 &&& 0xffff#32) = m3 at *
  rw [BitVec.toNat_add, BitVec.toNat_shiftLeft, and16_toNat, and16_toNat, e_lo, e_m3]
  rw [BitVec.toNat_add, BitVec.toNat_mul, hYn, BitVec.toNat_add, BitVec.toNat_add,
    lsr16_toNat, lsr16_toNat, lsr16_toNat, e_m1, e_m2, e_m3, hxl2]
  simp only [Nat.shiftLeft_eq]
  have e3 : (A + 65536 * B + 4294967296 * xh.toNat) * Y
      = A * Y + 65536 * (B * Y) + 4294967296 * (xh.toNat * Y) := by
    rw [Nat.add_mul, Nat.add_mul, Nat.mul_assoc, Nat.mul_assoc]
  rw [e3]
  generalize A * Y = P at *
  generalize B * Y = Q at *
  generalize xh.toNat * Y = R at *
  omega

theorem msb_iff (x : BitVec 32) : x.msb = decide (2147483648 ≤ x.toNat) := by
  rw [BitVec.msb_eq_decide]

theorem add_val (x : U64) (y : BitVec 32) (hy : y.toNat < 2147483648)
    (hc : ¬ (x.lo.toNat < 2147483648 ∧ 2147483648 ≤ x.lo.toNat + y.toNat)) :
    (add x y).val = (x.val + y.toNat) % 18446744073709551616 := by
  obtain ⟨xl, xh⟩ := x
  have hxl := xl.isLt
  have hxh := xh.isLt
  have hs := BitVec.toNat_add xl y
  simp only at hc
  simp only [add, U64.val]
  by_cases h1 : 2147483648 ≤ xl.toNat
  · have m1 : xl.msb = true := by rw [msb_iff]; simpa using h1
    by_cases h2 : xl.toNat + y.toNat < 4294967296
    · have m2 : (xl + y).msb = true := by rw [msb_iff]; simp only [decide_eq_true_eq]; omega
      rw [m1, m2]; simp; omega
    · have m2 : (xl + y).msb = false := by rw [msb_iff]; simp only [decide_eq_false_iff_not]; omega
      rw [m1, m2]; simp; omega
  · have m1 : xl.msb = false := by rw [msb_iff]; simpa using h1
    have m2 : (xl + y).msb = false := by rw [msb_iff]; simp only [decide_eq_false_iff_not]; omega
    rw [m1, m2]; simp; omega

/-- When the sign bit flips although there is no carry, the high word is one too large. -/
theorem add_val_bad (x : U64) (y : BitVec 32) (hy : y.toNat < 2147483648)
    (hc : x.lo.toNat < 2147483648 ∧ 2147483648 ≤ x.lo.toNat + y.toNat) :
    (add x y).val = (x.val + y.toNat + 4294967296) % 18446744073709551616 := by
  obtain ⟨xl, xh⟩ := x
  have hxl := xl.isLt
  have hxh := xh.isLt
  have hs := BitVec.toNat_add xl y
  simp only at hc
  simp only [add, U64.val]
  have m1 : xl.msb = false := by rw [msb_iff]; simp only [decide_eq_false_iff_not]; omega
  have m2 : (xl + y).msb = true := by rw [msb_iff]; simp only [decide_eq_true_eq]; omega
  rw [m1, m2]; simp; omega

theorem U64.val_mod (x : U64) : x.val % 4294967296 = x.lo.toNat := by
  have := x.lo.isLt
  simp only [U64.val]; omega

/-- One digit step in the 64-bit configuration.  Correct unless adding the digit crosses
`0x7fffffff → 0x80000000` in the low word. -/
theorem accum64_val (b d : Nat) (x : U64) (hb : b < 32768) (hd : d < 32768)
    (hc : ¬ (x.val * b % 4294967296 < 2147483648 ∧ 2147483648 ≤ x.val * b % 4294967296 + d)) :
    (accum64 b x d).val = (x.val * b + d) % 18446744073709551616 := by
  have eb : (BitVec.ofNat 32 b).toNat = b := by rw [BitVec.toNat_ofNat]; omega
  have ed : (BitVec.ofNat 32 d).toNat = d := by rw [BitVec.toNat_ofNat]; omega
  have hm := mul_val x (BitVec.ofNat 32 b) (by omega)
  rw [eb] at hm
  have hl : (mul x (BitVec.ofNat 32 b)).lo.toNat = x.val * b % 4294967296 := by
    rw [← U64.val_mod, hm]; omega
  simp only [accum64]
  rw [add_val _ _ (by omega) (by rw [ed, hl]; exact hc), ed, hm]
  omega

theorem accum64_val_bad (b d : Nat) (x : U64) (hb : b < 32768) (hd : d < 32768)
    (hc : x.val * b % 4294967296 < 2147483648 ∧ 2147483648 ≤ x.val * b % 4294967296 + d) :
    (accum64 b x d).val = (x.val * b + d + 4294967296) % 18446744073709551616 := by
  have eb : (BitVec.ofNat 32 b).toNat = b := by rw [BitVec.toNat_ofNat]; omega
  have ed : (BitVec.ofNat 32 d).toNat = d := by rw [BitVec.toNat_ofNat]; omega
  have hm := mul_val x (BitVec.ofNat 32 b) (by omega)
  rw [eb] at hm
  have hl : (mul x (BitVec.ofNat 32 b)).lo.toNat = x.val * b % 4294967296 := by
    rw [← U64.val_mod, hm]; omega
  simp only [accum64]
  rw [add_val_bad _ _ (by omega) (by rw [ed, hl]; exact hc), ed, hm]
  omega

/-- All prefixes of the digit list (accumulated from `v`) avoid the bad crossing. -/
def SafeFrom (b : Nat) (v : Nat) : List Nat → Prop
  | [] => True
  | d :: ds =>
    ¬ (v * b % 4294967296 < 2147483648 ∧ 2147483648 ≤ v * b % 4294967296 + d) ∧
    SafeFrom b (v * b + d) ds

theorem loop64_ok {b : Nat} (hb : 2 ≤ b) (hb' : b ≤ 36) {cs ds : List Nat} (hs : Spells b cs ds)
    (rest : List Nat) (hr : Stops b rest) (v : Nat) (x : U64) (hx : x.val = v)
    (hv : valueFrom b v ds < 18446744073709551616) (hsafe : SafeFrom b v ds) :
    ∃ y, loop64 b x (cs ++ rest) = (y, rest) ∧ y.val = valueFrom b v ds := by
  induction hs generalizing v x with
  | nil =>
    refine ⟨x, ?_, hx⟩
    cases rest with
    | nil => rfl
    | cons c t =>
      have := stops_ge hb' hr
      simp [loop64, this]
  | @cons c d cs ds h1 h2 h3 ih =>
    have hd := digitOf_of_isDigit h1
    have hge : valueFrom b (v * b + d) ds ≥ v * b + d := valueFrom_ge (by omega) _ _
    have hv' : valueFrom b (v * b + d) ds < 18446744073709551616 := hv
    simp only [List.cons_append, loop64, hd]
    rw [if_neg (by omega)]
    apply ih (v * b + d) _ _ hv' hsafe.2
    rw [accum64_val b d x (by omega) (by omega) (by rw [hx]; exact hsafe.1), hx]
    omega

theorem safeFrom_pow2 {b k : Nat} (hb : b = 2 ^ k) (hk : k ≤ 31) (v : Nat) (ds : List Nat)
    (hd : ∀ d ∈ ds, d < b) : SafeFrom b v ds := by
  induction ds generalizing v with
  | nil => trivial
  | cons d ds ih =>
    refine ⟨?_, ih _ (fun x hx => hd x (by simp [hx]))⟩
    rintro ⟨h1, h2⟩
    have hdb : d < b := hd d (by simp)
    have e1 : (4294967296 : Nat) = b * 2 ^ (32 - k) := by
      rw [hb, ← Nat.pow_add, show k + (32 - k) = 32 by omega]
    have e2 : (2147483648 : Nat) = b * 2 ^ (31 - k) := by
      rw [hb, ← Nat.pow_add, show k + (31 - k) = 31 by omega]
    rw [e1, Nat.mul_comm v b, Nat.mul_mod_mul_left, e2] at h1 h2
    generalize v % 2 ^ (32 - k) = w at *
    generalize 2 ^ (31 - k) = z at *
    have h3 : w < z := Nat.lt_of_mul_lt_mul_left h1
    have h4 : b * (w + 1) ≤ b * z := Nat.mul_le_mul_left b h3
    rw [Nat.mul_add] at h4
    omega

theorem safeFrom_small {b : Nat} (hb : 2 ≤ b) (v : Nat) (ds : List Nat)
    (h : valueFrom b v ds < 2147483648) : SafeFrom b v ds := by
  induction ds generalizing v with
  | nil => trivial
  | cons d ds ih =>
    have h' : valueFrom b (v * b + d) ds < 2147483648 := h
    have := valueFrom_ge (b := b) (by omega) (v * b + d) ds
    refine ⟨?_, ih _ h'⟩
    rw [Nat.mod_eq_of_lt (by omega)]
    omega

theorem toObj_word (h : Heap) (x : U64) (h0 : 0 < h.alloc) {h' : Heap} {obj : Int}
    (hr : toObj h x = .ok (h', obj)) : (objWord h' obj).toNat = x.val := by
  unfold toObj at hr
  split at hr
  · rename_i hc
    injection hr with hr; injection hr with e1 e2; subst e1; subst e2
    unfold objWord
    rw [if_pos (by omega)]
    have e : x.lo.toInt = x.lo.toNat := by
      rw [BitVec.toInt_eq_toNat_cond]
      split
      · rfl
      · rename_i hn
        have := hc.1
        rw [BitVec.toInt_eq_toNat_cond, if_neg hn] at this
        have := x.lo.isLt
        omega
    rw [Int.neg_neg, e, BitVec.toNat_ofInt]
    simp only [U64.val, hc.2]
    have := x.lo.isLt
    simp
    omega
  · split at hr
    · cases hr
    · injection hr with hr; injection hr with e1 e2; subst e1; subst e2
      unfold objWord
      rw [if_neg (by omega)]
      have g0 : writeList h.mem h.alloc [x.lo.toInt, x.hi.toInt] h.alloc = x.lo.toInt :=
        writeList_get h.mem h.alloc [x.lo.toInt, x.hi.toInt] (i := 0) (by simp)
      have g1 : writeList h.mem h.alloc [x.lo.toInt, x.hi.toInt] (h.alloc + 1) = x.hi.toInt :=
        writeList_get h.mem h.alloc [x.lo.toInt, x.hi.toInt] (i := 1) (by simp)
      simp only [Int.toNat_natCast, g0, g1, BitVec.ofInt_toInt]
      rw [BitVec.toNat_append, U64.val]
      have := x.lo.isLt
      rw [Nat.shiftLeft_eq, Nat.mul_comm, Nat.two_pow_add_eq_or_of_lt this x.hi.toNat |>.symm]
      omega

end Verif.Lit
