import Verif.Cg.Arith
/-! The words computed by the arithmetic operators represent the results in C. -/
namespace Verif.Cg
open Verif Verif.Gen Verif.Gen.Spec Verif.X86 Verif.X86.Spec Spec

theorem sgn_of_inTy {w : Nat} (hw : w = 4 ∨ w = 8) {k : Nat} {s : Bool} {v : Int} (h1 : 1 ≤ k) (h : InTy k s v)
    (hk : (s = true ∧ k ≤ w) ∨ k < w) : sgn w v = v := by
  have : InTy w true v := by
    cases s
    · rcases hk with h' | h'
      · cases h'.1
      · exact inTy_mono h1 h (.inr ⟨rfl, rfl, h'⟩)
    · exact inTy_mono h1 h (.inl ⟨rfl, by rcases hk with h' | h' <;> omega⟩)
  simp only [InTy, if_true] at this
  exact sgn_id hw this.1 this.2

theorem uns_of_inTy {w k : Nat} {s : Bool} {v : Int} (h : InTy k s v) (hk : k ≤ w) (h0 : 0 ≤ v) :
    uns w v = v := by
  have p1 := pow_le (i := 8 * k - 1) (j := 8 * w) (by omega)
  have p2 := pow_le (i := 8 * k) (j := 8 * w) (by omega)
  refine uns_of_lt h0 ?_
  unfold InTy at h
  split at h <;> omega

theorem chk_sgn {C : Ctx} {t : CTy} (h : isSigned t = true ∨ sizeof C.w C.T t = C.w) {r v : Int}
    (hv : chk C t r = some v) : sgn C.w v = sgn C.w r := by
  unfold chk at hv
  split at hv
  · split at hv <;> simp at hv; rw [hv]
  · rename_i hs
    simp only [Option.some.injEq] at hv
    rw [← hv]
    exact sgn_conv C (h.resolve_left hs) r

theorem chk_low {C : Ctx} {t : CTy} {n : Nat} (hn : n ≤ sizeof C.w C.T t) {r v : Int}
    (hv : chk C t r = some v) : v % (2 ^ (8 * n) : Nat) = r % (2 ^ (8 * n) : Nat) := by
  unfold chk at hv
  split at hv
  · split at hv <;> simp at hv; rw [hv]
  · simp only [Option.some.injEq] at hv
    rw [← hv]
    exact conv_emod C t r hn

theorem chk_fits {C : Ctx} {t : CTy} (hk : 1 ≤ sizeof C.w C.T t) {r v : Int} (hv : chk C t r = some v) :
    conv C t v = v := by
  unfold chk at hv
  split at hv
  · split at hv <;> simp at hv; subst hv; assumption
  · simp only [Option.some.injEq] at hv
    rw [← hv]
    exact conv_conv C t hk r

theorem tdiv_le {a b : Int} (ha : 0 ≤ a) (hb : 0 ≤ b) : 0 ≤ a.tdiv b ∧ a.tdiv b ≤ a := by
  rw [Int.tdiv_eq_ediv_of_nonneg ha]
  exact ⟨Int.ediv_nonneg ha hb, Int.ediv_le_self b ha⟩

theorem inTy_le {k : Nat} {s : Bool} {a v : Int} (h : InTy k s a) (h0 : 0 ≤ v) (hle : v ≤ a) : InTy k s v := by
  unfold InTy at *
  have := ptwo_pos (8 * k - 1)
  split at h <;> rename_i hs <;> first | rw [if_pos hs] | rw [if_neg hs] <;> omega
  all_goals omega

theorem chk_id {C : Ctx} {t : CTy} (hk : 1 ≤ sizeof C.w C.T t) {r v : Int}
    (hr : isSigned t = true ∨ InTy (sizeof C.w C.T t) (isSigned t) r) (hv : chk C t r = some v) : v = r := by
  unfold chk at hv
  split at hv
  · split at hv <;> simp at hv; rw [hv]
  · rename_i hs
    simp only [Option.some.injEq] at hv
    rw [← hv]
    exact conv_id C hk (hr.resolve_left hs)

theorem inTy_unsigned {k : Nat} {v : Int} : InTy k false v ↔ 0 ≤ v ∧ v < (2 ^ (8 * k) : Nat) := by simp [InTy]

theorem shift_cnt {w : Nat} (hw : w = 4 ∨ w = 8) {b : Int} (h0 : 0 ≤ b) {k : Nat} (hk : k ≤ w) (h1 : b < 8 * k) :
    (sgn w b % (8 * w : Nat)).toNat = b.toNat := by
  have := ptwo_pos (8 * w - 1)
  rw [sgn_id hw (by omega) (by rcases hw with rfl | rfl <;> omega), Int.emod_eq_of_lt h0 (by push_cast; omega)]

theorem ediv_pow_le {a : Int} (ha : 0 ≤ a) (n : Nat) : 0 ≤ a / 2 ^ n ∧ a / 2 ^ n ≤ a :=
  ⟨Int.ediv_nonneg ha (Int.le_of_lt (Int.pow_pos (by decide))), Int.ediv_le_self _ ha⟩

theorem bmod_of_inTy {k : Nat} (hk : 1 ≤ k) {a : Int} (h : InTy k true a) : Int.bmod a (2 ^ (8 * k)) = a := by
  simp only [InTy, if_true] at h
  exact bmod_id (by omega) h.1 h.2

/-- Bitwise operators, full words. -/
theorem bit_full {C : Ctx} (hw : C.w = 4 ∨ C.w = 8) {f : BF} (hf : Bitwise f) {t : CTy} (h1 : 1 ≤ sizeof C.w C.T t)
    (hk : sizeof C.w C.T t ≤ C.w) {a b : Int} (ha : InTy (sizeof C.w C.T t) (isSigned t) a)
    (hb : InTy (sizeof C.w C.T t) (isSigned t) b) :
    bits C.w (f _) (sgn C.w a) (sgn C.w b) = sgn C.w (bitop C t f a b) := by
  have emod : ∀ x : Int, sgn C.w x % (2 ^ (8 * C.w) : Nat) = x % (2 ^ (8 * C.w) : Nat) := fun x => uns_sgn C.w x
  by_cases he : sizeof C.w C.T t = C.w
  · rw [bitop, sgn_conv C he, ← sgn_bits, sgn_eq_iff]
    unfold bits
    exact bitwise_low hf (Nat.le_refl _) (by omega) (emod a) (emod b)
  · have hlt : sizeof C.w C.T t < C.w := by omega
    rw [sgn_of_inTy hw h1 ha (.inr hlt), sgn_of_inTy hw h1 hb (.inr hlt)]
    unfold bits bitop
    have hr := conv_range C t h1 (f (8 * sizeof C.w C.T t) (BitVec.ofInt _ a) (BitVec.ofInt _ b)).toInt
    rw [sgn_of_inTy hw h1 hr (.inr hlt)]
    cases hs : isSigned t
    · rw [hs] at ha hb
      rw [inTy_unsigned] at ha hb
      rw [bitwise_unsigned hf (k := 8 * sizeof C.w C.T t) (by omega) ha.1 ha.2 hb.1 hb.2]
      simp [conv, hs]
    · rw [hs] at ha hb
      rw [bitwise_signed hf (k := 8 * sizeof C.w C.T t) (by omega) (by omega) (bmod_of_inTy h1 ha) (bmod_of_inTy h1 hb)]
      simp only [conv, hs, if_true]
      rw [BitVec.toInt_eq_toNat_bmod, Int.bmod_bmod]

theorem arith_full {C : Ctx} (hw : C.w = 4 ∨ C.w = 8) {op : Bop} {t : CTy} (h1 : 1 ≤ sizeof C.w C.T t)
    (hk : sizeof C.w C.T t ≤ C.w) {a b v : Int} (ha : InTy (sizeof C.w C.T t) (isSigned t) a)
    (hb : isShift op = true ∨ InTy (sizeof C.w C.T t) (isSigned t) b) {ps na nb : Bool}
    (hok : arithOk C op t ps na nb = true) (hna : na = true → 0 ≤ a) (hnb : nb = true → 0 ≤ b)
    (hv : arith C op t a b = some v) : wordOp C.w op ps (sgn C.w a) (sgn C.w b) = some (sgn C.w v) := by
  simp only [arithOk, Bool.or_eq_true, Bool.and_eq_true, Bool.not_eq_true', decide_eq_true_eq] at hok
  have hwrap : shrinks op = false → isSigned t = true ∨ sizeof C.w C.T t = C.w := by
    intro hs
    rcases hok with (h | h) | h
    · exact .inl h.1
    · exact .inr h.1.2
    · rw [hs] at h; simp at h
  -- operands known to be nonnegative, or a signed instruction on a signed type
  have hcase : insens op = false → (isSigned t = true ∧ ps = true) ∨
      (0 ≤ a ∧ (isShift op = true ∨ 0 ≤ b) ∧ (ps = true → isSigned t = true ∨ sizeof C.w C.T t < C.w)) := by
    intro hi
    rw [hi] at hok
    rcases hok with (h | h) | h
    · rcases h.2 with (h' | h') | h'
      · cases h'
      · exact .inl ⟨h.1, h'⟩
      · exact .inr ⟨hna h'.1, .inr (hnb h'.2), fun _ => .inl h.1⟩
    · have hu := h.1.1
      rw [hu, inTy_unsigned] at ha
      refine .inr ⟨ha.1, ?_, ?_⟩
      · rcases hb with hb | hb
        · exact .inl hb
        · rw [hu, inTy_unsigned] at hb; exact .inr hb.1
      · intro hp; rcases h.2 with h' | h'
        · cases h'
        · rw [hp] at h'; cases h'
    · exact .inr ⟨hna h.1.2, .inr (hnb h.2), fun _ => .inr h.1.1.1.2⟩
  have hsa : isSigned t = true ∨ sizeof C.w C.T t < C.w → sgn C.w a = a := by
    intro h
    exact sgn_of_inTy hw h1 ha (h.imp (fun h => ⟨h, hk⟩) id)
  cases op <;> simp only [arith, reduceCtorEq] at hv <;> simp only [wordOp]
  case add =>
    rw [chk_sgn (hwrap rfl) hv, sgn_add_l, sgn_add_r]
  case sub =>
    rw [chk_sgn (hwrap rfl) hv, sgn_sub_l, sgn_sub_r]
  case mul =>
    rw [chk_sgn (hwrap rfl) hv, sgn_mul_l, sgn_mul_r]
  case div =>
    have hb := hb.resolve_left (by decide)
    have hsb : isSigned t = true ∨ sizeof C.w C.T t < C.w → sgn C.w b = b := by
      intro h
      exact sgn_of_inTy hw h1 hb (h.imp (fun h => ⟨h, hk⟩) id)
    split at hv
    · cases hv
    · rename_i hb0
      rcases hcase rfl with ⟨hs, rfl⟩ | ⟨ha0, hb0', hps⟩
      · have hvq := chk_id h1 (.inl hs) hv
        rw [hsa (.inl hs), hsb (.inl hs), if_pos rfl, if_neg hb0, ← hvq]
        have hf := (fits_iff C h1).1 (chk_fits h1 hv)
        rw [if_pos (sgn_of_inTy hw h1 hf (.inl ⟨hs, hk⟩)), sgn_of_inTy hw h1 hf (.inl ⟨hs, hk⟩)]
      · have hb0' := hb0'.resolve_left (by decide)
        have hq := tdiv_le ha0 hb0'
        have hvq := chk_id h1 (.inr (inTy_le ha hq.1 hq.2)) hv
        cases ps
        · rw [if_neg (by decide), uns_sgn, uns_sgn, uns_of_inTy ha hk ha0, uns_of_inTy hb hk hb0', if_neg hb0, hvq,
            Int.tdiv_eq_ediv_of_nonneg ha0]
        · have := hps rfl
          have hs := sgn_of_inTy hw h1 (inTy_le ha hq.1 hq.2) (this.imp (fun h => ⟨h, hk⟩) id)
          rw [if_pos rfl, hsa this, hsb this, if_neg hb0, if_pos hs, hvq, hs]
  case mod =>
    have hb := hb.resolve_left (by decide)
    have hsb : isSigned t = true ∨ sizeof C.w C.T t < C.w → sgn C.w b = b := by
      intro h
      exact sgn_of_inTy hw h1 hb (h.imp (fun h => ⟨h, hk⟩) id)
    split at hv
    · cases hv
    · rename_i hb0
      rw [Option.bind_eq_some_iff] at hv
      obtain ⟨q, hv, hv'⟩ := hv
      simp only [Option.some.injEq] at hv'
      rcases hcase rfl with ⟨hs, rfl⟩ | ⟨ha0, hb0', hps⟩
      · have hvq := chk_id h1 (.inl hs) hv
        have hf := (fits_iff C h1).1 (chk_fits h1 hv)
        rw [hsa (.inl hs), hsb (.inl hs), if_pos rfl, if_neg hb0, ← hvq, if_pos (sgn_of_inTy hw h1 hf (.inl ⟨hs, hk⟩)), hv']
        congr 1
        symm
        refine sgn_of_inTy hw h1 (k := sizeof C.w C.T t) (s := true) ?_ (.inl ⟨rfl, hk⟩)
        rw [hs] at ha
        rw [← hv']
        simp only [InTy, if_true] at ha ⊢
        rcases Int.le_total 0 a with hp | hp
        · have := Int.tmod_nonneg b hp
          have := tmod_le (b := b) hp
          omega
        · have e : a.tmod b = -((-a).tmod b) := by rw [Int.neg_tmod, Int.neg_neg]
          have := Int.tmod_nonneg b (a := -a) (by omega)
          have := tmod_le (a := -a) (b := b) (by omega)
          omega
      · have hb0' := hb0'.resolve_left (by decide)
        have hq := tdiv_le ha0 hb0'
        have hr1 := Int.tmod_nonneg b ha0
        have hr2 := tmod_le (b := b) ha0
        cases ps
        · rw [if_neg (by decide), uns_sgn, uns_sgn, uns_of_inTy ha hk ha0, uns_of_inTy hb hk hb0', if_neg hb0, ← hv',
            Int.tmod_eq_emod_of_nonneg ha0]
        · have := hps rfl
          have hs := sgn_of_inTy hw h1 (inTy_le ha hq.1 hq.2) (this.imp (fun h => ⟨h, hk⟩) id)
          have hs2 := sgn_of_inTy hw h1 (inTy_le ha hr1 hr2) (this.imp (fun h => ⟨h, hk⟩) id)
          rw [if_pos rfl, hsa this, hsb this, if_neg hb0, if_pos hs, ← hv', hs2]
  case band =>
    simp only [Option.some.injEq] at hv
    rw [← hv, ← bit_full hw bitwise_and h1 hk ha (hb.resolve_left (by decide))]
  case bor =>
    simp only [Option.some.injEq] at hv
    rw [← hv, ← bit_full hw bitwise_or h1 hk ha (hb.resolve_left (by decide))]
  case bxor =>
    simp only [Option.some.injEq] at hv
    rw [← hv, ← bit_full hw bitwise_xor h1 hk ha (hb.resolve_left (by decide))]
  case shl =>
    split at hv
    · rename_i hc
      rw [chk_sgn (hwrap rfl) hv, shift_cnt hw hc.1 hk hc.2.1, sgn_mul_l]
    · cases hv
  case shr =>
    split at hv
    · rename_i hc
      simp only [Option.some.injEq] at hv
      rw [shift_cnt hw hc.1 hk hc.2, ← hv]
      rcases hcase rfl with ⟨hs, rfl⟩ | ⟨ha0, _, hps⟩
      · have e := hsa (.inl hs)
        rw [if_pos rfl, e, sgn_ediv hw e (Int.pow_pos (by decide))]
      · cases ps
        · rw [if_neg (by decide), uns_sgn, uns_of_inTy ha hk ha0]
        · have e := hsa (hps rfl)
          rw [if_pos rfl, e, sgn_ediv hw e (Int.pow_pos (by decide))]
    · cases hv

theorem emod_low {w n : Nat} (hn : n ≤ w) (x : Int) : sgn w x % (2 ^ (8 * n) : Nat) = x % (2 ^ (8 * n) : Nat) :=
  bmod_emod_dvd (ptwo_dvd (by omega)) x

/-- The low bytes of the results of some operators depend only on the low bytes of the operands. -/
theorem arith_low {C : Ctx} (hw : C.w = 4 ∨ C.w = 8) {op : Bop} {t : CTy} {n : Nat} (hn : n ≤ sizeof C.w C.T t)
    (hk : sizeof C.w C.T t ≤ C.w) {a b v x y : Int} (hop : lowOp op = true)
    (hx : x % (2 ^ (8 * n) : Nat) = a % (2 ^ (8 * n) : Nat))
    (hy : if isShift op = true then y = sgn C.w b else y % (2 ^ (8 * n) : Nat) = b % (2 ^ (8 * n) : Nat))
    (hv : arith C op t a b = some v) (ps : Bool) :
    ∃ z, wordOp C.w op ps x y = some z ∧ z % (2 ^ (8 * n) : Nat) = v % (2 ^ (8 * n) : Nat) := by
  have hnw : n ≤ C.w := by omega
  cases op <;> simp only [lowOp, Bool.false_eq_true] at hop <;> simp only [arith] at hv <;> simp only [wordOp, isShift, Bool.false_eq_true, if_false, if_true] at hy ⊢
  case add =>
    refine ⟨_, rfl, ?_⟩
    rw [emod_low hnw, chk_low hn hv, Int.add_emod, hx, hy, ← Int.add_emod]
  case sub =>
    refine ⟨_, rfl, ?_⟩
    rw [emod_low hnw, chk_low hn hv, Int.sub_emod, hx, hy, ← Int.sub_emod]
  case mul =>
    refine ⟨_, rfl, ?_⟩
    rw [emod_low hnw, chk_low hn hv, Int.mul_emod, hx, hy, ← Int.mul_emod]
  case band =>
    simp only [Option.some.injEq] at hv
    refine ⟨_, rfl, ?_⟩
    rw [← hv, bitop, conv_emod C t _ hn]
    exact bitwise_low bitwise_and (by omega) (by omega) hx hy
  case bor =>
    simp only [Option.some.injEq] at hv
    refine ⟨_, rfl, ?_⟩
    rw [← hv, bitop, conv_emod C t _ hn]
    exact bitwise_low bitwise_or (by omega) (by omega) hx hy
  case bxor =>
    simp only [Option.some.injEq] at hv
    refine ⟨_, rfl, ?_⟩
    rw [← hv, bitop, conv_emod C t _ hn]
    exact bitwise_low bitwise_xor (by omega) (by omega) hx hy
  case shl =>
    split at hv
    · rename_i hc
      refine ⟨_, rfl, ?_⟩
      rw [hy, emod_low hnw, chk_low hn hv, shift_cnt hw hc.1 hk hc.2.1, Int.mul_emod, hx, ← Int.mul_emod]
    · cases hv

/-- The comparison the machine makes. -/
theorem cmp_full {C : Ctx} (hw : C.w = 4 ∨ C.w = 8) {op : Bop} (hop : op.isCmp = true) {k : Nat} {s : Bool} (h1 : 1 ≤ k)
    (hk : k ≤ C.w) {a b : Int} (ha : InTy k s a) (hb : InTy k s b) {ps : Bool}
    (hok : (s = true ∧ (insens op = true ∨ ps = true ∨ (0 ≤ a ∧ 0 ≤ b))) ∨
      (s = false ∧ k = C.w ∧ (insens op = true ∨ ps = false)) ∨ (s = false ∧ k < C.w)) :
    ∃ cc, cmp_cond ps op = some cc ∧ X86.Spec.cond C.w cc (sgn C.w a) (sgn C.w b) = some (cmpz op a b) := by
  have hinj : sgn C.w a = sgn C.w b ↔ a = b := by
    constructor
    · intro h
      rw [sgn_eq_iff] at h
      have p1 := pow_le (i := 8 * k - 1) (j := 8 * C.w - 1) (by omega)
      have p2 := pow_le (i := 8 * k) (j := 8 * C.w) (by omega)
      unfold InTy at ha hb
      cases s
      · simp only [Bool.false_eq_true, if_false] at ha hb
        rwa [Int.emod_eq_of_lt ha.1 (by omega), Int.emod_eq_of_lt hb.1 (by omega)] at h
      · simp only [if_true] at ha hb
        rcases hw with e | e <;> rw [e] at h p1 <;> omega
    · rintro rfl; rfl
  have key : insens op = false → (ps = true ∧ sgn C.w a = a ∧ sgn C.w b = b) ∨
      (ps = false ∧ uns C.w (sgn C.w a) = a ∧ uns C.w (sgn C.w b) = b) := by
    intro hi
    rw [hi] at hok
    have hU : 0 ≤ a → 0 ≤ b → uns C.w (sgn C.w a) = a ∧ uns C.w (sgn C.w b) = b := by
      intro h0 h0'
      rw [uns_sgn, uns_sgn]
      exact ⟨uns_of_inTy ha hk h0, uns_of_inTy hb hk h0'⟩
    have hS : (s = true ∧ k ≤ C.w) ∨ k < C.w → sgn C.w a = a ∧ sgn C.w b = b := fun h =>
      ⟨sgn_of_inTy hw h1 ha h, sgn_of_inTy hw h1 hb h⟩
    have nn : s = false → 0 ≤ a ∧ 0 ≤ b := by
      rintro rfl
      rw [inTy_unsigned] at ha hb
      exact ⟨ha.1, hb.1⟩
    cases ps
    · right
      refine ⟨rfl, ?_⟩
      rcases hok with ⟨_, h | h | h⟩ | ⟨h, _⟩ | ⟨h, _⟩
      · cases h
      · cases h
      · exact hU h.1 h.2
      · exact hU (nn h).1 (nn h).2
      · exact hU (nn h).1 (nn h).2
    · left
      refine ⟨rfl, ?_⟩
      rcases hok with ⟨h, _⟩ | ⟨_, _, h⟩ | ⟨_, h⟩
      · exact hS (.inl ⟨h, hk⟩)
      · rcases h with h | h <;> cases h
      · exact hS (.inr h)
  cases op <;> simp only [Bop.isCmp, Bool.false_eq_true] at hop <;> simp only [cmp_cond]
  case eq => exact ⟨_, rfl, by simp [X86.Spec.cond, cmpz, hinj]⟩
  case ne => exact ⟨_, rfl, by simp [X86.Spec.cond, cmpz, hinj]⟩
  all_goals
    rcases key rfl with ⟨rfl, e1, e2⟩ | ⟨rfl, e1, e2⟩
    · exact ⟨_, rfl, by simp [X86.Spec.cond, cmpz, e1, e2]⟩
    · exact ⟨_, rfl, by simp [X86.Spec.cond, cmpz, e1, e2]⟩

end Verif.Cg
