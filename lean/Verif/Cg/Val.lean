import Verif.Cg.Sup
/-! Facts about values, conversions and words. -/
namespace Verif.Cg
open Verif Verif.Gen Verif.Gen.Spec Verif.X86 Verif.X86.Spec Spec

theorem sizeof_scalar {w : Nat} (hw : w = 4 ∨ w = 8) (T : Tags) {t : CTy} (h : scalar w t = true) :
    sizeof w T t = 1 ∨ sizeof w T t = 2 ∨ sizeof w T t = 4 ∨ (sizeof w T t = 8 ∧ w = 8) := by
  cases t <;> simp [scalar, isInt, isPtr] at h <;> simp [sizeof] <;> omega

theorem sizeof_le {w : Nat} (hw : w = 4 ∨ w = 8) (T : Tags) {t : CTy} (h : scalar w t = true) :
    1 ≤ sizeof w T t ∧ sizeof w T t ≤ w := by
  have := sizeof_scalar hw T h
  omega

theorem type_width_scalar {w : Nat} (T : Tags) {t : CTy} (h : scalar w t = true) (av : Bool) :
    type_width w T t av = .ok (sizeof w T t) := by
  cases t <;> simp [scalar, isInt, isPtr] at h <;> simp [type_width, sizeof]
  exact h

theorem type_width_true {w : Nat} (T : Tags) {t : CTy} {k : Nat} (h : type_width w T t true = .ok k) :
    k = sizeof w T t := by
  induction t generalizing k with
  | arr n t ih =>
    simp only [type_width, if_true, Res.bind_eq_ok] at h
    obtain ⟨j, h1, h2⟩ := h
    simp only [Res.ok.injEq] at h2
    rw [← h2, ih h1]; rfl
  | long u =>
    simp only [type_width] at h
    split at h <;> simp at h
    simp [sizeof, h]
  | _ => simp [type_width] at h; simp [sizeof, h]

theorem int_scalar {w : Nat} {t : CTy} (h : isInt t = true) (hl : ∀ u, t = .long u → w = 8) : scalar w t = true := by
  cases t <;> simp [isInt] at h <;> simp [scalar, isInt]
  exact hl _ rfl

/-- Powers of two as integers. -/
theorem ptwo_pos (k : Nat) : (0 : Int) < ((2 ^ k : Nat) : Int) := by
  have : 0 < 2 ^ k := Nat.pow_pos (by decide)
  omega

theorem ptwo_dvd {i j : Nat} (h : i ≤ j) : ((2 ^ i : Nat) : Int) ∣ ((2 ^ j : Nat) : Int) := by
  rw [Int.natCast_dvd_natCast]
  exact Nat.pow_dvd_pow 2 h

theorem bmod_emod_dvd {m n : Nat} (h : (n : Int) ∣ (m : Int)) (x : Int) : Int.bmod x m % n = x % n := by
  have h1 := Int.bmod_emod (x := x) (m := m)
  rw [← Int.emod_emod_of_dvd (Int.bmod x m) h, h1, Int.emod_emod_of_dvd _ h]

theorem conv_emod (C : Ctx) (t : CTy) (v : Int) {n : Nat} (h : n ≤ sizeof C.w C.T t) :
    conv C t v % (2 ^ (8 * n) : Nat) = v % (2 ^ (8 * n) : Nat) := by
  have hd := ptwo_dvd (i := 8 * n) (j := 8 * sizeof C.w C.T t) (by omega)
  unfold conv
  split
  · exact bmod_emod_dvd hd v
  · rw [Int.emod_emod_of_dvd _ hd]

theorem sgn_eq_iff {w : Nat} {x y : Int} : sgn w x = sgn w y ↔ x % (2 ^ (8 * w) : Nat) = y % (2 ^ (8 * w) : Nat) := by
  constructor
  · intro h
    have := congrArg (uns w) h
    rw [uns_sgn, uns_sgn] at this
    exact this
  · intro h; exact sgn_eq_of_uns h

theorem sgn_conv (C : Ctx) {t : CTy} (h : sizeof C.w C.T t = C.w) (v : Int) : sgn C.w (conv C t v) = sgn C.w v := by
  rw [sgn_eq_iff]
  exact conv_emod C t v (by omega)

theorem bmod_range {k : Nat} (hk : 1 ≤ k) (x : Int) :
    -((2 ^ (k - 1) : Nat) : Int) ≤ Int.bmod x (2 ^ k) ∧ Int.bmod x (2 ^ k) < ((2 ^ (k - 1) : Nat) : Int) := by
  have e : (2 ^ k : Nat) = 2 * 2 ^ (k - 1) := by rw [← Nat.pow_succ']; congr 1; omega
  have h1 := @Int.bmod_lt x (2 ^ k) (Nat.pow_pos (by decide))
  have h2 := @Int.le_bmod x (2 ^ k) (Nat.pow_pos (by decide))
  omega

theorem bmod_id {k : Nat} (hk : 1 ≤ k) {x : Int} (h : -((2 ^ (k - 1) : Nat) : Int) ≤ x)
    (h' : x < ((2 ^ (k - 1) : Nat) : Int)) : Int.bmod x (2 ^ k) = x := by
  have e : (2 ^ k : Nat) = 2 * 2 ^ (k - 1) := by rw [← Nat.pow_succ']; congr 1; omega
  apply Int.bmod_eq_of_le <;> omega

/-- Range of the values of a type of `k` bytes. -/
def InTy (k : Nat) (sg : Bool) (v : Int) : Prop :=
  if sg then -((2 ^ (8 * k - 1) : Nat) : Int) ≤ v ∧ v < ((2 ^ (8 * k - 1) : Nat) : Int)
  else 0 ≤ v ∧ v < ((2 ^ (8 * k) : Nat) : Int)

theorem conv_range (C : Ctx) (t : CTy) (hk : 1 ≤ sizeof C.w C.T t) (v : Int) :
    InTy (sizeof C.w C.T t) (isSigned t) (conv C t v) := by
  unfold conv InTy
  split
  · exact bmod_range (by omega) v
  · exact ⟨Int.emod_nonneg _ (by have := ptwo_pos (8 * sizeof C.w C.T t); omega), Int.emod_lt_of_pos _ (ptwo_pos _)⟩

theorem conv_id (C : Ctx) {t : CTy} (hk : 1 ≤ sizeof C.w C.T t) {v : Int}
    (h : InTy (sizeof C.w C.T t) (isSigned t) v) : conv C t v = v := by
  unfold InTy at h; unfold conv
  split
  · rename_i hs; rw [if_pos hs] at h; exact bmod_id (by omega) h.1 h.2
  · rename_i hs; rw [if_neg hs] at h; exact Int.emod_eq_of_lt h.1 h.2

theorem fits_iff (C : Ctx) {t : CTy} (hk : 1 ≤ sizeof C.w C.T t) {v : Int} :
    conv C t v = v ↔ InTy (sizeof C.w C.T t) (isSigned t) v :=
  ⟨fun h => by have := conv_range C t hk v; rwa [h] at this, conv_id C hk⟩

theorem conv_conv (C : Ctx) (t : CTy) (hk : 1 ≤ sizeof C.w C.T t) (v : Int) : conv C t (conv C t v) = conv C t v :=
  conv_id C hk (conv_range C t hk v)

theorem pow_le {i j : Nat} (h : i ≤ j) : ((2 ^ i : Nat) : Int) ≤ ((2 ^ j : Nat) : Int) := by
  have := Nat.pow_le_pow_right (n := 2) (by decide) h
  omega

/-- Widening. -/
theorem inTy_mono {k k' : Nat} {s s' : Bool} {v : Int} (hk : 1 ≤ k) (h : InTy k s v)
    (hc : (s = s' ∧ k ≤ k') ∨ (s = false ∧ s' = true ∧ k < k')) : InTy k' s' v := by
  have p1 := pow_le (i := 8 * k - 1) (j := 8 * k' - 1)
  have p2 := pow_le (i := 8 * k) (j := 8 * k')
  have p3 := pow_le (i := 8 * k) (j := 8 * k' - 1)
  unfold InTy at *
  rcases hc with ⟨rfl, hle⟩ | ⟨rfl, rfl, hlt⟩
  · have := p1 (by omega); have := p2 (by omega)
    cases s
    · rw [if_neg (by decide)] at h ⊢; omega
    · rw [if_pos rfl] at h ⊢; omega
  · have := p3 (by omega)
    rw [if_neg (by decide)] at h
    rw [if_pos rfl]
    omega

/-- A value of a type of at most `w` bytes is zero iff its word is. -/
theorem word_zero {w : Nat} (hw : w = 4 ∨ w = 8) {k : Nat} {s : Bool} {v : Int} (h1 : 1 ≤ k) (hk : k ≤ w) (h : InTy k s v) :
    sgn w v = 0 ↔ v = 0 := by
  have z : sgn w 0 = 0 := by rw [sgn]; simp
  constructor
  · intro hz
    rw [← z, sgn_eq_iff] at hz
    have p1 := pow_le (i := 8 * k - 1) (j := 8 * w - 1) (by omega)
    have p2 := pow_le (i := 8 * k) (j := 8 * w) (by omega)
    have hb : -((2 ^ (8 * w - 1) : Nat) : Int) ≤ v ∧ v < ((2 ^ (8 * w) : Nat) : Int) := by
      have p3 := pow_le (i := 8 * w - 1) (j := 8 * w) (by omega)
      unfold InTy at h
      have := ptwo_pos (8 * w - 1)
      split at h <;> omega
    rcases hw with rfl | rfl <;> omega
  · rintro rfl; exact z

theorem convOk_val {C : Ctx} (hw : C.w = 4 ∨ C.w = 8) {a b : CTy} (h : convOk C a b = true)
    (ha : scalar C.w a = true) {v : Int} (hv : conv C a v = v) : sgn C.w (conv C b v) = sgn C.w v := by
  unfold convOk at h
  rw [Bool.or_eq_true, decide_eq_true_eq] at h
  rcases h with h | h
  · exact sgn_conv C h v
  · simp only [Bool.and_eq_true, Bool.or_eq_true, beq_iff_eq, decide_eq_true_eq, Bool.not_eq_true'] at h
    have h1 := (sizeof_le hw C.T ha).1
    rw [conv_id C (v := v)]
    · rcases h.2 with ⟨_, h⟩ | ⟨_, h⟩ <;> omega
    · refine inTy_mono h1 ((fits_iff C h1).1 hv) ?_
      rcases h.2 with h | h
      · exact .inl h
      · exact .inr ⟨h.1.1, h.1.2, h.2⟩

theorem conv_zero {C : Ctx} (hw : C.w = 4 ∨ C.w = 8) {t : CTy} (h : scalar C.w t = true) {v : Int}
    (hv : conv C t v = v) : sgn C.w v = 0 ↔ v = 0 := by
  have h1 := sizeof_le hw C.T h
  exact word_zero hw h1.1 h1.2 ((fits_iff C h1.1).1 hv)

/-- The word a load leaves represents the value of the object. -/
theorem load_val {C : Ctx} (hw : C.w = 4 ∨ C.w = 8) {t : CTy} (h : scalar C.w t = true) (n : Nat) :
    sgn C.w (if is_signed_numeric_type t = true then Int.bmod n (2 ^ (8 * sizeof C.w C.T t)) else (n : Int) % (2 ^ (8 * sizeof C.w C.T t) : Nat)) =
    sgn C.w (conv C t n) := by
  unfold conv
  have key : sizeof C.w C.T t = C.w → sgn C.w (Int.bmod n (2 ^ (8 * sizeof C.w C.T t))) = sgn C.w ((n : Int) % (2 ^ (8 * sizeof C.w C.T t) : Nat)) := by
    intro e
    rw [e]
    show sgn C.w (sgn C.w n) = sgn C.w (uns C.w n)
    rw [sgn_sgn, sgn_uns]
  cases t <;> simp only [scalar, isInt, isPtr, Bool.false_or, Bool.or_true, Bool.or_false, Bool.false_eq_true] at h
  case ptr t => simpa [is_signed_numeric_type, isSigned] using key rfl
  all_goals simp [is_signed_numeric_type, isSigned]
end Verif.Cg
