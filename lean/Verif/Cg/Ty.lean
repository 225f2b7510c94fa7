import Verif.Cg.Pure
/-! Values are in the range of their type. -/
namespace Verif.Cg
open Verif Verif.Gen Verif.Gen.Spec Verif.X86 Verif.X86.Spec Spec

/-- The value of an expression of scalar type. -/
def Fits (C : Ctx) (t : CTy) (v : Int) : Prop := scalar C.w t = true ∧ conv C t v = v

theorem Fits.inTy {C : Ctx} (hw : C.w = 4 ∨ C.w = 8) {t : CTy} {v : Int} (h : Fits C t v) :
    InTy (sizeof C.w C.T t) (isSigned t) v := (fits_iff C (sizeof_le hw C.T h.1).1).1 h.2

theorem fits_of_inTy {C : Ctx} (hw : C.w = 4 ∨ C.w = 8) {t : CTy} {v : Int} (hs : scalar C.w t = true)
    (h : InTy (sizeof C.w C.T t) (isSigned t) v) : Fits C t v := ⟨hs, conv_id C (sizeof_le hw C.T hs).1 h⟩

theorem fits_ptr {C : Ctx} (hw : C.w = 4 ∨ C.w = 8) {t : CTy} {v : Int} :
    Fits C (.ptr t) v ↔ 0 ≤ v ∧ v < (2 ^ (8 * C.w) : Nat) := by
  rw [← inTy_unsigned]
  exact ⟨fun h => h.inTy hw, fun h => fits_of_inTy hw rfl h⟩

theorem fits_int {C : Ctx} (hw : C.w = 4 ∨ C.w = 8) {v : Int} (h : -2147483648 ≤ v) (h' : v < 2147483648) :
    Fits C (.int false) v := by
  refine fits_of_inTy hw rfl ?_
  simp only [sizeof, isSigned, InTy, Bool.not_false, if_true]
  omega

theorem fits_b2i {C : Ctx} (hw : C.w = 4 ∨ C.w = 8) (b : Bool) : Fits C (.int false) (b2i b) := by
  cases b <;> exact fits_int hw (by decide) (by decide)

theorem promote_ty {w : Nat} {t t' : CTy} (h : promote w t = some t') (hs : scalar w t = true) : scalar w t' = true := by
  cases t <;> simp only [promote, Option.some.injEq, reduceCtorEq] at h <;> subst h
  case enum => by_cases e : w = 8 <;> simp [e, scalar, isInt]
  all_goals simp_all [scalar, isInt, isPtr]

theorem promote_int {w : Nat} {t t' : CTy} (h : promote w t = some t') : isInt t' = true ∧ isInt t = true := by
  cases t <;> simp only [promote, Option.some.injEq, reduceCtorEq] at h <;> subst h
  case enum => by_cases e : w = 8 <;> simp [e, isInt]
  all_goals simp [isInt]

theorem promote_fits {C : Ctx} (hw : C.w = 4 ∨ C.w = 8) {t t' : CTy} (h : promote C.w t = some t') {v : Int}
    (hv : Fits C t v) : Fits C t' v := by
  have hs := promote_ty h hv.1
  refine fits_of_inTy hw hs (inTy_mono (sizeof_le hw C.T hv.1).1 (hv.inTy hw) ?_)
  cases t <;> simp only [promote, Option.some.injEq, reduceCtorEq] at h <;> subst h
  case char u => cases u <;> simp [sizeof, isSigned]
  case short u => cases u <;> simp [sizeof, isSigned]
  case int u => simp
  case long u => simp
  case enum => rcases hw with e | e <;> rw [e] <;> simp [sizeof, isSigned]

theorem common_ty {w : Nat} {a b : CTy} (ha : scalar w a = true) (hb : scalar w b = true) : scalar w (common a b) = true := by
  unfold common
  split <;> simp_all [scalar, isInt]

theorem common_int (a b : CTy) : isInt (common a b) = true := by
  unfold common
  split <;> simp_all [isInt]

theorem usual_ty {w : Nat} {a b t : CTy} (h : usual w a b = some t) (ha : scalar w a = true) (hb : scalar w b = true) :
    scalar w t = true ∧ isInt t = true := by
  simp only [usual, Option.bind_eq_some_iff, Option.some.injEq] at h
  obtain ⟨a', h1, b', h2, rfl⟩ := h
  exact ⟨common_ty (promote_ty h1 ha) (promote_ty h2 hb), common_int _ _⟩

theorem usual_signed {C : Ctx} (hw : C.w = 4 ∨ C.w = 8) {a b t : CTy} (h : usual C.w a b = some t)
    (hs : isSigned t = true) {v u : Int} (hv : Fits C a v) (hu : Fits C b u) : conv C t v = v ∧ conv C t u = u := by
  simp only [usual, Option.bind_eq_some_iff, Option.some.injEq] at h
  obtain ⟨a', h1, b', h2, rfl⟩ := h
  have hv' := promote_fits hw h1 hv
  have hu' := promote_fits hw h2 hu
  have ht := common_ty hv'.1 hu'.1
  have k1 := (sizeof_le hw C.T ht).1
  have i1 := promote_int h1
  have i2 := promote_int h2
  have p1 : a' = .int false ∨ a' = .int true ∨ ∃ u, a' = .long u := by
    cases a <;> simp only [promote, Option.some.injEq, reduceCtorEq] at h1 <;> subst h1
    case int u => cases u <;> simp
    case enum => split <;> simp
    all_goals simp
  have p2 : b' = .int false ∨ b' = .int true ∨ ∃ u, b' = .long u := by
    cases b <;> simp only [promote, Option.some.injEq, reduceCtorEq] at h2 <;> subst h2
    case int u => cases u <;> simp
    case enum => split <;> simp
    all_goals simp
  have e1 := hv'.inTy hw
  have e2 := hu'.inTy hw
  refine ⟨conv_id C k1 (inTy_mono (sizeof_le hw C.T hv'.1).1 e1 ?_), conv_id C k1 (inTy_mono (sizeof_le hw C.T hu'.1).1 e2 ?_)⟩ <;>
  rcases p1 with rfl | rfl | ⟨u1, rfl⟩ <;> rcases p2 with rfl | rfl | ⟨u2, rfl⟩ <;> simp_all [common, isSigned, sizeof]

theorem arith_fits {C : Ctx} (hw : C.w = 4 ∨ C.w = 8) {op : Bop} {t : CTy} (ht : scalar C.w t = true) {a b v : Int}
    (ha : InTy (sizeof C.w C.T t) (isSigned t) a) (h : arith C op t a b = some v) : Fits C t v := by
  have h1 := (sizeof_le hw C.T ht).1
  cases op <;> simp only [arith, reduceCtorEq] at h
  case add => exact ⟨ht, chk_fits h1 h⟩
  case sub => exact ⟨ht, chk_fits h1 h⟩
  case mul => exact ⟨ht, chk_fits h1 h⟩
  case div =>
    split at h
    · cases h
    · exact ⟨ht, chk_fits h1 h⟩
  case mod =>
    split at h
    · cases h
    · simp only [Option.bind_eq_some_iff, Option.some.injEq] at h
      obtain ⟨q, h2, rfl⟩ := h
      refine fits_of_inTy hw ht ?_
      rcases Int.le_total 0 a with hp | hp
      · exact inTy_le ha (Int.tmod_nonneg b hp) (tmod_le hp)
      · have e : a.tmod b = -((-a).tmod b) := by rw [Int.neg_tmod, Int.neg_neg]
        have h3 := Int.tmod_nonneg b (a := -a) (by omega)
        have h4 := tmod_le (a := -a) (b := b) (by omega)
        cases hs : isSigned t
        · rw [hs, inTy_unsigned] at ha
          have : a = 0 := by omega
          subst this
          rw [inTy_unsigned]; simp; exact ptwo_pos _
        · rw [hs] at ha
          simp only [InTy, if_true] at ha ⊢
          have := ptwo_pos (8 * sizeof C.w C.T t - 1)
          omega
  case band => simp only [Option.some.injEq] at h; subst h; exact ⟨ht, conv_conv C t h1 _⟩
  case bor => simp only [Option.some.injEq] at h; subst h; exact ⟨ht, conv_conv C t h1 _⟩
  case bxor => simp only [Option.some.injEq] at h; subst h; exact ⟨ht, conv_conv C t h1 _⟩
  case shl =>
    split at h
    · exact ⟨ht, chk_fits h1 h⟩
    · cases h
  case shr =>
    split at h
    · simp only [Option.some.injEq] at h
      subst h
      refine fits_of_inTy hw ht ?_
      have hp : (0:Int) < 2 ^ b.toNat := Int.pow_pos (by decide)
      cases hs : isSigned t
      · rw [hs, inTy_unsigned] at ha
        have := ediv_pow_le ha.1 b.toNat
        rw [inTy_unsigned]; omega
      · rw [hs] at ha
        simp only [InTy, if_true] at ha ⊢
        exact ediv_bounds hp (Int.le_of_lt (ptwo_pos _)) ha.1 ha.2
    · cases h

theorem binV_fits {C : Ctx} (hw : C.w = 4 ∨ C.w = 8) {op : Bop} {ta tb : CTy} {a b v : Int}
    (ha : isInt ta = true → isInt tb = true → Fits C ta a ∧ Fits C tb b) (h : binV C op ta tb a b = some v) :
    ∃ t, binTy C.w op ta tb = some t ∧ Fits C t v := by
  unfold binV at h
  unfold binTy
  split at h
  · rename_i hi
    have hi' := hi
    rw [Bool.and_eq_true] at hi'
    obtain ⟨ha, hb⟩ := ha hi'.1 hi'.2
    split at h
    · rename_i hc
      simp only [Option.bind_eq_some_iff, Option.some.injEq] at h
      obtain ⟨t, _, rfl⟩ := h
      rw [if_pos hc]
      exact ⟨_, rfl, fits_b2i hw _⟩
    · rename_i hc
      rw [if_neg hc, if_pos hi]
      split at h
      · rename_i hsh
        simp only [Option.bind_eq_some_iff] at h
        obtain ⟨t, h1, h2⟩ := h
        have hf := promote_fits hw h1 ha
        exact ⟨t, by rw [if_pos hsh, h1], arith_fits hw hf.1 (hf.inTy hw) h2⟩
      · rename_i hsh
        simp only [Option.bind_eq_some_iff] at h
        obtain ⟨t, h1, h2⟩ := h
        have ht := usual_ty h1 ha.1 hb.1
        exact ⟨t, by rw [if_neg hsh, h1], arith_fits hw ht.1 (conv_range C t (sizeof_le hw C.T ht.1).1 a) h2⟩
  · rename_i hi
    have hp : ∀ {r v : Int} {t : CTy}, chkP C r = some v → Fits C (.ptr t) v := by
      intro r v t h
      unfold chkP at h
      split at h <;> simp at h
      subst h
      rw [fits_ptr hw]; assumption
    split at h
    case h_1 tb0 t =>
      split at h
      · rename_i hb
        exact ⟨.ptr t, by rw [if_neg (by decide), if_neg hi]; simp [hb], hp h⟩
      · cases h
    case h_2 ta0 t hnp =>
      split at h
      · rename_i hb
        refine ⟨.ptr t, ?_, hp h⟩
        rw [if_neg (by decide), if_neg hi]
        simp [hb]
      · cases h
    case h_3 t t' =>
      split at h
      · rename_i hc
        simp only [Option.some.injEq] at h
        obtain ⟨rfl, h0, hd, hm⟩ := hc
        refine ⟨_, by simp [Bop.isCmp, isInt]; rfl, ?_⟩
        have key : InTy C.w true v := by
          have := bmod_range (k := 8 * C.w) (by omega) (a - b)
          rw [hm] at this
          simp only [InTy, if_true]
          rw [← h]
          exact ediv_bounds (by omega) (Int.le_of_lt (ptwo_pos _)) this.1 this.2
        rcases hw with e | e
        · rw [if_neg (by omega)]
          refine fits_of_inTy (.inl e) rfl ?_
          rw [e] at key; simpa [sizeof, isSigned] using key
        · rw [if_pos e]
          refine fits_of_inTy (.inr e) (by simp [scalar, e]) ?_
          rw [e] at key; simpa [sizeof, isSigned] using key
      · cases h
    case h_4 tb0 t hnp =>
      split at h
      · rename_i hb
        refine ⟨.ptr t, ?_, hp h⟩
        rw [if_neg (by decide), if_neg hi]
        split <;> simp_all [isInt]
      · cases h
    case h_5 =>
      split at h
      · simp only [Option.some.injEq] at h
        subst h
        exact ⟨.int false, by simp [Bop.isCmp], fits_b2i hw _⟩
      · cases h
    case h_6 =>
      split at h
      · simp only [Option.some.injEq] at h
        subst h
        exact ⟨.int false, by simp [Bop.isCmp], fits_b2i hw _⟩
      · cases h
    case h_11 => cases h
    all_goals
      split at h
      · simp only [Option.some.injEq] at h
        subst h
        exact ⟨.int false, by simp [Bop.isCmp], fits_b2i hw _⟩
      · cases h

end Verif.Cg
