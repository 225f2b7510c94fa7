import Verif.Cg.Ty
/-! Values of expressions are in the range of the type of the expression. -/
namespace Verif.Cg
open Verif Verif.Gen Verif.Gen.Spec Verif.X86 Verif.X86.Spec Spec

/-- Expressions that may have type `void` and still be evaluated. -/
def voidCall : E → Bool
  | .call _ _ => true
  | .paren e => voidCall e
  | .comma _ b => voidCall b
  | _ => false

/-- Variables have addresses. -/
def AddrOk (C : Ctx) (ρ : Spec.Env) : Prop :=
  ∀ x t, ρ.kind x = some (.var t) → 0 ≤ ρ.addr x ∧ ρ.addr x < (2 ^ (8 * C.w) : Nat)

def TyR (C : Ctx) (κ : Nat → Option VK) (e : E) (v : Int) : Prop :=
  ∃ t, ctype C κ e = some t ∧ ((t = .void ∧ voidCall e = true) ∨ Fits C (decay t) v)

theorem rvalue_fits {C : Ctx} (hw : C.w = 4 ∨ C.w = 8) {M : Mem} {a v : Int} {t : CTy} (h : rvalue C M a t = some v)
    (ha : 0 ≤ a ∧ a < (2 ^ (8 * C.w) : Nat)) : Fits C (decay t) v := by
  have gen : loadT C M a t = some v → Fits C t v := by
    intro h
    unfold loadT at h
    split at h
    · rename_i hs
      simp only [Option.bind_eq_some_iff, Option.some.injEq] at h
      obtain ⟨n, _, rfl⟩ := h
      exact ⟨hs, conv_conv C t (sizeof_le hw C.T hs).1 _⟩
    · cases h
  cases t
  case arr n t' =>
    simp only [rvalue, Option.some.injEq] at h
    subst h
    exact (fits_ptr hw).2 ha
  all_goals exact gen h

theorem loadT_fits {C : Ctx} (hw : C.w = 4 ∨ C.w = 8) {M : Mem} {a v : Int} {t : CTy} (h : loadT C M a t = some v) :
    Fits C t v := by
  unfold loadT at h
  split at h
  · rename_i hs
    simp only [Option.bind_eq_some_iff, Option.some.injEq] at h
    obtain ⟨n, _, rfl⟩ := h
    exact ⟨hs, conv_conv C t (sizeof_le hw C.T hs).1 _⟩
  · cases h

theorem decay_scalar {w : Nat} {t : CTy} (h : scalar w t = true) : decay t = t := by
  cases t <;> first | rfl | simp [scalar, isInt, isPtr] at h

theorem decay_decay (t : CTy) : decay (decay t) = decay t := by cases t <;> rfl

theorem storeT_scalar {C : Ctx} {M M' : Mem} {a v : Int} {t : CTy} (h : storeT C M a t v = some M') : scalar C.w t = true := by
  unfold storeT at h
  split at h
  · assumption
  · cases h

theorem conv_fits {C : Ctx} (hw : C.w = 4 ∨ C.w = 8) {t : CTy} (h : scalar C.w t = true) (v : Int) : Fits C t (conv C t v) :=
  ⟨h, conv_conv C t (sizeof_le hw C.T h).1 v⟩

theorem chkP_range {C : Ctx} {r v : Int} (h : chkP C r = some v) : v = r ∧ 0 ≤ v ∧ v < (2 ^ (8 * C.w) : Nat) := by
  unfold chkP at h
  split at h <;> simp at h
  subst h; exact ⟨rfl, by assumption⟩

theorem isInt_decay {t : CTy} (h : isInt (decay t) = true) : decay t = t := by
  cases t <;> first | rfl | simp [decay, isInt] at h

theorem fits_sizeTy {C : Ctx} (hw : C.w = 4 ∨ C.w = 8) {n : Nat} (h : n < 2147483648) : Fits C (sizeTy C.w) n := by
  unfold sizeTy
  rcases hw with e | e
  · rw [if_neg (by omega)]
    refine fits_of_inTy (.inl e) rfl ?_
    simp only [sizeof, isSigned, Bool.not_true, inTy_unsigned]; omega
  · rw [if_pos e]
    refine fits_of_inTy (.inr e) (by simp [scalar, e]) ?_
    simp only [sizeof, isSigned, Bool.not_true, inTy_unsigned]; omega

theorem Fits.notvoid {C : Ctx} {t : CTy} {v : Int} (h : Fits C t v) : t ≠ .void := by
  rintro rfl; simp [Fits, scalar, isInt, isPtr] at h

/-- The operands of an operator on integers are integers. -/
theorem TyR.int {C : Ctx} {κ : Nat → Option VK} {e : E} {v : Int} {t : CTy} (h : TyR C κ e v) (ht : ctype C κ e = some t)
    (hi : isInt (decay t) = true ∨ isPtr (decay t) = true) : Fits C (decay t) v := by
  obtain ⟨t', h1, h2⟩ := h
  rw [ht] at h1; cases h1
  rcases h2 with ⟨rfl, _⟩ | h2
  · simp [decay, isInt, isPtr] at hi
  · exact h2

theorem eval_ty {C : Ctx} (hw : C.w = 4 ∨ C.w = 8) {cf : CallF} {ρ : Spec.Env} (hcf : CfOk C cf ρ.kind) (had : AddrOk C ρ) (e : E) :
    (∀ sp M v M', evalE C cf ρ e sp M = some (v, M') → TyR C ρ.kind e v) ∧
    (∀ sp M v M', evalL C cf ρ e sp M = some (v, M') →
      (∃ t, ctype C ρ.kind e = some t) ∧ 0 ≤ v ∧ v < (2 ^ (8 * C.w) : Nat)) := by
  induction e with
  | num v =>
    refine ⟨?_, by intro _ _ _ _ h; simp [evalL] at h⟩
    intro sp M v' M' h
    simp only [evalE, Option.ite_none_right_eq_some, Option.some.injEq, Prod.mk.injEq] at h
    obtain ⟨⟨_, h⟩, rfl, rfl⟩ := h
    exact ⟨_, rfl, .inr (fits_int hw (by omega) (by omega))⟩
  | chr v =>
    refine ⟨?_, by intro _ _ _ _ h; simp [evalL] at h⟩
    intro sp M v' M' h
    simp only [evalE, Option.ite_none_right_eq_some, Option.some.injEq, Prod.mk.injEq] at h
    obtain ⟨⟨_, h⟩, rfl, rfl⟩ := h
    exact ⟨_, rfl, .inr (fits_int hw (by omega) (by omega))⟩
  | str k bs =>
    refine ⟨?_, by intro _ _ _ _ h; simp [evalL] at h⟩
    intro sp M v' M' h
    simp only [evalE, Option.ite_none_right_eq_some, Option.some.injEq, Prod.mk.injEq] at h
    obtain ⟨⟨_, h⟩, rfl, rfl⟩ := h
    exact ⟨_, rfl, .inr ((fits_ptr hw).2 h)⟩
  | sizeofT t =>
    refine ⟨?_, by intro _ _ _ _ h; simp [evalL] at h⟩
    intro sp M v' M' h
    simp only [evalE, Option.ite_none_right_eq_some, Option.some.injEq, Prod.mk.injEq] at h
    obtain ⟨⟨_, h⟩, rfl, rfl⟩ := h
    have := fits_sizeTy hw h
    exact ⟨_, rfl, .inr (by rw [decay_scalar this.1]; exact this)⟩
  | var x =>
    refine ⟨?_, ?_⟩
    · intro sp M v' M' h
      simp only [evalE, Option.ite_none_right_eq_some, Option.bind_eq_some_iff] at h
      obtain ⟨_, k, hk, h⟩ := h
      cases k with
      | var t =>
        simp only [Option.bind_eq_some_iff] at h
        obtain ⟨v, h1, h⟩ := h
        simp at h; rw [← h.1]
        exact ⟨t, by simp [ctype, hk], .inr (rvalue_fits hw h1 (had x t hk))⟩
      | cst v =>
        simp only [Option.ite_none_right_eq_some, Option.some.injEq, Prod.mk.injEq] at h
        rw [← h.2.1]
        exact ⟨.int false, by simp [ctype, hk], .inr (fits_int hw h.1.1 h.1.2)⟩
      | fn r => cases h
    · intro sp M v' M' h
      simp only [evalL, Option.ite_none_right_eq_some, Option.bind_eq_some_iff] at h
      obtain ⟨_, k, hk, h⟩ := h
      cases k with
      | var t =>
        simp at h; rw [← h.1]
        exact ⟨⟨t, by simp [ctype, hk]⟩, had x t hk⟩
      | _ => cases h
  | deref e ih =>
    have key : ∀ sp M a M' t, ctype C ρ.kind (.deref e) = some t → evalE C cf ρ e sp M = some (a, M') →
        0 ≤ a ∧ a < (2 ^ (8 * C.w) : Nat) := by
      intro sp M a M' t ht h1
      obtain ⟨te, h2, h3⟩ := ih.1 _ _ _ _ h1
      simp only [ctype, h2, Option.bind_some] at ht
      split at ht
      · rename_i t' e'
        rcases h3 with ⟨rfl, _⟩ | h3
        · cases e'
        · rw [e'] at h3; exact (fits_ptr hw).1 h3
      · cases ht
    refine ⟨?_, ?_⟩
    · intro sp M v' M' h
      simp only [evalE, Option.ite_none_right_eq_some, Option.bind_eq_some_iff] at h
      obtain ⟨_, t, ht, ⟨a, M1⟩, h1, v, h2, h⟩ := h
      simp at h; rw [← h.1]
      exact ⟨t, ht, .inr (rvalue_fits hw h2 (key _ _ _ _ _ ht h1))⟩
    · intro sp M v' M' h
      simp only [evalL, Option.ite_none_right_eq_some, Option.bind_eq_some_iff] at h
      obtain ⟨_, t, ht, h1⟩ := h
      exact ⟨⟨t, ht⟩, key _ _ _ _ _ ht h1⟩
  | addr e ih =>
    refine ⟨?_, by intro _ _ _ _ h; simp [evalL] at h⟩
    intro sp M v' M' h
    simp only [evalE, Option.ite_none_right_eq_some] at h
    obtain ⟨⟨t, ht⟩, h2⟩ := ih.2 _ _ _ _ h.2
    exact ⟨.ptr t, by simp [ctype, ht], .inr ((fits_ptr hw).2 h2)⟩
  | neg e ih | bnot e ih =>
    refine ⟨?_, by intro _ _ _ _ h; simp [evalL] at h⟩
    intro sp M v' M' h
    simp only [evalE, Option.ite_none_right_eq_some, Option.bind_eq_some_iff] at h
    obtain ⟨_, t, ht, ⟨a, M1⟩, h1, v, h2, h⟩ := h
    simp at h; rw [← h.1]
    refine ⟨t, ht, .inr ?_⟩
    simp only [ctype, Option.bind_eq_some_iff] at ht
    obtain ⟨te, h3, h4⟩ := ht
    have hi := (promote_int h4)
    have hf := (ih.1 _ _ _ _ h1).int h3 (.inl (by rw [show decay te = te by cases te <;> first | rfl | simp [isInt] at hi]; exact hi.2))
    have hs : scalar C.w t = true := promote_ty h4 (by
      rw [show decay te = te by cases te <;> first | rfl | simp [isInt] at hi] at hf; exact hf.1)
    rw [decay_scalar hs]
    exact ⟨hs, chk_fits (sizeof_le hw C.T hs).1 h2⟩
  | lnot e ih =>
    refine ⟨?_, by intro _ _ _ _ h; simp [evalL] at h⟩
    intro sp M v' M' h
    simp only [evalE, Option.ite_none_right_eq_some, Option.bind_eq_some_iff] at h
    obtain ⟨_, ⟨a, M1⟩, h1, h⟩ := h
    simp only [Option.some.injEq, Prod.mk.injEq] at h
    rw [← h.1]; exact ⟨_, rfl, .inr (fits_b2i hw _)⟩
  | plus e ih =>
    refine ⟨?_, by intro _ _ _ _ h; simp [evalL] at h⟩
    intro sp M v' M' h
    simp only [evalE, Option.ite_none_right_eq_some, Option.bind_eq_some_iff] at h
    obtain ⟨_, t, ht, h1⟩ := h
    refine ⟨t, ht, .inr ?_⟩
    simp only [ctype, Option.bind_eq_some_iff] at ht
    obtain ⟨te, h3, h4⟩ := ht
    have hi := (promote_int h4)
    have hd : decay te = te := by cases te <;> first | rfl | simp [isInt] at hi
    have hf := (ih.1 _ _ _ _ h1).int h3 (.inl (by rw [hd]; exact hi.2))
    rw [hd] at hf
    have := promote_fits hw h4 hf
    rw [decay_scalar this.1]; exact this
  | paren e ih =>
    refine ⟨?_, ?_⟩
    · intro sp M v' M' h
      simp only [evalE, Option.ite_none_right_eq_some] at h
      exact ih.1 _ _ _ _ h.2
    · intro sp M v' M' h
      simp only [evalL, Option.ite_none_right_eq_some] at h
      exact ih.2 _ _ _ _ h.2
  | incdec post dec e ih =>
    refine ⟨?_, by intro _ _ _ _ h; simp [evalL] at h⟩
    intro sp M v' M' h
    simp only [evalE, Option.ite_none_right_eq_some, Option.bind_eq_some_iff] at h
    obtain ⟨_, t, ht, ⟨a, M1⟩, h1, v, h3, r, _, M2, h2, h⟩ := h
    simp only [Option.some.injEq, Prod.mk.injEq] at h
    rw [← h.1]
    refine ⟨t, ht, .inr ?_⟩
    rw [decay_scalar (storeT_scalar h2)]
    split
    · exact loadT_fits hw h3
    · exact conv_fits hw (storeT_scalar h2) _
  | sizeofE e ih =>
    refine ⟨?_, by intro _ _ _ _ h; simp [evalL] at h⟩
    intro sp M v' M' h
    simp only [evalE, Option.ite_none_right_eq_some, Option.bind_eq_some_iff, Option.some.injEq, Prod.mk.injEq] at h
    obtain ⟨_, t, _, h, h1, _⟩ := h
    rw [← h1]
    have := fits_sizeTy hw h
    exact ⟨_, rfl, .inr (by rw [decay_scalar this.1]; exact this)⟩
  | bin op a b iha ihb =>
    refine ⟨?_, by intro _ _ _ _ h; simp [evalL] at h⟩
    intro sp M v' M' h
    simp only [evalE, Option.ite_none_right_eq_some, Option.bind_eq_some_iff] at h
    obtain ⟨_, ta, hta, tb, htb, ⟨va, M1⟩, h1, ⟨vb, M2⟩, h2, v, h3, h⟩ := h
    simp at h; rw [← h.1]
    obtain ⟨t, h4, h5⟩ := binV_fits hw (fun i1 i2 => ⟨(iha.1 _ _ _ _ h1).int hta (.inl i1), (ihb.1 _ _ _ _ h2).int htb (.inl i2)⟩) h3
    exact ⟨t, by simp [ctype, hta, htb, h4], .inr (by rw [decay_scalar h5.1]; exact h5)⟩
  | comma a b iha ihb =>
    refine ⟨?_, by intro _ _ _ _ h; simp [evalL] at h⟩
    intro sp M v' M' h
    simp only [evalE, Option.ite_none_right_eq_some, Option.bind_eq_some_iff] at h
    obtain ⟨_, ⟨va, M1⟩, h1, h2⟩ := h
    obtain ⟨t, h3, h4⟩ := ihb.1 _ _ _ _ h2
    refine ⟨decay t, by simp [ctype, h3], ?_⟩
    rcases h4 with ⟨rfl, h4⟩ | h4
    · exact .inl ⟨rfl, h4⟩
    · exact .inr (by rw [decay_decay]; exact h4)
  | index a b iha ihb =>
    have key : ∀ sp M va vb M1 M2 sp' M' ta tb t p, ctype C ρ.kind (.index a b) = some t → ctype C ρ.kind a = some ta →
        ctype C ρ.kind b = some tb → evalE C cf ρ a sp M = some (va, M1) → evalE C cf ρ b sp' M' = some (vb, M2) →
        binV C .add (decay ta) (decay tb) va vb = some p → 0 ≤ p ∧ p < (2 ^ (8 * C.w) : Nat) := by
      intro sp M va vb M1 M2 sp' M' ta tb t p ht hta htb h1 h2 h3
      obtain ⟨t', h4, h5⟩ := binV_fits hw (fun i1 i2 => ⟨(iha.1 _ _ _ _ h1).int hta (.inl i1), (ihb.1 _ _ _ _ h2).int htb (.inl i2)⟩) h3
      simp only [ctype, hta, htb, Option.bind_some] at ht
      split at ht
      · rename_i t1 e1
        rw [e1] at h4
        cases hi : isInt (decay tb) with
        | false => rw [hi] at ht; cases ht
        | true =>
          generalize decay tb = u at h4 hi
          simp [binTy, Bop.isCmp, show isInt (.ptr t1) = false from rfl, hi] at h4
          subst h4; exact (fits_ptr hw).1 h5
      · rename_i t1 e2 hn
        generalize decay ta = u at ht h4 hn
        rw [e2] at h4
        cases u <;> simp_all [binTy, Bop.isCmp, isInt] <;> (subst h4; exact (fits_ptr hw).1 h5)
      · cases ht
    refine ⟨?_, ?_⟩
    · intro sp M v' M' h
      simp only [evalE, Option.ite_none_right_eq_some, Option.bind_eq_some_iff] at h
      obtain ⟨_, t, ht, ta, hta, tb, htb, ⟨va, M1⟩, h1, ⟨vb, M2⟩, h2, p, h3, v, h4, h⟩ := h
      simp at h; rw [← h.1]
      exact ⟨t, ht, .inr (rvalue_fits hw h4 (key _ _ _ _ _ _ _ _ _ _ _ _ ht hta htb h1 h2 h3))⟩
    · intro sp M v' M' h
      simp only [evalL, Option.ite_none_right_eq_some, Option.bind_eq_some_iff] at h
      obtain ⟨_, t, ht, ta, hta, tb, htb, ⟨va, M1⟩, h1, ⟨vb, M2⟩, h2, p, h3, h⟩ := h
      simp at h; rw [← h.1]
      exact ⟨⟨t, ht⟩, key _ _ _ _ _ _ _ _ _ _ _ _ ht hta htb h1 h2 h3⟩
  | assign a b iha ihb =>
    refine ⟨?_, by intro _ _ _ _ h; simp [evalL] at h⟩
    intro sp M v' M' h
    simp only [evalE, Option.ite_none_right_eq_some, Option.bind_eq_some_iff] at h
    obtain ⟨_, ta, ht, ⟨va, M1⟩, h1, ⟨vb, M2⟩, h2, M3, h3, h⟩ := h
    simp only [Option.some.injEq, Prod.mk.injEq] at h
    rw [← h.1]
    refine ⟨ta, ht, .inr ?_⟩
    rw [decay_scalar (storeT_scalar h3)]
    exact conv_fits hw (storeT_scalar h3) _
  | opassign op a b iha ihb =>
    refine ⟨?_, by intro _ _ _ _ h; simp [evalL] at h⟩
    intro sp M v' M' h
    simp only [evalE, Option.ite_none_right_eq_some, Option.bind_eq_some_iff] at h
    obtain ⟨_, ta, ht, tb, _, ⟨va, M1⟩, h1, v, _, ⟨vb, M2⟩, h2, r, _, M3, h3, h⟩ := h
    simp only [Option.some.injEq, Prod.mk.injEq] at h
    rw [← h.1]
    refine ⟨ta, ht, .inr ?_⟩
    rw [decay_scalar (storeT_scalar h3)]
    exact conv_fits hw (storeT_scalar h3) _
  | land a b iha ihb | lor a b iha ihb =>
    refine ⟨?_, by intro _ _ _ _ h; simp [evalL] at h⟩
    intro sp M v' M' h
    simp only [evalE, Option.ite_none_right_eq_some, Option.bind_eq_some_iff] at h
    obtain ⟨_, ⟨va, M1⟩, h1, h⟩ := h
    simp only at h
    split at h
    · simp only [Option.some.injEq, Prod.mk.injEq] at h
      rw [← h.1]
      exact ⟨_, rfl, .inr (fits_int hw (by decide) (by decide))⟩
    · simp only [Option.bind_eq_some_iff] at h
      obtain ⟨⟨vb, M2⟩, h2, h⟩ := h
      simp only [Option.some.injEq, Prod.mk.injEq] at h
      rw [← h.1]
      exact ⟨_, rfl, .inr (fits_b2i hw _)⟩
  | cond c a b ihc iha ihb =>
    refine ⟨?_, by intro _ _ _ _ h; simp [evalL] at h⟩
    intro sp M v' M' h
    simp only [evalE, Option.ite_none_right_eq_some, Option.bind_eq_some_iff] at h
    obtain ⟨_, t, ht, hs, ⟨vc, M1⟩, h1, ⟨vb, M2⟩, h2, h⟩ := h
    simp only [Option.some.injEq, Prod.mk.injEq] at h
    rw [← h.1]
    refine ⟨t, ht, .inr ?_⟩
    rw [decay_scalar hs]
    exact conv_fits hw hs _
  | cast t e ih =>
    refine ⟨?_, by intro _ _ _ _ h; simp [evalL] at h⟩
    intro sp M v' M' h
    simp only [evalE, Option.ite_none_right_eq_some, Option.bind_eq_some_iff] at h
    obtain ⟨⟨_, hs⟩, ⟨va, M1⟩, h1, h⟩ := h
    simp only [Option.some.injEq, Prod.mk.injEq] at h
    rw [← h.1]
    refine ⟨t, rfl, .inr ?_⟩
    rw [decay_scalar hs]
    exact conv_fits hw hs _
  | dot e m ih =>
    refine ⟨?_, ?_⟩
    · intro sp M v' M' h
      simp only [evalE, Option.ite_none_right_eq_some, Option.bind_eq_some_iff] at h
      obtain ⟨_, te, _, t, ht, o, _, ⟨p, M1⟩, h1, q, hq, v, hv, h⟩ := h
      simp at h; rw [← h.1]
      exact ⟨t, ht, .inr (rvalue_fits hw hv (chkP_range hq).2)⟩
    · intro sp M v' M' h
      simp only [evalL, Option.ite_none_right_eq_some, Option.bind_eq_some_iff] at h
      obtain ⟨_, te, _, t, ht, o, _, ⟨p, M1⟩, h1, q, hq, h⟩ := h
      simp at h; rw [← h.1]
      exact ⟨⟨t, ht⟩, (chkP_range hq).2⟩
  | arrow e m ih =>
    refine ⟨?_, ?_⟩
    · intro sp M v' M' h
      simp only [evalE, Option.ite_none_right_eq_some, Option.bind_eq_some_iff] at h
      obtain ⟨_, te, _, t, ht, o, _, ⟨p, M1⟩, h1, q, hq, v, hv, h⟩ := h
      simp at h; rw [← h.1]
      exact ⟨t, ht, .inr (rvalue_fits hw hv (chkP_range hq).2)⟩
    · intro sp M v' M' h
      simp only [evalL, Option.ite_none_right_eq_some, Option.bind_eq_some_iff] at h
      obtain ⟨_, te, _, t, ht, o, _, ⟨p, M1⟩, h1, q, hq, h⟩ := h
      simp at h; rw [← h.1]
      exact ⟨⟨t, ht⟩, (chkP_range hq).2⟩
  | call f args ih =>
    refine ⟨?_, by intro _ _ _ _ h; simp [evalL] at h⟩
    intro sp M v' M' h
    simp only [evalE, Option.ite_none_right_eq_some, Option.bind_eq_some_iff] at h
    obtain ⟨_, t, ht, ⟨vs, M1⟩, h1, h2⟩ := h
    refine ⟨t, ht, ?_⟩
    simp only [ctype, Option.bind_eq_some_iff] at ht
    obtain ⟨k, hk, ht⟩ := ht
    cases k with
    | fn r =>
      simp at ht; subst ht
      rcases hcf.ty _ _ _ _ _ _ _ h2 hk with h3 | h3
      · exact .inl ⟨h3, rfl⟩
      · exact .inr (by rw [decay_scalar h3.1]; exact h3)
    | _ => cases ht
  | anil => exact ⟨by intro _ _ _ _ h; simp [evalE] at h, by intro _ _ _ _ h; simp [evalL] at h⟩
  | acons e es ihe ihes => exact ⟨by intro _ _ _ _ h; simp [evalE] at h, by intro _ _ _ _ h; simp [evalL] at h⟩

end Verif.Cg
