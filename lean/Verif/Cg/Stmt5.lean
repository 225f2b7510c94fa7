import Verif.Cg.Stmt4
/-! Correctness of the code of `switch`: labels. -/
namespace Verif.Cg
open Verif Verif.Gen Verif.Gen.Spec Verif.X86 Verif.X86.Spec Spec

/-- The label fields of a `switch` do not change in statements without labels. -/
theorem sw_keep {C : Ctx} {r : CTy} (s : St) :
    (∀ Γ fs l sw c fs' l' sw' Γs κ, codegen_statement C.w C.T Γ s fs l sw = .ok (c, fs', l', sw') → SupS C r s none Γs κ = true → sw' = sw) ∧
    (∀ Γ fs l sw c fs' l' sw' Γs κ, codegen_items C.w C.T Γ s fs l sw = .ok (c, fs', l', sw') → SupS C r s none Γs κ = true → sw' = sw) := by
  have ni : ∀ s : St, (∀ Γ fs l sw, codegen_items C.w C.T Γ s fs l sw = .fatal) → ∀ Γ fs l sw c fs' l' sw' Γs κ, codegen_items C.w C.T Γ s fs l sw = .ok (c, fs', l', sw') → SupS C r s none Γs κ = true → sw' = sw := by
    intro s h Γ fs l sw c fs' l' sw' Γs κ hg; rw [h] at hg; cases hg
  induction s with
  | ifte c a b iha ihb =>
    refine ⟨?_, ni _ fun _ _ _ _ => rfl⟩
    intro Γ fs l sw c fs' l' sw' Γs κ h hs
    simp only [codegen_statement, Res.bind_eq_ok, Res.ok.injEq, Prod.mk.injEq] at h
    obtain ⟨⟨c1, f1, l1⟩, h1, ⟨c2, f2, l2, s2⟩, h2, ⟨c3, f3, l3, s3⟩, h3, _, _, _, rfl⟩ := h
    simp only [SupS, Bool.and_eq_true] at hs
    exact (ihb.1 _ _ _ _ _ _ _ _ _ _ h3 hs.2).trans (iha.1 _ _ _ _ _ _ _ _ _ _ h2 hs.1.2)
  | whil c b ih =>
    refine ⟨?_, ni _ fun _ _ _ _ => rfl⟩
    intro Γ fs l sw c fs' l' sw' Γs κ h hs
    simp only [codegen_statement, Res.bind_eq_ok, Res.ok.injEq, Prod.mk.injEq] at h
    obtain ⟨_, _, ⟨c2, f2, l2, s2⟩, h2, _, _, _, rfl⟩ := h
    simp only [SupS, Bool.and_eq_true] at hs
    exact ih.1 _ _ _ _ _ _ _ _ _ _ h2 hs.2
  | forr i c p b ihi ihp ihb =>
    refine ⟨?_, ni _ fun _ _ _ _ => rfl⟩
    intro Γ fs l sw c fs' l' sw' Γs κ h hs
    simp only [codegen_statement, Res.bind_eq_ok, Res.ok.injEq, Prod.mk.injEq] at h
    obtain ⟨⟨c1, f1, l1, s1⟩, h1, ⟨c2, f2, l2, s2⟩, h2, _, _, ⟨c3, f3, l3, s3⟩, h3, _, _, _, rfl⟩ := h
    simp only [SupS, Bool.and_eq_true] at hs
    exact (ihb.1 _ _ _ _ _ _ _ _ _ _ h3 hs.2).trans ((ihp.1 _ _ _ _ _ _ _ _ _ _ h2 hs.1.1.2).trans (ihi.1 _ _ _ _ _ _ _ _ _ _ h1 hs.1.1.1.2))
  | doW b c ih =>
    refine ⟨?_, ni _ fun _ _ _ _ => rfl⟩
    intro Γ fs l sw c fs' l' sw' Γs κ h hs
    simp only [codegen_statement, Res.bind_eq_ok, Res.ok.injEq, Prod.mk.injEq] at h
    obtain ⟨⟨c2, f2, l2, s2⟩, h2, _, _, _, _, _, rfl⟩ := h
    simp only [SupS, Bool.and_eq_true] at hs
    exact ih.1 _ _ _ _ _ _ _ _ _ _ h2 hs.1.1
  | switch e b _ =>
    refine ⟨?_, ni _ fun _ _ _ _ => rfl⟩
    intro Γ fs l sw c fs' l' sw' Γs κ h hs
    simp only [codegen_statement, Res.bind_eq_ok] at h
    obtain ⟨⟨c1, f1, l1⟩, h1, ⟨c2, f2, l2, s2⟩, h2, h⟩ := h
    cases s2 with
    | none => cases h
    | some s2 => simp only [Res.ok.injEq, Prod.mk.injEq] at h; exact h.2.2.2.symm
  | case e s ih =>
    refine ⟨?_, ni _ fun _ _ _ _ => rfl⟩
    intro Γ fs l sw c fs' l' sw' Γs κ h hs
    simp [SupS] at hs
  | dflt s ih =>
    refine ⟨?_, ni _ fun _ _ _ _ => rfl⟩
    intro Γ fs l sw c fs' l' sw' Γs κ h hs
    simp [SupS] at hs
  | brk =>
    refine ⟨?_, ni _ fun _ _ _ _ => rfl⟩
    intro Γ fs l sw c fs' l' sw' Γs κ h hs
    simp only [codegen_statement] at h
    split at h
    · cases h
    · simp only [Res.ok.injEq, Prod.mk.injEq] at h; exact h.2.2.2.symm
  | cont =>
    refine ⟨?_, ni _ fun _ _ _ _ => rfl⟩
    intro Γ fs l sw c fs' l' sw' Γs κ h hs
    simp only [codegen_statement] at h
    split at h
    · simp only [Res.ok.injEq, Prod.mk.injEq] at h; exact h.2.2.2.symm
    · cases h
  | ret e =>
    refine ⟨?_, ni _ fun _ _ _ _ => rfl⟩
    intro Γ fs l sw c fs' l' sw' Γs κ h hs
    simp only [codegen_statement, Res.bind_eq_ok, Res.ok.injEq, Prod.mk.injEq] at h
    obtain ⟨_, _, _, _, _, rfl⟩ := h; rfl
  | blk b ih =>
    refine ⟨?_, ni _ fun _ _ _ _ => rfl⟩
    intro Γ fs l sw c fs' l' sw' Γs κ h hs
    simp only [codegen_statement, Res.bind_eq_ok, Res.ok.injEq, Prod.mk.injEq] at h
    obtain ⟨⟨c2, f2, l2, s2⟩, h2, _, _, _, rfl⟩ := h
    simp only [SupS] at hs
    exact ih.2 _ _ _ _ _ _ _ _ _ _ h2 hs
  | skip =>
    refine ⟨?_, ni _ fun _ _ _ _ => rfl⟩
    intro Γ fs l sw c fs' l' sw' Γs κ h hs
    simp only [codegen_statement, Res.ok.injEq, Prod.mk.injEq] at h; exact h.2.2.2.symm
  | expr e =>
    refine ⟨?_, ni _ fun _ _ _ _ => rfl⟩
    intro Γ fs l sw c fs' l' sw' Γs κ h hs
    simp only [codegen_statement, Res.bind_eq_ok, Res.ok.injEq, Prod.mk.injEq] at h
    obtain ⟨_, _, _, _, _, rfl⟩ := h; rfl
  | bnil =>
    refine ⟨by intro Γ fs l sw c fs' l' sw' Γs κ h; simp [codegen_statement] at h, ?_⟩
    intro Γ fs l sw c fs' l' sw' Γs κ h hs
    simp only [codegen_items, Res.ok.injEq, Prod.mk.injEq] at h; exact h.2.2.2.symm
  | bstmt a b iha ihb =>
    refine ⟨by intro Γ fs l sw c fs' l' sw' Γs κ h; simp [codegen_statement] at h, ?_⟩
    intro Γ fs l sw c fs' l' sw' Γs κ h hs
    simp only [codegen_items, Res.bind_eq_ok, Res.ok.injEq, Prod.mk.injEq] at h
    obtain ⟨⟨c2, f2, l2, s2⟩, h2, ⟨c3, f3, l3, s3⟩, h3, _, _, _, rfl⟩ := h
    simp only [SupS, Bool.and_eq_true] at hs
    exact (ihb.2 _ _ _ _ _ _ _ _ _ _ h3 hs.2).trans (iha.1 _ _ _ _ _ _ _ _ _ _ h2 hs.1)
  | bdecl x t i b ih =>
    refine ⟨by intro Γ fs l sw c fs' l' sw' Γs κ h; simp [codegen_statement] at h, ?_⟩
    intro Γ fs l sw c fs' l' sw' Γs κ h hs
    simp only [codegen_items, Res.bind_eq_ok, Res.ok.injEq, Prod.mk.injEq] at h
    obtain ⟨_, _, _, _, ⟨c3, f3, l3, s3⟩, h3, _, _, _, rfl⟩ := h
    simp only [SupS, Bool.and_eq_true] at hs
    exact ih.2 _ _ _ _ _ _ _ _ _ _ h3 hs.2

/-- A constant of a label. -/
theorem case_const {C : Ctx} (hw : C.w = 4 ∨ C.w = 8) {cf : CallF} {ρ : Spec.Env} {Γ : Env} : ∀ {e : E} {c : Int}, caseConst ρ.kind e = some c →
    ∀ {sp : Int} {M : Mem}, Room C sp → evalE C cf ρ e sp M = some (c, M) ∧ Sup C Γ ρ.kind (.low C.w) e = true ∧ -2147483648 ≤ c ∧ c < 2147483648 := by
  intro e
  induction e with
  | num v =>
    intro c hc sp M hr
    simp only [caseConst, Option.ite_none_right_eq_some, Option.some.injEq] at hc
    obtain ⟨h1, rfl⟩ := hc
    simp [evalE, Sup, hr]; omega
  | chr v =>
    intro c hc sp M hr
    simp only [caseConst, Option.ite_none_right_eq_some, Option.some.injEq] at hc
    obtain ⟨h1, rfl⟩ := hc
    simp [evalE, Sup, hr]; omega
  | var x =>
    intro c hc sp M hr
    simp only [caseConst, Option.bind_eq_some_iff] at hc
    obtain ⟨k, hk, hc⟩ := hc
    cases k with
    | var t => cases hc
    | fn r => cases hc
    | cst v =>
      simp only [Option.ite_none_right_eq_some, Option.some.injEq] at hc
      obtain ⟨h1, rfl⟩ := hc
      simp [evalE, Sup, hr, hk]; omega
  | neg e _ =>
    intro c hc sp M hr
    cases e with
    | num v =>
      simp only [caseConst, Option.ite_none_right_eq_some, Option.some.injEq] at hc
      obtain ⟨h1, rfl⟩ := hc
      have f := fits_int hw (C := C) (v := -(v : Int)) (by omega) (by omega)
      have e1 : conv C (.int false) (-(v : Int)) = -(v : Int) := f.2
      refine ⟨?_, ?_, by omega, by omega⟩
      · simp [evalE, hr, ctype, promote, chk, isSigned, e1, h1]
      · simp [Sup, ctype, promote, scalar, isInt, isPtr, wrapOk, isSigned]
    | _ => simp [caseConst] at hc
  | paren e ih =>
    intro c hc sp M hr
    simp only [caseConst] at hc
    have := ih hc (M := M) hr
    simp only [evalE, Sup, hr, if_true]
    exact this
  | _ => intro c hc; simp [caseConst] at hc

/-- Comparison of words is comparison in the promoted type. -/
theorem case_eq {C : Ctx} (hw : C.w = 4 ∨ C.w = 8) {te t : CTy} (ht : promote C.w te = some t) {v c : Int} (hv : Fits C te v)
    (h1 : -2147483648 ≤ c) (h2 : c < 2147483648) (hc : wrapOk C t = true ∨ 0 ≤ c) : sgn C.w c = sgn C.w v ↔ conv C t c = v := by
  have ft := promote_fits hw ht hv
  have hi := ft.inTy hw
  have hsz := sizeof_le hw C.T ft.1
  have hs4 : 4 ≤ sizeof C.w C.T t := by
    cases te <;> simp only [promote, Option.some.injEq, reduceCtorEq] at ht <;> subst ht <;> (try split) <;> simp [sizeof]
  have p31 := pow_le (i := 31) (j := 8 * sizeof C.w C.T t - 1) (by omega)
  have pp := pow_le (i := 8 * sizeof C.w C.T t - 1) (j := 8 * sizeof C.w C.T t) (by omega)
  have q31 : ((2 ^ 31 : Nat) : Int) = 2147483648 := by decide
  by_cases hu : conv C t c = c
  · have ci := (fits_iff C hsz.1).1 hu
    rw [hu]
    by_cases hk : isSigned t = true ∨ sizeof C.w C.T t < C.w
    · have a1 := sgn_of_inTy hw hsz.1 hi (hk.imp (fun h => ⟨h, hsz.2⟩) id)
      have a2 := sgn_of_inTy hw hsz.1 ci (hk.imp (fun h => ⟨h, hsz.2⟩) id)
      rw [a1, a2]
    · have e1 : isSigned t = false := by simpa using fun e => hk (.inl e)
      have e2 : sizeof C.w C.T t = C.w := by omega
      rw [sgn_eq_iff]
      rw [e1, e2, inTy_unsigned] at hi ci
      rw [Int.emod_eq_of_lt ci.1 ci.2, Int.emod_eq_of_lt hi.1 hi.2]
  · have e1 : isSigned t = false := by
      cases e : isSigned t with
      | false => rfl
      | true =>
        refine absurd (conv_id C hsz.1 ?_) hu
        rw [e]; unfold InTy; rw [if_pos rfl]; omega
    have e2 : sizeof C.w C.T t = C.w := by
      rcases hc with h | h
      · simpa [wrapOk, e1] using h
      · refine absurd (conv_id C hsz.1 ?_) hu
        rw [e1, inTy_unsigned]; omega
    rw [e1, e2, inTy_unsigned] at hi
    rw [sgn_eq_iff]
    rw [Int.emod_eq_of_lt hi.1 hi.2]
    simp [conv, e1, e2]

end Verif.Cg
