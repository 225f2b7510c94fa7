import Verif.Cg.ArithV
/-! Facts about the evaluation of expressions that do not involve the machine: the set of objects does
not change, values are in the range of their type. -/
namespace Verif.Cg
open Verif Verif.Gen Verif.Gen.Spec Verif.X86 Verif.X86.Spec Spec

/-- What is needed of calls. -/
structure CfOk (C : Ctx) (cf : CallF) (κ : Nat → Option VK) : Prop where
  dom : ∀ f vs sp M v M', cf f vs sp M = some (v, M') → MemOk C (sp + vs.length * C.w) M → SameDom M M'
  ty : ∀ f vs sp M v M' r, cf f vs sp M = some (v, M') → κ f = some (.fn r) →
    r = .void ∨ (scalar C.w r = true ∧ conv C r v = v)

theorem evalA_len {C : Ctx} {cf : CallF} {ρ : Spec.Env} : ∀ {e : E} {sp : Int} {M : Mem} {vs : List Int} {M' : Mem},
    evalA C cf ρ e sp M = some (vs, M') → vs.length = nargs e := by
  intro e
  induction e with
  | anil => intro sp M vs M' h; simp [evalA] at h; simp [h.1.symm, nargs]
  | acons e es _ ih =>
    intro sp M vs M' h
    simp only [evalA, Option.bind_eq_some_iff] at h
    obtain ⟨⟨vs1, M1⟩, h1, ⟨v2, M2⟩, h2, h3⟩ := h
    simp at h3
    rw [← h3.1, nargs, List.length_cons, ih h1]
  | _ => intro sp M vs M' h; simp [evalA] at h

theorem storeT_dom {C : Ctx} {M M' : Mem} {a v : Int} {t : CTy} (h : storeT C M a t v = some M') : SameDom M M' := by
  unfold storeT at h
  split at h
  · exact storeN_dom h
  · cases h

theorem eval_dom {C : Ctx} (hl : C.w = 4 ∨ C.w = 8) {cf : CallF} {ρ : Spec.Env} (hcf : CfOk C cf ρ.kind) (e : E) :
    (∀ sp M v M', evalE C cf ρ e sp M = some (v, M') → MemOk C sp M → SameDom M M') ∧
    (∀ sp M v M', evalL C cf ρ e sp M = some (v, M') → MemOk C sp M → SameDom M M') ∧
    (∀ sp M v M', evalA C cf ρ e sp M = some (v, M') → MemOk C sp M → SameDom M M') := by
  have mono : ∀ {sp M} (k : Nat), MemOk C sp M → MemOk C (sp - k * C.w) M := fun k h => h.mono (by
    have : (0:Int) ≤ k * C.w := Int.mul_nonneg (by omega) (by omega)
    omega)
  have mono1 : ∀ {sp M}, MemOk C sp M → MemOk C (sp - C.w) M := fun h => h.mono (by omega)
  induction e with
  | num v | chr v => 
    refine ⟨?_, by intro _ _ _ _ h; simp [evalL] at h, by intro _ _ _ _ h; simp [evalA] at h⟩
    intro sp M v' M' h _
    simp [evalE] at h
    rw [h.2.2]; exact SameDom.refl _
  | str k bs =>
    refine ⟨?_, by intro _ _ _ _ h; simp [evalL] at h, by intro _ _ _ _ h; simp [evalA] at h⟩
    intro sp M v' M' h _
    simp only [evalE, Option.ite_none_right_eq_some, Option.some.injEq, Prod.mk.injEq] at h
    rw [h.2.2]; exact SameDom.refl _
  | sizeofT t =>
    refine ⟨?_, by intro _ _ _ _ h; simp [evalL] at h, by intro _ _ _ _ h; simp [evalA] at h⟩
    intro sp M v' M' h _
    simp [evalE] at h
    rw [h.2.2]; exact SameDom.refl _
  | var x =>
    refine ⟨?_, ?_, by intro _ _ _ _ h; simp [evalA] at h⟩
    · intro sp M v' M' h _
      simp only [evalE, Option.ite_none_right_eq_some, Option.bind_eq_some_iff] at h
      obtain ⟨_, k, _, h⟩ := h
      cases k with
      | var t =>
        simp only [Option.bind_eq_some_iff] at h
        obtain ⟨_, _, h⟩ := h
        simp at h; rw [h.2]; exact SameDom.refl _
      | cst v => simp at h; rw [h.2.2]; exact SameDom.refl _
      | fn r => cases h
    · intro sp M v' M' h _
      simp only [evalL, Option.ite_none_right_eq_some, Option.bind_eq_some_iff] at h
      obtain ⟨_, k, _, h⟩ := h
      cases k with
      | var t => simp at h; rw [h.2]; exact SameDom.refl _
      | _ => cases h
  | deref e ih =>
    refine ⟨?_, ?_, by intro _ _ _ _ h; simp [evalA] at h⟩
    · intro sp M v' M' h hM
      simp only [evalE, Option.ite_none_right_eq_some, Option.bind_eq_some_iff] at h
      obtain ⟨_, t, _, ⟨a, M1⟩, h1, v, _, h⟩ := h
      simp at h; rw [← h.2]; exact ih.1 _ _ _ _ h1 hM
    · intro sp M v' M' h hM
      simp only [evalL, Option.ite_none_right_eq_some, Option.bind_eq_some_iff] at h
      obtain ⟨_, t, _, h1⟩ := h
      exact ih.1 _ _ _ _ h1 hM
  | addr e ih =>
    refine ⟨?_, by intro _ _ _ _ h; simp [evalL] at h, by intro _ _ _ _ h; simp [evalA] at h⟩
    intro sp M v' M' h hM
    simp only [evalE, Option.ite_none_right_eq_some] at h
    exact ih.2.1 _ _ _ _ h.2 hM
  | neg e ih | bnot e ih =>
    refine ⟨?_, by intro _ _ _ _ h; simp [evalL] at h, by intro _ _ _ _ h; simp [evalA] at h⟩
    intro sp M v' M' h hM
    simp only [evalE, Option.ite_none_right_eq_some, Option.bind_eq_some_iff] at h
    obtain ⟨_, t, _, ⟨a, M1⟩, h1, v, _, h⟩ := h
    simp at h; rw [← h.2]; exact ih.1 _ _ _ _ h1 hM
  | lnot e ih =>
    refine ⟨?_, by intro _ _ _ _ h; simp [evalL] at h, by intro _ _ _ _ h; simp [evalA] at h⟩
    intro sp M v' M' h hM
    simp only [evalE, Option.ite_none_right_eq_some, Option.bind_eq_some_iff] at h
    obtain ⟨_, ⟨a, M1⟩, h1, h⟩ := h
    simp at h; rw [← h.2]; exact ih.1 _ _ _ _ h1 (mono1 hM)
  | plus e ih =>
    refine ⟨?_, by intro _ _ _ _ h; simp [evalL] at h, by intro _ _ _ _ h; simp [evalA] at h⟩
    intro sp M v' M' h hM
    simp only [evalE, Option.ite_none_right_eq_some, Option.bind_eq_some_iff] at h
    obtain ⟨_, t, _, h1⟩ := h
    exact ih.1 _ _ _ _ h1 hM
  | paren e ih =>
    refine ⟨?_, ?_, by intro _ _ _ _ h; simp [evalA] at h⟩
    · intro sp M v' M' h hM
      simp only [evalE, Option.ite_none_right_eq_some] at h
      exact ih.1 _ _ _ _ h.2 hM
    · intro sp M v' M' h hM
      simp only [evalL, Option.ite_none_right_eq_some] at h
      exact ih.2.1 _ _ _ _ h.2 hM
  | incdec post dec e ih =>
    refine ⟨?_, by intro _ _ _ _ h; simp [evalL] at h, by intro _ _ _ _ h; simp [evalA] at h⟩
    intro sp M v' M' h hM
    simp only [evalE, Option.ite_none_right_eq_some, Option.bind_eq_some_iff] at h
    obtain ⟨_, t, _, ⟨a, M1⟩, h1, v, _, r, _, M2, h2, h⟩ := h
    simp at h; rw [← h.2]; exact (ih.2.1 _ _ _ _ h1 hM).trans (storeT_dom h2)
  | sizeofE e ih =>
    refine ⟨?_, by intro _ _ _ _ h; simp [evalL] at h, by intro _ _ _ _ h; simp [evalA] at h⟩
    intro sp M v' M' h hM
    simp only [evalE, Option.ite_none_right_eq_some, Option.bind_eq_some_iff] at h
    obtain ⟨_, t, _, _, h⟩ := h
    simp at h; rw [← h.2]; exact SameDom.refl _
  | bin op a b iha ihb =>
    refine ⟨?_, by intro _ _ _ _ h; simp [evalL] at h, by intro _ _ _ _ h; simp [evalA] at h⟩
    intro sp M v' M' h hM
    simp only [evalE, Option.ite_none_right_eq_some, Option.bind_eq_some_iff] at h
    obtain ⟨_, ta, _, tb, _, ⟨va, M1⟩, h1, ⟨vb, M2⟩, h2, v, _, h⟩ := h
    have d1 := iha.1 _ _ _ _ h1 hM
    simp at h; rw [← h.2]; exact d1.trans (ihb.1 _ _ _ _ h2 (mono1 (hM.same d1)))
  | comma a b iha ihb =>
    refine ⟨?_, by intro _ _ _ _ h; simp [evalL] at h, by intro _ _ _ _ h; simp [evalA] at h⟩
    intro sp M v' M' h hM
    simp only [evalE, Option.ite_none_right_eq_some, Option.bind_eq_some_iff] at h
    obtain ⟨_, ⟨va, M1⟩, h1, h2⟩ := h
    have d1 := iha.1 _ _ _ _ h1 hM
    exact d1.trans (ihb.1 _ _ _ _ h2 (mono1 (hM.same d1)))
  | index a b iha ihb =>
    refine ⟨?_, ?_, by intro _ _ _ _ h; simp [evalA] at h⟩
    · intro sp M v' M' h hM
      simp only [evalE, Option.ite_none_right_eq_some, Option.bind_eq_some_iff] at h
      obtain ⟨_, t, _, ta, _, tb, _, ⟨va, M1⟩, h1, ⟨vb, M2⟩, h2, p, _, v, _, h⟩ := h
      have d1 := iha.1 _ _ _ _ h1 hM
      simp at h; rw [← h.2]; exact d1.trans (ihb.1 _ _ _ _ h2 (mono1 (hM.same d1)))
    · intro sp M v' M' h hM
      simp only [evalL, Option.ite_none_right_eq_some, Option.bind_eq_some_iff] at h
      obtain ⟨_, t, _, ta, _, tb, _, ⟨va, M1⟩, h1, ⟨vb, M2⟩, h2, p, _, h⟩ := h
      have d1 := iha.1 _ _ _ _ h1 hM
      simp at h; rw [← h.2]; exact d1.trans (ihb.1 _ _ _ _ h2 (mono1 (hM.same d1)))
  | assign a b iha ihb =>
    refine ⟨?_, by intro _ _ _ _ h; simp [evalL] at h, by intro _ _ _ _ h; simp [evalA] at h⟩
    intro sp M v' M' h hM
    simp only [evalE, Option.ite_none_right_eq_some, Option.bind_eq_some_iff] at h
    obtain ⟨_, ta, _, ⟨va, M1⟩, h1, ⟨vb, M2⟩, h2, M3, h3, h⟩ := h
    have d1 := iha.2.1 _ _ _ _ h1 hM
    simp at h; rw [← h.2]; exact (d1.trans (ihb.1 _ _ _ _ h2 (mono1 (hM.same d1)))).trans (storeT_dom h3)
  | opassign op a b iha ihb =>
    refine ⟨?_, by intro _ _ _ _ h; simp [evalL] at h, by intro _ _ _ _ h; simp [evalA] at h⟩
    intro sp M v' M' h hM
    simp only [evalE, Option.ite_none_right_eq_some, Option.bind_eq_some_iff] at h
    obtain ⟨_, ta, _, tb, _, ⟨va, M1⟩, h1, v, _, ⟨vb, M2⟩, h2, r, _, M3, h3, h⟩ := h
    have d1 := iha.2.1 _ _ _ _ h1 hM
    simp at h; rw [← h.2]; exact (d1.trans (ihb.1 _ _ _ _ h2 (mono 2 (hM.same d1)))).trans (storeT_dom h3)
  | land a b iha ihb | lor a b iha ihb =>
    refine ⟨?_, by intro _ _ _ _ h; simp [evalL] at h, by intro _ _ _ _ h; simp [evalA] at h⟩
    intro sp M v' M' h hM
    simp only [evalE, Option.ite_none_right_eq_some, Option.bind_eq_some_iff] at h
    obtain ⟨_, ⟨va, M1⟩, h1, h⟩ := h
    have d1 := iha.1 _ _ _ _ h1 hM
    simp only at h
    split at h
    · simp at h; rw [← h.2]; exact d1
    · simp only [Option.bind_eq_some_iff] at h
      obtain ⟨⟨vb, M2⟩, h2, h⟩ := h
      simp at h; rw [← h.2]; exact d1.trans (ihb.1 _ _ _ _ h2 (hM.same d1))
  | cond c a b ihc iha ihb =>
    refine ⟨?_, by intro _ _ _ _ h; simp [evalL] at h, by intro _ _ _ _ h; simp [evalA] at h⟩
    intro sp M v' M' h hM
    simp only [evalE, Option.ite_none_right_eq_some, Option.bind_eq_some_iff] at h
    obtain ⟨_, t, _, _, ⟨vc, M1⟩, h1, ⟨vb, M2⟩, h2, h⟩ := h
    have d1 := ihc.1 _ _ _ _ h1 hM
    simp at h; rw [← h.2]
    simp only at h2
    split at h2
    · exact d1.trans (iha.1 _ _ _ _ h2 (hM.same d1))
    · exact d1.trans (ihb.1 _ _ _ _ h2 (hM.same d1))
  | cast t e ih =>
    refine ⟨?_, by intro _ _ _ _ h; simp [evalL] at h, by intro _ _ _ _ h; simp [evalA] at h⟩
    intro sp M v' M' h hM
    simp only [evalE, Option.ite_none_right_eq_some, Option.bind_eq_some_iff] at h
    obtain ⟨_, ⟨va, M1⟩, h1, h⟩ := h
    simp at h; rw [← h.2]; exact ih.1 _ _ _ _ h1 hM
  | dot e m ih =>
    refine ⟨?_, ?_, by intro _ _ _ _ h; simp [evalA] at h⟩
    · intro sp M v' M' h hM
      simp only [evalE, Option.ite_none_right_eq_some, Option.bind_eq_some_iff] at h
      obtain ⟨_, te, _, t, _, o, _, ⟨p, M1⟩, h1, q, _, v, _, h⟩ := h
      simp at h; rw [← h.2]; exact ih.2.1 _ _ _ _ h1 hM
    · intro sp M v' M' h hM
      simp only [evalL, Option.ite_none_right_eq_some, Option.bind_eq_some_iff] at h
      obtain ⟨_, te, _, t, _, o, _, ⟨p, M1⟩, h1, q, _, h⟩ := h
      simp at h; rw [← h.2]; exact ih.2.1 _ _ _ _ h1 hM
  | arrow e m ih =>
    refine ⟨?_, ?_, by intro _ _ _ _ h; simp [evalA] at h⟩
    · intro sp M v' M' h hM
      simp only [evalE, Option.ite_none_right_eq_some, Option.bind_eq_some_iff] at h
      obtain ⟨_, te, _, t, _, o, _, ⟨p, M1⟩, h1, q, _, v, _, h⟩ := h
      simp at h; rw [← h.2]; exact ih.1 _ _ _ _ h1 hM
    · intro sp M v' M' h hM
      simp only [evalL, Option.ite_none_right_eq_some, Option.bind_eq_some_iff] at h
      obtain ⟨_, te, _, t, _, o, _, ⟨p, M1⟩, h1, q, _, h⟩ := h
      simp at h; rw [← h.2]; exact ih.1 _ _ _ _ h1 hM
  | call f args ih =>
    refine ⟨?_, by intro _ _ _ _ h; simp [evalL] at h, by intro _ _ _ _ h; simp [evalA] at h⟩
    intro sp M v' M' h hM
    simp only [evalE, Option.ite_none_right_eq_some, Option.bind_eq_some_iff] at h
    obtain ⟨_, t, _, ⟨vs, M1⟩, h1, h2⟩ := h
    have d1 := ih.2.2 _ _ _ _ h1 hM
    refine d1.trans (hcf.dom _ _ _ _ _ _ h2 ?_)
    rw [evalA_len h1]
    exact (hM.same d1).mono (by omega)
  | anil =>
    refine ⟨by intro _ _ _ _ h; simp [evalE] at h, by intro _ _ _ _ h; simp [evalL] at h, ?_⟩
    intro sp M v' M' h hM
    simp [evalA] at h
    rw [h.2]; exact SameDom.refl _
  | acons e es ihe ihes =>
    refine ⟨by intro _ _ _ _ h; simp [evalE] at h, by intro _ _ _ _ h; simp [evalL] at h, ?_⟩
    intro sp M v' M' h hM
    simp only [evalA, Option.bind_eq_some_iff] at h
    obtain ⟨⟨vs1, M1⟩, h1, ⟨v2, M2⟩, h2, h3⟩ := h
    simp at h3
    have d1 := ihes.2.2 _ _ _ _ h1 hM
    rw [← h3.2]; exact d1.trans (ihe.1 _ _ _ _ h2 (mono _ (hM.same d1)))

end Verif.Cg
