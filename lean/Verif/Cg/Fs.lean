import Verif.Cg.Sim
/-! The compile-time stack depth after an expression. -/
namespace Verif.Cg
open Verif Verif.Gen Verif.Gen.Spec Verif.X86 Verif.X86.Spec Spec

theorem width_word {w : Nat} (hw : w = 4 ∨ w = 8) {T : Tags} {t : CTy} {k : Nat} (h : type_width w T t false = .ok k)
    (hs : is_struct_or_union_type t = false) : ((k + w - 1) / w * w) / w = 1 := by
  have : 1 ≤ k ∧ k ≤ w := by
    cases t <;> simp only [type_width, is_struct_or_union_type, Bool.false_eq_true, if_false, Res.ok.injEq, reduceCtorEq] at h hs <;>
      first | omega | (split at h <;> simp at h; omega)
  rcases hw with rfl | rfl <;> omega

theorem fs_all {w : Nat} (hw : w = 4 ∨ w = 8) (T : Tags) (Γ : Env) (e : E) :
    (∀ fs l c fs' l', codegen_rvalue w T Γ e fs l = .ok (c, fs', l') → fs' = fs + 1) ∧
    (∀ fs l c fs' l' k, codegen_lvalue w T Γ e fs l = .ok (c, fs', l', k) → fs' = fs + 1) ∧
    (∀ fs l c fs' l' k, codegen_params w T Γ e fs l = .ok (c, fs', l', k) → fs' = fs + nargs e ∧ k = nargs e) := by
  induction e with
  | num v => simp [codegen_rvalue, codegen_lvalue, codegen_params]
  | var x =>
    refine ⟨?_, ?_, ?_⟩ <;> intros <;> rename_i h <;>
      simp only [codegen_rvalue, codegen_lvalue, codegen_params, Res.bind_eq_ok, reduceCtorEq] at h
    · obtain ⟨b, _, h⟩ := h
      cases b <;> simp only [Res.bind_eq_ok, Res.ok.injEq, Prod.mk.injEq, reduceCtorEq] at h <;> grind
    · obtain ⟨b, _, h⟩ := h
      cases b <;> simp only [Res.bind_eq_ok, Res.ok.injEq, Prod.mk.injEq, reduceCtorEq] at h
      all_goals
        obtain ⟨k, _, h⟩ := h
        split at h <;> simp only [Res.ok.injEq, Prod.mk.injEq, reduceCtorEq] at h
        grind
  | dot e m ih =>
    refine ⟨?_, ?_, ?_⟩ <;> intros <;> rename_i h <;>
      simp only [codegen_rvalue, codegen_lvalue, codegen_params, Res.bind_eq_ok, reduceCtorEq] at h
    · obtain ⟨a, _, h⟩ := h
      cases a <;> simp only [Res.bind_eq_ok, Res.ok.injEq, Prod.mk.injEq, reduceCtorEq] at h
      obtain ⟨_, _, ⟨c1, f1, l1, k1⟩, h1, _, _, _, _, _, h2, _⟩ := h
      have := ih.2.1 _ _ _ _ _ _ h1
      simp only at h2; omega
    · obtain ⟨a, _, h⟩ := h
      cases a <;> simp only [Res.bind_eq_ok, Res.ok.injEq, Prod.mk.injEq, reduceCtorEq] at h
      obtain ⟨⟨c1, f1, l1, k1⟩, h1, _, _, _, _, _, _, h⟩ := h
      have := ih.2.1 _ _ _ _ _ _ h1
      split at h <;> simp only [Res.ok.injEq, Prod.mk.injEq, reduceCtorEq] at h
      omega
  | arrow e m ih =>
    refine ⟨?_, ?_, ?_⟩ <;> intros <;> rename_i h <;>
      simp only [codegen_rvalue, codegen_lvalue, codegen_params, Res.bind_eq_ok, reduceCtorEq] at h
    · obtain ⟨a, _, h⟩ := h
      split at h <;> simp only [Res.bind_eq_ok, Res.ok.injEq, Prod.mk.injEq, reduceCtorEq] at h
      obtain ⟨_, _, ⟨c1, f1, l1⟩, h1, _, _, _, _, _, h2, _⟩ := h
      have := ih.1 _ _ _ _ _ h1
      simp only at h2; omega
    · obtain ⟨a, _, h⟩ := h
      split at h <;> simp only [Res.bind_eq_ok, Res.ok.injEq, Prod.mk.injEq, reduceCtorEq] at h
      obtain ⟨⟨c1, f1, l1⟩, h1, _, _, _, _, _, _, h⟩ := h
      have := ih.1 _ _ _ _ _ h1
      split at h <;> simp only [Res.ok.injEq, Prod.mk.injEq, reduceCtorEq] at h
      omega
  | call f args ih =>
    refine ⟨?_, ?_, ?_⟩ <;> intros <;> rename_i h <;>
      simp only [codegen_rvalue, codegen_lvalue, codegen_params, Res.bind_eq_ok, reduceCtorEq] at h
    obtain ⟨a, _, h⟩ := h
    split at h <;> simp only [Res.bind_eq_ok, Res.ok.injEq, Prod.mk.injEq, reduceCtorEq] at h
    obtain ⟨⟨c1, f1, l1, n1⟩, h1, _, h2, _⟩ := h
    have := ih.2.2 _ _ _ _ _ _ h1
    simp only at h2; omega
  | acons e es ihe ihes =>
    refine ⟨?_, ?_, ?_⟩ <;> intros <;> rename_i h <;>
      simp only [codegen_rvalue, codegen_lvalue, codegen_params, Res.bind_eq_ok, reduceCtorEq] at h
    obtain ⟨⟨c1, f1, l1, n1⟩, h1, t, _, h⟩ := h
    split at h
    · cases h
    rename_i hs
    simp only [Res.bind_eq_ok, Res.ok.injEq, Prod.mk.injEq] at h
    obtain ⟨⟨c2, f2, l2⟩, h2, k, hk, _, h3, _, h4⟩ := h
    have a1 := ihes.2.2 _ _ _ _ _ _ h1
    have a2 := ihe.1 _ _ _ _ _ h2
    have a3 := width_word hw hk (by simpa using hs)
    simp only [nargs] at *; omega
  | _ =>
    refine ⟨?_, ?_, ?_⟩ <;> intros <;> rename_i h <;>
      simp only [codegen_rvalue, codegen_lvalue, codegen_params, Res.bind_eq_ok, reduceCtorEq] at h <;>
      grind [Res.bind_eq_ok, nargs]

end Verif.Cg
