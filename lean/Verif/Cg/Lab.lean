import Verif.Cg.Main
/-! The labels of the generated code are all different. -/
namespace Verif.Cg
open Verif Verif.Gen Verif.Gen.Spec Verif.X86 Verif.X86.Spec Spec

/-- Is `n` the label `x`. -/
def isL (x n : Nat) : Nat := if n = x then 1 else 0
/-- Number of definitions of the label `x`. -/
def cl (x : Nat) : List Asm → Nat
  | [] => 0
  | .lbl n :: c => isL x n + cl x c
  | _ :: c => cl x c
/-- Is `x` below `n`. -/
def ltL (x n : Nat) : Nat := if x < n then 1 else 0

theorem ltL_succ (x n : Nat) : ltL x (n + 1) = ltL x n + isL x n := by
  unfold ltL isL
  by_cases h1 : x < n
  · rw [if_pos h1, if_pos (by omega), if_neg (by omega)]
  · by_cases h2 : n = x
    · rw [if_neg h1, if_pos (by omega), if_pos h2]
    · rw [if_neg h1, if_neg (by omega), if_neg h2]

theorem cl_append (x : Nat) (a b : List Asm) : cl x (a ++ b) = cl x a + cl x b := by
  induction a with
  | nil => simp [cl]
  | cons i a ih => cases i <;> simp [cl, ih]; omega
theorem cl_I (x : Nat) (es : List Emit) : cl x (I es) = 0 := by
  induction es with
  | nil => rfl
  | cons e es ih => exact ih
theorem cl_grow (x w : Nat) (n : Int) : cl x (grow_stack w n) = 0 := cl_I x _
theorem cl_jcc (x a b c d : Nat) : cl x (jump_cond_reg_reg a b c d) = 0 := rfl
theorem cl_lbl (x n : Nat) (c : List Asm) : cl x (.lbl n :: c) = isL x n + cl x c := rfl
theorem cl_jmp (x n : Nat) (c : List Asm) : cl x (.jmp n :: c) = cl x c := rfl
theorem cl_call (x n : Nat) (c : List Asm) : cl x (.call n :: c) = cl x c := rfl
theorem cl_ret (x : Nat) (c : List Asm) : cl x (.ret :: c) = cl x c := rfl
theorem cl_nil (x : Nat) : cl x [] = 0 := rfl

theorem cl_binop {w : Nat} {T : Tags} {op : Bop} {lt rt : CTy} {l : Nat} {c : List Asm} {l' : Nat} (h : codegen_binop w T op lt rt l = .ok (c, l')) (x : Nat) :
    cl x c + ltL x l ≤ ltL x l' := by
  unfold codegen_binop at h
  split at h
  · simp only [Res.ok.injEq, Prod.mk.injEq] at h
    obtain ⟨rfl, rfl⟩ := h
    simp only [cl_append, cl_I, cl_jcc, cl_lbl, cl_jmp, cl_nil]
    rw [show l + 2 = l + 1 + 1 from rfl, ltL_succ, ltL_succ]
    omega
  · simp only [Res.bind_eq_ok, Res.ok.injEq, Prod.mk.injEq] at h
    obtain ⟨_, _, rfl, rfl⟩ := h
    simp [cl_I]

theorem lab_expr (w : Nat) (T : Tags) (Γ : Env) (x : Nat) (e : E) :
    (∀ fs l c fs' l', codegen_rvalue w T Γ e fs l = .ok (c, fs', l') → cl x c + ltL x l ≤ ltL x l') ∧
    (∀ fs l c fs' l' k, codegen_lvalue w T Γ e fs l = .ok (c, fs', l', k) → cl x c + ltL x l ≤ ltL x l') ∧
    (∀ fs l c fs' l' k, codegen_params w T Γ e fs l = .ok (c, fs', l', k) → cl x c + ltL x l ≤ ltL x l') := by
  induction e with
  | num v =>
    refine ⟨?_, ?_, ?_⟩ <;> intros <;> rename_i h <;>
      simp only [codegen_rvalue, codegen_lvalue, codegen_params, Res.ok.injEq, Prod.mk.injEq, reduceCtorEq] at h
    obtain ⟨rfl, _, rfl⟩ := h; simp [cl_I]
  | chr v =>
    refine ⟨?_, ?_, ?_⟩ <;> intros <;> rename_i h <;>
      simp only [codegen_rvalue, codegen_lvalue, codegen_params, Res.ok.injEq, Prod.mk.injEq, reduceCtorEq] at h
    obtain ⟨rfl, _, rfl⟩ := h; simp [cl_I]
  | str k bs =>
    refine ⟨?_, ?_, ?_⟩ <;> intros <;> rename_i h <;>
      simp only [codegen_rvalue, codegen_lvalue, codegen_params, Res.ok.injEq, Prod.mk.injEq, reduceCtorEq] at h
    obtain ⟨rfl, _, rfl⟩ := h; simp [codegen_string, cl, ltL_succ, Nat.add_comm]
  | var y =>
    refine ⟨?_, ?_, ?_⟩ <;> intros <;> rename_i h <;>
      simp only [codegen_rvalue, codegen_lvalue, codegen_params, Res.bind_eq_ok, reduceCtorEq] at h
    · obtain ⟨b, _, h⟩ := h
      cases b <;> simp only [Res.bind_eq_ok, Res.ok.injEq, Prod.mk.injEq, reduceCtorEq] at h
      · obtain ⟨_, _, rfl, _, rfl⟩ := h; simp [cl_I]
      · obtain ⟨_, _, rfl, _, rfl⟩ := h; simp [cl_I]
      · obtain ⟨rfl, _, rfl⟩ := h; simp [cl_I]
    · obtain ⟨b, _, h⟩ := h
      cases b <;> simp only [Res.bind_eq_ok, Res.ok.injEq, Prod.mk.injEq, reduceCtorEq] at h
      all_goals
        obtain ⟨k, _, h⟩ := h
        split at h <;> simp only [Res.ok.injEq, Prod.mk.injEq, reduceCtorEq] at h
        obtain ⟨rfl, _, rfl, _⟩ := h; simp [cl_I]
  | deref e ih =>
    refine ⟨?_, ?_, ?_⟩ <;> intros <;> rename_i h <;>
      simp only [codegen_rvalue, codegen_lvalue, codegen_params, Res.bind_eq_ok, reduceCtorEq] at h
    · obtain ⟨t, _, ⟨c1, f1, l1⟩, h1, h⟩ := h
      have := ih.1 _ _ _ _ _ h1
      split at h
      · simp only [Res.ok.injEq, Prod.mk.injEq] at h; obtain ⟨rfl, _, rfl⟩ := h; exact this
      split at h
      · simp only [Res.bind_eq_ok, Res.ok.injEq, Prod.mk.injEq] at h
        obtain ⟨_, _, _, _, _, _, rfl, _, rfl⟩ := h
        simpa [cl_append, cl_I] using this
      · cases h
    · obtain ⟨⟨c1, f1, l1⟩, h1, t, _, k, _, h⟩ := h
      have := ih.1 _ _ _ _ _ h1
      split at h <;> simp only [Res.ok.injEq, Prod.mk.injEq, reduceCtorEq] at h
      obtain ⟨rfl, _, rfl, _⟩ := h; exact this
  | addr e ih =>
    refine ⟨?_, ?_, ?_⟩ <;> intros <;> rename_i h <;>
      simp only [codegen_rvalue, codegen_lvalue, codegen_params, Res.bind_eq_ok, Res.ok.injEq, Prod.mk.injEq, reduceCtorEq] at h
    obtain ⟨⟨c1, f1, l1, k⟩, h1, rfl, _, rfl⟩ := h
    exact ih.2.1 _ _ _ _ _ _ h1
  | neg e ih =>
    refine ⟨?_, ?_, ?_⟩ <;> intros <;> rename_i h <;>
      simp only [codegen_rvalue, codegen_lvalue, codegen_params, Res.bind_eq_ok, Res.ok.injEq, Prod.mk.injEq, reduceCtorEq] at h
    obtain ⟨⟨c1, f1, l1⟩, h1, rfl, _, rfl⟩ := h
    simpa [cl_append, cl_I] using ih.1 _ _ _ _ _ h1
  | bnot e ih =>
    refine ⟨?_, ?_, ?_⟩ <;> intros <;> rename_i h <;>
      simp only [codegen_rvalue, codegen_lvalue, codegen_params, Res.bind_eq_ok, Res.ok.injEq, Prod.mk.injEq, reduceCtorEq] at h
    obtain ⟨⟨c1, f1, l1⟩, h1, rfl, _, rfl⟩ := h
    simpa [cl_append, cl_I] using ih.1 _ _ _ _ _ h1
  | lnot e ih =>
    refine ⟨?_, ?_, ?_⟩ <;> intros <;> rename_i h <;>
      simp only [codegen_rvalue, codegen_lvalue, codegen_params, Res.bind_eq_ok, Res.ok.injEq, Prod.mk.injEq, reduceCtorEq] at h
    obtain ⟨⟨c1, f1, l1⟩, h1, _, _, ⟨c2, l2⟩, h2, rfl, _, rfl⟩ := h
    have := ih.1 _ _ _ _ _ h1
    have := cl_binop h2 x
    simp only [cl_append, cl_I] at *; omega
  | plus e ih =>
    refine ⟨?_, ?_, ?_⟩ <;> intros <;> rename_i h <;>
      simp only [codegen_rvalue, codegen_lvalue, codegen_params, Res.bind_eq_ok, Res.ok.injEq, Prod.mk.injEq, reduceCtorEq] at h
    obtain ⟨⟨c1, f1, l1⟩, h1, rfl, _, rfl⟩ := h
    exact ih.1 _ _ _ _ _ h1
  | paren e ih =>
    refine ⟨?_, ?_, ?_⟩ <;> intros <;> rename_i h <;>
      simp only [codegen_rvalue, codegen_lvalue, codegen_params, Res.bind_eq_ok, Res.ok.injEq, Prod.mk.injEq, reduceCtorEq] at h
    · obtain ⟨⟨c1, f1, l1⟩, h1, rfl, _, rfl⟩ := h
      exact ih.1 _ _ _ _ _ h1
    · obtain ⟨⟨c1, f1, l1, k⟩, h1, rfl, _, rfl, _⟩ := h
      exact ih.2.1 _ _ _ _ _ _ h1
  | incdec post dec e ih =>
    refine ⟨?_, ?_, ?_⟩ <;> intros <;> rename_i h <;>
      simp only [codegen_rvalue, codegen_lvalue, codegen_params, Res.bind_eq_ok, reduceCtorEq] at h
    obtain ⟨⟨c1, f1, l1, k⟩, h1, _, _, _, _, ⟨c2, l2⟩, h2, _, _, h⟩ := h
    have := ih.2.1 _ _ _ _ _ _ h1
    have := cl_binop h2 x
    split at h <;> simp only [Res.ok.injEq, Prod.mk.injEq] at h <;> obtain ⟨rfl, _, rfl⟩ := h <;> simp only [cl_append, cl_I] at * <;> omega
  | sizeofT t =>
    refine ⟨?_, ?_, ?_⟩ <;> intros <;> rename_i h <;>
      simp only [codegen_rvalue, codegen_lvalue, codegen_params, Res.bind_eq_ok, Res.ok.injEq, Prod.mk.injEq, reduceCtorEq] at h
    obtain ⟨_, _, rfl, _, rfl⟩ := h; simp [cl_I]
  | sizeofE e ih =>
    refine ⟨?_, ?_, ?_⟩ <;> intros <;> rename_i h <;>
      simp only [codegen_rvalue, codegen_lvalue, codegen_params, Res.bind_eq_ok, Res.ok.injEq, Prod.mk.injEq, reduceCtorEq] at h
    obtain ⟨_, _, _, _, rfl, _, rfl⟩ := h; simp [cl_I]
  | bin op a b iha ihb =>
    refine ⟨?_, ?_, ?_⟩ <;> intros <;> rename_i h <;>
      simp only [codegen_rvalue, codegen_lvalue, codegen_params, Res.bind_eq_ok, Res.ok.injEq, Prod.mk.injEq, reduceCtorEq] at h
    obtain ⟨⟨c1, f1, l1⟩, h1, ⟨c2, f2, l2⟩, h2, _, _, _, _, ⟨c3, l3⟩, h3, rfl, _, rfl⟩ := h
    have := iha.1 _ _ _ _ _ h1
    have := ihb.1 _ _ _ _ _ h2
    have := cl_binop h3 x
    simp only [cl_append, cl_I] at *; omega
  | comma a b iha ihb =>
    refine ⟨?_, ?_, ?_⟩ <;> intros <;> rename_i h <;>
      simp only [codegen_rvalue, codegen_lvalue, codegen_params, Res.bind_eq_ok, Res.ok.injEq, Prod.mk.injEq, reduceCtorEq] at h
    obtain ⟨⟨c1, f1, l1⟩, h1, ⟨c2, f2, l2⟩, h2, rfl, _, rfl⟩ := h
    have := iha.1 _ _ _ _ _ h1
    have := ihb.1 _ _ _ _ _ h2
    simp only [cl_append, cl_I] at *; omega
  | index a b iha ihb =>
    refine ⟨?_, ?_, ?_⟩ <;> intros <;> rename_i h <;>
      simp only [codegen_rvalue, codegen_lvalue, codegen_params, Res.bind_eq_ok, Res.ok.injEq, Prod.mk.injEq, reduceCtorEq] at h
    · obtain ⟨⟨c1, f1, l1⟩, h1, ⟨c2, f2, l2⟩, h2, _, _, _, _, _, _, rfl, _, rfl⟩ := h
      have := iha.1 _ _ _ _ _ h1
      have := ihb.1 _ _ _ _ _ h2
      simp only [cl_append, cl_I] at *; omega
    · obtain ⟨_, _, ⟨c1, f1, l1⟩, h1, ⟨c2, f2, l2⟩, h2, _, _, ⟨c3, l3⟩, h3, _, _, h⟩ := h
      have := iha.1 _ _ _ _ _ h1
      have := ihb.1 _ _ _ _ _ h2
      have := cl_binop h3 x
      split at h <;> simp only [Res.ok.injEq, Prod.mk.injEq, reduceCtorEq] at h
      obtain ⟨rfl, _, rfl, _⟩ := h
      simp only [cl_append, cl_I] at *; omega
  | assign a b iha ihb =>
    refine ⟨?_, ?_, ?_⟩ <;> intros <;> rename_i h <;>
      simp only [codegen_rvalue, codegen_lvalue, codegen_params, Res.bind_eq_ok, reduceCtorEq] at h
    obtain ⟨_, _, ⟨c1, f1, l1, k⟩, h1, h⟩ := h
    split at h
    · cases h
    simp only [Res.bind_eq_ok, Res.ok.injEq, Prod.mk.injEq] at h
    obtain ⟨⟨c2, f2, l2⟩, h2, _, _, rfl, _, rfl⟩ := h
    have := iha.2.1 _ _ _ _ _ _ h1
    have := ihb.1 _ _ _ _ _ h2
    simp only [cl_append, cl_I] at *; omega
  | opassign op a b iha ihb =>
    refine ⟨?_, ?_, ?_⟩ <;> intros <;> rename_i h <;>
      simp only [codegen_rvalue, codegen_lvalue, codegen_params, Res.bind_eq_ok, Res.ok.injEq, Prod.mk.injEq, reduceCtorEq] at h
    obtain ⟨⟨c1, f1, l1, k⟩, h1, _, _, _, _, ⟨c2, f2, l2⟩, h2, _, _, ⟨c3, l3⟩, h3, _, _, rfl, _, rfl⟩ := h
    have := iha.2.1 _ _ _ _ _ _ h1
    have := ihb.1 _ _ _ _ _ h2
    have := cl_binop h3 x
    simp only [cl_append, cl_I] at *; omega
  | land a b iha ihb =>
    refine ⟨?_, ?_, ?_⟩ <;> intros <;> rename_i h <;>
      simp only [codegen_rvalue, codegen_lvalue, codegen_params, Res.bind_eq_ok, Res.ok.injEq, Prod.mk.injEq, reduceCtorEq] at h
    obtain ⟨⟨c1, f1, l1⟩, h1, ⟨c2, f2, l2⟩, h2, rfl, _, rfl⟩ := h
    have := iha.1 _ _ _ _ _ h1
    have := ihb.1 _ _ _ _ _ h2
    simp only [cl_append, cl_I, cl_lbl, cl_nil, cl_jcc, ltL_succ] at *; omega
  | lor a b iha ihb =>
    refine ⟨?_, ?_, ?_⟩ <;> intros <;> rename_i h <;>
      simp only [codegen_rvalue, codegen_lvalue, codegen_params, Res.bind_eq_ok, Res.ok.injEq, Prod.mk.injEq, reduceCtorEq] at h
    obtain ⟨⟨c1, f1, l1⟩, h1, ⟨c2, f2, l2⟩, h2, rfl, _, rfl⟩ := h
    have := iha.1 _ _ _ _ _ h1
    have := ihb.1 _ _ _ _ _ h2
    simp only [cl_append, cl_I, cl_lbl, cl_nil, cl_jcc, ltL_succ] at *; omega
  | cond a b d iha ihb ihd =>
    refine ⟨?_, ?_, ?_⟩ <;> intros <;> rename_i h <;>
      simp only [codegen_rvalue, codegen_lvalue, codegen_params, Res.bind_eq_ok, Res.ok.injEq, Prod.mk.injEq, reduceCtorEq] at h
    obtain ⟨⟨c1, f1, l1⟩, h1, ⟨c2, f2, l2⟩, h2, ⟨c3, f3, l3⟩, h3, rfl, _, rfl⟩ := h
    have := iha.1 _ _ _ _ _ h1
    have := ihb.1 _ _ _ _ _ h2
    have := ihd.1 _ _ _ _ _ h3
    simp only [cl_append, cl_I, cl_lbl, cl_jmp, cl_nil, cl_jcc, ltL_succ] at *; omega
  | cast t e ih =>
    refine ⟨?_, ?_, ?_⟩ <;> intros <;> rename_i h <;>
      simp only [codegen_rvalue, codegen_lvalue, codegen_params, Res.bind_eq_ok, Res.ok.injEq, Prod.mk.injEq, reduceCtorEq] at h
    obtain ⟨⟨c1, f1, l1⟩, h1, _, _, _, _, _, _, tr, htr, rfl, _, rfl⟩ := h
    have := ih.1 _ _ _ _ _ h1
    have e0 : cl x tr = 0 := by
      split at htr
      · simp only [Res.bind_eq_ok, Res.ok.injEq] at htr
        obtain ⟨_, _, rfl⟩ := htr
        simp [cl_append, cl_I, cl_grow]
      · simp only [Res.ok.injEq] at htr
        subst htr; rfl
    simp only [cl_append, e0] at *; omega
  | dot e m ih =>
    refine ⟨?_, ?_, ?_⟩ <;> intros <;> rename_i h <;>
      simp only [codegen_rvalue, codegen_lvalue, codegen_params, Res.bind_eq_ok, reduceCtorEq] at h
    · obtain ⟨a, _, h⟩ := h
      cases a <;> simp only [Res.bind_eq_ok, Res.ok.injEq, Prod.mk.injEq, reduceCtorEq] at h
      obtain ⟨_, _, ⟨c1, f1, l1, k1⟩, h1, _, _, _, _, rfl, _, rfl⟩ := h
      simpa [cl_append, cl_I] using ih.2.1 _ _ _ _ _ _ h1
    · obtain ⟨a, _, h⟩ := h
      cases a <;> simp only [Res.bind_eq_ok, Res.ok.injEq, Prod.mk.injEq, reduceCtorEq] at h
      obtain ⟨⟨c1, f1, l1, k1⟩, h1, _, _, _, _, _, _, h⟩ := h
      have := ih.2.1 _ _ _ _ _ _ h1
      split at h <;> simp only [Res.ok.injEq, Prod.mk.injEq, reduceCtorEq] at h
      obtain ⟨rfl, _, rfl, _⟩ := h
      simpa [cl_append, cl_I] using this
  | arrow e m ih =>
    refine ⟨?_, ?_, ?_⟩ <;> intros <;> rename_i h <;>
      simp only [codegen_rvalue, codegen_lvalue, codegen_params, Res.bind_eq_ok, reduceCtorEq] at h
    · obtain ⟨a, _, h⟩ := h
      split at h <;> simp only [Res.bind_eq_ok, Res.ok.injEq, Prod.mk.injEq, reduceCtorEq] at h
      obtain ⟨_, _, ⟨c1, f1, l1⟩, h1, _, _, _, _, rfl, _, rfl⟩ := h
      simpa [cl_append, cl_I] using ih.1 _ _ _ _ _ h1
    · obtain ⟨a, _, h⟩ := h
      split at h <;> simp only [Res.bind_eq_ok, Res.ok.injEq, Prod.mk.injEq, reduceCtorEq] at h
      obtain ⟨⟨c1, f1, l1⟩, h1, _, _, _, _, _, _, h⟩ := h
      have := ih.1 _ _ _ _ _ h1
      split at h <;> simp only [Res.ok.injEq, Prod.mk.injEq, reduceCtorEq] at h
      obtain ⟨rfl, _, rfl, _⟩ := h
      simpa [cl_append, cl_I] using this
  | call f args ih =>
    refine ⟨?_, ?_, ?_⟩ <;> intros <;> rename_i h <;>
      simp only [codegen_rvalue, codegen_lvalue, codegen_params, Res.bind_eq_ok, reduceCtorEq] at h
    obtain ⟨a, _, h⟩ := h
    split at h <;> simp only [Res.bind_eq_ok, Res.ok.injEq, Prod.mk.injEq, reduceCtorEq] at h
    obtain ⟨⟨c1, f1, l1, n1⟩, h1, rfl, _, rfl⟩ := h
    have := ih.2.2 _ _ _ _ _ _ h1
    simpa [cl_append, cl_I, cl_grow, cl_call, cl_nil] using this
  | anil =>
    refine ⟨?_, ?_, ?_⟩ <;> intros <;> rename_i h <;>
      simp only [codegen_rvalue, codegen_lvalue, codegen_params, Res.ok.injEq, Prod.mk.injEq, reduceCtorEq] at h
    obtain ⟨rfl, _, rfl, _⟩ := h; simp [cl_nil]
  | acons e es ihe ihes =>
    refine ⟨?_, ?_, ?_⟩ <;> intros <;> rename_i h <;>
      simp only [codegen_rvalue, codegen_lvalue, codegen_params, Res.bind_eq_ok, reduceCtorEq] at h
    obtain ⟨⟨c1, f1, l1, n1⟩, h1, t, _, h⟩ := h
    split at h
    · cases h
    simp only [Res.bind_eq_ok, Res.ok.injEq, Prod.mk.injEq] at h
    obtain ⟨⟨c2, f2, l2⟩, h2, k, hk, rfl, _, rfl, _⟩ := h
    have := ihes.2.2 _ _ _ _ _ _ h1
    have := ihe.1 _ _ _ _ _ h2
    simp only [cl_append] at *; omega

/-- Is `x` the label of the next `case`. -/
def swL (x : Nat) : Sw → Nat
  | none => 0
  | some (n, _) => isL x n

theorem lab_stmt (w : Nat) (T : Tags) (x : Nat) (s : St) :
    (∀ Γ fs l sw c fs' l' sw', codegen_statement w T Γ s fs l sw = .ok (c, fs', l', sw') → cl x c + swL x sw' + ltL x l ≤ ltL x l' + swL x sw) ∧
    (∀ Γ fs l sw c fs' l' sw', codegen_items w T Γ s fs l sw = .ok (c, fs', l', sw') → cl x c + swL x sw' + ltL x l ≤ ltL x l' + swL x sw) := by
  have ee : ∀ {Γ e fs l c fs' l'}, codegen_rvalue w T Γ e fs l = .ok (c, fs', l') → cl x c + ltL x l ≤ ltL x l' := fun h => (lab_expr w T _ x _).1 _ _ _ _ _ h
  induction s with
  | skip =>
    refine ⟨?_, by intro _ _ _ _ _ _ _ _ h; simp [codegen_items] at h⟩
    intro Γ fs l sw c fs' l' sw' h
    simp only [codegen_statement, Res.ok.injEq, Prod.mk.injEq] at h
    obtain ⟨rfl, _, rfl, rfl⟩ := h; simp [cl_nil]; omega
  | ifte c a b iha ihb =>
    refine ⟨?_, by intro _ _ _ _ _ _ _ _ h; simp [codegen_items] at h⟩
    intro Γ fs l sw c fs' l' sw' h
    simp only [codegen_statement, Res.bind_eq_ok, Res.ok.injEq, Prod.mk.injEq] at h
    obtain ⟨⟨c1, f1, l1⟩, h1, ⟨c2, f2, l2, s2⟩, h2, ⟨c3, f3, l3, s3⟩, h3, rfl, _, rfl, rfl⟩ := h
    have := ee h1; have := iha.1 _ _ _ _ _ _ _ _ h2; have := ihb.1 _ _ _ _ _ _ _ _ h3
    simp only [cl_append, cl_I, cl_lbl, cl_jmp, cl_nil, cl_jcc, ltL_succ] at *; omega
  | whil c b ih =>
    refine ⟨?_, by intro _ _ _ _ _ _ _ _ h; simp [codegen_items] at h⟩
    intro Γ fs l sw c fs' l' sw' h
    simp only [codegen_statement, Res.bind_eq_ok, Res.ok.injEq, Prod.mk.injEq] at h
    obtain ⟨⟨c1, f1, l1⟩, h1, ⟨c2, f2, l2, s2⟩, h2, rfl, _, rfl, rfl⟩ := h
    have := ee h1; have := ih.1 _ _ _ _ _ _ _ _ h2
    simp only [cl_append, cl_I, cl_lbl, cl_jmp, cl_nil, cl_jcc, ltL_succ] at *; omega
  | forr i c p b ihi ihp ihb =>
    refine ⟨?_, by intro _ _ _ _ _ _ _ _ h; simp [codegen_items] at h⟩
    intro Γ fs l sw co fs' l' sw' h
    simp only [codegen_statement, Res.bind_eq_ok, Res.ok.injEq, Prod.mk.injEq] at h
    obtain ⟨⟨c1, f1, l1, s1⟩, h1, ⟨c2, f2, l2, s2⟩, h2, ⟨c3, f3, l3⟩, h3, ⟨c4, f4, l4, s4⟩, h4, rfl, _, rfl, rfl⟩ := h
    have := ihi.1 _ _ _ _ _ _ _ _ h1; have := ihp.1 _ _ _ _ _ _ _ _ h2; have := ihb.1 _ _ _ _ _ _ _ _ h4
    have : cl x c3 + ltL x l2 ≤ ltL x l3 := by
      cases c with
      | none => simp only [Res.ok.injEq, Prod.mk.injEq] at h3; obtain ⟨rfl, _, rfl⟩ := h3; simp [cl_nil]
      | some c =>
        simp only [Res.bind_eq_ok, Res.ok.injEq, Prod.mk.injEq] at h3
        obtain ⟨⟨c5, f5, l5⟩, h5, rfl, _, rfl⟩ := h3
        simpa [cl_append, cl_I, cl_jcc] using ee h5
    simp only [cl_append, cl_I, cl_lbl, cl_jmp, cl_nil, cl_jcc, ltL_succ] at *; omega
  | doW b c ih =>
    refine ⟨?_, by intro _ _ _ _ _ _ _ _ h; simp [codegen_items] at h⟩
    intro Γ fs l sw c fs' l' sw' h
    simp only [codegen_statement, Res.bind_eq_ok, Res.ok.injEq, Prod.mk.injEq] at h
    obtain ⟨⟨c2, f2, l2, s2⟩, h2, ⟨c1, f1, l1⟩, h1, rfl, _, rfl, rfl⟩ := h
    have := ee h1; have := ih.1 _ _ _ _ _ _ _ _ h2
    simp only [cl_append, cl_I, cl_lbl, cl_jmp, cl_nil, cl_jcc, ltL_succ] at *; omega
  | switch e b ih =>
    refine ⟨?_, by intro _ _ _ _ _ _ _ _ h; simp [codegen_items] at h⟩
    intro Γ fs l sw c fs' l' sw' h
    simp only [codegen_statement, Res.bind_eq_ok] at h
    obtain ⟨⟨c1, f1, l1⟩, h1, ⟨c2, f2, l2, s2⟩, h2, h⟩ := h
    have := ee h1; have := ih.1 _ _ _ _ _ _ _ _ h2
    match s2, h with
    | none, h => cases h
    | some (nxt, none), h =>
      simp only [Res.ok.injEq, Prod.mk.injEq] at h; obtain ⟨rfl, _, rfl, rfl⟩ := h
      simp only [cl_append, cl_I, cl_lbl, cl_jmp, cl_nil, cl_grow, ltL_succ, swL] at *; omega
    | some (nxt, some d), h =>
      simp only [Res.ok.injEq, Prod.mk.injEq] at h; obtain ⟨rfl, _, rfl, rfl⟩ := h
      simp only [cl_append, cl_I, cl_lbl, cl_jmp, cl_nil, cl_grow, ltL_succ, swL] at *; omega
  | case e s ih =>
    refine ⟨?_, by intro _ _ _ _ _ _ _ _ h; simp [codegen_items] at h⟩
    intro Γ fs l sw c fs' l' sw' h
    match sw, h with
    | none, h => simp [codegen_statement] at h
    | some (nxt, dft), h =>
      simp only [codegen_statement, Res.bind_eq_ok, Res.ok.injEq, Prod.mk.injEq] at h
      obtain ⟨⟨c1, f1, l1⟩, h1, ⟨c2, f2, l2, s2⟩, h2, rfl, _, rfl, rfl⟩ := h
      have := ee h1; have := ih.1 _ _ _ _ _ _ _ _ h2
      simp only [cl_append, cl_I, cl_lbl, cl_jmp, cl_nil, cl_jcc, ltL_succ, swL] at *; omega
  | dflt s ih =>
    refine ⟨?_, by intro _ _ _ _ _ _ _ _ h; simp [codegen_items] at h⟩
    intro Γ fs l sw c fs' l' sw' h
    simp only [codegen_statement] at h
    split at h
    · cases h
    · cases h
    · simp only [Res.bind_eq_ok, Res.ok.injEq, Prod.mk.injEq] at h
      obtain ⟨⟨c2, f2, l2, s2⟩, h2, rfl, _, rfl, rfl⟩ := h
      have := ih.1 _ _ _ _ _ _ _ _ h2
      simp only [cl_append, cl_lbl, cl_nil, ltL_succ, swL] at *; omega
  | brk =>
    refine ⟨?_, by intro _ _ _ _ _ _ _ _ h; simp [codegen_items] at h⟩
    intro Γ fs l sw c fs' l' sw' h
    simp only [codegen_statement] at h
    split at h
    · cases h
    · simp only [Res.ok.injEq, Prod.mk.injEq] at h; obtain ⟨rfl, _, rfl, rfl⟩ := h
      simp only [cl_append, cl_grow, cl_jmp, cl_nil]; omega
  | cont =>
    refine ⟨?_, by intro _ _ _ _ _ _ _ _ h; simp [codegen_items] at h⟩
    intro Γ fs l sw c fs' l' sw' h
    simp only [codegen_statement] at h
    split at h
    · simp only [Res.ok.injEq, Prod.mk.injEq] at h; obtain ⟨rfl, _, rfl, rfl⟩ := h
      simp only [cl_append, cl_grow, cl_jmp, cl_nil]; omega
    · cases h
  | ret e =>
    refine ⟨?_, by intro _ _ _ _ _ _ _ _ h; simp [codegen_items] at h⟩
    intro Γ fs l sw c fs' l' sw' h
    simp only [codegen_statement, Res.bind_eq_ok, Res.ok.injEq, Prod.mk.injEq] at h
    obtain ⟨⟨c2, f2, l2⟩, h2, rfl, _, rfl, rfl⟩ := h
    cases e with
    | none =>
      simp only [Res.ok.injEq, Prod.mk.injEq] at h2; obtain ⟨rfl, _, rfl⟩ := h2
      simp only [cl_append, cl_grow, cl_ret, cl_nil]; omega
    | some e =>
      simp only [Res.bind_eq_ok, Res.ok.injEq, Prod.mk.injEq] at h2
      obtain ⟨⟨c1, f1, l1⟩, h1, rfl, _, rfl⟩ := h2
      have := ee h1
      simp only [cl_append, cl_I, cl_grow, cl_ret, cl_nil] at *; omega
  | blk b ih =>
    refine ⟨?_, by intro _ _ _ _ _ _ _ _ h; simp [codegen_items] at h⟩
    intro Γ fs l sw c fs' l' sw' h
    simp only [codegen_statement, Res.bind_eq_ok, Res.ok.injEq, Prod.mk.injEq] at h
    obtain ⟨⟨c1, f1, l1, s1⟩, h1, rfl, _, rfl, rfl⟩ := h
    have := ih.2 _ _ _ _ _ _ _ _ h1
    simp only [cl_append, cl_grow] at *; omega
  | expr e =>
    refine ⟨?_, by intro _ _ _ _ _ _ _ _ h; simp [codegen_items] at h⟩
    intro Γ fs l sw c fs' l' sw' h
    simp only [codegen_statement, Res.bind_eq_ok, Res.ok.injEq, Prod.mk.injEq] at h
    obtain ⟨⟨c1, f1, l1⟩, h1, rfl, _, rfl, rfl⟩ := h
    have := ee h1
    simp only [cl_append, cl_I] at *; omega
  | bnil =>
    refine ⟨by intro _ _ _ _ _ _ _ _ h; simp [codegen_statement] at h, ?_⟩
    intro Γ fs l sw c fs' l' sw' h
    simp only [codegen_items, Res.ok.injEq, Prod.mk.injEq] at h
    obtain ⟨rfl, _, rfl, rfl⟩ := h; simp [cl_nil]; omega
  | bstmt s rest ih1 ih2 =>
    refine ⟨by intro _ _ _ _ _ _ _ _ h; simp [codegen_statement] at h, ?_⟩
    intro Γ fs l sw c fs' l' sw' h
    simp only [codegen_items, Res.bind_eq_ok, Res.ok.injEq, Prod.mk.injEq] at h
    obtain ⟨⟨c1, f1, l1, s1⟩, h1, ⟨c2, f2, l2, s2⟩, h2, rfl, _, rfl, rfl⟩ := h
    have := ih1.1 _ _ _ _ _ _ _ _ h1; have := ih2.2 _ _ _ _ _ _ _ _ h2
    simp only [cl_append] at *; omega
  | bdecl y t init rest ih =>
    refine ⟨by intro _ _ _ _ _ _ _ _ h; simp [codegen_statement] at h, ?_⟩
    intro Γ fs l sw c fs' l' sw' h
    simp only [codegen_items, Res.bind_eq_ok, Res.ok.injEq, Prod.mk.injEq] at h
    obtain ⟨n, _, ⟨c1, f1, l1⟩, h1, ⟨c2, f2, l2, s2⟩, h2, rfl, _, rfl, rfl⟩ := h
    have e1 : cl x c1 + ltL x l ≤ ltL x l1 := by
      cases init with
      | none => simp only [Res.ok.injEq, Prod.mk.injEq] at h1; obtain ⟨rfl, _, rfl⟩ := h1; simp [cl_nil]
      | some e =>
        simp only at h1
        split at h1
        · cases h1
        split at h1
        · cases h1
        · simp only [Res.bind_eq_ok, Res.ok.injEq, Prod.mk.injEq] at h1
          obtain ⟨⟨c1, f1, l1⟩, h1, _, _, _, _, rfl, _, rfl⟩ := h1
          simpa [cl_append, cl_I] using ee h1
    have := ih.2 _ _ _ _ _ _ _ _ h2
    simp only [cl_append, cl_grow] at *; omega

/-- Number of functions with the label `x`. -/
def funL (Γ : Env) (x : Nat) : List Fun → Nat
  | [] => 0
  | f :: fs => (match lookup_fun Γ f.name with | some (l, _) => isL x l | none => 0) + funL Γ x fs

theorem lab_funs (w : Nat) (T : Tags) (Γ : Env) (x : Nat) : ∀ (fds : List Fun) (l : Nat) (c : List Asm) (l' : Nat),
    codegen_funs w T Γ fds l = .ok (c, l') → cl x c + ltL x l ≤ ltL x l' + funL Γ x fds := by
  intro fds
  induction fds with
  | nil =>
    intro l c l' h
    simp only [codegen_funs, Res.ok.injEq, Prod.mk.injEq] at h
    obtain ⟨rfl, rfl⟩ := h
    simp [cl_nil]
  | cons f fds ih =>
    intro l c l' h
    simp only [codegen_funs, Res.bind_eq_ok, Res.ok.injEq, Prod.mk.injEq] at h
    obtain ⟨⟨c1, l1⟩, h1, ⟨c2, l2⟩, h2, rfl, rfl⟩ := h
    have i := ih _ _ _ h2
    unfold codegen_glo_fun_decl at h1
    split at h1
    · cases h1
    simp only [funL]
    cases hl : lookup_fun Γ f.name with
    | none => rw [hl] at h1; cases h1
    | some p =>
      obtain ⟨lbl, r⟩ := p
      rw [hl] at h1
      simp only [Res.bind_eq_ok, Res.ok.injEq, Prod.mk.injEq] at h1
      obtain ⟨_, _, ⟨c3, f3, l3, s3⟩, h3, rfl, rfl⟩ := h1
      have := (lab_stmt w T x _).1 _ _ _ _ _ _ _ _ h3
      simp only [cl_append, cl_lbl, cl_nil, cl_grow, cl_ret, swL] at *
      omega

/-- Labels defined at most once. -/
theorem uniq_of_cl : ∀ {P : List Asm}, (∀ x, cl x P ≤ 1) → Uniq P := by
  have pos : ∀ {P : List Asm} {i n : Nat}, P[i]? = some (Asm.lbl n) → 1 ≤ cl n P := by
    intro P
    induction P with
    | nil => intro i n h; simp at h
    | cons a P ih =>
      intro i n h
      cases i with
      | zero => simp only [List.getElem?_cons_zero, Option.some.injEq] at h; subst h; simp [cl, isL]
      | succ i =>
        simp only [List.getElem?_cons_succ] at h
        have := ih h
        cases a <;> simp only [cl] <;> omega
  intro P
  induction P with
  | nil => intro _ i j n h; simp at h
  | cons a P ih =>
    intro h i j n hi hj
    have hP : ∀ x, cl x P ≤ 1 := by intro x; have := h x; cases a <;> simp only [cl] at this <;> omega
    cases i with
    | zero =>
      cases j with
      | zero => rfl
      | succ j =>
        simp only [List.getElem?_cons_zero, Option.some.injEq] at hi
        subst hi
        simp only [List.getElem?_cons_succ] at hj
        have := pos hj; have := h n; simp only [cl, isL, if_true] at this; omega
    | succ i =>
      cases j with
      | zero =>
        simp only [List.getElem?_cons_zero, Option.some.injEq] at hj
        subst hj
        simp only [List.getElem?_cons_succ] at hi
        have := pos hi; have := h n; simp only [cl, isL, if_true] at this; omega
      | succ j => rw [ih hP i j n hi hj]

end Verif.Cg
