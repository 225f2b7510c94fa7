import Verif.Img.Spec
import Verif.Sys.IniModel
import Verif.Cg.Main
/-! The registers, condition codes and widths in the generated code can be encoded: what remains is that the numbers of the source program fit. -/
namespace Verif.Img
open Verif Verif.Gen Verif.X86 Verif.X86.Spec Verif.Cg Verif.Sys
open Spec (SmallE Small)

/-- If the numbers fit, the items can be encoded. -/
def AQ (w : Nat) (c : List Asm) : Prop := ∀ a ∈ c, Small a → Spec.Encodable w a
def IQ (w : Nat) (es : List Emit) : Prop := ∀ e ∈ es, SmallE e → e.ok w

theorem AQ_nil (w : Nat) : AQ w [] ↔ True := by simp [AQ]
theorem AQ_append (w : Nat) (a b : List Asm) : AQ w (a ++ b) ↔ AQ w a ∧ AQ w b := by simp [AQ, or_imp, forall_and]
theorem AQ_cons (w : Nat) (a : Asm) (c : List Asm) : AQ w (a :: c) ↔ (Small a → Spec.Encodable w a) ∧ AQ w c := by simp [AQ]
theorem IQ_nil (w : Nat) : IQ w [] ↔ True := by simp [IQ]
theorem IQ_append (w : Nat) (a b : List Emit) : IQ w (a ++ b) ↔ IQ w a ∧ IQ w b := by simp [IQ, or_imp, forall_and]
theorem IQ_cons (w : Nat) (a : Emit) (c : List Emit) : IQ w (a :: c) ↔ (SmallE a → a.ok w) ∧ IQ w c := by simp [IQ]
theorem AQ_I (w : Nat) (es : List Emit) : AQ w (I es) ↔ IQ w es := by
  unfold AQ IQ I
  constructor
  · intro h e he hs
    exact h (.ins e) (List.mem_map_of_mem he) hs
  · intro h a ha hs
    obtain ⟨e, he, rfl⟩ := List.mem_map.1 ha
    exact h e he hs

theorem regOk {w : Nat} (hw : w = 4 ∨ w = 8) {r : Nat} (h : r < 8) : Reg w r := by rcases hw with rfl | rfl <;> simp [Reg] <;> omega

theorem IQ_load {w : Nat} (hw : w = 4 ∨ w = 8) {d b k : Nat} {off : Int} {sg : Bool} {es : List Emit} (h : load_mem_location w d b off k sg = .ok es) (hd : d < 8) (hb : b < 8) : IQ w es := by
  have h1 := regOk hw hd; have h2 := regOk hw hb
  have hd2 : d < 16 := by omega
  have hb2 : b < 16 := by omega
  unfold load_mem_location at h
  rcases hw with rfl | rfl <;> repeat' split at h
  all_goals first
    | (cases h; done)
    | (simp only [Res.ok.injEq] at h
       subst h
       simp_all [IQ, SmallE, Emit.ok] <;> omega)

theorem IQ_write {w : Nat} (hw : w = 4 ∨ w = 8) {b k : Nat} {off : Int} {es : List Emit} (h : write_mem_location w b off 0 k = .ok es) (hb : b < 8) : IQ w es := by
  have hb2 : b < 16 := by omega
  unfold write_mem_location at h
  rcases hw with rfl | rfl <;> repeat' split at h
  all_goals first
    | (cases h; done)
    | (simp only [Res.ok.injEq] at h
       subst h
       simp_all [IQ, SmallE, Emit.ok] <;> omega)

theorem IQ_mul {w : Nat} (hw : w = 4 ∨ w = 8) {reg k : Nat} (hr : reg < 2) : IQ w (mul_for_pointer_arith reg k) := by
  have R0 := regOk hw (r := 0) (by decide); have R1 := regOk hw (r := 1) (by decide)
  have hD : ∀ n, IQ w (doublings reg n) := by
    intro n
    induction n using Nat.strongRecOn with
    | ind n ih =>
      unfold doublings
      split
      · rw [IQ_cons]
        exact ⟨fun _ => ⟨regOk hw (by omega), regOk hw (by omega)⟩, ih (n / 2) (by omega)⟩
      · simp [IQ]
  unfold mul_for_pointer_arith
  dsimp only
  split
  · simp [IQ]
  split
  · exact hD k
  · have : reg = 0 ∨ reg = 1 := by omega
    rcases this with rfl | rfl <;> simp [IQ, SmallE, Emit.ok, R0, R1]

theorem IQ_div {w : Nat} (hw : w = 4 ∨ w = 8) {k : Nat} : IQ w (div_for_pointer_arith 0 k) := by
  have R0 := regOk hw (r := 0) (by decide); have R1 := regOk hw (r := 1) (by decide); have R2 := regOk hw (r := 2) (by decide)
  unfold div_for_pointer_arith
  repeat' split
  all_goals simp [IQ, SmallE, Emit.ok, R0, R1, R2]

theorem IQ_index {w : Nat} (hw : w = 4 ∨ w = 8) {T : Tags} {lt rt : CTy} {es : List Emit} (h : binop_index w T lt rt = .ok es) : IQ w es := by
  have R0 := regOk hw (r := 0) (by decide); have R1 := regOk hw (r := 1) (by decide)
  unfold binop_index at h
  repeat' split at h
  · simp only [Res.bind_eq_ok, Res.ok.injEq] at h
    obtain ⟨_, _, _, _, _, h, rfl⟩ := h
    simp [IQ_append, IQ_cons, IQ_nil, IQ_mul hw, IQ_load hw h (by decide) (by decide), Emit.ok, R0, R1]
  · simp only [Res.bind_eq_ok, Res.ok.injEq] at h
    obtain ⟨_, _, _, _, _, h, rfl⟩ := h
    simp [IQ_append, IQ_cons, IQ_nil, IQ_mul hw, IQ_load hw h (by decide) (by decide), Emit.ok, R0, R1]
  · cases h

theorem IQ_core {w : Nat} (hw : w = 4 ∨ w = 8) {T : Tags} {op : Bop} {lt rt : CTy} {es : List Emit} (h : binop_core w T op lt rt = .ok es) : IQ w es := by
  have R0 := regOk hw (r := 0) (by decide); have R1 := regOk hw (r := 1) (by decide); have R2 := regOk hw (r := 2) (by decide)
  have hdc : ∀ sg r, r < 8 → IQ w (div_code sg r) := by
    intro sg r hr
    have := regOk hw hr
    unfold div_code
    split <;> simp [IQ, SmallE, Emit.ok, R0, R1, R2, this]
  unfold binop_core at h
  dsimp only at h
  split at h
  · unfold binop_add at h
    simp only [Res.bind_eq_ok, Res.ok.injEq] at h
    obtain ⟨a, ha, rfl⟩ := h
    have : IQ w a := by
      repeat' split at ha
      all_goals first
        | (simp only [Res.ok.injEq] at ha; subst ha; simp [IQ]; done)
        | (simp only [Res.bind_eq_ok, Res.ok.injEq] at ha
           obtain ⟨_, _, rfl⟩ := ha
           exact IQ_mul hw (by decide))
    simp [IQ_append, IQ_cons, IQ_nil, this, Emit.ok, R0, R1]
  · unfold binop_sub at h
    repeat' split at h
    all_goals first
      | (simp only [Res.ok.injEq] at h; subst h; simp [IQ, Emit.ok, R0, R1]; done)
      | (simp only [Res.bind_eq_ok, Res.ok.injEq] at h
         obtain ⟨_, _, rfl⟩ := h
         simp [IQ_append, IQ_cons, IQ_nil, IQ_mul hw, IQ_div hw, Emit.ok, R0, R1])
  all_goals
    (repeat' split at h) <;> first
      | (cases h; done)
      | (simp only [Res.ok.injEq] at h
         subst h
         first
           | exact hdc _ _ (by decide)
           | simp [IQ, SmallE, Emit.ok, R0, R1, R2])

theorem AQ_binop {w : Nat} (hw : w = 4 ∨ w = 8) {T : Tags} {op : Bop} {lt rt : CTy} {l : Nat} {c : List Asm} {l' : Nat} (h : codegen_binop w T op lt rt l = .ok (c, l')) : AQ w c := by
  have R0 := regOk hw (r := 0) (by decide); have R1 := regOk hw (r := 1) (by decide)
  unfold codegen_binop at h
  split at h
  · rename_i cc hc
    have : cc < 16 := by
      unfold cmp_cond at hc
      split at hc <;> (try split at hc) <;> cases hc <;> decide
    simp only [Res.ok.injEq, Prod.mk.injEq] at h
    obtain ⟨rfl, rfl⟩ := h
    simp [jump_cond_reg_reg, AQ_append, AQ_cons, AQ_nil, AQ_I, IQ_append, IQ_cons, IQ_nil, Small, SmallE, Spec.Encodable, Emit.ok, R0, R1, this]
  · simp only [Res.bind_eq_ok, Res.ok.injEq, Prod.mk.injEq] at h
    obtain ⟨_, h, rfl, rfl⟩ := h
    simp [Gen.binop, AQ_I, IQ_append, IQ_cons, IQ_nil, IQ_core hw h, Emit.ok]

theorem IQ_var {w : Nat} (hw : w = 4 ∨ w = 8) {T : Tags} {t : CTy} {p : Bool} {es : List Emit} (h : load_var w T t p = .ok es) : IQ w es := by
  unfold load_var at h
  dsimp only at h
  generalize (is_struct_or_union_type t || _) = b at h
  cases b
  · rw [if_neg (by decide), Res.bind_eq_ok] at h
    obtain ⟨_, _, h⟩ := h
    exact IQ_load hw h (by decide) (by decide)
  · rw [if_pos rfl] at h
    cases h
    simp [IQ]

theorem IQ_off (w : Nat) (hw : w = 4 ∨ w = 8) (r : Nat) (hr : r < 8) (off : Option Nat) : IQ w (match off with | some o => [.add_reg_imm r o] | none => []) := by
  have := regOk hw hr
  cases off <;> simp [IQ, SmallE, Emit.ok, this]

theorem IQ_dot {w : Nat} (hw : w = 4 ∨ w = 8) {c : Prop} [Decidable c] {T : Tags} {t : CTy} {sg : Bool} {es : List Emit}
    (h : (if c then Res.ok [] else (type_width w T t false).bind fun k => load_mem_location w 1 1 0 k sg) = .ok es) : IQ w es := by
  split at h
  · cases h; simp [IQ]
  · rw [Res.bind_eq_ok] at h
    obtain ⟨_, _, h⟩ := h
    exact IQ_load hw h (by decide) (by decide)

set_option hygiene false in
macro "aq" : tactic => `(tactic| (
  have R0 := regOk hw (r := 0) (by decide)
  have R1 := regOk hw (r := 1) (by decide)
  have R3 := regOk hw (r := 3) (by decide)
  have R4 := regOk hw (r := 4) (by decide)
  (try have q1 := IQ_load hw ‹load_mem_location w _ _ _ _ _ = .ok _› (by decide) (by decide))
  (try have q2 := IQ_write hw ‹write_mem_location w _ _ _ _ = .ok _› (by decide))
  (try have q3 := IQ_index hw ‹binop_index w _ _ _ = .ok _›)
  (try have q4 := IQ_var hw ‹load_var w _ _ _ = .ok _›)
  (try have q6 := IQ_dot hw ‹(if _ then Res.ok [] else _) = Res.ok _›)
  simp_all only [codegen_string, Gen.binop, jump_cond_reg_reg, Cg.grow_stack, List.cons_append, List.nil_append, AQ_append, AQ_cons, AQ_nil, AQ_I, IQ_append, IQ_cons, IQ_nil, Small, SmallE, Spec.Encodable, Emit.ok, and_self, and_true, true_and, implies_true, imp_self, forall_const] <;> (try (repeat' apply And.intro)) <;> (try first | assumption | exact IQ_off _ hw _ (by decide) _ | decide | omega | (intro _; decide) | (rcases hw with rfl | rfl <;> simp; done) | simp_all)))

theorem enc_expr {w : Nat} (hw : w = 4 ∨ w = 8) (T : Tags) (Γ : Env) (e : E) :
    (∀ fs l c fs' l', codegen_rvalue w T Γ e fs l = .ok (c, fs', l') → AQ w c) ∧
    (∀ fs l c fs' l' k, codegen_lvalue w T Γ e fs l = .ok (c, fs', l', k) → AQ w c) ∧
    (∀ fs l c fs' l' k, codegen_params w T Γ e fs l = .ok (c, fs', l', k) → AQ w c) := by
  induction e with
  | num v =>
    refine ⟨?_, ?_, ?_⟩ <;> intros <;> rename_i h <;>
      simp only [codegen_rvalue, codegen_lvalue, codegen_params, Res.ok.injEq, Prod.mk.injEq, reduceCtorEq] at h
    obtain ⟨rfl, _, rfl⟩ := h; aq
  | chr v =>
    refine ⟨?_, ?_, ?_⟩ <;> intros <;> rename_i h <;>
      simp only [codegen_rvalue, codegen_lvalue, codegen_params, Res.ok.injEq, Prod.mk.injEq, reduceCtorEq] at h
    obtain ⟨rfl, _, rfl⟩ := h; aq
  | str k bs =>
    refine ⟨?_, ?_, ?_⟩ <;> intros <;> rename_i h <;>
      simp only [codegen_rvalue, codegen_lvalue, codegen_params, Res.ok.injEq, Prod.mk.injEq, reduceCtorEq] at h
    obtain ⟨rfl, _, rfl⟩ := h; aq
  | var y =>
    refine ⟨?_, ?_, ?_⟩ <;> intros <;> rename_i h <;>
      simp only [codegen_rvalue, codegen_lvalue, codegen_params, Res.bind_eq_ok, reduceCtorEq] at h
    · obtain ⟨b, _, h⟩ := h
      cases b <;> simp only [Res.bind_eq_ok, Res.ok.injEq, Prod.mk.injEq, reduceCtorEq] at h
      · obtain ⟨_, _, rfl, _, rfl⟩ := h; aq
      · obtain ⟨_, _, rfl, _, rfl⟩ := h; aq
      · obtain ⟨rfl, _, rfl⟩ := h; aq
    · obtain ⟨b, _, h⟩ := h
      cases b <;> simp only [Res.bind_eq_ok, Res.ok.injEq, Prod.mk.injEq, reduceCtorEq] at h
      all_goals
        obtain ⟨k, _, h⟩ := h
        split at h <;> simp only [Res.ok.injEq, Prod.mk.injEq, reduceCtorEq] at h
        obtain ⟨rfl, _, rfl, _⟩ := h; aq
  | deref e ih =>
    refine ⟨?_, ?_, ?_⟩ <;> intros <;> rename_i h <;>
      simp only [codegen_rvalue, codegen_lvalue, codegen_params, Res.bind_eq_ok, reduceCtorEq] at h
    · obtain ⟨t, _, ⟨c1, f1, l1⟩, h1, h⟩ := h
      have := ih.1 _ _ _ _ _ h1
      split at h
      · simp only [Res.ok.injEq, Prod.mk.injEq] at h; obtain ⟨rfl, _, rfl⟩ := h; exact this
      split at h
      · simp only [Res.bind_eq_ok, Res.ok.injEq, Prod.mk.injEq] at h
        obtain ⟨_, _, _, _, _, _, rfl, _, rfl⟩ := h
        (have := this; aq)
      · cases h
    · obtain ⟨⟨c1, f1, l1⟩, h1, t, _, k, _, h⟩ := h
      have := ih.1 _ _ _ _ _ h1
      split at h <;> simp only [Res.ok.injEq, Prod.mk.injEq, reduceCtorEq] at h
      obtain ⟨rfl, _, rfl, _⟩ := h; exact this
  | addr e ih =>
    refine ⟨?_, ?_, ?_⟩ <;> intros <;> rename_i h <;>
      simp only [codegen_rvalue, codegen_lvalue, codegen_params, Res.bind_eq_ok, Res.ok.injEq, Prod.mk.injEq, reduceCtorEq] at h
    obtain ⟨⟨c1, f1, l1, k⟩, h1, rfl, _, rfl⟩ := h
    exact ih.2.1 _ _ _ _ _ _ h1
  | neg e ih =>
    refine ⟨?_, ?_, ?_⟩ <;> intros <;> rename_i h <;>
      simp only [codegen_rvalue, codegen_lvalue, codegen_params, Res.bind_eq_ok, Res.ok.injEq, Prod.mk.injEq, reduceCtorEq] at h
    obtain ⟨⟨c1, f1, l1⟩, h1, rfl, _, rfl⟩ := h
    (have := ih.1 _ _ _ _ _ h1; aq)
  | bnot e ih =>
    refine ⟨?_, ?_, ?_⟩ <;> intros <;> rename_i h <;>
      simp only [codegen_rvalue, codegen_lvalue, codegen_params, Res.bind_eq_ok, Res.ok.injEq, Prod.mk.injEq, reduceCtorEq] at h
    obtain ⟨⟨c1, f1, l1⟩, h1, rfl, _, rfl⟩ := h
    (have := ih.1 _ _ _ _ _ h1; aq)
  | lnot e ih =>
    refine ⟨?_, ?_, ?_⟩ <;> intros <;> rename_i h <;>
      simp only [codegen_rvalue, codegen_lvalue, codegen_params, Res.bind_eq_ok, Res.ok.injEq, Prod.mk.injEq, reduceCtorEq] at h
    obtain ⟨⟨c1, f1, l1⟩, h1, _, _, ⟨c2, l2⟩, h2, rfl, _, rfl⟩ := h
    have := ih.1 _ _ _ _ _ h1
    have := AQ_binop hw h2
    aq
  | plus e ih =>
    refine ⟨?_, ?_, ?_⟩ <;> intros <;> rename_i h <;>
      simp only [codegen_rvalue, codegen_lvalue, codegen_params, Res.bind_eq_ok, Res.ok.injEq, Prod.mk.injEq, reduceCtorEq] at h
    obtain ⟨⟨c1, f1, l1⟩, h1, rfl, _, rfl⟩ := h
    exact ih.1 _ _ _ _ _ h1
  | paren e ih =>
    refine ⟨?_, ?_, ?_⟩ <;> intros <;> rename_i h <;>
      simp only [codegen_rvalue, codegen_lvalue, codegen_params, Res.bind_eq_ok, Res.ok.injEq, Prod.mk.injEq, reduceCtorEq] at h
    · obtain ⟨⟨c1, f1, l1⟩, h1, rfl, _, rfl⟩ := h
      exact ih.1 _ _ _ _ _ h1
    · obtain ⟨⟨c1, f1, l1, k⟩, h1, rfl, _, rfl, _⟩ := h
      exact ih.2.1 _ _ _ _ _ _ h1
  | incdec post dec e ih =>
    refine ⟨?_, ?_, ?_⟩ <;> intros <;> rename_i h <;>
      simp only [codegen_rvalue, codegen_lvalue, codegen_params, Res.bind_eq_ok, reduceCtorEq] at h
    obtain ⟨⟨c1, f1, l1, k⟩, h1, _, _, _, _, ⟨c2, l2⟩, h2, _, _, h⟩ := h
    have := ih.2.1 _ _ _ _ _ _ h1
    have := AQ_binop hw h2
    split at h <;> simp only [Res.ok.injEq, Prod.mk.injEq] at h <;> obtain ⟨rfl, _, rfl⟩ := h <;> aq
  | sizeofT t =>
    refine ⟨?_, ?_, ?_⟩ <;> intros <;> rename_i h <;>
      simp only [codegen_rvalue, codegen_lvalue, codegen_params, Res.bind_eq_ok, Res.ok.injEq, Prod.mk.injEq, reduceCtorEq] at h
    obtain ⟨_, _, rfl, _, rfl⟩ := h; aq
  | sizeofE e ih =>
    refine ⟨?_, ?_, ?_⟩ <;> intros <;> rename_i h <;>
      simp only [codegen_rvalue, codegen_lvalue, codegen_params, Res.bind_eq_ok, Res.ok.injEq, Prod.mk.injEq, reduceCtorEq] at h
    obtain ⟨_, _, _, _, rfl, _, rfl⟩ := h; aq
  | bin op a b iha ihb =>
    refine ⟨?_, ?_, ?_⟩ <;> intros <;> rename_i h <;>
      simp only [codegen_rvalue, codegen_lvalue, codegen_params, Res.bind_eq_ok, Res.ok.injEq, Prod.mk.injEq, reduceCtorEq] at h
    obtain ⟨⟨c1, f1, l1⟩, h1, ⟨c2, f2, l2⟩, h2, _, _, _, _, ⟨c3, l3⟩, h3, rfl, _, rfl⟩ := h
    have := iha.1 _ _ _ _ _ h1
    have := ihb.1 _ _ _ _ _ h2
    have := AQ_binop hw h3
    aq
  | comma a b iha ihb =>
    refine ⟨?_, ?_, ?_⟩ <;> intros <;> rename_i h <;>
      simp only [codegen_rvalue, codegen_lvalue, codegen_params, Res.bind_eq_ok, Res.ok.injEq, Prod.mk.injEq, reduceCtorEq] at h
    obtain ⟨⟨c1, f1, l1⟩, h1, ⟨c2, f2, l2⟩, h2, rfl, _, rfl⟩ := h
    have := iha.1 _ _ _ _ _ h1
    have := ihb.1 _ _ _ _ _ h2
    aq
  | index a b iha ihb =>
    refine ⟨?_, ?_, ?_⟩ <;> intros <;> rename_i h <;>
      simp only [codegen_rvalue, codegen_lvalue, codegen_params, Res.bind_eq_ok, Res.ok.injEq, Prod.mk.injEq, reduceCtorEq] at h
    · obtain ⟨⟨c1, f1, l1⟩, h1, ⟨c2, f2, l2⟩, h2, _, _, _, _, _, _, rfl, _, rfl⟩ := h
      have := iha.1 _ _ _ _ _ h1
      have := ihb.1 _ _ _ _ _ h2
      aq
    · obtain ⟨_, _, ⟨c1, f1, l1⟩, h1, ⟨c2, f2, l2⟩, h2, _, _, ⟨c3, l3⟩, h3, _, _, h⟩ := h
      have := iha.1 _ _ _ _ _ h1
      have := ihb.1 _ _ _ _ _ h2
      have := AQ_binop hw h3
      split at h <;> simp only [Res.ok.injEq, Prod.mk.injEq, reduceCtorEq] at h
      obtain ⟨rfl, _, rfl, _⟩ := h
      aq
  | assign a b iha ihb =>
    refine ⟨?_, ?_, ?_⟩ <;> intros <;> rename_i h <;>
      simp only [codegen_rvalue, codegen_lvalue, codegen_params, Res.bind_eq_ok, reduceCtorEq] at h
    obtain ⟨_, _, ⟨c1, f1, l1, k⟩, h1, h⟩ := h
    split at h
    · cases h
    simp only [Res.bind_eq_ok, Res.ok.injEq, Prod.mk.injEq] at h
    obtain ⟨⟨c2, f2, l2⟩, h2, _, _, rfl, _, rfl⟩ := h
    have := iha.2.1 _ _ _ _ _ _ h1
    have := ihb.1 _ _ _ _ _ h2
    aq
  | opassign op a b iha ihb =>
    refine ⟨?_, ?_, ?_⟩ <;> intros <;> rename_i h <;>
      simp only [codegen_rvalue, codegen_lvalue, codegen_params, Res.bind_eq_ok, Res.ok.injEq, Prod.mk.injEq, reduceCtorEq] at h
    obtain ⟨⟨c1, f1, l1, k⟩, h1, _, _, _, _, ⟨c2, f2, l2⟩, h2, _, _, ⟨c3, l3⟩, h3, _, _, rfl, _, rfl⟩ := h
    have := iha.2.1 _ _ _ _ _ _ h1
    have := ihb.1 _ _ _ _ _ h2
    have := AQ_binop hw h3
    aq
  | land a b iha ihb =>
    refine ⟨?_, ?_, ?_⟩ <;> intros <;> rename_i h <;>
      simp only [codegen_rvalue, codegen_lvalue, codegen_params, Res.bind_eq_ok, Res.ok.injEq, Prod.mk.injEq, reduceCtorEq] at h
    obtain ⟨⟨c1, f1, l1⟩, h1, ⟨c2, f2, l2⟩, h2, rfl, _, rfl⟩ := h
    have := iha.1 _ _ _ _ _ h1
    have := ihb.1 _ _ _ _ _ h2
    aq
  | lor a b iha ihb =>
    refine ⟨?_, ?_, ?_⟩ <;> intros <;> rename_i h <;>
      simp only [codegen_rvalue, codegen_lvalue, codegen_params, Res.bind_eq_ok, Res.ok.injEq, Prod.mk.injEq, reduceCtorEq] at h
    obtain ⟨⟨c1, f1, l1⟩, h1, ⟨c2, f2, l2⟩, h2, rfl, _, rfl⟩ := h
    have := iha.1 _ _ _ _ _ h1
    have := ihb.1 _ _ _ _ _ h2
    aq
  | cond a b d iha ihb ihd =>
    refine ⟨?_, ?_, ?_⟩ <;> intros <;> rename_i h <;>
      simp only [codegen_rvalue, codegen_lvalue, codegen_params, Res.bind_eq_ok, Res.ok.injEq, Prod.mk.injEq, reduceCtorEq] at h
    obtain ⟨⟨c1, f1, l1⟩, h1, ⟨c2, f2, l2⟩, h2, ⟨c3, f3, l3⟩, h3, rfl, _, rfl⟩ := h
    have := iha.1 _ _ _ _ _ h1
    have := ihb.1 _ _ _ _ _ h2
    have := ihd.1 _ _ _ _ _ h3
    aq
  | cast t e ih =>
    refine ⟨?_, ?_, ?_⟩ <;> intros <;> rename_i h <;>
      simp only [codegen_rvalue, codegen_lvalue, codegen_params, Res.bind_eq_ok, Res.ok.injEq, Prod.mk.injEq, reduceCtorEq] at h
    obtain ⟨⟨c1, f1, l1⟩, h1, _, _, _, _, _, _, tr, htr, rfl, _, rfl⟩ := h
    have := ih.1 _ _ _ _ _ h1
    have e0 : AQ w tr := by
      split at htr
      · simp only [Res.bind_eq_ok, Res.ok.injEq] at htr
        obtain ⟨_, _, rfl⟩ := htr
        aq
      · simp only [Res.ok.injEq] at htr
        subst htr; aq
    aq
  | dot e m ih =>
    refine ⟨?_, ?_, ?_⟩ <;> intros <;> rename_i h <;>
      simp only [codegen_rvalue, codegen_lvalue, codegen_params, Res.bind_eq_ok, reduceCtorEq] at h
    · obtain ⟨a, _, h⟩ := h
      cases a <;> simp only [Res.bind_eq_ok, Res.ok.injEq, Prod.mk.injEq, reduceCtorEq] at h
      obtain ⟨_, _, ⟨c1, f1, l1, k1⟩, h1, _, _, _, _, rfl, _, rfl⟩ := h
      (have := ih.2.1 _ _ _ _ _ _ h1; aq)
    · obtain ⟨a, _, h⟩ := h
      cases a <;> simp only [Res.bind_eq_ok, Res.ok.injEq, Prod.mk.injEq, reduceCtorEq] at h
      obtain ⟨⟨c1, f1, l1, k1⟩, h1, _, _, _, _, _, _, h⟩ := h
      have := ih.2.1 _ _ _ _ _ _ h1
      split at h <;> simp only [Res.ok.injEq, Prod.mk.injEq, reduceCtorEq] at h
      obtain ⟨rfl, _, rfl, _⟩ := h
      (have := this; aq)
  | arrow e m ih =>
    refine ⟨?_, ?_, ?_⟩ <;> intros <;> rename_i h <;>
      simp only [codegen_rvalue, codegen_lvalue, codegen_params, Res.bind_eq_ok, reduceCtorEq] at h
    · obtain ⟨a, _, h⟩ := h
      split at h <;> simp only [Res.bind_eq_ok, Res.ok.injEq, Prod.mk.injEq, reduceCtorEq] at h
      obtain ⟨_, _, ⟨c1, f1, l1⟩, h1, _, _, _, _, rfl, _, rfl⟩ := h
      (have := ih.1 _ _ _ _ _ h1; aq)
    · obtain ⟨a, _, h⟩ := h
      split at h <;> simp only [Res.bind_eq_ok, Res.ok.injEq, Prod.mk.injEq, reduceCtorEq] at h
      obtain ⟨⟨c1, f1, l1⟩, h1, _, _, _, _, _, _, h⟩ := h
      have := ih.1 _ _ _ _ _ h1
      split at h <;> simp only [Res.ok.injEq, Prod.mk.injEq, reduceCtorEq] at h
      obtain ⟨rfl, _, rfl, _⟩ := h
      (have := this; aq)
  | call f args ih =>
    refine ⟨?_, ?_, ?_⟩ <;> intros <;> rename_i h <;>
      simp only [codegen_rvalue, codegen_lvalue, codegen_params, Res.bind_eq_ok, reduceCtorEq] at h
    obtain ⟨a, _, h⟩ := h
    split at h <;> simp only [Res.bind_eq_ok, Res.ok.injEq, Prod.mk.injEq, reduceCtorEq] at h
    obtain ⟨⟨c1, f1, l1, n1⟩, h1, rfl, _, rfl⟩ := h
    have := ih.2.2 _ _ _ _ _ _ h1
    (have := this; aq)
  | anil =>
    refine ⟨?_, ?_, ?_⟩ <;> intros <;> rename_i h <;>
      simp only [codegen_rvalue, codegen_lvalue, codegen_params, Res.ok.injEq, Prod.mk.injEq, reduceCtorEq] at h
    obtain ⟨rfl, _, rfl, _⟩ := h; aq
  | acons e es ihe ihes =>
    refine ⟨?_, ?_, ?_⟩ <;> intros <;> rename_i h <;>
      simp only [codegen_rvalue, codegen_lvalue, codegen_params, Res.bind_eq_ok, reduceCtorEq] at h
    obtain ⟨⟨c1, f1, l1, n1⟩, h1, t, _, h⟩ := h
    split at h
    · cases h
    simp only [Res.bind_eq_ok, Res.ok.injEq, Prod.mk.injEq] at h
    obtain ⟨⟨c2, f2, l2⟩, h2, k, hk, rfl, _, rfl, _⟩ := h
    have := ihes.2.2 _ _ _ _ _ _ h1
    have := ihe.1 _ _ _ _ _ h2
    aq

theorem enc_stmt {w : Nat} (hw : w = 4 ∨ w = 8) (T : Tags) (s : St) :
    (∀ Γ fs l sw c fs' l' sw', codegen_statement w T Γ s fs l sw = .ok (c, fs', l', sw') → AQ w c) ∧
    (∀ Γ fs l sw c fs' l' sw', codegen_items w T Γ s fs l sw = .ok (c, fs', l', sw') → AQ w c) := by
  have ee : ∀ {Γ e fs l c fs' l'}, codegen_rvalue w T Γ e fs l = .ok (c, fs', l') → AQ w c := fun h => (enc_expr hw T _ _).1 _ _ _ _ _ h
  induction s with
  | skip =>
    refine ⟨?_, by intro _ _ _ _ _ _ _ _ h; simp [codegen_items] at h⟩
    intro Γ fs l sw c fs' l' sw' h
    simp only [codegen_statement, Res.ok.injEq, Prod.mk.injEq] at h
    obtain ⟨rfl, _, rfl, rfl⟩ := h; aq
  | ifte c a b iha ihb =>
    refine ⟨?_, by intro _ _ _ _ _ _ _ _ h; simp [codegen_items] at h⟩
    intro Γ fs l sw c fs' l' sw' h
    simp only [codegen_statement, Res.bind_eq_ok, Res.ok.injEq, Prod.mk.injEq] at h
    obtain ⟨⟨c1, f1, l1⟩, h1, ⟨c2, f2, l2, s2⟩, h2, ⟨c3, f3, l3, s3⟩, h3, rfl, _, rfl, rfl⟩ := h
    have := ee h1; have := iha.1 _ _ _ _ _ _ _ _ h2; have := ihb.1 _ _ _ _ _ _ _ _ h3
    aq
  | whil c b ih =>
    refine ⟨?_, by intro _ _ _ _ _ _ _ _ h; simp [codegen_items] at h⟩
    intro Γ fs l sw c fs' l' sw' h
    simp only [codegen_statement, Res.bind_eq_ok, Res.ok.injEq, Prod.mk.injEq] at h
    obtain ⟨⟨c1, f1, l1⟩, h1, ⟨c2, f2, l2, s2⟩, h2, rfl, _, rfl, rfl⟩ := h
    have := ee h1; have := ih.1 _ _ _ _ _ _ _ _ h2
    aq
  | forr i c p b ihi ihp ihb =>
    refine ⟨?_, by intro _ _ _ _ _ _ _ _ h; simp [codegen_items] at h⟩
    intro Γ fs l sw co fs' l' sw' h
    simp only [codegen_statement, Res.bind_eq_ok, Res.ok.injEq, Prod.mk.injEq] at h
    obtain ⟨⟨c1, f1, l1, s1⟩, h1, ⟨c2, f2, l2, s2⟩, h2, ⟨c3, f3, l3⟩, h3, ⟨c4, f4, l4, s4⟩, h4, rfl, _, rfl, rfl⟩ := h
    have := ihi.1 _ _ _ _ _ _ _ _ h1; have := ihp.1 _ _ _ _ _ _ _ _ h2; have := ihb.1 _ _ _ _ _ _ _ _ h4
    have : AQ w c3 := by
      cases c with
      | none => simp only [Res.ok.injEq, Prod.mk.injEq] at h3; obtain ⟨rfl, _, rfl⟩ := h3; aq
      | some c =>
        simp only [Res.bind_eq_ok, Res.ok.injEq, Prod.mk.injEq] at h3
        obtain ⟨⟨c5, f5, l5⟩, h5, rfl, _, rfl⟩ := h3
        (have := ee h5; aq)
    aq
  | doW b c ih =>
    refine ⟨?_, by intro _ _ _ _ _ _ _ _ h; simp [codegen_items] at h⟩
    intro Γ fs l sw c fs' l' sw' h
    simp only [codegen_statement, Res.bind_eq_ok, Res.ok.injEq, Prod.mk.injEq] at h
    obtain ⟨⟨c2, f2, l2, s2⟩, h2, ⟨c1, f1, l1⟩, h1, rfl, _, rfl, rfl⟩ := h
    have := ee h1; have := ih.1 _ _ _ _ _ _ _ _ h2
    aq
  | switch e b ih =>
    refine ⟨?_, by intro _ _ _ _ _ _ _ _ h; simp [codegen_items] at h⟩
    intro Γ fs l sw c fs' l' sw' h
    simp only [codegen_statement, Res.bind_eq_ok] at h
    obtain ⟨⟨c1, f1, l1⟩, h1, ⟨c2, f2, l2, s2⟩, h2, h⟩ := h
    have := ee h1; have := ih.1 _ _ _ _ _ _ _ _ h2
    match s2, h with
    | none, h => cases h
    | some (nxt, none), h =>
      simp only [Res.ok.injEq, Prod.mk.injEq] at h; obtain ⟨rfl, _, rfl, rfl⟩ := h
      aq
    | some (nxt, some d), h =>
      simp only [Res.ok.injEq, Prod.mk.injEq] at h; obtain ⟨rfl, _, rfl, rfl⟩ := h
      aq
  | case e s ih =>
    refine ⟨?_, by intro _ _ _ _ _ _ _ _ h; simp [codegen_items] at h⟩
    intro Γ fs l sw c fs' l' sw' h
    match sw, h with
    | none, h => simp [codegen_statement] at h
    | some (nxt, dft), h =>
      simp only [codegen_statement, Res.bind_eq_ok, Res.ok.injEq, Prod.mk.injEq] at h
      obtain ⟨⟨c1, f1, l1⟩, h1, ⟨c2, f2, l2, s2⟩, h2, rfl, _, rfl, rfl⟩ := h
      have := ee h1; have := ih.1 _ _ _ _ _ _ _ _ h2
      aq
  | dflt s ih =>
    refine ⟨?_, by intro _ _ _ _ _ _ _ _ h; simp [codegen_items] at h⟩
    intro Γ fs l sw c fs' l' sw' h
    simp only [codegen_statement] at h
    split at h
    · cases h
    · cases h
    · simp only [Res.bind_eq_ok, Res.ok.injEq, Prod.mk.injEq] at h
      obtain ⟨⟨c2, f2, l2, s2⟩, h2, rfl, _, rfl, rfl⟩ := h
      have := ih.1 _ _ _ _ _ _ _ _ h2
      aq
  | brk =>
    refine ⟨?_, by intro _ _ _ _ _ _ _ _ h; simp [codegen_items] at h⟩
    intro Γ fs l sw c fs' l' sw' h
    simp only [codegen_statement] at h
    split at h
    · cases h
    · simp only [Res.ok.injEq, Prod.mk.injEq] at h; obtain ⟨rfl, _, rfl, rfl⟩ := h
      aq
  | cont =>
    refine ⟨?_, by intro _ _ _ _ _ _ _ _ h; simp [codegen_items] at h⟩
    intro Γ fs l sw c fs' l' sw' h
    simp only [codegen_statement] at h
    split at h
    · simp only [Res.ok.injEq, Prod.mk.injEq] at h; obtain ⟨rfl, _, rfl, rfl⟩ := h
      aq
    · cases h
  | ret e =>
    refine ⟨?_, by intro _ _ _ _ _ _ _ _ h; simp [codegen_items] at h⟩
    intro Γ fs l sw c fs' l' sw' h
    simp only [codegen_statement, Res.bind_eq_ok, Res.ok.injEq, Prod.mk.injEq] at h
    obtain ⟨⟨c2, f2, l2⟩, h2, rfl, _, rfl, rfl⟩ := h
    cases e with
    | none =>
      simp only [Res.ok.injEq, Prod.mk.injEq] at h2; obtain ⟨rfl, _, rfl⟩ := h2
      aq
    | some e =>
      simp only [Res.bind_eq_ok, Res.ok.injEq, Prod.mk.injEq] at h2
      obtain ⟨⟨c1, f1, l1⟩, h1, rfl, _, rfl⟩ := h2
      have := ee h1
      aq
  | blk b ih =>
    refine ⟨?_, by intro _ _ _ _ _ _ _ _ h; simp [codegen_items] at h⟩
    intro Γ fs l sw c fs' l' sw' h
    simp only [codegen_statement, Res.bind_eq_ok, Res.ok.injEq, Prod.mk.injEq] at h
    obtain ⟨⟨c1, f1, l1, s1⟩, h1, rfl, _, rfl, rfl⟩ := h
    have := ih.2 _ _ _ _ _ _ _ _ h1
    aq
  | expr e =>
    refine ⟨?_, by intro _ _ _ _ _ _ _ _ h; simp [codegen_items] at h⟩
    intro Γ fs l sw c fs' l' sw' h
    simp only [codegen_statement, Res.bind_eq_ok, Res.ok.injEq, Prod.mk.injEq] at h
    obtain ⟨⟨c1, f1, l1⟩, h1, rfl, _, rfl, rfl⟩ := h
    have := ee h1
    aq
  | bnil =>
    refine ⟨by intro _ _ _ _ _ _ _ _ h; simp [codegen_statement] at h, ?_⟩
    intro Γ fs l sw c fs' l' sw' h
    simp only [codegen_items, Res.ok.injEq, Prod.mk.injEq] at h
    obtain ⟨rfl, _, rfl, rfl⟩ := h; aq
  | bstmt s rest ih1 ih2 =>
    refine ⟨by intro _ _ _ _ _ _ _ _ h; simp [codegen_statement] at h, ?_⟩
    intro Γ fs l sw c fs' l' sw' h
    simp only [codegen_items, Res.bind_eq_ok, Res.ok.injEq, Prod.mk.injEq] at h
    obtain ⟨⟨c1, f1, l1, s1⟩, h1, ⟨c2, f2, l2, s2⟩, h2, rfl, _, rfl, rfl⟩ := h
    have := ih1.1 _ _ _ _ _ _ _ _ h1; have := ih2.2 _ _ _ _ _ _ _ _ h2
    aq
  | bdecl y t init rest ih =>
    refine ⟨by intro _ _ _ _ _ _ _ _ h; simp [codegen_statement] at h, ?_⟩
    intro Γ fs l sw c fs' l' sw' h
    simp only [codegen_items, Res.bind_eq_ok, Res.ok.injEq, Prod.mk.injEq] at h
    obtain ⟨n, _, ⟨c1, f1, l1⟩, h1, ⟨c2, f2, l2, s2⟩, h2, rfl, _, rfl, rfl⟩ := h
    have e1 : AQ w c1 := by
      cases init with
      | none => simp only [Res.ok.injEq, Prod.mk.injEq] at h1; obtain ⟨rfl, _, rfl⟩ := h1; aq
      | some e =>
        simp only at h1
        split at h1
        · cases h1
        split at h1
        · cases h1
        · simp only [Res.bind_eq_ok, Res.ok.injEq, Prod.mk.injEq] at h1
          obtain ⟨⟨c1, f1, l1⟩, h1, _, _, _, _, rfl, _, rfl⟩ := h1
          (have := ee h1; aq)
    have := ih.2 _ _ _ _ _ _ _ _ h2
    aq


end Verif.Img
