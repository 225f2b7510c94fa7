import Verif.Cg.SupS
import Verif.Cg.Expr5
/-! Facts about the semantics of statements: objects that exist afterwards, values returned. -/
namespace Verif.Cg
open Verif Verif.Gen Verif.Gen.Spec Verif.X86 Verif.X86.Spec Spec

/-- Functions in scope are global. -/
def KFn (ρ ρ0 : Spec.Env) : Prop := ∀ f r, ρ.kind f = some (.fn r) → ρ0.kind f = some (.fn r)

theorem KFn.setVar {ρ ρ0 : Spec.Env} (h : KFn ρ ρ0) (x : Nat) (t : CTy) (a : Int) : KFn (ρ.setVar x t a) ρ0 := by
  intro f r hf
  simp only [Spec.Env.setVar] at hf
  split at hf
  · cases hf
  · exact h f r hf

theorem CfOk.of {C : Ctx} {cf : CallF} {ρ ρ0 : Spec.Env} (h : CfOk C cf ρ0.kind) (hk : KFn ρ ρ0) : CfOk C cf ρ.kind :=
  ⟨h.dom, fun f vs sp M v M' r h1 h2 => h.ty f vs sp M v M' r h1 (hk f r h2)⟩

theorem words_ge {C : Ctx} (hw : C.w = 4 ∨ C.w = 8) (t : CTy) : sizeof C.w C.T t ≤ words C t * C.w := by
  unfold words
  generalize sizeof C.w C.T t = n
  rcases hw with e | e <;> rw [e] <;> omega

theorem words_nonneg (C : Ctx) (t : CTy) : (0 : Int) ≤ words C t * C.w := Int.mul_nonneg (by omega) (by omega)

/-- A block with a local variable: the memory afterwards. -/
theorem block_dom {C : Ctx} {sp : Int} {n k : Nat} {M M' : Mem} (hM : MemOk C sp M) (hlim : C.lim ≤ sp - n) (hk : (k : Int) ≤ n)
    (h : SameDom (alloc M (sp - n) k) M') : SameDom M (free M' (sp - n) n) := by
  intro a
  have := h a
  unfold free alloc at *
  dsimp only at *
  by_cases h1 : sp - n ≤ a ∧ a < sp - n + n
  · rw [if_pos h1]
    have : M a = none := by
      cases e : M a with
      | none => rfl
      | some b => have := (hM.dom a (by rw [e]; simp)).2.2; omega
    rw [this]
  · rw [if_neg h1]
    rw [if_neg (by omega)] at this
    exact this

theorem block_mem {C : Ctx} {sp : Int} {n k : Nat} {M : Mem} (hM : MemOk C sp M) (hlim : C.lim ≤ sp - n) (hk : (k : Int) ≤ n) :
    MemOk C (sp - n) (alloc M (sp - n) k) := by
  refine ⟨hM.lim, by have := hM.top; omega, fun a ha => ?_⟩
  unfold alloc at ha
  dsimp only at ha
  have := hM.lim; have := hM.top
  split at ha
  · rename_i h; exact ⟨by omega, by omega, by omega⟩
  · have := hM.dom a ha; exact ⟨this.1, this.2.1, by omega⟩

theorem storeN_other {M M' : Mem} {a v : Int} {k : Nat} (h : storeN M a v k = some M') (x : Int) (hx : ¬ (a ≤ x ∧ x < a + k)) : M' x = M x := by
  induction k generalizing M a v with
  | zero => simp [storeN] at h; subst h; rfl
  | succ k ih =>
    simp only [storeN] at h
    split at h
    · rw [ih h (by omega)]
      dsimp only
      rw [if_neg (by omega)]
    · cases h

theorem eval_same {C : Ctx} (hw : C.w = 4 ∨ C.w = 8) {cf : CallF} {ρ : Spec.Env} (hcf : CfOk C cf ρ.kind) {e : E} {sp : Int} {M M' : Mem} {v : Int}
    (h : evalE C cf ρ e sp M = some (v, M')) (hM : MemOk C sp M) : SameDom M M' := (eval_dom hw hcf e).1 _ _ _ _ h hM

/-- Parameters: the memory after binding, and what is in scope. -/
theorem bind_dom {C : Ctx} (hw : C.w = 4 ∨ C.w = 8) {ρ0 : Spec.Env} : ∀ {ps : List (Nat × CTy)} {vs : List Int} {a : Int} {ρ ρ' : Spec.Env} {M M' : Mem},
    bindParams C ps vs a ρ M = some (ρ', M') → KFn ρ ρ0 →
    KFn ρ' ρ0 ∧ ρ'.rett = ρ.rett ∧ vs.length = ps.length ∧ (∀ x, ¬ (a ≤ x ∧ x < a + ps.length * C.w) → M' x = M x) := by
  intro ps
  induction ps with
  | nil =>
    intro vs a ρ ρ' M M' h hk
    cases vs with
    | nil => simp only [bindParams, Option.some.injEq, Prod.mk.injEq] at h; obtain ⟨rfl, rfl⟩ := h; exact ⟨hk, rfl, rfl, fun _ _ => rfl⟩
    | cons v vs => cases h
  | cons p ps ih =>
    intro vs a ρ ρ' M M' h hk
    obtain ⟨x, t⟩ := p
    cases vs with
    | nil => cases h
    | cons v vs =>
      simp only [bindParams, Option.ite_none_right_eq_some, Option.bind_eq_some_iff] at h
      obtain ⟨hs, M1, hst, h⟩ := h
      obtain ⟨k1, k2, k3, k4⟩ := ih h (hk.setVar _ _ _)
      have hsz := (sizeof_le hw C.T hs).2
      refine ⟨k1, k2, by simp [k3], fun y hy => ?_⟩
      simp only [List.length_cons] at hy
      push_cast at hy
      rw [Int.add_mul] at hy
      have hn : (0 : Int) ≤ ps.length * C.w := Int.mul_nonneg (by omega) (by omega)
      rw [k4 y (by omega), storeN_other hst y (by omega)]
      unfold alloc
      dsimp only
      rw [if_neg (by omega)]

/-- A value returned has the return type. -/
def RetOk (C : Ctx) (rett : CTy) : Out → Prop
  | .ret v => rett = .void ∨ Fits C rett v
  | _ => True

/-- The functions have the return types with which they are declared. -/
structure FnTy (C : Ctx) (cs : Nat → Option Fun) (ρ0 : Spec.Env) : Prop where
  fn : ∀ f fd r, cs f = some fd → ρ0.kind f = some (.fn r) → fd.ret = r
  lib : ∀ f vs M v M' r, cs f = none → C.lib f vs M = some (v, M') → ρ0.kind f = some (.fn r) → r = .void ∨ Fits C r v
  ldom : ∀ f vs M v M', cs f = none → C.lib f vs M = some (v, M') → SameDom M M'

section
variable {C : Ctx} {cs : Nat → Option Fun} {ρ0 : Spec.Env}

theorem exec_ret (hw : C.w = 4 ∨ C.w = 8) : ∀ n,
    (∀ ρ s sp M o M', exec C cs ρ0 n ρ s sp M = some (o, M') → RetOk C ρ.rett o) ∧
    (∀ ρ s sp M o M', execItems C cs ρ0 n ρ s sp M = some (o, M') → RetOk C ρ.rett o) := by
  intro n
  induction n with
  | zero => exact ⟨by intro _ _ _ _ _ _ h; simp [exec] at h, by intro _ _ _ _ _ _ h; simp [execItems] at h⟩
  | succ n ih =>
    obtain ⟨ih1, ih2⟩ := ih
    constructor
    · intro ρ s sp M o M' h
      have loop : ∀ {i c p b M}, (exec C cs ρ0 n ρ (.forr i c p b) sp M = some (o, M')) → RetOk C ρ.rett o := fun h => ih1 _ _ _ _ _ _ h
      cases s with
      | skip => simp only [exec, Option.some.injEq, Prod.mk.injEq] at h; rw [← h.1]; trivial
      | brk => simp only [exec, Option.some.injEq, Prod.mk.injEq] at h; rw [← h.1]; trivial
      | cont => simp only [exec, Option.some.injEq, Prod.mk.injEq] at h; rw [← h.1]; trivial
      | expr e => simp only [exec, Option.bind_eq_some_iff, Option.some.injEq, Prod.mk.injEq] at h; obtain ⟨_, _, rfl, _⟩ := h; trivial
      | ifte c a b =>
        simp only [exec, Option.bind_eq_some_iff] at h
        obtain ⟨_, _, h⟩ := h
        split at h <;> exact ih1 _ _ _ _ _ _ h
      | whil c b =>
        simp only [exec, Option.bind_eq_some_iff] at h
        obtain ⟨⟨v, M1⟩, _, h⟩ := h
        split at h
        · simp only [Option.some.injEq, Prod.mk.injEq] at h; rw [← h.1]; trivial
        · simp only [Option.bind_eq_some_iff] at h
          obtain ⟨⟨o1, M2⟩, h1, h⟩ := h
          cases o1 with
          | brk => simp only [Option.some.injEq, Prod.mk.injEq] at h; rw [← h.1]; trivial
          | ret v => simp only [Option.some.injEq, Prod.mk.injEq] at h; rw [← h.1]; exact ih1 _ _ _ _ _ _ h1
          | norm => exact ih1 _ _ _ _ _ _ h
          | cont => exact ih1 _ _ _ _ _ _ h
      | doW b c =>
        simp only [exec, Option.bind_eq_some_iff] at h
        obtain ⟨⟨o1, M2⟩, h1, h⟩ := h
        cases o1 with
        | brk => simp only [Option.some.injEq, Prod.mk.injEq] at h; rw [← h.1]; trivial
        | ret v => simp only [Option.some.injEq, Prod.mk.injEq] at h; rw [← h.1]; exact ih1 _ _ _ _ _ _ h1
        | norm | cont =>
          simp only [Option.bind_eq_some_iff] at h
          obtain ⟨⟨v, M1⟩, _, h⟩ := h
          split at h
          · simp only [Option.some.injEq, Prod.mk.injEq] at h; rw [← h.1]; trivial
          · exact ih1 _ _ _ _ _ _ h
      | forr i c p b =>
        cases i with
        | skip =>
          simp only [exec, Option.bind_eq_some_iff] at h
          obtain ⟨⟨v, M1⟩, _, h⟩ := h
          split at h
          · simp only [Option.some.injEq, Prod.mk.injEq] at h; rw [← h.1]; trivial
          · simp only [Option.bind_eq_some_iff] at h
            obtain ⟨⟨o1, M2⟩, h1, h⟩ := h
            cases o1 with
            | brk => simp only [Option.some.injEq, Prod.mk.injEq] at h; rw [← h.1]; trivial
            | ret v => simp only [Option.some.injEq, Prod.mk.injEq] at h; rw [← h.1]; exact ih1 _ _ _ _ _ _ h1
            | norm | cont =>
              simp only [Option.bind_eq_some_iff] at h
              obtain ⟨⟨o3, M3⟩, _, h⟩ := h
              cases o3 with
              | norm => exact loop h
              | _ => cases h
        | _ =>
          simp only [exec, Option.bind_eq_some_iff] at h
          obtain ⟨⟨o3, M3⟩, _, h⟩ := h
          cases o3 with
          | norm => exact loop h
          | _ => cases h
      | switch e b =>
        cases b with
        | blk b =>
          simp only [exec, Option.ite_none_right_eq_some, Option.bind_eq_some_iff] at h
          obtain ⟨_, te, _, t, _, ⟨v, M1⟩, _, ⟨o1, M2⟩, h1, h⟩ := h
          have h1' : RetOk C ρ.rett o1 := by
            split at h1
            · exact ih2 _ _ _ _ _ _ h1
            · split at h1
              · exact ih2 _ _ _ _ _ _ h1
              · simp only [Option.some.injEq, Prod.mk.injEq] at h1; rw [← h1.1]; trivial
          cases o1 <;> simp only [Option.some.injEq, Prod.mk.injEq] at h <;> rw [← h.1] <;> first | exact h1' | trivial
        | _ => simp [exec] at h
      | case e s => simp only [exec] at h; exact ih1 _ _ _ _ _ _ h
      | dflt s => simp only [exec] at h; exact ih1 _ _ _ _ _ _ h
      | ret e =>
        cases e with
        | none =>
          simp only [exec, Option.ite_none_right_eq_some, Option.some.injEq, Prod.mk.injEq] at h
          rw [← h.2.1]; exact .inl h.1
        | some e =>
          simp only [exec, Option.ite_none_right_eq_some, Option.bind_eq_some_iff, Option.some.injEq, Prod.mk.injEq] at h
          obtain ⟨hs, _, _, rfl, _⟩ := h
          exact .inr (conv_fits hw hs _)
      | blk b => simp only [exec] at h; exact ih2 _ _ _ _ _ _ h
      | bnil => simp [exec] at h
      | bstmt _ _ => simp [exec] at h
      | bdecl _ _ _ _ => simp [exec] at h
    · intro ρ s sp M o M' h
      cases s with
      | bnil => simp only [execItems, Option.some.injEq, Prod.mk.injEq] at h; rw [← h.1]; trivial
      | bstmt s rest =>
        simp only [execItems, Option.bind_eq_some_iff] at h
        obtain ⟨⟨o1, M1⟩, h1, h⟩ := h
        cases o1 with
        | norm => exact ih2 _ _ _ _ _ _ h
        | _ => simp only [Option.some.injEq, Prod.mk.injEq] at h; rw [← h.1]; exact ih1 _ _ _ _ _ _ h1
      | bdecl x t init rest =>
        simp only [execItems, Option.ite_none_right_eq_some, Option.bind_eq_some_iff, Option.some.injEq, Prod.mk.injEq] at h
        obtain ⟨_, _, _, ⟨o1, M1⟩, h1, rfl, _⟩ := h
        have := ih2 _ _ _ _ _ _ h1
        exact this
      | _ => simp [execItems] at h

theorem call_ty (hw : C.w = 4 ∨ C.w = 8) (hft : FnTy C cs ρ0) {n : Nat} {f : Nat} {vs : List Int} {sp : Int} {M : Mem} {v : Int} {M' : Mem} {r : CTy}
    (h : call C cs ρ0 n f vs sp M = some (v, M')) (hr : ρ0.kind f = some (.fn r)) : r = .void ∨ Fits C r v := by
  cases n with
  | zero => simp [call] at h
  | succ n =>
    simp only [call] at h
    split at h
    · rename_i hf
      simp only [Option.ite_none_right_eq_some] at h
      exact hft.lib _ _ _ _ _ _ hf h.2 hr
    rename_i fd hf
    simp only [Option.bind_eq_some_iff, Option.ite_none_right_eq_some] at h
    obtain ⟨_, ⟨ρ, M1⟩, hb, ⟨o, M2⟩, hx, h⟩ := h
    have e := hft.fn _ _ _ hf hr
    have hk : ρ.rett = r := by rw [(bind_dom hw hb (ρ0 := ρ0) (fun f r h => h)).2.1, ← e]
    have := (exec_ret hw n).2 _ _ _ _ _ _ hx
    cases o with
    | ret v' =>
      simp only [Option.some.injEq, Prod.mk.injEq] at h
      rw [← h.1, ← hk]; exact this
    | norm =>
      simp only [Option.ite_none_right_eq_some] at h
      rw [← e]; exact .inl h.1
    | _ => cases h

theorem exec_dom (hw : C.w = 4 ∨ C.w = 8) (hft : FnTy C cs ρ0) : ∀ n,
    (∀ ρ s sp M o M', KFn ρ ρ0 → exec C cs ρ0 n ρ s sp M = some (o, M') → MemOk C sp M → SameDom M M') ∧
    (∀ ρ s sp M o M', KFn ρ ρ0 → execItems C cs ρ0 n ρ s sp M = some (o, M') → MemOk C sp M → SameDom M M') ∧
    CfOk C (call C cs ρ0 n) ρ0.kind := by
  intro n
  induction n with
  | zero =>
    refine ⟨by intro _ _ _ _ _ _ _ h; simp [exec] at h, by intro _ _ _ _ _ _ _ h; simp [execItems] at h, ?_, ?_⟩
    · intro f vs sp M v M' h; simp [call] at h
    · intro f vs sp M v M' r h; simp [call] at h
  | succ n ih =>
    obtain ⟨ih1, ih2, ihc⟩ := ih
    refine ⟨?_, ?_, ?_, fun f vs sp M v M' r h hr => call_ty hw hft h hr⟩
    · intro ρ s sp M o M' hk h hM
      have ev : ∀ {e M v M'}, evalE C (call C cs ρ0 n) ρ e sp M = some (v, M') → MemOk C sp M → SameDom M M' :=
        fun h hM => eval_same hw (ihc.of hk) h hM
      cases s with
      | skip => simp only [exec, Option.some.injEq, Prod.mk.injEq] at h; rw [← h.2]; exact SameDom.refl _
      | brk => simp only [exec, Option.some.injEq, Prod.mk.injEq] at h; rw [← h.2]; exact SameDom.refl _
      | cont => simp only [exec, Option.some.injEq, Prod.mk.injEq] at h; rw [← h.2]; exact SameDom.refl _
      | expr e =>
        simp only [exec, Option.bind_eq_some_iff, Option.some.injEq, Prod.mk.injEq] at h
        obtain ⟨⟨v, M1⟩, h, _, rfl⟩ := h
        exact ev h hM
      | ifte c a b =>
        simp only [exec, Option.bind_eq_some_iff] at h
        obtain ⟨⟨v, M1⟩, h0, h⟩ := h
        have d0 := ev h0 hM
        split at h <;> exact d0.trans (ih1 _ _ _ _ _ _ hk h (hM.same d0))
      | whil c b =>
        simp only [exec, Option.bind_eq_some_iff] at h
        obtain ⟨⟨v, M1⟩, h0, h⟩ := h
        have d0 := ev h0 hM
        split at h
        · simp only [Option.some.injEq, Prod.mk.injEq] at h; rw [← h.2]; exact d0
        · simp only [Option.bind_eq_some_iff] at h
          obtain ⟨⟨o1, M2⟩, h1, h⟩ := h
          have d1 := d0.trans (ih1 _ _ _ _ _ _ hk h1 (hM.same d0))
          cases o1 with
          | brk => simp only [Option.some.injEq, Prod.mk.injEq] at h; rw [← h.2]; exact d1
          | ret v => simp only [Option.some.injEq, Prod.mk.injEq] at h; rw [← h.2]; exact d1
          | norm => exact d1.trans (ih1 _ _ _ _ _ _ hk h (hM.same d1))
          | cont => exact d1.trans (ih1 _ _ _ _ _ _ hk h (hM.same d1))
      | doW b c =>
        simp only [exec, Option.bind_eq_some_iff] at h
        obtain ⟨⟨o1, M2⟩, h1, h⟩ := h
        have d1 := ih1 _ _ _ _ _ _ hk h1 hM
        cases o1 with
        | brk => simp only [Option.some.injEq, Prod.mk.injEq] at h; rw [← h.2]; exact d1
        | ret v => simp only [Option.some.injEq, Prod.mk.injEq] at h; rw [← h.2]; exact d1
        | norm | cont =>
          simp only [Option.bind_eq_some_iff] at h
          obtain ⟨⟨v, M1⟩, h0, h⟩ := h
          have d2 := d1.trans (ev h0 (hM.same d1))
          split at h
          · simp only [Option.some.injEq, Prod.mk.injEq] at h; rw [← h.2]; exact d2
          · exact d2.trans (ih1 _ _ _ _ _ _ hk h (hM.same d2))
      | forr i c p b =>
        cases i with
        | skip =>
          simp only [exec, Option.bind_eq_some_iff] at h
          obtain ⟨⟨v, M1⟩, h0, h⟩ := h
          have d0 : SameDom M M1 := by
            cases c with
            | none => simp only [Option.some.injEq, Prod.mk.injEq] at h0; rw [← h0.2]; exact SameDom.refl _
            | some c => exact ev h0 hM
          split at h
          · simp only [Option.some.injEq, Prod.mk.injEq] at h; rw [← h.2]; exact d0
          · simp only [Option.bind_eq_some_iff] at h
            obtain ⟨⟨o1, M2⟩, h1, h⟩ := h
            have d1 := d0.trans (ih1 _ _ _ _ _ _ hk h1 (hM.same d0))
            cases o1 with
            | brk => simp only [Option.some.injEq, Prod.mk.injEq] at h; rw [← h.2]; exact d1
            | ret v => simp only [Option.some.injEq, Prod.mk.injEq] at h; rw [← h.2]; exact d1
            | norm | cont =>
              simp only [Option.bind_eq_some_iff] at h
              obtain ⟨⟨o3, M3⟩, h3, h⟩ := h
              have d3 := d1.trans (ih1 _ _ _ _ _ _ hk h3 (hM.same d1))
              cases o3 with
              | norm => exact d3.trans (ih1 _ _ _ _ _ _ hk h (hM.same d3))
              | _ => cases h
        | _ =>
          simp only [exec, Option.bind_eq_some_iff] at h
          obtain ⟨⟨o3, M3⟩, h3, h⟩ := h
          have d3 := ih1 _ _ _ _ _ _ hk h3 hM
          cases o3 with
          | norm => exact d3.trans (ih1 _ _ _ _ _ _ hk h (hM.same d3))
          | _ => cases h
      | switch e b =>
        cases b with
        | blk b =>
          simp only [exec, Option.ite_none_right_eq_some, Option.bind_eq_some_iff] at h
          obtain ⟨_, te, _, t, _, ⟨v, M1⟩, h0, ⟨o1, M2⟩, h1, h⟩ := h
          have d0 := ev h0 hM
          have hM1 := (hM.same d0).mono (show sp - (C.w : Int) ≤ sp by omega)
          have d1 : SameDom M1 M2 := by
            split at h1
            · exact ih2 _ _ _ _ _ _ hk h1 hM1
            · split at h1
              · exact ih2 _ _ _ _ _ _ hk h1 hM1
              · simp only [Option.some.injEq, Prod.mk.injEq] at h1; rw [← h1.2]; exact SameDom.refl _
          cases o1 <;> simp only [Option.some.injEq, Prod.mk.injEq] at h <;> rw [← h.2] <;> exact d0.trans d1
        | _ => simp [exec] at h
      | case e s => simp only [exec] at h; exact ih1 _ _ _ _ _ _ hk h hM
      | dflt s => simp only [exec] at h; exact ih1 _ _ _ _ _ _ hk h hM
      | ret e =>
        cases e with
        | none =>
          simp only [exec, Option.ite_none_right_eq_some, Option.some.injEq, Prod.mk.injEq] at h
          rw [← h.2.2]; exact SameDom.refl _
        | some e =>
          simp only [exec, Option.ite_none_right_eq_some, Option.bind_eq_some_iff, Option.some.injEq, Prod.mk.injEq] at h
          obtain ⟨hs, ⟨v, M1⟩, h, _, rfl⟩ := h
          exact ev h hM
      | blk b => simp only [exec] at h; exact ih2 _ _ _ _ _ _ hk h hM
      | bnil => simp [exec] at h
      | bstmt _ _ => simp [exec] at h
      | bdecl _ _ _ _ => simp [exec] at h
    · intro ρ s sp M o M' hk h hM
      cases s with
      | bnil => simp only [execItems, Option.some.injEq, Prod.mk.injEq] at h; rw [← h.2]; exact SameDom.refl _
      | bstmt s rest =>
        simp only [execItems, Option.bind_eq_some_iff] at h
        obtain ⟨⟨o1, M1⟩, h1, h⟩ := h
        have d1 := ih1 _ _ _ _ _ _ hk h1 hM
        cases o1 with
        | norm => exact d1.trans (ih2 _ _ _ _ _ _ hk h (hM.same d1))
        | _ => simp only [Option.some.injEq, Prod.mk.injEq] at h; rw [← h.2]; exact d1
      | bdecl x t init rest =>
        simp only [execItems, Option.ite_none_right_eq_some, Option.bind_eq_some_iff, Option.some.injEq, Prod.mk.injEq] at h
        obtain ⟨hl, M1, h0, ⟨o1, M2⟩, h1, _, rfl⟩ := h
        have e : ((words C t : Nat) : Int) * C.w = ((words C t * C.w : Nat) : Int) := by push_cast; rfl
        rw [e] at hl h0 h1 ⊢
        have hge := words_ge hw t (C := C)
        have hMa := block_mem hM hl (k := sizeof C.w C.T t) (by exact_mod_cast hge)
        have d0 : SameDom (alloc M (sp - (words C t * C.w : Nat)) (sizeof C.w C.T t)) M1 := by
          cases init with
          | none => simp only [Option.some.injEq] at h0; rw [← h0]; exact SameDom.refl _
          | some e =>
            simp only [Option.bind_eq_some_iff] at h0
            obtain ⟨⟨v, M3⟩, h3, h0⟩ := h0
            exact (eval_same hw (ihc.of (hk.setVar _ _ _)) h3 hMa).trans (storeT_dom h0)
        have d1 := d0.trans (ih2 _ _ _ _ _ _ (hk.setVar _ _ _) h1 (hMa.same d0))
        exact block_dom hM hl (by exact_mod_cast hge) d1
      | _ => simp [execItems] at h
    · intro f vs sp M v M' h hM
      simp only [call] at h
      split at h
      · rename_i hf
        simp only [Option.ite_none_right_eq_some] at h
        exact hft.ldom _ _ _ _ _ hf h.2
      rename_i fd hf
      simp only [Option.bind_eq_some_iff, Option.ite_none_right_eq_some] at h
      obtain ⟨hl, ⟨ρ, M1⟩, hb, ⟨o, M2⟩, hx, h⟩ := h
      obtain ⟨b1, b2, b3, b4⟩ := bind_dom hw hb (ρ0 := ρ0) (fun f r h => h)
      have hn : (0 : Int) ≤ fd.params.length * C.w := Int.mul_nonneg (by omega) (by omega)
      rw [b3] at hM
      have h0 := hM.lim
      have ht := hM.top
      have hM1 : MemOk C (sp - C.w) M1 := by
        refine ⟨h0, by omega, fun a ha => ?_⟩
        by_cases hin : sp ≤ a ∧ a < sp + fd.params.length * C.w
        · omega
        · rw [b4 a hin] at ha
          have := hM.dom a ha
          omega
      have d := ih2 _ _ _ _ _ _ b1 hx hM1
      have e : ((fd.params.length : Nat) : Int) * C.w = ((fd.params.length * C.w : Nat) : Int) := by push_cast; rfl
      have fin : SameDom M (free M2 sp (fd.params.length * C.w)) := by
        intro a
        have := d a
        unfold free
        dsimp only
        split
        · rename_i hin
          have : M a = none := by
            cases em : M a with
            | none => rfl
            | some b => have := (hM.dom a (by rw [em]; simp)).2.2; omega
          rw [this]
        · rename_i hin
          rw [this]
          show (M1 a).isSome = _
          rw [b4 a (by omega)]
      cases o with
      | ret v' => simp only [Option.some.injEq, Prod.mk.injEq] at h; rw [← h.2]; exact fin
      | norm => simp only [Option.ite_none_right_eq_some, Option.some.injEq, Prod.mk.injEq] at h; rw [← h.2.2]; exact fin
      | _ => cases h

end
end Verif.Cg
