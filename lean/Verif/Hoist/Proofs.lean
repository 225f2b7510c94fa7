import Verif.Hoist.Spec
/-! Arithmetic expansions are C evaluations. -/
namespace Verif.Hoist
open Verif Spec

variable {M : Machine}

theorem Spec.Steps.trans {a b c : Expr} {u v w : M.W} (h : Steps M a u b v) (h' : Steps M b v c w) : Steps M a u c w := by
  induction h with
  | refl => exact h'
  | step s _ ih => exact .step s (ih h')

theorem Spec.Steps.one {a b : Expr} {u v : M.W} (h : Step M a u b v) : Steps M a u b v := .step h .refl

theorem Spec.Steps.map {C : Expr → Expr} (hC : ∀ {e w e' w'}, Step M e w e' w' → Step M (C e) w (C e') w') {a b : Expr} {u v : M.W} (h : Steps M a u b v) : Steps M (C a) u (C b) v := by
  induction h with
  | refl => exact .refl
  | step s _ ih => exact .step (hC s) ih

theorem Spec.Steps.snoc {a b c : Expr} {u v w : M.W} (h : Steps M a u b v) (h' : Step M b v c w) : Steps M a u c w := h.trans (.one h')

/-- The expression with the values of its temporaries. -/
def close (T : Nat → Int) : Expr → Expr
  | .lit v => .lit v
  | .var x => .var x
  | .tmp k => .lit (T k)
  | .un o e => .un o (close T e)
  | .deref e => .deref (close T e)
  | .paren e => .paren (close T e)
  | .cast e => .cast (close T e)
  | .bin c o a b => .bin c o (close T a) (close T b)
  | .comma a b => .comma (close T a) (close T b)
  | .assign l r => .assign (close T l) (close T r)
  | .opassign o l r => .opassign o (close T l) (close T r)
  | .post o l => .post o (close T l)
  | .call f as => .call f as
  | .logic i a b => .logic i (close T a) (close T b)
  | .logic4 i a b _ _ => .logic i (close T a) (close T b)
  | .cond c a b => .cond (close T c) (close T a) (close T b)

theorem omap {α β : Type} {o : Option α} {f : α → β} {b : β} (h : o.map f = some b) : ∃ a, o = some a ∧ f a = b := by
  cases o with
  | none => cases h
  | some a => exact ⟨a, rfl, by simpa using h⟩

theorem obind {α β : Type} {o : Option α} {f : α → Option β} {b : β} (h : o.bind f = some b) : ∃ a, o = some a ∧ f a = some b := by
  cases o with
  | none => cases h
  | some a => exact ⟨a, rfl, h⟩

/-- Evaluation from left to right is one of C's evaluations. -/
theorem ev_steps : ∀ (e : Expr) (w : M.W) (v : Int) (w' : M.W), ev M e w = some (v, w') → Steps M e w (.lit v) w' := by
  intro e
  match e with
  | .lit v => intro w v' w' h; simp [ev] at h; obtain ⟨rfl, rfl⟩ := h; exact .refl
  | .var x => intro w v w' h; simp [ev] at h; obtain ⟨rfl, rfl⟩ := h; exact .one .var
  | .tmp k => intro w v w' h; simp [ev] at h
  | .un o e =>
    intro w v w' h
    rw [ev] at h
    obtain ⟨⟨x, w1⟩, h1, h2⟩ := obind h
    obtain ⟨r, h3, h4⟩ := omap h2
    cases h4
    exact (Steps.map (C := .un o) .unIn (ev_steps e _ _ _ h1)).snoc (.un h3)
  | .deref e =>
    intro w v w' h
    rw [ev] at h
    obtain ⟨⟨x, w1⟩, h1, h2⟩ := obind h
    obtain ⟨r, h3, h4⟩ := omap h2
    cases h4
    exact (Steps.map (C := .deref) .derefIn (ev_steps e _ _ _ h1)).snoc (.deref h3)
  | .paren e =>
    intro w v w' h
    rw [ev] at h
    exact (Steps.map (C := .paren) .parenIn (ev_steps e _ _ _ h)).snoc .paren
  | .cast e =>
    intro w v w' h
    rw [ev] at h
    exact (Steps.map (C := .cast) .castIn (ev_steps e _ _ _ h)).snoc .cast
  | .bin c o a b =>
    intro w v w' h
    rw [ev] at h
    obtain ⟨⟨x, w1⟩, h1, h2⟩ := obind h
    obtain ⟨⟨y, w2⟩, h3, h4⟩ := obind h2
    obtain ⟨r, h5, h6⟩ := omap h4
    cases h6
    exact ((Steps.map (C := fun a => .bin c o a b) .binL (ev_steps a _ _ _ h1)).trans (Steps.map (C := .bin c o (.lit x)) .binR (ev_steps b _ _ _ h3))).snoc (.bin h5)
  | .comma a b =>
    intro w v w' h
    rw [ev] at h
    obtain ⟨⟨x, w1⟩, h1, h2⟩ := obind h
    exact ((Steps.map (C := fun a => .comma a b) .commaL (ev_steps a _ _ _ h1)).snoc .comma).trans (ev_steps b _ _ _ h2)
  | .assign l r =>
    intro w v w' h
    rw [ev] at h
    obtain ⟨⟨x, w1⟩, h1, h2⟩ := obind h
    obtain ⟨w2, h3, h4⟩ := omap h2
    cases h4
    exact (Steps.map (C := .assign l) .assignR (ev_steps r _ _ _ h1)).snoc (.assign h3)
  | .opassign o l r =>
    intro w v w' h
    rw [ev] at h
    obtain ⟨⟨x, w1⟩, h1, h2⟩ := obind h
    obtain ⟨y, h3, h4⟩ := obind h2
    obtain ⟨z, h5, h6⟩ := obind h4
    obtain ⟨w2, h7, h8⟩ := omap h6
    cases h8
    exact (Steps.map (C := .opassign o l) .opassignR (ev_steps r _ _ _ h1)).snoc (.opassign h3 h5 h7)
  | .post o l =>
    intro w v w' h
    rw [ev] at h
    obtain ⟨y, h3, h4⟩ := obind h
    obtain ⟨z, h5, h6⟩ := obind h4
    obtain ⟨w2, h7, h8⟩ := omap h6
    cases h8
    exact .one (.post h3 h5 h7)
  | .call f as => intro w v w' h; simp [ev] at h
  | .logic i a b =>
    intro w v w' h
    rw [ev] at h
    obtain ⟨⟨x, w1⟩, h1, h2⟩ := obind h
    have hs := Steps.map (C := fun a => .logic i a b) .logicL (ev_steps a _ _ _ h1)
    dsimp only at h2
    split at h2
    · rename_i hx
      obtain ⟨⟨y, w2⟩, h3, h4⟩ := omap h2
      cases h4
      exact (hs.trans (Steps.map (C := .logic i (.lit x)) (.logicR hx) (ev_steps b _ _ _ h3))).snoc (.logicEnd hx)
    · rename_i hx
      cases h2
      exact hs.snoc (.logicSkip hx)
  | .logic4 .. => intro w v w' h; simp [ev] at h
  | .cond c a b =>
    intro w v w' h
    rw [ev] at h
    obtain ⟨⟨x, w1⟩, h1, h2⟩ := obind h
    have hs := Steps.map (C := fun c => .cond c a b) .condL (ev_steps c _ _ _ h1)
    dsimp only at h2
    split at h2
    · rename_i hx; exact (hs.snoc (.condT hx)).trans (ev_steps a _ _ _ h2)
    · rename_i hx; exact (hs.snoc (.condF (by omega))).trans (ev_steps b _ _ _ h2)

/-- Without accesses to memory the expansion only inserts the temporaries. -/
theorem expand_noDeref (T : Nat → Int) : ∀ (s : Expr) (w : M.W) (s' : Expr) (w' : M.W), noDeref s = true → expand M T s w = some (s', w') → s' = close T s ∧ w' = w := by
  intro s
  match s with
  | .lit v => intro w s' w' _ h; simp [expand] at h; simp [close, h]
  | .var x => intro w s' w' _ h; simp [expand] at h; simp [close, h]
  | .tmp k => intro w s' w' _ h; simp [expand] at h; simp [close, h]
  | .un o e | .paren e | .cast e | .post o e =>
    intro w s' w' hn h
    rw [expand] at h
    obtain ⟨⟨x, w1⟩, h1, h2⟩ := omap h
    cases h2
    obtain ⟨rfl, rfl⟩ := expand_noDeref T e _ _ _ (by simpa [noDeref] using hn) h1
    exact ⟨rfl, rfl⟩
  | .deref e => intro w s' w' hn h; simp [noDeref] at hn
  | .bin _ _ a b | .comma a b | .assign a b | .opassign _ a b | .logic4 _ a b _ _ =>
    intro w s' w' hn h
    rw [expand] at h
    simp [noDeref] at hn
    obtain ⟨⟨x, w1⟩, h1, h2⟩ := obind h
    obtain ⟨⟨y, w2⟩, h3, h4⟩ := omap h2
    cases h4
    obtain ⟨rfl, rfl⟩ := expand_noDeref T a _ _ _ hn.1 h1
    obtain ⟨rfl, rfl⟩ := expand_noDeref T b _ _ _ hn.2 h3
    exact ⟨rfl, rfl⟩
  | .call f as => intro w s' w' _ h; simp [expand] at h
  | .logic i a b => intro w s' w' _ h; simp [expand] at h
  | .cond c a b =>
    intro w s' w' hn h
    rw [expand] at h
    simp [noDeref] at hn
    obtain ⟨⟨z, w0⟩, h5, h6⟩ := obind h
    obtain ⟨⟨x, w1⟩, h1, h2⟩ := obind h6
    obtain ⟨⟨y, w2⟩, h3, h4⟩ := omap h2
    cases h4
    obtain ⟨rfl, rfl⟩ := expand_noDeref T c _ _ _ hn.1.1 h5
    obtain ⟨rfl, rfl⟩ := expand_noDeref T a _ _ _ hn.1.2 h1
    obtain ⟨rfl, rfl⟩ := expand_noDeref T b _ _ _ hn.2 h3
    exact ⟨rfl, rfl⟩

/-- The left sides of assignments are variables or cells. -/
def wf : Expr → Bool
  | .lit _ | .var _ | .tmp _ | .call .. => true
  | .un _ e | .deref e | .paren e | .cast e => wf e
  | .post _ l => isLv l && wf l
  | .bin _ _ a b | .comma a b | .logic _ a b | .logic4 _ a b _ _ => wf a && wf b
  | .assign l r => isLv l && wf l && wf r
  | .opassign _ l r => isLv l && wf l && wf r
  | .cond c a b => wf c && wf a && wf b

/-- The expansion of the addresses is part of a C evaluation. -/
theorem expand_steps (T : Nat → Int) : ∀ (s : Expr) (w : M.W) (s' : Expr) (w' : M.W), noLateDeref s = true → wf s = true → expand M T s w = some (s', w') →
    Steps M (close T s) w s' w' := by
  intro s
  match s with
  | .lit v => intro w s' w' _ _ h; simp [expand] at h; obtain ⟨rfl, rfl⟩ := h; exact .refl
  | .var x => intro w s' w' _ _ h; simp [expand] at h; obtain ⟨rfl, rfl⟩ := h; exact .refl
  | .tmp k => intro w s' w' _ _ h; simp [expand] at h; obtain ⟨rfl, rfl⟩ := h; exact .refl
  | .un o e =>
    intro w s' w' hn hw h
    rw [expand] at h
    obtain ⟨⟨x, w1⟩, h1, h2⟩ := omap h
    cases h2
    exact Steps.map (C := .un o) .unIn (expand_steps T e _ _ _ (by simpa [noLateDeref] using hn) (by simpa [wf] using hw) h1)
  | .paren e =>
    intro w s' w' hn hw h
    rw [expand] at h
    obtain ⟨⟨x, w1⟩, h1, h2⟩ := omap h
    cases h2
    exact Steps.map (C := .paren) .parenIn (expand_steps T e _ _ _ (by simpa [noLateDeref] using hn) (by simpa [wf] using hw) h1)
  | .cast e =>
    intro w s' w' hn hw h
    rw [expand] at h
    obtain ⟨⟨x, w1⟩, h1, h2⟩ := omap h
    cases h2
    exact Steps.map (C := .cast) .castIn (expand_steps T e _ _ _ (by simpa [noLateDeref] using hn) (by simpa [wf] using hw) h1)
  | .deref e =>
    intro w s' w' hn hw h
    rw [expand] at h
    obtain ⟨⟨x, w1⟩, h1, h2⟩ := obind h
    obtain ⟨⟨a, w2⟩, h3, h4⟩ := omap h2
    cases h4
    exact Steps.map (C := .deref) .derefIn ((expand_steps T e _ _ _ (by simpa [noLateDeref] using hn) (by simpa [wf] using hw) h1).trans (ev_steps _ _ _ _ h3))
  | .bin c o a b =>
    intro w s' w' hn hw h
    rw [expand] at h
    simp [noLateDeref] at hn
    simp [wf] at hw
    obtain ⟨⟨x, w1⟩, h1, h2⟩ := obind h
    obtain ⟨⟨y, w2⟩, h3, h4⟩ := omap h2
    cases h4
    exact (Steps.map (C := fun a => .bin c o a (close T b)) .binL (expand_steps T a _ _ _ hn.1 hw.1 h1)).trans (Steps.map (C := .bin c o x) .binR (expand_steps T b _ _ _ hn.2 hw.2 h3))
  | .comma a b =>
    intro w s' w' hn hw h
    rw [expand] at h
    simp [noLateDeref] at hn
    simp [wf] at hw
    obtain ⟨⟨x, w1⟩, h1, h2⟩ := obind h
    obtain ⟨⟨y, w2⟩, h3, h4⟩ := omap h2
    cases h4
    obtain ⟨rfl, rfl⟩ := expand_noDeref T b _ _ _ hn.2 h3
    exact Steps.map (C := fun a => .comma a (close T b)) .commaL (expand_steps T a _ _ _ hn.1 hw.1 h1)
  | .assign l r =>
    intro w s' w' hn hw h
    rw [expand] at h
    simp [noLateDeref] at hn
    simp [wf] at hw
    obtain ⟨⟨x, w1⟩, h1, h2⟩ := obind h
    obtain ⟨⟨y, w2⟩, h3, h4⟩ := omap h2
    cases h4
    refine Steps.trans (b := .assign x (close T r)) (v := w1) ?_ (Steps.map (C := .assign x) .assignR (expand_steps T r _ _ _ hn.2 hw.2 h3))
    match l, hw.1.1, h1 with
    | .var z, _, h1 => simp [expand] at h1; obtain ⟨rfl, rfl⟩ := h1; exact .refl
    | .deref e, _, h1 =>
      rw [expand] at h1
      obtain ⟨⟨x, w1⟩, h11, h2⟩ := obind h1
      obtain ⟨⟨a, w2⟩, h3, h4⟩ := omap h2
      cases h4
      exact Steps.map (C := fun e => .assign (.deref e) (close T r)) .assignL ((expand_steps T e _ _ _ (by simpa [noLateDeref] using hn.1) (by simpa [wf] using hw.1.2) h11).trans (ev_steps _ _ _ _ h3))
  | .opassign o l r =>
    intro w s' w' hn hw h
    rw [expand] at h
    simp [noLateDeref] at hn
    simp [wf] at hw
    obtain ⟨⟨x, w1⟩, h1, h2⟩ := obind h
    obtain ⟨⟨y, w2⟩, h3, h4⟩ := omap h2
    cases h4
    refine Steps.trans (b := .opassign o x (close T r)) (v := w1) ?_ (Steps.map (C := .opassign o x) .opassignR (expand_steps T r _ _ _ hn.2 hw.2 h3))
    match l, hw.1.1, h1 with
    | .var z, _, h1 => simp [expand] at h1; obtain ⟨rfl, rfl⟩ := h1; exact .refl
    | .deref e, _, h1 =>
      rw [expand] at h1
      obtain ⟨⟨x, w1⟩, h11, h2⟩ := obind h1
      obtain ⟨⟨a, w2⟩, h3, h4⟩ := omap h2
      cases h4
      exact Steps.map (C := fun e => .opassign o (.deref e) (close T r)) .opassignL ((expand_steps T e _ _ _ (by simpa [noLateDeref] using hn.1) (by simpa [wf] using hw.1.2) h11).trans (ev_steps _ _ _ _ h3))
  | .post o l =>
    intro w s' w' hn hw h
    rw [expand] at h
    simp [noLateDeref] at hn
    simp [wf] at hw
    obtain ⟨⟨x, w1⟩, h1, h2⟩ := omap h
    cases h2
    match l, hw.1, h1 with
    | .var z, _, h1 => simp [expand] at h1; obtain ⟨rfl, rfl⟩ := h1; exact .refl
    | .deref e, _, h1 =>
      rw [expand] at h1
      obtain ⟨⟨x, w1⟩, h11, h2⟩ := obind h1
      obtain ⟨⟨a, w2⟩, h3, h4⟩ := omap h2
      cases h4
      exact Steps.map (C := fun e => .post o (.deref e)) .postL ((expand_steps T e _ _ _ (by simpa [noLateDeref] using hn) (by simpa [wf] using hw.2) h11).trans (ev_steps _ _ _ _ h3))
  | .call f as => intro w s' w' _ _ h; simp [expand] at h
  | .logic i a b => intro w s' w' _ _ h; simp [expand] at h
  | .logic4 i a b la lb =>
    intro w s' w' hn hw h
    rw [expand] at h
    simp [noLateDeref] at hn
    simp [wf] at hw
    obtain ⟨⟨x, w1⟩, h1, h2⟩ := obind h
    obtain ⟨⟨y, w2⟩, h3, h4⟩ := omap h2
    cases h4
    obtain ⟨rfl, rfl⟩ := expand_noDeref T b _ _ _ hn.2 h3
    exact Steps.map (C := fun a => .logic i a (close T b)) .logicL (expand_steps T a _ _ _ hn.1 hw.1 h1)
  | .cond c a b =>
    intro w s' w' hn hw h
    rw [expand] at h
    simp [noLateDeref] at hn
    simp [wf] at hw
    obtain ⟨⟨z, w0⟩, h5, h6⟩ := obind h
    obtain ⟨⟨x, w1⟩, h1, h2⟩ := obind h6
    obtain ⟨⟨y, w2⟩, h3, h4⟩ := omap h2
    cases h4
    obtain ⟨rfl, rfl⟩ := expand_noDeref T a _ _ _ hn.1.2 h1
    obtain ⟨rfl, rfl⟩ := expand_noDeref T b _ _ _ hn.2 h3
    exact Steps.map (C := fun c => .cond c (close T a) (close T b)) .condL (expand_steps T c _ _ _ hn.1.1 hw.1.1 h5)

/-- Without assignments the order of the expansions does not matter. -/
theorem expand_pure (T : Nat → Int) : ∀ (s : Expr) (w : M.W) (s' : Expr) (w' : M.W), noEffect s = true → expand M T s w = some (s', w') →
    w' = w ∧ ∀ v w2, ev M s' w = some (v, w2) → w2 = w ∧ Steps M (close T s) w (.lit v) w := by
  intro s
  match s with
  | .lit v => intro w s' w' _ h; simp [expand] at h; obtain ⟨rfl, rfl⟩ := h; refine ⟨rfl, fun v w2 h => ?_⟩; simp [ev] at h; obtain ⟨rfl, rfl⟩ := h; exact ⟨rfl, .refl⟩
  | .var x => intro w s' w' _ h; simp [expand] at h; obtain ⟨rfl, rfl⟩ := h; refine ⟨rfl, fun v w2 h => ?_⟩; simp [ev] at h; obtain ⟨rfl, rfl⟩ := h; exact ⟨rfl, .one .var⟩
  | .tmp k => intro w s' w' _ h; simp [expand] at h; obtain ⟨rfl, rfl⟩ := h; refine ⟨rfl, fun v w2 h => ?_⟩; simp [ev] at h; obtain ⟨rfl, rfl⟩ := h; exact ⟨rfl, .refl⟩
  | .un o e =>
    intro w s' w' hn h
    rw [expand] at h
    obtain ⟨⟨x, w1⟩, h1, h2⟩ := omap h
    cases h2
    obtain ⟨rfl, ih⟩ := expand_pure T e _ _ _ (by simpa [noEffect] using hn) h1
    refine ⟨rfl, fun v w2 hv => ?_⟩
    rw [ev] at hv
    obtain ⟨⟨y, w3⟩, h3, h4⟩ := obind hv
    obtain ⟨r, h5, h6⟩ := omap h4
    cases h6
    obtain ⟨rfl, hs⟩ := ih _ _ h3
    exact ⟨rfl, (Steps.map (C := .un o) .unIn hs).snoc (.un h5)⟩
  | .paren e =>
    intro w s' w' hn h
    rw [expand] at h
    obtain ⟨⟨x, w1⟩, h1, h2⟩ := omap h
    cases h2
    obtain ⟨rfl, ih⟩ := expand_pure T e _ _ _ (by simpa [noEffect] using hn) h1
    refine ⟨rfl, fun v w2 hv => ?_⟩
    rw [ev] at hv
    obtain ⟨rfl, hs⟩ := ih _ _ hv
    exact ⟨rfl, (Steps.map (C := .paren) .parenIn hs).snoc .paren⟩
  | .cast e =>
    intro w s' w' hn h
    rw [expand] at h
    obtain ⟨⟨x, w1⟩, h1, h2⟩ := omap h
    cases h2
    obtain ⟨rfl, ih⟩ := expand_pure T e _ _ _ (by simpa [noEffect] using hn) h1
    refine ⟨rfl, fun v w2 hv => ?_⟩
    rw [ev] at hv
    obtain ⟨rfl, hs⟩ := ih _ _ hv
    exact ⟨rfl, (Steps.map (C := .cast) .castIn hs).snoc .cast⟩
  | .deref e =>
    intro w s' w' hn h
    rw [expand] at h
    obtain ⟨⟨x, w1⟩, h1, h2⟩ := obind h
    obtain ⟨⟨a, w2⟩, h3, h4⟩ := omap h2
    cases h4
    obtain ⟨rfl, ih⟩ := expand_pure T e _ _ _ (by simpa [noEffect] using hn) h1
    obtain ⟨rfl, hs⟩ := ih _ _ h3
    refine ⟨rfl, fun v w2 hv => ?_⟩
    rw [ev, ev] at hv
    simp only [Option.bind_some] at hv
    obtain ⟨r, h5, h6⟩ := omap hv
    cases h6
    exact ⟨rfl, (Steps.map (C := .deref) .derefIn hs).snoc (.deref h5)⟩
  | .bin c o a b =>
    intro w s' w' hn h
    rw [expand] at h
    simp [noEffect] at hn
    obtain ⟨⟨x, w1⟩, h1, h2⟩ := obind h
    obtain ⟨⟨y, w2⟩, h3, h4⟩ := omap h2
    cases h4
    obtain ⟨rfl, iha⟩ := expand_pure T a _ _ _ hn.1 h1
    obtain ⟨rfl, ihb⟩ := expand_pure T b _ _ _ hn.2 h3
    refine ⟨rfl, fun v w2 hv => ?_⟩
    rw [ev] at hv
    obtain ⟨⟨p, w3⟩, h5, h6⟩ := obind hv
    obtain ⟨rfl, hs⟩ := iha _ _ h5
    obtain ⟨⟨q, w4⟩, h7, h8⟩ := obind h6
    obtain ⟨rfl, ht⟩ := ihb _ _ h7
    obtain ⟨r, h9, h10⟩ := omap h8
    cases h10
    exact ⟨rfl, ((Steps.map (C := fun a => .bin c o a (close T b)) .binL hs).trans (Steps.map (C := .bin c o (.lit p)) .binR ht)).snoc (.bin h9)⟩
  | .comma a b =>
    intro w s' w' hn h
    rw [expand] at h
    simp [noEffect] at hn
    obtain ⟨⟨x, w1⟩, h1, h2⟩ := obind h
    obtain ⟨⟨y, w2⟩, h3, h4⟩ := omap h2
    cases h4
    obtain ⟨rfl, iha⟩ := expand_pure T a _ _ _ hn.1 h1
    obtain ⟨rfl, ihb⟩ := expand_pure T b _ _ _ hn.2 h3
    refine ⟨rfl, fun v w2 hv => ?_⟩
    rw [ev] at hv
    obtain ⟨⟨p, w3⟩, h5, h6⟩ := obind hv
    obtain ⟨rfl, hs⟩ := iha _ _ h5
    obtain ⟨rfl, ht⟩ := ihb _ _ h6
    exact ⟨rfl, ((Steps.map (C := fun a => .comma a (close T b)) .commaL hs).snoc .comma).trans ht⟩
  | .logic4 i a b la lb =>
    intro w s' w' hn h
    rw [expand] at h
    simp [noEffect] at hn
    obtain ⟨⟨x, w1⟩, h1, h2⟩ := obind h
    obtain ⟨⟨y, w2⟩, h3, h4⟩ := omap h2
    cases h4
    obtain ⟨rfl, iha⟩ := expand_pure T a _ _ _ hn.1 h1
    obtain ⟨rfl, ihb⟩ := expand_pure T b _ _ _ hn.2 h3
    refine ⟨rfl, fun v w2 hv => ?_⟩
    rw [ev] at hv
    obtain ⟨⟨p, w3⟩, h5, h6⟩ := obind hv
    obtain ⟨rfl, hs⟩ := iha _ _ h5
    have hs' := Steps.map (C := fun a => .logic i a (close T b)) .logicL hs
    dsimp only at h6
    split at h6
    · rename_i hx
      obtain ⟨⟨q, w4⟩, h7, h8⟩ := omap h6
      cases h8
      obtain ⟨rfl, ht⟩ := ihb _ _ h7
      exact ⟨rfl, (hs'.trans (Steps.map (C := .logic i (.lit p)) (.logicR hx) ht)).snoc (.logicEnd hx)⟩
    · rename_i hx
      cases h6
      exact ⟨rfl, hs'.snoc (.logicSkip hx)⟩
  | .cond c a b =>
    intro w s' w' hn h
    rw [expand] at h
    simp [noEffect] at hn
    obtain ⟨⟨z, w0⟩, h5, h6⟩ := obind h
    obtain ⟨⟨x, w1⟩, h1, h2⟩ := obind h6
    obtain ⟨⟨y, w2⟩, h3, h4⟩ := omap h2
    cases h4
    obtain ⟨rfl, ihc⟩ := expand_pure T c _ _ _ hn.1.1 h5
    obtain ⟨rfl, iha⟩ := expand_pure T a _ _ _ hn.1.2 h1
    obtain ⟨rfl, ihb⟩ := expand_pure T b _ _ _ hn.2 h3
    refine ⟨rfl, fun v w2 hv => ?_⟩
    rw [ev] at hv
    obtain ⟨⟨p, w3⟩, k5, k6⟩ := obind hv
    obtain ⟨rfl, hs⟩ := ihc _ _ k5
    have hs' := Steps.map (C := fun c => .cond c (close T a) (close T b)) .condL hs
    dsimp only at k6
    split at k6
    · rename_i hx
      obtain ⟨rfl, ht⟩ := iha _ _ k6
      exact ⟨rfl, (hs'.snoc (.condT hx)).trans ht⟩
    · rename_i hx
      obtain ⟨rfl, ht⟩ := ihb _ _ k6
      exact ⟨rfl, (hs'.snoc (.condF (by omega))).trans ht⟩
  | .assign .. | .opassign .. | .post .. => intro w s' w' hn; simp [noEffect] at hn
  | .call f as => intro w s' w' _ h; simp [expand] at h
  | .logic i a b => intro w s' w' _ h; simp [expand] at h

/-- An arithmetic expansion is a C evaluation of its expression. -/
theorem arith_steps {T : Nat → Int} {s : Expr} {w w' : M.W} {v : Int} (ho : orderOk s = true) (hw : wf s = true) (h : arith M T s w = some (v, w')) :
    Steps M (close T s) w (.lit v) w' := by
  rw [arith] at h
  obtain ⟨⟨x, w1⟩, h1, h2⟩ := obind h
  simp only [orderOk, Bool.or_eq_true] at ho
  rcases ho with ho | ho
  · obtain ⟨rfl, hp⟩ := expand_pure T s _ _ _ ho h1
    obtain ⟨rfl, hs⟩ := hp _ _ h2
    exact hs
  · exact (expand_steps T s _ _ _ ho hw h1).trans (ev_steps _ _ _ _ h2)

end Verif.Hoist
