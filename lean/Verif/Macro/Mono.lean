import Verif.Macro.Term
/-! More iterations do not change a result. -/
namespace Verif.Macro
open Verif Verif.Lex

def Le {α : Type} (a b : Res α) : Prop := a = .diverge ∨ a = b

theorem le_refl {α : Type} (a : Res α) : Le a a := .inr rfl
theorem le_div {α : Type} (b : Res α) : Le .diverge b := .inl rfl
theorem le_bind {α β : Type} {a b : Res α} {f g : α → Res β} (h : Le a b) (hf : ∀ x, Le (f x) (g x)) : Le (a.bind f) (b.bind g) := by
  rcases h with rfl | rfl
  · exact .inl rfl
  · cases a with
    | ok x => exact hf x
    | _ => exact .inr rfl

def GLe (g g' : GT) : Prop := ∀ em skip st, Le (g em skip st) (g' em skip st)

theorem parse_arg_le {g g' : GT} (h : GLe g g') (skip : Bool) : ∀ (n n' : Nat), n ≤ n' → ∀ d t acc st,
    Le (parse_arg g skip n d t acc st) (parse_arg g' skip n' d t acc st) := by
  intro n
  induction n with
  | zero => intro n' _ d t acc st; exact .inl rfl
  | succ n ih =>
    intro n' hn d t acc st
    obtain ⟨k, rfl⟩ : ∃ k, n' = k + 1 := ⟨n' - 1, by omega⟩
    simp only [parse_arg]
    split
    · exact le_bind (h _ _ _) fun p => ih k (by omega) _ _ _ _
    · exact le_refl _

theorem macro_args_le {g g' : GT} (h : GLe g g') (skip : Bool) : ∀ (n n' : Nat), n ≤ n' → ∀ p t acc st,
    Le (macro_args g skip n p t acc st) (macro_args g' skip n' p t acc st) := by
  intro n
  induction n with
  | zero => intro n' _ p t acc st; exact .inl rfl
  | succ n ih =>
    intro n' hn p t acc st
    obtain ⟨k, rfl⟩ : ∃ k, n' = k + 1 := ⟨n' - 1, by omega⟩
    simp only [macro_args]
    split
    · exact le_refl _
    · split
      · exact le_refl _
      · split
        · exact le_bind (h _ _ _) fun q => ih k (by omega) _ _ _ _
        · exact le_bind (parse_arg_le h skip _ _ (by omega) _ _ _ _) fun q => ih k (by omega) _ _ _ _

theorem attempt_le {g g' : GT} (h : GLe g g') {n n' : Nat} (hn : n ≤ n') (em skip : Bool) (m : Name) (mac : Macro) (st : St) :
    Le (attempt g n em skip m mac st) (attempt g' n' em skip m mac st) := by
  unfold attempt
  split
  · exact le_refl _
  · split
    · exact le_refl _
    · refine le_bind (h _ _ _) fun p => ?_
      dsimp only
      split
      · refine le_bind ?_ fun _ => le_refl _
        unfold get_macro_args_toks
        exact le_bind (h _ _ _) fun q => le_bind (macro_args_le h skip _ _ hn _ _ _ _) fun _ => le_refl _
      · exact le_refl _

theorem paste_tokens_le {g g' : GT} (h : GLe g g') (l : BTok) (st : St) : Le (paste_tokens g l st) (paste_tokens g' l st) := by
  unfold paste_tokens
  refine le_bind (h _ _ _) fun p => ?_
  dsimp only
  split
  · refine le_bind (le_refl _) fun a => ?_
    split
    · exact le_refl _
    · exact le_bind (le_refl _) fun st => le_bind (h _ _ _) fun _ => le_refl _
  · exact le_refl _

theorem paste_step_le {D : Table} {g g' : GT} (h : GLe g g') (t : BTok) (st : St) : Le (paste_step D g t st) (paste_step D g' t st) := by
  unfold paste_step
  split
  · split
    · exact le_bind (le_refl _) fun st => paste_tokens_le h _ _
    · exact le_refl _
  · split
    · dsimp only
      split
      · exact le_refl _
      · exact paste_tokens_le h _ _
    · exact le_refl _

theorem expand_ident_le {D : Table} {g g' : GT} (h : GLe g g') {n n' : Nat} (hn : n ≤ n') (em skip : Bool) (m : Name) (st : St) :
    Le (expand_ident D g n em skip m st) (expand_ident D g' n' em skip m st) := by
  unfold expand_ident
  split
  · exact le_refl _
  · refine le_bind (attempt_le h hn _ _ _ _ _) fun p => ?_
    dsimp only
    split
    · exact h _ _ _
    · exact le_refl _

theorem replay_le {D : Table} {g g' : GT} (h : GLe g g') {n n' : Nat} (hn : n ≤ n') (em skip : Bool) (t : BTok) (st : St) :
    Le (replay D g n em skip t st) (replay D g' n' em skip t st) := by
  unfold replay
  split
  · exact expand_ident_le h hn _ _ _ _
  · split
    · exact le_bind (le_refl _) fun a => le_bind (le_refl _) fun st => h _ _ _
    · exact le_refl _
  · unfold stringify
    exact le_bind (h _ _ _) fun _ => le_refl _
  · exact le_refl _

theorem get_tok_le {D : Table} : ∀ (n n' : Nat), n ≤ n' → GLe (get_tok D n) (get_tok D n') := by
  intro n
  induction n with
  | zero => intro n' _ em skip st; exact .inl rfl
  | succ n ih =>
    intro n' hn em skip st
    obtain ⟨k, rfl⟩ : ∃ k, n' = k + 1 := ⟨n' - 1, by omega⟩
    have h := ih k (by omega)
    simp only [get_tok]
    split
    · exact le_bind (paste_step_le h _ _) fun p => replay_le h (by omega) _ _ _ _
    · split
      · exact h _ _ _
      · split
        · exact le_refl _
        · split
          · split
            · exact h _ _ _
            · exact le_refl _
          · split
            · exact expand_ident_le h (by omega) _ _ _ _
            · exact le_refl _
          · exact le_refl _

theorem expandF_le {D : Table} : ∀ (n n' : Nat), n ≤ n' → ∀ st, Le (expandF D n st) (expandF D n' st) := by
  intro n
  induction n with
  | zero => intro n' _ st; exact .inl rfl
  | succ n ih =>
    intro n' hn st
    obtain ⟨k, rfl⟩ : ∃ k, n' = k + 1 := ⟨n' - 1, by omega⟩
    simp only [expandF]
    refine le_bind (get_tok_le n k (by omega) _ _ _) fun p => ?_
    split
    · exact le_refl _
    · exact le_refl _
    · exact le_bind (ih k (by omega) _) fun _ => le_refl _

/-- One run that ends gives the result. -/
theorem expands_of {D : Table} {src : List Tok} (n : Nat) {r : Res (List Tok)} (h : expandF D n (start src) = r) (hr : r ≠ .diverge) : Expands D src r := by
  refine ⟨n, fun k hk => ?_⟩
  rcases expandF_le (D := D) n k hk (start src) with e | e
  · exact absurd (h.symm.trans e) hr
  · rw [← e, h]

theorem gets_of {D : Table} {em skip : Bool} {st : St} (n : Nat) {p : BTok × St} (h : get_tok D n em skip st = .ok p) : ∀ k, n ≤ k → get_tok D k em skip st = .ok p := by
  intro k hk
  rcases get_tok_le (D := D) n k hk em skip st with e | e
  · rw [h] at e; cases e
  · rw [← e, h]

/-- There is one result. -/
theorem expands_unique {D : Table} {src : List Tok} {r r' : Res (List Tok)} (h : Expands D src r) (h' : Expands D src r') : r = r' := by
  obtain ⟨N, h⟩ := h
  obtain ⟨M, h'⟩ := h'
  rw [← h (N + M) (by omega), ← h' (N + M) (by omega)]

end Verif.Macro
