import Verif.Lex.Model
import Verif.Lex.Spec
import Verif.Lit.Props
import Verif.Str.Props
/-! Lemmas about `get_tok`. -/
namespace Verif.Lex
open Verif Verif.Lit Verif.Str Spec

theorem skipWs_len (inp : List Nat) : ∀ b, (skipWs b inp).2.length ≤ inp.length := by
  induction inp with
  | nil => intro b; simp [skipWs]
  | cons c r ih =>
    intro b
    unfold skipWs
    split
    · have := ih (b || c == 10); simp; omega
    · simp

theorem skipLine_len (inp : List Nat) : (skipLine inp).length ≤ inp.length := by
  induction inp with
  | nil => simp [skipLine]
  | cons c r ih =>
    unfold skipLine
    split
    · simp
    · simp; omega

theorem blockLoop_len {inp : List Nat} : ∀ {t r}, blockLoop t inp = some r → r.length < inp.length := by
  induction inp with
  | nil => intro t r h; simp [blockLoop] at h
  | cons c r ih =>
    intro t r' h
    unfold blockLoop at h
    split at h
    · cases h; simp
    · have := ih h; simp; omega

theorem next_some {c : Nat} {r r' : List Nat} (h : next c r = some r') : r = c :: r' := by
  unfold next at h
  split at h
  · split at h
    · rename_i e; cases h; rw [e]
    · cases h
  · cases h

theorem next_self (c : Nat) (r : List Nat) : next c (c :: r) = some r := by simp [next]
theorem next_none {c : Nat} {r : List Nat} (h : ∀ t, r ≠ c :: t) : next c r = none := by
  unfold next
  split
  · rename_i d r'
    rw [if_neg]
    intro e; exact h r' (by rw [e])
  · rfl

/-- More fuel does not change the result. -/
theorem get_tokF_fuel (sh skip : Bool) : ∀ (n m : Nat) (nl : Bool) (inp : List Nat), inp.length < n → inp.length < m →
    get_tokF sh skip n nl inp = get_tokF sh skip m nl inp := by
  intro n
  induction n with
  | zero => intro m nl inp h; omega
  | succ n ih =>
    intro m nl inp hn hm
    cases m with
    | zero => omega
    | succ m =>
      cases inp with
      | nil => rfl
      | cons c r =>
        simp only [List.length_cons] at hn hm
        unfold get_tokF
        by_cases h1 : c ≤ 32
        · rw [if_pos h1, if_pos h1]
          have : (skipWs false (c :: r)).2.length ≤ r.length := by
            unfold skipWs
            rw [if_pos h1]
            exact skipWs_len _ _
          dsimp only
          split
          · rfl
          · exact ih _ _ _ (by omega) (by omega)
        · rw [if_neg h1, if_neg h1]
          split; · rfl
          split; · rfl
          split; · rfl
          split; · rfl
          split; · rfl
          split
          · split
            · rename_i e
              have := next_some e
              subst this
              split
              · rfl
              · rename_i e2
                have := blockLoop_len e2
                simp only [List.length_cons] at hn hm
                exact ih _ _ _ (by omega) (by omega)
            · split
              · rename_i r' e
                have := next_some e
                subst this
                have := skipLine_len (47 :: r')
                simp only [List.length_cons] at hn hm this
                exact ih _ _ _ (by omega) (by omega)
              · rfl
          split
          · split
            · rename_i e
              have := next_some e
              subst this
              simp only [List.length_cons] at hn hm
              exact ih _ _ _ (by omega) (by omega)
            · rfl
          · rfl

theorem get_tok_eq (sh skip nl : Bool) {n : Nat} {inp : List Nat} (h : inp.length < n) :
    get_tokF sh skip n nl inp = get_tok sh skip nl inp := get_tokF_fuel sh skip _ _ nl inp h (by omega)

/-- One iteration on white space. -/
theorem get_tok_ws (sh nl : Bool) {c : Nat} {r : List Nat} (h : c ≤ 32) :
    get_tok sh true nl (c :: r) = get_tok sh true (skipWs (c == 10) r).1 (skipWs (c == 10) r).2 := by
  have hl := skipWs_len r (c == 10)
  conv => lhs; rw [get_tok, get_tokF.eq_def]
  simp only [if_pos h, Bool.not_true, Bool.and_false, Bool.false_eq_true, if_false]
  have : skipWs false (c :: r) = skipWs (c == 10) r := by
    rw [skipWs, if_pos h]; simp
  rw [this, get_tok_eq]
  simp; omega

theorem get_tok_block (sh skip nl : Bool) {r r' : List Nat} (h : skipBlock r = some r') :
    get_tok sh skip nl (47 :: 42 :: r) = get_tok sh skip false r' := by
  have hl := blockLoop_len h
  conv => lhs; rw [get_tok, get_tokF.eq_def]
  simp only [isAlpha, isDigit, next_self, h]
  simp
  rw [get_tok_eq]
  omega

theorem get_tok_line (sh skip nl : Bool) (r : List Nat) :
    get_tok sh skip nl (47 :: 47 :: r) = get_tok sh skip false (skipLine r) := by
  have hl := skipLine_len r
  conv => lhs; rw [get_tok, get_tokF.eq_def]
  simp only [isAlpha, isDigit, next_self, next_none (c := 42) (r := 47 :: r) (by simp)]
  simp
  rw [get_tok_eq, skipLine]
  · simp
  · have := skipLine_len (47 :: r)
    simp at this; omega

theorem not_infix_cons {a b c : Nat} {l : List Nat} (h : ¬ [a, b] <:+: c :: l) : ¬ [a, b] <:+: l :=
  fun hh => h (hh.trans (List.suffix_cons c l).isInfix)

/-- The end of a block comment is its first `*/`. -/
theorem blockLoop_ok (g : List Nat) : ∀ (body : List Nat) (t : Nat), ¬ [42, 47] <:+: body → ¬ (t = 42 ∧ body.head? = some 47) →
    blockLoop t (body ++ 42 :: 47 :: g) = some g := by
  intro body
  induction body with
  | nil =>
    intro t _ _
    simp [blockLoop]
  | cons c r ih =>
    intro t h1 h2
    rw [List.cons_append, blockLoop, if_neg (by simpa using h2)]
    refine ih c (not_infix_cons h1) ?_
    rintro ⟨rfl, h⟩
    apply h1
    cases r with
    | nil => cases h
    | cons x r' =>
      simp at h; subst h
      exact ⟨[], r', by simp⟩

theorem skipBlock_ok {g body : List Nat} (h : ¬ [42, 47] <:+: body) : skipBlock (body ++ 42 :: 47 :: g) = some g := by
  unfold skipBlock
  cases body with
  | nil => simp [blockLoop]
  | cons c r =>
    refine blockLoop_ok g (c :: r) _ h ?_
    simp
    omega

theorem skipLine_ok {g : List Nat} : ∀ {body : List Nat}, 10 ∉ body → skipLine (body ++ 10 :: g) = 10 :: g := by
  intro body
  induction body with
  | nil => intro _; simp [skipLine]
  | cons c r ih =>
    intro h
    simp at h
    rw [List.cons_append, skipLine, if_neg (by omega), ih h.2]

theorem skipLine_end : ∀ {body : List Nat}, 10 ∉ body → skipLine body = [] := by
  intro body
  induction body with
  | nil => intro _; rfl
  | cons c r ih =>
    intro h
    simp at h
    rw [skipLine, if_neg (by omega), ih h.2]

/-- What follows a gap is not white space. -/
def Solid (s : List Nat) : Prop := ∀ c r, s = c :: r → 32 < c

theorem skipWs_solid {s : List Nat} (h : Solid s) (b : Bool) : skipWs b s = (b, s) := by
  cases s with
  | nil => rfl
  | cons c r =>
    have := h c r rfl
    rw [skipWs, if_neg (by omega)]

theorem space_le {c : Nat} (h : Space c) : c ≤ 32 := by unfold Space at h; omega

/-- White space and comments are skipped. -/
theorem gap_ok (sh : Bool) {g s : List Nat} (hg : Gap g) (hs : Solid s) :
    (∀ nl, ∃ nl', get_tok sh true nl (g ++ s) = get_tok sh true nl' s ∧ (nl = false → 10 ∉ g → nl' = false)) ∧
    ∀ b, ∃ nl', get_tok sh true (skipWs b (g ++ s)).1 (skipWs b (g ++ s)).2 = get_tok sh true nl' s ∧ (b = false → 10 ∉ g → nl' = false) := by
  induction hg with
  | nil =>
    refine ⟨fun nl => ⟨nl, rfl, fun h _ => h⟩, fun b => ⟨b, ?_, fun h _ => h⟩⟩
    rw [List.nil_append, skipWs_solid hs]
  | @space c g hc _ ih =>
    have hle := space_le hc
    refine ⟨?_, ?_⟩
    · intro nl
      obtain ⟨nl', h1, h2⟩ := ih.2 (c == 10)
      refine ⟨nl', ?_, ?_⟩
      · rw [List.cons_append, get_tok_ws sh nl hle, h1]
      · intro _ hn
        simp at hn
        exact h2 (by simp; omega) hn.2
    · intro b
      obtain ⟨nl', h1, h2⟩ := ih.2 (b || c == 10)
      refine ⟨nl', ?_, ?_⟩
      · rw [List.cons_append, skipWs, if_pos hle, h1]
      · intro hb hn
        simp at hn
        exact h2 (by simp [hb]; omega) hn.2
  | @block body g hb _ ih =>
    have key : ∀ nl, ∃ nl', get_tok sh true nl (47 :: 42 :: (body ++ 42 :: 47 :: (g ++ s))) = get_tok sh true nl' s ∧ (10 ∉ g → nl' = false) := by
      intro nl
      obtain ⟨nl', h1, h2⟩ := ih.1 false
      exact ⟨nl', by rw [get_tok_block sh true nl (skipBlock_ok hb), h1], h2 rfl⟩
    have e : (47 :: 42 :: body ++ 42 :: 47 :: g) ++ s = 47 :: 42 :: (body ++ 42 :: 47 :: (g ++ s)) := by simp
    rw [e]
    have hm : 10 ∉ (47 :: 42 :: body ++ 42 :: 47 :: g) → 10 ∉ g := by intro h hh; apply h; simp [hh]
    refine ⟨fun nl => ?_, fun b => ?_⟩
    · obtain ⟨nl', h1, h2⟩ := key nl
      exact ⟨nl', h1, fun _ h => h2 (hm h)⟩
    · rw [skipWs, if_neg (by omega)]
      obtain ⟨nl', h1, h2⟩ := key b
      exact ⟨nl', h1, fun _ h => h2 (hm h)⟩
  | @line body g hb _ ih =>
    have key : ∀ nl, ∃ nl', get_tok sh true nl (47 :: 47 :: (body ++ 10 :: (g ++ s))) = get_tok sh true nl' s := by
      intro nl
      obtain ⟨nl', h1, h2⟩ := ih.2 true
      refine ⟨nl', ?_⟩
      rw [get_tok_line, skipLine_ok hb, get_tok_ws sh false (by omega)]
      exact h1
    have e : (47 :: 47 :: body ++ 10 :: g) ++ s = 47 :: 47 :: (body ++ 10 :: (g ++ s)) := by simp
    rw [e]
    have hm : 10 ∉ (47 :: 47 :: body ++ 10 :: g) → False := by intro h; apply h; simp
    refine ⟨fun nl => ?_, fun b => ?_⟩
    · obtain ⟨nl', h1⟩ := key nl
      exact ⟨nl', h1, fun _ h => (hm h).elim⟩
    · rw [skipWs, if_neg (by omega)]
      obtain ⟨nl', h1⟩ := key b
      exact ⟨nl', h1, fun _ h => (hm h).elim⟩

end Verif.Lex
