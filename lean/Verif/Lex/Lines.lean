import Verif.Lex.Props
/-! # C21: tokens inside a directive (newlines are tokens), directives, and where pnut departs from C -/
namespace Verif.Lex
open Verif Verif.Lit Verif.Lit.Spec Verif.Str Verif.Str.Spec Spec

/-- One iteration on white space. -/
theorem get_tok_ws' (sh skip nl : Bool) {c : Nat} {r : List Nat} (h : c ≤ 32) :
    get_tok sh skip nl (c :: r) = if (skipWs (c == 10) r).1 && !skip then .ok (.newline, (skipWs (c == 10) r).2)
      else get_tok sh skip (skipWs (c == 10) r).1 (skipWs (c == 10) r).2 := by
  have hl := skipWs_len r (c == 10)
  conv => lhs; rw [get_tok, get_tokF.eq_def]
  simp only [if_pos h]
  have : skipWs false (c :: r) = skipWs (c == 10) r := by
    rw [skipWs, if_pos h]; simp
  rw [this, get_tok_eq]
  simp; omega

theorem skipWs_fst_mono (inp : List Nat) : ∀ {b}, b = true → (skipWs b inp).1 = true := by
  induction inp with
  | nil => intro b h; simpa [skipWs] using h
  | cons c r ih =>
    intro b h
    unfold skipWs
    split
    · exact ih (by simp [h])
    · exact h

/-- The part of the input that the white space loop skips. -/
theorem skipWs_split (inp : List Nat) : ∀ b, ∃ w, inp = w ++ (skipWs b inp).2 ∧ (∀ c ∈ w, c ≤ 32) ∧ Solid (skipWs b inp).2 := by
  induction inp with
  | nil => intro b; exact ⟨[], rfl, by simp, by intro c r e; cases e⟩
  | cons c r ih =>
    intro b
    unfold skipWs
    split
    · rename_i hc
      obtain ⟨w, h1, h2, h3⟩ := ih (b || c == 10)
      refine ⟨c :: w, by rw [List.cons_append, ← h1], ?_, h3⟩
      intro d hd
      rcases List.mem_cons.1 hd with rfl | hd
      · exact hc
      · exact h2 d hd
    · rename_i hc
      exact ⟨[], rfl, by simp, by intro d t e; cases e; omega⟩

/-- Blanks and block comments are skipped when newlines are tokens. -/
theorem hgap_ok (sh : Bool) {g s : List Nat} (hg : HGap g) (hs : Solid s) :
    (∀ nl, ∃ nl', get_tok sh false nl (g ++ s) = get_tok sh false nl' s ∧ (nl = false → nl' = false)) ∧
    (skipWs false (g ++ s)).1 = false ∧
    get_tok sh false false (skipWs false (g ++ s)).2 = get_tok sh false false s := by
  induction hg with
  | nil =>
    refine ⟨fun nl => ⟨nl, rfl, id⟩, ?_⟩
    rw [List.nil_append, skipWs_solid hs]; exact ⟨rfl, rfl⟩
  | @space c g hc h10 _ ih =>
    have hle := space_le hc
    have e : (c == 10) = false := by simp [h10]
    refine ⟨fun nl => ⟨false, ?_, fun _ => rfl⟩, ?_⟩
    · rw [List.cons_append, get_tok_ws' sh false nl hle, e, ih.2.1]
      simp [ih.2.2]
    · rw [List.cons_append, skipWs, if_pos hle, e]
      exact ih.2
  | @block body g hb _ ih =>
    have key : ∀ nl, get_tok sh false nl (47 :: 42 :: (body ++ 42 :: 47 :: (g ++ s))) = get_tok sh false false s := by
      intro nl
      obtain ⟨nl', h1, h2⟩ := ih.1 false
      rw [get_tok_block sh false nl (skipBlock_ok hb), h1, h2 rfl]
    have e : (47 :: 42 :: body ++ 42 :: 47 :: g) ++ s = 47 :: 42 :: (body ++ 42 :: 47 :: (g ++ s)) := by simp
    rw [e]
    refine ⟨fun nl => ⟨false, key nl, fun _ => rfl⟩, ?_⟩
    rw [skipWs, if_neg (by omega)]
    exact ⟨rfl, key false⟩

/-- **C21, one token of a directive.** While a directive is being read, the next token of its line is found behind blanks and block comments, and it is
the longest match. -/
theorem C21_line_token_partial {sh : Bool} {g lex rest : List Nat} {t : Tok} (hg : HGap g) (ht : Token sh lex rest t) (hl : Longest lex rest)
    (hc : NoComment (lex ++ rest)) : get_tok sh false false (g ++ (lex ++ rest)) = .ok (t, rest) := by
  have hs := (token_ok ht hl hc false false (fun _ => rfl)).2
  obtain ⟨nl', h1, h2⟩ := (hgap_ok sh hg hs).1 false
  rw [h1, h2 rfl]
  exact (token_ok ht hl hc false false (fun _ => rfl)).1

theorem hgap_newline (sh : Bool) {g : List Nat} (hg : HGap g) (s : List Nat) :
    ∃ w r, s = w ++ r ∧ (∀ c ∈ w, c ≤ 32) ∧ Solid r ∧
      (∀ nl, get_tok sh false nl (g ++ 10 :: s) = .ok (.newline, r)) ∧
      (∀ b, (skipWs b (g ++ 10 :: s)).1 = true ∧ (skipWs b (g ++ 10 :: s)).2 = r ∨
        (skipWs b (g ++ 10 :: s)).1 = b ∧ get_tok sh false false (skipWs b (g ++ 10 :: s)).2 = .ok (.newline, r)) := by
  induction hg with
  | nil =>
    obtain ⟨w, h1, h2, h3⟩ := skipWs_split s true
    have ht := skipWs_fst_mono s (b := true) rfl
    refine ⟨w, _, h1, h2, h3, ?_, ?_⟩
    · intro nl
      rw [List.nil_append, get_tok_ws' sh false nl (by omega)]
      simp [ht]
    · intro b
      rw [List.nil_append, skipWs, if_pos (by omega)]
      simp [ht]
  | @space c g hc h10 _ ih =>
    have hle := space_le hc
    have e : (c == 10) = false := by simp [h10]
    obtain ⟨w, r, h1, h2, h3, h4, h5⟩ := ih
    refine ⟨w, r, h1, h2, h3, ?_, ?_⟩
    · intro nl
      rw [List.cons_append, get_tok_ws' sh false nl hle, e]
      rcases h5 false with ⟨ha, hb⟩ | ⟨ha, hb⟩
      · simp [ha, hb]
      · simp [ha, hb]
    · intro b
      rw [List.cons_append, skipWs, if_pos hle, e, Bool.or_false]
      exact h5 b
  | @block body g hb _ ih =>
    obtain ⟨w, r, h1, h2, h3, h4, h5⟩ := ih
    have e : (47 :: 42 :: body ++ 42 :: 47 :: g) ++ 10 :: s = 47 :: 42 :: (body ++ 42 :: 47 :: (g ++ 10 :: s)) := by simp
    have key : ∀ nl, get_tok sh false nl (47 :: 42 :: (body ++ 42 :: 47 :: (g ++ 10 :: s))) = .ok (.newline, r) := by
      intro nl
      rw [get_tok_block sh false nl (skipBlock_ok hb), h4]
    rw [e]
    refine ⟨w, r, h1, h2, h3, key, fun b => .inr ?_⟩
    rw [skipWs, if_neg (by omega)]
    exact ⟨rfl, key false⟩

/-- **C21, the end of a directive.** When the rest of the line is blank or a comment, the next token is a newline; all white space up to the next
printing character is consumed with it. -/
theorem C21_newline (sh nl : Bool) {g : List Nat} (hg : HGap g) (s : List Nat) :
    ∃ w r, s = w ++ r ∧ (∀ c ∈ w, c ≤ 32) ∧ (∀ c t, r = c :: t → 32 < c) ∧
      get_tok sh false nl (g ++ 10 :: s) = .ok (.newline, r) ∧
      ∀ body, 10 ∉ body → get_tok sh false nl (g ++ (47 :: 47 :: (body ++ 10 :: s))) = .ok (.newline, r) := by
  obtain ⟨w, r, h1, h2, h3, h4, h5⟩ := hgap_newline sh hg s
  refine ⟨w, r, h1, h2, h3, h4 nl, fun body hb => ?_⟩
  obtain ⟨nl', e1, _⟩ := (hgap_ok sh hg (s := 47 :: 47 :: (body ++ 10 :: s)) (by intro c t e; cases e; omega)).1 nl
  rw [e1, get_tok_line, skipLine_ok hb]
  obtain ⟨w', r', g1, g2, g3, g4, _⟩ := hgap_newline sh .nil s
  have hr : r = r' := by
    obtain ⟨_, _, g3', g4', g5', g6', _⟩ := hgap_newline sh hg s
    have : ∀ {w w' r r' : List Nat}, w ++ r = w' ++ r' → (∀ c ∈ w, c ≤ 32) → (∀ c ∈ w', c ≤ 32) → Solid r → Solid r' → r = r' := by
      intro w
      induction w with
      | nil =>
        intro w' r r' e _ hw' hr _
        cases w' with
        | nil => simpa using e
        | cons a w' => have := hr a _ e; have := hw' a (by simp); omega
      | cons a w ih =>
        intro w' r r' e hw hw' hr hr'
        cases w' with
        | nil => have := hr' a _ e.symm; have := hw a (by simp); omega
        | cons a' w' =>
          simp only [List.cons_append, List.cons.injEq] at e
          exact ih e.2 (fun c h => hw c (by simp [h])) (fun c h => hw' c (by simp [h])) hr hr'
    exact this (h1.symm.trans g1) h2 g2 h3 g3
  rw [hr]
  exact g4 false

/-- **C21, directives.** A `#` that is the first printing character of its line, white space before it, starts a directive. -/
theorem C21_directive (sh : Bool) {ws : List Nat} (hw : ∀ c ∈ ws, Space c) (h10 : 10 ∈ ws) (nl : Bool) (s : List Nat) :
    get_tok sh true nl (ws ++ 35 :: s) = .ok (.directive, 35 :: s) := by
  have hs : Solid (35 :: s) := by intro c r e; cases e; omega
  have key : ∀ (ws : List Nat), (∀ c ∈ ws, Space c) → ∀ b, skipWs b (ws ++ 35 :: s) = (b || ws.contains 10, 35 :: s) := by
    intro ws
    induction ws with
    | nil => intro _ b; rw [List.nil_append, skipWs_solid hs]; simp
    | cons c ws ih =>
      intro hw b
      rw [List.cons_append, skipWs, if_pos (space_le (hw c (by simp))), ih (fun d hd => hw d (by simp [hd]))]
      have : (10 == c) = (c == 10) := Bool.beq_comm
      rw [List.contains_cons, this, Bool.or_assoc]
  cases ws with
  | nil => simp at h10
  | cons c ws =>
    rw [List.cons_append, get_tok_ws sh nl (space_le (hw c (by simp))), key ws (fun d hd => hw d (by simp [hd]))]
    have : ((c == 10) || ws.contains 10) = true := by
      rcases List.mem_cons.1 h10 with h | h
      · simp [← h]
      · simp [h]
    rw [this]
    rfl

/-- … also right behind the newline that ended another directive (`tok` is still that newline). The start of the file is a newline for `main` (`ch = '\n'`). -/
theorem C21_directive_first (sh skip : Bool) (s : List Nat) : get_tok sh skip true (35 :: s) = .ok (.directive, 35 :: s) := rfl

/-! ## Examples -/

/-- `int x/**/=0x1F<<=a[3];// z`. -/
example : tokens true [105,110,116,32,120,47,42,42,47,61,48,120,49,70,60,60,61,97,91,51,93,59,47,47,32,122] =
    .ok [.ident [105,110,116], .ident [120], .op (.ch 61), .int .hex (-31), .op .lShiftEq, .ident [97], .op (.ch 91), .int .int (-3),
      .op (.ch 93), .op (.ch 59)] := by decide +kernel

theorem pp_head {s : List Nat} (h : PP s) : s ≠ [] := by
  cases h with
  | ident h => obtain ⟨⟨c, t, rfl, _⟩, _⟩ := ident_all h; simp
  | number h => cases h <;> simp
  | char => simp
  | lchar => simp
  | string => simp
  | lstring => simp
  | punct h =>
    have : ∀ p ∈ punctuators, p.1 ≠ [] := by decide
    exact this _ h
  | digraph h => revert s; decide

/-- `/* c */ ab` is split by the specification. -/
example : Splits true ([47,42,32,99,32,42,47,32] ++ ([97,98] ++ [])) [.ident [97,98]] := by
  refine .cons ?_ (.ident (.more (.one (c := 97) ?_) ?_)) ?_ ?_ (.done (.gap .nil))
  · exact Gap.block (body := [32,99,32]) (by decide) (.space (by simp [Space]) .nil)
  · simp [NonDigit]
  · simp [NonDigit]
  · intro k h1 h2; simp at h2; omega
  · constructor <;> decide

/-! ## Where pnut departs from C -/

/-- Line continuations: `a\⏎b` is the identifier `ab` in C, two identifiers for pnut (`SUPPORT_LINE_CONTINUATION` is off). -/
theorem C21_continuation_false : ¬ ∀ (inp : List Nat) (ts : List Tok), Splits true (splice inp) ts → NoHash ts → tokens true inp = .ok ts := by
  intro h
  have hs : Splits true (splice [97, 92, 10, 98]) [.ident [97, 98]] := by
    refine .cons (g := []) (lex := [97, 98]) (rest := []) .nil (.ident (.more (.one (c := 97) ?_) ?_)) ?_ ?_ (.done (.gap .nil))
    · simp [NonDigit]
    · simp [NonDigit]
    · intro k h1 h2; simp at h2; omega
    · constructor <;> decide
  have := h _ _ hs (by constructor <;> decide)
  exact absurd this (by decide +kernel)

/-- A comment before `#` hides a directive: C replaces it by a space, and then `#` is the first token of its line; pnut returns the operator `#`. -/
theorem C21_comment_directive_false : ¬ ∀ (g s : List Nat), Gap g → get_tok true true true (10 :: (g ++ 35 :: s)) = .ok (.directive, 35 :: s) := by
  intro h
  exact absurd (h ([47,42] ++ [] ++ [42,47]) [105,102] (.block (body := []) (by decide) .nil)) (by decide +kernel)

/-- Digraphs: `<:` is one preprocessing token of C, pnut reads `<`. -/
theorem C21_digraph_false : PP [60, 58] ∧ get_tok true true false [60, 58] = .ok (.op (.ch 60), [58]) :=
  ⟨.digraph (by decide), by decide +kernel⟩

/-- Wide characters: `L'a'` is one preprocessing token of C, pnut reads the identifier `L`. -/
theorem C21_wide_false : PP [76, 39, 97, 39] ∧ get_tok true true false [76, 39, 97, 39] = .ok (.ident [76], [39, 97, 39]) :=
  ⟨.lchar (s := [97]) (by simp) (.plain (by omega) (by omega) (by omega) .nil), by decide +kernel⟩

/-- Preprocessing numbers that are not integers of C are split instead of being refused: `1.5` is read as `1`, `.`, `5`; `08` as `0`, `8`; `1x` as `1`, `x`. -/
theorem C21_ppnumber_false : (PP [49, 46, 53] ∧ PP [48, 56] ∧ PP [49, 120]) ∧
    tokens true [49, 46, 53] = .ok [.int .int (-1), .op (.ch 46), .int .int (-5)] ∧
    tokens true [48, 56] = .ok [.int .int 0, .int .int (-8)] ∧
    tokens true [49, 120] = .ok [.int .int (-1), .ident [120]] := by
  have h1 : PPNumber [49] := .digit (by simp [Digit])
  refine ⟨⟨.number ?_, .number ?_, .number ?_⟩, by decide +kernel, by decide +kernel, by decide +kernel⟩
  · exact .more (s := [49, 46]) (.more h1 (.inr (.inr rfl))) (by simp [Digit])
  · exact .more (s := [48]) (.digit (by simp [Digit])) (by simp [Digit])
  · exact .more h1 (by simp [NonDigit])

/-- A quote between quotes is not a character constant of C, pnut accepts it. -/
theorem C21_quote_false : ¬ Chars 39 [39] ∧ tokens true [39, 39, 39] = .ok [.chr 39] := by
  refine ⟨?_, by decide +kernel⟩
  intro h
  cases h with
  | plain h => exact h rfl

/-- Two dots in a row, two punctuators of C, are an error for pnut. -/
theorem C21_two_dots_false : PP [46] ∧ ¬ PP [46, 46] ∧ tokens true [46, 46] = .fatal := by
  refine ⟨.punct (o := .ch 46) (by decide), ?_, by decide +kernel⟩
  intro h
  generalize hs : [46, 46] = s at h
  cases h with
  | ident h => obtain ⟨⟨c, t, rfl, hc⟩, _⟩ := ident_all h; cases hs; unfold NonDigit at hc; omega
  | number h =>
    have : ∀ s, PPNumber s → ∃ c ∈ s, Digit c := by
      intro s h
      induction h with
      | digit h => exact ⟨_, by simp, h⟩
      | dot h => exact ⟨_, by simp, h⟩
      | more _ _ ih => obtain ⟨c, h1, h2⟩ := ih; exact ⟨c, by simp [h1], h2⟩
      | sign _ _ _ ih => obtain ⟨c, h1, h2⟩ := ih; exact ⟨c, by simp [h1], h2⟩
    obtain ⟨c, h1, h2⟩ := this _ h
    subst hs
    simp at h1; subst h1; unfold Digit at h2; omega
  | char => simp at hs
  | lchar => simp at hs
  | string => simp at hs
  | lstring => simp at hs
  | punct h => subst hs; revert h; simp [punctuators]
  | digraph h => subst hs; revert h; decide

end Verif.Lex
