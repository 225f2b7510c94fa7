import Verif.Inc.Stream
import Verif.Lex.Lines
/-! # C20: an included file takes the place of the directive -/
namespace Verif.Inc
open Verif Verif.Lex

/-- **C20, the file that is opened.** `#include "name"` is looked up in the directory of the including file: its path up to the last slash. -/
theorem C20_directory (p : Path) : Spec.IsDir (file_parent_directory p) p := parent_isDir p

/-- **C20, the text.** Whatever program reads the characters (the lexer does), including files as it goes and looking at the current file name and line number: from the
moment that the first file has been opened it sees what it would see in one text, in which the text of each included file stands, followed by a newline, at the place
where it was included, and in which each character has the name and line number of its own file. A file that cannot be opened is a fatal error. -/
theorem C20_stream {α : Type} (fs : FS) (dir : Path → Path) (hd : ∀ p, Spec.IsDir (dir p) p) (p : Prog α) (name : Path) (line col : Nat) (fp : Path) :
    (include_file fs name none ⟨[], fp, line, col⟩).bind (run fs p) =
      match fs name with
      | none => .fatal
      | some content => Spec.run fs dir p ⟨Spec.annot name 1 content, name, 1⟩ := by
  rw [include_file.eq_def]
  dsimp only [source_path]
  cases fs name with
  | none => rfl
  | some content =>
    rw [Res.bind_ok]
    refine run_sim hd p _ _ ⟨by simp, rfl, rfl, fun f r h => by cases h; rfl, rfl, ?_⟩
    intro f hf
    rcases List.mem_singleton.1 hf with rfl
    exact isDir_unique (parent_isDir _) (hd _)

/-- A gap, then a line that starts with `#`. -/
theorem gap_directive (sh : Bool) {g ws : List Nat} (hg : Lex.Spec.Gap g) (hw : ∀ c ∈ ws, Lex.Spec.Space c) (s : List Nat) :
    (∀ nl, get_tok sh true nl (g ++ 10 :: (ws ++ 35 :: s)) = .ok (.directive, 35 :: s)) ∧
    ∀ b, get_tok sh true (skipWs b (g ++ 10 :: (ws ++ 35 :: s))).1 (skipWs b (g ++ 10 :: (ws ++ 35 :: s))).2 = .ok (.directive, 35 :: s) := by
  induction hg with
  | nil =>
    have h1 : ∀ nl, get_tok sh true nl (10 :: (ws ++ 35 :: s)) = .ok (.directive, 35 :: s) := fun nl =>
      C21_directive sh (ws := 10 :: ws) (by intro c hc; rcases List.mem_cons.1 hc with rfl | hc; · simp [Lex.Spec.Space]
                                            · exact hw c hc) (by simp) nl s
    refine ⟨h1, fun b => ?_⟩
    have h2 := h1 false
    rw [get_tok_ws sh false (by omega)] at h2
    rw [List.nil_append, skipWs, if_pos (by omega)]
    have : ((10 : Nat) == 10) = true := rfl
    rw [this] at h2 ⊢
    rw [Bool.or_true]
    exact h2
  | @space c g hc _ ih =>
    have hle := space_le hc
    refine ⟨fun nl => ?_, fun b => ?_⟩
    · rw [List.cons_append, get_tok_ws sh nl hle]; exact ih.2 _
    · rw [List.cons_append, skipWs, if_pos hle]; exact ih.2 _
  | @block body g hb _ ih =>
    have e : ∀ s, (47 :: 42 :: body ++ 42 :: 47 :: g) ++ s = 47 :: 42 :: (body ++ 42 :: 47 :: (g ++ s)) := by simp
    have key : ∀ nl, get_tok sh true nl ((47 :: 42 :: body ++ 42 :: 47 :: g) ++ 10 :: (ws ++ 35 :: s)) = .ok (.directive, 35 :: s) := by
      intro nl
      rw [e, get_tok_block sh true nl (skipBlock_ok hb)]
      exact ih.1 false
    refine ⟨key, fun b => ?_⟩
    have := key b
    rw [e] at this ⊢
    rw [skipWs, if_neg (by omega)]
    exact this
  | @line body g hb _ ih =>
    have e : ∀ s, (47 :: 47 :: body ++ 10 :: g) ++ s = 47 :: 47 :: (body ++ 10 :: (g ++ s)) := by simp
    have key : ∀ nl, get_tok sh true nl ((47 :: 47 :: body ++ 10 :: g) ++ 10 :: (ws ++ 35 :: s)) = .ok (.directive, 35 :: s) := by
      intro nl
      rw [e, get_tok_line, skipLine_ok hb, get_tok_ws sh false (by omega)]
      exact ih.2 _
    refine ⟨key, fun b => ?_⟩
    have := key b
    rw [e] at this ⊢
    rw [skipWs, if_neg (by omega)]
    exact this

theorem name_ok {rest : List Nat} : ∀ {name : List Nat}, 34 ∉ name → 92 ∉ name → ∀ n, name.length < n → Str.accumUntilF n 34 (name ++ 34 :: rest) = .ok (name, rest) := by
  intro name
  induction name with
  | nil => intro _ _ n hn; match n, hn with | n + 1, _ => simp [Str.accumUntilF]
  | cons c r ih =>
    intro h1 h2 n hn
    match n, hn with
    | n + 1, hn =>
      simp at h1 h2 hn
      rw [List.cons_append, Str.accumUntilF, if_neg (by omega)]
      rw [Str.getStringChar.eq_def]; dsimp only; rw [if_pos (by omega), Res.bind_ok]
      rw [ih h1.2 h2.2 n hn]
      rfl

theorem directive_name (fs : FS) (sh : Bool) {name : List Nat} (h1 : 34 ∉ name) (h2 : 92 ∉ name) (rest : List Nat) :
    directive fs sh (Spec.includeLine name ++ rest) =
      match fs name with
      | none => .fatal
      | some content => (get_tok sh false false (insert content rest)).bind fun (t, r) =>
        if t = .newline then .ok (true, r) else if t = .eof then .ok (false, r) else .fatal := by
  have e1 : get_tok sh false false (Spec.includeLine name ++ rest) = .ok (.op (.ch 35), includeId ++ 32 :: 34 :: (name ++ 34 :: rest)) := by
    rw [get_tok, get_tokF.eq_def]
    simp [Spec.includeLine, includeId, isAlpha, isDigit, operator, next]
  have e2 : get_tok sh false false (includeId ++ 32 :: 34 :: (name ++ 34 :: rest)) = .ok (.ident includeId, 32 :: 34 :: (name ++ 34 :: rest)) := by
    rw [get_tok, get_tokF.eq_def]
    simp [includeId, isAlpha, isDigit, get_ident]
  have e3 : get_tok sh false false (32 :: 34 :: (name ++ 34 :: rest)) = .ok (.str name, rest) := by
    rw [get_tok_ws' sh false false (by omega)]
    have : skipWs ((32 : Nat) == 10) (34 :: (name ++ 34 :: rest)) = (false, 34 :: (name ++ 34 :: rest)) := skipWs_solid (by intro c r e; cases e; omega) _
    rw [this]
    simp only [Bool.false_and, Bool.false_eq_true, if_false]
    rw [get_tok, get_tokF.eq_def]
    have hs : Str.scanString (name ++ 34 :: rest) = .ok (name, rest) := name_ok h1 h2 _ (by simp; omega)
    simp [isAlpha, isDigit, hs]
  rw [directive, e1, Res.bind_ok]
  dsimp only
  rw [e2, Res.bind_ok]
  dsimp only
  rw [if_pos rfl, e3, Res.bind_ok]
  dsimp only
  cases fs name <;> rfl

/-- The line is replaced by the text. -/
theorem include_step (fs : FS) (sh : Bool) {g ws name content : List Nat} (hg : Lex.Spec.Gap g) (hw : ∀ c ∈ ws, Lex.Spec.Space c) (h1 : 34 ∉ name) (h2 : 92 ∉ name)
    (hf : fs name = some content) (n : Nat) (nl nl' : Bool) (rest : List Nat) :
    get_tok_inc fs sh (n + 2) nl (g ++ 10 :: (ws ++ (Spec.includeLine name ++ 10 :: rest))) = get_tok_inc fs sh (n + 1) nl' (10 :: (content ++ 10 :: rest)) := by
  have e : Spec.includeLine name ++ 10 :: rest = 35 :: (includeId ++ 32 :: 34 :: (name ++ [34]) ++ 10 :: rest) := rfl
  have hd := (gap_directive sh hg hw (includeId ++ 32 :: 34 :: (name ++ [34]) ++ 10 :: rest)).1 nl
  rw [← e] at hd
  rw [get_tok_inc, hd, Res.bind_ok]
  dsimp only
  rw [if_pos rfl, directive_name fs sh h1 h2, hf]
  dsimp only [insert]
  have ht := skipWs_fst_mono (content ++ 10 :: rest) (b := ((10 : Nat) == 10)) rfl
  rw [get_tok_ws' sh false false (by omega), ht]
  simp only [Bool.not_false, Bool.and_self, if_true, Res.bind_ok]
  rw [get_tok_inc, get_tok_inc, get_tok_ws sh nl' (by omega), ht]

theorem get_tok_inc_mono (fs : FS) (sh : Bool) : ∀ (n : Nat) (nl : Bool) (inp : List Nat), get_tok_inc fs sh n nl inp ≠ .diverge →
    get_tok_inc fs sh (n + 1) nl inp = get_tok_inc fs sh n nl inp := by
  intro n
  induction n with
  | zero => intro nl inp h; exact absurd rfl h
  | succ n ih =>
    intro nl inp h
    rw [get_tok_inc.eq_def] at h ⊢
    conv => rhs; rw [get_tok_inc.eq_def]
    dsimp only at h ⊢
    cases hg : get_tok sh true nl inp with
    | ok p =>
      obtain ⟨t, r⟩ := p
      rw [hg] at h
      simp only [Res.bind_ok] at h ⊢
      split
      · rename_i ht
        rw [if_pos ht] at h
        cases hd : directive fs sh r with
        | ok q => rw [hd] at h; simp only [Res.bind_ok] at h ⊢; exact ih _ _ h
        | fatal => rfl
        | ub => rfl
        | diverge => rfl
      · rfl
    | fatal => rfl
    | ub => rfl
    | diverge => rfl

theorem tokens_incF_mono (fs : FS) (sh : Bool) : ∀ (n : Nat) (inp : List Nat), tokens_incF fs sh n inp ≠ .diverge →
    tokens_incF fs sh (n + 1) inp = tokens_incF fs sh n inp := by
  intro n
  induction n with
  | zero => intro inp h; exact absurd rfl h
  | succ n ih =>
    intro inp h
    rw [tokens_incF.eq_def] at h ⊢
    conv => rhs; rw [tokens_incF.eq_def]
    dsimp only at h ⊢
    have hm : get_tok_inc fs sh (n + 1) false inp = get_tok_inc fs sh n false inp :=
      get_tok_inc_mono fs sh n false inp (by intro e; rw [e] at h; exact h rfl)
    rw [hm]
    cases hg : get_tok_inc fs sh n false inp with
    | ok p =>
      obtain ⟨t, r⟩ := p
      rw [hg] at h
      simp only [Res.bind_ok] at h ⊢
      split
      · rfl
      · rename_i ht
        rw [if_neg ht] at h
        rw [ih r (by intro e; rw [e] at h; exact h rfl)]
    | fatal => rfl
    | ub => rfl
    | diverge => rfl

theorem tokens_incF_le (fs : FS) (sh : Bool) {n m : Nat} {inp : List Nat} {r : Res (List Tok)} (h : tokens_incF fs sh n inp = r) (hr : r ≠ .diverge) (hm : n ≤ m) :
    tokens_incF fs sh m inp = r := by
  induction m with
  | zero => have : n = 0 := by omega
            subst this; exact h
  | succ m ih =>
    by_cases e : n = m + 1
    · subst e; exact h
    · have := ih (by omega)
      rw [tokens_incF_mono fs sh m inp (by rw [this]; exact hr), this]

theorem get_tok_inc_plain (fs : FS) (sh : Bool) {n : Nat} {nl : Bool} {inp r : List Nat} {t : Tok} (h : get_tok sh true nl inp = .ok (t, r)) (ht : t ≠ .directive) :
    get_tok_inc fs sh (n + 1) nl inp = .ok (t, r) := by
  rw [get_tok_inc, h, Res.bind_ok]
  dsimp only
  rw [if_neg ht]

theorem reads_run {fs : FS} {sh : Bool} {inp : List Nat} {r : Res (List Tok)} (h : Spec.Reads fs sh inp r) : r ≠ .diverge ∧ ∃ n, tokens_incF fs sh n inp = r := by
  induction h with
  | done hg =>
    refine ⟨by simp, 2, ?_⟩
    rw [tokens_incF, get_tok_inc_plain fs sh (gapEnd_ok sh false hg) (by simp), Res.bind_ok]
    rfl
  | @token g lex rest t r hg ht hl hn hh _ ih =>
    obtain ⟨hr, n, hn'⟩ := ih
    obtain ⟨t1, t2, _⟩ := token_ne ht
    refine ⟨by cases r <;> simp_all [Res.bind], n + 2, ?_⟩
    have hk := C21_next_partial hg ht hl hn false (fun h => absurd h hh)
    rw [tokens_incF, get_tok_inc_plain fs sh hk t2, Res.bind_ok]
    dsimp only
    rw [if_neg t1, tokens_incF_le fs sh hn' hr (by omega : n ≤ n + 1)]
  | @«include» g ws name content rest r hg hw h1 h2 hf _ ih =>
    obtain ⟨hr, n, hn⟩ := ih
    refine ⟨hr, n + 3, ?_⟩
    have hn2 := tokens_incF_le fs sh hn hr (by omega : n ≤ n + 2)
    have hn3 := tokens_incF_le fs sh hn hr (by omega : n ≤ n + 3)
    rw [tokens_incF.eq_def] at hn2 hn3 ⊢
    dsimp only at hn2 hn3 ⊢
    rw [include_step fs sh hg hw h1 h2 hf n false false rest]
    rw [get_tok_inc_mono] at hn3
    · exact hn3
    · intro e; rw [e] at hn2; exact hr hn2.symm
  | @missing g ws name rest hg hw h1 h2 hf =>
    refine ⟨by simp, 2, ?_⟩
    have e : Spec.includeLine name ++ rest = 35 :: (includeId ++ 32 :: 34 :: (name ++ [34]) ++ rest) := rfl
    have hd := (gap_directive sh hg hw (includeId ++ 32 :: 34 :: (name ++ [34]) ++ rest)).1 false
    rw [← e] at hd
    rw [tokens_incF, get_tok_inc, hd, Res.bind_ok]
    dsimp only
    rw [if_pos rfl, directive_name fs sh h1 h2, hf]
    rfl

/-- **C20, the tokens.** A file whose lines are `#include "name"` and tokens of the supported kinds (C21) is read as the tokens of the text in which each such line is replaced
by the text of the file, to any depth of nesting; an include of a file that does not exist is a fatal error. Other directives and `<name>` are not covered, and all files are in one
directory (for directories see `C20_stream`). -/
theorem C20_tokens_partial {fs : FS} {sh : Bool} {src : List Nat} {r : Res (List Tok)} (h : Spec.Reads fs sh (10 :: src) r) : Tokens fs sh src r := by
  obtain ⟨hr, n, hn⟩ := reads_run h
  exact ⟨n, fun m hm => tokens_incF_le fs sh hn hr hm⟩

/-! ## A concrete case -/

/-- `f` holds `x` without a newline; nothing else exists. -/
def fsF : FS := fun p => if p = [102] then some [120] else if p = [103] then some [35,105,110,99,108,117,100,101,32,34,102,34,10,121] else none

/-- `a⏎ #include "g"⏎b`, where `g` is `#include "f"⏎y`, is `a x y b`. -/
def exSrc : List Nat := [97] ++ 10 :: ([32] ++ (Spec.includeLine [103] ++ 10 :: [98]))

theorem tok1 (sh : Bool) (c : Nat) (h : Lex.Spec.NonDigit c) (rest : List Nat) (hr : ∀ d t, rest = d :: t → d = 10) :
    Lex.Spec.Token sh [c] rest (.ident [c]) ∧ Lex.Spec.Longest [c] rest ∧ Lex.Spec.NoComment ([c] ++ rest) ∧ [c].head? ≠ some 35 := by
  unfold Lex.Spec.NonDigit at h
  refine ⟨.ident (.one h), ?_, ?_, by simp; omega⟩
  · intro k hk hk2 hp
    cases rest with
    | nil => simp at hk2; omega
    | cons d t =>
      have := hr d t rfl
      subst this
      cases k with
      | zero => omega
      | succ k =>
        generalize ht : t.take k = u at hp
        have e : [c] ++ List.take (k + 1) (10 :: t) = c :: 10 :: u := by simp [ht]
        rw [e] at hp
        generalize hs : c :: 10 :: u = s at hp
        cases hp with
        | ident hi =>
          have := (ident_all hi).2 10 (by rw [← hs]; simp)
          unfold Lex.Spec.NonDigit Lex.Spec.Digit at this; omega
        | number hn =>
          have : ∀ {s}, Lex.Spec.PPNumber s → ∀ c t, s = c :: t → Lex.Spec.Digit c ∨ c = 46 := by
            intro s hs
            induction hs with
            | digit h => intro c t e; cases e; exact .inl h
            | dot h => intro c t e; cases e; exact .inr rfl
            | @more s c' hs _ ih =>
              intro c t e
              cases s with
              | nil => exact absurd rfl (pp_head (.number hs))
              | cons a s => cases e; exact ih _ _ rfl
            | @sign s e' c' hs _ _ ih =>
              intro c t e
              cases s with
              | nil => exact absurd rfl (pp_head (.number hs))
              | cons a s => cases e; exact ih _ _ rfl
          have := this hn c _ hs.symm
          unfold Lex.Spec.Digit at this; omega
        | char => have := (List.cons.inj hs).1; omega
        | lchar => have := (List.cons.inj (List.cons.inj hs).2).1; omega
        | string => have := (List.cons.inj hs).1; omega
        | lstring => have := (List.cons.inj (List.cons.inj hs).2).1; omega
        | punct hm =>
          have : ∀ p ∈ Lex.Spec.punctuators, 10 ∉ p.1 := by decide
          exact this _ hm (by rw [← hs]; simp)
        | digraph hm =>
          have : ∀ p ∈ Lex.Spec.digraphs, 10 ∉ p := by decide
          exact this _ hm (by rw [← hs]; simp)
  · constructor <;> (intro ⟨u, e⟩; simp at e; omega)

example (sh : Bool) : Spec.Reads fsF sh (10 :: exSrc) (.ok [.ident [97], .ident [120], .ident [121], .ident [98]]) := by
  have nd : ∀ c, 97 ≤ c → c ≤ 122 → Lex.Spec.NonDigit c := fun c h1 h2 => .inl ⟨h1, h2⟩
  have nl : Lex.Spec.Gap [10] := .space (by simp [Lex.Spec.Space]) .nil
  have rb : Spec.Reads fsF sh [10, 98] (.ok [.ident [98]]) := by
    obtain ⟨a, b, c, d⟩ := tok1 sh 98 (nd _ (by omega) (by omega)) [] (by simp)
    exact .token (r := .ok []) nl a b c d (.done (.gap .nil))
  have ry : Spec.Reads fsF sh [10, 121, 10, 98] (.ok [.ident [121], .ident [98]]) := by
    obtain ⟨a, b, c, d⟩ := tok1 sh 121 (nd _ (by omega) (by omega)) [10, 98] (by simp)
    exact .token (r := .ok _) nl a b c d rb
  have rx : Spec.Reads fsF sh (10 :: ([120] ++ 10 :: [121, 10, 98])) (.ok [.ident [120], .ident [121], .ident [98]]) := by
    obtain ⟨a, b, c, d⟩ := tok1 sh 120 (nd _ (by omega) (by omega)) [10, 121, 10, 98] (by simp)
    exact .token (r := .ok _) nl a b c d ry
  have rm := Spec.Reads.include (fs := fsF) (content := Spec.includeLine [102] ++ [10, 121]) (g := []) (ws := [32]) (name := [103]) (rest := [98]) .nil (by simp [Lex.Spec.Space]) (by simp) (by simp) (by decide) (.include (content := [120]) (g := []) (ws := []) (name := [102])
    (rest := [121, 10, 98]) .nil (by simp) (by simp) (by simp) (by decide) rx)
  obtain ⟨a, b, c, d⟩ := tok1 sh 97 (nd _ (by omega) (by omega)) (10 :: ([32] ++ (Spec.includeLine [103] ++ 10 :: [98]))) (by simp)
  exact .token (r := .ok _) nl a b c d rm

/-! ## Where pnut departs from C -/

/-- `#include "f"` on the last line, which has no newline, is ignored: `f` is `x`. -/
theorem C20_last_line_false (sh : Bool) : fsF [102] = some [120] ∧ Tokens fsF sh (Spec.includeLine [102]) (.ok []) := by
  refine ⟨rfl, 3, fun n hn => tokens_incF_le fsF sh (n := 3) ?_ (by simp) hn⟩
  cases sh <;> decide +kernel

/-- Behind the name there may be no white space and no comment: the text of the file is put behind the next character, not behind the line. `#include "f" ⏎`, where `f` is `x`, is an error. -/
theorem C20_blank_false (sh : Bool) : fsF [102] = some [120] ∧ Tokens fsF sh (Spec.includeLine [102] ++ [32, 10]) .fatal := by
  refine ⟨rfl, 3, fun n hn => tokens_incF_le fsF sh (n := 3) ?_ (by simp) hn⟩
  cases sh <;> decide +kernel

/-- A program that reads `n` characters and then goes on as `k`. -/
def skip {α : Type} : Nat → Prog α → Prog α
  | 0, k => k
  | n + 1, k => .get fun _ _ _ => skip n k

/-- The lexer has read one character past the directive before it opens the file. When `d/f` is `#include "g"` without a newline, that character is the newline behind the included file, which belongs to the
including file: `g` is looked up in the directory of the including file, not in `d`. -/
theorem C20_last_line_directory_false :
    let fs : FS := fun p => if p = [109] then some [10] else if p = [100, 47, 102] then some (Spec.includeLine [103]) else if p = [100, 47, 103] then some [] else none
    (include_file fs [109] none ⟨[], [], 0, 0⟩).bind (run fs (.inc .quote [100, 47, 102] (skip 12 (.inc .quote [103] (.ret ()))))) = .ok () ∧
    (include_file fs [109] none ⟨[], [], 0, 0⟩).bind (run fs (.inc .quote [100, 47, 102] (skip 13 (.inc .quote [103] (.ret ()))))) = .fatal := by decide +kernel

end Verif.Inc
