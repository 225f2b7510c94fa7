import Verif.Dump.Proofs2
import Verif.Lex.Lines
/-! The calls of `get_tok` in the preprocess-only mode: newlines are tokens. -/
namespace Verif.Dump
open Verif Verif.Lex Verif.Lex.Spec

theorem skipWs_gap {g s : List Nat} (hg : Gap g) (hs : Solid s) : ∀ b, ∃ f g', skipWs b (g ++ s) = (f, g' ++ s) ∧ Gap g' ∧ g'.length ≤ g.length := by
  induction hg with
  | nil => intro b; exact ⟨b, [], by rw [List.nil_append, skipWs_solid hs], .nil, Nat.le_refl _⟩
  | @space c g hc _ ih =>
    intro b
    obtain ⟨f, g', h1, h2, h3⟩ := ih (b || c == 10)
    exact ⟨f, g', by rw [List.cons_append, skipWs, if_pos (space_le hc), h1], h2, by simp; omega⟩
  | @block body g hb hg =>
    intro b
    exact ⟨b, _, skipWs_solid (by intro c r e; cases e; omega) b, .block hb hg, Nat.le_refl _⟩
  | @line body g hb hg =>
    intro b
    exact ⟨b, _, skipWs_solid (by intro c r e; cases e; omega) b, .line hb hg, Nat.le_refl _⟩

/-- A gap: a newline, then a shorter gap, or nothing. -/
theorem gap_newline (sh : Bool) {s : List Nat} (hs : Solid s) : ∀ (k : Nat) {g : List Nat}, g.length = k → Gap g → ∀ nl,
    (∃ g', Gap g' ∧ g'.length < g.length ∧ get_tok sh false nl (g ++ s) = .ok (.newline, g' ++ s)) ∨
    ∃ nl', get_tok sh false nl (g ++ s) = get_tok sh false nl' s := by
  intro k
  induction k using Nat.strongRecOn with
  | ind k ih =>
    intro g hk hg nl
    have step : ∀ {g1 : List Nat} nl1, g1.length < g.length → Gap g1 → get_tok sh false nl (g ++ s) = get_tok sh false nl1 (g1 ++ s) →
        (∃ g', Gap g' ∧ g'.length < g.length ∧ get_tok sh false nl (g ++ s) = .ok (.newline, g' ++ s)) ∨
        ∃ nl', get_tok sh false nl (g ++ s) = get_tok sh false nl' s := by
      intro g1 nl1 hl hg1 e
      rw [e]
      rcases ih g1.length (by omega) rfl hg1 nl1 with ⟨g', h1, h2, h3⟩ | h
      · exact .inl ⟨g', h1, by omega, h3⟩
      · exact .inr h
    cases hg with
    | nil => exact .inr ⟨nl, rfl⟩
    | @space c g hc hg =>
      obtain ⟨f, g', h1, h2, h3⟩ := skipWs_gap hg hs (c == 10)
      have e := get_tok_ws' sh false nl (r := g ++ s) (space_le hc)
      rw [h1] at e
      cases f with
      | true => exact .inl ⟨g', h2, by simp; omega, e⟩
      | false => exact step false (by simp; omega) h2 e
    | @block body g hb hg =>
      refine step (g1 := g) false (by simp; omega) hg ?_
      have e : (47 :: 42 :: body ++ 42 :: 47 :: g) ++ s = 47 :: 42 :: (body ++ 42 :: 47 :: (g ++ s)) := by simp
      rw [e, get_tok_block sh false nl (skipBlock_ok hb)]
    | @line body g hb hg =>
      refine step (g1 := 10 :: g) false (by simp; omega) (.space (by simp [Space]) hg) ?_
      have e : (47 :: 47 :: body ++ 10 :: g) ++ s = 47 :: 47 :: (body ++ 10 :: (g ++ s)) := by simp
      rw [e, get_tok_line, skipLine_ok hb]
      rfl

/-- The tokens without the newlines. -/
def solid (us : List Tok) : List Tok := us.filter (· ≠ .newline)

def Reads (sh : Bool) (s : List Nat) (ts : List Tok) : Prop := ∀ n nl, s.length < n → ∃ us, readF sh n false nl s = .ok us ∧ solid us = ts

theorem reads_gap {sh : Bool} {s : List Nat} (hs : Solid s) {ts : List Tok} (h : Reads sh s ts) : ∀ (k : Nat) {g : List Nat}, g.length = k → Gap g → Reads sh (g ++ s) ts := by
  intro k
  induction k using Nat.strongRecOn with
  | ind k ih =>
    intro g hk hg n nl hn
    cases n with
    | zero => omega
    | succ n =>
      rcases gap_newline sh hs k hk hg nl with ⟨g', h1, h2, h3⟩ | ⟨nl', h1⟩
      · simp only [List.length_append] at hn
        obtain ⟨us, e1, e2⟩ := ih g'.length (by omega) rfl h1 n true (by simp only [List.length_append]; omega)
        refine ⟨.newline :: us, ?_, e2⟩
        rw [readF, h3]
        show (readF sh n false true (g' ++ s)).bind _ = _
        rw [e1]
        rfl
      · obtain ⟨us, e1, e2⟩ := h (n + 1) nl' (by simp only [List.length_append] at hn; omega)
        refine ⟨us, ?_, e2⟩
        rw [← e1, readF, h1, readF]

theorem readF_token {sh : Bool} {lex rest : List Nat} {t : Tok} (ht : Token sh lex rest t) {inp : List Nat} {skip nl : Bool} (hg : get_tok sh skip nl inp = .ok (t, rest))
    (n : Nat) {us : List Tok} (hu : readF sh n false (t == .newline) rest = .ok us) : readF sh (n + 1) skip nl inp = .ok (t :: us) ∧ solid (t :: us) = t :: solid us := by
  constructor
  · rw [readF, hg]
    cases ht <;> (show (readF sh n false _ rest).bind _ = _; rw [hu]; rfl)
  · cases ht <;> simp [solid]

theorem reads_splits {sh : Bool} {inp : List Nat} {ts : List Tok} (hc : Splits sh inp ts) (hh : NoHash ts) :
    Reads sh inp ts ∧ ∀ n nl, inp.length < n → ∃ us, readF sh n true nl inp = .ok us ∧ solid us = ts := by
  induction hc with
  | @done g hg =>
    constructor
    · cases hg with
      | gap h =>
        have : Reads sh [] [] := by
          intro n nl hn
          cases n with
          | zero => simp at hn
          | succ n => exact ⟨[], rfl, rfl⟩
        have := reads_gap (s := []) (by intro c r e; cases e) this _ rfl h
        rwa [List.append_nil] at this
      | line h hb =>
        refine reads_gap (s := 47 :: 47 :: _) (by intro c r e; cases e; omega) ?_ _ rfl h
        intro n nl hn
        cases n with
        | zero => omega
        | succ n => exact ⟨[], by rw [readF, get_tok_line, skipLine_end hb]; rfl, rfl⟩
    · intro n nl hn
      cases n with
      | zero => omega
      | succ n => exact ⟨[], by rw [readF, gapEnd_ok sh nl hg]; rfl, rfl⟩
  | @cons g lex rest t ts hg ht hl hnc _ ih =>
    obtain ⟨ih, -⟩ := ih ⟨fun h => hh.1 (by simp [h]), fun h => hh.2 (by simp [h])⟩
    have hne : lex.head? = some 35 → False := by
      intro h
      rcases token_hash ht h with rfl | rfl
      · exact hh.1 (by simp)
      · exact hh.2 (by simp)
    have hlen : 0 < lex.length := List.length_pos_iff.2 (token_ne ht).2.2
    have hs := (token_ok ht hl hnc true false fun h => (hne h).elim).2
    constructor
    · refine reads_gap hs ?_ _ rfl hg
      intro n nl hn
      cases n with
      | zero => omega
      | succ n =>
        obtain ⟨us, e1, e2⟩ := ih n (t == .newline) (by simp only [List.length_append] at hn; omega)
        obtain ⟨a, b⟩ := readF_token ht (token_ok ht hl hnc false nl fun h => (hne h).elim).1 n e1
        exact ⟨_, a, by rw [b, e2]⟩
    · intro n nl hn
      cases n with
      | zero => omega
      | succ n =>
        obtain ⟨us, e1, e2⟩ := ih n (t == .newline) (by simp only [List.length_append] at hn; omega)
        obtain ⟨a, b⟩ := readF_token ht (C21_next_partial hg ht hl hnc nl fun h => (hne h).elim) n e1
        exact ⟨_, a, by rw [b, e2]⟩

end Verif.Dump
