import Verif.Cont.Model
import Verif.Cont.Spec
import Verif.Dump.Proofs2
/-! # C54: a backslash at the end of a line joins it with the next one -/
namespace Verif.Cont
open Verif Verif.Lex.Spec
open Verif.Cont.Spec (joined)

/-- What a call of `get_ch` gives when no character is saved. -/
inductive Good (rest : List Nat) : Option Nat → S → Prop
  | eof {l c} : joined rest = [] → Good rest none ⟨none, [], l, c⟩
  | char {c r l k} : joined rest = c :: joined r → r.length < rest.length → Good rest (some c) ⟨none, r, l, k⟩
  | last {l k} : joined rest = [92] → 0 < rest.length → Good rest (some 92) ⟨some none, [], l, k⟩
  | two {d r l k} : d ≠ 10 → joined rest = 92 :: d :: joined r → r.length + 1 < rest.length → Good rest (some 92) ⟨some (some d), r, l, k⟩

theorem Good.up {r R : List Nat} {c : Option Nat} {s : S} (h : Good r c s) (e : joined R = joined r) (hl : r.length ≤ R.length) : Good R c s := by
  cases h with
  | eof h => exact .eof (e.trans h)
  | char h h' => exact .char (e.trans h) (by omega)
  | last h h' => exact .last (e.trans h) (by omega)
  | two h h' h'' => exact .two h (e.trans h') (by omega)

/-- What is in front of the reader: a saved character, the rest of the file. -/
def pending (s : S) : List Nat :=
  match s.saved with
  | some (some d) => d :: s.rest
  | _ => s.rest

theorem loop_spec : ∀ (n : Nat) (s : S), s.saved = none → s.rest.length < n → ∃ c s', loop n s = .ok (c, s') ∧
    (∃ used, s.rest = used ++ pending s' ∧ s'.line = s.line + used.count 10 ∧ ∀ x, c = some x → used.getLast? = some x) ∧
    Good s.rest c s' := by
  intro n
  induction n with
  | zero => intro s _ h; omega
  | succ n ih =>
    intro s hs hn
    obtain ⟨saved, rest, line, col⟩ := s
    dsimp only at hs hn
    subst hs
    match rest, hn with
    | [], _ => exact ⟨_, _, rfl, ⟨[], rfl, rfl, by simp⟩, .eof rfl⟩
    | [c], _ =>
      by_cases h1 : c = 92
      · subst h1
        exact ⟨_, _, rfl, ⟨[92], rfl, rfl, by simp⟩, .last rfl (by simp)⟩
      · by_cases h2 : c = 10
        · subst h2
          exact ⟨_, _, rfl, ⟨[10], rfl, rfl, by simp⟩, .char rfl (by simp)⟩
        · refine ⟨some c, ⟨none, [], line, col + 1⟩, by simp [loop, get_ch_, h1, h2], ⟨[c], rfl, by simp [h2], by simp⟩, .char (by simp [joined]) (by simp)⟩
    | c :: d :: r, hn =>
      by_cases h1 : c = 92
      · subst h1
        by_cases h2 : d = 10
        · subst h2
          obtain ⟨c, s', e, ⟨used, u1, u2, u3⟩, h⟩ := ih ⟨none, r, line + 1, 0⟩ rfl (by simp at hn ⊢; omega)
          refine ⟨c, s', ?_, ⟨92 :: 10 :: used, ?_, ?_, ?_⟩, ?_⟩
          · rw [← e]; rfl
          · dsimp only at u1 ⊢; rw [u1]; rfl
          · dsimp only at u2 ⊢; rw [u2]; simp; omega
          · intro x hx
            have := u3 x hx
            cases used with
            | nil => cases this
            | cons a used => rw [List.getLast?_cons_cons, List.getLast?_cons_cons]; exact this
          · have : joined (92 :: 10 :: r) = joined r := by simp [joined]
            exact h.up this (by simp; omega)
        · refine ⟨some 92, ⟨some (some d), r, line, col + 2⟩, by simp [loop, get_ch_, h2], ⟨[92], rfl, by simp, by simp⟩, .two h2 (by simp [joined, h2]) (by simp)⟩
      · have hj : joined (c :: d :: r) = c :: joined (d :: r) := by
          rw [Verif.Cont.Spec.joined.eq_def]
          split
          · rename_i h; exact absurd (List.cons.inj h).1 h1
          · rename_i h; obtain ⟨rfl, rfl⟩ := List.cons.inj h; rfl
          · rename_i h; cases h
        by_cases h2 : c = 10
        · subst h2
          refine ⟨some 10, ⟨none, d :: r, line + 1, 0⟩, by simp [loop, get_ch_], ⟨[10], rfl, by simp, by simp⟩, .char hj (by simp)⟩
        · refine ⟨some c, ⟨none, d :: r, line, col + 1⟩, by simp [loop, get_ch_, h1, h2], ⟨[c], rfl, by simp [h2], by simp⟩, .char hj (by simp)⟩

/-- A call of `get_ch` in any state. -/
theorem stream_spec : ∀ (n : Nat) (s : S), (s.saved = none → s.rest.length + 1 < n → streamF n s = .ok (joined s.rest)) ∧
    (∀ d, s.saved = some (some d) → s.rest.length + 2 < n → streamF n s = .ok (d :: joined s.rest)) ∧
    (s.saved = some none → 0 < n → streamF n s = .ok []) := by
  intro n
  induction n with
  | zero => intro s; exact ⟨fun _ h => by omega, fun _ _ h => by omega, fun _ h => by omega⟩
  | succ n ih =>
    intro s
    refine ⟨fun hs hn => ?_, fun d hs hn => ?_, fun hs hn => ?_⟩
    · obtain ⟨c, s', e, -, hg⟩ := loop_spec (s.rest.length + 1) s hs (by omega)
      rw [streamF, get_ch, hs, e, Res.bind_ok]
      cases hg with
      | eof h => rw [h]
      | @char c r l k h h' =>
        have := (ih ⟨none, r, l, k⟩).1 rfl (by dsimp only; omega)
        dsimp only at this ⊢
        rw [this, h]; rfl
      | @last l k h h' =>
        have := (ih ⟨some none, [], l, k⟩).2.2 rfl (by omega)
        dsimp only at this ⊢
        rw [this, h]; rfl
      | @two d r l k h h' h'' =>
        have := (ih ⟨some (some d), r, l, k⟩).2.1 d rfl (by dsimp only; omega)
        dsimp only at this ⊢
        rw [this, h']; rfl
    · rw [streamF, get_ch, hs, Res.bind_ok]
      have := (ih { s with saved := none }).1 rfl (by dsimp only; omega)
      dsimp only at this ⊢
      rw [this]; rfl
    · rw [streamF, get_ch, hs, Res.bind_ok]

/-- **C54, what is read from every file.** Backslashes are taken in pairs: a backslash that is not the second of a pair is deleted with the line end behind it; everything else is delivered, and the end of the file is reached. -/
theorem C54_exact (file : List Nat) : stream file = .ok (Spec.joined file) := (stream_spec _ (start file)).1 rfl (by simp [start])

theorem stream_joined (file : List Nat) : stream file = .ok (joined file) := (stream_spec _ (start file)).1 rfl (by simp [start])

theorem evenEnd_cons {p file : List Nat} (h : Spec.EvenEnd file) (hp : p.getLast? ≠ some 92) : Spec.EvenEnd (p ++ file) := by
  obtain ⟨pre, k, post, e, hl⟩ := h
  refine ⟨p ++ pre, k, post, by rw [e]; simp, ?_⟩
  rw [List.getLast?_append]
  cases hq : pre.getLast? with
  | none => simpa using hp
  | some x => rw [hq] at hl; simpa using hl

theorem evenEnd_two {file : List Nat} (h : Spec.EvenEnd file) : Spec.EvenEnd (92 :: 92 :: file) := by
  obtain ⟨pre, k, post, e, hl⟩ := h
  cases pre with
  | nil => exact ⟨[], k + 1, post, by rw [e, show 2 * (k + 1) + 2 = (2 * k + 2) + 1 + 1 by omega, List.replicate_succ, List.replicate_succ]; rfl, by simp⟩
  | cons a pre =>
    refine ⟨92 :: 92 :: a :: pre, k, post, by rw [e]; simp, ?_⟩
    rw [List.getLast?_cons_cons, List.getLast?_cons_cons]
    exact hl

theorem joined_splice : ∀ (n : Nat) (file : List Nat), file.length < n → ¬ Spec.EvenEnd file → joined file = splice file := by
  intro n
  induction n with
  | zero => intro f h; omega
  | succ n ih =>
    intro file hn he
    match file, hn, he with
    | [], _, _ => rfl
    | [c], _, _ =>
      by_cases hc : c = 92
      · subst hc; rfl
      · rw [Dump.splice_cons hc]; simp [joined, splice]
    | c :: d :: r, hn, he =>
      simp only [List.length_cons] at hn
      by_cases hc : c = 92
      · subst hc
        by_cases hd : d = 10
        · subst hd
          have hj : joined (92 :: 10 :: r) = joined r := by simp [joined]
          have hs : splice (92 :: 10 :: r) = splice r := by simp [splice]
          rw [hj, hs]
          exact ih r (by omega) fun h => he (evenEnd_cons (p := [92, 10]) h (by simp))
        · have hj : joined (92 :: d :: r) = 92 :: d :: joined r := by simp [joined, hd]
          rw [hj, Dump.splice_esc hd]
          by_cases h9 : d = 92
          · subst h9
            have hr : joined r = splice r := ih r (by omega) fun h => he (evenEnd_two h)
            rw [hr]
            cases r with
            | nil => rfl
            | cons x r =>
              rw [Dump.splice_esc]
              rintro rfl
              exact he ⟨[], 0, r, rfl, by simp⟩
          · rw [Dump.splice_cons h9, ih r (by omega) fun h => he (evenEnd_cons (p := [92, d]) h (by simpa using h9))]
      · have hj : joined (c :: d :: r) = c :: joined (d :: r) := by
          rw [Verif.Cont.Spec.joined.eq_def]
          split
          · rename_i h; exact absurd (List.cons.inj h).1 hc
          · rename_i h; obtain ⟨rfl, rfl⟩ := List.cons.inj h; rfl
          · rename_i h; cases h
        rw [hj, Dump.splice_cons hc, ih (d :: r) (by simp only [List.length_cons]; omega) fun h => he (evenEnd_cons (p := [c]) h (by simpa using hc))]

theorem splice_92 (r : List Nat) : (splice (92 :: r)).length ≤ 1 + (splice r).length := by
  cases r with
  | nil => simp [splice]
  | cons c r =>
    by_cases hc : c = 10
    · subst hc
      rw [Dump.splice_cons (c := 10) (by decide)]
      simp [splice]; omega
    · rw [Dump.splice_esc hc]; simp; omega

/-- With a line that ends in an even number of backslashes more is read than C reads; in any case not less. -/
theorem joined_longer : ∀ (n : Nat) (file : List Nat), file.length < n → (splice file).length ≤ (joined file).length ∧ (Spec.EvenEnd file → (splice file).length < (joined file).length) := by
  intro n
  induction n with
  | zero => intro f h; omega
  | succ n ih =>
    intro file hn
    match file, hn with
    | [], _ =>
      refine ⟨by simp [joined, splice], ?_⟩
      rintro ⟨pre, k, post, e, -⟩
      have := congrArg List.length e
      simp at this
    | [c], _ =>
      refine ⟨by by_cases hc : c = 92 <;> simp [joined, splice], ?_⟩
      rintro ⟨pre, k, post, e, -⟩
      have := congrArg List.length e
      simp at this
      omega
    | c :: d :: r, hn =>
      simp only [List.length_cons] at hn
      by_cases hc : c = 92
      · subst hc
        obtain ⟨i1, i2⟩ := ih r (by omega)
        by_cases hd : d = 10
        · subst hd
          have hj : joined (92 :: 10 :: r) = joined r := by simp [joined]
          have hs : splice (92 :: 10 :: r) = splice r := by simp [splice]
          rw [hj, hs]
          refine ⟨i1, ?_⟩
          rintro ⟨pre, k, post, e, hl⟩
          match pre, e, hl with
          | [], e, _ => simp [List.replicate_succ] at e
          | [a], e, hl => simp at e; simp [← e.1] at hl
          | a :: b :: pre, e, hl =>
            simp at e
            refine i2 ⟨pre, k, post, by simpa using e.2.2, ?_⟩
            cases pre with
            | nil => simp
            | cons x p => simpa using hl
        · have hj : joined (92 :: d :: r) = 92 :: d :: joined r := by simp [joined, hd]
          rw [hj, Dump.splice_esc hd]
          have hdr : (splice (d :: r)).length ≤ 1 + (splice r).length := by
            by_cases h9 : d = 92
            · rw [h9]; exact splice_92 r
            · rw [Dump.splice_cons h9]; simp; omega
          refine ⟨by simp; omega, ?_⟩
          rintro ⟨pre, k, post, e, hl⟩
          match pre, e, hl with
          | [], e, _ =>
            rw [show 2 * k + 2 = 2 * k + 1 + 1 by omega, List.replicate_succ, List.replicate_succ] at e
            simp at e
            cases k with
            | zero =>
              simp at e
              rw [e.1, e.2]
              have hs : splice (92 :: 10 :: post) = splice post := by simp [splice]
              rw [e.2, Dump.splice_cons (by decide)] at i1
              rw [hs]
              simp at i1 ⊢
              omega
            | succ k =>
              have := i2 ⟨[], k, post, by rw [e.2, show 2 * (k + 1) = 2 * k + 2 by omega]; rfl, by simp⟩
              simp
              omega
          | [a], e, hl => simp at e; simp [← e.1] at hl
          | a :: b :: pre, e, hl =>
            simp at e
            have := i2 ⟨pre, k, post, by simpa using e.2.2, by
              cases pre with
              | nil => simp
              | cons x p => simpa using hl⟩
            simp
            omega
      · obtain ⟨i1, i2⟩ := ih (d :: r) (by simp only [List.length_cons]; omega)
        have hj : joined (c :: d :: r) = c :: joined (d :: r) := by
          rw [Verif.Cont.Spec.joined.eq_def]
          split
          · rename_i h; exact absurd (List.cons.inj h).1 hc
          · rename_i h; obtain ⟨rfl, rfl⟩ := List.cons.inj h; rfl
          · rename_i h; cases h
        rw [hj, Dump.splice_cons hc]
        refine ⟨by simp; omega, ?_⟩
        rintro ⟨pre, k, post, e, hl⟩
        match pre, e, hl with
        | [], e, _ => simp [List.replicate_succ] at e; exact absurd e.1 hc
        | a :: pre, e, hl =>
          simp at e
          have := i2 ⟨pre, k, post, by simpa using e.2, by
            cases pre with
            | nil => simp
            | cons x p => simpa using hl⟩
          simp
          omega

/-- **C54, exactly when.** What the rest of the program sees is the joined file of C if and only if no line ends in an even number of backslashes. -/
theorem C54_iff (file : List Nat) : stream file = .ok (splice file) ↔ ¬ Spec.EvenEnd file := by
  constructor
  · intro h he
    have := (joined_longer _ file (Nat.lt_succ_self _)).2 he
    rw [stream_joined] at h
    injection h with h
    rw [h] at this
    omega
  · intro h
    rw [stream_joined, joined_splice _ file (Nat.lt_succ_self _) h]

/-- **C54 (partial).** The rest of the program sees the characters of the file with every backslash at the end of a line deleted together with the line end (phase 2 of C), unless a line ends in an even
number of backslashes (`C54_even_false`). -/
theorem C54_stream_partial (file : List Nat) (h : ¬ Spec.EvenEnd file) : stream file = .ok (splice file) := by
  rw [stream_joined, joined_splice _ file (Nat.lt_succ_self _) h]

/-- **C54, tokens (partial).** A file, with line continuations anywhere (inside names, numbers, strings, comments), which C splits into tokens, is split by pnut into the same tokens.  Missing: as for C21, and
lines that end in an even number of backslashes. -/
theorem C54_tokens_partial {sh : Bool} {file : List Nat} {ts : List Lex.Tok} (h : ¬ Spec.EvenEnd file) (hc : Splits sh (splice file) ts) (hh : Lex.NoHash ts) : tokens sh file = .ok ts := by
  rw [tokens, C54_stream_partial file h, Res.bind_ok]
  exact Lex.tokens_of_splits hc hh

/-- **C54, trees (partial).** The same for the tree of a block, as in C52. -/
theorem C54_text_to_tree_partial {sh : Bool} (t : Cli.Target) {file : List Nat} {ts : List Lex.Tok} (h : ¬ Spec.EvenEnd file) (hc : Splits sh (splice file) ts) (hz : Front.Spec.NulFree ts)
    (hb : (Front.room ts).1 < 490000) (hn : (Front.room ts).2 < 390000) :
    ∃ num : List Nat → Nat, (∀ a ∈ Front.Spec.names ts, ∀ b ∈ Front.Spec.names ts, num a = num b → a = b) ∧
      ∀ xs rest st, Front.Spec.Toks num ts (xs ++ rest) → PStmt.Spec.Body false xs st → front sh t (fun _ => []) file = .ok (some (st, rest)) := by
  obtain ⟨w, hw⟩ := Front.C52_fits t hc hz hb hn
  obtain ⟨num, h1, h2⟩ := Front.front_ok hc hz (more := fun _ => []) (by simp) hw
  refine ⟨num, fun a ha b hb e => by rw [← h1 a ha, ← h1 b hb, e], fun xs rest st hx hd => ?_⟩
  rw [front, C54_stream_partial file h, Res.bind_ok]
  exact h2 xs rest st hx hd

/-- A character that is saved is never a line end; after EOF was seen nothing is left. -/
structure Inv (file : List Nat) (s : S) (pre : List Nat) : Prop where
  split : file = pre ++ pending s
  line : s.line = Spec.lineAfter pre
  saved : s.saved ≠ some (some 10)
  eof : s.saved = some none → s.rest = []

theorem get_ch_inv {file : List Nat} {s : S} {pre : List Nat} (h : Inv file s pre) : ∃ c s' pre', get_ch s = .ok (c, s') ∧ Inv file s' pre' ∧ (c = none → pre' = file) ∧ ∀ x, c = some x → pre'.getLast? = some x := by
  unfold get_ch
  split
  · rename_i hs
    obtain ⟨c, s', e, ⟨used, u1, u2, u3⟩, hg⟩ := loop_spec (s.rest.length + 1) s hs (by omega)
    have hp : pending s = s.rest := by simp [pending, hs]
    have h1 : file = pre ++ used ++ pending s' := by rw [h.split, hp, u1, List.append_assoc]
    refine ⟨c, s', pre ++ used, e, ⟨h1, ?_, ?_, ?_⟩, ?_, ?_⟩
    · rw [u2, h.line, Spec.lineAfter, Spec.lineAfter, List.count_append]; omega
    · cases hg <;> simp; omega
    · cases hg <;> simp
    · rintro rfl
      cases hg
      simpa [pending] using h1.symm
    · intro x hx
      rw [List.getLast?_append, u3 x hx]; rfl
  · rename_i d hs
    cases d with
    | none =>
      have := h.eof hs
      have hp : pending s = [] := by simp [pending, hs, this]
      refine ⟨none, _, pre, rfl, ⟨?_, h.line, by simp, by simp⟩, fun _ => ?_, by simp⟩
      · rw [h.split, hp]; simp [pending, this]
      · rw [h.split, hp]; simp
    | some d =>
      have hd : d ≠ 10 := by rintro rfl; exact h.saved hs
      have hp : pending s = d :: s.rest := by simp [pending, hs]
      refine ⟨some d, _, pre ++ [d], rfl, ⟨?_, ?_, by simp, by simp⟩, by simp, by simp⟩
      · rw [h.split, hp]; simp [pending]
      · rw [h.line, Spec.lineAfter, Spec.lineAfter, List.count_append]; simp [hd]

theorem calls_inv (file : List Nat) : ∀ n, ∃ c s pre, calls n (start file) = .ok (c, s) ∧ Inv file s pre ∧ (c = none → pre = file) ∧ (0 < n → ∀ x, c = some x → pre.getLast? = some x)
  | 0 => ⟨_, _, [], rfl, ⟨rfl, rfl, by simp [start], by simp [start]⟩, by simp, by simp⟩
  | n + 1 => by
    obtain ⟨c, s, pre, e, h, -⟩ := calls_inv file n
    obtain ⟨c', s', pre', e', h', h1, h2⟩ := get_ch_inv h
    exact ⟨c', s', pre', by rw [calls, e, Res.bind_ok]; exact e', h', h1, fun _ => h2⟩

/-- **C54, line numbers.** However many lines are joined: at every moment the character just delivered is the last one of a beginning `pre` of the file (all of it, at the end of the file), and `line_number` is the number of the
line behind it.  The reader never fails. -/
theorem C54_line_number (file : List Nat) (n : Nat) : ∃ c s pre post, calls (n + 1) (start file) = .ok (c, s) ∧ file = pre ++ post ∧ (∀ x, c = some x → pre.getLast? = some x) ∧ (c = none → post = []) ∧
    s.line = Spec.lineAfter pre := by
  obtain ⟨c, s, pre, e, h, h1, h2⟩ := calls_inv file (n + 1)
  refine ⟨c, s, pre, _, e, h.split, h2 (by omega), fun hc => ?_, h.line⟩
  have := h.split
  rw [h1 hc] at this
  exact List.self_eq_append_right.1 this

theorem joined_cons {c : Nat} (hc : c ≠ 92) (r : List Nat) : joined (c :: r) = c :: joined r := by
  rw [Verif.Cont.Spec.joined.eq_def]
  split
  · rename_i h; exact absurd (List.cons.inj h).1 hc
  · rename_i h; obtain ⟨rfl, rfl⟩ := List.cons.inj h; rfl
  · rename_i h; cases h

theorem joined_append {pre : List Nat} (h : 92 ∉ pre) (r : List Nat) : joined (pre ++ r) = pre ++ joined r := by
  induction pre with
  | nil => rfl
  | cons c p ih =>
    simp only [List.mem_cons, not_or] at h
    rw [List.cons_append, joined_cons (Ne.symm h.1), ih h.2, List.cons_append]

theorem splice_append {pre : List Nat} (h : 92 ∉ pre) (r : List Nat) : splice (pre ++ r) = pre ++ splice r := by
  induction pre with
  | nil => rfl
  | cons c p ih =>
    simp only [List.mem_cons, not_or] at h
    rw [List.cons_append, Dump.splice_cons (Ne.symm h.1), ih h.2, List.cons_append]

theorem joined_even (k : Nat) (r : List Nat) : joined (List.replicate (2 * k + 2) 92 ++ r) = List.replicate (2 * k + 2) 92 ++ joined r := by
  induction k with
  | zero => simp [List.replicate_succ, joined]
  | succ k ih =>
    rw [show 2 * (k + 1) + 2 = (2 * k + 2) + 1 + 1 by omega, List.replicate_succ, List.replicate_succ]
    simp only [List.cons_append]
    rw [← ih, Verif.Cont.Spec.joined.eq_def]
    rfl

theorem splice_even (k : Nat) (r : List Nat) : splice (List.replicate (2 * k + 2) 92 ++ 10 :: r) = List.replicate (2 * k + 1) 92 ++ splice r := by
  have : ∀ m, splice (List.replicate (m + 1) 92 ++ 10 :: r) = List.replicate m 92 ++ splice r := by
    intro m
    induction m with
    | zero => simp [List.replicate_succ, splice]
    | succ m ih =>
      rw [List.replicate_succ, List.replicate_succ, List.cons_append, List.cons_append, Dump.splice_esc (by decide), List.cons_append, ← ih, List.replicate_succ]
      rfl
  exact this _

theorem evenEnd_infix {file : List Nat} (h : Spec.EvenEnd file) : [92, 92] <:+: file := by
  obtain ⟨pre, k, post, rfl, -⟩ := h
  refine ⟨pre, List.replicate (2 * k) 92 ++ 10 :: post, ?_⟩
  rw [show 2 * k + 2 = 2 + 2 * k by omega, List.replicate_add]
  simp [List.replicate_succ]

/-- **C54, an even number of backslashes: false.** C deletes the last backslash and the line end; pnut keeps both, whatever stands before and after. -/
theorem C54_even_false (pre post : List Nat) (h : 92 ∉ pre) (k : Nat) :
    (∃ r, stream (pre ++ List.replicate (2 * k + 2) 92 ++ 10 :: post) = .ok (pre ++ List.replicate (2 * k + 2) 92 ++ 10 :: r)) ∧
    splice (pre ++ List.replicate (2 * k + 2) 92 ++ 10 :: post) = pre ++ List.replicate (2 * k + 1) 92 ++ splice post := by
  constructor
  · refine ⟨joined post, ?_⟩
    rw [stream_joined, List.append_assoc, joined_append h, joined_even, joined_cons (by decide), List.append_assoc]
  · rw [List.append_assoc, splice_append h, splice_even, List.append_assoc]

/-- `a\⏎b\n` : a name over two lines, and a backslash that stays. -/
example : ¬ Spec.EvenEnd [97, 92, 10, 98, 92, 110] ∧ stream [97, 92, 10, 98, 92, 110] = .ok [97, 98, 92, 110] :=
  ⟨fun h => absurd (evenEnd_infix h) (by decide), by decide +kernel⟩

/-- The text of C52 with a line end inside the comment, inside a keyword, inside `+=` and after a name. -/
def exFile : List Nat := Front.Spec.str "/* c *\\\n/ { i\\\nf ( x1 ) while ( y ) x1 +\\\n= y\\\n\\\n ; else { goto if_ ; } } z "

/-- The hypotheses of `C54_tokens_partial` and `C54_text_to_tree_partial` are met by it. -/
example (t : Cli.Target) : ∃ num : List Nat → Nat, (∀ a ∈ Front.Spec.names Front.exToks, ∀ b ∈ Front.Spec.names Front.exToks, num a = num b → a = b) ∧
    tokens true exFile = .ok Front.exToks ∧ front true t (fun _ => []) exFile = .ok (some (Front.exTree num, [.e (.ident (num (Front.Spec.str "z")))])) := by
  have he : ¬ Spec.EvenEnd exFile := fun h => absurd (evenEnd_infix h) (by decide +kernel)
  have hs : splice exFile = Front.exText := by decide +kernel
  obtain ⟨num, h1, h2⟩ := C54_text_to_tree_partial t he (hs.symm ▸ Front.ex_splits) (by intro s h; simp [Front.exToks] at h) (by decide +kernel) (by decide +kernel)
  exact ⟨num, h1, C54_tokens_partial he (hs.symm ▸ Front.ex_splits) (by constructor <;> decide), h2 _ _ _ (Front.ex_toks num) (Front.ex_body _ _ _)⟩

end Verif.Cont
