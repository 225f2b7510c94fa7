import Verif.ShPrintf.Spec
import Verif.ShIO.Proofs
/-! Proofs for the compile-time `printf`. -/
namespace Verif.ShPrintf
open Verif Verif.ShStr Verif.ShStr.Spec

/-! ### Reading specifications -/

theorem span_append {p : Nat → Bool} {a b : List Nat} (ha : ∀ x ∈ a, p x = true)
    (hb : ∀ c t, b = c :: t → p c = false) :
    (a ++ b).takeWhile p = a ∧ (a ++ b).dropWhile p = b := by
  induction a with
  | nil =>
    cases b with
    | nil => simp
    | cons c t => simp [List.takeWhile, List.dropWhile, hb c t rfl]
  | cons x a ih =>
    have := ih (fun y hy => ha y (List.mem_cons_of_mem _ hy))
    simp [List.takeWhile, List.dropWhile, ha x (by simp), this]

theorem takeWhile_all (p : Nat → Bool) (t : List Nat) : ∀ x ∈ t.takeWhile p, p x = true := by
  induction t with
  | nil => simp
  | cons c t ih =>
    intro x hx
    simp only [List.takeWhile] at hx
    split at hx
    · rcases List.mem_cons.mp hx with rfl | hx
      · assumption
      · exact ih x hx
    · cases hx

theorem dropWhile_head {p : Nat → Bool} {t r : List Nat} {c : Nat} (h : t.dropWhile p = c :: r) : p c = false := by
  induction t with
  | nil => simp at h
  | cons x t ih =>
    simp only [List.dropWhile] at h
    split at h
    · exact ih h
    · rename_i hp
      simp only [List.cons.injEq] at h
      rw [← h.1]; simpa using hp

/-- Text of a width or a precision. -/
def Num.text : Num → List Nat
  | .no => []
  | .lit ds => ds
  | .star => [42]

/-- Text of a specification. -/
def Spec.text (s : Spec) : List Nat :=
  s.flags ++ s.width.text ++ (if s.dot then 46 :: s.prec.text else []) ++ List.replicate s.longs 108 ++ [s.ch]

/-- Digits, as read. -/
def Num.ok : Num → Prop
  | .lit ds => ds ≠ [] ∧ ∀ x ∈ ds, isDigit x = true
  | _ => True

/-- The conversions that have a meaning. -/
def convCh (c : Nat) : Prop := intCh c = true ∨ c = 99 ∨ c = 115

theorem convCh_facts {c : Nat} (h : convCh c) : isFlagChar c = false ∧ isDigit c = false ∧ c ≠ 42 ∧ c ≠ 46 ∧ c ≠ 108 ∧ c ≠ 37 := by
  have : c = 100 ∨ c = 105 ∨ c = 111 ∨ c = 117 ∨ c = 120 ∨ c = 88 ∨ c = 99 ∨ c = 115 := by
    rcases h with h | h | h
    · simp [intCh] at h; omega
    · omega
    · omega
  rcases this with rfl | rfl | rfl | rfl | rfl | rfl | rfl | rfl <;> decide

structure Spec.Ok (s : Spec) : Prop where
  fl : ∀ x ∈ s.flags, isFlagChar x = true
  w : s.width.ok
  w0 : ∀ ds c t, s.width = .lit ds → ds = c :: t → isFlagChar c = false
  p : s.prec.ok
  pd : s.dot = false → s.prec = .no

theorem parseNum_text {t : List Nat} {w r} (h : parseNum t = (w, r)) : t = w.text ++ r ∧ w.ok := by
  unfold parseNum at h
  split at h
  · simp only [Prod.mk.injEq] at h
    obtain ⟨rfl, rfl⟩ := h
    exact ⟨rfl, trivial⟩
  · split at h
    · simp only [Prod.mk.injEq] at h
      obtain ⟨rfl, rfl⟩ := h
      exact ⟨rfl, trivial⟩
    · rename_i hne
      simp only [Prod.mk.injEq] at h
      obtain ⟨rfl, rfl⟩ := h
      exact ⟨by simp [Num.text], hne, takeWhile_all _ _⟩

theorem parseNum_append {w : Num} (hw : w.ok) {r : List Nat}
    (hr : ∀ c t, r = c :: t → isDigit c = false ∧ c ≠ 42) : parseNum (w.text ++ r) = (w, r) := by
  cases w with
  | star => rfl
  | no =>
    simp only [Num.text, List.nil_append]
    cases r with
    | nil => rfl
    | cons c t =>
      obtain ⟨h1, h2⟩ := hr c t rfl
      unfold parseNum
      split
      · rename_i h; simp at h; exact absurd h.1 h2
      · simp [List.takeWhile, h1]
  | lit ds =>
    obtain ⟨h1, h2⟩ := hw
    have := span_append (b := r) h2 (fun c t h => (hr c t h).1)
    simp only [Num.text]
    unfold parseNum
    split
    · rename_i t' h
      exfalso
      cases ds with
      | nil => exact h1 rfl
      | cons d ds =>
        simp only [List.cons_append, List.cons.injEq] at h
        have := h2 d (by simp)
        rw [h.1] at this
        simp [isDigit] at this
    · rw [this.1, this.2, if_neg h1]

theorem parseSpec_text {t : List Nat} {sp r} (h : parseSpec t = some (sp, r)) : t = sp.text ++ r ∧ sp.Ok := by
  unfold parseSpec at h
  obtain ⟨w, t1, hw⟩ : ∃ w t1, parseNum (t.dropWhile isFlagChar) = (w, t1) := ⟨_, _, rfl⟩
  obtain ⟨w1, w2⟩ := parseNum_text hw
  simp only [hw] at h
  obtain ⟨dot, pr, t2, hp⟩ : ∃ dot pr t2, parsePrec t1 = (dot, pr, t2) := ⟨_, _, _, rfl⟩
  simp only [hp] at h
  have hpre : t1 = (if dot then 46 :: pr.text else []) ++ t2 ∧ pr.ok ∧ (dot = false → pr = .no) := by
    unfold parsePrec at hp
    split at hp
    · simp only [Prod.mk.injEq] at hp
      obtain ⟨rfl, hp⟩ := hp
      obtain ⟨h1, h2⟩ := parseNum_text hp
      exact ⟨by simp [← h1], h2, by simp⟩
    · simp only [Prod.mk.injEq] at hp
      obtain ⟨rfl, rfl, rfl⟩ := hp
      exact ⟨by simp, trivial, fun _ => rfl⟩
  split at h
  · cases h
  · rename_i c r' hd
    simp only [Option.some.injEq, Prod.mk.injEq] at h
    obtain ⟨rfl, rfl⟩ := h
    have hls : t2.takeWhile (fun x => decide (x = 108)) = List.replicate (t2.takeWhile (fun x => decide (x = 108))).length 108 := by
      refine List.eq_replicate_iff.mpr ⟨rfl, fun x hx => ?_⟩
      have := takeWhile_all _ _ x hx
      simpa using this
    refine ⟨?_, takeWhile_all _ _, w2, ?_, hpre.2.1, hpre.2.2⟩
    · simp only [Spec.text]
      rw [← hls, List.append_assoc, List.append_assoc, List.append_assoc, List.append_assoc]
      rw [show [c] ++ r' = c :: r' from rfl, ← hd, List.takeWhile_append_dropWhile, ← hpre.1, ← w1,
        List.takeWhile_append_dropWhile]
    · intro ds c t' hds hc
      simp only at hds
      subst hds hc
      simp only [Num.text, List.cons_append] at w1
      exact dropWhile_head w1

theorem parseSpec_append {sp : Spec} (ho : sp.Ok) (hc : convCh sp.ch) (r : List Nat) :
    parseSpec (sp.text ++ r) = some (sp, r) := by
  obtain ⟨f1, f2, f3, f4, f5, f6⟩ := convCh_facts hc
  obtain ⟨flags, width, dot, prec, longs, ch⟩ := sp
  obtain ⟨h1, h2, h3, h4, h5⟩ := ho
  simp only at *
  have hl : ∀ x ∈ List.replicate longs 108, (fun x => decide (x = 108)) x = true := by
    intro x hx; simp [List.eq_of_mem_replicate hx]
  have s4 := span_append (p := fun x => decide (x = 108)) (b := ch :: r) hl (by
    intro c t h; simp only [List.cons.injEq] at h; rw [← h.1]; simpa using f5)
  -- what starts after the flags
  have hd1 : ∀ c t, List.replicate longs 108 ++ ch :: r = c :: t → isFlagChar c = false ∧ isDigit c = false ∧ c ≠ 42 ∧ c ≠ 46 := by
    intro c t h
    cases longs with
    | zero => simp only [List.replicate, List.nil_append, List.cons.injEq] at h; rw [← h.1]; exact ⟨f1, f2, f3, f4⟩
    | succ n => simp only [List.replicate_succ, List.cons_append, List.cons.injEq] at h; rw [← h.1]; decide
  have hd2 : ∀ c t, (if dot then 46 :: prec.text else []) ++ (List.replicate longs 108 ++ ch :: r) = c :: t →
      isFlagChar c = false ∧ isDigit c = false ∧ c ≠ 42 := by
    intro c t h
    cases dot with
    | true => simp only [if_true, List.cons_append, List.cons.injEq] at h; rw [← h.1]; decide
    | false =>
      simp only [Bool.false_eq_true, if_false, List.nil_append] at h
      have := hd1 c t h
      exact ⟨this.1, this.2.1, this.2.2.1⟩
  have hd3 : ∀ c t, width.text ++ ((if dot then 46 :: prec.text else []) ++ (List.replicate longs 108 ++ ch :: r)) = c :: t →
      isFlagChar c = false := by
    intro c t h
    cases width with
    | no => simp only [Num.text, List.nil_append] at h; exact (hd2 c t h).1
    | star => simp only [Num.text, List.cons_append, List.cons.injEq] at h; rw [← h.1]; decide
    | lit ds =>
      cases ds with
      | nil => exact absurd rfl h2.1
      | cons d ds =>
        simp only [Num.text, List.cons_append, List.cons.injEq] at h
        rw [← h.1]; exact h3 _ d ds rfl rfl
  have s1 := span_append (p := isFlagChar) h1 hd3
  have s2 := parseNum_append h2 (fun c t h => (hd2 c t h).2)
  have s3 : parsePrec ((if dot then 46 :: prec.text else []) ++ (List.replicate longs 108 ++ ch :: r)) =
      (dot, prec, List.replicate longs 108 ++ ch :: r) := by
    cases dot with
    | true =>
      simp only [if_true, List.cons_append]
      unfold parsePrec
      simp only [parseNum_append h4 (fun c t h => ⟨(hd1 c t h).2.1, (hd1 c t h).2.2.1⟩)]
    | false =>
      rw [h5 rfl]
      simp only [Bool.false_eq_true, if_false, List.nil_append]
      unfold parsePrec
      split
      · rename_i t' h
        exact absurd rfl ((hd1 46 t' h).2.2.2)
      · rfl
  simp only [Spec.text, List.append_assoc, List.cons_append, List.nil_append]
  unfold parseSpec
  rw [s1.1, s1.2]
  simp only [s2, s3, s4.1, s4.2]
  simp

/-! ### The generated format in the shell -/

/-- Characters without meaning for the double quotes. -/
def tame (c : Nat) : Prop := 32 ≤ c ∧ c < 127 ∧ c ≠ 92 ∧ c ≠ 36 ∧ c ≠ 96 ∧ c ≠ 34

instance (c : Nat) : Decidable (tame c) := by unfold tame; infer_instance

theorem escape_tame {c : Nat} (h : tame c) : escapeChar false c = [c] := by
  obtain ⟨h1, h2, h3, h4, h5, h6⟩ := h
  unfold escapeChar
  simp only [h3, h4, h5, h6, if_false, show c ≠ 0 by omega, show c ≠ 7 by omega, show c ≠ 8 by omega, show c ≠ 9 by omega, show c ≠ 10 by omega, show c ≠ 11 by omega, show c ≠ 12 by omega, show c ≠ 13 by omega]
  simp

theorem dq_tame : ∀ (p : List Nat), (∀ c ∈ p, tame c) → ∀ rest,
    dquoted (escapeString false p ++ rest) = (dquoted rest).map fun q => (p ++ q.1, q.2) := by
  intro p
  induction p with
  | nil => intro _ rest; simp [escapeString]
  | cons c p ih =>
    intro h rest
    have hc := h c (by simp)
    simp only [escapeString, escape_tame hc, List.cons_append, List.nil_append]
    obtain ⟨h1, h2, h3, h4, h5, h6⟩ := hc
    rw [dquoted.eq_def]
    simp only
    rw [if_neg h6, if_neg (by omega), if_neg h3, ih (fun x hx => h x (List.mem_cons_of_mem _ hx))]
    cases dquoted rest <;> simp

theorem tame_flag {c : Nat} (h : isFlagChar c = true) : tame c ∧ c ≠ 37 := by
  simp [isFlagChar] at h
  rcases h with rfl | rfl | rfl | rfl | rfl <;> decide

theorem tame_digit {c : Nat} (h : isDigit c = true) : tame c ∧ c ≠ 37 := by
  simp [isDigit] at h
  unfold tame
  omega

theorem tame_conv {c : Nat} (h : convCh c) : tame c ∧ c ≠ 37 := by
  have : c = 100 ∨ c = 105 ∨ c = 111 ∨ c = 117 ∨ c = 120 ∨ c = 88 ∨ c = 99 ∨ c = 115 := by
    rcases h with h | h | h
    · simp [intCh] at h; omega
    · omega
    · omega
  rcases this with rfl | rfl | rfl | rfl | rfl | rfl | rfl | rfl <;> decide

theorem tame_num {w : Num} (h : w.ok) : ∀ c ∈ w.text, tame c ∧ c ≠ 37 := by
  cases w with
  | no => simp [Num.text]
  | star => intro c hc; simp [Num.text] at hc; subst hc; decide
  | lit ds => intro c hc; exact tame_digit (h.2 c hc)

theorem tame_text {sp : Spec} (ho : sp.Ok) (hc : convCh sp.ch) : ∀ c ∈ sp.text, tame c ∧ c ≠ 37 := by
  intro c h
  simp only [Spec.text, List.mem_append] at h
  rcases h with (((h | h) | h) | h) | h
  · exact tame_flag (ho.fl c h)
  · exact tame_num ho.w c h
  · split at h
    · rcases List.mem_cons.mp h with rfl | h
      · decide
      · exact tame_num ho.p c h
    · cases h
  · rw [List.eq_of_mem_replicate h]; decide
  · rw [List.mem_singleton.mp h]; exact tame_conv hc

theorem text_ne {sp : Spec} : sp.text ≠ [] := by simp [Spec.text]

/-- A format piece accumulated by the compiler, the words collected for it, and what C prints. -/
inductive Seg (L : Lay) : List Nat → List W → List Nat → Prop
  | nil : Seg L [] [] []
  | lit {c p w o} : c ≠ 37 → 1 ≤ c → c < 256 → Seg L p w o → Seg L (c :: p) w (c :: o)
  | pct {p w o} : Seg L p w o → Seg L (37 :: 37 :: p) w (37 :: o)
  | int {sp a p w o} {st : List Arg} : sp.Ok → intCh sp.ch = true → st.length = sp.stars → Seg L p w o →
      Seg L (37 :: (sp.text ++ p)) (st.map W.val ++ W.val a :: w) (L.int sp (st.map Arg.val) a.val ++ o)
  | str {sp a p w o} {st : List Arg} : sp.Ok → sp.ch = 115 → sp.longs = 0 → chomp a.str = a.str →
      st.length = sp.stars → Seg L p w o →
      Seg L (37 :: (sp.text ++ p)) (st.map W.val ++ W.sub a :: w) (L.str sp (st.map Arg.val) a.str ++ o)

theorem Seg.append {L p w o p' w' o'} (h : Seg L p w o) (h' : Seg L p' w' o') :
    Seg L (p ++ p') (w ++ w') (o ++ o') := by
  induction h with
  | nil => exact h'
  | lit h1 h2 h3 _ ih => exact .lit h1 h2 h3 ih
  | pct _ ih => exact .pct ih
  | @int _ a _ _ _ _ h1 h2 h3 _ ih =>
    have := Seg.int (L := L) (a := a) h1 h2 h3 ih
    simpa using this
  | str h1 h2 h3 h4 h5 _ ih =>
    have := Seg.str (L := L) h1 h2 h3 h4 h5 ih
    simpa using this

theorem dq_lit {c : Nat} (h37 : c ≠ 37) (h1 : 1 ≤ c) : ∃ f,
    (∀ rest, dquoted (escapeChar false c ++ rest) = (dquoted rest).map fun q => (f ++ q.1, q.2)) ∧ f.length ≤ 2 ∧
    f ≠ [] ∧
    (∀ (L : Lay) n g ws, shPass L (n + 1) (f ++ g) ws = (shPass L n g ws).map fun p => (c :: p.1, p.2)) ∧
    ((∃ e, f = [92, e]) ∨ f = [c]) := by
  have esc : ∀ e, escByte e = some c → (∀ rest, dquoted (escapeChar false c ++ rest) = (dquoted rest).map fun q => ([92, e] ++ q.1, q.2)) →
      ∃ f, (∀ rest, dquoted (escapeChar false c ++ rest) = (dquoted rest).map fun q => (f ++ q.1, q.2)) ∧ f.length ≤ 2 ∧ f ≠ [] ∧
        (∀ (L : Lay) n g ws, shPass L (n + 1) (f ++ g) ws = (shPass L n g ws).map fun p => (c :: p.1, p.2)) ∧
        ((∃ e, f = [92, e]) ∨ f = [c]) := by
    intro e he hd
    refine ⟨[92, e], hd, by simp, by simp, ?_, .inl ⟨e, rfl⟩⟩
    intro L n g ws
    simp [shPass, he]
  by_cases h7 : c = 7
  · subst h7; exact esc 97 rfl (by intro t; simp [escapeChar, dquoted])
  by_cases h8 : c = 8
  · subst h8; exact esc 98 rfl (by intro t; simp [escapeChar, dquoted])
  by_cases h12 : c = 12
  · subst h12; exact esc 102 rfl (by intro t; simp [escapeChar, dquoted])
  by_cases h10 : c = 10
  · subst h10; exact esc 110 rfl (by intro t; simp [escapeChar, dquoted])
  by_cases h13 : c = 13
  · subst h13; exact esc 114 rfl (by intro t; simp [escapeChar, dquoted])
  by_cases h9 : c = 9
  · subst h9; exact esc 116 rfl (by intro t; simp [escapeChar, dquoted])
  by_cases h11 : c = 11
  · subst h11; exact esc 118 rfl (by intro t; simp [escapeChar, dquoted])
  by_cases h92 : c = 92
  · subst h92; exact esc 92 rfl (by intro t; simp [escapeChar, dquoted]; cases dquoted t <;> simp)
  refine ⟨[c], ?_, by simp, by simp, ?_, .inr rfl⟩
  · intro rest
    by_cases h36 : c = 36
    · subst h36; simp [escapeChar, dquoted]
    by_cases h96 : c = 96
    · subst h96; simp [escapeChar, dquoted]
    by_cases h34 : c = 34
    · subst h34; simp [escapeChar, dquoted]
    have he : escapeChar false c = [c] := by
      simp [escapeChar, h7, h8, h12, h10, h13, h9, h11, h92, h36, h96, h34]; omega
    rw [he, List.cons_append, dquoted.eq_def]
    simp [h92, h36, h96, h34]
  · intro L n g ws
    rw [List.cons_append, List.nil_append, shPass.eq_def]
    simp only [h92, h37, if_false]

theorem escapeString_append (b : Bool) : ∀ p q : List Nat, escapeString b (p ++ q) = escapeString b p ++ escapeString b q
  | [], q => by simp [escapeString]
  | c :: p, q => by simp [escapeString, escapeString_append b p q]

theorem shPass_spec (L : Lay) {sp : Spec} (ho : sp.Ok) (hc : convCh sp.ch) (n : Nat) (f : List Nat) (ws : List Word) :
    shPass L (n + 1) (37 :: (sp.text ++ f)) ws =
      if intCh sp.ch then
        (shPass L n f (ws.drop (sp.stars + 1))).map fun p =>
          (L.int sp ((ws.take sp.stars).map Word.int) ((ws.drop sp.stars).headD (.text [])).int ++ p.1, p.2)
      else if sp.ch = 115 ∧ sp.longs = 0 then
        (shPass L n f (ws.drop (sp.stars + 1))).map fun p =>
          (L.str sp ((ws.take sp.stars).map Word.int) ((ws.drop sp.stars).headD (.text [])).bytes ++ p.1, p.2)
      else none := by
  rw [shPass.eq_def]
  simp only
  rw [if_neg (by decide), if_pos trivial]
  split
  · rename_i t' heq
    exfalso
    obtain ⟨x, xs, hx⟩ := List.exists_cons_of_ne_nil (text_ne (sp := sp))
    have := (tame_text ho hc x (by rw [hx]; simp)).2
    rw [hx] at heq
    simp only [List.cons_append, List.cons.injEq] at heq
    exact this heq.1
  · rw [parseSpec_append ho hc]

theorem words_take {st : List Arg} {k : Nat} (h : st.length = k) (x : W) (w : List W) :
    (((st.map W.val ++ x :: w).map W.word).take k).map Word.int = st.map Arg.val ∧
    ((st.map W.val ++ x :: w).map W.word).drop k = x.word :: w.map W.word ∧
    ((st.map W.val ++ x :: w).map W.word).drop (k + 1) = w.map W.word := by
  subst h
  induction st with
  | nil => simp
  | cons a st ih => simpa [W.word, Word.int] using ih

theorem seg_pass {L : Lay} {p w o} (h : Seg L p w o) : ∃ f,
    (∀ rest, dquoted (escapeString false p ++ rest) = (dquoted rest).map fun q => (f ++ q.1, q.2)) ∧
    ∀ n, f.length < n → shPass L n f (w.map W.word) = some (o, []) := by
  induction h with
  | nil =>
    refine ⟨[], ?_, ?_⟩
    · intro rest; simp [escapeString]
    · intro n hn
      obtain ⟨n, rfl⟩ : ∃ k, n = k + 1 := ⟨n - 1, by omega⟩
      rfl
  | lit h37 h1 h2 _ ih =>
    obtain ⟨f, g1, g2⟩ := ih
    obtain ⟨f1, d1, d2, d3, d4, _⟩ := dq_lit h37 h1
    refine ⟨f1 ++ f, ?_, ?_⟩
    · intro rest
      simp only [escapeString, List.append_assoc]
      rw [d1, g1]
      cases dquoted rest <;> simp
    · intro n hn
      have : 0 < f1.length := List.length_pos_iff.mpr d3
      simp only [List.length_append] at hn
      obtain ⟨n, rfl⟩ : ∃ k, n = k + 1 := ⟨n - 1, by omega⟩
      rw [d4, g2 n (by omega)]
      rfl
  | pct _ ih =>
    obtain ⟨f, g1, g2⟩ := ih
    refine ⟨37 :: 37 :: f, ?_, ?_⟩
    · intro rest
      have := dq_tame [37, 37] (by intro c hc; simp at hc; subst hc; decide)
      rename_i p _ _ _
      have h2 := this (escapeString false p ++ rest)
      have e : escapeString false (37 :: 37 :: p) ++ rest = escapeString false [37, 37] ++ (escapeString false p ++ rest) := by
        simp [escapeString]
      rw [e, h2, g1]
      cases dquoted rest <;> simp
    · intro n hn
      simp only [List.length_cons] at hn
      obtain ⟨n, rfl⟩ : ∃ k, n = k + 1 := ⟨n - 1, by omega⟩
      simp [shPass, g2 n (by omega)]
  | int ho hc hst _ ih =>
    rename_i sp a p w o st _
    obtain ⟨f, g1, g2⟩ := ih
    have ht := tame_text ho (.inl hc)
    refine ⟨37 :: (sp.text ++ f), ?_, ?_⟩
    · intro rest
      have h2 := dq_tame (37 :: sp.text) (by
        intro c hc
        rcases List.mem_cons.mp hc with rfl | hc
        · decide
        · exact (ht c hc).1) (escapeString false p ++ rest)
      have e : escapeString false (37 :: (sp.text ++ p)) ++ rest = escapeString false (37 :: sp.text) ++ (escapeString false p ++ rest) := by
        rw [show 37 :: (sp.text ++ p) = (37 :: sp.text) ++ p from rfl, escapeString_append, List.append_assoc]
      rw [e, h2, g1]
      cases dquoted rest <;> simp
    · intro n hn
      simp only [List.length_cons, List.length_append] at hn
      obtain ⟨n, rfl⟩ : ∃ k, n = k + 1 := ⟨n - 1, by omega⟩
      obtain ⟨t1, t2, t3⟩ := words_take hst (.val a) w
      rw [shPass_spec L ho (.inl hc), if_pos hc, t1, t2, t3, g2 n (by omega)]
      rfl
  | str ho hc hl hch hst _ ih =>
    rename_i sp a p w o st _
    obtain ⟨f, g1, g2⟩ := ih
    have ht := tame_text ho (.inr (.inr hc))
    refine ⟨37 :: (sp.text ++ f), ?_, ?_⟩
    · intro rest
      have h2 := dq_tame (37 :: sp.text) (by
        intro c hc
        rcases List.mem_cons.mp hc with rfl | hc
        · decide
        · exact (ht c hc).1) (escapeString false p ++ rest)
      have e : escapeString false (37 :: (sp.text ++ p)) ++ rest = escapeString false (37 :: sp.text) ++ (escapeString false p ++ rest) := by
        rw [show 37 :: (sp.text ++ p) = (37 :: sp.text) ++ p from rfl, escapeString_append, List.append_assoc]
      rw [e, h2, g1]
      cases dquoted rest <;> simp
    · intro n hn
      simp only [List.length_cons, List.length_append] at hn
      obtain ⟨n, rfl⟩ : ∃ k, n = k + 1 := ⟨n - 1, by omega⟩
      obtain ⟨t1, t2, t3⟩ := words_take hst (.sub a) w
      rw [shPass_spec L ho (.inr (.inr hc)), if_neg (by rw [hc]; decide), if_pos ⟨hc, hl⟩, t1, t2, t3, g2 n (by omega)]
      simp only [List.headD_cons, W.word, Word.bytes, hch]
      rfl

theorem dq_head {b : Bool} {c : Nat} {rest f r : List Nat} (h : dquoted (escapeChar b c ++ rest) = some (f, r)) (h1 : 1 ≤ c)
    (h45 : c ≠ 45) : f.head? ≠ some 45 := by
  by_cases h37 : c = 37
  · subst h37
    have e : ∀ r, dquoted (37 :: r) = (dquoted r).map fun q => (37 :: q.1, q.2) := by
      intro r; rw [dquoted.eq_def]; simp
    have : ∃ t, escapeChar b 37 ++ rest = 37 :: t := by cases b <;> simp [escapeChar]
    obtain ⟨t, ht⟩ := this
    rw [ht, e, Option.map_eq_some_iff] at h
    obtain ⟨q, _, hq⟩ := h
    simp only [Prod.mk.injEq] at hq
    rw [← hq.1]; simp
  · have e : escapeChar b c = escapeChar false c := by simp [escapeChar, h37]
    rw [e] at h
    obtain ⟨f1, d1, _, d2, d3, hf1⟩ := dq_lit h37 h1
    rw [d1, Option.map_eq_some_iff] at h
    obtain ⟨q, _, hq⟩ := h
    simp only [Prod.mk.injEq] at hq
    rw [← hq.1]
    rcases hf1 with ⟨e, rfl⟩ | rfl
    · simp
    · simpa using h45

theorem seg_out {L : Lay} {p w o} (h : Seg L p w o) : outs L (printfCall p w false) = some o := by
  cases hp : p with
  | nil =>
    subst hp
    generalize hq : ([] : List Nat) = q at h
    cases h with
    | nil => rfl
    | _ => cases hq
  | cons c t =>
    rw [← hp]
    have e : printfCall p w false = [.printf (decide (c = 45)) (escapeString false p) w] := by rw [hp]; rfl
    rw [e]
    obtain ⟨f, d, g⟩ := seg_pass h
    have hd : dquoted (escapeString false p ++ [34]) = some (f, []) := by
      rw [d [34]]; simp [dquoted]
    have hno : ¬ (decide (c = 45) = false ∧ f.head? = some 45 ∧ f ≠ [45]) := by
      rintro ⟨h1, h2, _⟩
      have h45 : c ≠ 45 := by simpa using h1
      have hc1 : 1 ≤ c := by
        cases h with
        | nil => cases hp
        | lit _ hc1 => simp only [List.cons.injEq] at hp; omega
        | _ => simp only [List.cons.injEq] at hp; omega
      rw [hp, escapeString, List.append_assoc] at hd
      exact dq_head hd hc1 h45 h2
    simp only [outs, Cmd.out, hd, shPrintf]
    rw [if_neg hno, g _ (Nat.lt_succ_self _)]
    simp

theorem outs_append (L : Lay) : ∀ (a b : List Cmd) {x y}, outs L a = some x → outs L b = some y → outs L (a ++ b) = some (x ++ y)
  | [], b, x, y, h1, h2 => by simp [outs] at h1; subst h1; simpa using h2
  | c :: a, b, x, y, h1, h2 => by
    simp only [outs, Option.bind_eq_some_iff, Option.map_eq_some_iff] at h1
    obtain ⟨o, ho, z, hz, rfl⟩ := h1
    simp only [List.cons_append, outs, Option.bind_eq_some_iff, Option.map_eq_some_iff]
    exact ⟨o, ho, _, outs_append L a b hz h2, by simp⟩

/-! ### The compiler's loop -/

theorem isFlag_eq : isFlag = isFlagChar := rfl
theorem isDig_eq : isDig = isDigit := rfl
theorem isIntConv_eq : isIntConv = intCh := rfl

theorem flags_step {res : H} : ∀ (fl r : List Nat) (s : H) (n : Nat), (∀ x ∈ fl, isFlagChar x = true) → s.mod = true → s.st = 0 →
    loop n (fl ++ r) s = .ok res → (fl ++ r).length < n →
    ∃ n', loop n' r { s with spec := s.spec ++ fl } = .ok res ∧ r.length < n'
  | [], r, s, n, _, _, _, h, hn => ⟨n, by simpa using h, by simpa using hn⟩
  | c :: fl, r, s, n, hf, hm, hs, h, hn => by
    obtain ⟨out, piece, spec, params, ptext, wtext, prtext, mod, hasW, hasP, st⟩ := s
    simp only at hm hs
    subst hm hs
    obtain ⟨n, rfl⟩ : ∃ k, n = k + 1 := ⟨n - 1, by omega⟩
    simp only [List.cons_append, loop, if_true, isFlag_eq, hf c (by simp)] at h
    rw [if_neg (by simp)] at h
    obtain ⟨n', h1, h2⟩ := flags_step fl r _ n (fun x hx => hf x (List.mem_cons_of_mem _ hx)) rfl rfl h
      (by simp at hn ⊢; omega)
    exact ⟨n', by simpa using h1, h2⟩

theorem digits_step {res : H} {ds r : List Nat} {s : H} {n : Nat} (hd : ds ≠ [] ∧ ∀ x ∈ ds, isDigit x = true)
    (hr : ∀ c t, r = c :: t → isDigit c = false) (hm : s.mod = true)
    (h0 : s.st = 0 → ∀ c t, ds = c :: t → isFlagChar c = false) (h02 : s.st = 0 ∨ s.st = 2)
    (h : loop n (ds ++ r) s = .ok res) (hn : (ds ++ r).length < n) :
    ∃ n', loop n' r { s with
            spec := s.spec ++ ds, st := s.st + 1,
            hasW := if s.st = 0 then true else s.hasW,
            hasP := if s.st = 2 then true else s.hasP } = .ok res ∧ r.length < n' := by
  obtain ⟨out, piece, spec, params, ptext, wtext, prtext, mod, hasW, hasP, st⟩ := s
  simp only at hm h0 h02
  subst hm
  obtain ⟨n, rfl⟩ : ∃ k, n = k + 1 := ⟨n - 1, by omega⟩
  obtain ⟨c, t, rfl⟩ := List.exists_cons_of_ne_nil hd.1
  have hsp := span_append hd.2 hr
  have hc := hd.2 c (by simp)
  have hnf : isFlagChar c = false := by
    rcases h02 with h2 | h2
    · exact h0 h2 c t rfl
    · cases hf : isFlagChar c with
      | false => rfl
      | true =>
        exfalso
        simp only [List.cons_append, loop, if_true, isFlag_eq, hf] at h
        simp [h2] at h
  rw [List.cons_append] at h hsp
  simp only [loop, if_true, isFlag_eq, hnf, isDig_eq, hc, hsp.1, hsp.2] at h
  rw [if_neg (by simp), if_neg (by omega)] at h
  exact ⟨n, h, by simp at hn; omega⟩

theorem star_step {res : H} {r : List Nat} {s : H} {n : Nat} (hm : s.mod = true) 
    (h : loop n (42 :: r) s = .ok res) (hn : (42 :: r).length < n) : ∃ n' a ps, s.params = a :: ps ∧
      ((s.st = 0 ∧ loop n' r { s with spec := s.spec ++ [42], wtext := [.val a], hasW := true, params := ps } = .ok res) ∨
       (s.st = 2 ∧ loop n' r { s with spec := s.spec ++ [42], prtext := [.val a], hasP := true, params := ps } = .ok res)) ∧
      r.length < n' := by
  obtain ⟨out, piece, spec, params, ptext, wtext, prtext, mod, hasW, hasP, st⟩ := s
  simp only at hm
  subst hm
  obtain ⟨n, rfl⟩ : ∃ k, n = k + 1 := ⟨n - 1, by omega⟩
  simp only [loop, if_true, show isFlag 42 = false by decide, show isDig 42 = false by decide] at h
  rw [if_neg (by simp), if_neg (by simp), if_neg (by simp)] at h
  split at h
  · cases h
  · rename_i a ps
    refine ⟨n, a, ps, rfl, ?_, by simp at hn; omega⟩
    split at h
    · rename_i h0; exact .inl ⟨h0, h⟩
    · split at h
      · rename_i h2; exact .inr ⟨h2, h⟩
      · cases h

/-- From the `%` to the length modifiers. -/
theorem pre_step {res : H} {sp : Spec} (ho : sp.Ok) (hc : convCh sp.ch) {r : List Nat} {s : H} {n : Nat}
    (hm : s.mod = true) (hst : s.st = 0) (hw : s.wtext = []) (hp : s.prtext = []) (hW : s.hasW = false) (hP : s.hasP = false)
    (h : loop n (sp.text ++ r) s = .ok res) (hn : (sp.text ++ r).length < n) :
    ∃ n' ws ps rest st', s.params = ws ++ ps ++ rest ∧ (ws ++ ps).length = sp.stars ∧
      loop n' (List.replicate sp.longs 108 ++ sp.ch :: r) { s with
        spec := s.spec ++ (sp.flags ++ sp.width.text ++ (if sp.dot then 46 :: sp.prec.text else [])),
        params := rest, wtext := ws.map W.val, prtext := ps.map W.val,
        hasW := decide (sp.width ≠ .no), hasP := decide (sp.prec ≠ .no), st := st' } = .ok res ∧
      (List.replicate sp.longs 108 ++ sp.ch :: r).length < n' := by
  obtain ⟨out, piece, spec, params, ptext, wtext, prtext, mod, hasW, hasP, st⟩ := s
  simp only at hm hst hw hp hW hP
  subst hm hst hw hp hW hP
  obtain ⟨f1, f2, f3, f4, f5, f6⟩ := convCh_facts hc
  obtain ⟨flags, width, dot, prec, longs, ch⟩ := sp
  obtain ⟨h1, h2, h3, h4, h5⟩ := ho
  simp only at *
  have hd1 : ∀ c t, List.replicate longs 108 ++ ch :: r = c :: t → isDigit c = false := by
    intro c t h
    cases longs with
    | zero => simp only [List.replicate, List.nil_append, List.cons.injEq] at h; rw [← h.1]; exact f2
    | succ n => simp only [List.replicate_succ, List.cons_append, List.cons.injEq] at h; rw [← h.1]; decide
  have hd2 : ∀ c t, (if dot then 46 :: prec.text else []) ++ (List.replicate longs 108 ++ ch :: r) = c :: t →
      isDigit c = false := by
    intro c t h
    cases dot with
    | true => simp only [if_true, List.cons_append, List.cons.injEq] at h; rw [← h.1]; decide
    | false =>
      simp only [Bool.false_eq_true, if_false, List.nil_append] at h
      exact hd1 c t h
  simp only [Spec.text, List.append_assoc, List.cons_append, List.nil_append] at h hn
  obtain ⟨n1, h, hn⟩ := flags_step _ _ _ _ h1 rfl rfl h hn
  -- the width
  have key : ∃ n' ws rest st', params = ws ++ rest ∧ ws.length = (if width = .star then 1 else 0) ∧ st' < 2 ∧
      loop n' ((if dot then 46 :: prec.text else []) ++ (List.replicate longs 108 ++ ch :: r)) { (⟨out, piece, spec, params, ptext, [], [], true, false, false, 0⟩ : H) with
        spec := spec ++ (flags ++ width.text), params := rest, wtext := ws.map W.val,
        hasW := decide (width ≠ .no), st := st' } = .ok res ∧
      ((if dot then 46 :: prec.text else []) ++ (List.replicate longs 108 ++ ch :: r)).length < n' := by
    cases width with
    | no =>
      refine ⟨n1, [], params, 0, rfl, rfl, by omega, ?_, hn⟩
      simp only [Num.text, List.nil_append, List.append_nil] at h ⊢
      rw [← h]; congr 1
    | lit ds =>
      obtain ⟨n2, h, hn⟩ := digits_step h2 hd2 rfl (fun _ c t e => h3 ds c t rfl e) (.inl rfl) h hn
      refine ⟨n2, [], params, 1, rfl, rfl, by omega, ?_, hn⟩
      rw [← h]; congr 1; simp_all [Num.text]
    | star =>
      obtain ⟨n2, a, ps, hpar, h, hn⟩ := star_step (r := _) rfl h hn
      rcases h with ⟨_, h⟩ | ⟨h0, _⟩
      · refine ⟨n2, [a], ps, 0, hpar, rfl, by omega, ?_, hn⟩
        rw [← h]; congr 1; simp_all [Num.text]
      · simp only at h0; omega
  obtain ⟨n2, ws, rest, st', hpar, hlen, hst', h, hn⟩ := key
  cases dot with
  | false =>
    have := h5 rfl; subst this
    simp only [Bool.false_eq_true, if_false, List.nil_append] at h hn
    refine ⟨n2, ws, [], rest, st', by simpa using hpar, by simp [Spec.stars, hlen], ?_, hn⟩
    rw [← h]; congr 1; simp_all [Num.text]
  | true =>
    simp only [if_true, List.cons_append] at h hn
    obtain ⟨n2, rfl⟩ : ∃ k, n2 = k + 1 := ⟨n2 - 1, by omega⟩
    rw [loop] at h
    simp only [if_true, show isFlag 46 = false by decide, show isDig 46 = false by decide] at h
    rw [if_neg (by simp), if_neg (by simp), if_neg (by omega)] at h
    simp only [List.length_cons, Nat.add_lt_add_iff_right] at hn
    cases prec with
    | no =>
      refine ⟨n2, ws, [], rest, 2, by simpa using hpar, by simp [Spec.stars, hlen], ?_, hn⟩
      simp only [Num.text, List.nil_append] at h
      rw [← h]; congr 1; simp_all [Num.text]
    | lit ds =>
      obtain ⟨n3, h, hn⟩ := digits_step h4 hd1 rfl (by simp) (.inr rfl) h hn
      refine ⟨n3, ws, [], rest, 3, by simpa using hpar, by simp [Spec.stars, hlen], ?_, hn⟩
      rw [← h]; congr 1; simp_all [Num.text]
    | star =>
      obtain ⟨n3, a, ps, hpar', h, hn⟩ := star_step rfl h hn
      rcases h with ⟨h0, _⟩ | ⟨_, h⟩
      · simp at h0
      · refine ⟨n3, ws, [a], ps, 2, by simp only at hpar'; simp [hpar, hpar'], by simp [Spec.stars, hlen], ?_, hn⟩
        rw [← h]; congr 1; simp_all [Num.text]

theorem intConv_ok {text : List Nat} {s s' : H} (h : intConv text s = .ok s') : ∃ a ps, s.params = a :: ps ∧
    s' = { s with ptext := s.ptext ++ s.wtext ++ s.prtext ++ [.val a], params := ps, mod := false,
                  piece := s.piece ++ s.spec ++ text, spec := [] } := by
  unfold intConv at h
  split at h
  · cases h
  · rename_i a ps hp
    simp only [Res.ok.injEq] at h
    exact ⟨a, ps, hp, h.symm⟩

theorem int_step {res : H} {k ch : Nat} (hc : intCh ch = true) {r : List Nat} {s : H} {n : Nat} (hm : s.mod = true)
    (h : loop n (List.replicate k 108 ++ ch :: r) s = .ok res) (hn : (List.replicate k 108 ++ ch :: r).length < n) :
    ∃ n' a ps, s.params = a :: ps ∧
      loop n' r { s with ptext := s.ptext ++ s.wtext ++ s.prtext ++ [.val a], params := ps, mod := false,
                         piece := s.piece ++ s.spec ++ (List.replicate k 108 ++ [ch]), spec := [] } = .ok res ∧
      r.length < n' := by
  obtain ⟨n, rfl⟩ : ∃ j, n = j + 1 := ⟨n - 1, by omega⟩
  obtain ⟨f1, f2, f3, f4, f5, f6⟩ := convCh_facts (.inl hc)
  cases k with
  | zero =>
    simp only [List.replicate, List.nil_append] at h hn
    simp only [loop, hm, if_true, isFlag_eq, f1, isDig_eq, f2, f3, f4, f5, f6, if_false, isIntConv_eq, hc] at h
    rw [if_neg (by simp), if_neg (by simp), Res.bind_eq_ok] at h
    obtain ⟨s', h1, h2⟩ := h
    obtain ⟨a, ps, h3, rfl⟩ := intConv_ok h1
    exact ⟨n, a, ps, h3, h2, by simp at hn; omega⟩
  | succ k =>
    have hl : ∀ x ∈ List.replicate (k + 1) 108, (fun x => decide (x = 108)) x = true := by
      intro x hx; simp [List.eq_of_mem_replicate hx]
    have s4 := span_append (p := fun x => decide (x = 108)) (b := ch :: r) hl (by
      intro c t h; simp only [List.cons.injEq] at h; rw [← h.1]; simpa using f5)
    rw [List.replicate_succ, List.cons_append] at h hn s4
    simp only [loop, hm, if_true, show isFlag 108 = false by decide, show isDig 108 = false by decide, s4.1, s4.2,
      isIntConv_eq, hc] at h
    rw [if_neg (by simp), if_neg (by simp), if_neg (by simp), if_neg (by simp), if_neg (by simp), Res.bind_eq_ok] at h
    obtain ⟨s', h1, h2⟩ := h
    obtain ⟨a, ps, h3, rfl⟩ := intConv_ok h1
    exact ⟨n, a, ps, h3, h2, by simp at hn; omega⟩

theorem chr_step {res : H} {r : List Nat} {s : H} {n : Nat} (hm : s.mod = true)
    (h : loop n (99 :: r) s = .ok res) (hn : (99 :: r).length < n) :
    ∃ n' a ps, s.params = a :: ps ∧
      loop n' r { s with
            out := s.out ++ printfCall s.piece s.ptext false ++ [compPutcharInline a],
            piece := [], spec := [], params := ps, ptext := [], mod := false } = .ok res ∧ r.length < n' := by
  obtain ⟨n, rfl⟩ : ∃ j, n = j + 1 := ⟨n - 1, by omega⟩
  simp only [loop, hm, if_true, show isFlag 99 = false by decide, show isDig 99 = false by decide,
    show isIntConv 99 = false by decide] at h
  rw [if_neg (by simp), if_neg (by simp), if_neg (by simp), if_neg (by simp), if_neg (by simp), if_neg (by simp),
    if_neg (by simp)] at h
  split at h
  · cases h
  · rename_i a ps hp
    split at h
    · cases h
    · exact ⟨n, a, ps, hp, h, by simp at hn; omega⟩

theorem str_step {res : H} {r : List Nat} {s : H} {n : Nat} (hm : s.mod = true)
    (h : loop n (115 :: r) s = .ok res) (hn : (115 :: r).length < n) :
    ∃ n' a ps, s.params = a :: ps ∧
      ((s.hasW = true ∨ s.hasP = true) ∧
        loop n' r { s with ptext := s.ptext ++ s.wtext ++ s.prtext ++ [.sub a], params := ps, mod := false,
                           piece := s.piece ++ s.spec ++ [115], spec := [] } = .ok res ∨
      (s.hasW = false ∧ s.hasP = false) ∧
        loop n' r { s with
              out := s.out ++ printfCall s.piece s.ptext false ++ [.pstr a],
              piece := [], spec := [], params := ps, mod := false } = .ok res) ∧ r.length < n' := by
  obtain ⟨n, rfl⟩ : ∃ j, n = j + 1 := ⟨n - 1, by omega⟩
  simp only [loop, hm, if_true, show isFlag 115 = false by decide, show isDig 115 = false by decide,
    show isIntConv 115 = false by decide] at h
  rw [if_neg (by simp), if_neg (by simp), if_neg (by simp), if_neg (by simp), if_neg (by simp), if_neg (by simp),
    if_neg (by simp), if_neg (by simp)] at h
  split at h
  · cases h
  · rename_i a ps hp
    refine ⟨n, a, ps, hp, ?_, by simp at hn; omega⟩
    split at h
    · rename_i hh; exact .inl ⟨hh, h⟩
    · rename_i hh
      simp only [not_or, Bool.not_eq_true] at hh
      exact .inr ⟨hh, h⟩

/-- `putchar` of a byte. -/
theorem putchar_out (L : Lay) {a : Arg} (hc : ∀ c, a.chr = some c → a.val = c) (h0 : 0 ≤ a.val) (h1 : a.val < 256) :
    (compPutcharInline a).out L = some [a.val.toNat] := by
  unfold compPutcharInline
  split
  · rename_i c hch
    have hv := hc c hch
    split
    · rename_i hr
      rw [hv, Int.toNat_natCast]
      have : ∀ c : Fin 127, 32 ≤ c.val → ∃ f, dquoted (escapeChar true c.val ++ [34]) = some (f, []) ∧
          (f = [c.val] ∧ c.val ≠ 92 ∧ c.val ≠ 37 ∨ f = [92, 92] ∧ c.val = 92 ∨ f = [37, 37] ∧ c.val = 37) := by
        intro c h
        have key : ∀ c : Fin 127, 32 ≤ c.val → (match dquoted (escapeChar true c.val ++ [34]) with
          | some (f, []) => (f = [c.val] ∧ c.val ≠ 92 ∧ c.val ≠ 37 ∨ f = [92, 92] ∧ c.val = 92 ∨ f = [37, 37] ∧ c.val = 37 : Bool)
          | _ => false) = true := by decide +kernel
        have := key c h
        split at this
        · rename_i f he
          exact ⟨f, he, by simpa using this⟩
        · cases this
      obtain ⟨f, e, hf⟩ := this ⟨c, by omega⟩ hr.1
      simp only at e hf
      simp only [Cmd.out, e, shPrintf, List.map_nil]
      rcases hf with ⟨rfl, g1, g2⟩ | ⟨rfl, rfl⟩ | ⟨rfl, rfl⟩
      · rw [if_neg (by rintro ⟨_, h1, h2⟩; simp at h1 h2; exact h2 h1)]
        simp [shPass, g1, g2]
      · simp [shPass, escByte]
      · simp [shPass]
    · exact ShIO.octal_ok h0 h1
  · exact ShIO.octal_ok h0 h1

theorem outs_one (L : Lay) (c : Cmd) : outs L [c] = c.out L := by
  simp only [outs]
  cases c.out L <;> simp

theorem cPrintf_spec {L : Lay} {k c t args out} (h37 : ∀ t', t ≠ 37 :: t') (hc : c = 37)
    (h : cPrintf L (k + 1) (c :: t) args = some out) : ∃ sp r a rest o o',
      parseSpec t = some (sp, r) ∧ args.drop sp.stars = a :: rest ∧ cPrintf L k r rest = some o' ∧ out = o ++ o' ∧
      uses (k + 1) (c :: t) args = (sp, a) :: uses k r rest ∧
      (intCh sp.ch = true ∧ o = L.int sp ((args.take sp.stars).map Arg.val) a.val ∨
       sp.longs = 0 ∧ sp.ch = 99 ∧ sp.width = .no ∧ sp.dot = false ∧ o = [(a.val % 256).toNat] ∨
       sp.longs = 0 ∧ sp.ch = 115 ∧ o = L.str sp ((args.take sp.stars).map Arg.val) a.str) := by
  subst hc
  rw [cPrintf.eq_def] at h
  simp only at h
  rw [if_pos trivial] at h
  · split at h
    · cases h
    · rename_i sp r hp
      split at h
      · cases h
      · rename_i a rest hd
        split at h
        · cases h
        · rename_i o ho
          rw [Option.map_eq_some_iff] at h
          obtain ⟨o', ho', rfl⟩ := h
          refine ⟨sp, r, a, rest, o, o', hp, hd, ho', rfl, ?_, ?_⟩
          · rw [uses.eq_def]
            simp only
            rw [if_pos trivial]
            rw [hp]; simp only [hd]
          · split at ho
            · rename_i h1
              simp only [Option.some.injEq] at ho
              exact .inl ⟨h1, ho.symm⟩
            · split at ho
              · cases ho
              · rename_i h2
                simp only [ne_eq, Decidable.not_not] at h2
                split at ho
                · rename_i h3
                  split at ho
                  · rename_i h4
                    simp only [Option.some.injEq] at ho
                    exact .inr (.inl ⟨h2, h3, h4.1, h4.2, ho.symm⟩)
                  · cases ho
                · split at ho
                  · rename_i h3
                    simp only [Option.some.injEq] at ho
                    exact .inr (.inr ⟨h2, h3, ho.symm⟩)
                  · cases ho

theorem main (L : Lay) : ∀ (k : Nat) (fmt : List Nat) (args : List Arg) (out : List Nat), cPrintf L k fmt args = some out →
    (∀ x ∈ fmt, 1 ≤ x ∧ x < 256) → (∀ a ∈ args, ∀ c, a.chr = some c → a.val = c) → (∀ u ∈ uses k fmt args, GoodUse u) →
    ∀ pend, NoStale pend ((uses k fmt args).map Prod.fst) → ∀ (n : Nat) (s s' : H) (o0 o1 : List Nat),
    s.mod = false → s.spec = [] → s.params = args → Seg L s.piece s.ptext o1 → outs L s.out = some o0 →
    (pend = false → s.ptext = []) → loop n fmt s = .ok s' → fmt.length < n →
    outs L (s'.out ++ printfCall (s'.piece ++ s'.spec) s'.ptext false) = some (o0 ++ o1 ++ out)
  | 0, _, _, _, h, _, _, _, _, _, _, _, _, _, _, _, _, _, _, _, _, _, _ => by simp [cPrintf] at h
  | k + 1, [], args, out, h, _, _, _, _, _, n, s, s', o0, o1, hm, hsp, _, hseg, ho, _, hl, hn => by
    obtain ⟨n, rfl⟩ : ∃ j, n = j + 1 := ⟨n - 1, by omega⟩
    simp only [loop, Res.ok.injEq] at hl
    subst hl
    simp only [cPrintf, Option.some.injEq] at h
    subst h
    rw [hsp, List.append_nil, List.append_nil]
    exact outs_append L _ _ ho (seg_out hseg)
  | k + 1, c :: t, args, out, h, hf, ha, hu, pend, hns, n, s, s', o0, o1, hm, hsp, hpar, hseg, ho, hpe, hl, hn => by
    obtain ⟨n, rfl⟩ : ∃ j, n = j + 1 := ⟨n - 1, by omega⟩
    have hft : ∀ x ∈ t, 1 ≤ x ∧ x < 256 := fun x hx => hf x (List.mem_cons_of_mem _ hx)
    obtain ⟨sout, piece, spec, params, ptext, wtext, prtext, mod, hasW, hasP, st⟩ := s
    simp only at hm hsp hpar hseg ho hpe
    subst hm hsp hpar
    by_cases hc : c = 37
    · subst hc
      simp only [loop] at hl
      rw [if_neg (by simp), if_pos trivial] at hl
      simp only [List.length_cons] at hn
      by_cases h37 : ∃ t', t = 37 :: t'
      · obtain ⟨t', rfl⟩ := h37
        obtain ⟨n, rfl⟩ : ∃ j, n = j + 1 := ⟨n - 1, by omega⟩
        simp only [loop, if_true, show isFlag 37 = false by decide, show isDig 37 = false by decide] at hl
        rw [if_neg (by simp), if_neg (by simp), if_neg (by simp), if_neg (by simp), if_neg (by simp)] at hl
        simp only [cPrintf, if_true, Option.map_eq_some_iff] at h
        obtain ⟨o', h, rfl⟩ := h
        simp only [uses, if_true] at hu hns
        have := main L k t' params o' h (fun x hx => hft x (List.mem_cons_of_mem _ hx)) ha hu pend hns n _ s' o0 (o1 ++ [37])
          rfl rfl rfl (by simpa using hseg.append (.pct .nil)) ho hpe hl (by simp at hn ⊢; omega)
        simpa using this
      · have h37' : ∀ t', t ≠ 37 :: t' := fun t' e => h37 ⟨t', e⟩
        obtain ⟨sp, r, a, rest, o, o', hps, hd, h', rfl, hus, hk⟩ := cPrintf_spec h37' rfl h
        obtain ⟨rfl, hok⟩ := parseSpec_text hps
        have hcv : convCh sp.ch := by
          rcases hk with ⟨h1, _⟩ | ⟨_, h1, _⟩ | ⟨_, h1, _⟩
          · exact .inl h1
          · exact .inr (.inl h1)
          · exact .inr (.inr h1)
        have hfr : ∀ x ∈ r, 1 ≤ x ∧ x < 256 := fun x hx => hft x (List.mem_append_right _ hx)
        have har : ∀ x ∈ rest, ∀ c, x.chr = some c → x.val = c := fun x hx =>
          ha x (List.mem_of_mem_drop (by rw [hd]; exact List.mem_cons_of_mem _ hx))
        have haa := ha a (List.mem_of_mem_drop (by rw [hd]; simp))
        rw [hus] at hu hns
        have hgu := hu _ (List.mem_cons_self ..)
        have hur : ∀ u ∈ uses k r rest, GoodUse u := fun u hx => hu u (List.mem_cons_of_mem _ hx)
        simp only [List.map_cons, NoStale] at hns
        obtain ⟨n1, ws, ps, rest', st', hsplit, hlen, hl, hn⟩ := pre_step hok hcv rfl rfl rfl rfl rfl rfl hl (by omega)
        simp only at hsplit
        have htk : params.take sp.stars = ws ++ ps := by rw [hsplit, ← hlen, List.take_left]
        have hdr : params.drop sp.stars = rest' := by rw [hsplit, ← hlen]; simp
        rw [hdr] at hd
        subst hd
        rw [htk] at hk
        rcases hk with ⟨hi, rfl⟩ | ⟨hl0, hch, hw, hdot, rfl⟩ | ⟨hl0, hch, rfl⟩
        · obtain ⟨n2, a', rest', hpar, hl, hn⟩ := int_step hi (by rfl) hl hn
          simp only [List.cons.injEq] at hpar
          obtain ⟨rfl, rfl⟩ := hpar
          have hns' : NoStale true ((uses k r rest).map Prod.fst) := by
            have : sp.ch ≠ 99 ∧ sp.ch ≠ 115 := by
              constructor <;> (intro e; rw [e] at hi; revert hi; decide)
            simpa [this] using hns
          have hg := hseg.append (Seg.int (L := L) (a := a) hok hi hlen .nil)
          have := main L k r rest o' h' hfr har hur true hns' n2 _ s' o0 _ rfl rfl rfl
            (by simpa [Spec.text] using hg) ho (by simp) hl hn
          simpa using this
        · rw [hl0, hch, List.replicate, List.nil_append] at hl hn
          obtain ⟨n2, a', rest', hpar, hl, hn⟩ := chr_step rfl hl hn
          simp only [List.cons.injEq] at hpar
          obtain ⟨rfl, rfl⟩ := hpar
          rw [if_pos hch] at hns
          obtain ⟨h0, h1⟩ := hgu.1 hch
          have hmod : (a.val % 256).toNat = a.val.toNat := by rw [Int.emod_eq_of_lt h0 h1]
          have := main L k r rest o' h' hfr har hur false hns n2 _ s' (o0 ++ o1 ++ [a.val.toNat]) [] rfl rfl rfl .nil
            (outs_append L _ _ (outs_append L _ _ ho (seg_out hseg)) (by rw [outs_one]; exact putchar_out L haa h0 h1))
            (fun _ => rfl) hl hn
          simpa [hmod] using this
        · rw [hl0, hch, List.replicate, List.nil_append] at hl hn
          obtain ⟨n2, a', rest', hpar, hl, hn⟩ := str_step rfl hl hn
          simp only [List.cons.injEq] at hpar
          obtain ⟨rfl, rfl⟩ := hpar
          rw [if_neg (by rw [hch]; decide)] at hns
          rcases hl with ⟨hwp, hl⟩ | ⟨hwp, hl⟩
          · simp only [decide_eq_true_eq] at hwp
            have hwd : sp.width ≠ .no ∨ sp.dot = true := by
              rcases hwp with hwp | hwp
              · exact .inl hwp
              · refine .inr ?_
                cases hdt : sp.dot with
                | true => rfl
                | false => exact absurd (hok.pd hdt) hwp
            have hcho := hgu.2.1 hch hwd
            rw [if_neg (by
              rintro ⟨_, e1, e2⟩
              rcases hwd with e | e
              · exact e e1
              · rw [e2] at e; cases e)] at hns
            have hg := hseg.append (Seg.str (L := L) (a := a) hok hch hl0 hcho hlen .nil)
            have := main L k r rest o' h' hfr har hur true hns n2 _ s' o0 _ rfl rfl rfl
              (by simpa [Spec.text, hl0, hch] using hg) ho (by simp) hl hn
            simpa using this
          · simp only [decide_eq_false_iff_not, ne_eq, Decidable.not_not] at hwp
            have hdot : sp.dot = false := by
              cases hdt : sp.dot with
              | false => rfl
              | true => exact absurd hwp.2 (hgu.2.2 hch hwp.1 hdt)
            rw [if_pos ⟨hch, hwp.1, hdot⟩] at hns
            have hpt := hpe hns.1
            subst hpt
            have hst0 : sp.stars = 0 := by simp [Spec.stars, hwp.1, hwp.2]
            have hnil : ws ++ ps = [] := List.length_eq_zero_iff.mp (by rw [hlen, hst0])
            have hpl := L.plain sp a.str hwp.1 hdot
            have := main L k r rest o' h' hfr har hur false hns.2 n2 _ s' (o0 ++ o1 ++ a.str) [] rfl rfl rfl .nil
              (outs_append L _ _ (outs_append L _ _ ho (seg_out hseg)) (by rw [outs_one]; rfl))
              (fun _ => rfl) hl hn
            simpa [hnil, hpl] using this
    · simp only [loop] at hl
      rw [if_neg (by simp), if_neg hc] at hl
      rw [cPrintf.eq_def] at h
      simp only at h
      rw [if_neg hc, Option.map_eq_some_iff] at h
      obtain ⟨o', h, rfl⟩ := h
      rw [uses.eq_def] at hu hns
      simp only at hu hns
      rw [if_neg hc] at hu hns
      have := main L k t params o' h hft ha hu pend hns n _ s' o0 (o1 ++ [c]) rfl rfl rfl
        (by simpa using hseg.append (Seg.lit (L := L) hc (hf c (by simp)).1 (hf c (by simp)).2 .nil)) ho hpe hl (by simp at hn; omega)
      simpa using this
end Verif.ShPrintf
