import Verif.RtPrintf.Proofs
/-! The loop of the shell's `printf`, along a format. -/
namespace Verif.RtPrintf

/-- From one state of the loop to another, for any large enough bound on the rounds. -/
def Runs (s s' : St) : Prop := ∃ N k, ∀ n, N ≤ n → loop (n + k) s = loop n s'

theorem Runs.refl (s : St) : Runs s s := ⟨0, 0, fun _ _ => rfl⟩

theorem Runs.trans {a b c : St} (h : Runs a b) (g : Runs b c) : Runs a c := by
  obtain ⟨N, k, h⟩ := h
  obtain ⟨M, j, g⟩ := g
  refine ⟨N + M, j + k, fun n hn => ?_⟩
  have e : n + (j + k) = (n + j) + k := by omega
  rw [e, h (n + j) (by omega), g n (by omega)]

theorem octal_byte {c : Nat} (h : c ≤ 255) : octal (c : Int) = some c := by
  simp only [octal]
  rw [if_pos (by omega)]
  congr 1
  simp only [Int.toNat_natCast]
  omega

/-- One round. -/
theorem Runs.one {s s' : St} {c : Nat} (hm : s.mem s.ptr = some (c : Int)) (h1 : 1 ≤ c) (N : Nat)
    (h : ∀ n, N ≤ n → round n c s = .ok s') : Runs s s' := by
  refine ⟨N, 1, fun n hn => ?_⟩
  rw [loop]
  simp only [hm]
  rw [if_neg (by omega), h n hn]
  rfl

theorem putPstr_ok {m : Mem} {s : List Nat} {a : Int} (h : StrAt m a s) :
    ∀ n, s.length + 1 ≤ n → putPstr n m a = .ok s := by
  induction s generalizing a with
  | nil =>
    intro n hn
    obtain ⟨k, rfl⟩ : ∃ k, n = k + 1 := ⟨n - 1, by simp at hn; omega⟩
    simp only [StrAt] at h
    simp [putPstr, h]
  | cons c t ih =>
    intro n hn
    obtain ⟨k, rfl⟩ : ∃ k, n = k + 1 := ⟨n - 1, by simp at hn; omega⟩
    obtain ⟨h1, h2, h3, h4⟩ := h
    simp only [putPstr, h3, octal_byte h2]
    rw [if_neg (by omega), ih h4 k (by simp at hn; omega)]
    rfl

theorem StrAt.drop {m : Mem} {l r : List Nat} {a : Int} (h : StrAt m a (l ++ r)) :
    StrAt m (a + l.length) r := by
  induction l generalizing a with
  | nil => simpa using h
  | cons c t ih =>
    have := ih h.2.2.2
    have e : a + ((c :: t).length : Int) = a + 1 + (t.length : Int) := by simp; omega
    rw [e]; exact this

theorem readInt_ok {m : Mem} {ds r : List Nat} {a : Int} (h : StrAt m a (ds ++ r))
    (hd : ∀ c ∈ ds, isDigit c = true) (hr : ∀ c, r.head? = some c → isDigit c = false) (acc : List Nat) :
    ∀ n, ds.length + 1 ≤ n → readInt n m a acc = .ok (acc ++ ds, a + ds.length) := by
  induction ds generalizing a acc with
  | nil =>
    intro n hn
    obtain ⟨k, rfl⟩ : ∃ k, n = k + 1 := ⟨n - 1, by simp at hn; omega⟩
    cases r with
    | nil => simp only [List.append_nil, StrAt] at h; simp [readInt, h]
    | cons c r =>
      have h3 := h.2.2.1
      have hc := hr c rfl
      simp only [readInt, h3]
      have : ¬ (48 ≤ c ∧ c ≤ 57) := by
        intro hh; rw [(isDigit_iff c).mpr hh] at hc; exact Bool.noConfusion hc
      rw [if_neg (by omega)]; simp
  | cons c t ih =>
    intro n hn
    obtain ⟨k, rfl⟩ : ∃ k, n = k + 1 := ⟨n - 1, by simp at hn; omega⟩
    obtain ⟨h1, h2, h3, h4⟩ := h
    have hc := hd c (by simp)
    have hcd := (isDigit_iff c).mp hc
    have hs : showInt ((c : Int) - 48) = [c] := by
      have e : ((c : Int) - 48) = ((c - 48 : Nat) : Int) := by omega
      simp only [showInt, e]
      rw [if_neg (by omega)]
      exact showNat_digit hc
    simp only [readInt, h3]
    rw [if_pos (by omega), hs, ih h4 (fun x hx => hd x (by simp [hx])) (acc ++ [c]) k (by simp at hn; omega)]
    simp; omega

theorem headChar_eq {h : Nat} (hh : h ≠ 10) : headChar h = [h] := by
  simp [headChar, stripNl, hh]

theorem stripNl_id {s : List Nat} (h : s.getLast? ≠ some 10) : stripNl s = s := by
  have e : s.reverse.dropWhile (· = 10) = s.reverse := by
    rw [← List.head?_reverse] at h
    cases hs : s.reverse with
    | nil => rfl
    | cons a l =>
      rw [hs] at h
      simp at h
      simp [h]
  simp [stripNl, e]

/-- A round after a `%`. -/
theorem Runs.mod {s s' : St} {c : Nat} (hm : s.mod = true) (hc : s.mem s.ptr = some (c : Int)) (h1 : 1 ≤ c)
    (h2 : c ≤ 255) (N : Nat) (h : ∀ n, N ≤ n → modCase n c { s with ptr := s.ptr + 1 } = .ok s') :
    Runs s s' := by
  refine Runs.one hc h1 N fun n hn => ?_
  simp only [round, octal_byte h2]
  rw [if_pos hm]
  exact h n hn

/-- The flags. -/
theorem run_flags {fl r : List Nat} : ∀ {s : St}, s.mod = true → s.width = [] → s.prec = [] →
    StrAt s.mem s.ptr (fl ++ r) → (∀ c ∈ fl, isFlag c = true) →
    Runs s { s with ptr := s.ptr + fl.length, flags := s.flags ++ fl } := by
  induction fl with
  | nil => intro s _ _ _ _ _; simpa using Runs.refl s
  | cons c t ih =>
    intro s hm hw hp hs hf
    obtain ⟨h1, h2, h3, h4⟩ := hs
    have hc := hf c (by simp)
    have hc' := (isFlag_iff c).mp hc
    have ha : isSigned c = false := by rcases hc' with rfl | rfl | rfl | rfl | rfl <;> rfl
    have hb : isUnsigned c = false := by rcases hc' with rfl | rfl | rfl | rfl | rfl <;> rfl
    refine Runs.trans (Runs.mod (s' := { s with ptr := s.ptr + 1, flags := s.flags ++ [c] }) hm h3 h1 h2 0 ?_) ?_
    · intro n _
      have : headChar c = [c] := headChar_eq (by omega)
      simp only [modCase, ha, hb, hc, hw, hp, this]
      rw [if_neg (by omega), if_neg (by simp), if_neg (by omega), if_neg (by omega)]
      simp
    · have := ih (s := { s with ptr := s.ptr + 1, flags := s.flags ++ [c] }) hm hw hp h4
        (fun x hx => hf x (by simp [hx]))
      have e : s.ptr + ((c :: t).length : Int) = s.ptr + 1 + (t.length : Int) := by simp; omega
      rw [e]
      simpa [List.append_assoc] using this

/-- The text of the width and the arguments left. -/
def widthText (w : Num) (args : List Int) : List Nat × List Int :=
  match w with
  | .no => ([], args)
  | .lit ds => (ds, args)
  | .star => (showInt (args.headD 0), args.tail)

theorem parseNum_cases (t : List Nat) :
    (∃ t', t = 42 :: t' ∧ parseNum t = (.star, t')) ∨
    (t.head? ≠ some 42 ∧ t.takeWhile isDigit = [] ∧ parseNum t = (.no, t)) ∨
    (t.head? ≠ some 42 ∧ t.takeWhile isDigit ≠ [] ∧
      parseNum t = (.lit (t.takeWhile isDigit), t.dropWhile isDigit)) := by
  unfold parseNum
  split
  · exact .inl ⟨_, rfl, rfl⟩
  · rename_i h
    have hh : t.head? ≠ some 42 := by
      intro hh
      cases t with
      | nil => simp at hh
      | cons a t => simp at hh; subst hh; exact h t rfl
    split
    · rename_i h2; exact .inr (.inl ⟨hh, h2, rfl⟩)
    · rename_i h2; exact .inr (.inr ⟨hh, h2, rfl⟩)

theorem take_drop {p : Nat → Bool} (l : List Nat) :
    (∀ c ∈ l.takeWhile p, p c = true) ∧ (∀ c, (l.dropWhile p).head? = some c → p c = false) ∧
      l.takeWhile p ++ l.dropWhile p = l := by
  refine ⟨fun c hc => ?_, fun c hc => ?_, List.takeWhile_append_dropWhile⟩
  · induction l with
    | nil => simp at hc
    | cons a l ih =>
      by_cases ha : p a
      · simp [ha] at hc
        rcases hc with rfl | hc
        · exact ha
        · exact ih (by simpa using hc)
      · simp [ha] at hc
  · induction l with
    | nil => simp at hc
    | cons a l ih =>
      by_cases ha : p a
      · simp only [List.dropWhile, ha] at hc; exact ih hc
      · simp only [List.dropWhile, ha] at hc
        simp at hc; subst hc; simpa using ha

/-- The width. -/
theorem run_width {t r : List Nat} {s : St} {w : Num} (hm : s.mod = true) (hw : s.width = []) (hp : s.prec = [])
    (hs : StrAt s.mem s.ptr t) (hf : ∀ c, t.head? = some c → isFlag c = false)
    (hn : parseNum t = (w, r)) (ha : w = .star → s.args ≠ []) :
    ∃ p, Runs s { s with ptr := p, width := (widthText w s.args).1, args := (widthText w s.args).2 } ∧
      StrAt s.mem p r ∧ (w = .no → r = t) := by
  rcases parseNum_cases t with ⟨t', rfl, e⟩ | ⟨_, h0, e⟩ | ⟨_, h0, e⟩
  · rw [e] at hn
    obtain ⟨rfl, rfl⟩ := Prod.mk.inj hn
    obtain ⟨h1, h2, h3, h4⟩ := hs
    refine ⟨s.ptr + 1, Runs.mod hm h3 h1 h2 0 fun n _ => ?_, h4, fun h => by cases h⟩
    cases hargs : s.args with
    | nil => exact absurd hargs (ha rfl)
    | cons v vs =>
      simp [modCase, isSigned, isUnsigned, isFlag, isDigit, hw, hp, hargs, widthText]
  · rw [e] at hn
    obtain ⟨rfl, rfl⟩ := Prod.mk.inj hn
    refine ⟨s.ptr, ?_, hs, fun _ => rfl⟩
    have : { s with ptr := s.ptr, width := (widthText Num.no s.args).1, args := (widthText Num.no s.args).2 } = s := by
      simp only [widthText]; rw [← hw]
    rw [this]; exact Runs.refl s
  · rw [e] at hn
    obtain ⟨rfl, rfl⟩ := Prod.mk.inj hn
    obtain ⟨td, tr, tt⟩ := take_drop (p := isDigit) t
    cases t with
    | nil => simp at h0
    | cons c t =>
      have hc : isDigit c = true := by
        cases hc : isDigit c with
        | true => rfl
        | false => simp [hc] at h0
      have e1 : (c :: t).takeWhile isDigit = c :: t.takeWhile isDigit := by simp [hc]
      have e2 : (c :: t).dropWhile isDigit = t.dropWhile isDigit := by simp [hc]
      obtain ⟨td', tr', tt'⟩ := take_drop (p := isDigit) t
      obtain ⟨h1, h2, h3, h4⟩ := hs
      have hcf := hf c rfl
      have hcd := (isDigit_iff c).mp hc
      rw [e1, e2]
      have h4' := h4
      rw [← tt'] at h4'
      refine ⟨s.ptr + 1 + (t.takeWhile isDigit).length, Runs.mod hm h3 h1 h2 ((t.takeWhile isDigit).length + 1) fun n hn => ?_,
        h4'.drop, fun h => by cases h⟩
      have hr := readInt_ok h4' td' tr' [] n hn
      have ha : isSigned c = false := by
        cases hx : isSigned c with
        | false => rfl
        | true => rw [isSigned_iff] at hx; omega
      have hb : isUnsigned c = false := by
        cases hx : isUnsigned c with
        | false => rfl
        | true => rw [isUnsigned_iff] at hx; omega
      have hh : headChar c = [c] := headChar_eq (by omega)
      simp only [modCase, ha, hb, hcf, hc, hh]
      rw [if_neg (by omega), if_neg (by simp), if_neg (by omega), if_neg (by omega), if_neg (by simp), if_pos trivial,
        if_neg (by simp [hw, hp]), hr]
      simp [R.bind, widthText]

/-- The text of the precision and the arguments left. -/
def precText (dot : Bool) (p : Num) (args : List Int) : List Nat × List Int :=
  match dot with
  | false => ([], args)
  | true => (46 :: (widthText p args).1, (widthText p args).2)

/-- The precision. -/
theorem run_prec {t r : List Nat} {s : St} {dot : Bool} {w : Num} (hm : s.mod = true) (hp : s.prec = [])
    (hs : StrAt s.mem s.ptr t) (hn : parsePrec t = (dot, w, r)) (hd : dot = true → w ≠ .no)
    (ha : w = .star → s.args ≠ []) :
    ∃ p, Runs s { s with ptr := p, prec := (precText dot w s.args).1, args := (precText dot w s.args).2 } ∧
      StrAt s.mem p r := by
  unfold parsePrec at hn
  split at hn
  · rename_i t'
    obtain ⟨rfl, h⟩ := Prod.mk.inj hn
    obtain ⟨h1, h2, h3, h4⟩ := hs
    rcases parseNum_cases t' with ⟨t'', rfl, e⟩ | ⟨_, h0, e⟩ | ⟨h42, h0, e⟩
    · rw [e] at h
      obtain ⟨rfl, rfl⟩ := Prod.mk.inj h
      obtain ⟨g1, g2, g3, g4⟩ := h4
      refine ⟨s.ptr + 1 + 1, Runs.mod hm h3 h1 h2 0 fun n _ => ?_, g4⟩
      cases hargs : s.args with
      | nil => exact absurd hargs (ha rfl)
      | cons v vs =>
        have g3' : s.mem (s.ptr + 1) = some 42 := g3
        simp [modCase, isSigned, isUnsigned, isFlag, isDigit, hargs, widthText, precText, g3']
    · rw [e] at h
      obtain ⟨rfl, rfl⟩ := Prod.mk.inj h
      exact absurd rfl (hd rfl)
    · rw [e] at h
      obtain ⟨rfl, rfl⟩ := Prod.mk.inj h
      obtain ⟨td, tr, tt⟩ := take_drop (p := isDigit) t'
      have h4' := h4
      rw [← tt] at h4'
      refine ⟨s.ptr + 1 + (t'.takeWhile isDigit).length,
        Runs.mod hm h3 h1 h2 ((t'.takeWhile isDigit).length + 1) fun n hn => ?_, h4'.drop⟩
      have hr := readInt_ok h4' td tr [] n hn
      cases t' with
      | nil => simp at h0
      | cons c t' =>
        have hc : isDigit c = true := by
          cases hc : isDigit c with
          | true => rfl
          | false => simp [hc] at h0
        have hcd := (isDigit_iff c).mp hc
        have g3 := h4.2.2.1
        simp only [modCase, g3, hr]
        rw [if_neg (by omega), if_neg (by decide), if_neg (by omega), if_neg (by omega), if_neg (by decide),
          if_neg (by decide), if_neg (by omega), if_pos trivial, if_neg (by omega), if_pos (by omega)]
        simp [R.bind, precText, widthText]
  · obtain ⟨rfl, h⟩ := Prod.mk.inj hn
    obtain ⟨rfl, rfl⟩ := Prod.mk.inj h
    refine ⟨s.ptr, ?_, hs⟩
    have : { s with ptr := s.ptr, prec := (precText false Num.no s.args).1, args := (precText false Num.no s.args).2 } = s := by
      simp only [precText]; rw [← hp]
    rw [this]; exact Runs.refl s

end Verif.RtPrintf
