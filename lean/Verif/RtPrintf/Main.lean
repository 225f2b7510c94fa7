import Verif.RtPrintf.Run
/-! A conversion specification and a whole format in the shell's `printf`. -/
namespace Verif.RtPrintf

theorem parseNum_append {t r u : List Nat} {w : Num} (h : parseNum t = (w, r)) (hr : r ≠ []) :
    parseNum (t ++ u) = (w, r ++ u) := by
  have ht : t ≠ [] := by
    intro ht; subst ht
    simp [parseNum] at h; exact hr h.2
  obtain ⟨a, t, rfl⟩ := List.exists_cons_of_ne_nil ht
  obtain ⟨td, tr, tt⟩ := take_drop (p := isDigit) (a :: t)
  rcases parseNum_cases (a :: t) with ⟨t', e0, e⟩ | ⟨h42, h0, e⟩ | ⟨h42, h0, e⟩
  · rw [e] at h
    obtain ⟨rfl, rfl⟩ := Prod.mk.inj h
    obtain ⟨rfl, rfl⟩ := List.cons.inj e0
    rfl
  · rw [e] at h
    obtain ⟨rfl, rfl⟩ := Prod.mk.inj h
    rcases parseNum_cases (a :: t ++ u) with ⟨t', e0', e'⟩ | ⟨h42', h0', e'⟩ | ⟨h42', h0', e'⟩
    · obtain ⟨rfl, _⟩ := List.cons.inj e0'
      exact absurd rfl h42
    · exact e'
    · exfalso; apply h0'
      cases ha : isDigit a with
      | true => simp [ha] at h0
      | false => simp [ha]
  · rw [e] at h
    obtain ⟨rfl, rfl⟩ := Prod.mk.inj h
    have e1 := takeWhile_all (p := isDigit) (l := (a :: t).takeWhile isDigit) (r := (a :: t).dropWhile isDigit ++ u) td
      (by
        intro c hc
        obtain ⟨b, l, el⟩ := List.exists_cons_of_ne_nil hr
        rw [el] at hc tr
        simp at hc; subst hc
        exact tr b rfl)
    rw [← List.append_assoc, tt] at e1
    rcases parseNum_cases (a :: t ++ u) with ⟨t', e0', e'⟩ | ⟨h42', h0', e'⟩ | ⟨h42', h0', e'⟩
    · obtain ⟨rfl, _⟩ := List.cons.inj e0'
      exact absurd rfl h42
    · rw [e1.1] at h0'; exact absurd h0' h0
    · rw [e', e1.1, e1.2]

theorem parsePrec_append {t r u : List Nat} {d : Bool} {w : Num} (h : parsePrec t = (d, w, r)) (hr : r ≠ []) :
    parsePrec (t ++ u) = (d, w, r ++ u) := by
  unfold parsePrec at h
  split at h
  · rename_i t'
    obtain ⟨hd, h'⟩ := Prod.mk.inj h
    subst hd
    simp only [List.cons_append, parsePrec]
    rw [parseNum_append h' hr]
  · rename_i hne
    obtain ⟨hd, h'⟩ := Prod.mk.inj h
    subst hd
    obtain ⟨rfl, rfl⟩ := Prod.mk.inj h'
    obtain ⟨a, t, rfl⟩ := List.exists_cons_of_ne_nil hr
    unfold parsePrec
    split
    · rename_i e
      obtain ⟨rfl, _⟩ := List.cons.inj e
      exact absurd rfl (hne t)
    · rfl

theorem dropWhile_append_ne {p : Nat → Bool} {t u : List Nat} (h : t.dropWhile p ≠ []) :
    (t ++ u).dropWhile p = t.dropWhile p ++ u ∧ (t ++ u).takeWhile p = t.takeWhile p := by
  induction t with
  | nil => simp at h
  | cons a t ih =>
    by_cases ha : p a
    · have := ih (by simpa [ha] using h)
      simp [ha, this.1, this.2]
    · simp [ha]

theorem parseNum_nil {t : List Nat} {w : Num} {r : List Nat} (h : parseNum t = (w, r)) (ht : t = []) : r = [] := by
  subst ht; simp [parseNum] at h; exact h.2
theorem parsePrec_nil {t : List Nat} {d : Bool} {w : Num} {r : List Nat} (h : parsePrec t = (d, w, r)) (ht : t = []) :
    r = [] := by
  subst ht; simp [parsePrec] at h; exact h.2.2

/-- The parts of a conversion specification. -/
theorem parseSpec_parts {t r : List Nat} {sp : Spec} (h : parseSpec t = some (sp, r)) :
    ∃ t1 t2, sp.flags = t.takeWhile isFlag ∧ parseNum (t.dropWhile isFlag) = (sp.width, t1) ∧
      parsePrec t1 = (sp.dot, sp.prec, t2) ∧ sp.longs = (t2.takeWhile (· = 108)).length ∧
      t2.dropWhile (· = 108) = sp.ch :: r := by
  simp only [parseSpec] at h
  split at h
  · cases h
  · rename_i c r' e
    simp only [Option.some.injEq, Prod.mk.injEq] at h
    obtain ⟨rfl, rfl⟩ := h
    exact ⟨_, _, rfl, rfl, rfl, rfl, e⟩

theorem parseSpec_append {t r u : List Nat} {sp : Spec} (h : parseSpec t = some (sp, r)) :
    parseSpec (t ++ u) = some (sp, r ++ u) := by
  obtain ⟨t1, t2, h1, h2, h3, h4, h5⟩ := parseSpec_parts h
  have n2 : t2.dropWhile (· = 108) ≠ [] := by rw [h5]; simp
  have n2' : t2 ≠ [] := by intro e; subst e; simp at n2
  have n1 : t1 ≠ [] := fun e => n2' (parsePrec_nil h3 e)
  have n0 : t.dropWhile isFlag ≠ [] := fun e => n1 (parseNum_nil h2 e)
  obtain ⟨d1, d2⟩ := dropWhile_append_ne (u := u) n0
  obtain ⟨e1, e2⟩ := dropWhile_append_ne (u := u) n2
  simp only [parseSpec, d1, d2, parseNum_append h2 n1, parsePrec_append h3 n2', e1, e2, h5, List.cons_append]
  rw [← h1, ← h4]

/-- The width of the specification is the one the utility reads. -/
theorem cWidth_text {m : Mem} {fl : List Nat} (hf : ∀ c ∈ fl, isFlag c = true) {w : Num} {args : List Arg}
    {ws : List Int} (hw : WordsOf m args ws) {F : Flags} {W : Nat} {args' : List Arg}
    (hd : ∀ ds, w = .lit ds → (∀ c ∈ ds, isDigit c = true) ∧ ∀ c, ds.head? = some c → c ≠ 48)
    (h : cWidth (Flags.of fl) w args = some (F, W, args')) :
    WidthText fl (widthText w ws).1 F W ∧ WordsOf m args' (widthText w ws).2 ∧ (w = .star → ws ≠ []) := by
  cases w with
  | no =>
    simp only [cWidth, Option.some.injEq, Prod.mk.injEq] at h
    obtain ⟨rfl, rfl, rfl⟩ := h
    exact ⟨WidthText.no hf, hw, fun h => by cases h⟩
  | lit ds =>
    simp only [cWidth, Option.some.injEq, Prod.mk.injEq] at h
    obtain ⟨rfl, rfl, rfl⟩ := h
    exact ⟨WidthText.lit hf (hd ds rfl).1 (hd ds rfl).2, hw, fun h => by cases h⟩
  | star =>
    unfold cWidth at h
    simp only at h
    split at h
    · rename_i v r
      obtain ⟨w, r', rfl, hwv, hwr⟩ := hw
      simp only [WordOf] at hwv; subst hwv
      refine ⟨?_, ?_, fun _ => by simp⟩
      · simp only [widthText, List.headD_cons]
        split at h
        · rename_i hn
          simp only [Option.some.injEq, Prod.mk.injEq] at h
          obtain ⟨rfl, rfl, rfl⟩ := h
          exact WidthText.neg hf hn
        · rename_i hn
          simp only [Option.some.injEq, Prod.mk.injEq] at h
          obtain ⟨rfl, rfl, rfl⟩ := h
          exact WidthText.pos hf (by omega)
      · split at h <;>
        · simp only [Option.some.injEq, Prod.mk.injEq] at h
          obtain ⟨rfl, rfl, rfl⟩ := h
          exact hwr
    · cases h

/-- The precision of the specification is the one the utility reads. -/
theorem cPrec_text {m : Mem} {dot : Bool} {p : Num} {args : List Arg} {ws : List Int} (hw : WordsOf m args ws)
    {P : Option Nat} {args' : List Arg} (hd : ∀ ds, p = .lit ds → (∀ c ∈ ds, isDigit c = true))
    (hdot : dot = true → p ≠ .no) (hneg : dot = true → p = .star → headInt args (fun v => decide (0 ≤ v)) = true)
    (h : cPrec dot p args = some (P, args')) :
    PrecText (precText dot p ws).1 P ∧ WordsOf m args' (precText dot p ws).2 ∧ (dot = true → p = .star → ws ≠ []) := by
  cases dot with
  | false =>
    simp only [cPrec, Option.some.injEq, Prod.mk.injEq] at h
    obtain ⟨rfl, rfl⟩ := h
    exact ⟨rfl, hw, fun h => by cases h⟩
  | true =>
    cases p with
    | no => exact absurd rfl (hdot rfl)
    | lit ds =>
      simp only [cPrec, Option.some.injEq, Prod.mk.injEq] at h
      obtain ⟨rfl, rfl⟩ := h
      exact ⟨⟨rfl, hd ds rfl, rfl⟩, hw, fun _ h => by cases h⟩
    | star =>
      unfold cPrec at h
      simp only at h
      split at h
      · rename_i v r
        obtain ⟨w, r', rfl, hwv, hwr⟩ := hw
        simp only [WordOf] at hwv; subst hwv
        have h0 : 0 ≤ w := by simpa [headInt] using hneg rfl rfl
        rw [if_neg (by omega)] at h
        simp only [Option.some.injEq, Prod.mk.injEq] at h
        obtain ⟨rfl, rfl⟩ := h
        have hsh : showInt w = showNat w.natAbs := by simp only [showInt]; rw [if_neg (by omega)]
        refine ⟨⟨rfl, ?_, ?_⟩, hwr, fun _ _ => by simp⟩
        · intro d hdm
          have hs : (widthText Num.star (w :: r')).1 = showNat w.natAbs := hsh
          rw [hs] at hdm
          by_cases hz : w.natAbs = 0
          · simp [showNat, hz] at hdm; subst hdm; rfl
          · exact (showNat_pos hz).2.1 d hdm
        · have hs : (widthText Num.star (w :: r')).1 = showNat w.natAbs := hsh
          rw [hs]
          by_cases hz : w.natAbs = 0
          · simp [showNat, hz, decVal]
          · rw [(showNat_pos hz).1]
      · cases h


theorem field_chr (fl : Flags) (w b : Nat) :
    field fl false w [] [b] =
      if fl.minus then [b] ++ List.replicate (w - 1) 32 else List.replicate (w - 1) 32 ++ [b] := by
  simp [field]

theorem pad_eq (w : Nat) : pad (w : Int) = List.replicate (w - 1) 32 := by
  simp only [pad]
  split
  · congr 1; omega
  · have : w - 1 = 0 := by omega
    simp [this]

theorem wordVal_digits {ds : List Nat} (h : ∀ c ∈ ds, isDigit c = true) : wordVal ds = decVal ds := by
  unfold wordVal
  split
  · rename_i r
    have := h 45 (by simp)
    simp [isDigit] at this
  · rfl

theorem wordVal_show {v : Int} (h : 0 ≤ v) : wordVal (showInt v) = v := by
  have hs : showInt v = showNat v.natAbs := by simp only [showInt]; rw [if_neg (by omega)]
  rw [hs]
  by_cases hz : v.natAbs = 0
  · rw [hz]
    have : v = 0 := by omega
    subst this; rfl
  · obtain ⟨a, b, _⟩ := showNat_pos hz
    rw [wordVal_digits b, a]; omega

theorem showInt_ne (v : Int) : showInt v ≠ [] := by
  simp only [showInt]
  split
  · simp
  · by_cases hz : v.natAbs = 0
    · simp [showNat, hz]
    · obtain ⟨_, _, d, r, e, _⟩ := showNat_pos hz
      rw [e]; simp

theorem foldl_ge (ds : List Nat) (a : Nat) (h : 0 < a) : 0 < ds.foldl (fun a d => 10 * a + (d - 48)) a := by
  induction ds generalizing a with
  | nil => exact h
  | cons d ds ih => exact ih (10 * a + (d - 48)) (by omega)

theorem decVal_pos {ds : List Nat} (h : ∀ c ∈ ds, isDigit c = true) (h0 : ∀ c, ds.head? = some c → c ≠ 48)
    (hz : decVal ds = 0) : ds = [] := by
  cases ds with
  | nil => rfl
  | cons d ds =>
    exfalso
    have h1 := h0 d rfl
    have h2 := (isDigit_iff d).mp (h d (by simp))
    have := foldl_ge ds (10 * 0 + (d - 48)) (by omega)
    simp only [decVal, List.foldl_cons] at hz
    omega

/-- The conversion. -/
theorem run_conv {r : List Nat} {s : St} {a : Arg} {w : Int} {ws : List Int} {F : Flags} {W : Nat} {P : Option Nat}
    {ch : Nat} {o : List Nat} (hm : s.mod = true) (hs : StrAt s.mem s.ptr (ch :: r)) (hargs : s.args = w :: ws)
    (hw : WordOf s.mem a w) (hf : ∀ c ∈ s.flags, isFlag c = true)
    (hW : WidthText s.flags s.width F W) (hP : PrecText s.prec P) (h : cConv F W P 0 ch a = some o)
    (hu : ∀ v, a = .int v → (isUnsigned ch = true → 0 ≤ v ∧ v < 2 ^ 32) ∧ (ch = 99 → 0 ≤ v ∧ v ≤ 255))
    (hc : ch = 99 → wordVal (if s.width = [] then [48] else s.width) = W ∧ F.minus = decide (45 ∈ s.flags))
    (hstr : ch = 115 → (W = 0 → s.width = []) ∧ (s.width = [] → F = Flags.of s.flags))
    (hnl : ∀ x, a = .str x → x.getLast? ≠ some 10) :
    Runs s (reset { s with ptr := s.ptr + 1, args := ws, out := s.out ++ o }) := by
  obtain ⟨h1, h2, h3, h4⟩ := hs
  cases a with
  | int v =>
    simp only [WordOf] at hw
    subst hw
    unfold cConv at h
    simp only at h
    rw [if_neg (by omega)] at h
    by_cases hsg : isSigned ch = true
    · rw [if_pos hsg] at h
      split at h
      · rename_i hcond
        simp only [Option.some.injEq] at h
        subst h
        refine Runs.mod hm h3 h1 h2 0 fun n _ => ?_
        have hch := (isSigned_iff ch).mp hsg
        have hh : headChar ch = [ch] := headChar_eq (by omega)
        simp only [modCase, hargs, hh]
        rw [if_neg (by omega), if_pos (.inl hsg), utilInt_signed hW hP hsg hcond.1]
      · cases h
    · rw [if_neg hsg] at h
      by_cases hun : isUnsigned ch = true
      · rw [if_pos hun] at h
        split at h
        · cases h
        · rename_i hcond
          simp only [Option.some.injEq] at h
          subst h
          refine Runs.mod hm h3 h1 h2 0 fun n _ => ?_
          have hch := (isUnsigned_iff ch).mp hun
          have hh : headChar ch = [ch] := headChar_eq (by omega)
          obtain ⟨v0, v1⟩ := (hu w rfl).1 hun
          simp only [modCase, hargs, hh]
          rw [if_neg (by omega), if_pos (.inr hun), utilInt_unsigned hW hP hun hcond v0 v1]
          rfl
      · rw [if_neg hun] at h
        split at h
        · rename_i hcond
          simp only [Option.some.injEq] at h
          subst h
          obtain ⟨rfl, -⟩ := hcond
          obtain ⟨v0, v1⟩ := (hu w rfl).2 rfl
          obtain ⟨c1, c2⟩ := hc rfl
          refine Runs.mod hm h3 h1 h2 0 fun n _ => ?_
          have ho : octal w = some (w % 256).toNat := by
            have e : w = ((w.toNat : Nat) : Int) := by omega
            have e2 : (w % 256).toNat = w.toNat := by omega
            rw [e2]
            have := octal_byte (c := w.toNat) (by omega)
            rw [← e] at this
            exact this
          simp only [modCase, hargs, ho, c1, pad_eq, field_chr, c2]
          rw [if_neg (by omega), if_neg (by decide), if_pos trivial]
          by_cases h45 : 45 ∈ s.flags
          · simp [h45]
          · simp [h45]
        · cases h
  | str x =>
    simp only [WordOf] at hw
    unfold cConv at h
    simp only at h
    split at h
    · rename_i hcond
      simp only [Option.some.injEq] at h
      subst h
      obtain ⟨rfl, -, f1, f2, f3, f4⟩ := hcond
      refine Runs.mod hm h3 h1 h2 (x.length + 1) fun n hn => ?_
      obtain ⟨g1, g2⟩ := hstr rfl
      have hput : putPstr n s.mem w = .ok x := putPstr_ok hw n hn
      simp only [modCase, hargs, hput]
      rw [if_neg (by omega), if_neg (by decide), if_neg (by omega), if_pos trivial, if_neg (by simp)]
      simp only [R.bind, stripNl_id (hnl x rfl)]
      rw [utilStr_ok hW g1 hP f1 f2 f3 f4 hf g2]
    · cases h

/-- A conversion specification. -/
theorem run_spec {t r : List Nat} {s : St} {sp : Spec} {args args' : List Arg} {o : List Nat}
    (hm : s.mod = true) (hfl : s.flags = []) (hw : s.width = []) (hp : s.prec = [])
    (hs : StrAt s.mem s.ptr t) (hargs : WordsOf s.mem args s.args)
    (hn : parseSpec t = some (sp, r)) (hc : cSpec sp args = some (o, args')) (hok : okSpec sp args = true) :
    ∃ p st ws, Runs s (reset { s with ptr := p, start := st, args := ws, out := s.out ++ o }) ∧ StrAt s.mem p r ∧
      WordsOf s.mem args' ws := by
  obtain ⟨t1, t2, e1, e2, e3, e4, e5⟩ := parseSpec_parts hn
  obtain ⟨fd, ft, ff⟩ := take_drop (p := isFlag) t
  -- the parts of okSpec
  simp only [okSpec, Bool.and_eq_true, decide_eq_true_eq] at hok
  obtain ⟨⟨⟨⟨ok1, ok2⟩, ok3⟩, ok4⟩, ok5⟩ := hok
  have hlong : t2 = sp.ch :: r := by
    rw [ok1] at e4
    have : t2.takeWhile (· = 108) = [] := List.eq_nil_of_length_eq_zero e4.symm
    have h2 : t2.takeWhile (· = 108) ++ t2.dropWhile (· = 108) = t2 := List.takeWhile_append_dropWhile
    rw [this, e5] at h2
    exact h2.symm
  -- cSpec
  simp only [cSpec, Option.bind_eq_some_iff] at hc
  obtain ⟨⟨F, W, args1⟩, hcw, ⟨P, args2⟩, hcp, hc⟩ := hc
  simp only at hcw hcp hc
  cases args2 with
  | nil => cases hc
  | cons a rest =>
    simp only [Option.bind_eq_some_iff, Option.some.injEq, Prod.mk.injEq] at hc
    obtain ⟨o', hcv, rfl, rfl⟩ := hc
    -- flags
    have hs' := hs
    rw [← ff] at hs'
    have r1 := run_flags hm hw hp hs' fd
    rw [hfl, List.nil_append, ← e1] at r1
    -- width
    have hlitw : ∀ ds, sp.width = .lit ds → (∀ c ∈ ds, isDigit c = true) ∧ ∀ c, ds.head? = some c → c ≠ 48 := by
      intro ds hds
      rcases parseNum_cases (t.dropWhile isFlag) with ⟨t', _, e⟩ | ⟨_, h0, e⟩ | ⟨_, h0, e⟩
      · rw [e2, hds] at e; cases e
      · rw [e2, hds] at e; cases e
      · rw [e2, hds] at e
        obtain ⟨e, -⟩ := Prod.mk.inj e
        obtain ⟨e⟩ := e
        obtain ⟨dd, _, dt⟩ := take_drop (p := isDigit) (t.dropWhile isFlag)
        refine ⟨dd, ?_⟩
        intro c hh
        cases hd : t.dropWhile isFlag with
        | nil => rw [hd] at hh; simp at hh
        | cons b l =>
          rw [hd] at hh
          by_cases hb : isDigit b = true
          · simp [hb] at hh; subst hh
            have := ft b (by rw [hd]; rfl)
            intro h48; subst h48; simp [isFlag] at this
          · simp [hb] at hh
    have hfl' : ∀ c ∈ sp.flags, isFlag c = true := by rw [e1]; exact fd
    obtain ⟨w1, w2, w3⟩ := cWidth_text hfl' hargs hlitw hcw
    obtain ⟨p1, r2, s2, -⟩ := run_width (s := { s with ptr := s.ptr + (t.takeWhile isFlag).length, flags := sp.flags })
      hm hw hp hs'.drop ft e2 w3
    simp only at r2 s2
    -- precision
    have hargs1 : args1 = if sp.width = .star then args.tail else args := by
      cases hsw : sp.width with
      | no => rw [hsw] at hcw; simp [cWidth] at hcw; simp [hcw]
      | lit ds => rw [hsw] at hcw; simp [cWidth] at hcw; simp [hcw]
      | star =>
        rw [hsw] at hcw
        unfold cWidth at hcw
        simp only at hcw
        split at hcw
        · split at hcw <;> · simp at hcw; simp [hcw]
        · cases hcw
    have hdot : sp.dot = true → sp.prec ≠ .no := by
      intro hd hno
      simp [hd, hno] at ok2
    have hprecno : sp.dot = false → sp.prec = .no := by
      intro hd
      unfold parsePrec at e3
      split at e3
      · have := (Prod.mk.inj e3).1; rw [hd] at this; cases this
      · have := (Prod.mk.inj e3).2; exact (Prod.mk.inj this).1.symm
    have hneg : sp.dot = true → sp.prec = .star → headInt args1 (fun v => decide (0 ≤ v)) = true := by
      intro _ hst
      rw [hargs1]
      simpa [hst] using ok4
    have hlitp : ∀ ds, sp.prec = .lit ds → (∀ c ∈ ds, isDigit c = true) := by
      intro ds hds
      unfold parsePrec at e3
      split at e3
      · rename_i t'
        have e3' := (Prod.mk.inj e3).2
        rcases parseNum_cases t' with ⟨t'', _, e⟩ | ⟨_, h0, e⟩ | ⟨_, h0, e⟩
        · rw [e3', hds] at e; cases e
        · rw [e3', hds] at e; cases e
        · rw [e3', hds] at e
          obtain ⟨e, -⟩ := Prod.mk.inj e
          obtain ⟨e⟩ := e
          exact (take_drop t').1
      · have := (Prod.mk.inj e3).2
        rw [hds] at this; cases this
    obtain ⟨q1, q2, q3⟩ := cPrec_text w2 hlitp hdot hneg hcp
    have hstarp : sp.prec = .star → sp.dot = true := by
      intro h
      cases hd : sp.dot with
      | true => rfl
      | false => rw [hprecno hd] at h; cases h
    obtain ⟨p2, r3, s3⟩ := run_prec
      (s := { s with ptr := p1, flags := sp.flags, width := (widthText sp.width s.args).1,
                     args := (widthText sp.width s.args).2 })
      hm hp s2 e3 hdot (fun h => q3 (hstarp h) h)
    simp only at r3 s3
    have hargs2 : a :: rest = if sp.prec = .star then args1.tail else args1 := by
      cases hd : sp.dot with
      | false => rw [hd] at hcp; simp [cPrec] at hcp; simp [hcp, hprecno hd]
      | true =>
        rw [hd] at hcp
        cases hsp : sp.prec with
        | no => exact absurd hsp (hdot hd)
        | lit ds => rw [hsp] at hcp; simp [cPrec] at hcp; simp [hcp]
        | star =>
          rw [hsp] at hcp
          unfold cPrec at hcp
          simp only at hcp
          split at hcp
          · split at hcp <;> · simp at hcp; simp [hcp]
          · cases hcp
    rw [hargs1] at hargs2
    rw [← hargs2] at ok5
    obtain ⟨wd, ws, hws, hwa, hwr⟩ := q2
    rw [hlong] at s3
    rw [ok1] at hcv
    -- the conversion
    have r4 := run_conv
      (s := { s with ptr := p2, flags := sp.flags, width := (widthText sp.width s.args).1,
                     prec := (precText sp.dot sp.prec (widthText sp.width s.args).2).1,
                     args := (precText sp.dot sp.prec (widthText sp.width s.args).2).2 })
      hm s3 hws hwa hfl' w1 q1 hcv
      (by
        intro v hv
        subst hv
        simp only [Bool.and_eq_true, Bool.or_eq_true, Bool.not_eq_true', decide_eq_true_eq] at ok5
        refine ⟨fun hx => ?_, fun hx => ?_⟩
        · rcases ok5.1 with h | h
          · rw [hx] at h; cases h
          · exact h
        · rcases ok5.2 with h | h
          · exact absurd hx h
          · exact h)
      (by
        intro hch
        show wordVal (if (widthText sp.width s.args).1 = [] then [48] else (widthText sp.width s.args).1) = W ∧ _
        cases hsw : sp.width with
        | no =>
          rw [hsw] at hcw
          simp only [cWidth, Option.some.injEq, Prod.mk.injEq] at hcw
          obtain ⟨rfl, rfl, _⟩ := hcw
          exact ⟨by simp [widthText, wordVal, decVal], rfl⟩
        | lit ds =>
          rw [hsw] at hcw
          simp only [cWidth, Option.some.injEq, Prod.mk.injEq] at hcw
          obtain ⟨rfl, rfl, _⟩ := hcw
          refine ⟨?_, rfl⟩
          show wordVal (if ds = [] then [48] else ds) = _
          by_cases h0 : ds = []
          · rw [if_pos h0, h0]; simp [wordVal, decVal]
          · rw [if_neg h0]; exact wordVal_digits (hlitw ds hsw).1
        | star =>
          rw [hsw] at hcw w3
          unfold cWidth at hcw
          simp only at hcw
          split at hcw
          · rename_i v r'
            obtain ⟨w', r'', hww, hwv, _⟩ := hargs
            simp only [WordOf] at hwv; subst hwv
            have hv0 : 0 ≤ w' := by
              have := ok3
              simp [hsw, headInt, hch] at this
              exact this
            rw [if_neg (by omega)] at hcw
            simp only [Option.some.injEq, Prod.mk.injEq] at hcw
            obtain ⟨rfl, rfl, _⟩ := hcw
            refine ⟨?_, rfl⟩
            simp only [widthText, hww, List.headD_cons]
            rw [if_neg (showInt_ne w'), wordVal_show hv0]
            omega
          · cases hcw)
      (by
        intro hch
        show (W = 0 → (widthText sp.width s.args).1 = []) ∧ ((widthText sp.width s.args).1 = [] → F = Flags.of sp.flags)
        cases hsw : sp.width with
        | no =>
          rw [hsw] at hcw
          simp only [cWidth, Option.some.injEq, Prod.mk.injEq] at hcw
          exact ⟨fun _ => rfl, fun _ => hcw.1.symm⟩
        | lit ds =>
          rw [hsw] at hcw
          simp only [cWidth, Option.some.injEq, Prod.mk.injEq] at hcw
          obtain ⟨rfl, rfl, _⟩ := hcw
          refine ⟨fun h0 => ?_, fun _ => rfl⟩
          exact decVal_pos (hlitw ds hsw).1 (hlitw ds hsw).2 h0
        | star =>
          rw [hsw] at hcw
          unfold cWidth at hcw
          simp only at hcw
          split at hcw
          · rename_i v r'
            obtain ⟨w', r'', hww, hwv, _⟩ := hargs
            simp only [WordOf] at hwv; subst hwv
            have hv0 : w' ≠ 0 := by
              have := ok3
              simp [hsw, headInt, hch] at this
              exact this
            have hne : (widthText Num.star s.args).1 ≠ [] := by
              simp only [widthText, hww, List.headD_cons]; exact showInt_ne w'
            refine ⟨fun h0 => ?_, fun h => absurd h hne⟩
            split at hcw <;>
            · simp only [Option.some.injEq, Prod.mk.injEq] at hcw
              omega
          · cases hcw)
      (by
        intro x hx
        subst hx
        simpa using ok5)
    refine ⟨p2 + 1, s.start, ws, ?_, s3.2.2.2, hwr⟩
    rw [← e1] at r2
    have r5 := (r1.trans r2).trans (r3.trans r4)
    exact r5

/-- The format up to `u`, from a state between conversions. -/
theorem run_fmt {u : List Nat} : ∀ (n : Nat) {t : List Nat} {s : St} {args args' : List Arg} {o : List Nat},
    s.mod = false → s.flags = [] → s.width = [] → s.prec = [] → StrAt s.mem s.ptr (t ++ u) →
    WordsOf s.mem args s.args → cPrintf n t args = some (o, args') → okFmt n t args = true →
    ∃ p st ws, Runs s { s with ptr := p, start := st, args := ws, out := s.out ++ o } ∧ StrAt s.mem p u ∧
      WordsOf s.mem args' ws := by
  intro n
  induction n with
  | zero => intro t s args args' o _ _ _ _ _ _ h; simp [cPrintf] at h
  | succ n ih =>
    intro t s args args' o hm hf hw hp hs ha h hok
    cases t with
    | nil =>
      simp only [cPrintf, Option.some.injEq, Prod.mk.injEq] at h
      obtain ⟨rfl, rfl⟩ := h
      refine ⟨s.ptr, s.start, s.args, ?_, hs, ha⟩
      have : { s with ptr := s.ptr, start := s.start, args := s.args, out := s.out ++ [] } = s := by simp
      rw [this]; exact Runs.refl s
    | cons c t =>
      obtain ⟨h1, h2, h3, h4⟩ := hs
      simp only [cPrintf] at h
      simp only [okFmt] at hok
      by_cases hc : c ≠ 37
      · rw [if_pos hc] at h hok
        obtain ⟨⟨o', a'⟩, e, h⟩ := Option.bind_eq_some_iff.mp h
        simp only [Option.some.injEq, Prod.mk.injEq] at h
        obtain ⟨rfl, rfl⟩ := h
        obtain ⟨p, st, ws, r, k1, k2⟩ := ih (s := { s with ptr := s.ptr + 1, out := s.out ++ [c] }) hm hf hw hp h4 ha e hok
        refine ⟨p, st, ws, ?_, k1, k2⟩
        refine Runs.trans (Runs.one h3 h1 0 (s' := { s with ptr := s.ptr + 1, out := s.out ++ [c] }) fun k _ => ?_) ?_
        · simp only [round, octal_byte h2, hm]
          rw [if_neg (by simp), if_neg (by omega)]
        · simpa using r
      · have hc' : c = 37 := by omega
        subst hc'
        rw [if_neg (by simp)] at h hok
        have r0 : Runs s { s with ptr := s.ptr + 1, mod := true, start := s.ptr + 1 } := by
          refine Runs.one h3 h1 0 fun k _ => ?_
          simp only [round, octal_byte h2, hm]
          rw [if_neg (by simp), if_pos (by simp)]
        by_cases hpc : t.head? = some 37
        · rw [if_pos hpc] at h hok
          obtain ⟨t', rfl⟩ : ∃ t', t = 37 :: t' := by
            cases t with
            | nil => simp at hpc
            | cons a t => simp at hpc; subst hpc; exact ⟨t, rfl⟩
          simp only [List.tail_cons] at h hok
          obtain ⟨⟨o', a'⟩, e, h⟩ := Option.bind_eq_some_iff.mp h
          simp only [Option.some.injEq, Prod.mk.injEq] at h
          obtain ⟨rfl, rfl⟩ := h
          obtain ⟨g1, g2, g3, g4⟩ := h4
          obtain ⟨p, st, ws, r, k1, k2⟩ := ih
            (s := { s with ptr := s.ptr + 1 + 1, start := s.ptr + 1, out := s.out ++ [37] }) hm hf hw hp g4 ha e hok
          refine ⟨p, st, ws, ?_, k1, k2⟩
          refine Runs.trans r0 (Runs.trans (Runs.mod rfl g3 g1 g2 0
            (s' := { s with ptr := s.ptr + 1 + 1, start := s.ptr + 1, out := s.out ++ [37] }) fun k _ => ?_) ?_)
          · simp [modCase, hf, hw, hp, reset, hm]
          · simpa using r
        · rw [if_neg hpc] at h hok
          obtain ⟨⟨sp, r⟩, e, h⟩ := Option.bind_eq_some_iff.mp h
          simp only at h
          obtain ⟨⟨x, ax⟩, e2, h⟩ := Option.bind_eq_some_iff.mp h
          simp only at h
          obtain ⟨⟨o', a'⟩, e3, h⟩ := Option.bind_eq_some_iff.mp h
          simp only [Option.some.injEq, Prod.mk.injEq] at h
          obtain ⟨rfl, rfl⟩ := h
          rw [e] at hok
          simp only [e2, Bool.and_eq_true] at hok
          obtain ⟨p, st, ws, rs, k1, k2⟩ := run_spec
            (s := { s with ptr := s.ptr + 1, mod := true, start := s.ptr + 1 }) rfl hf hw hp h4 ha
            (parseSpec_append (u := u) e) e2 hok.1
          obtain ⟨p', st', ws', rs', k1', k2'⟩ := ih
            (s := reset { s with ptr := p, mod := true, start := st, args := ws, out := s.out ++ x })
            rfl rfl rfl rfl k1 k2 e3 hok.2
          refine ⟨p', st', ws', ?_, k1', k2'⟩
          have := (r0.trans rs).trans rs'
          simpa [reset, hm, hf, hw, hp] using this

end Verif.RtPrintf
