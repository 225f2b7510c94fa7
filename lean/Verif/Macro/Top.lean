import Verif.Macro.Body
/-! Expanding a file. -/
namespace Verif.Macro
open Verif Verif.Lex Spec

theorem strip_cons {src r : List Tok} {t : Tok} (h : strip src = t :: r) {D : Table} :
    ∃ src', strip src' = r ∧ t ≠ .newline ∧ (∀ u ∈ src', u ∈ src) ∧ t ∈ src ∧ ∀ em, Cont D em (start src) (start (t :: src')) := by
  induction src with
  | nil => simp [strip] at h
  | cons u src ih =>
    by_cases hu : u = .newline
    · subst hu
      have h' : strip src = t :: r := by simpa [strip] using h
      obtain ⟨src', h1, h2, h3, h4, h5⟩ := ih h'
      refine ⟨src', h1, h2, fun v hv => List.mem_cons_of_mem _ (h3 v hv), List.mem_cons_of_mem _ h4, fun em => cont_trans ?_ (h5 em)⟩
      rintro t s ⟨N, h⟩
      refine ⟨N + 1, fun n hn => ?_⟩
      obtain ⟨k, rfl⟩ : ∃ k, n = k + 1 := ⟨n - 1, by omega⟩
      exact h k (by omega)
    · have h' : u :: strip src = t :: r := by
        rw [← h]; simp [strip, hu]
      cases h'
      exact ⟨src, rfl, hu, fun v hv => List.mem_cons_of_mem _ hv, by simp, fun em => cont_refl D em _⟩

theorem gets_raw {D : Table} {t : Tok} (src : List Tok) (ht : t ≠ .newline) : Gets D false (start (t :: src)) (.tok t) (start src) := by
  refine ⟨1, fun n hn => ?_⟩
  obtain ⟨k, rfl⟩ : ∃ k, n = k + 1 := ⟨n - 1, by omega⟩
  cases t <;> first | exact absurd rfl ht | rfl

theorem gets_file {D : Table} {t : Tok} (src : List Tok) (ht : t ≠ .newline) (hi : ∀ x, t = .ident x → D x = none) :
    Gets D true (start (t :: src)) (.tok t) (start src) := by
  refine ⟨1, fun n hn => ?_⟩
  obtain ⟨k, rfl⟩ : ∃ k, n = k + 1 := ⟨n - 1, by omega⟩
  cases t with
  | newline => exact absurd rfl ht
  | ident x =>
    show expand_ident D _ _ _ _ _ _ = _
    rw [expand_ident, hi x rfl]
    rfl
  | _ => rfl

theorem cont_file_obj {D : Table} {m : Name} {b : List BTok} (src : List Tok) (hm : D m = some ⟨b, none⟩) :
    Cont D true (start (.ident m :: src)) (pushed (some m) b [] (start src)) := by
  rintro t s ⟨N, h⟩
  refine ⟨N + 1, fun n hn => ?_⟩
  obtain ⟨k, rfl⟩ : ∃ k, n = k + 1 := ⟨n - 1, by omega⟩
  show expand_ident D _ _ _ _ _ (start src) = _
  have e : already m (start src) = false := rfl
  simp only [expand_ident, hm, attempt, e]
  rw [begin_ok (by simp [start])]
  simp only [Res.bind_ok]
  exact h k (by omega)

theorem cont_file_call {D : Table} {f : Name} {k : Nat} {b : List BTok} {args : List (List BTok)} {st1 st2 : St} (src : List Tok) (hm : D f = some ⟨b, some k⟩)
    (h1 : Gets D true (start src) (.tok lpar) st1) (h2 : GetsArgs D k st1 args st2) (hd : st2.stack.length < 59) :
    Cont D true (start (.ident f :: src)) (pushed (some f) b args st2) := by
  rintro t s ⟨N, h⟩
  obtain ⟨N1, h1⟩ := h1
  obtain ⟨N2, h2⟩ := h2
  refine ⟨N + N1 + N2 + 1, fun n hn => ?_⟩
  obtain ⟨q, rfl⟩ : ∃ q, n = q + 1 := ⟨n - 1, by omega⟩
  show expand_ident D _ _ _ _ _ (start src) = _
  have e : already f (start src) = false := rfl
  simp only [expand_ident, hm, attempt, e]
  simp only [Bool.false_eq_true, if_false]
  rw [h1 q (by omega)]
  simp only [Res.bind_ok, if_true]
  rw [h2 q q (by omega) (by omega)]
  simp only [Res.bind_ok]
  rw [begin_ok hd]
  simp only [Res.bind_ok]
  exact h q (by omega)

theorem rx_cont {D : Table} {em : Bool} {a b s : St} {ts : List Tok} (h : Cont D em a b) (hr : RX D em b ts s) (hn : ts ≠ []) : RX D em a ts s := by
  cases hr with
  | nil => exact absurd rfl hn
  | cons g r => exact .cons (h _ _ g) r

/-- Reading the arguments in the file. -/
theorem rx_raw {D : Table} {r : List Tok} : ∀ (ts src : List Tok), ts ≠ [] → strip src = ts ++ r →
    ∃ src', strip src' = r ∧ (∀ u ∈ src', u ∈ src) ∧ RX D false (start src) ts (start src') := by
  intro ts
  induction ts with
  | nil => intro src h; exact absurd rfl h
  | cons t ts ih =>
    intro src _ hs
    obtain ⟨src1, h1, h2, h3, -, h5⟩ := strip_cons (D := D) hs
    cases ts with
    | nil => exact ⟨src1, h1, h3, .cons (h5 false _ _ (gets_raw src1 h2)) .nil⟩
    | cons u ts =>
      obtain ⟨src2, g1, g2, g3⟩ := ih src1 (by simp) h1
      exact ⟨src2, g1, fun v hv => h3 v (g2 v hv), .cons (h5 false _ _ (gets_raw src1 h2)) g3⟩

theorem bal_append {a b : List Tok} (ha : Bal a) (hb : Bal b) : Bal (a ++ b) := by
  induction ha with
  | nil => exact hb
  | tok h1 h2 _ ih => exact .tok h1 h2 ih
  | @paren a r h1 _ _ ih =>
    have e : lpar :: a ++ rpar :: r ++ b = lpar :: a ++ rpar :: (r ++ b) := by simp
    rw [e]
    exact .paren h1 ih

theorem bal_arg {a : List Tok} (ha : ArgText a) : Bal a := by
  induction ha with
  | nil => exact .nil
  | tok h1 h2 _ _ ih => exact .tok h1 h2 ih
  | paren h1 _ ih => exact .paren h1 ih

theorem bal_inter : ∀ {as : List (List Tok)}, (∀ a ∈ as, ArgText a) → Bal (List.intercalate [comma] as) := by
  intro as
  induction as with
  | nil => intro _; simp [List.intercalate]; exact .nil
  | cons a as ih =>
    intro h
    cases as with
    | nil => rw [inter_one]; exact bal_arg (h a (by simp))
    | cons b as =>
      rw [inter_cons]
      exact bal_append (bal_arg (h a (by simp))) (.tok (by simp) (by simp) (ih (fun a ha => h a (by simp [ha]))))

theorem argsRanked_suffix {C : CTable} {rk : Name → Nat} {a b : List Tok} (h : ArgsRanked C rk (a ++ b)) : ArgsRanked C rk b := by
  intro pre f text post hs
  exact h (a ++ pre) f text post (by rw [hs]; simp)

/-- The arguments of a call in the file are read as they are, and expanded where they are used. -/
theorem env_file {C : CTable} {D : Table} {rk : Name → Nat} (hR : Ranked C rk) {ps : List Name} (hn : ps.Nodup)
    {as os : List (List Tok)} (hl1 : as.length = ps.length) (hl2 : os.length = ps.length) {f : Name} {c : CMacro} (hf : C f = some c)
    (hhh : ∀ a ∈ as, ∀ t ∈ a, t ≠ .op .hashHash) (hrk : ∀ a ∈ as, ∀ x ∈ names a, C x ≠ none → rk x ≤ rk f)
    (hs : ∀ p ∈ as.zip os, Sim C D rk [] (fun _ => none) p.1 p.2) {b : List BTok} {src : List Tok} :
    EnvOK C D ps (fun x => (ps.zip os).lookup x) (pushed (some f) b (as.map (·.map .tok)).reverse (start src)) := by
  constructor
  · intro x hx
    cases e : (ps.zip os).lookup x with
    | none => exact e
    | some o => exact absurd ((lookup_zip hl2.symm).2 ⟨o, e⟩) hx
  · intro x hx
    obtain ⟨⟨a, o⟩, e⟩ := (lookup_zip (os := as.zip os) (l := ps) (by simp; omega)).1 hx
    have hm := lookup_mem e
    have hz := (List.of_mem_zip hm).2
    have ha := (List.of_mem_zip hz).1
    have hi : (as.zip os).reverse[ps.reverse.idxOf x]? = some (a, o) :=
      mem_zip_idx (mem_zip_reverse (by simp; omega) hm) (List.nodup_reverse.2 hn)
    have hrev : (as.zip os).reverse = as.reverse.zip os.reverse := by
      rw [List.zip_eq_zipWith, List.reverse_zipWith (by omega), ← List.zip_eq_zipWith]
    rw [hrev, List.getElem?_zip_eq_some] at hi
    obtain ⟨i1, i2⟩ := hi
    obtain ⟨o', e'⟩ := (lookup_zip hl2.symm).1 hx
    have ho' := mem_zip_idx (mem_zip_reverse hl2.symm (lookup_mem e')) (List.nodup_reverse.2 hn)
    rw [i2] at ho'
    cases ho'
    have hlk : ∀ l : List Tok, l.map (lookup_macro_token []) = l.map .tok := by
      intro l
      apply List.map_congr_left
      intro t _
      unfold lookup_macro_token
      split <;> simp
    have main : ∀ r, HH ∉ r → OutOK C o ∧ ∀ em, Reads D em (pushed none (a.map .tok) [] (setToks (pushed (some f) b (as.map (·.map .tok)).reverse (start src)) r)) o
        (setToks (pushed (some f) b (as.map (·.map .tok)).reverse (start src)) r) := by
      intro r hr
      obtain ⟨q1, q2⟩ := hs (a, o) hz (rk f + 1) [] (pushed none (a.map .tok) [] (setToks (pushed (some f) b (as.map (·.map .tok)).reverse (start src)) r)) []
        ⟨rfl, rfl, envOK_nil C D _, by simp, .inl ⟨rfl, by
            intro g hg y hy
            simp only [pushed, setToks, start, List.mem_cons, List.not_mem_nil, or_false] at hg
            rcases hg with rfl | rfl
            · simp at hy; subst hy; exact Nat.le_refl _
            · simp at hy⟩, by
            have := (hR f c hf).1
            simp [pushed, setToks, start]; omega⟩ (by simp [pushed, hlk]) (hh_map (hhh a ha))
        (fun x hx _ hCx => by have := hrk a ha x hx hCx; omega)
      exact ⟨q1, fun em => reads_then (q2 em) (cont_pushed D em _ _ _)⟩
    refine ⟨o, a.map .tok, e', ?_, (main [] (by simp)).1, fun em r hr => (main r hr).2 em⟩
    simp only [pushed, ← List.map_reverse, List.getElem?_map, i1, Option.map_some]

/-- Replacement text does not contain `##`. -/
theorem exp_hh {C : CTable} {hide : List Name} {env : Name → Option (List Tok)} {ts out : List Tok} (h : Exp C hide env ts out) : ∀ t ∈ ts, t ≠ .op .hashHash := by
  have inter : ∀ (as os : List (List Tok)), as.length = os.length → (∀ p ∈ as.zip os, ∀ t ∈ p.1, t ≠ Tok.op .hashHash) →
      ∀ t ∈ List.intercalate [comma] as, t ≠ Tok.op .hashHash := by
    intro as
    induction as with
    | nil => intro os _ _ t ht; simp [List.intercalate] at ht
    | cons a as ih =>
      intro os hl hp
      cases os with
      | nil => simp at hl
      | cons o os =>
        cases as with
        | nil => rw [inter_one]; exact hp (a, o) (by simp)
        | cons b as =>
          rw [inter_cons]
          intro t ht
          rcases List.mem_append.1 ht with ht | ht
          · exact hp (a, o) (by simp) t ht
          · rcases List.mem_cons.1 ht with rfl | ht
            · simp
            · exact ih os (by simpa using hl) (fun p hp' => hp p (by simp [hp'])) t ht
  induction h with
  | nil => simp
  | plain ht _ ih => intro u hu; rcases List.mem_cons.1 hu with rfl | hu; exacts [ht.2.2.1, ih u hu]
  | param _ _ ih => intro u hu; rcases List.mem_cons.1 hu with rfl | hu; exacts [by simp, ih u hu]
  | ident _ _ _ ih => intro u hu; rcases List.mem_cons.1 hu with rfl | hu; exacts [by simp, ih u hu]
  | hidden _ _ _ ih => intro u hu; rcases List.mem_cons.1 hu with rfl | hu; exacts [by simp, ih u hu]
  | obj _ _ _ _ _ _ ih => intro u hu; rcases List.mem_cons.1 hu with rfl | hu; exacts [by simp, ih u hu]
  | call _ _ _ hl1 hl2 _ _ _ _ _ _ _ iha _ ih =>
    intro u hu
    rcases List.mem_cons.1 hu with rfl | hu
    · simp
    · rcases List.mem_cons.1 hu with rfl | hu
      · simp
      · rcases List.mem_append.1 hu with hu | hu
        · exact inter _ _ (by omega) iha u hu
        · rcases List.mem_cons.1 hu with rfl | hu
          · simp
          · exact ih u hu

theorem mem_zip_left {α β : Type} : ∀ {l : List α} {m : List β}, l.length = m.length → ∀ {a}, a ∈ l → ∃ b, (a, b) ∈ l.zip m := by
  intro l
  induction l with
  | nil => intro m _ a h; simp at h
  | cons x l ih =>
    intro m hl a ha
    cases m with
    | nil => simp at hl
    | cons y m =>
      rcases List.mem_cons.1 ha with rfl | ha
      · exact ⟨y, by simp⟩
      · obtain ⟨b, hb⟩ := ih (by simpa using hl) ha
        exact ⟨b, by simp [hb]⟩

theorem mem_inter : ∀ {as : List (List Tok)} {a : List Tok} {x : Tok}, a ∈ as → x ∈ a → x ∈ List.intercalate [comma] as := by
  intro as
  induction as with
  | nil => intro a x h; simp at h
  | cons b as ih =>
    intro a x ha hx
    cases as with
    | nil => simp at ha; subst ha; rw [inter_one]; exact hx
    | cons c as =>
      rw [inter_cons]
      rcases List.mem_cons.1 ha with rfl | ha
      · exact List.mem_append_left _ hx
      · exact List.mem_append_right _ (List.mem_cons_of_mem _ (ih ha hx))

theorem mem_strip {src : List Tok} {t : Tok} (h : t ∈ strip src) : t ∈ src := List.mem_of_mem_filter h

theorem top_sim {C : CTable} {D : Table} {rk : Name → Nat} (hD : Defined C D) (hW : WF C) (hR : Ranked C rk) {hide : List Name}
    {env : Name → Option (List Tok)} {ts out : List Tok} (h : Exp C hide env ts out) (hhide : hide = []) (henv : env = fun _ => none) :
    ∀ src rest, strip src = ts ++ rest → Tok.eof ∉ src → ArgsRanked C rk (ts ++ rest) →
      OutOK C out ∧ ∃ src', strip src' = rest ∧ (∀ u ∈ src', u ∈ src) ∧ Reads D true (start src) out (start src') := by
  induction h with
  | nil =>
    intro src rest hs _ _
    exact ⟨by intro t ht; simp at ht, src, hs, fun _ h => h, reads_refl D true _⟩
  | @plain hide env t r out ht _ ih =>
    intro src rest hs he hA
    obtain ⟨src1, h1, h2, h3, -, h5⟩ := strip_cons (D := D) hs
    obtain ⟨q1, src', q2, qm, q3⟩ := ih hhide henv src1 rest h1 (fun h => he (h3 _ h)) (argsRanked_suffix (a := [t]) hA)
    refine ⟨?_, src', q2, fun u hu => h3 u (qm u hu), .cons (h5 true _ _ (gets_file src1 h2 (fun x hx => absurd hx (ht.1 x)))) q3⟩
    intro u hu
    rcases List.mem_cons.1 hu with rfl | hu
    · exact .inl ht
    · exact q1 u hu
  | param hx _ _ => subst henv; simp at hx
  | @ident hide env x r out _ hC _ ih =>
    intro src rest hs he hA
    obtain ⟨src1, h1, h2, h3, -, h5⟩ := strip_cons (D := D) hs
    obtain ⟨q1, src', q2, qm, q3⟩ := ih hhide henv src1 rest h1 (fun h => he (h3 _ h)) (argsRanked_suffix (a := [.ident x]) hA)
    refine ⟨?_, src', q2, fun u hu => h3 u (qm u hu), .cons (h5 true _ _ (gets_file src1 h2 (fun y hy => by cases hy; exact def_none hD hC))) q3⟩
    intro u hu
    rcases List.mem_cons.1 hu with rfl | hu
    · exact .inr ⟨x, rfl, hC⟩
    · exact q1 u hu
  | hidden _ hi _ _ => subst hhide; simp at hi
  | @obj hide env m body o r out hx hi hC hb _ _ ih =>
    intro src rest hs he hA
    obtain ⟨src1, h1, h2, h3, -, h5⟩ := strip_cons (D := D) hs
    obtain ⟨q1, src', q2, qm, q3⟩ := ih hhide henv src1 rest h1 (fun h => he (h3 _ h)) (argsRanked_suffix (a := [.ident m]) hA)
    obtain ⟨-, hw⟩ := hW m _ hC
    obtain ⟨hrm, hrk⟩ := hR m _ hC
    subst hhide
    obtain ⟨q4, q5⟩ := body_sim hD hW hR hb (rk m) [] (pushed (some m) (body.map (lookup_macro_token [])) [] (start src1)) []
      ⟨rfl, rfl, envOK_nil C D _, fun h hh' _ => by simp at hh'; subst hh'; exact Nat.le_refl _,
        .inr (by
          intro g hg y hy
          simp only [pushed, start, List.mem_cons, List.not_mem_nil, or_false] at hg
          rcases hg with rfl | rfl
          · simp at hy; subst hy; exact Nat.le_refl _
          · simp at hy), by simp [pushed, start]; omega⟩ (by simp [pushed]) (hh_body (fun t ht => (hw t ht).2.2.2))
      (fun x hx _ hCx => hrk x hx (by simp [CMacro.params]) hCx)
    refine ⟨outOK_append q4 q1, src', q2, fun u hu => h3 u (qm u hu), ?_⟩
    have c2 := reads_then (q5 true) (c := start src1) (cont_pushed D true _ _ _)
    exact reads_cont (h5 true) (reads_append (reads_cont (cont_file_obj src1 (def_obj hD hW hC)) c2) q3)
  | @call hide env f ps body as os o r out hx hi hC hl1 hl2 ha1 ha2 hh1 hh2 hsub hb _ _ _ ih =>
    intro src rest hs he hA
    subst hhide
    subst henv
    obtain ⟨src1, h1, -, h3, -, h5⟩ := strip_cons (D := D) hs
    obtain ⟨src2, g1, g2, g3, -, g5⟩ := strip_cons (D := D) h1
    have hts : strip src2 = (List.intercalate [comma] as ++ [rpar]) ++ (r ++ rest) := by rw [g1]; simp
    obtain ⟨src3, k1, k2, k3⟩ := rx_raw (D := D) _ src2 (by simp) hts
    have hA' : ArgsRanked C rk (r ++ rest) := by
      refine argsRanked_suffix (a := .ident f :: lpar :: (List.intercalate [comma] as ++ [rpar])) ?_
      simpa using hA
    obtain ⟨q1, src', q2, qm, q3⟩ := ih rfl rfl src3 rest k1 (fun h => he (h3 _ (g3 _ (k2 _ h)))) hA'
    obtain ⟨hnd, hw⟩ := hW f _ hC
    obtain ⟨hrm, hrk⟩ := hR f _ hC
    simp only [CMacro.params] at hnd
    have hargs : ∀ a ∈ as, ∀ x ∈ names a, C x ≠ none → rk x ≤ rk f := by
      intro a ha x hx hCx
      exact hA [] f (List.intercalate [comma] as) (r ++ rest) (by simp) (by rw [hC]; simp) (bal_inter ha1) x (names_inter ha hx) hCx
    have hhas : ∀ a ∈ as, ∀ t ∈ a, t ≠ .op .hashHash := by
      intro a ha
      obtain ⟨o', hz⟩ := mem_zip_left (m := os) (by omega) ha
      exact exp_hh (hsub _ hz)
    have eof : ∀ a ∈ as, Tok.eof ∉ a := by
      intro a ha hx
      apply he
      apply mem_strip
      rw [hs]
      simp [mem_inter ha hx]
    obtain ⟨q4, q5⟩ := body_sim hD hW hR hb (rk f) ps (pushed (some f) (body.map (lookup_macro_token ps.reverse)) (as.map (·.map .tok)).reverse (start src3)) []
      ⟨rfl, rfl, env_file hR hnd hl1 hl2 hC hhas hargs (fun p hp => body_sim hD hW hR (hsub p hp)), fun h hh' _ => by simp at hh'; subst hh'; exact Nat.le_refl _,
        .inr (by
          intro g hg y hy
          simp only [pushed, start, List.mem_cons, List.not_mem_nil, or_false] at hg
          rcases hg with rfl | rfl
          · simp at hy; subst hy; exact Nat.le_refl _
          · simp at hy), by simp [pushed, start]; omega⟩ (by simp [pushed]) (hh_body (fun t ht => (hw t ht).2.2.2))
      (fun x hx hxp hCx => hrk x hx hxp hCx)
    refine ⟨outOK_append q4 q1, src', q2, fun u hu => h3 u (g3 u (k2 u (qm u hu))), ?_⟩
    have c2 := reads_then (q5 true) (c := start src3) (cont_pushed D true _ _ _)
    have p1 := g5 true _ _ (gets_file src2 (t := lpar) (by simp) (by simp))
    have p2 := getsArgs_stream (as := as) (fun a ha => ⟨ha1 a ha, eof a ha⟩) hh1 k3
    rw [hl1] at p2
    exact reads_cont (h5 true) (reads_append (reads_cont (cont_file_call src1 (def_fn hD hW hC) p1 p2 (by simp [start])) c2) q3)

theorem gets_end {D : Table} : ∀ {src : List Tok}, strip src = [] → Gets D true (start src) (.tok .eof) (start []) := by
  intro src
  induction src with
  | nil =>
    intro _
    refine ⟨1, fun n hn => ?_⟩
    obtain ⟨k, rfl⟩ : ∃ k, n = k + 1 := ⟨n - 1, by omega⟩
    rfl
  | cons u src ih =>
    intro h
    by_cases hu : u = .newline
    · subst hu
      obtain ⟨N, hN⟩ := ih (by simpa [strip] using h)
      refine ⟨N + 1, fun n hn => ?_⟩
      obtain ⟨k, rfl⟩ : ∃ k, n = k + 1 := ⟨n - 1, by omega⟩
      exact hN k (by omega)
    · simp [strip, hu] at h

/-- From reading to the whole stream. -/
theorem reads_expands {D : Table} {st s s' : St} {out : List Tok} (h : Reads D true st out s) (he : Tok.eof ∉ out) (hg : Gets D true s (.tok .eof) s') :
    ∃ N, ∀ n, N ≤ n → expandF D n st = .ok out := by
  induction h with
  | done hc =>
    obtain ⟨N, h⟩ := hc _ _ hg
    refine ⟨N + 1, fun n hn => ?_⟩
    obtain ⟨k, rfl⟩ : ∃ k, n = k + 1 := ⟨n - 1, by omega⟩
    rw [expandF, h k (by omega)]
    rfl
  | @cons st t st1 ts _ g _ ih =>
    obtain ⟨N1, h1⟩ := ih (fun h => he (by simp [h])) hg
    obtain ⟨N2, h2⟩ := g
    refine ⟨N1 + N2 + 1, fun n hn => ?_⟩
    obtain ⟨k, rfl⟩ : ∃ k, n = k + 1 := ⟨n - 1, by omega⟩
    have ht : t ≠ .eof := fun h => he (by simp [h])
    rw [expandF, h2 k (by omega)]
    simp only [Res.bind_ok]
    rw [h1 k (by omega)]
    cases t <;> first | exact absurd rfl ht | rfl

theorem gets_uncalled {D : Table} {f : Name} {k : Nat} {b : List BTok} {src src' : List Tok} {t : Tok} (hm : D f = some ⟨b, some k⟩)
    (hg : Gets D true (start src) (.tok t) (start src')) (ht : t ≠ lpar) : Gets D true (start (.ident f :: src)) (.tok (.ident f)) (pushed none [.tok t] [] (start src')) := by
  obtain ⟨N, h⟩ := hg
  refine ⟨N + 1, fun n hn => ?_⟩
  obtain ⟨q, rfl⟩ : ∃ q, n = q + 1 := ⟨n - 1, by omega⟩
  show expand_ident D _ _ _ _ _ (start src) = _
  have e : already f (start src) = false := rfl
  simp only [expand_ident, hm, attempt, e]
  simp only [Bool.false_eq_true, if_false]
  rw [h q (by omega)]
  have e2 : ¬ BTok.tok t = .tok (.op (.ch 40)) := by simpa using ht
  simp only [Res.bind_ok, if_neg e2]
  rw [begin_ok (by simp [start])]
  rfl

theorem file_sim {C : CTable} {D : Table} {rk : Name → Nat} (hD : Defined C D) (hW : WF C) (hR : Ranked C rk) {ts out : List Tok} (h : File C ts out) :
    ∀ src, strip src = ts → Tok.eof ∉ src → ArgsRanked C rk ts →
      Tok.eof ∉ out ∧ ∃ src', strip src' = [] ∧ Reads D true (start src) out (start src') := by
  induction h with
  | nil => intro src hs _ _; exact ⟨by simp, src, hs, reads_refl D true _⟩
  | @seg a o r out ha _ ih =>
    intro src hs he hA
    obtain ⟨q1, src1, q2, q3, q4⟩ := top_sim hD hW hR ha rfl rfl src r hs he hA
    obtain ⟨p1, src', p2, p3⟩ := ih src1 q2 (fun h => he (q3 _ h)) (argsRanked_suffix hA)
    refine ⟨?_, src', p2, reads_append q4 p3⟩
    intro h
    rcases List.mem_append.1 h with h | h
    · exact outOK_eof q1 h
    · exact p1 h
  | @name f ps b t r out hf ht hi _ ih =>
    intro src hs he hA
    obtain ⟨src1, h1, -, h3, -, h5⟩ := strip_cons (D := D) hs
    obtain ⟨src2, g1, g2, g3, g4, g5⟩ := strip_cons (D := D) h1
    obtain ⟨p1, src', p2, p3⟩ := ih src2 g1 (fun h => he (h3 _ (g3 _ h))) (argsRanked_suffix (a := [.ident f, t]) hA)
    have hte : t ≠ .eof := fun h => he (h3 _ (h ▸ g4))
    refine ⟨?_, src', p2, ?_⟩
    · intro h
      simp only [List.mem_cons] at h
      rcases h with h | h | h
      · cases h
      · exact hte h.symm
      · exact p1 h
    · have gt := g5 true _ _ (gets_file (D := D) src2 g2 (by
        rintro x rfl
        rcases hi with h | ⟨y, hy, h⟩
        · exact absurd rfl (h.1 x)
        · cases hy; exact def_none hD h))
      refine .cons (h5 true _ _ (gets_uncalled (def_fn hD hW hf) gt ht)) (.cons (st1 := pushed none [] [] (start src2)) ?_ (reads_cont (cont_pushed D true none [] _) p3))
      rcases hi with h | ⟨x, rfl, h⟩
      · exact gets_plain (st := pushed none [.tok t] [] (start src2)) rfl rfl (by simp) h
      · exact gets_ident (st := pushed none [.tok (.ident x)] [] (start src2)) rfl rfl (by simp) (def_none hD h)

end Verif.Macro
