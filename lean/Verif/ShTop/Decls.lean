import Verif.ShTop.Proofs
/-! Top-level declarations: the lines they add find everything they use. -/
namespace Verif.ShTop
open Verif Spec

/-- In the middle of a declaration that started in `s0`. -/
structure Mid (c : Cfg) (s0 s : E) : Prop where
  inv : Inv c noP s
  later : Later s0 s
  user : ∀ n ds, Cmd.defun n ds ∈ s.out → isRtFn n = false → Cmd.defun n ds ∈ s0.out
  mainDefined : s.mainDefined = s0.mainDefined
  mainReturns : s.mainReturns = s0.mainReturns
  argv : s.use .make_argv = s0.use .make_argv
  lines : LinesOk s.out s.pend
  nodef : ∀ n ds, Cmd.defun n ds ∉ s.pend

/-- Lines are only added. -/
structure Grow (s s' : E) : Prop where
  out : ∀ x ∈ s.out, x ∈ s'.out
  pend : ∀ x ∈ s.pend, x ∈ s'.pend

theorem Grow.refl (s : E) : Grow s s := ⟨fun _ h => h, fun _ h => h⟩

theorem Grow.trans {a b d : E} (h : Grow a b) (k : Grow b d) : Grow a d :=
  ⟨fun x hx => k.out x (h.out x hx), fun x hx => k.pend x (h.pend x hx)⟩

/-- There when the lines so far have been printed. -/
def Here (s : E) (d : Need) : Prop := Met (s.out ++ s.pend) d

theorem Here.grow {s s' : E} {d : Need} (h : Here s d) (g : Grow s s') : Here s' d := by
  refine h.mono fun x hx => ?_
  rcases List.mem_append.mp hx with hx | hx
  · exact List.mem_append_left _ (g.out x hx)
  · exact List.mem_append_right _ (g.pend x hx)

/-- What a step within a declaration does. -/
def Steps (c : Cfg) (s0 s s' : E) : Prop := Mid c s0 s → Mid c s0 s' ∧ Grow s s'

theorem Steps.refl (c : Cfg) (s0 s : E) : Steps c s0 s s := fun h => ⟨h, .refl s⟩

theorem Steps.trans {c s0 a b d} (h : Steps c s0 a b) (k : Steps c s0 b d) : Steps c s0 a d := fun m =>
  have ⟨m1, g1⟩ := h m
  have ⟨m2, g2⟩ := k m1
  ⟨m2, g1.trans g2⟩

theorem Steps.quiet {c s0 s s'} (q : Quiet s s') : Steps c s0 s s' := by
  intro m
  refine ⟨⟨?_, m.later.trans q.later, ?_, q.mainDefined.trans m.mainDefined, q.mainReturns.trans m.mainReturns,
    q.argv.trans m.argv,
    ?_, ?_⟩, ?_, ?_⟩
  · obtain ⟨a, b, d, e, f⟩ := m.inv
    refine ⟨?_, ?_, ?_, ?_, ?_⟩
    · rw [q.out]; exact a
    · rw [q.out]; exact b
    · rw [q.out, q.defined]; exact d
    · rw [q.out, q.defined]; exact e
    · rw [q.out]; exact f
  · rw [q.out]; exact m.user
  · rw [q.out, q.pend]; exact m.lines
  · rw [q.pend]; exact m.nodef
  · rw [q.out]; exact fun _ h => h
  · rw [q.pend]; exact fun _ h => h

theorem Steps.prints {c s0 s s' f} (h : Inv c noP s → (∀ g, noP g → rank f < rank g) → Prints c noP s s' f) :
    Mid c s0 s → Mid c s0 s' ∧ Grow s s' ∧ ∀ d ∈ prov c f, Met s'.out d := by
  intro m
  have p := h m.inv (fun _ => False.elim)
  obtain ⟨T, hT, hT'⟩ := p.ext.out
  have hsub : ∀ x ∈ s.out, x ∈ s'.out := fun x hx => by rw [hT]; exact List.mem_append_left _ hx
  refine ⟨⟨p.inv, m.later.trans p.ext.later, ?_, p.ext.mainDefined.trans m.mainDefined,
    p.ext.mainReturns.trans m.mainReturns, (by rw [p.ext.use]; exact m.argv), ⟨?_, ?_⟩, ?_⟩, ⟨hsub, ?_⟩, p.met (fun _ => False.elim)⟩
  · intro n ds hm hn
    rw [hT] at hm
    rcases List.mem_append.mp hm with hm | hm
    · exact m.user n ds hm hn
    · rw [hT' n ds hm] at hn; cases hn
  · rw [p.ext.pend]
    intro pre x post he d hd
    obtain ⟨h1, h2⟩ := m.lines.needs pre x post he d hd
    refine ⟨h1, h2.mono fun y hy => ?_⟩
    rcases List.mem_append.mp hy with hy | hy
    · exact List.mem_append_left _ (hsub y hy)
    · exact List.mem_append_right _ hy
  · rw [p.ext.pend]; exact m.lines.user
  · rw [p.ext.pend]; exact m.nodef
  · rw [p.ext.pend]; exact fun _ h => h

theorem Steps.append {c s0 s x} (hn : ∀ d ∈ needs x, rtNeed d ∧ Here s d) (hd : ∀ n ds, x ≠ .defun n ds) :
    Steps c s0 s (s.append x) := by
  intro m
  refine ⟨⟨?_, ⟨m.later.out, m.later.use, m.later.chars⟩, m.user, m.mainDefined, m.mainReturns, m.argv, ⟨?_, ?_⟩, ?_⟩,
    fun _ h => h, fun y hy => ?_⟩
  · exact ⟨m.inv.complete, m.inv.closed, m.inv.prov, m.inv.fresh, m.inv.nodup⟩
  · intro pre y post he d hd'
    have he' : s.pend ++ [x] = pre ++ y :: post := he
    rw [List.append_eq_append_iff] at he'
    rcases he' with ⟨a, h1, h2⟩ | ⟨a, h1, h2⟩
    · cases a with
      | nil =>
        simp only [List.nil_append, List.cons.injEq] at h2
        rw [← h2.1] at hd'
        rw [h1, List.append_nil]
        exact hn d hd'
      | cons z a => simp at h2
    · cases a with
      | nil =>
        simp only [List.nil_append, List.cons.injEq] at h2
        rw [h2.1] at hd'
        rw [List.append_nil] at h1
        rw [← h1]
        exact hn d hd'
      | cons z a =>
        simp only [List.cons_append, List.cons.injEq] at h2
        exact m.lines.needs pre z a h1 d (by rw [← h2.1]; exact hd')
  · intro n ds hm
    rcases List.mem_append.mp hm with hm | hm
    · exact m.lines.user n ds hm
    · exact absurd (List.mem_singleton.mp hm).symm (hd n ds)
  · intro n ds hm
    rcases List.mem_append.mp hm with hm | hm
    · exact m.nodef n ds hm
    · exact absurd (List.mem_singleton.mp hm).symm (hd n ds)
  · exact List.mem_append_left _ hy

theorem here_append {s : E} {x : Cmd} {n : Nm} (h : n ∈ sets x) : Here (s.append x) (.var n) :=
  ⟨x, by simp [E.append], h⟩

/-! ### Strings -/

theorem compDefstr_steps (c : Cfg) (s0 s : E) (n : Nm) (t : List Nat) (size : Option Nat) :
    Steps c s0 s (compDefstr c s n t size) ∧ Here (compDefstr c s n t size) (.var n) := by
  refine ⟨?_, here_append (by simp [sets])⟩
  intro m
  obtain ⟨m1, g1, p1⟩ := Steps.prints (f := .defstr) (rtDefstr_prints (c := c) (s := s)) m
  obtain ⟨m2, g2⟩ := Steps.append (s := rtDefstr c s) (x := .defstr n t size) (by
    simp only [needs, List.mem_singleton]
    rintro d rfl
    exact ⟨rfl, (p1 _ (by simp [prov])).left⟩) (by simp) m1
  exact ⟨m2, g1.trans g2⟩

theorem litInits_quiet : ∀ (e : IE) (s : E), Quiet s (litInits s e).1
  | .int _, s => .refl s
  | .chr _, s => .refl s
  | .name _, s => .refl s
  | .str t, s => .freshString s t
  | .neg a, s => litInits_quiet a s
  | .add a b, s => (litInits_quiet a s).trans (litInits_quiet b _)
  | .sub a b, s => (litInits_quiet a s).trans (litInits_quiet b _)
  | .mul a b, s => (litInits_quiet a s).trans (litInits_quiet b _)

theorem defLits_steps (c : Cfg) (s0 : E) : ∀ (L : List (Nat × List Nat)) (s : E), Mid c s0 s →
    Mid c s0 (defLits c s L) ∧ Grow s (defLits c s L) ∧ ∀ k ∈ L.map (·.1), Here (defLits c s L) (.var (.str k))
  | [], s, m => ⟨m, .refl s, by simp⟩
  | (k, t) :: L, s, m => by
    obtain ⟨h1, h2⟩ := compDefstr_steps c s0 s (.str k) t none
    obtain ⟨m1, g1⟩ := h1 m
    obtain ⟨m2, g2, h3⟩ := defLits_steps c s0 L _ m1
    refine ⟨m2, g1.trans g2, ?_⟩
    simp only [List.map_cons, List.mem_cons]
    rintro j (rfl | hj)
    · exact h2.grow g2
    · exact h3 j hj

theorem compRv_ok {c : Cfg} {before : List Id} : ∀ {e : IE} {s : E} {ids : List Nat} {r}, IEOk c before e →
    compRv c s ids e = .ok r →
    Quiet s r.1 ∧ (∀ k ∈ r.2.1, k ∈ ids) ∧
    ∀ n ∈ rvVars r.2.2, (∃ x ∈ before, n = .g x) ∨ (∃ k ∈ ids, n = .str k)
  | .int v, s, ids, r, _, h => by
    simp only [compRv, Res.ok.injEq] at h; subst h
    exact ⟨.refl s, fun _ h => h, by simp [rvVars]⟩
  | .chr ch, s, ids, r, ho, h => by
    have ho' : c.inlineChar = true := ho
    simp only [compRv, ho', if_true, Res.ok.injEq] at h; subst h
    exact ⟨.refl s, fun _ h => h, by simp [rvVars]⟩
  | .name x, s, ids, r, ho, h => by
    simp only [compRv, Res.ok.injEq] at h; subst h
    refine ⟨.refl s, fun _ h => h, ?_⟩
    simp only [rvVars, List.mem_singleton]
    rintro n rfl
    exact .inl ⟨x, ho, rfl⟩
  | .str t, s, [], r, _, h => by
    simp only [compRv, Res.ok.injEq] at h; subst h
    exact ⟨.refl s, fun _ h => h, by simp [rvVars]⟩
  | .str t, s, k :: ids, r, _, h => by
    simp only [compRv, Res.ok.injEq] at h; subst h
    refine ⟨.refl s, fun _ h => List.mem_cons_of_mem _ h, ?_⟩
    simp only [rvVars, List.mem_singleton]
    rintro n rfl
    exact .inr ⟨k, List.mem_cons_self, rfl⟩
  | .neg a, s, ids, r, ho, h => by
    simp only [compRv] at h
    obtain ⟨q, h1, h2⟩ := Res.bind_eq_ok.mp h
    cases h2
    have := compRv_ok (e := a) ho h1
    exact this
  | .add a b, s, ids, r, ho, h => by
    simp only [compRv] at h
    obtain ⟨q, h1, h2⟩ := Res.bind_eq_ok.mp h
    obtain ⟨q', h3, h4⟩ := Res.bind_eq_ok.mp h2
    cases h4
    obtain ⟨a1, a2, a3⟩ := compRv_ok ho.1 h1
    obtain ⟨b1, b2, b3⟩ := compRv_ok ho.2 h3
    refine ⟨a1.trans b1, fun k hk => a2 k (b2 k hk), ?_⟩
    intro n hn
    rcases List.mem_append.mp hn with hn | hn
    · exact a3 n hn
    · rcases b3 n hn with k | ⟨k, hk, e⟩
      · exact .inl k
      · exact .inr ⟨k, a2 k hk, e⟩
  | .sub a b, s, ids, r, ho, h => by
    simp only [compRv] at h
    obtain ⟨q, h1, h2⟩ := Res.bind_eq_ok.mp h
    obtain ⟨q', h3, h4⟩ := Res.bind_eq_ok.mp h2
    cases h4
    obtain ⟨a1, a2, a3⟩ := compRv_ok ho.1 h1
    obtain ⟨b1, b2, b3⟩ := compRv_ok ho.2 h3
    refine ⟨a1.trans b1, fun k hk => a2 k (b2 k hk), ?_⟩
    intro n hn
    rcases List.mem_append.mp hn with hn | hn
    · exact a3 n hn
    · rcases b3 n hn with k | ⟨k, hk, e⟩
      · exact .inl k
      · exact .inr ⟨k, a2 k hk, e⟩
  | .mul a b, s, ids, r, ho, h => by
    simp only [compRv] at h
    obtain ⟨q, h1, h2⟩ := Res.bind_eq_ok.mp h
    obtain ⟨q', h3, h4⟩ := Res.bind_eq_ok.mp h2
    cases h4
    obtain ⟨a1, a2, a3⟩ := compRv_ok ho.1 h1
    obtain ⟨b1, b2, b3⟩ := compRv_ok ho.2 h3
    refine ⟨a1.trans b1, fun k hk => a2 k (b2 k hk), ?_⟩
    intro n hn
    rcases List.mem_append.mp hn with hn | hn
    · exact a3 n hn
    · rcases b3 n hn with k | ⟨k, hk, e⟩
      · exact .inl k
      · exact .inr ⟨k, a2 k hk, e⟩

/-! ### Declarators -/

/-- What compiling a declarator achieves. -/
structure Done (c : Cfg) (s0 s s' : E) (xs : List Id) : Prop where
  mid : Mid c s0 s'
  grow : Grow s s'
  here : ∀ x ∈ xs, Here s' (.var (.g x))

theorem compAssign_ok {c s0 s s' x e before} (m : Mid c s0 s) (hb : ∀ y ∈ before, Here s (.var (.g y)))
    (he : IEOk c before e) (h : compAssign c s x e = .ok s') : Done c s0 s s' [x] := by
  unfold compAssign at h
  obtain ⟨q, h1, h2⟩ := Res.bind_eq_ok.mp h
  cases h2
  obtain ⟨m1, g1⟩ := Steps.quiet (litInits_quiet e s) m
  obtain ⟨m2, g2, k2⟩ := defLits_steps c s0 (litInits s e).2 _ m1
  obtain ⟨q3, -, v3⟩ := compRv_ok he h1
  obtain ⟨m3, g3⟩ := Steps.quiet q3 m2
  obtain ⟨m4, g4⟩ := Steps.append (s := q.1) (x := .assign (.g x) q.2.2) (by
    intro d hd
    obtain ⟨n, hn, rfl⟩ := List.mem_map.mp hd
    refine ⟨trivial, ?_⟩
    rcases v3 n hn with ⟨y, hy, rfl⟩ | ⟨k, hk, rfl⟩
    · exact (hb y hy).grow ((g1.trans g2).trans g3)
    · exact (k2 k (List.mem_reverse.mp hk)).grow g3) (by simp) m3
  refine ⟨m4, ((g1.trans g2).trans g3).trans g4, ?_⟩
  simp only [List.mem_singleton]
  rintro y rfl
  exact here_append (by simp [sets])

theorem compInitList_ok {c s0} : ∀ {es s r}, Mid c s0 s → compInitList c s es = .ok r →
    Mid c s0 r.1 ∧ Grow s r.1 ∧ ∀ n ∈ r.2.flatMap rvVars, Here r.1 (.var n)
  | [], s, r, m, h => by
    simp only [compInitList, Res.ok.injEq] at h; subst h
    obtain ⟨m1, g1⟩ := Steps.quiet (Quiet.setUse s .initialize) m
    exact ⟨m1, g1, by simp⟩
  | e :: es, s, r, m, h => by
    obtain ⟨m1, g1⟩ := Steps.quiet (Quiet.setUse s .initialize) m
    cases e with
    | int v =>
      simp only [compInitList] at h
      obtain ⟨q, h1, h2⟩ := Res.bind_eq_ok.mp h
      cases h2
      obtain ⟨a, b, d⟩ := compInitList_ok m1 h1
      exact ⟨a, g1.trans b, by simpa [rvVars] using d⟩
    | chr v =>
      simp only [compInitList] at h
      obtain ⟨q, h1, h2⟩ := Res.bind_eq_ok.mp h
      cases h2
      obtain ⟨a, b, d⟩ := compInitList_ok m1 h1
      exact ⟨a, g1.trans b, by simpa [rvVars] using d⟩
    | str t =>
      simp only [compInitList] at h
      obtain ⟨q, h1, h2⟩ := Res.bind_eq_ok.mp h
      cases h2
      obtain ⟨m2, g2⟩ := Steps.quiet (Quiet.freshString (s.setUse .initialize) t) m1
      obtain ⟨k3, k4⟩ := compDefstr_steps c s0 (freshString (s.setUse .initialize) t).1
        (.str (freshString (s.setUse .initialize) t).2) t none
      obtain ⟨m3, g3⟩ := k3 m2
      obtain ⟨a, b, d⟩ := compInitList_ok m3 h1
      refine ⟨a, ((g1.trans g2).trans g3).trans b, ?_⟩
      intro n hn
      simp only [List.flatMap_cons, rvVars, List.mem_append, List.mem_singleton] at hn
      rcases hn with rfl | hn
      · exact k4.grow b
      · exact d n hn
    | other => simp [compInitList] at h

theorem emitDefarr_ok {c s0 s s' x len args} (hn : c.noInit = true) (m : Mid c s0 s)
    (ha : ∀ n ∈ args.flatMap rvVars, Here s (.var n)) (h : emitDefarr c s x len args = .ok s') :
    Done c s0 s s' [x] := by
  unfold emitDefarr at h
  split at h
  · cases h
  cases h
  obtain ⟨m1, g1, p1⟩ := Steps.prints (f := .defarr) (rtDefarr_prints (c := c) (s := s) hn) m
  obtain ⟨m2, g2⟩ := Steps.append (s := rtDefarr c s) (x := .defarr (.g x) len args) (by
    intro d hd
    simp only [needs, List.mem_cons] at hd
    rcases hd with rfl | hd
    · exact ⟨rfl, (p1 _ (by simp [prov])).left⟩
    · obtain ⟨n, hn, rfl⟩ := List.mem_map.mp hd
      exact ⟨trivial, (ha n hn).grow g1⟩) (by simp) m1
  refine ⟨m2, g1.trans g2, ?_⟩
  simp only [List.mem_singleton]
  rintro y rfl
  exact here_append (by simp [sets])

/-- One declarator, given the names declared before (the condition of `DeclsOk`). -/
def DeclOk (c : Cfg) (before : List Id) : Decl → Prop
  | .scalar _ (some e) => IEOk c before e
  | .array _ _ (.str _) => True
  | .array _ _ _ => c.noInit = true
  | _ => True

theorem declsOk_cons {c before d ds} (h : DeclsOk c before (d :: ds)) :
    DeclOk c before d ∧ DeclsOk c (before ++ declObjs d) ds := by
  refine ⟨?_, h.2⟩
  have := h.1
  unfold DeclOk
  split <;> simp_all

theorem compDecl_ok {c s0 s s' before d} (m : Mid c s0 s) (hb : ∀ y ∈ before, Here s (.var (.g y)))
    (ho : DeclOk c before d) (h : compDecl c s d = .ok s') : Done c s0 s s' (declObjs d) := by
  cases d with
  | proto f => cases h; exact ⟨m, .refl s, by simp [declObjs]⟩
  | scalar x init =>
    cases init with
    | none => exact compAssign_ok (before := before) (e := .int 0) m hb trivial h
    | some e => exact compAssign_ok m hb ho h
  | array x len init =>
    cases init with
    | none => exact emitDefarr_ok ho m (by simp) h
    | other => cases h
    | str t =>
      simp only [compDecl] at h
      split at h
      · cases h
      cases h
      obtain ⟨a, b⟩ := compDefstr_steps c s0 s (.g x) t (some (if len ≠ 0 then len else t.length + 1))
      obtain ⟨m1, g1⟩ := a m
      refine ⟨m1, g1, ?_⟩
      simp only [declObjs, List.mem_singleton]
      rintro y rfl
      exact b
    | list es =>
      simp only [compDecl] at h
      obtain ⟨r, h1, h2⟩ := Res.bind_eq_ok.mp h
      obtain ⟨m1, g1⟩ := Steps.quiet (Quiet.setUse s .initialize) m
      obtain ⟨m2, g2, k2⟩ := compInitList_ok m1 h1
      have fin : ∀ n, emitDefarr c r.1 x n r.2 = .ok s' → Done c s0 s s' [x] := fun n hh =>
        have q := emitDefarr_ok ho m2 k2 hh
        ⟨q.mid, (g1.trans g2).trans q.grow, q.here⟩
      split at h2
      · exact fin _ h2
      split at h2
      · cases h2
      · exact fin _ h2

theorem compDecls_ok {c s0} : ∀ {ds before s s'}, Mid c s0 s → (∀ y ∈ before, Here s (.var (.g y))) →
    DeclsOk c before ds → compDecls c s ds = .ok s' → Done c s0 s s' (ds.flatMap declObjs)
  | [], before, s, s', m, _, _, h => by cases h; exact ⟨m, .refl s, by simp⟩
  | d :: ds, before, s, s', m, hb, ho, h => by
    simp only [compDecls] at h
    obtain ⟨s1, h1, h2⟩ := Res.bind_eq_ok.mp h
    obtain ⟨o1, o2⟩ := declsOk_cons ho
    have q := compDecl_ok m hb o1 h1
    have q' := compDecls_ok (before := before ++ declObjs d) q.mid (by
      intro y hy
      rcases List.mem_append.mp hy with hy | hy
      · exact (hb y hy).grow q.grow
      · exact q.here y hy) o2 h2
    refine ⟨q'.mid, q.grow.trans q'.grow, ?_⟩
    intro x hx
    simp only [List.flatMap_cons, List.mem_append] at hx
    rcases hx with hx | hx
    · exact (q.here x hx).grow q'.grow
    · exact q'.here x hx

/-! ### Types -/

structure SpecDone (c : Cfg) (s0 s s' : E) (ns : List Nm) : Prop where
  mid : Mid c s0 s'
  grow : Grow s s'
  here : ∀ n ∈ ns, Here s' (.var n)

theorem readonly_steps (c : Cfg) (s0 s : E) (n : Nm) (v : Int) :
    Steps c s0 s (s.append (.readonly n (.int v))) :=
  .append (by simp [needs, rvVars]) (by simp)

theorem compEnum_ok {c s0} : ∀ (cs : List (Id × Int)) (s : E), Mid c s0 s →
    SpecDone c s0 s (compEnum s cs) (cs.map fun x => .g x.1)
  | [], s, m => ⟨m, .refl s, by simp⟩
  | (x, v) :: cs, s, m => by
    obtain ⟨m1, g1⟩ := readonly_steps c s0 s (.g x) v m
    have q := compEnum_ok cs _ m1
    refine ⟨q.mid, g1.trans q.grow, ?_⟩
    simp only [List.map_cons, List.mem_cons]
    rintro n (rfl | hn)
    · exact (here_append (by simp [sets])).grow q.grow
    · exact q.here n hn

theorem compMembers_ok {c s0} : ∀ {ms : List (Id × MTy)} {s : E} {off r}, Mid c s0 s →
    compMembers s off ms = .ok r → SpecDone c s0 s r.1 (ms.map fun x => .mem x.1)
  | [], s, off, r, m, h => by cases h; exact ⟨m, .refl s, by simp⟩
  | (x, v) :: cs, s, off, r, m, h => by
    simp only [compMembers] at h
    split at h
    · cases h
    obtain ⟨m1, g1⟩ := readonly_steps c s0 s (.mem x) off m
    have q := compMembers_ok m1 h
    refine ⟨q.mid, g1.trans q.grow, ?_⟩
    simp only [List.map_cons, List.mem_cons]
    rintro n (rfl | hn)
    · exact (here_append (by simp [sets])).grow q.grow
    · exact q.here n hn

/-- Everything a type specifier standing alone declares. -/
def specNames (sp : TySpec) : List Nm :=
  (specObjs sp).map .g ++ (specMembers sp).map .mem ++ (specTags sp).map .szof

theorem compTySpec_ok {c s0 s s' sp} (m : Mid c s0 s) (h : compTySpec s sp = .ok s') :
    SpecDone c s0 s s' (specNames sp) := by
  cases sp with
  | basic => cases h; exact ⟨m, .refl s, by simp [specNames, specObjs, specMembers, specTags]⟩
  | union => cases h
  | enum tag cs =>
    cases h
    have q := compEnum_ok (c := c) (s0 := s0) cs s m
    refine ⟨q.mid, q.grow, ?_⟩
    intro n hn
    refine q.here n ?_
    simpa [specNames, specObjs, specMembers, specTags] using hn
  | struct tag ms =>
    simp only [compTySpec, compStruct] at h
    obtain ⟨r, h1, h2⟩ := Res.bind_eq_ok.mp h
    have q := compMembers_ok m h1
    cases tag with
    | none =>
      cases h2
      refine ⟨q.mid, q.grow, ?_⟩
      intro n hn
      refine q.here n ?_
      simpa [specNames, specObjs, specMembers, specTags] using hn
    | some t =>
      cases h2
      obtain ⟨m1, g1⟩ := readonly_steps c s0 r.1 (.szof t) r.2 q.mid
      refine ⟨m1, q.grow.trans g1, ?_⟩
      intro n hn
      simp only [specNames, specObjs, specMembers, specTags, List.map_nil, List.nil_append, List.map_cons,
        List.mem_append, List.mem_singleton] at hn
      rcases hn with hn | rfl
      · exact (q.here n (by simpa using hn)).grow g1
      · exact here_append (by simp [sets])

end Verif.ShTop
