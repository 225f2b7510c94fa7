import Verif.ShGlob.Texts
/-! C46: what the compiler guarantees about the lines of a script (`Wf`). -/
namespace Verif.ShGlob
open Verif ShTop ShTop.Spec Spec

/-- The strings and their identifiers. -/
abbrev Ids := List (Nat × List Nat)

/-- The lines so far, printed or not. -/
def lines (s : E) : List Cmd := s.out ++ s.pend

/-- The state of the compiler: `m` says whether the program has initialiser lists, `gl` are the globals set
so far, `ar` the arrays so far. -/
structure St (c : ShTop.Cfg) (m : Bool) (I : Ids) (s : E) (gl : List Id) (ar : List Bool) : Prop where
  line : ∀ x ∈ lines s, LineOk c I x
  alloc : allocOk s.out = true
  pend : ∀ v, Cmd.set (.rt .alloc) v ∉ s.pend
  tag : ∀ t, s.tag t ≠ 0 → (s.tag t, t) ∈ I
  key : ∀ k t, (k, t) ∈ I → k < s.counter
  fn : ∀ k t u, (k, t) ∈ I → (k, u) ∈ I → t = u
  gsq : gs s.out ++ gs s.pend = gl
  seen : m = true → ar ≠ [] → s.use .initialize = true
  text : m = true → ∀ ds, Cmd.defun (.rt .defarr) ds ∈ lines s → Need.fn (.rt .initialize) ∈ ds
  plain : m = false → ∀ n len args, Cmd.defarr n len args ∈ lines s → args = []

/-- Lines and identifiers are only added. -/
structure Up (I I' : Ids) (s s' : E) : Prop where
  ids : ∀ q ∈ I, q ∈ I'
  lines : ∀ x ∈ lines s, x ∈ lines s'

theorem Up.refl (I : Ids) (s : E) : Up I I s s := ⟨fun _ h => h, fun _ h => h⟩
theorem Up.trans {I J K : Ids} {a b d : E} (h : Up I J a b) (k : Up J K b d) : Up I K a d :=
  ⟨fun q hq => k.ids q (h.ids q hq), fun x hx => k.lines x (h.lines x hx)⟩

theorem VarOk.mono {I I' : Ids} (h : ∀ q ∈ I, q ∈ I') {n : Nm} : VarOk I n → VarOk I' n := by
  rintro (h1 | ⟨k, t, h1, h2⟩)
  · exact .inl h1
  · exact .inr ⟨k, t, h1, h _ h2⟩

theorem LineOk.mono {c : ShTop.Cfg} {I I' : Ids} (h : ∀ q ∈ I, q ∈ I') {x : Cmd} (k : LineOk c I x) : LineOk c I' x := by
  cases x with
  | assign n r => exact ⟨k.1, fun m hm => (k.2 m hm).mono h⟩
  | defarr n len args => exact ⟨k.1, k.2.1, k.2.2.1, fun a ha m hm => (k.2.2.2 a ha m hm).mono h⟩
  | defstr n t size =>
    refine ⟨k.1, ?_⟩
    rcases k.2 with h1 | ⟨j, h1, h2, h3⟩
    · exact .inl h1
    · exact .inr ⟨j, h1, h2, h _ h3⟩
  | _ => exact k

/-- Changes of the other parts of the state. -/
theorem St.quiet {c m I s s' gl ar} (h : St c m I s gl ar) (h1 : s'.out = s.out) (h2 : s'.pend = s.pend)
    (h3 : s'.tag = s.tag) (h4 : s'.counter = s.counter)
    (h5 : s.use .initialize = true → s'.use .initialize = true) : St c m I s' gl ar := by
  have hl : lines s' = lines s := by unfold lines; rw [h1, h2]
  exact ⟨hl ▸ h.line, h1 ▸ h.alloc, h2 ▸ h.pend, h3 ▸ h.tag, h4 ▸ h.key, h.fn, by rw [h1, h2]; exact h.gsq,
    fun a b => h5 (h.seen a b), hl ▸ h.text, hl ▸ h.plain⟩

theorem St.setUse {c m I s gl ar} (h : St c m I s gl ar) (f : Rt) : St c m I (s.setUse f) gl ar :=
  h.quiet rfl rfl rfl rfl fun hu => by simp only [E.setUse]; split <;> trivial

/-- A runtime text. -/
theorem rtS_lines {c arr s s'} (r : RtS c arr s s') {x : Cmd} (h : x ∈ lines s) : x ∈ lines s' := by
  obtain ⟨T, hT, -⟩ := r.out
  unfold lines at *
  rw [hT, r.pend]
  rcases List.mem_append.mp h with h | h
  · exact List.mem_append_left _ (List.mem_append_left _ h)
  · exact List.mem_append_right _ h

theorem St.rtArr {c m I s s' gl ar arr} (h : St c m I s gl ar) (r : RtS c arr s s')
    (ht : m = true → ∀ ds, Cmd.defun (.rt .defarr) ds ∈ lines s' → Need.fn (.rt .initialize) ∈ ds) :
    St c m I s' gl ar := by
  obtain ⟨T, t1, t2, t3, t4, -⟩ := r.out
  have mem : ∀ x ∈ lines s', x ∈ T ∨ x ∈ lines s := by
    intro x hx
    unfold lines at *
    rw [t1, r.pend] at hx
    rcases List.mem_append.mp hx with hx | hx
    · rcases List.mem_append.mp hx with hx | hx
      · exact .inr (List.mem_append_left _ hx)
      · exact .inl hx
    · exact .inr (List.mem_append_right _ hx)
  refine ⟨?_, by rw [t1]; exact allocOk_append h.alloc t4, r.pend ▸ h.pend, r.tag ▸ h.tag, r.counter ▸ h.key, h.fn,
    by rw [t1, r.pend, gs_append, t3, List.append_nil]; exact h.gsq, r.use ▸ h.seen, ht, ?_⟩
  · intro x hx
    rcases mem x hx with hx | hx
    · exact t2 x hx I
    · exact h.line x hx
  · intro hm n len args hx
    rcases mem _ hx with hx | hx
    · have hg : gs T = [] := t3
      obtain ⟨⟨y, rfl⟩, -⟩ := t2 _ hx []
      have : y ∈ gs T := mem_gs.mpr ⟨_, hx, by simp [sets]⟩
      rw [hg] at this
      simp at this
    · exact h.plain hm n len args hx

theorem St.rt {c m I s s' gl ar} (h : St c m I s gl ar) (r : RtS c false s s') : St c m I s' gl ar := by
  refine h.rtArr r fun hm ds hd => ?_
  obtain ⟨T, t1, -, -, -, t5⟩ := r.out
  refine h.text hm ds ?_
  unfold lines at *
  rw [t1, r.pend] at hd
  rcases List.mem_append.mp hd with hd | hd
  · rcases List.mem_append.mp hd with hd | hd
    · exact List.mem_append_left _ hd
    · exact absurd hd (t5 rfl ds)
  · exact List.mem_append_right _ hd

/-- A line of the declaration. -/
theorem St.append {c m I s gl ar x} (h : St c m I s gl ar) (ok : LineOk c I x) (ha : ∀ v, x ≠ .set (.rt .alloc) v)
    (hd : ∀ ds, x ≠ .defun (.rt .defarr) ds) (hp : m = false → ∀ n len args, x = .defarr n len args → args = []) :
    St c m I (s.append x) (gl ++ (sets x).flatMap gOf) ar := by
  have hl : lines (s.append x) = lines s ++ [x] := by simp [lines, E.append]
  have mem : ∀ y ∈ lines (s.append x), y ∈ lines s ∨ y = x := by
    intro y hy
    rw [hl] at hy
    simpa using hy
  refine ⟨?_, h.alloc, ?_, h.tag, h.key, h.fn, ?_, h.seen, ?_, ?_⟩
  · intro y hy
    rcases mem y hy with hy | rfl
    · exact h.line y hy
    · exact ok
  · intro v hv
    rcases List.mem_append.mp hv with hv | hv
    · exact h.pend v hv
    · rw [List.mem_singleton] at hv; exact ha v hv.symm
  · show gs s.out ++ gs (s.pend ++ [x]) = _
    rw [gs_append, ← List.append_assoc, h.gsq]
    simp [gs]
  · intro hm ds hy
    rcases mem _ hy with hy | hy
    · exact h.text hm ds hy
    · exact absurd hy.symm (hd ds)
  · intro hm n len args hy
    rcases mem _ hy with hy | hy
    · exact h.plain hm n len args hy
    · exact hp hm n len args hy.symm

theorem up_append (I : Ids) (s : E) (x : Cmd) : Up I I s (s.append x) :=
  ⟨fun _ h => h, fun y hy => by simp only [lines, E.append] at *; rw [← List.append_assoc]; exact List.mem_append_left _ hy⟩

theorem mem_append_line (s : E) (x : Cmd) : x ∈ lines (s.append x) := by simp [lines, E.append]

/-- A string constant gets an identifier. -/
theorem St.fresh {c m I s gl ar} (h : St c m I s gl ar) (t : List Nat) :
    ∃ I', Up I I' s (freshString s t).1 ∧ ((freshString s t).2, t) ∈ I' ∧ St c m I' (freshString s t).1 gl ar := by
  unfold freshString
  dsimp only
  by_cases h0 : s.tag t = 0
  · rw [if_pos h0]
    refine ⟨(s.counter, t) :: I, ⟨fun q hq => List.mem_cons_of_mem _ hq, fun x hx => hx⟩, by simp, ?_⟩
    refine ⟨fun x hx => (h.line x hx).mono fun q hq => List.mem_cons_of_mem _ hq, h.alloc, h.pend, ?_, ?_, ?_, h.gsq,
      h.seen, h.text, h.plain⟩
    · intro u hu
      dsimp only at hu ⊢
      by_cases e : u = t
      · subst e; simp
      · rw [if_neg e] at hu ⊢
        exact List.mem_cons_of_mem _ (h.tag u hu)
    · intro k u hk
      dsimp only
      rcases List.mem_cons.mp hk with hk | hk
      · cases hk; omega
      · have := h.key k u hk; omega
    · intro k u v hu hv
      rcases List.mem_cons.mp hu with hu | hu <;> rcases List.mem_cons.mp hv with hv | hv
      · cases hu; cases hv; rfl
      · cases hu; have := h.key _ _ hv; omega
      · cases hv; have := h.key _ _ hu; omega
      · exact h.fn k u v hu hv
  · rw [if_neg h0]
    exact ⟨I, .refl _ _, h.tag t h0, h⟩

/-! ### Function bodies -/

theorem compEv_st {c m I s gl ar env ev r} (h : St c m I s gl ar) (hr : compEv c env s ev = .ok r) :
    ∃ I', Up I I' s r.1 ∧ St c m I' r.1 gl ar := by
  cases ev with
  | call f drop args =>
    simp only [compEv] at hr
    cases hr
    refine ⟨I, ?_⟩
    unfold compCall
    have hmk : Up I I s (markUse s f) ∧ St c m I (markUse s f) gl ar := by
      unfold markUse
      split
      · exact ⟨⟨fun _ h => h, fun _ h => h⟩, h.setUse _⟩
      · exact ⟨.refl _ _, h⟩
    split
    · exact ⟨.refl _ _, h⟩
    split
    · exact ⟨⟨fun _ h => h, fun _ h => h⟩, h.setUse _⟩
    split
    · exact ⟨.refl _ _, h⟩
    split
    · exact ⟨.refl _ _, h⟩
    split
    · exact ⟨.refl _ _, h⟩
    exact hmk
  | str t =>
    simp only [compEv] at hr
    cases hr
    obtain ⟨I', h1, -, h3⟩ := h.fresh t
    exact ⟨I', ⟨h1.ids, h1.lines⟩, h3.setUse _⟩
  | chr ch =>
    simp only [compEv] at hr
    split at hr
    · cases hr; exact ⟨I, .refl _ _, h⟩
    · obtain ⟨s1, h1, h2⟩ := Res.bind_eq_ok.mp hr
      unfold charIdent at h1
      split at h1
      · cases h1; cases h2
        exact ⟨I, ⟨fun _ h => h, fun _ h => h⟩, h.quiet rfl rfl rfl rfl fun h => h⟩
      · cases h1
  | _ =>
    simp only [compEv] at hr
    cases hr
    exact ⟨I, .refl _ _, h⟩

theorem compEvs_st {c m env gl ar} : ∀ {es I s r}, St c m I s gl ar → compEvs c env s es = .ok r →
    ∃ I', Up I I' s r.1 ∧ St c m I' r.1 gl ar
  | [], I, s, r, h, hr => by
    simp only [compEvs] at hr
    cases hr
    exact ⟨I, .refl _ _, h⟩
  | e :: es, I, s, r, h, hr => by
    simp only [compEvs] at hr
    obtain ⟨q, h1, h2⟩ := Res.bind_eq_ok.mp hr
    obtain ⟨q', h3, h4⟩ := Res.bind_eq_ok.mp h2
    cases h4
    obtain ⟨I1, u1, s1⟩ := compEv_st h h1
    obtain ⟨I2, u2, s2⟩ := compEvs_st s1 h3
    exact ⟨I2, u1.trans u2, s2⟩

theorem compFun_st {c m I s s' gl ar f} (h : St c m I s gl ar) (hr : compFun c s f = .ok s') :
    ∃ I', Up I I' s s' ∧ St c m I' s' gl ar := by
  unfold compFun at hr
  dsimp only at hr
  obtain ⟨q, h1, h2⟩ := Res.bind_eq_ok.mp hr
  have pre : ∀ s1, (s1 = if f.name = idMain then
      let s := { s with mainDefined := true }
      let s := if f.params.isEmpty then s else s.setUse .make_argv
      if f.void then s else { s with mainReturns := true }
    else s) → St c m I s1 gl ar ∧ lines s1 = lines s := by
    rintro s1 rfl
    split
    · dsimp only
      have key : ∀ s1 : E, s1.out = s.out → s1.pend = s.pend → s1.tag = s.tag → s1.counter = s.counter →
          (s.use .initialize = true → s1.use .initialize = true) → St c m I s1 gl ar ∧ lines s1 = lines s :=
        fun s1 a b d e f => ⟨h.quiet a b d e f, by unfold lines; rw [a, b]⟩
      split
      · split <;> exact key _ rfl rfl rfl rfl fun h => h
      · split <;> exact key _ rfl rfl rfl rfl fun h => by simp [E.setUse, h]
    · exact ⟨h, rfl⟩
  obtain ⟨p1, p2⟩ := pre _ rfl
  obtain ⟨I', u, st⟩ := compEvs_st p1 h1
  cases h2
  have st2 : St c m I' (if f.vars.isEmpty = true then q.1 else q.1.setUse .local_vars) gl ar := by
    split
    · exact st
    · exact st.setUse _
  have l2 : lines (if f.vars.isEmpty = true then q.1 else q.1.setUse .local_vars) = lines q.1 := by
    split <;> rfl
  refine ⟨I', ⟨u.ids, fun x hx => (up_append I' _ _).lines _ ?_⟩, ?_⟩
  · rw [l2]; exact u.lines x (p2 ▸ hx)
  · have := st2.append (x := .defun (.g f.name) (saveNeeds c f.vars ++ q.2))
      ⟨by simp [textNeeds], by simp⟩ (by simp) (by simp) (by simp)
    simpa [sets] using this

/-! ### Initialisers -/

/-- The code of an initialiser. -/
inductive RvOf (I : Ids) : IE → Rv → Prop
  | int (v) : RvOf I (.int v) (.int v)
  | chr (ch : Nat) : RvOf I (.chr ch) (.int ch)
  | name (x) : RvOf I (.name x) (.var (.g x))
  | str {k t} : (k, t) ∈ I → RvOf I (.str t) (.var (.str k))
  | neg {a x} : RvOf I a x → RvOf I (.neg a) (.neg x)
  | add {a b x y} : RvOf I a x → RvOf I b y → RvOf I (.add a b) (.add x y)
  | sub {a b x y} : RvOf I a x → RvOf I b y → RvOf I (.sub a b) (.sub x y)
  | mul {a b x y} : RvOf I a x → RvOf I b y → RvOf I (.mul a b) (.mul x y)

theorem RvOf.mono {I I' : Ids} (h : ∀ q ∈ I, q ∈ I') {e r} (k : RvOf I e r) : RvOf I' e r := by
  induction k with
  | int v => exact .int v
  | chr v => exact .chr v
  | name v => exact .name v
  | str hk => exact .str (h _ hk)
  | neg _ ih => exact .neg ih
  | add _ _ ia ib => exact .add ia ib
  | sub _ _ ia ib => exact .sub ia ib
  | mul _ _ ia ib => exact .mul ia ib

theorem RvOf.vars {I : Ids} {e r} (k : RvOf I e r) : ∀ n ∈ rvVars r, VarOk I n := by
  induction k with
  | int v => simp [rvVars]
  | chr v => simp [rvVars]
  | name x => intro n hn; simp only [rvVars, List.mem_singleton] at hn; exact .inl ⟨x, hn⟩
  | @str k t hk => intro n hn; simp only [rvVars, List.mem_singleton] at hn; exact .inr ⟨k, t, hn, hk⟩
  | neg _ ih => exact ih
  | add _ _ ia ib | sub _ _ ia ib | mul _ _ ia ib =>
    intro n hn
    rcases List.mem_append.mp hn with hn | hn
    · exact ia n hn
    · exact ib n hn

/-- The strings of an expression, from the left. -/
def strsOf : IE → List (List Nat)
  | .str t => [t]
  | .neg a => strsOf a
  | .add a b => strsOf a ++ strsOf b
  | .sub a b => strsOf a ++ strsOf b
  | .mul a b => strsOf a ++ strsOf b
  | _ => []

theorem strsOf_bytes : ∀ {e : IE}, IEBytes e → ∀ t ∈ strsOf e, Bytes t
  | .str u, h, t, ht => by simp only [strsOf, List.mem_singleton] at ht; subst ht; exact h
  | .neg a, h, t, ht => strsOf_bytes (e := a) h t ht
  | .add a b, h, t, ht => (List.mem_append.mp ht).elim (strsOf_bytes h.1 t) (strsOf_bytes h.2 t)
  | .sub a b, h, t, ht => (List.mem_append.mp ht).elim (strsOf_bytes h.1 t) (strsOf_bytes h.2 t)
  | .mul a b, h, t, ht => (List.mem_append.mp ht).elim (strsOf_bytes h.1 t) (strsOf_bytes h.2 t)
  | .int _, _, t, ht => by simp [strsOf] at ht
  | .chr _, _, t, ht => by simp [strsOf] at ht
  | .name _, _, t, ht => by simp [strsOf] at ht

/-- The strings of an expression get identifiers. -/
def LitsOk (I : Ids) (L : Ids) (ts : List (List Nat)) : Prop := L.reverse.map (·.2) = ts ∧ ∀ q ∈ L, q ∈ I

theorem litInits_two {c m gl ar} {a b : IE}
    (ha : ∀ {I s}, St c m I s gl ar → ∃ I', Up I I' s (litInits s a).1 ∧ St c m I' (litInits s a).1 gl ar ∧
      LitsOk I' (litInits s a).2 (strsOf a))
    (hb : ∀ {I s}, St c m I s gl ar → ∃ I', Up I I' s (litInits s b).1 ∧ St c m I' (litInits s b).1 gl ar ∧
      LitsOk I' (litInits s b).2 (strsOf b)) {I s} (h : St c m I s gl ar) :
    ∃ I', Up I I' s (litInits (litInits s a).1 b).1 ∧ St c m I' (litInits (litInits s a).1 b).1 gl ar ∧
      LitsOk I' ((litInits (litInits s a).1 b).2 ++ (litInits s a).2) (strsOf a ++ strsOf b) := by
  obtain ⟨I1, u1, s1, l1, m1⟩ := ha h
  obtain ⟨I2, u2, s2, l2, m2⟩ := hb s1
  refine ⟨I2, u1.trans u2, s2, ?_, ?_⟩
  · rw [List.reverse_append, List.map_append, l1, l2]
  · intro q hq
    rcases List.mem_append.mp hq with hq | hq
    · exact m2 q hq
    · exact u2.ids q (m1 q hq)

theorem litInits_st {c m gl ar} : ∀ (e : IE) {I s}, St c m I s gl ar →
    ∃ I', Up I I' s (litInits s e).1 ∧ St c m I' (litInits s e).1 gl ar ∧ LitsOk I' (litInits s e).2 (strsOf e)
  | .str t, I, s, h => by
    obtain ⟨I', h1, h2, h3⟩ := h.fresh t
    exact ⟨I', h1, h3, rfl, by simpa [litInits] using h2⟩
  | .neg a, I, s, h => litInits_st a h
  | .add a b, I, s, h => litInits_two (litInits_st a) (litInits_st b) h
  | .sub a b, I, s, h => litInits_two (litInits_st a) (litInits_st b) h
  | .mul a b, I, s, h => litInits_two (litInits_st a) (litInits_st b) h
  | .int _, I, s, h => ⟨I, .refl _ _, h, rfl, by simp [litInits]⟩
  | .chr _, I, s, h => ⟨I, .refl _ _, h, rfl, by simp [litInits]⟩
  | .name _, I, s, h => ⟨I, .refl _ _, h, rfl, by simp [litInits]⟩

theorem compRv_of {c : ShTop.Cfg} {before : List Id} {I : Ids} : ∀ {e : IE} {s : E} {pl : Ids} {rest : List Nat},
    IEOk c before e → pl.map (·.2) = strsOf e → (∀ q ∈ pl, q ∈ I) →
    ∃ r, compRv c s (pl.map (·.1) ++ rest) e = .ok (s, rest, r) ∧ RvOf I e r
  | .int v, s, pl, rest, _, hp, _ => by
    have : pl = [] := by simpa [strsOf] using hp
    subst this
    exact ⟨_, by simp only [compRv]; rfl, .int v⟩
  | .chr v, s, pl, rest, h, hp, _ => by
    have : pl = [] := by simpa [strsOf] using hp
    subst this
    have h : c.inlineChar = true := h
    exact ⟨_, by simp only [compRv, h, if_true]; rfl, .chr v⟩
  | .name v, s, pl, rest, _, hp, _ => by
    have : pl = [] := by simpa [strsOf] using hp
    subst this
    exact ⟨_, by simp only [compRv]; rfl, .name v⟩
  | .str t, s, pl, rest, _, hp, hm => by
    match pl, hp, hm with
    | [], hp, _ => simp [strsOf] at hp
    | [(k, u)], hp, hm =>
      have : u = t := by simpa [strsOf] using hp
      subst this
      exact ⟨_, by simp only [List.map_cons, List.map_nil, List.cons_append, List.nil_append, compRv]; rfl,
        .str (hm _ (by simp))⟩
    | _ :: _ :: _, hp, _ => simp [strsOf] at hp
  | .neg a, s, pl, rest, h, hp, hm => by
    obtain ⟨r, h1, h2⟩ := compRv_of (e := a) (s := s) (rest := rest) h hp hm
    exact ⟨_, by simp only [compRv, h1, Res.bind_ok], .neg h2⟩
  | .add a b, s, pl, rest, h, hp, hm => by
    obtain ⟨p1, p2, rfl, e1, e2⟩ := List.map_eq_append_iff.mp hp
    obtain ⟨r, h1, h2⟩ := compRv_of (e := a) (s := s) (rest := p2.map (·.1) ++ rest) h.1 e1
      fun q hq => hm q (List.mem_append_left _ hq)
    obtain ⟨r', h3, h4⟩ := compRv_of (e := b) (s := s) (rest := rest) h.2 e2
      fun q hq => hm q (List.mem_append_right _ hq)
    exact ⟨_, by simp only [compRv, List.map_append, List.append_assoc, h1, Res.bind_ok, h3], .add h2 h4⟩
  | .sub a b, s, pl, rest, h, hp, hm => by
    obtain ⟨p1, p2, rfl, e1, e2⟩ := List.map_eq_append_iff.mp hp
    obtain ⟨r, h1, h2⟩ := compRv_of (e := a) (s := s) (rest := p2.map (·.1) ++ rest) h.1 e1
      fun q hq => hm q (List.mem_append_left _ hq)
    obtain ⟨r', h3, h4⟩ := compRv_of (e := b) (s := s) (rest := rest) h.2 e2
      fun q hq => hm q (List.mem_append_right _ hq)
    exact ⟨_, by simp only [compRv, List.map_append, List.append_assoc, h1, Res.bind_ok, h3], .sub h2 h4⟩
  | .mul a b, s, pl, rest, h, hp, hm => by
    obtain ⟨p1, p2, rfl, e1, e2⟩ := List.map_eq_append_iff.mp hp
    obtain ⟨r, h1, h2⟩ := compRv_of (e := a) (s := s) (rest := p2.map (·.1) ++ rest) h.1 e1
      fun q hq => hm q (List.mem_append_left _ hq)
    obtain ⟨r', h3, h4⟩ := compRv_of (e := b) (s := s) (rest := rest) h.2 e2
      fun q hq => hm q (List.mem_append_right _ hq)
    exact ⟨_, by simp only [compRv, List.map_append, List.append_assoc, h1, Res.bind_ok, h3], .mul h2 h4⟩

/-- A `defstr` line. -/
theorem compDefstr_st {c m I s gl ar n t size} (h : St c m I s gl ar) (ok : LineOk c I (.defstr n t size)) :
    Up I I s (compDefstr c s n t size) ∧ St c m I (compDefstr c s n t size) (gl ++ gOf n) ar ∧
      Cmd.defstr n t size ∈ lines (compDefstr c s n t size) := by
  unfold compDefstr
  refine ⟨Up.trans ⟨fun _ h => h, fun x hx => rtS_lines (rtDefstr_s c s) hx⟩ (up_append I _ _), ?_, mem_append_line _ _⟩
  have := (h.rt (rtDefstr_s c s)).append ok (by simp) (by simp) (by simp)
  simpa [sets] using this

theorem defLits_st {c m gl ar} : ∀ {L : Ids} {I s}, St c m I s gl ar → (∀ q ∈ L, q ∈ I) → (∀ q ∈ L, Bytes q.2) →
    Up I I s (defLits c s L) ∧ St c m I (defLits c s L) gl ar
  | [], I, s, h, _, _ => ⟨.refl _ _, h⟩
  | (k, t) :: L, I, s, h, hm, hb => by
    obtain ⟨u1, s1, -⟩ := compDefstr_st (n := .str k) (t := t) (size := none) h
      ⟨hb _ List.mem_cons_self, .inr ⟨k, rfl, rfl, hm _ List.mem_cons_self⟩⟩
    rw [show gl ++ gOf (Nm.str k) = gl from by simp [gOf]] at s1
    obtain ⟨u2, s2⟩ := defLits_st (L := L) s1 (fun q hq => hm q (List.mem_cons_of_mem _ hq))
      fun q hq => hb q (List.mem_cons_of_mem _ hq)
    exact ⟨u1.trans u2, s2⟩

theorem compAssign_st {c m I s s' gl ar x e before} (h : St c m I s gl ar) (ok : IEOk c before e) (hb : IEBytes e)
    (hr : compAssign c s x e = .ok s') :
    ∃ I', Up I I' s s' ∧ St c m I' s' (gl ++ [x]) ar ∧ ∃ r, Cmd.assign (.g x) r ∈ lines s' ∧ RvOf I' e r := by
  unfold compAssign at hr
  dsimp only at hr
  obtain ⟨I', u1, s1, l1, l2⟩ := litInits_st e h
  obtain ⟨u2, s2⟩ := defLits_st (L := (litInits s e).2) s1 l2 (by
    intro q hq
    refine strsOf_bytes hb q.2 ?_
    rw [← l1, List.map_reverse, List.mem_reverse]
    exact List.mem_map.mpr ⟨q, hq, rfl⟩)
  obtain ⟨r, hr1, hr2⟩ := compRv_of (s := defLits c (litInits s e).1 (litInits s e).2) (rest := []) ok l1
    (fun q hq => l2 q (List.mem_reverse.mp hq))
  rw [List.append_nil, List.map_reverse] at hr1
  rw [hr1, Res.bind_ok] at hr
  cases hr
  refine ⟨I', (u1.trans u2).trans (up_append I' _ _), ?_, r, mem_append_line _ _, hr2⟩
  have := s2.append (x := .assign (.g x) r) ⟨⟨x, rfl⟩, hr2.vars⟩ (by simp) (by simp) (by simp)
  simpa [sets, gOf] using this

/-- The elements of an initialiser list and their code. -/
inductive Els (I : Ids) : List El → List Rv → Prop
  | nil : Els I [] []
  | cons {e es r rs ie} : elIE e = some ie → RvOf I ie r → Els I es rs → Els I (e :: es) (r :: rs)

theorem Els.mono {I I' : Ids} (h : ∀ q ∈ I, q ∈ I') {es rs} (k : Els I es rs) : Els I' es rs := by
  induction k with
  | nil => exact .nil
  | cons h1 h2 _ ih => exact .cons h1 (h2.mono h) ih

theorem Els.length {I es rs} (k : Els I es rs) : rs.length = es.length := by
  induction k with
  | nil => rfl
  | cons _ _ _ ih => simp [ih]

theorem Els.vars {I es rs} (k : Els I es rs) : ∀ a ∈ rs, ∀ n ∈ rvVars a, VarOk I n := by
  induction k with
  | nil => simp
  | cons _ h2 _ ih =>
    intro a ha
    rcases List.mem_cons.mp ha with rfl | ha
    · exact h2.vars
    · exact ih a ha

theorem compInitList_st {c m gl ar} : ∀ {es I s r}, St c m I s gl ar → (∀ x ∈ es, ElBytes x) →
    compInitList c s es = .ok r →
    ∃ I', Up I I' s r.1 ∧ St c m I' r.1 gl ar ∧ r.1.use .initialize = true ∧ Els I' es r.2
  | [], I, s, r, h, _, hr => by
    simp only [compInitList] at hr
    cases hr
    exact ⟨I, ⟨fun _ h => h, fun _ h => h⟩, h.setUse _, by simp [E.setUse], .nil⟩
  | .int v :: es, I, s, r, h, hb, hr => by
    simp only [compInitList] at hr
    obtain ⟨q, h1, h2⟩ := Res.bind_eq_ok.mp hr
    cases h2
    obtain ⟨I', u, st, hu, k⟩ := compInitList_st (h.setUse .initialize) (fun x hx => hb x (List.mem_cons_of_mem _ hx)) h1
    exact ⟨I', ⟨u.ids, u.lines⟩, st, hu, .cons rfl (.int v) k⟩
  | .chr v :: es, I, s, r, h, hb, hr => by
    simp only [compInitList] at hr
    obtain ⟨q, h1, h2⟩ := Res.bind_eq_ok.mp hr
    cases h2
    obtain ⟨I', u, st, hu, k⟩ := compInitList_st (h.setUse .initialize) (fun x hx => hb x (List.mem_cons_of_mem _ hx)) h1
    exact ⟨I', ⟨u.ids, u.lines⟩, st, hu, .cons rfl (.chr v) k⟩
  | .str t :: es, I, s, r, h, hb, hr => by
    simp only [compInitList] at hr
    obtain ⟨q, h1, h2⟩ := Res.bind_eq_ok.mp hr
    cases h2
    obtain ⟨I1, u1, k1, s1⟩ := (h.setUse .initialize).fresh t
    obtain ⟨u2, s2, -⟩ := compDefstr_st (n := .str (freshString (s.setUse .initialize) t).2) (t := t) (size := none) s1
      ⟨hb _ List.mem_cons_self, .inr ⟨_, rfl, rfl, k1⟩⟩
    rw [show gl ++ gOf (Nm.str (freshString (s.setUse .initialize) t).2) = gl from by simp [gOf]] at s2
    obtain ⟨I', u, st, hu, k⟩ := compInitList_st s2 (fun x hx => hb x (List.mem_cons_of_mem _ hx)) h1
    have u' := (u1.trans u2).trans u
    exact ⟨I', ⟨u'.ids, u'.lines⟩, st, hu, .cons rfl (.str (u.ids _ k1)) k⟩
  | .other :: es, I, s, r, h, hb, hr => by
    simp only [compInitList] at hr
    cases hr

theorem St.more {c m I s gl ar} (h : St c m I s gl ar) (br : List Bool) (hu : m = true → s.use .initialize = true) :
    St c m I s gl (ar ++ br) :=
  ⟨h.line, h.alloc, h.pend, h.tag, h.key, h.fn, h.gsq, fun hm _ => hu hm, h.text, h.plain⟩

theorem emitDefarr_st {c m I s s' gl ar x len args} (h : St c m I s gl ar) (hu : m = true → s.use .initialize = true)
    (hn : c.noInit = true) (hl : args.length ≤ len) (hv : ∀ a ∈ args, ∀ n ∈ rvVars a, VarOk I n)
    (hp : m = false → args = []) (br : List Bool)
    (hr : emitDefarr c s x len args = .ok s') :
    Up I I s s' ∧ St c m I s' (gl ++ [x]) (ar ++ br) ∧ Cmd.defarr (.g x) len args ∈ lines s' := by
  unfold emitDefarr at hr
  split at hr
  · cases hr
  · cases hr
    obtain ⟨r1, r2, r3⟩ := rtDefarr_s c s
    have st : St c m I (rtDefarr c s) gl ar := by
      refine h.rtArr r1 fun hm ds hd => ?_
      unfold lines at hd
      rcases List.mem_append.mp hd with hd | hd
      · rcases r3 ds hd with hd | ⟨-, hd⟩
        · exact h.text hm ds (List.mem_append_left _ hd)
        · exact hd hn (hu hm)
      · rw [r1.pend] at hd
        exact h.text hm ds (List.mem_append_right _ hd)
    refine ⟨Up.trans ⟨fun _ h => h, fun x hx => rtS_lines r1 hx⟩ (up_append I _ _), ?_, mem_append_line _ _⟩
    have := (st.more br (fun hm => by rw [r1.use]; exact hu hm)).append (x := .defarr (.g x) len args)
      ⟨⟨x, rfl⟩, hl, hn, hv⟩ (by simp) (by simp) (by
        intro hm n l as e
        cases e
        exact hp hm)
    simpa [sets, gOf] using this

/-! ### Declarations -/

/-- The line of a declarator. -/
def DeclLine (I : Ids) (l : List Cmd) : Decl → Prop
  | .proto _ => True
  | .scalar x init => ∃ r, Cmd.assign (.g x) r ∈ l ∧ RvOf I (init.getD (.int 0)) r
  | .array x len (.str t) => t.length < arrLen len (.str t) ∧ Cmd.defstr (.g x) t (some (arrLen len (.str t))) ∈ l
  | .array x len (.list es) => es.length ≤ arrLen len (.list es) ∧
      ∃ args, Els I es args ∧ Cmd.defarr (.g x) (arrLen len (.list es)) args ∈ l
  | .array x len .none => Cmd.defarr (.g x) len [] ∈ l
  | .array _ _ .other => False

theorem DeclLine.mono {I I' : Ids} {l l' : List Cmd} (h : ∀ q ∈ I, q ∈ I') (hl : ∀ x ∈ l, x ∈ l') :
    ∀ {d : Decl}, DeclLine I l d → DeclLine I' l' d
  | .proto _, _ => trivial
  | .scalar x init, ⟨r, h1, h2⟩ => ⟨r, hl _ h1, h2.mono h⟩
  | .array x len (.str t), ⟨h1, h2⟩ => ⟨h1, hl _ h2⟩
  | .array x len (.list es), ⟨h1, as, h2, h3⟩ => ⟨h1, as, h2.mono h, hl _ h3⟩
  | .array x len .none, h1 => hl _ h1
  | .array _ _ .other, h => h.elim

/-- What `Ok` says about a declarator. -/
def DOk (c : ShTop.Cfg) : Decl → Prop
  | .scalar _ (some e) => ∃ before, IEOk c before e
  | .array _ _ (.str _) => True
  | .array _ _ _ => c.noInit = true
  | _ => True

theorem compDecl_st {c m I s s' gl ar d} (h : St c m I s gl ar) (ok : DOk c d) (hb : DeclBytes d)
    (h1 : m = true → declLists d = [false] → ar ≠ []) (h2 : m = false → declLists d ≠ [true])
    (hr : compDecl c s d = .ok s') :
    ∃ I', Up I I' s s' ∧ St c m I' s' (gl ++ declObjs d) (ar ++ declLists d) ∧ DeclLine I' (lines s') d := by
  cases d with
  | proto f =>
    simp only [compDecl] at hr
    cases hr
    exact ⟨I, .refl _ _, by simpa [declObjs, declLists] using h, trivial⟩
  | scalar x init =>
    simp only [compDecl] at hr
    have key : (∃ before, IEOk c before (init.getD (.int 0))) ∧ IEBytes (init.getD (.int 0)) := by
      cases init with
      | none => exact ⟨⟨[], trivial⟩, trivial⟩
      | some e => exact ⟨ok, hb⟩
    obtain ⟨⟨before, k1⟩, k2⟩ := key
    obtain ⟨I', u, st, r, r1, r2⟩ := compAssign_st h k1 k2 hr
    exact ⟨I', u, by simpa [declObjs, declLists] using st, r, r1, r2⟩
  | array x len a =>
    cases a with
    | none =>
      simp only [compDecl] at hr
      obtain ⟨u, st, hl⟩ := emitDefarr_st h (fun hm => h.seen hm (h1 hm rfl)) ok (by simp) (by simp) (fun _ => rfl) [false] hr
      exact ⟨I, u, st, hl⟩
    | str t =>
      simp only [compDecl] at hr
      split at hr
      · cases hr
      · rename_i hlen
        cases hr
        have hlt : t.length < arrLen len (.str t) := by
          simp only [arrLen]
          split <;> omega
        have he : (if len ≠ 0 then len else t.length + 1) = arrLen len (.str t) := by
          simp only [arrLen]
          by_cases h0 : len = 0 <;> simp [h0]
        rw [he]
        obtain ⟨u, st, hl⟩ := compDefstr_st (n := .g x) (t := t) (size := some (arrLen len (.str t))) h
          ⟨hb, .inl ⟨x, _, rfl, rfl, hlt⟩⟩
        exact ⟨I, u, by simpa [declObjs, declLists, gOf] using st, hlt, hl⟩
    | list es =>
      simp only [compDecl] at hr
      obtain ⟨q, hq, hr⟩ := Res.bind_eq_ok.mp hr
      obtain ⟨I', u, st, hu, k⟩ := compInitList_st (h.setUse .initialize) hb hq
      have hm : m = true := by
        cases m with
        | true => rfl
        | false => exact absurd rfl (h2 rfl)
      have fin : ∀ n, emitDefarr c q.1 x n q.2 = .ok s' → es.length ≤ n → n = arrLen len (.list es) →
          ∃ I', Up I I' s s' ∧ St c m I' s' (gl ++ [x]) (ar ++ [true]) ∧ DeclLine I' (lines s') (.array x len (.list es)) := by
        rintro n hr hn rfl
        obtain ⟨u', st', hl⟩ := emitDefarr_st st (fun _ => hu) ok (by rw [k.length]; exact hn) k.vars
          (by rw [hm]; simp) [true] hr
        have u'' := u.trans u'
        exact ⟨I', ⟨u''.ids, u''.lines⟩, st', hn, q.2, k, hl⟩
      split at hr
      · exact fin _ hr (Nat.le_refl _) (by simp [arrLen, *])
      · split at hr
        · cases hr
        · exact fin _ hr (by omega) (by simp [arrLen, *])
    | other => simp only [compDecl] at hr; cases hr

theorem compDecls_st {c m gl0 : _} : ∀ {ds I s s' gl ar}, St c m I s gl ar → (∀ d ∈ ds, DOk c d) → (∀ d ∈ ds, DeclBytes d) →
    (m = true → (ar ++ ds.flatMap declLists).head? ≠ some false) → (m = false → true ∉ ds.flatMap declLists) →
    compDecls c s ds = .ok s' → gl0 = gl →
    ∃ I', Up I I' s s' ∧ St c m I' s' (gl ++ ds.flatMap declObjs) (ar ++ ds.flatMap declLists) ∧
      ∀ d ∈ ds, DeclLine I' (lines s') d
  | [], I, s, s', gl, ar, h, _, _, _, _, hr, _ => by
    simp only [compDecls] at hr
    cases hr
    exact ⟨I, .refl _ _, by simpa using h, by simp⟩
  | d :: ds, I, s, s', gl, ar, h, ok, hb, h1, h2, hr, _ => by
    simp only [compDecls] at hr
    obtain ⟨s1, hd, hr⟩ := Res.bind_eq_ok.mp hr
    obtain ⟨I1, u1, st1, l1⟩ := compDecl_st h (ok d List.mem_cons_self) (hb d List.mem_cons_self) (by
        rintro hm hf rfl
        refine h1 hm ?_
        simp [List.flatMap_cons, hf]) (by
        intro hm hf
        refine h2 hm ?_
        simp [List.flatMap_cons, hf]) hd
    obtain ⟨I2, u2, st2, l2⟩ := compDecls_st (gl0 := gl ++ declObjs d) st1 (fun d hd => ok d (List.mem_cons_of_mem _ hd))
      (fun d hd => hb d (List.mem_cons_of_mem _ hd)) (by
        intro hm
        have := h1 hm
        rwa [List.flatMap_cons, ← List.append_assoc] at this) (by
        intro hm hf
        refine h2 hm ?_
        rw [List.flatMap_cons]
        exact List.mem_append_right _ hf) hr rfl
    refine ⟨I2, u1.trans u2, by simpa [List.append_assoc] using st2, fun d' hd' => ?_⟩
    rcases List.mem_cons.mp hd' with rfl | hd'
    · exact l1.mono u2.ids u2.lines
    · exact l2 d' hd'

theorem declsOk_all {c : ShTop.Cfg} : ∀ {ds before}, DeclsOk c before ds → ∀ d ∈ ds, DOk c d
  | [], _, _, d, hd => by simp at hd
  | e :: ds, before, h, d, hd => by
    rcases List.mem_cons.mp hd with rfl | hd
    · have := h.1
      cases d with
      | proto f => trivial
      | scalar x init =>
        cases init with
        | none => trivial
        | some e => exact ⟨before, this⟩
      | array x len a => cases a <;> exact this
    · exact declsOk_all h.2 d hd

/-! ### Type specifiers -/

/-- The lines of a type specifier. -/
def SpecLine (l : List Cmd) : TySpec → Prop
  | .enum _ cs => ∀ x v, (x, v) ∈ cs → Cmd.readonly (.g x) (.int v) ∈ l
  | .struct tag ms => (∀ i (h : i < ms.length), Cmd.readonly (.mem ms[i].1) (.int (i : Int)) ∈ l) ∧
      ∀ t, tag = some t → Cmd.readonly (.szof t) (.int (ms.length : Int)) ∈ l
  | _ => True

theorem SpecLine.mono {l l' : List Cmd} (hl : ∀ x ∈ l, x ∈ l') : ∀ {sp : TySpec}, SpecLine l sp → SpecLine l' sp
  | .enum _ cs, h => fun x v hx => hl _ (h x v hx)
  | .struct tag ms, h => ⟨fun i hi => hl _ (h.1 i hi), fun t ht => hl _ (h.2 t ht)⟩
  | .basic, _ => trivial
  | .union, _ => trivial

theorem readonly_st {c m I s gl ar n} (v : Int) (h : St c m I s gl ar) (h1 : ∀ h, n ≠ .rt h) (h2 : ∀ k, n ≠ .str k) :
    Up I I s (s.append (.readonly n (.int v))) ∧ St c m I (s.append (.readonly n (.int v))) (gl ++ gOf n) ar ∧
      Cmd.readonly n (.int v) ∈ lines (s.append (.readonly n (.int v))) := by
  refine ⟨up_append _ _ _, ?_, mem_append_line _ _⟩
  have := h.append (x := .readonly n (.int v)) ⟨h1, h2, v, rfl⟩ (by simp) (by simp) (by simp)
  simpa [sets] using this

theorem compEnum_st {c m I ar} : ∀ {cs : List (Id × Int)} {s gl}, St c m I s gl ar →
    Up I I s (compEnum s cs) ∧ St c m I (compEnum s cs) (gl ++ cs.map (·.1)) ar ∧
      ∀ x v, (x, v) ∈ cs → Cmd.readonly (.g x) (.int v) ∈ lines (compEnum s cs)
  | [], s, gl, h => ⟨.refl _ _, by simpa [compEnum] using h, by simp⟩
  | (y, w) :: cs, s, gl, h => by
    obtain ⟨u1, s1, l1⟩ := readonly_st (n := .g y) w h (by simp) (by simp)
    obtain ⟨u2, s2, l2⟩ := compEnum_st (cs := cs) s1
    simp only [compEnum]
    refine ⟨u1.trans u2, by simpa [gOf] using s2, fun x v hx => ?_⟩
    rcases List.mem_cons.mp hx with hx | hx
    · cases hx; exact u2.lines _ l1
    · exact l2 x v hx

theorem compMembers_st {c m I gl ar} : ∀ {ms : List (Id × MTy)} {s off r}, St c m I s gl ar →
    compMembers s off ms = .ok r →
    Up I I s r.1 ∧ St c m I r.1 gl ar ∧ r.2 = off + ms.length ∧
      ∀ i (h : i < ms.length), Cmd.readonly (.mem ms[i].1) (.int ((off + i : Nat) : Int)) ∈ lines r.1
  | [], s, off, r, h, hr => by
    simp only [compMembers] at hr
    cases hr
    exact ⟨.refl _ _, h, rfl, by simp⟩
  | (y, t) :: ms, s, off, r, h, hr => by
    simp only [compMembers] at hr
    split at hr
    · cases hr
    · obtain ⟨u1, s1, l1⟩ := readonly_st (n := .mem y) off h (by simp) (by simp)
      rw [show gl ++ gOf (Nm.mem y) = gl from by simp [gOf]] at s1
      obtain ⟨u2, s2, e2, l2⟩ := compMembers_st s1 hr
      refine ⟨u1.trans u2, s2, by rw [e2]; simp; omega, fun i hi => ?_⟩
      cases i with
      | zero => exact u2.lines _ l1
      | succ i =>
        have := l2 i (by simpa using hi)
        rw [show off + 1 + i = off + (i + 1) from by omega] at this
        exact this

theorem compTySpec_st {c m I s s' gl ar sp} (h : St c m I s gl ar) (hr : compTySpec s sp = .ok s') :
    Up I I s s' ∧ St c m I s' (gl ++ specObjs sp) ar ∧ SpecLine (lines s') sp := by
  cases sp with
  | basic => simp only [compTySpec] at hr; cases hr; exact ⟨.refl _ _, by simpa [specObjs] using h, trivial⟩
  | union => simp only [compTySpec] at hr; cases hr
  | enum tag cs =>
    simp only [compTySpec] at hr
    cases hr
    exact compEnum_st h
  | struct tag ms =>
    simp only [compTySpec, compStruct] at hr
    obtain ⟨q, hq, hr⟩ := Res.bind_eq_ok.mp hr
    obtain ⟨u, st, e, l⟩ := compMembers_st h hq
    simp only [Nat.zero_add] at e l
    cases hr
    cases tag with
    | none => exact ⟨u, by simpa [specObjs] using st, l, by simp⟩
    | some t =>
      obtain ⟨u1, s1, l1⟩ := readonly_st (n := .szof t) q.2 st (by simp) (by simp)
      rw [e] at l1
      refine ⟨u.trans u1, by simpa [specObjs, gOf] using s1, fun i hi => u1.lines _ (l i hi), ?_⟩
      rintro t' ht
      cases ht
      rw [e]
      exact l1

/-! ### The program -/

/-- The lines of a declaration. -/
def TopLine (I : Ids) (l : List Cmd) : Top → Prop
  | .decls _ _ ds => ∀ d ∈ ds, DeclLine I l d
  | .tag sp => SpecLine l sp
  | .typedef sp => SpecLine l sp
  | _ => True

theorem TopLine.mono {I I' : Ids} {l l' : List Cmd} (h : ∀ q ∈ I, q ∈ I') (hl : ∀ x ∈ l, x ∈ l') :
    ∀ {t : Top}, TopLine I l t → TopLine I' l' t
  | .decls _ _ _, k => fun d hd => (k d hd).mono h hl
  | .tag _, k => SpecLine.mono hl k
  | .typedef _, k => SpecLine.mono hl k
  | .fn _, _ => trivial
  | .proto, _ => trivial

/-- What is asked of a declaration. -/
def TOk (c : ShTop.Cfg) : Top → Prop
  | .decls _ _ ds => ∀ d ∈ ds, DOk c d ∧ DeclBytes d
  | _ => True

theorem compTop_st {c m I s s' gl ar t} (h : St c m I s gl ar) (ok : TOk c t)
    (h1 : m = true → (ar ++ topLists t).head? ≠ some false) (h2 : m = false → true ∉ topLists t)
    (hr : compTop c s t = .ok s') :
    ∃ I', Up I I' s s' ∧ St c m I' s' (gl ++ topObjs t) (ar ++ topLists t) ∧ TopLine I' (lines s') t := by
  cases t with
  | decls sp ext ds =>
    simp only [compTop] at hr
    split at hr
    · cases hr
    · exact compDecls_st (gl0 := gl) h (fun d hd => (ok d hd).1) (fun d hd => (ok d hd).2) h1 h2 hr rfl
  | fn f =>
    simp only [compTop] at hr
    obtain ⟨I', u, st⟩ := compFun_st h hr
    exact ⟨I', u, by simpa [topObjs, topLists] using st, trivial⟩
  | proto =>
    simp only [compTop] at hr
    cases hr
    exact ⟨I, .refl _ _, by simpa [topObjs, topLists] using h, trivial⟩
  | tag sp =>
    obtain ⟨u, st, l⟩ := compTySpec_st h hr
    exact ⟨I, u, by simpa [topObjs, topLists] using st, l⟩
  | typedef sp =>
    obtain ⟨u, st, l⟩ := compTySpec_st h hr
    exact ⟨I, u, by simpa [topObjs, topLists] using st, l⟩

theorem initVars_ok (t : Top) : ∀ n ∈ initVars t, (∃ x, n = .loc x) ∨ ∃ k, n = .tmp k := by
  intro n hn
  cases t with
  | fn f =>
    simp only [initVars, FunDef.vars, tmps, List.mem_append, List.mem_map] at hn
    rcases hn with ⟨k, -, rfl⟩ | ⟨x, -, rfl⟩
    · exact .inr ⟨_, rfl⟩
    · exact .inl ⟨x, rfl⟩
  | _ => simp [initVars] at hn

theorem codegenTop_st {c m I s s' gl ar t} (h : St c m I s gl ar) (hp : s.pend = []) (ok : TOk c t)
    (h1 : m = true → (ar ++ topLists t).head? ≠ some false) (h2 : m = false → true ∉ topLists t)
    (hr : codegenTop c s t = .ok s') :
    ∃ I', Up I I' s s' ∧ St c m I' s' (gl ++ topObjs t) (ar ++ topLists t) ∧ s'.pend = [] ∧ TopLine I' (lines s') t := by
  unfold codegenTop at hr
  obtain ⟨s1, hs1, hr⟩ := Res.bind_eq_ok.mp hr
  dsimp only at hr
  rw [show ({ s with pend := [] } : E) = s from by cases s; simp only at hp; subst hp; rfl] at hs1
  obtain ⟨I', u, st, l⟩ := compTop_st h ok h1 h2 hs1
  have hs' : s' = { s1.put ((if (initVars t).isEmpty = true then [] else [Cmd.zero (initVars t)]) ++ s1.pend) with pend := [] } := by
    cases hr; rfl
  generalize hz : (if (initVars t).isEmpty = true then [] else [Cmd.zero (initVars t)]) = z at hs'
  have zm : ∀ x ∈ z, x = .zero (initVars t) := by
    subst hz
    split <;> simp
  have zg : gs z = [] := by
    refine gs_nil fun x hx => ?_
    rw [zm x hx]
    simp only [sets, List.flatMap_eq_nil_iff]
    intro n hn
    rcases initVars_ok t n hn with ⟨x, rfl⟩ | ⟨x, rfl⟩ <;> rfl
  have mem : ∀ x, x ∈ lines s' ↔ x ∈ lines s1 ∨ x ∈ z := by
    intro x
    subst hs'
    simp only [lines, E.put, List.mem_append, List.append_nil]
    constructor
    · rintro (h | h | h)
      · exact .inl (.inl h)
      · exact .inr h
      · exact .inl (.inr h)
    · rintro ((h | h) | h)
      · exact .inl h
      · exact .inr (.inr h)
      · exact .inr (.inl h)
  refine ⟨I', u.trans ⟨fun _ h => h, fun x hx => (mem x).mpr (.inl hx)⟩, ?_, by rw [hs'], l.mono (fun _ h => h)
    fun x hx => (mem x).mpr (.inl hx)⟩
  refine ⟨?_, ?_, by rw [hs']; simp, by rw [hs']; exact st.tag, by rw [hs']; exact st.key, st.fn, ?_,
    by rw [hs']; exact st.seen, ?_, ?_⟩
  · intro x hx
    rcases (mem x).mp hx with hx | hx
    · exact st.line x hx
    · rw [zm x hx]; exact initVars_ok t
  · rw [hs']
    refine allocOk_append st.alloc (allocOk_none fun v hv => ?_)
    rcases List.mem_append.mp hv with hv | hv
    · have := zm _ hv; cases this
    · exact st.pend v hv
  · rw [hs']
    simp only [E.put]
    rw [gs_append, gs_append, zg, List.nil_append, st.gsq]
    simp [gs]
  · intro hm ds hd
    rcases (mem _).mp hd with hd | hd
    · exact st.text hm ds hd
    · have := zm _ hd; cases this
  · intro hm n len args hd
    rcases (mem _).mp hd with hd | hd
    · exact st.plain hm n len args hd
    · have := zm _ hd; cases this

theorem codegen_st {c m} : ∀ {p : List Top} {I s s' gl ar}, St c m I s gl ar → s.pend = [] → (∀ t ∈ p, TOk c t) →
    (m = true → (ar ++ lists p).head? ≠ some false) → (m = false → true ∉ lists p) →
    codegen c s p = .ok s' →
    ∃ I', Up I I' s s' ∧ St c m I' s' (gl ++ objs p) (ar ++ lists p) ∧ s'.pend = [] ∧ ∀ t ∈ p, TopLine I' (lines s') t
  | [], I, s, s', gl, ar, h, hp, _, _, _, hr => by
    simp only [codegen] at hr
    cases hr
    exact ⟨I, .refl _ _, by simpa [objs, lists] using h, hp, by simp⟩
  | t :: p, I, s, s', gl, ar, h, hp, ok, h1, h2, hr => by
    simp only [codegen] at hr
    obtain ⟨s1, hd, hr⟩ := Res.bind_eq_ok.mp hr
    have hl : lists (t :: p) = topLists t ++ lists p := by simp [lists]
    obtain ⟨I1, u1, st1, p1, l1⟩ := codegenTop_st h hp (ok t List.mem_cons_self) (by
        intro hm hf
        refine h1 hm ?_
        rw [hl, ← List.append_assoc, List.head?_append, hf]
        rfl) (by
        intro hm hf
        refine h2 hm ?_
        rw [hl]
        exact List.mem_append_left _ hf) hd
    obtain ⟨I2, u2, st2, p2, l2⟩ := codegen_st st1 p1 (fun t ht => ok t (List.mem_cons_of_mem _ ht)) (by
        intro hm
        rw [List.append_assoc, ← hl]
        exact h1 hm) (by
        intro hm hf
        refine h2 hm ?_
        rw [hl]
        exact List.mem_append_right _ hf) hr
    refine ⟨I2, u1.trans u2, ?_, p2, fun t' ht' => ?_⟩
    · rw [hl]
      simpa [objs, List.append_assoc] using st2
    · rcases List.mem_cons.mp ht' with rfl | ht'
      · exact l1.mono u2.ids u2.lines
      · exact l2 t' ht'

theorem st_start (c : ShTop.Cfg) (m : Bool) : St c m [] ShTop.start [] [] :=
  ⟨by simp [lines, ShTop.start], rfl, by simp [ShTop.start], by simp [ShTop.start], by simp, by simp, rfl, by simp,
    by simp [lines, ShTop.start], by simp [lines, ShTop.start]⟩

end Verif.ShGlob
