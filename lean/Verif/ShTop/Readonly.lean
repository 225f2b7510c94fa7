import Verif.ShTop.Whole
/-! Which variables a script sets, and which it makes readonly. -/
namespace Verif.ShTop
open Verif Spec

theorem ro_append (l m : List Cmd) : ro (l ++ m) = ro l ++ ro m := by simp [ro]
theorem wr_append (l m : List Cmd) : wr (l ++ m) = wr l ++ wr m := by simp [wr]

theorem mem_ro {l : List Cmd} {n : Nm} : n ∈ ro l ↔ ∃ r, Cmd.readonly n r ∈ l := by
  unfold ro
  rw [List.mem_filterMap]
  constructor
  · rintro ⟨c, hc, he⟩
    cases c <;> simp at he
    subst he
    exact ⟨_, hc⟩
  · rintro ⟨r, h⟩
    exact ⟨_, h, rfl⟩

theorem sets_cases {c : Cmd} {n : Nm} (h : n ∈ sets c) : (∃ r, c = .readonly n r) ∨ n ∈ writes c := by
  cases c <;> simp_all [sets, writes]

/-- Constants are set once, and nothing else sets them: no line fails. -/
theorem noClash_of {l : List Cmd} (h1 : (ro l).Nodup) (h2 : ∀ n ∈ wr l, n ∉ ro l) : NoClash l := by
  intro pre c post e n hn r hr
  have hro : n ∈ ro pre := mem_ro.mpr ⟨r, hr⟩
  subst e
  rw [ro_append] at h1
  rcases sets_cases hn with ⟨r', rfl⟩ | hw
  · rw [List.nodup_append] at h1
    exact h1.2.2 n hro n (by simp [ro]) rfl
  · refine h2 n ?_ (by rw [ro_append]; exact List.mem_append_left _ hro)
    rw [wr_append]
    exact List.mem_append_right _ (by simp [wr, hw])

/-! ### The runtime -/

/-- A line of the runtime: it only sets the runtime's own variables. -/
def rtLine (x : Cmd) : Bool :=
  (sets x).all (fun n => match n with | .rt _ => true | _ => false) &&
  match x with
  | .readonly _ _ => false
  | .callMain _ _ => false
  | _ => true

/-- Only lines of the runtime were printed. -/
def RtOut (s s' : E) : Prop := s'.pend = s.pend ∧ ∃ T, s'.out = s.out ++ T ∧ T.all rtLine = true

theorem RtOut.refl (s : E) : RtOut s s := ⟨rfl, [], by simp, rfl⟩

theorem RtOut.trans {a b d : E} (h : RtOut a b) (k : RtOut b d) : RtOut a d := by
  obtain ⟨h0, T, h1, h2⟩ := h
  obtain ⟨k0, U, k1, k2⟩ := k
  exact ⟨k0.trans h0, T ++ U, by rw [k1, h1, List.append_assoc], by rw [List.all_append, h2, k2]; rfl⟩

theorem once_rtOut {f : Rt} {deps : E → E} {text : E → List Cmd} (hd : ∀ s, RtOut s (deps s))
    (ht : ∀ s, (text s).all rtLine = true) (s : E) : RtOut s (once f deps text s) := by
  unfold once
  split
  · exact .refl s
  · dsimp only
    have a : RtOut s (s.markDefined f) := ⟨rfl, [], by simp [E.markDefined], rfl⟩
    refine (a.trans (hd _)).trans ⟨rfl, _, rfl, ht _⟩

theorem id_rtOut (s : E) : RtOut s (id s) := .refl s

theorem rtMalloc_out (s) : RtOut s (rtMalloc s) := once_rtOut id_rtOut (fun _ => rfl) s
theorem rtFree_out (s) : RtOut s (rtFree s) := once_rtOut id_rtOut (fun _ => rfl) s
theorem rtInitialize_out (s) : RtOut s (rtInitialize s) := once_rtOut id_rtOut (fun _ => rfl) s
theorem rtExit_out (s) : RtOut s (rtExit s) := once_rtOut id_rtOut (fun _ => rfl) s
theorem rtPutchar_out (s) : RtOut s (rtPutchar s) := once_rtOut id_rtOut (fun _ => rfl) s
theorem rtLocalVars_out (c s) : RtOut s (rtLocalVars c s) :=
  once_rtOut id_rtOut (fun _ => by cases h : c.saveSet <;> rfl) s
theorem rtCharToInt_out (c s) : RtOut s (rtCharToInt c s) :=
  once_rtOut id_rtOut (fun _ => by cases h : c.compact <;> rfl) s
theorem rtDefarr_out (c s) : RtOut s (rtDefarr c s) := by
  refine once_rtOut (fun s => ?_) (fun s => ?_) s
  · dsimp only
    have a := rtMalloc_out s
    split
    · split
      · exact a.trans (rtInitialize_out _)
      · exact a
    · exact a.trans (rtInitialize_out _)
  · split
    · split <;> rfl
    · rfl
theorem rtUnpackString_out (c s) : RtOut s (rtUnpackString c s) :=
  once_rtOut (fun s => (rtMalloc_out s).trans (rtCharToInt_out c _)) (fun _ => rfl) s
theorem rtMakeArgv_out (c s) : RtOut s (rtMakeArgv c s) :=
  once_rtOut (fun s => (rtMalloc_out s).trans (rtUnpackString_out c _)) (fun _ => rfl) s
theorem rtUnpackEscaped_out (c s) : RtOut s (rtUnpackEscaped c s) :=
  once_rtOut (fun s => (rtMalloc_out s).trans (rtCharToInt_out c _)) (fun _ => by cases h : c.long <;> rfl) s
theorem rtDefstr_out (c s) : RtOut s (rtDefstr c s) := once_rtOut (rtUnpackEscaped_out c) (fun _ => rfl) s
theorem rtGetchar_out (c s) : RtOut s (rtGetchar c s) :=
  once_rtOut (rtCharToInt_out c) (fun _ => by cases h : c.long <;> rfl) s
theorem rtPutPstr_out (c s) : RtOut s (rtPutPstr c s) :=
  once_rtOut (fun s => by split; exact .refl s; exact rtPutchar_out s) (fun _ => rfl) s
theorem rtPrintf_out (c s) : RtOut s (rtPrintf c s) := once_rtOut (rtPutPstr_out c) (fun _ => rfl) s
theorem rtOpen_out (c s) : RtOut s (rtOpen c s) :=
  once_rtOut (fun s => (rtMalloc_out s).trans (rtPutPstr_out c _)) (fun _ => rfl) s
theorem rtReadByte_out (c s) : RtOut s (rtReadByte c s) :=
  once_rtOut (fun s => ((rtMalloc_out s).trans (rtFree_out _)).trans (rtCharToInt_out c _)) (fun _ => rfl) s
theorem rtRead_out (c s) : RtOut s (rtRead c s) :=
  once_rtOut (fun s => (rtReadByte_out c s).trans (rtOpen_out c _)) (fun _ => rfl) s
theorem rtWrite_out (c s) : RtOut s (rtWrite c s) := once_rtOut (rtOpen_out c) (fun _ => rfl) s
theorem rtFopen_out (c s) : RtOut s (rtFopen c s) :=
  once_rtOut (fun s => (rtMalloc_out s).trans (rtOpen_out c _)) (fun _ => rfl) s
theorem rtClose_out (c s) : RtOut s (rtClose c s) :=
  once_rtOut (fun s => (rtOpen_out c s).trans (rtFree_out _)) (fun _ => rfl) s
theorem rtFclose_out (c s) : RtOut s (rtFclose c s) :=
  once_rtOut (fun s => (rtFree_out s).trans (rtClose_out c _)) (fun _ => rfl) s
theorem rtFgetc_out (c s) : RtOut s (rtFgetc c s) := once_rtOut (rtReadByte_out c) (fun _ => rfl) s

theorem ifUse_out {f : Rt} {r : E → E} {a s : E} (h : RtOut a s) (hr : ∀ s, RtOut s (r s)) :
    RtOut a (ifUse f r s) := by
  unfold ifUse
  split
  · exact h.trans (hr _)
  · exact h

theorem produceRuntime_out (c : Cfg) (s : E) : RtOut s (produceRuntime c s) :=
  ifUse_out (ifUse_out (ifUse_out (ifUse_out (ifUse_out (ifUse_out (ifUse_out (ifUse_out (ifUse_out (ifUse_out
    (ifUse_out (ifUse_out (ifUse_out (ifUse_out (ifUse_out (ifUse_out (ifUse_out (ifUse_out (.refl s)
    (rtDefstr_out c)) rtPutchar_out) (rtGetchar_out c)) rtExit_out) rtMalloc_out) rtFree_out) (rtPutPstr_out c))
    (rtPrintf_out c)) (rtFopen_out c)) (rtFclose_out c)) (rtFgetc_out c)) (rtRead_out c)) (rtWrite_out c))
    (rtOpen_out c)) (rtClose_out c)) (rtMakeArgv_out c)) (rtLocalVars_out c)) (rtUnpackString_out c)

/-! ### Declarations -/

/-- Names set by assignments: never a constant, and global ones are variables of the program. -/
def Plain (vs : List Id) : Nm → Prop
  | .g x => x ∈ vs
  | .mem _ => False
  | .szof _ => False
  | .chr _ => False
  | _ => True

/-- The constants and the assigned names of the lines so far. -/
structure Tally (vs : List Id) (cs : List Nm) (l : List Cmd) : Prop where
  ro : Spec.ro l = cs
  wr : ∀ n ∈ Spec.wr l, Plain vs n

theorem rt_tally {vs T} (h : T.all rtLine = true) : Tally vs [] T := by
  have key : ∀ x ∈ T, rtLine x = true := List.all_eq_true.mp h
  constructor
  · rw [List.eq_nil_iff_forall_not_mem]
    intro n hn
    obtain ⟨r, hr⟩ := mem_ro.mp hn
    have := key _ hr
    simp [rtLine] at this
  · intro n hn
    obtain ⟨x, hx, hw⟩ := List.mem_flatMap.mp hn
    have h1 := key x hx
    have hs : n ∈ sets x := by cases x <;> simp_all [sets, writes]
    simp only [rtLine, Bool.and_eq_true, List.all_eq_true] at h1
    have := h1.1 n hs
    cases n <;> simp_all [Plain]

theorem Spec.NoCall.append {l m : List Cmd} (h : NoCall l) (k : NoCall m) : NoCall (l ++ m) := fun r a hm =>
  (List.mem_append.mp hm).elim (h r a) (k r a)

theorem noCall_rt {T : List Cmd} (h : T.all rtLine = true) : NoCall T := by
  intro r a hm
  have := List.all_eq_true.mp h _ hm
  simp [rtLine] at this

/-- The order in which lines are printed does not matter here: the runtime only adds plain lines. -/
structure Count (vs : List Id) (s s' : E) (cs : List Nm) : Prop where
  ro : Spec.ro s'.out ++ Spec.ro s'.pend = Spec.ro s.out ++ Spec.ro s.pend ++ cs
  out : Spec.ro s'.out = Spec.ro s.out
  wr : ∀ n, n ∈ Spec.wr s'.out ∨ n ∈ Spec.wr s'.pend → (n ∈ Spec.wr s.out ∨ n ∈ Spec.wr s.pend) ∨ Plain vs n
  call : NoCall s.out ∧ NoCall s.pend → NoCall s'.out ∧ NoCall s'.pend

theorem Count.refl (vs : List Id) (s : E) : Count vs s s [] := ⟨by simp, rfl, fun _ h => .inl h, id⟩

theorem Count.trans {vs a b d cs es} (h : Count vs a b cs) (k : Count vs b d es) : Count vs a d (cs ++ es) :=
  ⟨by rw [k.ro, h.ro, List.append_assoc], k.out.trans h.out, fun n hn => by
    rcases k.wr n hn with hn | hn
    · exact h.wr n hn
    · exact .inr hn, fun x => k.call (h.call x)⟩

theorem Count.rt {vs s s'} (h : RtOut s s') : Count vs s s' [] := by
  obtain ⟨h0, T, h1, h2⟩ := h
  have t := rt_tally (vs := vs) h2
  refine ⟨by rw [h0, h1, ro_append, t.ro]; simp, by rw [h1, ro_append, t.ro]; simp, ?_, ?_⟩
  rotate_left
  · rw [h0, h1]
    exact fun x => ⟨x.1.append (noCall_rt h2), x.2⟩
  intro n hn
  rw [h0, h1, wr_append, List.mem_append] at hn
  rcases hn with (hn | hn) | hn
  · exact .inl (.inl hn)
  · exact .inr (t.wr n hn)
  · exact .inl (.inr hn)

theorem Count.quiet {vs s s'} (h : Quiet s s') : Count vs s s' [] :=
  ⟨by rw [h.out, h.pend]; simp, by rw [h.out], fun n hn => by rw [h.out, h.pend] at hn; exact .inl hn,
    by rw [h.out, h.pend]; exact id⟩

theorem Count.append {vs s x} (hx : ∀ n ∈ writes x, Plain vs n)
    (hc : ∀ r a, x ≠ .callMain r a := by intros; simp) : Count vs s (s.append x) (Spec.ro [x]) := by
  refine ⟨?_, rfl, ?_, ?_⟩
  rotate_left 2
  · exact fun k => ⟨k.1, k.2.append (fun r a hm => hc r a (List.mem_singleton.mp hm).symm)⟩
  · show Spec.ro s.out ++ Spec.ro (s.pend ++ [x]) = _
    rw [ro_append, List.append_assoc]
  · intro n hn
    rcases hn with hn | hn
    · exact .inl (.inl hn)
    · have hn' : n ∈ Spec.wr (s.pend ++ [x]) := hn
      rw [wr_append, List.mem_append] at hn'
      rcases hn' with hn | hn
      · exact .inl (.inr hn)
      · exact .inr (hx n (by simpa [Spec.wr] using hn))

theorem Count.cast {vs s s' cs es} (h : Count vs s s' cs) (e : cs = es) : Count vs s s' es := e ▸ h

theorem compDefstr_count {vs} (c : Cfg) (s : E) (n : Nm) (t : List Nat) (size : Option Nat) (hn : Plain vs n) :
    Count vs s (compDefstr c s n t size) [] :=
  ((Count.rt (rtDefstr_out c s)).trans (.append (by simp [writes, sets, hn]))).cast rfl

theorem defLits_count {vs} (c : Cfg) : ∀ (L : List (Nat × List Nat)) (s : E), Count vs s (defLits c s L) []
  | [], s => .refl vs s
  | (k, t) :: L, s => ((compDefstr_count c s (.str k) t none trivial).trans (defLits_count c L _)).cast rfl

theorem compRv_quiet {c : Cfg} : ∀ {e : IE} {s : E} {ids : List Nat} {r}, compRv c s ids e = .ok r → Quiet s r.1
  | .int v, s, ids, r, h => by simp only [compRv, Res.ok.injEq] at h; subst h; exact .refl s
  | .chr ch, s, ids, r, h => by
    simp only [compRv] at h
    split at h
    · simp only [Res.ok.injEq] at h; subst h; exact .refl s
    · obtain ⟨q, h1, h2⟩ := Res.bind_eq_ok.mp h
      cases h2
      exact (charIdent_ok h1).1
  | .name x, s, ids, r, h => by simp only [compRv, Res.ok.injEq] at h; subst h; exact .refl s
  | .str t, s, [], r, h => by simp only [compRv, Res.ok.injEq] at h; subst h; exact .refl s
  | .str t, s, k :: ids, r, h => by simp only [compRv, Res.ok.injEq] at h; subst h; exact .refl s
  | .neg a, s, ids, r, h => by
    simp only [compRv] at h
    obtain ⟨q, h1, h2⟩ := Res.bind_eq_ok.mp h
    cases h2
    have := compRv_quiet (e := a) h1
    exact this
  | .add a b, s, ids, r, h => by
    simp only [compRv] at h
    obtain ⟨q, h1, h2⟩ := Res.bind_eq_ok.mp h
    obtain ⟨q', h3, h4⟩ := Res.bind_eq_ok.mp h2
    cases h4
    have k := compRv_quiet h3
    exact (compRv_quiet h1).trans k
  | .sub a b, s, ids, r, h => by
    simp only [compRv] at h
    obtain ⟨q, h1, h2⟩ := Res.bind_eq_ok.mp h
    obtain ⟨q', h3, h4⟩ := Res.bind_eq_ok.mp h2
    cases h4
    have k := compRv_quiet h3
    exact (compRv_quiet h1).trans k
  | .mul a b, s, ids, r, h => by
    simp only [compRv] at h
    obtain ⟨q, h1, h2⟩ := Res.bind_eq_ok.mp h
    obtain ⟨q', h3, h4⟩ := Res.bind_eq_ok.mp h2
    cases h4
    have k := compRv_quiet h3
    exact (compRv_quiet h1).trans k

theorem compAssign_count {vs c s s' x e} (hx : x ∈ vs) (h : compAssign c s x e = .ok s') : Count vs s s' [] := by
  unfold compAssign at h
  obtain ⟨q, h1, h2⟩ := Res.bind_eq_ok.mp h
  cases h2
  refine ((((Count.quiet (litInits_quiet e s)).trans (defLits_count c _ _)).trans
    (.quiet (compRv_quiet h1))).trans (.append (x := .assign (.g x) q.2.2) ?_)).cast rfl
  simpa [writes, sets, Plain] using hx

theorem compInitList_count {vs c} : ∀ {es s r}, compInitList c s es = .ok r → Count vs s r.1 []
  | [], s, r, h => by
    simp only [compInitList, Res.ok.injEq] at h; subst h
    exact .quiet (.setUse _ _)
  | e :: es, s, r, h => by
    have a : Count vs s (s.setUse .initialize) [] := .quiet (.setUse _ _)
    cases e with
    | int v =>
      simp only [compInitList] at h
      obtain ⟨q, h1, h2⟩ := Res.bind_eq_ok.mp h
      cases h2
      exact (a.trans (compInitList_count h1)).cast rfl
    | chr v =>
      simp only [compInitList] at h
      obtain ⟨q, h1, h2⟩ := Res.bind_eq_ok.mp h
      cases h2
      exact (a.trans (compInitList_count h1)).cast rfl
    | str t =>
      simp only [compInitList] at h
      obtain ⟨q, h1, h2⟩ := Res.bind_eq_ok.mp h
      cases h2
      refine (((a.trans (.quiet (.freshString _ t))).trans (compDefstr_count c _ _ t none ?_)).trans
        (compInitList_count h1)).cast rfl
      exact trivial
    | other => simp [compInitList] at h

theorem emitDefarr_count {vs c s s' x len args} (hx : x ∈ vs) (h : emitDefarr c s x len args = .ok s') :
    Count vs s s' [] := by
  unfold emitDefarr at h
  split at h
  · cases h
  cases h
  exact ((Count.rt (rtDefarr_out c s)).trans (.append (x := .defarr (.g x) len args)
    (by simpa [writes, sets, Plain] using hx))).cast rfl

theorem compDecl_count {vs c s s' d} (hx : ∀ x ∈ declObjs d, x ∈ vs) (h : compDecl c s d = .ok s') :
    Count vs s s' [] := by
  cases d with
  | proto f => cases h; exact .refl vs s
  | scalar x init => exact compAssign_count (e := init.getD (.int 0)) (hx x (by simp [declObjs])) h
  | array x len init =>
    have hx' : x ∈ vs := hx x (by simp [declObjs])
    cases init with
    | none => exact emitDefarr_count hx' h
    | other => cases h
    | str t =>
      simp only [compDecl] at h
      split at h
      · cases h
      cases h
      exact compDefstr_count c s _ t _ hx'
    | list es =>
      simp only [compDecl] at h
      obtain ⟨r, h1, h2⟩ := Res.bind_eq_ok.mp h
      have a : Count vs s r.1 [] := ((Count.quiet (.setUse s .initialize)).trans (compInitList_count h1)).cast rfl
      split at h2
      · exact (a.trans (emitDefarr_count hx' h2)).cast rfl
      split at h2
      · cases h2
      · exact (a.trans (emitDefarr_count hx' h2)).cast rfl

theorem compDecls_count {vs c} : ∀ {ds s s'}, (∀ x ∈ ds.flatMap declObjs, x ∈ vs) →
    compDecls c s ds = .ok s' → Count vs s s' []
  | [], s, s', _, h => by cases h; exact .refl vs s
  | d :: ds, s, s', hx, h => by
    simp only [compDecls] at h
    obtain ⟨s1, h1, h2⟩ := Res.bind_eq_ok.mp h
    simp only [List.flatMap_cons, List.mem_append] at hx
    exact ((compDecl_count (fun x k => hx x (.inl k)) h1).trans
      (compDecls_count (fun x k => hx x (.inr k)) h2)).cast rfl

theorem compEnum_count {vs} : ∀ (cs : List (Id × Int)) (s : E),
    Count vs s (compEnum s cs) (cs.map fun x => .g x.1)
  | [], s => .refl vs s
  | (x, v) :: cs, s =>
    ((Count.append (x := .readonly (.g x) (.int v)) (by simp [writes])).trans (compEnum_count cs _)).cast rfl

theorem compMembers_count {vs} : ∀ {ms : List (Id × MTy)} {s : E} {off r}, compMembers s off ms = .ok r →
    Count vs s r.1 (ms.map fun x => .mem x.1)
  | [], s, off, r, h => by cases h; exact .refl vs s
  | (x, v) :: ms, s, off, r, h => by
    simp only [compMembers] at h
    split at h
    · cases h
    exact ((Count.append (x := .readonly (.mem x) (.int off)) (by simp [writes])).trans
      (compMembers_count h)).cast rfl

theorem compTySpec_count {vs s s' sp} (h : compTySpec s sp = .ok s') : Count vs s s' (specConsts sp) := by
  cases sp with
  | basic => cases h; exact .refl vs s
  | union => cases h
  | enum tag cs => cases h; exact compEnum_count cs s
  | struct tag ms =>
    simp only [compTySpec, compStruct] at h
    obtain ⟨r, h1, h2⟩ := Res.bind_eq_ok.mp h
    have a : Count vs s r.1 (ms.map fun x => .mem x.1) := compMembers_count h1
    cases tag with
    | none => cases h2; exact a.cast (by simp [specConsts])
    | some t =>
      cases h2
      exact (a.trans (.append (x := .readonly (.szof t) (.int r.2)) (by simp [writes]))).cast
        (by simp [specConsts, Spec.ro])

/-! ### Programs -/

theorem put_pend_tally {vs s cs} {s1 : E} (hs : s.pend = []) (h : Count vs s s1 cs) :
    Spec.ro ({ s1.put s1.pend with pend := [] } : E).out = Spec.ro s.out ++ cs ∧
    ∀ n ∈ Spec.wr ({ s1.put s1.pend with pend := [] } : E).out, n ∈ Spec.wr s.out ∨ Plain vs n := by
  constructor
  · show Spec.ro (s1.out ++ s1.pend) = _
    rw [ro_append, h.ro, hs]; simp [Spec.ro]
  · intro n hn
    have hn' : n ∈ Spec.wr (s1.out ++ s1.pend) := hn
    rw [wr_append, List.mem_append] at hn'
    rcases h.wr n hn' with (k | k) | k
    · exact .inl k
    · rw [hs] at k; simp [Spec.wr] at k
    · exact .inr k

theorem vars_plain {vs} (f : FunDef) {n : Nm} (h : n ∈ f.vars) : Plain vs n := by
  unfold FunDef.vars tmps at h
  rcases List.mem_append.mp h with h | h
  · obtain ⟨k, -, rfl⟩ := List.mem_map.mp h; trivial
  · obtain ⟨k, -, rfl⟩ := List.mem_map.mp h; trivial

theorem compFun_count {vs c s s' f} (h : compFun c s f = .ok s') : Count vs s s' [] := by
  rw [compFun_eq] at h
  obtain ⟨r, h1, h2⟩ := Res.bind_eq_ok.mp h
  cases h2
  have ev : ∀ {es s r}, compEvs c (f.locals ++ f.params) s es = .ok r → Quiet s r.1 := by
    intro es
    induction es with
    | nil => intro s r h; cases h; exact .refl s
    | cons e es ih =>
      intro s r h
      simp only [compEvs] at h
      obtain ⟨q, h1, h2⟩ := Res.bind_eq_ok.mp h
      obtain ⟨q', h3, h4⟩ := Res.bind_eq_ok.mp h2
      cases h4
      have k := ih h3
      refine Quiet.trans ?_ k
      cases e with
      | call g drop args =>
        simp only [compEv, Res.ok.injEq] at h1
        subst h1
        unfold compCall
        split
        · exact .refl s
        split
        · exact .setUse _ _
        split
        · exact .refl s
        split
        · exact .refl s
        split
        · exact .refl s
        exact markUse_quiet s g
      | str t =>
        simp only [compEv, Res.ok.injEq] at h1; subst h1
        exact (Quiet.freshString s t).trans (.setUse _ _)
      | chr ch =>
        simp only [compEv] at h1
        split at h1
        · cases h1; exact .refl s
        · obtain ⟨q, k1, k2⟩ := Res.bind_eq_ok.mp h1
          cases k2
          exact (charIdent_ok k1).1
      | var x => simp only [compEv, Res.ok.injEq] at h1; subst h1; exact .refl s
      | member x => simp only [compEv, Res.ok.injEq] at h1; subst h1; exact .refl s
      | sizeofStruct x => simp only [compEv, Res.ok.injEq] at h1; subst h1; exact .refl s
  obtain ⟨f1, f2, -⟩ := mainFlags_ok s f
  have q := ev h1
  have a : Count vs s r.1 [] :=
    ⟨by rw [q.out, q.pend, f1, f2]; simp, by rw [q.out, f1], fun n hn => by
      rw [q.out, q.pend, f1, f2] at hn; exact .inl hn,
      by rw [q.out, q.pend, f1, f2]; exact id⟩
  refine (a.trans (Count.trans (b := if f.vars.isEmpty then r.1 else r.1.setUse .local_vars) (cs := []) ?_
    (.append (by simp [writes, sets])))).cast rfl
  split
  · exact .refl vs _
  · exact .quiet (.setUse _ _)

theorem codegenTop_count {vs c s s' t} (hv : ∀ x ∈ topVars t, x ∈ vs)
    (h : codegenTop c s t = .ok s') :
    Spec.ro s'.out = Spec.ro s.out ++ topConsts t ∧
    ∀ n ∈ Spec.wr s'.out, n ∈ Spec.wr s.out ∨ Plain vs n := by
  unfold codegenTop at h
  obtain ⟨s1, h1, h2⟩ := Res.bind_eq_ok.mp h
  cases h2
  have e0 : ({ s with pend := [] } : E).pend = [] := rfl
  cases t with
  | fn f =>
    have a : Count vs { s with pend := [] } s1 [] := compFun_count h1
    obtain ⟨b1, b2⟩ := put_pend_tally e0 a
    have b1' : Spec.ro (s1.out ++ s1.pend) = Spec.ro s.out ++ [] := b1
    have b2' : ∀ n ∈ Spec.wr (s1.out ++ s1.pend), n ∈ Spec.wr s.out ∨ Plain vs n := b2
    rw [ro_append] at b1'
    generalize hz : (if (initVars (.fn f)).isEmpty then [] else [Cmd.zero (initVars (.fn f))]) = Z
    have zr : Spec.ro Z = [] := by rw [← hz]; split <;> rfl
    have zw : ∀ n ∈ Spec.wr Z, Plain vs n := by
      intro n hn
      rw [← hz] at hn
      split at hn
      · simp [Spec.wr] at hn
      · exact vars_plain f (by simpa [Spec.wr, writes, sets, initVars] using hn)
    constructor
    · show Spec.ro (s1.out ++ (Z ++ s1.pend)) = _
      rw [ro_append, ro_append, zr, List.nil_append, b1']; rfl
    · intro n hn
      have hn' : n ∈ Spec.wr (s1.out ++ (Z ++ s1.pend)) := hn
      rw [wr_append, wr_append] at hn'
      simp only [List.mem_append] at hn'
      rcases hn' with k | k | k
      · exact b2' n (by rw [wr_append]; exact List.mem_append_left _ k)
      · exact .inr (zw n k)
      · exact b2' n (by rw [wr_append]; exact List.mem_append_right _ k)
  | proto => cases h1; exact put_pend_tally (s := { s with pend := [] }) e0 (.refl vs _)
  | tag sp => exact put_pend_tally (s := { s with pend := [] }) e0 (compTySpec_count h1)
  | typedef sp => exact put_pend_tally (s := { s with pend := [] }) e0 (compTySpec_count h1)
  | decls sp ext ds =>
    simp only [compTop] at h1
    split at h1
    · cases h1
    exact put_pend_tally (s := { s with pend := [] }) e0 (compDecls_count hv h1)

theorem codegen_count {vs c} : ∀ {ts s s'}, (∀ x ∈ ts.flatMap topVars, x ∈ vs) → codegen c s ts = .ok s' →
    Spec.ro s'.out = Spec.ro s.out ++ ts.flatMap topConsts ∧
    ∀ n ∈ Spec.wr s'.out, n ∈ Spec.wr s.out ∨ Plain vs n
  | [], s, s', _, h => by cases h; exact ⟨by simp, fun n hn => .inl hn⟩
  | t :: ts, s, s', hv, h => by
    simp only [codegen] at h
    obtain ⟨s1, h1, h2⟩ := Res.bind_eq_ok.mp h
    simp only [List.flatMap_cons, List.mem_append] at hv
    obtain ⟨a1, a2⟩ := codegenTop_count (fun x k => hv x (.inl k)) h1
    obtain ⟨b1, b2⟩ := codegen_count (fun x k => hv x (.inr k)) h2
    refine ⟨by rw [b1, a1]; simp, fun n hn => ?_⟩
    rcases b2 n hn with k | k
    · exact a2 n k
    · exact .inr k

theorem codegenTop_noCall {c s s' t} (h : codegenTop c s t = .ok s') (hs : NoCall s.out) : NoCall s'.out := by
  unfold codegenTop at h
  obtain ⟨s1, h1, h2⟩ := Res.bind_eq_ok.mp h
  cases h2
  have fin : ∀ cs, Count (topVars t) { s with pend := [] } s1 cs → NoCall s1.out ∧ NoCall s1.pend := fun cs k =>
    k.call ⟨hs, by simp [NoCall]⟩
  have k : NoCall s1.out ∧ NoCall s1.pend := by
    cases t with
    | fn f => exact fin _ (compFun_count h1)
    | proto => cases h1; exact ⟨hs, by simp [NoCall]⟩
    | tag sp => exact fin _ (compTySpec_count h1)
    | typedef sp => exact fin _ (compTySpec_count h1)
    | decls sp ext ds =>
      simp only [compTop] at h1
      split at h1
      · cases h1
      exact fin _ (compDecls_count (fun x hx => hx) h1)
  refine k.1.append (NoCall.append ?_ k.2)
  split <;> simp [NoCall]

theorem codegen_noCall {c} : ∀ {ts s s'}, codegen c s ts = .ok s' → NoCall s.out → NoCall s'.out
  | [], s, s', h, hs => by cases h; exact hs
  | t :: ts, s, s', h, hs => by
    simp only [codegen] at h
    obtain ⟨s1, h1, h2⟩ := Res.bind_eq_ok.mp h
    exact codegen_noCall h2 (codegenTop_noCall h1 hs)

theorem defNames_charLines (s : E) : defNames (charLines s) = [] := defNames_nil_of (by
  intro n ds h
  obtain ⟨ch, e⟩ := charLines_mem h
  cases e)

theorem ro_charLines (s : E) : Spec.ro (charLines s) = ((List.range 256).filter s.chars).map .chr := by
  unfold charLines Spec.ro
  rw [List.filterMap_map]
  induction (List.range 256).filter s.chars with
  | nil => rfl
  | cons a l ih => simp only [List.filterMap_cons, Function.comp, List.map_cons]; rw [← ih]

theorem wr_charLines (s : E) : Spec.wr (charLines s) = [] := by
  rw [List.eq_nil_iff_forall_not_mem]
  intro n hn
  obtain ⟨x, hx, hw⟩ := List.mem_flatMap.mp hn
  obtain ⟨ch, rfl⟩ := charLines_mem hx
  simp [writes] at hw

theorem topConsts_notChr {t : Top} {ch : Nat} : Nm.chr ch ∉ topConsts t := by
  have key : ∀ sp, Nm.chr ch ∉ specConsts sp := by
    intro sp
    cases sp with
    | struct tag ms => cases tag <;> simp [specConsts]
    | _ => simp [specConsts]
  cases t <;> simp [topConsts, key]

theorem topConsts_cases {t : Top} {n : Nm} (h : n ∈ topConsts t) :
    (∃ x, n = .g x) ∨ (∃ x, n = .mem x) ∨ ∃ x, n = .szof x := by
  have key : ∀ sp, n ∈ specConsts sp → (∃ x, n = .g x) ∨ (∃ x, n = .mem x) ∨ ∃ x, n = .szof x := by
    intro sp hs
    cases sp with
    | struct tag ms =>
      cases tag with
      | none =>
        simp only [specConsts, List.append_nil, List.mem_map] at hs
        obtain ⟨x, -, rfl⟩ := hs
        exact .inr (.inl ⟨_, rfl⟩)
      | some t =>
        simp only [specConsts, List.mem_append, List.mem_map, List.mem_singleton] at hs
        rcases hs with ⟨x, -, rfl⟩ | rfl
        · exact .inr (.inl ⟨_, rfl⟩)
        · exact .inr (.inr ⟨_, rfl⟩)
    | enum tag cs =>
      simp only [specConsts, List.mem_map] at hs
      obtain ⟨x, -, rfl⟩ := hs
      exact .inl ⟨_, rfl⟩
    | _ => simp [specConsts] at hs
  cases t with
  | tag sp => exact key sp h
  | typedef sp => exact key sp h
  | _ => simp [topConsts] at h

theorem tally_main {vs} (r a : Bool) : Tally vs [] [.set (.rt .code) 0, .callMain r a] :=
  ⟨rfl, by simp [Spec.wr, writes, sets, Plain]⟩

theorem tally_main' {vs} (r a : Bool) : Tally vs [] [.callMain r a] := ⟨rfl, by simp [Spec.wr, writes, sets]⟩

theorem epilogue_count {vs cs} (c : Cfg) (s : E) (h1 : Spec.ro s.out = cs) (h2 : ∀ n ∈ Spec.wr s.out, Plain vs n) :
    Spec.ro (epilogue c s).out = cs ++ ((List.range 256).filter s.chars).map .chr ∧
    ∀ n ∈ Spec.wr (epilogue c s).out, Plain vs n := by
  obtain ⟨-, T, hT, hT'⟩ := produceRuntime_out c (s.put (charLines s))
  have t := rt_tally (vs := vs) hT'
  have base : Spec.ro (produceRuntime c (s.put (charLines s))).out = cs ++ ((List.range 256).filter s.chars).map .chr ∧
      ∀ n ∈ Spec.wr (produceRuntime c (s.put (charLines s))).out, Plain vs n := by
    rw [hT]
    constructor
    · show Spec.ro ((s.out ++ charLines s) ++ T) = _
      rw [ro_append, ro_append, t.ro, List.append_nil, ro_charLines, h1]
    · intro n hn
      have hn' : n ∈ Spec.wr ((s.out ++ charLines s) ++ T) := hn
      rw [wr_append, wr_append, wr_charLines, List.append_nil, List.mem_append] at hn'
      exact hn'.elim (h2 n) (t.wr n)
  have add : ∀ (s1 : E) (l : List Cmd) (R : List Nm), Tally vs [] l →
      (Spec.ro s1.out = R ∧ ∀ n ∈ Spec.wr s1.out, Plain vs n) →
      (Spec.ro (s1.put l).out = R ∧ ∀ n ∈ Spec.wr (s1.put l).out, Plain vs n) := by
    intro s1 l R t h
    constructor
    · show Spec.ro (s1.out ++ l) = R
      rw [ro_append, t.ro, List.append_nil, h.1]
    · intro n hn
      have hn' : n ∈ Spec.wr (s1.out ++ l) := hn
      rw [wr_append, List.mem_append] at hn'
      exact hn'.elim (h.2 n) (t.wr n)
  unfold epilogue
  dsimp only
  generalize produceRuntime c (s.put (charLines s)) = s1 at base
  by_cases hmd : s1.mainDefined = true
  · rw [if_pos hmd]
    by_cases hu : s1.use .make_argv = true
    · rw [if_pos hu]
      split
      · exact add _ _ _ (tally_main _ _) (add _ _ _ (rt_tally rfl) base)
      · exact add _ _ _ (tally_main' _ _) (add _ _ _ (rt_tally rfl) base)
    · rw [if_neg hu]
      split
      · exact add _ _ _ (tally_main _ _) base
      · exact add _ _ _ (tally_main' _ _) base
  · rw [if_neg hmd]; exact base

theorem script_noClash {c p l} (hd : (consts p).Nodup) (hv : ∀ x ∈ vars p, Nm.g x ∉ consts p)
    (h : script c p = .ok l) : NoClash l := by
  unfold script at h
  obtain ⟨s, h1, h2⟩ := Res.bind_eq_ok.mp h
  cases h2
  obtain ⟨a1, a2⟩ := codegen_count (vs := vars p) (fun x k => k) h1
  have e0 : Spec.ro start.out = [] := rfl
  rw [e0, List.nil_append] at a1
  obtain ⟨b1, b2⟩ := epilogue_count (vs := vars p) c s a1 (fun n hn => by
    rcases a2 n hn with k | k
    · simp [start, Spec.wr] at k
    · exact k)
  refine noClash_of ?_ ?_
  · rw [b1, List.nodup_append]
    refine ⟨hd, ?_, ?_⟩
    · exact (List.nodup_range.filter _).map (f := Nm.chr) (fun a b h e => h (by cases e; rfl))
    · intro a ha b hb e
      subst e
      obtain ⟨ch, -, rfl⟩ := List.mem_map.mp hb
      obtain ⟨t, -, ht⟩ := List.mem_flatMap.mp ha
      exact topConsts_notChr ht
  · intro n hn hr
    have hp := b2 n hn
    rw [b1] at hr
    rcases List.mem_append.mp hr with hr | hr
    · obtain ⟨t, -, ht⟩ := List.mem_flatMap.mp hr
      rcases topConsts_cases ht with ⟨x, rfl⟩ | ⟨x, rfl⟩ | ⟨x, rfl⟩
      · exact hv x hp hr
      · exact hp
      · exact hp
    · obtain ⟨ch, -, rfl⟩ := List.mem_map.mp hr
      exact hp

end Verif.ShTop
