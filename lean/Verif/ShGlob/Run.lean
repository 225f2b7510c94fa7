import Verif.ShGlob.Exec
/-! C46: a well-formed script runs up to the call of `main`. -/
namespace Verif.ShGlob
open Verif ShTop ShTop.Spec Spec
open Verif.ShHeap (Reach Obj Act StrAt)

/-- `__ALLOC=1` comes before `_malloc`. -/
theorem alloc_virgin {pre post : List Cmd} {v : Int} (ha : allocOk (pre ++ .set (.rt .alloc) v :: post) = true)
    (hn : (defNames (pre ++ .set (.rt .alloc) v :: post)).Nodup) : v = 1 ∧ Nm.g idMalloc ∉ defNames pre := by
  have suf : allocOk (.set (.rt .alloc) v :: post) = true := by
    induction pre with
    | nil => exact ha
    | cons x pre ih =>
      refine ih ?_ ?_
      · rw [List.cons_append, allocOk.eq_def] at ha
        split at ha
        · simp_all
        · rename_i heq
          simp only [List.cons.injEq] at heq
          obtain ⟨-, rfl⟩ := heq
          simp only [Bool.and_eq_true] at ha
          exact ha.2
        · rename_i heq
          simp only [List.cons.injEq] at heq
          obtain ⟨-, rfl⟩ := heq
          exact ha
      · have : defNames (x :: pre ++ .set (.rt .alloc) v :: post) = defNames [x] ++
            defNames (pre ++ .set (.rt .alloc) v :: post) := by rw [← defNames_append]; simp
        rw [this, List.nodup_append] at hn
        exact hn.2.1
  simp only [allocOk, Bool.and_eq_true, beq_iff_eq] at suf
  obtain ⟨⟨rfl, h2⟩, -⟩ := suf
  refine ⟨rfl, fun hm => ?_⟩
  split at h2
  · rename_i ds post' heq
    rw [defNames_append, List.nodup_append] at hn
    refine hn.2.2 _ hm (.g idMalloc) ?_ rfl
    rw [mem_defNames]
    exact ⟨_, List.mem_cons_of_mem _ List.mem_cons_self⟩
  · cases h2

/-- Everything a line calls is defined before it. -/
theorem fn_met {c I pre y post} (w : Wf c I (pre ++ y :: post)) {n : Nm} (h : Need.fn n ∈ needs y) :
    n ∈ defNames pre := mem_defNames.mpr (w.complete pre y post rfl _ h _ (.refl _))

/-- … and so is everything these functions call. -/
theorem fn_met2 {c I pre y post} (w : Wf c I (pre ++ y :: post)) {n m : Nm} (h : Need.fn n ∈ needs y)
    (hm : m ∈ textNeeds c n) : m ∈ defNames pre := by
  obtain ⟨ds, hd⟩ := mem_defNames.mp (fn_met w h)
  have ok := (w.line _ (List.mem_append_left _ hd)).1 m hm
  exact mem_defNames.mpr (w.complete pre y post rfl _ h _ (.step hd ok (.refl _)))

theorem fn_met3 {c I pre y post} (w : Wf c I (pre ++ y :: post)) {n m k : Nm} (h : Need.fn n ∈ needs y)
    (hm : m ∈ textNeeds c n) (hk : k ∈ textNeeds c m) : k ∈ defNames pre := by
  obtain ⟨ds, hd⟩ := mem_defNames.mp (fn_met w h)
  have ok := (w.line _ (List.mem_append_left _ hd)).1 m hm
  obtain ⟨ds', hd'⟩ := mem_defNames.mp (fn_met2 w h hm)
  have ok' := (w.line _ (List.mem_append_left _ hd')).1 k hk
  exact mem_defNames.mpr (w.complete pre y post rfl _ h _ (.step hd ok (.step hd' ok' (.refl _))))

theorem calls_ok {s : Sh} {ns : List Nm} {k : Res Sh} (h : ∀ n ∈ ns, (s.fns.lookup n).isSome) : s.calls ns k = k := by
  unfold Sh.calls
  rw [if_pos (List.all_eq_true.mpr h)]

/-- No line of the script runs into a readonly variable. -/
theorem not_ro {e : Env} {c I pre y post s L} (w : Wf c I (pre ++ y :: post)) (g : Good e pre s L) {n : Nm}
    (h : n ∈ sets y) : n ∉ s.ro := by
  intro hr
  obtain ⟨r, hr⟩ := mem_ro.mp (g.ro n hr)
  exact w.clash pre y post rfl n h r hr

theorem str_val {e : Env} {c I pre y post s L} (w : Wf c I (pre ++ y :: post)) (g : Good e pre s L) {k : Nat}
    (h : Met pre (.var (.str k))) : ∃ v, s.var e (.str k) = some v ∧ v ≠ 0 := by
  obtain ⟨x, hx, hn⟩ := h
  have ok := w.line x (List.mem_append_left _ hx)
  have val := g.vals x hx
  cases x with
  | defstr n t size =>
    simp only [sets, List.mem_singleton] at hn
    subst hn
    obtain ⟨b, sz, h1, h2, -⟩ := val
    exact ⟨b, h1, by omega⟩
  | set n v => simp only [sets, List.mem_singleton] at hn; subst hn; obtain ⟨h, e, -⟩ := ok; cases e
  | zero ns => rcases ok _ hn with ⟨x, e⟩ | ⟨x, e⟩ <;> cases e
  | assign n r => simp only [sets, List.mem_singleton] at hn; subst hn; obtain ⟨⟨h, e⟩, -⟩ := ok; cases e
  | readonly n r => simp only [sets, List.mem_singleton] at hn; subst hn; exact absurd rfl (ok.2.1 k)
  | malloc n v => simp only [sets, List.mem_singleton] at hn; subst hn; obtain ⟨h, e, -⟩ := ok; cases e
  | defarr n v as => simp only [sets, List.mem_singleton] at hn; subst hn; obtain ⟨⟨h, e⟩, -⟩ := ok; cases e
  | argv => simp [sets] at hn
  | defun n ds => simp [sets] at hn
  | callMain a b => simp [sets] at hn

/-- Assigning a variable. -/
theorem did_assign {e : Env} (he : EnvOk e) {c I pre y post s L} (w : Wf c I (pre ++ y :: post)) (g : Good e pre s L)
    {n : Nm} (v : Int) (hs : sets y = [n]) (hk : ∀ k, n ≠ .str k) (hd : ∀ m ds, y ≠ .defun m ds)
    (ho : ∀ n k, ¬ Own [y] n k)
    (ro : List Nm) (hro : ∀ m ∈ ro, m ∈ s.ro ∨ ∃ r, y = .readonly m r) :
    s.assign e n v = .ok ⟨s.mem.put (.var (e.num n)) v, s.fns, s.ro⟩ ∧
    Did e pre s ⟨s.mem.put (.var (e.num n)) v, s.fns, ro⟩ y [] ∧
    (⟨s.mem.put (.var (e.num n)) v, s.fns, ro⟩ : Sh).var e n = some v := by
  have hr : n ∉ s.ro := not_ro w g (by rw [hs]; simp)
  have vp : ∀ m, (⟨s.mem.put (.var (e.num n)) v, s.fns, ro⟩ : Sh).var e m = if m = n then some v else s.var e m :=
    fun m => var_put he s n m v
  refine ⟨by unfold Sh.assign; rw [if_neg hr], ⟨memStep_put e s.mem _ _, ?_, hro, ?_, ?_, ?_, fun _ => rfl, fun _ _ h => absurd h (ho _ _)⟩, ?_⟩
  · cases y with
    | defun m ds => exact absurd rfl (hd m ds)
    | _ => rfl
  · intro m hm
    rw [hs, List.mem_singleton] at hm
    rw [vp, if_neg hm]
  · intro k _
    rw [vp, if_neg (fun h => hk k h.symm)]
  · intro m hm _
    rw [hs, List.mem_singleton] at hm
    exact ⟨v, by rw [vp, if_pos hm]⟩
  · rw [vp, if_pos rfl]

theorem zero_ok {e : Env} (he : EnvOk e) : ∀ (ns : List Nm) (s : Sh), (∀ n ∈ ns, n ∉ s.ro) →
    ∃ s', s.zero e ns = .ok s' ∧ MemStep e s.mem s'.mem [] ∧ s'.fns = s.fns ∧ s'.ro = s.ro ∧
      s'.mem.alloc = s.mem.alloc ∧ ∀ m, s'.var e m = if m ∈ ns then some 0 else s.var e m
  | [], s, _ => ⟨s, rfl, .refl e s.mem, rfl, rfl, rfl, by simp⟩
  | n :: ns, s, h => by
    obtain ⟨s', h1, h2, h3, h4, h6, h5⟩ := zero_ok he ns ⟨s.mem.put (.var (e.num n)) 0, s.fns, s.ro⟩
      fun m hm => h m (List.mem_cons_of_mem _ hm)
    refine ⟨s', ?_, (memStep_put e s.mem _ 0).trans h2, h3, h4, h6, fun m => ?_⟩
    · rw [Sh.zero, Sh.assign, if_neg (h n List.mem_cons_self)]
      exact h1
    · rw [h5, var_put he]
      by_cases hm : m ∈ ns
      · simp [hm]
      · by_cases hn : m = n <;> simp [hm, hn]

/-- One line of a well-formed script. -/
theorem exec_good {e : Env} (he : EnvOk e) {I pre y post s L} (w : Wf e.c I (pre ++ y :: post))
    (g : Good e pre s L) :
    ∃ s', exec e s y = .ok s' ∧ ∃ L', Good e (pre ++ [y]) s' L' := by
  have ok := w.line y (by simp)
  have hin : ∀ n, n ∈ defNames pre → (s.fns.lookup n).isSome := g.fnd
  have hset : ∀ n, Need.var n ∈ needs y → VarOk I n → ∃ v, s.var e n = some v := by
    intro n hn hv
    refine g.set n ?_ (reads_met w hn)
    rcases hv with ⟨x, rfl⟩ | ⟨k, t, rfl, -⟩ <;> simp
  have hp := e.heap.h_pos
  have hpos := alloc_pos g.reach
  cases y with
  | callMain a b =>
    refine ⟨_, rfl, g.step (os := []) w ⟨.refl e s.mem, rfl, fun n h => .inl h, fun _ _ => rfl, fun _ _ => rfl, ?_, fun _ => rfl, fun _ _ h => absurd h (Own.none (by simp) (by simp))⟩
      fun _ _ _ => trivial⟩
    intro n hn; simp [sets] at hn
  | defun n ds =>
    refine ⟨_, rfl, g.step (os := []) w ⟨.refl e s.mem, rfl, fun n h => .inl h, fun _ _ => rfl, fun _ _ => rfl, ?_, fun _ => rfl, fun _ _ h => absurd h (Own.none (by simp) (by simp))⟩
      fun _ _ _ => trivial⟩
    intro n hn; simp [sets] at hn
  | set n v =>
    obtain ⟨h, rfl, -, -⟩ := ok
    by_cases hn : Nm.rt h = .rt .alloc
    · rw [hn] at w
      obtain ⟨rfl, hv⟩ := alloc_virgin w.alloc w.nodup
      have ha := g.virgin hv
      have same : ({ s with mem := { s.mem with alloc := 1 } } : Sh) = s := by rw [← ha]
      refine ⟨s, by simp only [exec]; rw [if_pos hn, same], ?_⟩
      rw [hn]
      refine g.step (os := []) w ⟨.refl e s.mem, rfl, fun n h => .inl h, fun _ _ => rfl, fun _ _ => rfl, ?_, fun _ => rfl, fun _ _ h => absurd h (Own.none (by simp) (by simp))⟩
        fun _ _ _ => trivial
      intro n hn hne
      simp only [sets, List.mem_singleton] at hn
      exact absurd hn hne
    · obtain ⟨h1, h2, h3⟩ := did_assign he w g (n := .rt h) v rfl (by simp) (by simp) (fun _ _ => Own.none (by simp) (by simp)) s.ro (fun _ h => .inl h)
      exact ⟨_, by simp only [exec]; rw [if_neg hn]; exact h1, g.step w h2 fun _ _ _ => trivial⟩
  | zero ns =>
    obtain ⟨s', h1, h2, h3, h4, h6, h5⟩ := zero_ok he ns s fun n hn => not_ro w g hn
    refine ⟨s', h1, g.step w ⟨h2, h3, fun n hn => .inl (h4 ▸ hn), fun n hn => ?_, fun k _ => ?_, fun n hn _ => ?_, fun _ => h6,
      fun _ _ h => absurd h (Own.none (by simp) (by simp))⟩
      fun _ _ _ => trivial⟩
    · rw [h5, if_neg (show n ∉ ns from hn)]
    · rw [h5, if_neg]
      intro hk
      rcases ok _ hk with ⟨x, hx⟩ | ⟨x, hx⟩ <;> cases hx
    · exact ⟨0, by rw [h5, if_pos (show n ∈ ns from hn)]⟩
  | assign n r =>
    obtain ⟨⟨x, rfl⟩, hv⟩ := ok
    have hv' : ∀ m ∈ rvVars r, ∃ v, s.var e m = some v := fun m hm => hset m (by simpa [needs] using hm) (hv m hm)
    obtain ⟨v, hr⟩ := evalRv_ok hv'
    obtain ⟨h1, h2, h3⟩ := did_assign he w g (n := .g x) v rfl (by simp) (by simp) (fun _ _ => Own.none (by simp) (by simp)) s.ro (fun _ h => .inl h)
    refine ⟨_, by simp only [exec, hr, Res.bind_ok]; exact h1, g.step w h2 fun L' _ _ => ⟨v, h3, ?_⟩⟩
    rw [evalRv_same fun m hm => settled w h2 (reads_met w (by simpa [needs] using hm)) (varOk_settled (hv m hm))]
    exact hr
  | readonly n r =>
    obtain ⟨hn1, hn2, v, rfl⟩ := ok
    obtain ⟨h1, h2, h3⟩ := did_assign he w g (n := n) v rfl hn2 (by simp) (fun _ _ => Own.none (by simp) (by simp)) (n :: s.ro) (by
      intro m hm
      rcases List.mem_cons.mp hm with rfl | hm
      · exact .inr ⟨_, rfl⟩
      · exact .inl hm)
    exact ⟨_, by simp only [exec, evalRv, Res.bind_ok, h1], g.step w h2 fun L' _ _ => ⟨v, h3, rfl⟩⟩
  | malloc n size =>
    obtain ⟨h, rfl, -, -, hal⟩ := ok
    have hm : Nm.g idMalloc ∈ defNames pre := fn_met w (by simp [needs])
    refine ⟨⟨ShHeap.malloc e.heap s.mem (.var (e.num (.rt h))) size, s.fns, s.ro⟩, ?_,
      g.step w ⟨memStep_malloc s.mem _ size, rfl, fun _ h => .inl h, fun m hm' => ?_, fun k _ => ?_, fun m hm' _ => ?_,
        fun hh => absurd hm hh, fun _ _ h => absurd h (Own.none (by simp) (by simp))⟩ fun _ _ _ => trivial⟩
    · simp only [exec]
      rw [calls_ok (by simpa using hin _ hm), Sh.into, if_neg (not_ro w g (by simp [sets]))]
      rfl
    · simp only [sets, List.mem_singleton] at hm'
      exact (ShHeap.got_malloc e.heap s.mem _ _ (by simp)).vars _ (by simpa using fun h => hm' (he.inj _ _ h.symm))
    · exact (ShHeap.got_malloc e.heap s.mem _ _ (by simp)).vars _ (by simpa using fun h => nomatch he.inj _ _ h)
    · simp only [sets, List.mem_singleton] at hm'
      subst hm'
      have hd := (ShHeap.got_malloc e.heap s.mem (.var (e.num (.rt h))) size (by simp)).dst
      exact ⟨_, hd⟩
  | defarr n len args =>
    obtain ⟨⟨x, rfl⟩, hl, hni, hv⟩ := ok
    have nd : Need.fn (.rt .defarr) ∈ needs (.defarr (.g x) len args) := by simp [needs]
    have hm : Nm.g idMalloc ∈ defNames pre := fn_met2 w nd (by simp [textNeeds])
    have reads : ∀ a ∈ args, ∀ m ∈ rvVars a, Need.var m ∈ needs (.defarr (.g x) len args) := fun a ha m hm =>
      List.mem_cons_of_mem _ (List.mem_map.mpr ⟨m, List.mem_flatMap.mpr ⟨a, ha, hm⟩, rfl⟩)
    obtain ⟨vs, hvs⟩ := evalArgs_ok fun a ha m hm => hset m (reads a ha m hm) (hv a ha m hm)
    have hlen := evalArgs_length hvs
    obtain ⟨text, htext⟩ := Option.isSome_iff_exists.mp (hin _ (fn_met w nd))
    have hpre := g.fns _ _ htext
    have hnim : text.contains (Need.fn (.rt .initialize_memory)) = false := by
      rw [Bool.eq_false_iff, Ne, List.contains_iff_mem]
      exact (w.line _ (List.mem_append_left _ hpre)).2 rfl hni
    have hro : Nm.g x ∉ s.ro := not_ro w g (by simp [sets])
    obtain ⟨m', h1, h2, h3, h4, h5, h6⟩ := defarr_ok (e := e) s.mem (e.num (.g x)) len vs hni (by omega) g.high
    have did : Did e pre s ⟨m', s.fns, s.ro⟩ (.defarr (.g x) len args) [⟨s.mem.alloc + e.heap.h, len⟩] := by
      refine ⟨h2, rfl, fun _ h => .inl h, fun m hm' => ?_, fun k _ => ?_, fun m hm' _ => ?_, fun hh => absurd hm hh,
        fun n k hn => ?_⟩
      · simp only [sets, List.mem_singleton] at hm'
        exact h4 _ fun h => hm' (he.inj _ _ h)
      · exact h4 _ fun h => nomatch he.inj _ _ h
      · simp only [sets, List.mem_singleton] at hm'
        subst hm'
        exact ⟨_, h3⟩
      · right
        have : n = .g x := hn.one (.inl ⟨args, List.mem_singleton.mpr rfl⟩)
        subst this
        intro b hb'
        change m'.var _ = _ at hb'
        rw [h3] at hb'
        cases hb'
        omega
    refine ⟨⟨m', s.fns, s.ro⟩, ?_, g.step w did fun L' hL' _ => ⟨_, vs, h3, hL' _ (by simp), ?_, ?_, h6⟩⟩
    · simp only [exec, hvs, Res.bind_ok, Sh.defarr, htext, hnim, Bool.false_eq_true, if_false]
      by_cases hi : text.contains (Need.fn (.rt .initialize)) = true
      · rw [if_pos hi, calls_ok, Sh.into, if_neg hro, h1]
        · rfl
        · intro k hk
          simp only [List.mem_cons, List.not_mem_nil, or_false] at hk
          rcases hk with rfl | rfl
          · exact hin _ hm
          · have hmet : Met pre (.fn (.rt .initialize)) :=
              w.complete pre _ post rfl _ nd _ (.step hpre (List.contains_iff_mem.mp hi) (.refl _))
            exact hin _ (mem_defNames.mpr hmet)
      · rw [if_neg hi]
        have ha : args = [] := by
          apply Classical.byContradiction
          intro hne
          exact hi (List.contains_iff_mem.mpr (w.inits (.g x) len args (by simp) hne _ (List.mem_append_left _ hpre)))
        have hvs0 : vs = [] := by rw [ha] at hlen; exact List.length_eq_zero_iff.mp hlen
        rw [calls_ok (by simpa using hin _ hm), Sh.into, if_neg hro]
        have hni' : e.heap.noInit = true := hni
        have : ShHeap.defarr e.heap s.mem (.var (e.num (.g x))) len vs =
            .ok (ShHeap.malloc e.heap s.mem (.var (e.num (.g x))) len) := by
          subst hvs0
          simp [ShHeap.defarr, hni']
        rw [this] at h1
        cases h1
        rfl
    · show s.mem.alloc + e.heap.h + _ ≤ m'.alloc
      omega
    · rw [evalArgs_same fun a ha m hm => settled w did (reads_met w (reads a ha m hm)) (varOk_settled (hv a ha m hm))]
      exact hvs
  | defstr n t size =>
    obtain ⟨hb, hk⟩ := ok
    have nd : Need.fn (.rt .defstr) ∈ needs (.defstr n t size) := by simp [needs]
    have hu : Nm.rt .unpack_escaped_string ∈ textNeeds e.c (.rt .defstr) := by simp [textNeeds]
    have hm : Nm.g idMalloc ∈ defNames pre := fn_met3 w nd hu (by simp [textNeeds])
    have hf : ∀ k ∈ strFns e.c, (s.fns.lookup k).isSome := by
      intro k hk
      simp only [strFns, List.cons_append, List.nil_append, List.mem_cons] at hk
      rcases hk with rfl | rfl | rfl | hk
      · exact hin _ (fn_met w nd)
      · exact hin _ (fn_met2 w nd hu)
      · exact hin _ hm
      · exact hin _ (fn_met3 w nd hu (List.mem_cons_of_mem _ hk))
    obtain ⟨word, hw1, hw2, hw3⟩ := ShStr.string_trip he.ord t hb
    have hro : n ∉ s.ro := not_ro w g (by simp [sets])
    have hsz : ∀ k, size = some k → t.length < k := by
      intro k h
      rcases hk with ⟨x, j, -, rfl, hj⟩ | ⟨j, -, rfl, -⟩
      · cases h; exact hj
      · cases h
    have hex : ∀ r, ShHeap.defstr e.heap e.ord s.mem (e.num n) word (size.map Int.ofNat) = .ok r →
        exec e s (.defstr n t size) = .ok ⟨r, s.fns, s.ro⟩ := by
      intro r hr
      simp only [exec, Sh.defstr]
      rw [hw1 []]
      dsimp only
      rw [calls_ok hf, Sh.into, if_neg hro, hr]
      rfl
    by_cases hv : (s.mem.var (e.num n)).getD 0 = 0
    · have hnew : ¬ Met pre (.var n) := by
        intro hm'
        rcases hk with ⟨x, j, rfl, -, -⟩ | ⟨j, rfl, -, -⟩
        · exact gs_once w.gs hm' (by simp [sets])
        · obtain ⟨v, h1, h2⟩ := str_val w g hm'
          unfold Sh.var at h1
          rw [h1] at hv
          exact h2 hv
      obtain ⟨m', sz, h1, h2, h3, h4, h5, h6, h7, h8, h9⟩ := defstr_new he s.mem n t word hw2 hw3 size hsz hv g.high
      refine ⟨_, hex _ h1, g.step w ⟨h4, rfl, fun _ h => .inl h, fun m hm' => ?_, fun k hk' => ?_, fun m hm' _ => ?_,
        fun hh => absurd hm hh, fun m k hn => .inr ?_⟩ fun L' hL' _ => ⟨_, sz, h5, ?_, hL' _ (by simp), ?_, h2, h3, h8, h9⟩⟩
      · simp only [sets, List.mem_singleton] at hm'
        exact h6 _ hm'
      · exact h6 _ fun h => hnew (h ▸ hk')
      · simp only [sets, List.mem_singleton] at hm'
        subst hm'
        exact ⟨_, h5⟩
      · have : m = n := by
          cases hz : size with
          | none => rw [hz] at hn; exact hn.one (.inr (.inr ⟨t, List.mem_singleton.mpr rfl, rfl⟩))
          | some k => rw [hz] at hn; exact hn.one (.inr (.inl ⟨t, List.mem_singleton.mpr rfl⟩))
        subst this
        intro b hb'
        change m'.var _ = _ at hb'
        rw [h5] at hb'
        cases hb'
        omega
      · omega
      · show s.mem.alloc + e.heap.h + _ ≤ m'.alloc
        omega
    · have hold : Met pre (.var n) := by
        apply Classical.byContradiction
        intro h
        have := g.unset n h
        unfold Sh.var at this
        rw [this] at hv
        exact hv rfl
      refine ⟨_, hex _ (defstr_old hv), ?_⟩
      rcases hk with ⟨x, j, rfl, -, -⟩ | ⟨j, rfl, hsize, hI⟩
      · exact absurd (by simp [sets]) (gs_once w.gs hold)
      subst hsize
      obtain ⟨z, hz, hnz⟩ := hold
      have okz := w.line z (List.mem_append_left _ hz)
      have valz := g.vals z hz
      have hzd : z = .defstr (.str j) t none := by
        cases z with
        | defstr n' t' size' =>
          simp only [sets, List.mem_singleton] at hnz
          subst hnz
          rcases okz.2 with ⟨_, _, h, -⟩ | ⟨j', h, hs', hI'⟩
          · cases h
          · cases h; subst hs'; rw [w.fn _ _ _ hI hI']
        | set n v => simp only [sets, List.mem_singleton] at hnz; subst hnz; obtain ⟨h, e, -⟩ := okz; cases e
        | zero ns => rcases okz _ hnz with ⟨x, e⟩ | ⟨x, e⟩ <;> cases e
        | assign n r => simp only [sets, List.mem_singleton] at hnz; subst hnz; obtain ⟨⟨h, e⟩, -⟩ := okz; cases e
        | readonly n r => simp only [sets, List.mem_singleton] at hnz; subst hnz; exact absurd rfl (okz.2.1 j)
        | malloc n v => simp only [sets, List.mem_singleton] at hnz; subst hnz; obtain ⟨h, e, -⟩ := okz; cases e
        | defarr n v as => simp only [sets, List.mem_singleton] at hnz; subst hnz; obtain ⟨⟨h, e⟩, -⟩ := okz; cases e
        | argv => simp [sets] at hnz
        | defun n ds => simp [sets] at hnz
        | callMain a b => simp [sets] at hnz
      subst hzd
      obtain ⟨b, sz, a1, a2, a3, a4, a5, a6, a7, a8⟩ := valz
      refine g.step (os := []) w ⟨.refl e s.mem, rfl, fun _ h => .inl h, fun _ _ => rfl, fun _ _ => rfl, fun m hm' _ => ?_, fun _ => rfl,
        fun n k hn => .inl ?_⟩
        fun L' _ hL => ⟨b, sz, a1, a2, hL _ a3, a4, a5, a6, a7, a8⟩
      · simp only [sets, List.mem_singleton] at hm'
        subst hm'
        exact ⟨b, a1⟩
      · rcases hn with ⟨a, h⟩ | ⟨u, h⟩ | ⟨u, h, hk'⟩ <;> rw [List.mem_singleton] at h <;> cases h
        exact .inr (.inr ⟨t, hz, hk'⟩)
  | argv =>
    have nd : Need.fn (.rt .make_argv) ∈ needs .argv := by simp [needs]
    have hu : Nm.rt .unpack_string ∈ textNeeds e.c (.rt .make_argv) := by simp [textNeeds]
    have hm : Nm.g idMalloc ∈ defNames pre := fn_met2 w nd (by simp [textNeeds])
    have hf : ∀ k ∈ argvFns e.c, (s.fns.lookup k).isSome := by
      intro k hk
      simp only [argvFns, List.cons_append, List.nil_append, List.mem_cons] at hk
      rcases hk with rfl | rfl | rfl | hk
      · exact hin _ (fn_met w nd)
      · exact hin _ (fn_met2 w nd hu)
      · exact hin _ hm
      · exact hin _ (fn_met3 w nd hu (List.mem_cons_of_mem _ hk))
    obtain ⟨s', h1, h2, h3, h4, h5, h6⟩ := argv_ok he g.reach g.high
      ⟨not_ro w g (by simp [sets]), not_ro w g (by simp [sets])⟩ hf
    refine ⟨s', h1, g.step w ⟨h2, h3, fun n hn => .inl (h4 ▸ hn), fun m hm' => ?_, fun k _ => h6 _ (by simp) (by simp),
      fun m hm' _ => ?_, fun hh => absurd hm hh, fun _ _ h => absurd h (Own.none (by simp) (by simp))⟩ fun _ _ _ => h5⟩
    · simp only [sets, List.mem_cons, List.not_mem_nil, or_false, not_or] at hm'
      exact h6 m hm'.1 hm'.2
    · simp only [sets, List.mem_cons, List.not_mem_nil, or_false] at hm'
      rcases hm' with rfl | rfl
      · exact ⟨_, h5.1⟩
      · obtain ⟨a, ha, -⟩ := h5.2
        exact ⟨a, ha⟩

/-- A well-formed script runs, and all its lines up to the call of `main` leave their marks. -/
theorem run_good {e : Env} (he : EnvOk e) {I} : ∀ (l pre post : List Cmd) (s : Sh) (L : List Obj),
    Wf e.c I (pre ++ (l ++ post)) →
    Good e pre s L → NoCall l → ∃ s' L', run e s l = .ok s' ∧ Good e (pre ++ l) s' L'
  | [], pre, post, s, L, _, g, _ => ⟨s, L, rfl, by rw [List.append_nil]; exact g⟩
  | y :: l, pre, post, s, L, w, g, hn => by
    have hy : ∀ a b, y ≠ .callMain a b := fun a b h => hn a b (by rw [h]; simp)
    obtain ⟨s1, h1, L1, g1⟩ := exec_good he w g
    obtain ⟨s2, L2, h2, g2⟩ := run_good he l (pre ++ [y]) post s1 L1 (by simpa using w) g1
      fun a b h => hn a b (List.mem_cons_of_mem _ h)
    refine ⟨s2, L2, ?_, by simpa using g2⟩
    have : run e s (y :: l) = (exec e s y).bind fun s1 => run e s1 l := by
      cases y with
      | callMain a b => exact absurd rfl (hy a b)
      | _ => rfl
    rw [this, h1]
    exact h2

/-- The lines after the call of `main` do not matter. -/
theorem run_call {e : Env} : ∀ (l : List Cmd) (s : Sh) (a b : Bool), NoCall l →
    run e s (l ++ [.callMain a b]) = run e s l
  | [], _, _, _, _ => rfl
  | y :: l, s, a, b, hn => by
    have hy : ∀ a b, y ≠ .callMain a b := fun a b h => hn a b (by rw [h]; simp)
    have ih : ∀ s, run e s (l ++ [.callMain a b]) = run e s l := fun s => run_call l s a b
      fun a b h => hn a b (List.mem_cons_of_mem _ h)
    cases y with
    | callMain a b => exact absurd rfl (hy a b)
    | _ => simp only [List.cons_append, run, ih]

end Verif.ShGlob
