import Verif.ShGlob.Run
import Verif.ShGlob.Struct
import Verif.ShTop.Props
/-! C46: when `main` starts, every global variable and constant has the value C gives it. -/
namespace Verif.ShGlob
open Verif ShTop ShTop.Spec Spec
open Verif.ShHeap (Reach Obj StrAt)

/-! ### The script is well formed -/

theorem rtS_put {c : ShTop.Cfg} (s : E) (T : List Cmd) (h1 : ∀ x ∈ T, ∀ I, LineOk c I x) (h2 : gs T = [])
    (h3 : allocOk T = true) (h4 : ∀ ds, Cmd.defun (.rt .defarr) ds ∉ T) : RtS c false s (s.put T) :=
  ⟨rfl, rfl, rfl, rfl, ⟨T, rfl, h1, h2, h3, fun _ => h4⟩, fun _ => rfl⟩

theorem charLines_s {c : ShTop.Cfg} (s : E) : RtS c false s (s.put (charLines s)) := by
  have hm : ∀ x ∈ charLines s, ∃ ch : Nat, x = .readonly (.chr ch) (.int ch) := by
    intro x hx
    simp only [charLines, List.mem_map] at hx
    obtain ⟨ch, -, rfl⟩ := hx
    exact ⟨ch, rfl⟩
  refine rtS_put s _ ?_ (gs_nil ?_) (allocOk_none ?_) ?_
  · intro x hx I
    obtain ⟨ch, rfl⟩ := hm x hx
    exact ⟨by simp, by simp, ch, rfl⟩
  · intro x hx
    obtain ⟨ch, rfl⟩ := hm x hx
    rfl
  · intro v hv
    obtain ⟨ch, h⟩ := hm _ hv
    cases h
  · intro ds hd
    obtain ⟨ch, h⟩ := hm _ hd
    cases h

theorem epilogue_s (c : ShTop.Cfg) (s : E) : RtS c false s (epilogue c s) := by
  have a := (charLines_s (c := c) s).trans (produceRuntime_s c (s.put (charLines s)))
  unfold epilogue
  dsimp only
  generalize produceRuntime c (s.put (charLines s)) = s1 at a
  have argv : RtS c false s1 (s1.put [.argv]) :=
    rtS_put s1 _ (by simp [LineOk]) (by simp [gs, sets, gOf]) rfl (by simp)
  have ret : ∀ s2 : E, ∀ b, RtS c false s2 (s2.put [.set (.rt .code) 0, .callMain true b]) := fun s2 b =>
    rtS_put s2 _ (by simp [LineOk]) (by simp [gs, sets, gOf]) rfl (by simp)
  have call : ∀ s2 : E, ∀ b, RtS c false s2 (s2.put [.callMain false b]) := fun s2 b =>
    rtS_put s2 _ (by simp [LineOk]) (by simp [gs, sets]) rfl (by simp)
  split
  · split
    · split
      · exact (a.trans argv).trans (ret _ _)
      · exact (a.trans argv).trans (call _ _)
    · split
      · exact a.trans (ret _ _)
      · exact a.trans (call _ _)
  · exact a

theorem vars_consts : ∀ {p : List Top}, (objs p).Nodup → ∀ x ∈ vars p, Nm.g x ∉ consts p := by
  have hv : ∀ {p x}, x ∈ vars p → x ∈ objs p := by
    intro p x hx
    obtain ⟨t, ht, hx⟩ := List.mem_flatMap.mp hx
    refine List.mem_flatMap.mpr ⟨t, ht, ?_⟩
    cases t with
    | decls sp ext ds => exact hx
    | _ => simp [topVars] at hx
  have hs : ∀ {sp x}, Nm.g x ∈ specConsts sp → x ∈ specObjs sp := by
    intro sp x hx
    cases sp with
    | enum tag cs => simpa [specConsts, specObjs] using hx
    | struct tag ms => cases tag <;> simp [specConsts] at hx
    | _ => simp [specConsts] at hx
  have ht : ∀ {t x}, Nm.g x ∈ topConsts t → x ∈ topObjs t := by
    intro t x hx
    cases t with
    | tag sp => exact hs hx
    | typedef sp => exact hs hx
    | _ => simp [topConsts] at hx
  have hc : ∀ {p x}, Nm.g x ∈ consts p → x ∈ objs p := by
    intro p x hx
    obtain ⟨t, h1, hx⟩ := List.mem_flatMap.mp hx
    exact List.mem_flatMap.mpr ⟨t, h1, ht hx⟩
  intro p
  induction p with
  | nil => intro _ x hx; simp [vars] at hx
  | cons t p ih =>
    intro h x hx hcx
    have e : objs (t :: p) = topObjs t ++ objs p := by simp [objs]
    rw [e, List.nodup_append] at h
    simp only [vars, consts, List.flatMap_cons, List.mem_append] at hx hcx
    rcases hx with hx | hx <;> rcases hcx with hcx | hcx
    · cases t with
      | decls sp ext ds => simp [topConsts] at hcx
      | _ => simp [topVars] at hx
    · have h1 : x ∈ topObjs t := by
        cases t with
        | decls sp ext ds => exact hx
        | _ => simp [topVars] at hx
      exact h.2.2 x h1 x (hc hcx) rfl
    · exact h.2.2 x (ht hcx) x (hv hx) rfl
    · exact ih h.2.1 x hx hcx

theorem mem_tok {e : Env} {p : List Top} (hok : Ok e p) : ∀ t ∈ p, TOk e.c t := by
  intro t ht
  cases t with
  | decls sp ext ds =>
    intro d hd
    obtain ⟨pre, post, rfl⟩ := List.append_of_mem ht
    exact ⟨declsOk_all (hok.base.inits pre sp ext ds post rfl) d hd, hok.bytes sp ext ds ht d hd⟩
  | _ => trivial

/-- The scripts of the programs meant are well formed. -/
theorem script_wf {e : Env} {p : List Top} (hok : Ok e p) {l : List Cmd} (h : script e.c p = .ok l) :
    ∃ I, Wf e.c I l ∧ ∀ t ∈ p, TopLine I l t := by
  obtain ⟨hcomp, hnd⟩ := C45_complete_partial e.c p hok.base l h
  have hcl := C45_readonly_partial e.c p hok.consts (vars_consts hok.once) l h
  unfold script at h
  obtain ⟨s, h1, h2⟩ := Res.bind_eq_ok.mp h
  cases h2
  obtain ⟨I, u, st, hp, tl⟩ := codegen_st (m := (lists p).contains true) (st_start e.c _) rfl (mem_tok hok) (by
      intro hm hf
      exact hok.first hf (List.contains_iff_mem.mp hm)) (by
      intro hm hf
      rw [List.contains_iff_mem.mpr hf] at hm
      cases hm) h1
  have fin := st.rt (epilogue_s e.c s)
  have hp2 : (epilogue e.c s).pend = [] := by rw [(epilogue_s e.c s).pend, hp]
  have hl : lines (epilogue e.c s) = (epilogue e.c s).out := by simp [lines, hp2]
  refine ⟨I, ⟨hcomp, hcl, hnd, hl ▸ fin.line, fin.alloc, ?_, fin.fn, ?_⟩, fun t ht => ?_⟩
  · have := fin.gsq
    rw [hp2] at this
    simp only [gs, List.flatMap_nil, List.append_nil, List.nil_append] at this
    unfold gs
    rw [this]
    exact hok.once
  · intro n len args ha hne ds hd
    cases hm : (lists p).contains true with
    | true => exact fin.text hm ds (hl.symm ▸ hd)
    | false => exact absurd (fin.plain hm n len args (hl.symm ▸ ha)) hne
  · rw [← hl]
    exact (tl t ht).mono (fun _ h => h) fun x hx => rtS_lines (epilogue_s e.c s) hx

/-! ### Values -/

/-- The blocks of the string constants. -/
def Consts' (e : Env) (I : Ids) (l : List Cmd) (s : Sh) (b : Int) (j : Nat) : Prop :=
  ∃ k t, (k, t) ∈ I ∧ Met l (.var (.str k)) ∧ s.var e (.str k) = some b ∧ j = t.length + 1

theorem str_line {c I l} (w : Wf c I l) {k t} (hI : (k, t) ∈ I) (h : Met l (.var (.str k))) :
    Cmd.defstr (.str k) t none ∈ l := by
  obtain ⟨z, hz, hnz⟩ := h
  have okz := w.line z hz
  cases z with
  | defstr n' t' size' =>
    simp only [sets, List.mem_singleton] at hnz
    subst hnz
    rcases okz.2 with ⟨_, _, h, -⟩ | ⟨j', h, hs', hI'⟩
    · cases h
    · cases h; subst hs'; rw [w.fn _ _ _ hI hI']; exact hz
  | set n v => simp only [sets, List.mem_singleton] at hnz; subst hnz; obtain ⟨h, e, -⟩ := okz; cases e
  | zero ns => rcases okz _ hnz with ⟨x, e⟩ | ⟨x, e⟩ <;> cases e
  | assign n r => simp only [sets, List.mem_singleton] at hnz; subst hnz; obtain ⟨⟨h, e⟩, -⟩ := okz; cases e
  | readonly n r => simp only [sets, List.mem_singleton] at hnz; subst hnz; exact absurd rfl (okz.2.1 k)
  | malloc n v => simp only [sets, List.mem_singleton] at hnz; subst hnz; obtain ⟨h, e, -⟩ := okz; cases e
  | defarr n v as => simp only [sets, List.mem_singleton] at hnz; subst hnz; obtain ⟨⟨h, e⟩, -⟩ := okz; cases e
  | argv => simp [sets] at hnz
  | defun n ds => simp [sets] at hnz
  | callMain a b => simp [sets] at hnz

/-- What an initialiser evaluates to. -/
theorem val_of {e : Env} {I l s L} (w : Wf e.c I l) (g : Good e l s L) {ie r} (h : RvOf I ie r) :
    ∀ {v}, (∀ n ∈ rvVars r, Met l (.var n)) → evalRv e s r = .ok v → Val e s (Consts' e I l s) ie v := by
  induction h with
  | int v => intro w _ h; simp only [evalRv] at h; cases h; exact .int v
  | chr v => intro w _ h; simp only [evalRv] at h; cases h; exact .chr v
  | name x =>
    intro v hm h
    obtain ⟨u, hu⟩ := g.set (.g x) (by simp) (hm _ (by simp [rvVars]))
    simp only [evalRv, hu, ShHeap.expand] at h
    cases h
    exact .name hu
  | @str k t hk =>
    intro v hm h
    have hmet := hm (.str k) (by simp [rvVars])
    obtain ⟨b, sz, h1, h2, -, -, h5, -, h7, h8⟩ := g.vals _ (str_line w hk hmet)
    simp only [evalRv, h1, ShHeap.expand] at h
    cases h
    exact .str h2 ⟨k, t, hk, hmet, h1, rfl⟩ ⟨h7, h8 _ (Nat.le_refl _) h5⟩
  | neg _ ih =>
    intro v hm h
    simp only [evalRv] at h
    obtain ⟨x, h1, h2⟩ := Res.bind_eq_ok.mp h
    cases h2
    exact .neg (ih hm h1)
  | add _ _ ia ib =>
    intro v hm h
    simp only [evalRv] at h
    obtain ⟨x, h1, h2⟩ := Res.bind_eq_ok.mp h
    obtain ⟨y, h3, h4⟩ := Res.bind_eq_ok.mp h2
    cases h4
    exact .add (ia (fun n hn => hm n (List.mem_append_left _ hn)) h1) (ib (fun n hn => hm n (List.mem_append_right _ hn)) h3)
  | sub _ _ ia ib =>
    intro v hm h
    simp only [evalRv] at h
    obtain ⟨x, h1, h2⟩ := Res.bind_eq_ok.mp h
    obtain ⟨y, h3, h4⟩ := Res.bind_eq_ok.mp h2
    cases h4
    exact .sub (ia (fun n hn => hm n (List.mem_append_left _ hn)) h1) (ib (fun n hn => hm n (List.mem_append_right _ hn)) h3)
  | mul _ _ ia ib =>
    intro v hm h
    simp only [evalRv] at h
    obtain ⟨x, h1, h2⟩ := Res.bind_eq_ok.mp h
    obtain ⟨y, h3, h4⟩ := Res.bind_eq_ok.mp h2
    cases h4
    exact .mul (ia (fun n hn => hm n (List.mem_append_left _ hn)) h1) (ib (fun n hn => hm n (List.mem_append_right _ hn)) h3)

theorem met_of_line {c I l} (w : Wf c I l) {y : Cmd} (hy : y ∈ l) {n : Nm} (h : Need.var n ∈ needs y) :
    Met l (.var n) := by
  obtain ⟨pre, post, rfl⟩ := List.append_of_mem hy
  exact (reads_met w h).left

theorem els_vals {e : Env} {I l s L} (w : Wf e.c I l) (g : Good e l s L) : ∀ {es args vs}, Els I es args →
    (∀ a ∈ args, ∀ n ∈ rvVars a, Met l (.var n)) → evalArgs e s args = .ok vs →
    vs.length = es.length ∧ ∀ i (h : i < es.length) (h' : i < vs.length),
      ∃ ie, elIE es[i] = some ie ∧ Val e s (Consts' e I l s) ie vs[i] := by
  intro es args vs k
  induction k generalizing vs with
  | nil =>
    intro _ h
    simp only [evalArgs] at h
    cases h
    exact ⟨rfl, by simp⟩
  | @cons el es r rs ie h1 h2 h3 ih =>
    intro hm h
    simp only [evalArgs] at h
    obtain ⟨x, hx, h⟩ := Res.bind_eq_ok.mp h
    obtain ⟨xs, hxs, h⟩ := Res.bind_eq_ok.mp h
    cases h
    obtain ⟨i1, i2⟩ := ih (fun a ha => hm a (List.mem_cons_of_mem _ ha)) hxs
    refine ⟨by simp [i1], fun i hi hi' => ?_⟩
    cases i with
    | zero => exact ⟨ie, h1, val_of w g h2 (hm r List.mem_cons_self) hx⟩
    | succ i => exact i2 i (by simpa using hi) (by simpa using hi')

theorem decl_init {e : Env} {I l s L} (w : Wf e.c I l) (g : Good e l s L) {d : Decl} (h : DeclLine I l d) :
    Init e s (Consts' e I l s) L d := by
  cases d with
  | proto f => trivial
  | scalar x init =>
    obtain ⟨r, h1, h2⟩ := h
    obtain ⟨v, h3, h4⟩ := g.vals _ h1
    have hv := val_of w g h2 (fun n hn => met_of_line w h1 (by simpa [needs] using hn)) h4
    cases init with
    | none =>
      simp only [Option.getD_none] at hv
      cases hv
      exact h3
    | some ie => exact ⟨v, h3, hv⟩
  | array x len a =>
    cases a with
    | none =>
      obtain ⟨b, vs, h1, h2, -, h4, h5⟩ := g.vals _ h
      simp only [evalArgs] at h4
      cases h4
      refine ⟨b, h1, h2, fun i hi => ?_⟩
      exact (h5.2 i (by simp) hi).1
    | str t =>
      obtain ⟨h0, h⟩ := h
      obtain ⟨b, sz, h1, -, h2, -, -, h3, h4, h5⟩ := g.vals _ h
      have := h3 _ rfl
      subst this
      exact ⟨b, h1, h2, h0, h4, h5⟩
    | list es =>
      obtain ⟨h0, args, k, h⟩ := h
      obtain ⟨b, vs, h1, h2, -, h4, h5⟩ := g.vals _ h
      obtain ⟨k1, k2⟩ := els_vals w g k (fun a ha n hn => met_of_line w h
        (List.mem_cons_of_mem _ (List.mem_map.mpr ⟨n, List.mem_flatMap.mpr ⟨a, ha, hn⟩, rfl⟩))) h4
      refine ⟨b, h1, h2, h0, fun i hi => ?_, fun i hi hi2 => ?_⟩
      · obtain ⟨ie, h6, h7⟩ := k2 i hi (by omega)
        exact ⟨ie, _, h6, h7, h5.1 i (by omega)⟩
      · obtain ⟨h6, h7⟩ := h5.2 i (by omega) hi2
        exact ⟨h6, fun hne => h7 fun hv => hne (List.length_eq_zero_iff.mp (by rw [← k1, hv]; rfl))⟩
    | other => exact h.elim

theorem spec_consts {e : Env} {l s L} (g : Good e l s L) {sp : TySpec} (h : SpecLine l sp) : Consts e s sp := by
  have key : ∀ {n v}, Cmd.readonly n (.int v) ∈ l → s.var e n = some v := by
    intro n v h
    obtain ⟨u, h1, h2⟩ := g.vals _ h
    simp only [evalRv] at h2
    cases h2
    exact h1
  cases sp with
  | enum tag cs => exact fun x v hx => key (h x v hx)
  | struct tag ms => exact ⟨fun i hi => key (h.1 i hi), fun t ht => key (h.2 t ht)⟩
  | _ => trivial

theorem top_init {e : Env} {I l s L} (w : Wf e.c I l) (g : Good e l s L) {t : Top} (h : TopLine I l t) :
    TopInit e s (Consts' e I l s) L t := by
  cases t with
  | decls sp ext ds => exact fun d hd => decl_init w g (h d hd)
  | tag sp => exact spec_consts g h
  | typedef sp => exact spec_consts g h
  | _ => trivial

theorem array_own {I : Ids} {l : List Cmd} {d : Decl} (h : DeclLine I l d) {x i} (hx : (x, i) ∈ declArrays d) :
    Own l (.g x) i := by
  cases d with
  | array y len a =>
    simp only [declArrays, List.mem_singleton] at hx
    cases hx
    cases a with
    | none => exact .inl ⟨_, h⟩
    | str t => exact .inr (.inl ⟨_, h.2⟩)
    | list es => obtain ⟨-, args, -, h⟩ := h; exact .inl ⟨_, h⟩
    | other => exact h.elim
  | _ => simp [declArrays] at hx

theorem separate {e : Env} {I l s L p} (w : Wf e.c I l) (g : Good e l s L) (tl : ∀ t ∈ p, TopLine I l t) :
    Separate e s (Consts' e I l s) p := by
  have own : ∀ {x i}, (x, i) ∈ arrays p → Own l (.g x) i := by
    intro x i h
    obtain ⟨t, ht, h⟩ := List.mem_flatMap.mp h
    cases t with
    | decls sp ext ds =>
      obtain ⟨d, hd, h⟩ := List.mem_flatMap.mp h
      exact array_own (tl _ ht d hd) h
    | _ => simp at h
  intro x i b hx hb
  refine ⟨fun y j d hy hne hd => g.apart _ _ i j b d (by simpa using hne) (own hx) (own hy) hb hd, ?_⟩
  rintro d j ⟨k, t, hI, hm, hd, rfl⟩
  exact g.apart _ _ i _ b d (by simp) (own hx) (.inr (.inr ⟨t, str_line w hI hm, rfl⟩)) hb hd

/-- **C46 (part).** For every program meant, started with any arguments: the script the compiler writes runs
without error up to the call of `main`, and then every global variable, array element, enumeration constant,
member and structure size has the value its declaration gives it, arrays share no cell with each other or with
string constants, the heap is one that `malloc` and `free` can continue from (so that C15 applies), and if
`main` takes parameters they are the number of arguments and the arguments. -/
theorem C46_globals_partial (e : Env) (he : EnvOk e) (p : List Top) (hok : Ok e p) (l : List Cmd)
    (h : script e.c p = .ok l) :
    ∃ s L K, launch e p = .ok s ∧ Reach e.heap e.ord s.mem L [] ∧ (∀ t ∈ p, TopInit e s K L t) ∧
      Separate e s K p ∧
      ∀ m, Top.fn m ∈ p → m.name = idMain → m.params ≠ [] → Args e s := by
  obtain ⟨I, w, tl⟩ := script_wf hok h
  obtain ⟨hmain, hno⟩ := C45_main_partial e.c p hok.base l h
  have hrun : ∃ s L, run e start l = .ok s ∧ Good e l s L := by
    by_cases hm : idMain ∈ funs p
    · obtain ⟨t, ht, hn⟩ := List.mem_filterMap.mp hm
      cases t with
      | fn m =>
        simp only [Option.some.injEq] at hn
        obtain ⟨pre, hl, hc⟩ := hmain m ht hn
        rw [hl] at w ⊢
        obtain ⟨s, L, h1, h2⟩ := run_good he pre [] _ start [] w (good_start e) hc
        obtain ⟨s', h3, L', h4⟩ := exec_good he w h2
        simp only [exec] at h3
        cases h3
        exact ⟨s, L', by rw [run_call pre start _ _ hc]; exact h1, h4⟩
      | _ => simp at hn
    · obtain ⟨s, L, h1, h2⟩ := run_good he l [] [] start [] (by simpa using w) (good_start e) (hno hm)
      exact ⟨s, L, h1, h2⟩
  obtain ⟨s, L, hr, g⟩ := hrun
  refine ⟨s, L, Consts' e I l s, by unfold launch; rw [h]; exact hr, g.reach, fun t ht => top_init w g (tl t ht),
    separate w g tl, ?_⟩
  intro m ht hn hp
  obtain ⟨pre, hl, hc⟩ := hmain m ht hn
  have hmet : Met l (.var (.rt .argv_for_main)) := by
    refine met_of_line w (y := .callMain (!m.void) (!m.params.isEmpty)) (by rw [hl]; simp) ?_
    have : m.params.isEmpty = false := by simpa using hp
    simp [needs, this]
  have hargv : Cmd.argv ∈ l := by
    obtain ⟨z, hz, hnz⟩ := hmet
    have okz := w.line z hz
    cases z with
    | argv => exact hz
    | defstr n t size =>
      simp only [sets, List.mem_singleton] at hnz
      subst hnz
      rcases okz.2 with ⟨_, _, h, -⟩ | ⟨j', h, hs', hI'⟩ <;> cases h
    | set n v => simp only [sets, List.mem_singleton] at hnz; subst hnz; obtain ⟨h, e, -, k⟩ := okz; cases e; exact absurd rfl k
    | zero ns => rcases okz _ hnz with ⟨x, e⟩ | ⟨x, e⟩ <;> cases e
    | assign n r => simp only [sets, List.mem_singleton] at hnz; subst hnz; obtain ⟨⟨h, e⟩, -⟩ := okz; cases e
    | readonly n r => simp only [sets, List.mem_singleton] at hnz; subst hnz; exact absurd rfl (okz.1 _)
    | malloc n v => simp only [sets, List.mem_singleton] at hnz; subst hnz; obtain ⟨h, e, -, k, -⟩ := okz; cases e; exact absurd rfl k
    | defarr n v as => simp only [sets, List.mem_singleton] at hnz; subst hnz; obtain ⟨⟨h, e⟩, -⟩ := okz; cases e
    | defun n ds => simp [sets] at hnz
    | callMain a b => simp [sets] at hnz
  obtain ⟨h1, a, h2, -, h4⟩ := g.vals _ hargv
  refine ⟨h1, a, h2, fun i hi => ?_⟩
  obtain ⟨b, h5, h6, -⟩ := h4 i hi
  exact ⟨b, h5, h6⟩

end Verif.ShGlob
