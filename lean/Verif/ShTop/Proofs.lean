import Verif.ShTop.Library
/-! The parts of a script fit together: function bodies only refer to things that will be there, top-level
lines to things that are there. -/
namespace Verif.ShTop
open Verif Spec

/-- Nothing is being printed. -/
def noP : Rt → Prop := fun _ => False

/-! ### `produce_runtime` -/

/-- The runtime functions `produce_runtime` looks at. -/
def asked : List Rt :=
  [.defstr, .putchar, .getchar, .exit, .malloc, .free, .put_pstr, .printf, .fopen, .fclose, .fgetc, .read,
   .write, .open_, .close, .make_argv, .local_vars, .unpack_string]

structure Prod (c : Cfg) (s s' : E) (L : List Rt) : Prop where
  inv : Inv c noP s'
  ext : Ext s s'
  defd : ∀ f ∈ L, s.use f = true → s'.defined f = true

theorem Prod.step {c s s' L} (h : Prod c s s' L) (f : Rt) {r : E → E}
    (hr : Inv c noP s' → (∀ g, noP g → rank f < rank g) → Prints c noP s' (r s') f) :
    Prod c s (ifUse f r s') (L ++ [f]) := by
  unfold ifUse
  by_cases hu : s'.use f = true
  · rw [if_pos hu]
    have q := hr h.inv (fun _ => False.elim)
    refine ⟨q.inv, h.ext.trans q.ext, ?_⟩
    intro g hg hgu
    rcases List.mem_append.mp hg with hg | hg
    · exact q.ext.defined g (h.defd g hg hgu)
    · rw [List.mem_singleton.mp hg]; exact q.defd
  · rw [if_neg hu]
    refine ⟨h.inv, h.ext, ?_⟩
    intro g hg hgu
    rcases List.mem_append.mp hg with hg | hg
    · exact h.defd g hg hgu
    · rw [List.mem_singleton.mp hg, ← h.ext.use] at hgu
      exact absurd hgu hu

theorem produceRuntime_prod {c s} (h : Inv c noP s) : Prod c s (produceRuntime c s) asked := by
  have p0 : Prod c s s [] := ⟨h, .refl s, by simp⟩
  have p1 := p0.step .defstr rtDefstr_prints
  have p2 := p1.step .putchar rtPutchar_prints
  have p3 := p2.step .getchar rtGetchar_prints
  have p4 := p3.step .exit rtExit_prints
  have p5 := p4.step .malloc rtMalloc_prints
  have p6 := p5.step .free rtFree_prints
  have p7 := p6.step .put_pstr rtPutPstr_prints
  have p8 := p7.step .printf rtPrintf_prints
  have p9 := p8.step .fopen rtFopen_prints
  have p10 := p9.step .fclose rtFclose_prints
  have p11 := p10.step .fgetc rtFgetc_prints
  have p12 := p11.step .read rtRead_prints
  have p13 := p12.step .write rtWrite_prints
  have p14 := p13.step .open_ rtOpen_prints
  have p15 := p14.step .close rtClose_prints
  have p16 := p15.step .make_argv rtMakeArgv_prints
  have p17 := p16.step .local_vars rtLocalVars_prints
  exact p17.step .unpack_string rtUnpackString_prints

/-! ### Lines of the program -/

/-- Lines printed after `l`: what they use is there, and the functions they define are the program's. -/
structure LinesOk (l T : List Cmd) : Prop where
  needs : ∀ pre x post, T = pre ++ x :: post → ∀ d ∈ needs x, rtNeed d ∧ Met (l ++ pre) d
  user : ∀ n ds, Cmd.defun n ds ∈ T → isRtFn n = false

theorem owner_user {n : Nm} (h : isRtFn n = false) : owner n = none := by
  cases n with
  | g x =>
    unfold owner
    split <;> first | rfl | (rename_i heq; cases heq; exact absurd h (by decide)) | (rename_i heq; cases heq)
  | rt h' => simp [isRtFn] at h
  | _ => rfl

theorem RtClosed.lines {l T : List Cmd} (h : RtClosed l) (hT : ∀ n ds, Cmd.defun n ds ∈ T → isRtFn n = false) :
    RtClosed (l ++ T) := by
  intro n ds hm hn d hd
  rcases List.mem_append.mp hm with hm | hm
  · exact ⟨(h n ds hm hn d hd).1, (h n ds hm hn d hd).2.left⟩
  · rw [hT n ds hm] at hn; cases hn

theorem Inv.lines {c s T} (h : Inv c noP s) (hT : LinesOk s.out T)
    (hn : (defNames T).Nodup) (hd : ∀ n ∈ defNames T, n ∉ defNames s.out) : Inv c noP (s.put T) := by
  refine ⟨?_, h.closed.lines hT.user, fun f hf hp d hd => (h.prov f hf hp d hd).left, ?_, ?_⟩
  · refine complete_append h.complete ?_
    intro pre x post he d hd' e hr
    obtain ⟨h1, h2⟩ := hT.needs pre x post he d hd'
    refine reach_rt (h.closed.lines ?_) hr h1 h2
    intro n ds hm
    exact hT.user n ds (by rw [he]; exact List.mem_append_left _ hm)
  · intro n ds hm f hf
    rcases List.mem_append.mp hm with hm | hm
    · exact h.fresh n ds hm f hf
    · rw [owner_user (hT.user n ds hm)] at hf; cases hf
  · show (defNames (s.out ++ T)).Nodup
    rw [defNames_append, List.nodup_append]
    refine ⟨h.nodup, hn, ?_⟩
    intro a ha b hb e
    exact hd b hb (e ▸ ha)

/-! ### Promises -/

/-- Something a function body refers to is there, or will be at the end of the script. -/
inductive Promised (c : Cfg) (p : List Top) (s : E) : Need → Prop
  | met {d} : Met s.out d → Promised c p s d
  | use {d f} : s.use f = true → f ∈ asked → d ∈ prov c f → Promised c p s d
  | chr {ch} : s.chars ch = true → ch < 256 → Promised c p s (.var (.chr ch))
  | fn {f} : f ∈ funs p → Promised c p s (.fn (.g f))
  | obj {x} : x ∈ objs p → Promised c p s (.var (.g x))
  | mem {m} : m ∈ members p → Promised c p s (.var (.mem m))
  | tag {t} : t ∈ tags p → Promised c p s (.var (.szof t))

/-- Later states promise at least as much. -/
structure Later (s s' : E) : Prop where
  out : ∀ x ∈ s.out, x ∈ s'.out
  use : ∀ f, s.use f = true → s'.use f = true
  chars : ∀ x, s.chars x = true → s'.chars x = true

theorem Later.refl (s : E) : Later s s := ⟨fun _ h => h, fun _ h => h, fun _ h => h⟩

theorem Later.trans {a b d : E} (h : Later a b) (k : Later b d) : Later a d :=
  ⟨fun x hx => k.out x (h.out x hx), fun f hf => k.use f (h.use f hf), fun x hx => k.chars x (h.chars x hx)⟩

theorem Promised.later {c p s s' d} (h : Promised c p s d) (l : Later s s') : Promised c p s' d := by
  cases h with
  | met h => exact .met (h.mono l.out)
  | use h1 h2 h3 => exact .use (l.use _ h1) h2 h3
  | chr h1 h2 => exact .chr (l.chars _ h1) h2
  | fn h => exact .fn h
  | obj h => exact .obj h
  | mem h => exact .mem h
  | tag h => exact .tag h

theorem Ext.later {s s' : E} (h : Ext s s') : Later s s' := by
  obtain ⟨T, hT, _⟩ := h.out
  exact ⟨fun x hx => by rw [hT]; exact List.mem_append_left _ hx, fun f hf => by rw [h.use]; exact hf,
    fun x hx => by rw [h.chars]; exact hx⟩

/-! ### Function bodies -/

/-- Compiling a body changes the bookkeeping only. -/
structure Quiet (s s' : E) : Prop where
  out : s'.out = s.out
  pend : s'.pend = s.pend
  defined : s'.defined = s.defined
  mainDefined : s'.mainDefined = s.mainDefined
  mainReturns : s'.mainReturns = s.mainReturns
  argv : s'.use .make_argv = s.use .make_argv
  use : ∀ f, s.use f = true → s'.use f = true
  chars : ∀ x, s.chars x = true → s'.chars x = true

theorem Quiet.refl (s : E) : Quiet s s := ⟨rfl, rfl, rfl, rfl, rfl, rfl, fun _ h => h, fun _ h => h⟩

theorem Quiet.trans {a b d : E} (h : Quiet a b) (k : Quiet b d) : Quiet a d :=
  ⟨k.out.trans h.out, k.pend.trans h.pend, k.defined.trans h.defined, k.mainDefined.trans h.mainDefined,
    k.mainReturns.trans h.mainReturns, k.argv.trans h.argv, fun f hf => k.use f (h.use f hf), fun x hx => k.chars x (h.chars x hx)⟩

theorem Quiet.later {s s' : E} (h : Quiet s s') : Later s s' :=
  ⟨fun x hx => by rw [h.out]; exact hx, h.use, h.chars⟩

theorem Quiet.setUse (s : E) (f : Rt) (h : f ≠ .make_argv := by decide) : Quiet s (s.setUse f) :=
  ⟨rfl, rfl, rfl, rfl, rfl, if_neg h.symm, fun g hg => by simp [E.setUse, hg], fun _ h => h⟩

theorem use_setUse (s : E) (f : Rt) : (s.setUse f).use f = true := by simp [E.setUse]

theorem Quiet.freshString (s : E) (t : List Nat) : Quiet s (freshString s t).1 := by
  unfold ShTop.freshString
  dsimp only
  split
  · exact ⟨rfl, rfl, rfl, rfl, rfl, rfl, fun _ h => h, fun _ h => h⟩
  · exact .refl s

theorem charIdent_ok {s s' : E} {ch : Nat} (h : charIdent s ch = .ok s') :
    Quiet s s' ∧ s'.chars ch = true ∧ ch < 256 := by
  unfold charIdent at h
  split at h
  · rename_i hk
    cases h
    refine ⟨⟨rfl, rfl, rfl, rfl, rfl, rfl, fun _ h => h, fun x hx => by simp [hx]⟩, by simp, ?_⟩
    simp only [charOk, Bool.or_eq_true, beq_iff_eq, Bool.and_eq_true, decide_eq_true_eq] at hk
    omega
  · cases h

/-- A need of a body. -/
def BodyNeed (c : Cfg) (p : List Top) (env : List Id) (s : E) (d : Need) : Prop :=
  Promised c p s d ∨ ∃ x ∈ env, d = .var (.loc x)

theorem useOf_provided {f : Id} (h : f ∈ provided) :
    ∃ r, useOf f = some r ∧ r ∈ asked ∧ ∀ c, Need.fn (.g f) ∈ prov c r := by
  simp only [provided, List.mem_cons, List.not_mem_nil, or_false] at h
  rcases h with h | h | h | h | h | h | h | h | h | h | h | h | h <;> subst h <;>
    exact ⟨_, rfl, by decide, fun c => List.mem_cons_self⟩

theorem markUse_quiet (s : E) (f : Id) : Quiet s (markUse s f) := by
  unfold markUse
  split
  · refine .setUse _ _ ?_
    rename_i r hr
    intro e
    subst e
    unfold useOf at hr
    split at hr <;> cases hr
  · exact .refl _

theorem compCall_ok {c p env s f drop args} (h : EvOk c p env (.call f drop args)) :
    Quiet s (compCall c s f drop args).1 ∧
    ∀ d ∈ (compCall c s f drop args).2, Promised c p (compCall c s f drop args).1 d := by
  unfold compCall
  split
  · exact ⟨.refl s, by simp⟩
  rename_i h1
  split
  · refine ⟨.setUse _ _, ?_⟩
    simp only [List.mem_singleton]
    rintro d rfl
    exact .use (use_setUse _ _) (by decide) (by simp [prov])
  split
  · exact ⟨.refl s, by simp⟩
  split
  · exact ⟨.refl s, by simp⟩
  split
  · exact ⟨.refl s, by simp⟩
  refine ⟨markUse_quiet s f, ?_⟩
  simp only [List.mem_singleton]
  rintro d rfl
  rcases h with h | h | h
  · exact .fn h
  · obtain ⟨r, hr, ha, hp⟩ := useOf_provided h
    refine .use (f := r) ?_ ha (hp c)
    simp only [markUse, hr]
    exact use_setUse _ _
  · exfalso
    obtain ⟨hf, h2, h3, h4⟩ := h
    apply h1
    rcases hf with rfl | rfl <;> simp [h2, h3, h4]

theorem compEv_ok {c p env s e r} (h : EvOk c p env e) (hr : compEv c env s e = .ok r) :
    Quiet s r.1 ∧ ∀ d ∈ r.2, BodyNeed c p env r.1 d := by
  cases e with
  | call f drop args =>
    simp only [compEv, Res.ok.injEq] at hr
    subst hr
    obtain ⟨a, b⟩ := compCall_ok (s := s) h
    exact ⟨a, fun d hd => .inl (b d hd)⟩
  | str t =>
    simp only [compEv, Res.ok.injEq] at hr
    subst hr
    refine ⟨(Quiet.freshString s t).trans (.setUse _ _), ?_⟩
    simp only [List.mem_singleton]
    rintro d rfl
    exact .inl (.use (use_setUse _ _) (by decide) (by simp [prov]))
  | chr ch =>
    simp only [compEv] at hr
    split at hr
    · cases hr; exact ⟨.refl s, by simp⟩
    · obtain ⟨s1, h1, h2⟩ := Res.bind_eq_ok.mp hr
      cases h2
      obtain ⟨a, b, d⟩ := charIdent_ok h1
      refine ⟨a, ?_⟩
      simp only [List.mem_singleton]
      rintro d rfl
      exact .inl (.chr b (by assumption))
  | var x =>
    simp only [compEv, Res.ok.injEq] at hr
    subst hr
    refine ⟨.refl s, ?_⟩
    simp only [List.mem_singleton]
    rintro d rfl
    by_cases hx : x ∈ env
    · exact .inr ⟨x, hx, by simp [hx]⟩
    · rcases h with h | h
      · exact absurd h hx
      · exact .inl (by simpa [hx] using Promised.obj h)
  | member m =>
    simp only [compEv, Res.ok.injEq] at hr
    subst hr
    refine ⟨.refl s, ?_⟩
    simp only [List.mem_singleton]
    rintro d rfl
    exact .inl (.mem h)
  | sizeofStruct t =>
    simp only [compEv, Res.ok.injEq] at hr
    subst hr
    refine ⟨.refl s, ?_⟩
    simp only [List.mem_singleton]
    rintro d rfl
    exact .inl (.tag h)

theorem compEvs_ok {c p env} : ∀ {es s r}, (∀ e ∈ es, EvOk c p env e) → compEvs c env s es = .ok r →
    Quiet s r.1 ∧ ∀ d ∈ r.2, BodyNeed c p env r.1 d
  | [], s, r, _, hr => by cases hr; exact ⟨.refl s, by simp⟩
  | e :: es, s, r, h, hr => by
    simp only [compEvs] at hr
    obtain ⟨q, h1, h2⟩ := Res.bind_eq_ok.mp hr
    obtain ⟨q', h3, h4⟩ := Res.bind_eq_ok.mp h2
    cases h4
    obtain ⟨a1, a2⟩ := compEv_ok (h e List.mem_cons_self) h1
    obtain ⟨b1, b2⟩ := compEvs_ok (fun x hx => h x (List.mem_cons_of_mem _ hx)) h3
    refine ⟨a1.trans b1, ?_⟩
    intro d hd
    rcases List.mem_append.mp hd with hd | hd
    · rcases a2 d hd with k | k
      · exact .inl (k.later b1.later)
      · exact .inr k
    · exact b2 d hd

end Verif.ShTop
