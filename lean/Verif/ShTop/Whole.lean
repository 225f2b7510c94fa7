import Verif.ShTop.Decls
/-! Whole programs. -/
namespace Verif.ShTop
open Verif Spec

/-- Between two declarations: `pre` has been compiled. -/
structure Between (c : Cfg) (p pre : List Top) (s : E) : Prop where
  inv : Inv c noP s
  user : ∀ n ds, Cmd.defun n ds ∈ s.out → isRtFn n = false →
    (∃ f ∈ funs pre, n = .g f) ∧ ∀ d ∈ ds, Promised c p s d
  funs : ∀ f ∈ funs pre, Met s.out (.fn (.g f))
  objs : ∀ x ∈ objs pre, Met s.out (.var (.g x))
  members : ∀ x ∈ members pre, Met s.out (.var (.mem x))
  tags : ∀ x ∈ tags pre, Met s.out (.var (.szof x))
  main : s.mainDefined = true ↔ idMain ∈ Spec.funs pre
  returns : s.mainReturns = true ↔ ∃ f, Top.fn f ∈ pre ∧ f.name = idMain ∧ f.void = false
  argv : s.use .make_argv = true ↔ ∃ f, Top.fn f ∈ pre ∧ f.name = idMain ∧ f.params ≠ []

theorem between_start (c : Cfg) (p : List Top) : Between c p [] start := by
  refine ⟨⟨complete_nil, ?_, ?_, ?_, ?_⟩, ?_, ?_, ?_, ?_, ?_, ?_, ?_, ?_⟩ <;>
    simp [start, RtClosed, defNames, Spec.funs, Spec.objs, Spec.members, Spec.tags]

theorem funs_snoc (pre : List Top) (t : Top) : funs (pre ++ [t]) = funs pre ++ funs [t] := by simp [funs]
theorem objs_snoc (pre : List Top) (t : Top) : objs (pre ++ [t]) = objs pre ++ topObjs t := by simp [objs]
theorem members_snoc (pre : List Top) (t : Top) : members (pre ++ [t]) = members pre ++ topMembers t := by
  simp [members]
theorem tags_snoc (pre : List Top) (t : Top) : tags (pre ++ [t]) = tags pre ++ topTags t := by simp [tags]

theorem isRtFn_user {c p f} (ho : Ok c p) (h : f ∈ funs p) : isRtFn (.g f) = false := by
  have := ho.own f h
  simpa [isRtFn] using this

theorem mid_start {c s} (h : Inv c noP s) : Mid c s { s with pend := [] } :=
  ⟨⟨h.complete, h.closed, h.prov, h.fresh, h.nodup⟩, ⟨fun _ h => h, fun _ h => h, fun _ h => h⟩,
    fun _ _ h _ => h, rfl, rfl, rfl, ⟨by simp, by simp⟩, by simp⟩

theorem defNames_nil_of {T : List Cmd} (h : ∀ n ds, Cmd.defun n ds ∉ T) : defNames T = [] := by
  rw [List.eq_nil_iff_forall_not_mem]
  intro n hn
  obtain ⟨ds, hd⟩ := mem_defNames.mp hn
  exact h n ds hd

/-- The end of a declaration that defines no function. -/
theorem between_decl {c p pre t s s1} (hb : Between c p pre s) (m : Mid c s s1)
    (hf : funs [t] = [])
    (ho : ∀ x ∈ topObjs t, Here s1 (.var (.g x)))
    (hm : ∀ x ∈ topMembers t, Here s1 (.var (.mem x)))
    (ht : ∀ x ∈ topTags t, Here s1 (.var (.szof x))) :
    Between c p (pre ++ [t]) { s1.put s1.pend with pend := [] } := by
  have hdn : defNames s1.pend = [] := defNames_nil_of m.nodef
  have nofn : ∀ f, (Top.fn f = t) = False := by
    intro f
    apply eq_false
    intro e
    subst e
    simp [Spec.funs] at hf
  have i := m.inv.lines m.lines (by rw [hdn]; exact List.nodup_nil) (by rw [hdn]; simp)
  have old : ∀ d, Met s.out d → Met (s1.out ++ s1.pend) d := fun d h => (h.mono m.later.out).left
  have hl : Later s { s1.put s1.pend with pend := [] } :=
    ⟨fun x hx => List.mem_append_left _ (m.later.out x hx), m.later.use, m.later.chars⟩
  refine ⟨⟨i.complete, i.closed, i.prov, i.fresh, i.nodup⟩, ?_, ?_, ?_, ?_, ?_, ?_, ?_, ?_⟩
  · intro n ds hx hn
    rcases List.mem_append.mp hx with hx | hx
    · obtain ⟨⟨f, h1, h2⟩, h3⟩ := hb.user n ds (m.user n ds hx hn) hn
      exact ⟨⟨f, by rw [funs_snoc]; exact List.mem_append_left _ h1, h2⟩, fun d hd => (h3 d hd).later hl⟩
    · exact absurd hx (m.nodef n ds)
  · intro f h
    rw [funs_snoc, hf, List.append_nil] at h
    exact old _ (hb.funs f h)
  · intro x h
    rw [objs_snoc] at h
    rcases List.mem_append.mp h with h | h
    · exact old _ (hb.objs x h)
    · exact ho x h
  · intro x h
    rw [members_snoc] at h
    rcases List.mem_append.mp h with h | h
    · exact old _ (hb.members x h)
    · exact hm x h
  · intro x h
    rw [tags_snoc] at h
    rcases List.mem_append.mp h with h | h
    · exact old _ (hb.tags x h)
    · exact ht x h
  · show s1.mainDefined = true ↔ _
    rw [funs_snoc, hf, List.append_nil, m.mainDefined]
    exact hb.main
  · show s1.mainReturns = true ↔ _
    rw [m.mainReturns, hb.returns]
    simp only [List.mem_append, List.mem_singleton, nofn, or_false]
  · show s1.use .make_argv = true ↔ _
    rw [m.argv, hb.argv]
    simp only [List.mem_append, List.mem_singleton, nofn, or_false]

theorem saveNeeds_ok {c : Cfg} {vs : List Nm} {d : Need} (h : d ∈ saveNeeds c vs) :
    vs.isEmpty = false ∧ (d ∈ prov c .local_vars ∨ ∃ v ∈ vs, d = .var v) := by
  unfold saveNeeds at h
  split at h
  · simp at h
  rename_i hv
  refine ⟨by simpa using hv, ?_⟩
  split at h
  · rename_i hs
    simp only [List.mem_cons, List.mem_map] at h
    rcases h with rfl | ⟨v, hv, rfl⟩
    · exact .inl (by simp [prov])
    · exact .inr ⟨v, hv, rfl⟩
  · rename_i hs
    simp only [List.cons_append, List.nil_append, List.mem_cons, List.mem_map] at h
    rcases h with rfl | rfl | ⟨v, hv, rfl⟩
    · exact .inl (by simp [prov, hs])
    · exact .inl (by simp [prov, hs])
    · exact .inr ⟨v, hv, rfl⟩

/-- The flags set when the function is `main` (the first part of `compFun`). -/
def mainFlags (s : E) (f : FunDef) : E :=
  if f.name = idMain then
    let s := { s with mainDefined := true }
    let s := if f.params.isEmpty then s else s.setUse .make_argv
    if f.void then s else { s with mainReturns := true }
  else s

theorem mainFlags_ok (s : E) (f : FunDef) :
    (mainFlags s f).out = s.out ∧ (mainFlags s f).pend = s.pend ∧ (mainFlags s f).defined = s.defined ∧
    Later s (mainFlags s f) ∧
    ((mainFlags s f).mainDefined = true ↔ s.mainDefined = true ∨ f.name = idMain) ∧
    ((mainFlags s f).mainReturns = true ↔ s.mainReturns = true ∨ (f.name = idMain ∧ f.void = false)) ∧
    ((mainFlags s f).use .make_argv = true ↔ s.use .make_argv = true ∨ (f.name = idMain ∧ f.params ≠ [])) := by
  unfold mainFlags
  split
  · rename_i h
    dsimp only
    refine ⟨?_, ?_, ?_, ?_, ⟨fun _ => .inr h, fun _ => by split <;> split <;> rfl⟩, ?_, ?_⟩
    rotate_left 4
    · cases hv : f.void <;> cases hp : f.params <;> simp [h, E.setUse]
    · cases hv : f.void <;> cases hp : f.params <;> simp [h, E.setUse]
    · split <;> split <;> rfl
    · split <;> split <;> rfl
    · split <;> split <;> rfl
    · refine ⟨?_, ?_, ?_⟩
      · split <;> split <;> exact fun _ h => h
      · intro r hr
        split <;> split <;> simp [E.setUse, hr]
      · split <;> split <;> exact fun _ h => h
  · rename_i h
    exact ⟨rfl, rfl, rfl, .refl s, ⟨fun h => .inl h, fun k => k.elim id fun e => absurd e h⟩, by simp [h], by simp [h]⟩

theorem compFun_eq (c : Cfg) (s : E) (f : FunDef) :
    compFun c s f = (compEvs c (f.locals ++ f.params) (mainFlags s f) f.body).bind fun r =>
      .ok ((if f.vars.isEmpty then r.1 else r.1.setUse .local_vars).append
        (.defun (.g f.name) (saveNeeds c f.vars ++ r.2))) := rfl

theorem fn_snoc {pre : List Top} {f : FunDef} (Q : FunDef → Prop) :
    ((∃ g, Top.fn g ∈ pre ∧ Q g) ∨ Q f) ↔ ∃ g, Top.fn g ∈ pre ++ [.fn f] ∧ Q g := by
  constructor
  · rintro (⟨g, h1, h2⟩ | h)
    · exact ⟨g, List.mem_append_left _ h1, h2⟩
    · exact ⟨f, by simp, h⟩
  · rintro ⟨g, h1, h2⟩
    rcases List.mem_append.mp h1 with h1 | h1
    · exact .inl ⟨g, h1, h2⟩
    · cases List.mem_singleton.mp h1; exact .inr h2

theorem between_fun {c p pre post f s s1} (hok : Ok c p) (hp : p = pre ++ .fn f :: post)
    (hb : Between c p pre s) (h : compFun c { s with pend := [] } f = .ok s1) :
    Between c p (pre ++ [.fn f])
      { s1.put ((if f.vars.isEmpty then [] else [Cmd.zero f.vars]) ++ s1.pend) with pend := [] } := by
  rw [compFun_eq] at h
  obtain ⟨r, h1, h2⟩ := Res.bind_eq_ok.mp h
  cases h2
  obtain ⟨f1, f2, f3, f4, f5, f6, f7⟩ := mainFlags_ok { s with pend := [] } f
  generalize mainFlags { s with pend := [] } f = s2 at *
  have hmem : Top.fn f ∈ p := by rw [hp]; simp
  have hfun : f.name ∈ funs p := by
    unfold Spec.funs
    exact List.mem_filterMap.mpr ⟨_, hmem, rfl⟩
  have hnew : f.name ∉ funs pre := by
    have := hok.distinct
    rw [hp] at this
    simp only [Spec.funs, List.filterMap_append, List.filterMap_cons] at this
    rw [List.nodup_append] at this
    intro hc
    exact this.2.2 f.name hc f.name List.mem_cons_self rfl
  have hrt := isRtFn_user hok hfun
  obtain ⟨q, need⟩ := compEvs_ok (fun e he => hok.bodies f hmem e he) h1
  -- the state after the body
  generalize hs3 : (if f.vars.isEmpty then r.1 else r.1.setUse .local_vars) = s3
  have q3 : Quiet r.1 s3 := by
    rw [← hs3]; split
    · exact .refl _
    · exact .setUse _ _
  have hlv : f.vars.isEmpty = false → s3.use .local_vars = true := by
    intro hv
    rw [← hs3, if_neg (by simp [hv])]
    exact use_setUse _ _
  have e1 : s3.out = s.out := q3.out.trans (q.out.trans f1)
  have e2 : s3.pend = [] := q3.pend.trans (q.pend.trans f2)
  have e3 : s3.defined = s.defined := q3.defined.trans (q.defined.trans f3)
  have l3 : Later s s3 := by
    have a : Later s { s with pend := [] } := ⟨fun _ h => h, fun _ h => h, fun _ h => h⟩
    exact ((a.trans f4).trans q.later).trans q3.later
  have main3 : s3.mainDefined = true ↔ s.mainDefined = true ∨ f.name = idMain := by
    rw [q3.mainDefined, q.mainDefined]
    exact f5
  generalize hz : (if f.vars.isEmpty then [] else [Cmd.zero f.vars]) = Z
  generalize hN : saveNeeds c f.vars ++ r.2 = N
  have hT : Z ++ (s3.append (.defun (.g f.name) N)).pend = Z ++ [.defun (.g f.name) N] := by
    show Z ++ (s3.pend ++ [_]) = _
    rw [e2]; rfl
  rw [hT]
  have zdef : ∀ n ds, Cmd.defun n ds ∉ Z := by
    intro n ds
    rw [← hz]; split <;> simp
  have zneeds : ∀ x ∈ Z, needs x = [] := by
    intro x hx
    rw [← hz] at hx
    split at hx
    · simp at hx
    · rw [List.mem_singleton.mp hx]; rfl
  have hdn : defNames (Z ++ [.defun (.g f.name) N]) = [.g f.name] := by
    rw [defNames_append, defNames_nil_of zdef]; rfl
  have hI : Inv c noP s3 := by
    obtain ⟨a1, a2, a3, a4, a5⟩ := hb.inv
    exact ⟨by rw [e1]; exact a1, by rw [e1]; exact a2, by rw [e1, e3]; exact a3, by rw [e1, e3]; exact a4,
      by rw [e1]; exact a5⟩
  have lines : LinesOk s3.out (Z ++ [.defun (.g f.name) N]) := by
    constructor
    · intro a x b he d hd
      have hx : x ∈ Z ++ [.defun (.g f.name) N] := by rw [he]; simp
      rcases List.mem_append.mp hx with hx | hx
      · rw [zneeds x hx] at hd; simp at hd
      · rw [List.mem_singleton.mp hx] at hd; simp [needs] at hd
    · intro n ds hx
      rcases List.mem_append.mp hx with hx | hx
      · exact absurd hx (zdef n ds)
      · cases List.mem_singleton.mp hx; exact hrt
  have i := hI.lines lines (by rw [hdn]; exact List.nodup_cons.mpr ⟨List.not_mem_nil, List.nodup_nil⟩) (by
    rw [hdn]
    simp only [List.mem_singleton]
    rintro n rfl hc
    rw [e1] at hc
    obtain ⟨ds, hc⟩ := mem_defNames.mp hc
    obtain ⟨⟨g, g1, g2⟩, -⟩ := hb.user _ ds hc hrt
    cases g2
    exact hnew g1)
  let sF : E := { (s3.append (.defun (.g f.name) N)).put (Z ++ [.defun (.g f.name) N]) with pend := [] }
  have hout : sF.out = s3.out ++ (Z ++ [.defun (.g f.name) N]) := rfl
  have hl : Later s3 sF := ⟨fun x hx => List.mem_append_left _ hx, fun _ h => h, fun _ h => h⟩
  show Between c p (pre ++ [.fn f]) sF
  have varsMet : ∀ v ∈ f.vars, Met sF.out (.var v) := by
    intro v hv
    have hne : f.vars.isEmpty = false := by
      cases hx : f.vars with
      | nil => rw [hx] at hv; simp at hv
      | cons a l => rfl
    refine ⟨.zero f.vars, ?_, hv⟩
    rw [hout, ← hz, if_neg (by simp [hne])]
    simp
  have old : ∀ d, Met s.out d → Met sF.out d := by
    intro d h
    rw [hout, e1]
    exact h.left
  refine ⟨⟨i.complete, i.closed, i.prov, i.fresh, i.nodup⟩, ?_, ?_, ?_, ?_, ?_, ?_, ?_, ?_⟩
  · intro n ds hx hn
    rw [hout] at hx
    rcases List.mem_append.mp hx with hx | hx
    · rw [e1] at hx
      obtain ⟨⟨g, g1, g2⟩, g3⟩ := hb.user n ds hx hn
      exact ⟨⟨g, by rw [funs_snoc]; exact List.mem_append_left _ g1, g2⟩,
        fun d hd => (g3 d hd).later (l3.trans hl)⟩
    rcases List.mem_append.mp hx with hx | hx
    · exact absurd hx (zdef n ds)
    · cases List.mem_singleton.mp hx
      refine ⟨⟨f.name, by rw [funs_snoc]; simp [Spec.funs], rfl⟩, ?_⟩
      intro d hd
      rw [← hN] at hd
      rcases List.mem_append.mp hd with hd | hd
      · obtain ⟨k1, k2 | ⟨v, k2, rfl⟩⟩ := saveNeeds_ok hd
        · exact .use (hl.use _ (hlv k1)) (by decide) k2
        · exact .met (varsMet v k2)
      · rcases need d hd with k | ⟨x, k, rfl⟩
        · exact (k.later q3.later).later hl
        · refine .met (varsMet _ ?_)
          unfold FunDef.vars
          exact List.mem_append_right _ (List.mem_map_of_mem k)
  · intro g hg
    rw [funs_snoc] at hg
    rcases List.mem_append.mp hg with hg | hg
    · exact old _ (hb.funs g hg)
    · simp only [Spec.funs, List.filterMap_cons, List.filterMap_nil, List.mem_singleton] at hg
      subst hg
      exact ⟨N, by rw [hout]; simp⟩
  · intro x hx
    rw [objs_snoc] at hx
    exact old _ (hb.objs x (by simpa [topObjs] using hx))
  · intro x hx
    rw [members_snoc] at hx
    exact old _ (hb.members x (by simpa [topMembers] using hx))
  · intro x hx
    rw [tags_snoc] at hx
    exact old _ (hb.tags x (by simpa [topTags] using hx))
  · show s3.mainDefined = true ↔ _
    rw [funs_snoc, main3, hb.main, List.mem_append]
    simp [Spec.funs, eq_comm]
  · show s3.mainReturns = true ↔ _
    rw [q3.mainReturns, q.mainReturns, f6]
    show s.mainReturns = true ∨ _ ↔ _
    rw [hb.returns]
    exact fn_snoc (fun g => g.name = idMain ∧ g.void = false)
  · show s3.use .make_argv = true ↔ _
    rw [← hs3]
    have e : (if f.vars.isEmpty then r.1 else r.1.setUse .local_vars).use .make_argv = r.1.use .make_argv := by
      split <;> simp [E.setUse]
    rw [e, q.argv, f7]
    show s.use .make_argv = true ∨ _ ↔ _
    rw [hb.argv]
    exact fn_snoc (fun g => g.name = idMain ∧ g.params ≠ [])

theorem between_top {c p pre t post s s'} (hok : Ok c p) (hp : p = pre ++ t :: post)
    (hb : Between c p pre s) (h : codegenTop c s t = .ok s') : Between c p (pre ++ [t]) s' := by
  unfold codegenTop at h
  obtain ⟨s1, h1, h2⟩ := Res.bind_eq_ok.mp h
  cases h2
  have m0 := mid_start hb.inv
  have specs : ∀ sp, compTySpec { s with pend := [] } sp = .ok s1 → funs [t] = [] → topObjs t = specObjs sp →
      topMembers t = specMembers sp → topTags t = specTags sp → initVars t = [] →
      Between c p (pre ++ [t])
        { s1.put ((if (initVars t).isEmpty then [] else [Cmd.zero (initVars t)]) ++ s1.pend) with pend := [] } := by
    intro sp hc e0 e1 e2 e3 e4
    have q := compTySpec_ok m0 hc
    rw [e4]
    refine between_decl hb q.mid e0 ?_ ?_ ?_
    · intro x hx; rw [e1] at hx
      exact q.here _ (List.mem_append_left _ (List.mem_append_left _ (List.mem_map_of_mem hx)))
    · intro x hx; rw [e2] at hx
      exact q.here _ (List.mem_append_left _ (List.mem_append_right _ (List.mem_map_of_mem hx)))
    · intro x hx; rw [e3] at hx
      exact q.here _ (List.mem_append_right _ (List.mem_map_of_mem hx))
  cases t with
  | fn f => exact between_fun hok hp hb h1
  | proto =>
    cases h1
    exact between_decl hb m0 rfl (by simp [topObjs]) (by simp [topMembers]) (by simp [topTags])
  | tag sp => exact specs sp h1 rfl rfl rfl rfl rfl
  | typedef sp => exact specs sp h1 rfl rfl rfl rfl rfl
  | decls sp ext ds =>
    simp only [compTop] at h1
    split at h1
    · cases h1
    have q := compDecls_ok (before := objs pre) m0 (fun y hy => (hb.objs y hy).left) (hok.inits pre sp ext ds post hp) h1
    exact between_decl hb q.mid rfl q.here (by simp [topMembers]) (by simp [topTags])

theorem between_all {c p} (hok : Ok c p) : ∀ {ts pre s s'}, p = pre ++ ts → Between c p pre s →
    codegen c s ts = .ok s' → Between c p p s'
  | [], pre, s, s', hp, hb, h => by
    cases h
    rw [List.append_nil] at hp
    rw [hp] at hb ⊢
    exact hb
  | t :: ts, pre, s, s', hp, hb, h => by
    simp only [codegen] at h
    obtain ⟨s1, h1, h2⟩ := Res.bind_eq_ok.mp h
    exact between_all (ts := ts) (pre := pre ++ [t]) hok (by rw [hp]; simp) (between_top hok hp hb h1) h2

/-! ### The end of the script -/

theorem charLines_mem {s : E} {x : Cmd} (h : x ∈ charLines s) : ∃ ch, x = .readonly (.chr ch) (.int ch) := by
  obtain ⟨ch, _, e⟩ := List.mem_map.mp h
  exact ⟨ch, e.symm⟩

theorem charLines_ok (s : E) (l : List Cmd) : LinesOk l (charLines s) := by
  constructor
  · intro pre x post he d hd
    obtain ⟨ch, e⟩ := charLines_mem (s := s) (x := x) (by rw [he]; simp)
    subst e
    simp [needs, rvVars] at hd
  · intro n ds h
    obtain ⟨ch, e⟩ := charLines_mem h
    cases e

/-- Everything any function refers to is there. -/
def AllThere (l : List Cmd) : Prop := ∀ n ds, Cmd.defun n ds ∈ l → ∀ d ∈ ds, Met l d

theorem reach_all {l d e} (h : AllThere l) (hr : Reach l d e) : Met l d → Met l e := by
  induction hr with
  | refl d => exact id
  | step hm hd _ ih => exact fun _ => ih (h _ _ hm _ hd)

theorem complete_snoc {l : List Cmd} {x : Cmd} (h : Complete l) (hx : Runs l x) : Complete (l ++ [x]) := by
  refine complete_append h ?_
  intro pre y post he
  cases pre with
  | nil =>
    simp only [List.nil_append, List.cons.injEq] at he
    rw [← he.1, List.append_nil]; exact hx
  | cons a pre => simp at he

theorem AllThere.snoc {l x} (h : AllThere l) (hx : ∀ n ds, x ≠ .defun n ds) : AllThere (l ++ [x]) := by
  intro n ds hm d hd
  rcases List.mem_append.mp hm with hm | hm
  · exact (h n ds hm d hd).left
  · exact absurd (List.mem_singleton.mp hm).symm (hx n ds)

/-- A state of the epilogue. -/
structure Fin (l : List Cmd) : Prop where
  complete : Complete l
  there : AllThere l
  nodup : (defNames l).Nodup

theorem Fin.snoc {l x} (h : Fin l) (hx : ∀ n ds, x ≠ .defun n ds) (hn : ∀ d ∈ needs x, Met l d) : Fin (l ++ [x]) := by
  refine ⟨complete_snoc h.complete fun d hd e hr => reach_all h.there hr (hn d hd), h.there.snoc hx, ?_⟩
  rw [defNames_append, defNames_nil_of (T := [x]) (by
    intro n ds hm
    exact hx n ds (List.mem_singleton.mp hm).symm), List.append_nil]
  exact h.nodup

theorem epilogue_fin {c p s} (hb : Between c p p s) : Fin (epilogue c s).out := by
  have hcn : defNames (charLines s) = [] := defNames_nil_of (by
    intro n ds h
    obtain ⟨ch, e⟩ := charLines_mem h
    cases e)
  have i0 := hb.inv.lines (charLines_ok s s.out) (by rw [hcn]; exact List.nodup_nil) (by rw [hcn]; simp)
  have P := produceRuntime_prod i0
  have hl : Later s (produceRuntime c (s.put (charLines s))) := by
    have a : Later s (s.put (charLines s)) :=
      ⟨fun x hx => List.mem_append_left _ hx, fun _ h => h, fun _ h => h⟩
    exact a.trans P.ext.later
  have hch : ∀ ch, s.chars ch = true → ch < 256 →
      Met (produceRuntime c (s.put (charLines s))).out (.var (.chr ch)) := by
    intro ch h1 h2
    refine P.ext.met ⟨.readonly (.chr ch) (.int ch), List.mem_append_right _ ?_, by simp [sets]⟩
    exact List.mem_map.mpr ⟨ch, List.mem_filter.mpr ⟨List.mem_range.mpr h2, h1⟩, rfl⟩
  have huse : ∀ f, s.use f = true → f ∈ asked → ∀ d ∈ prov c f, Met (produceRuntime c (s.put (charLines s))).out d :=
    fun f h1 h2 => P.inv.prov f (P.defd f h2 h1) id
  have hmain : (produceRuntime c (s.put (charLines s))).mainDefined = s.mainDefined := P.ext.mainDefined
  have huse' : (produceRuntime c (s.put (charLines s))).use = s.use := P.ext.use
  have huser : ∀ n ds, Cmd.defun n ds ∈ (produceRuntime c (s.put (charLines s))).out → isRtFn n = false →
      Cmd.defun n ds ∈ s.out := by
    intro n ds hm hn
    obtain ⟨T, hT, hT'⟩ := P.ext.out
    rw [hT] at hm
    rcases List.mem_append.mp hm with hm | hm
    · rcases List.mem_append.mp hm with hm | hm
      · exact hm
      · obtain ⟨ch, e⟩ := charLines_mem hm
        cases e
    · rw [hT' n ds hm] at hn; cases hn
  have hinv := P.inv
  unfold epilogue
  dsimp only
  generalize produceRuntime c (s.put (charLines s)) = s1 at *
  have prom : ∀ d, Promised c p s d → Met s1.out d := by
    intro d hd
    cases hd with
    | met h => exact h.mono hl.out
    | use h1 h2 h3 => exact huse _ h1 h2 _ h3
    | chr h1 h2 => exact hch _ h1 h2
    | fn h => exact (hb.funs _ h).mono hl.out
    | obj h => exact (hb.objs _ h).mono hl.out
    | mem h => exact (hb.members _ h).mono hl.out
    | tag h => exact (hb.tags _ h).mono hl.out
  have f1 : Fin s1.out := by
    refine ⟨hinv.complete, ?_, hinv.nodup⟩
    intro n ds hm d hd
    cases hn : isRtFn n with
    | true => exact (hinv.closed n ds hm hn d hd).2
    | false => exact prom d ((hb.user n ds (huser n ds hm hn) hn).2 d hd)
  by_cases hmd : s1.mainDefined = true
  · rw [if_pos hmd]
    have mm : Met s1.out (.fn (.g idMain)) := (hb.funs _ (hb.main.mp (by rw [← hmain]; exact hmd))).mono hl.out
    -- after `make_argv`
    have key : ∀ s2 : E, Fin s2.out → Met s2.out (.fn (.g idMain)) → (s2.use .make_argv = true →
        Met s2.out (.var (.rt .argc_for_main)) ∧ Met s2.out (.var (.rt .argv_for_main))) →
        Fin (if s2.mainReturns = true then s2.put [.set (.rt .code) 0, .callMain true (s2.use .make_argv)]
          else s2.put [.callMain false (s2.use .make_argv)]).out := by
      intro s2 f2 m2 a2
      split
      · show Fin (s2.out ++ ([.set (.rt .code) 0] ++ [.callMain true (s2.use .make_argv)]))
        rw [← List.append_assoc]
        refine Fin.snoc (f2.snoc (by simp) (by simp [needs])) (by simp) ?_
        intro d hd
        simp only [needs, if_true, List.mem_cons, List.mem_append, List.not_mem_nil, or_false, List.cons_append,
          List.nil_append] at hd
        rcases hd with rfl | rfl | hd
        · exact m2.left
        · exact ⟨.set (.rt .code) 0, by simp, by simp [sets]⟩
        · split at hd
          · rename_i hu
            simp only [List.mem_cons, List.not_mem_nil, or_false] at hd
            rcases hd with rfl | rfl
            · exact (a2 hu).1.left
            · exact (a2 hu).2.left
          · simp at hd
      · refine f2.snoc (by simp) ?_
        intro d hd
        simp only [needs, Bool.false_eq_true, if_false, List.append_nil, List.mem_cons, List.mem_append,
          List.cons_append, List.nil_append] at hd
        rcases hd with rfl | hd
        · exact m2
        · split at hd
          · rename_i hu
            simp only [List.mem_cons, List.not_mem_nil, or_false] at hd
            rcases hd with rfl | rfl
            · exact (a2 hu).1
            · exact (a2 hu).2
          · simp at hd
    by_cases hu : s1.use .make_argv = true
    · rw [if_pos hu]
      refine key (s1.put [.argv]) ?_ mm.left ?_
      · refine f1.snoc (by simp) ?_
        simp only [needs, List.mem_singleton]
        rintro d rfl
        exact huse .make_argv (by rw [← huse']; exact hu) (by decide) _ (by simp [prov])
      · intro _
        exact ⟨⟨.argv, by simp [E.put], by simp [sets]⟩, ⟨.argv, by simp [E.put], by simp [sets]⟩⟩
    · rw [if_neg hu]
      exact key s1 f1 mm (fun h => absurd h hu)
  · rw [if_neg hmd]
    exact f1

end Verif.ShTop
