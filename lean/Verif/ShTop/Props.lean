import Verif.ShTop.Readonly
/-! C45: a script contains everything it uses. -/
namespace Verif.ShTop
open Verif Spec

/-- **C45 (part).** For every program whose names are declared (`Ok`): the script the compiler writes has,
before each line that is executed, every function that line calls and every variable it reads, directly or
through the functions it calls; and no shell function is defined twice. -/
theorem C45_complete_partial (c : Cfg) (p : List Top) (hok : Ok c p) (l : List Cmd) (h : script c p = .ok l) :
    Complete l ∧ (defNames l).Nodup := by
  unfold script at h
  obtain ⟨s, h1, h2⟩ := Res.bind_eq_ok.mp h
  cases h2
  have f := epilogue_fin (between_all (pre := []) hok rfl (between_start c p) h1)
  exact ⟨f.complete, f.nodup⟩

theorem epilogue_out {c s x} (h : x ∈ s.out) : x ∈ (epilogue c s).out := by
  have key : ∀ (s1 : E) (l), x ∈ s1.out → x ∈ (s1.put l).out := fun s1 l h => List.mem_append_left _ h
  obtain ⟨-, T, hT, -⟩ := produceRuntime_out c (s.put (charLines s))
  have base : x ∈ (produceRuntime c (s.put (charLines s))).out := by
    rw [hT]; exact List.mem_append_left _ (List.mem_append_left _ h)
  unfold epilogue
  dsimp only
  split
  · split
    · split
      · exact key _ _ (key _ _ base)
      · exact key _ _ (key _ _ base)
    · split
      · exact key _ _ base
      · exact key _ _ base
  · exact base

/-- **C45 (part).** The script defines every function of the program, and gives a value to every global
variable, enumeration constant, member and structure size. -/
theorem C45_everything_partial (c : Cfg) (p : List Top) (hok : Ok c p) (l : List Cmd) (h : script c p = .ok l) :
    (∀ f ∈ funs p, Met l (.fn (.g f))) ∧ (∀ x ∈ objs p, Met l (.var (.g x))) ∧
    (∀ m ∈ members p, Met l (.var (.mem m))) ∧ (∀ t ∈ tags p, Met l (.var (.szof t))) := by
  unfold script at h
  obtain ⟨s, h1, h2⟩ := Res.bind_eq_ok.mp h
  cases h2
  have b := between_all (pre := []) hok rfl (between_start c p) h1
  exact ⟨fun f hf => (b.funs f hf).mono fun _ => epilogue_out, fun f hf => (b.objs f hf).mono fun _ => epilogue_out,
    fun f hf => (b.members f hf).mono fun _ => epilogue_out, fun f hf => (b.tags f hf).mono fun _ => epilogue_out⟩

/-- **C45 (part).** When the constants of the program (enumeration constants, members, structure tags) are
all different, and different from its variables, no line of the script sets a variable that an earlier line
made readonly. -/
theorem C45_readonly_partial (c : Cfg) (p : List Top) (hd : (consts p).Nodup)
    (hv : ∀ x ∈ vars p, Nm.g x ∉ consts p) (l : List Cmd) (h : script c p = .ok l) : NoClash l :=
  script_noClash hd hv h

theorem codegenTop_zero {c s s' t} (h : codegenTop c s t = .ok s') (hn : initVars t ≠ []) :
    Cmd.zero (initVars t) ∈ s'.out := by
  unfold codegenTop at h
  obtain ⟨s1, -, h2⟩ := Res.bind_eq_ok.mp h
  cases h2
  rw [if_neg (by simpa using hn)]
  simp [E.put]

theorem codegenTop_keep {c p pre t post s s'} (hok : Ok c p) (hp : p = pre ++ t :: post)
    (hb : Between c p pre s) (h : codegenTop c s t = .ok s') : ∀ x ∈ s.out, x ∈ s'.out := by
  unfold codegenTop at h
  obtain ⟨s1, h1, h2⟩ := Res.bind_eq_ok.mp h
  cases h2
  have m0 := mid_start hb.inv
  intro x hx
  refine List.mem_append_left _ ?_
  cases t with
  | fn f =>
    simp only [compTop] at h1
    rw [compFun_eq] at h1
    obtain ⟨r, k1, k2⟩ := Res.bind_eq_ok.mp h1
    cases k2
    obtain ⟨q, -⟩ := compEvs_ok (fun e he => hok.bodies f (by rw [hp]; simp) e he) k1
    have e : r.1.out = s.out := q.out.trans (mainFlags_ok { s with pend := [] } f).1
    split
    · exact e ▸ hx
    · exact e ▸ hx
  | proto => cases h1; exact hx
  | tag sp => exact (compTySpec_ok m0 h1).mid.later.out x hx
  | typedef sp => exact (compTySpec_ok m0 h1).mid.later.out x hx
  | decls sp ext ds =>
    simp only [compTop] at h1
    split at h1
    · cases h1
    exact (compDecls_ok (before := objs pre) m0 (fun y hy => (hb.objs y hy).left)
      (hok.inits pre sp ext ds post hp) h1).mid.later.out x hx

theorem codegen_keep {c p} (hok : Ok c p) : ∀ {ts pre s s'}, p = pre ++ ts → Between c p pre s →
    codegen c s ts = .ok s' → ∀ x ∈ s.out, x ∈ s'.out
  | [], pre, s, s', _, _, h => by cases h; exact fun _ h => h
  | t :: ts, pre, s, s', hp, hb, h => by
    simp only [codegen] at h
    obtain ⟨s1, h1, h2⟩ := Res.bind_eq_ok.mp h
    exact fun x hx => codegen_keep hok (ts := ts) (pre := pre ++ [t]) (by rw [hp]; simp) (between_top hok hp hb h1) h2 x
      (codegenTop_keep hok hp hb h1 x hx)

theorem codegen_zero {c p} (hok : Ok c p) : ∀ {ts pre s s'}, p = pre ++ ts → Between c p pre s →
    codegen c s ts = .ok s' → ∀ t ∈ ts, initVars t ≠ [] → Cmd.zero (initVars t) ∈ s'.out
  | [], pre, s, s', _, _, _, t, ht, _ => by simp at ht
  | u :: ts, pre, s, s', hp, hb, h, t, ht, hn => by
    simp only [codegen] at h
    obtain ⟨s1, h1, h2⟩ := Res.bind_eq_ok.mp h
    have b1 := between_top hok hp hb h1
    have hp' : p = pre ++ [u] ++ ts := by rw [hp]; simp
    rcases List.mem_cons.mp ht with rfl | ht
    · exact codegen_keep hok hp' b1 h2 _ (codegenTop_zero h1 hn)
    · exact codegen_zero hok hp' b1 h2 t ht hn

/-- **C45 (part).** Every temporary `__t1`, …, `__tN`, every local variable and every parameter of a function
of the program is given a value by the script (its body can read it before setting it). -/
theorem C45_locals_partial (c : Cfg) (p : List Top) (hok : Ok c p) (l : List Cmd) (h : script c p = .ok l) (f : FunDef)
    (hf : Top.fn f ∈ p) :
    (∀ i, 1 ≤ i → i ≤ f.temps → Met l (.var (.tmp i))) ∧ ∀ x, x ∈ f.locals ∨ x ∈ f.params → Met l (.var (.loc x)) := by
  unfold script at h
  obtain ⟨s, h1, h2⟩ := Res.bind_eq_ok.mp h
  cases h2
  have key : ∀ n ∈ initVars (.fn f), Met (epilogue c s).out (.var n) := fun n hn =>
    ⟨_, epilogue_out (codegen_zero hok (pre := []) rfl (between_start c p) h1 _ hf (List.ne_nil_of_mem hn)), hn⟩
  refine ⟨fun i h1 h2 => key _ ?_, fun x hx => key _ ?_⟩
  · refine List.mem_append_left _ (List.mem_map.mpr ⟨i - 1, List.mem_range.mpr (by omega), ?_⟩)
    rw [show i - 1 + 1 = i from by omega]
  · exact List.mem_append_right _ (List.mem_map.mpr ⟨x, List.mem_append.mpr hx, rfl⟩)

/-! ### `main` -/

theorem fn_unique {p : List Top} (hd : (funs p).Nodup) {f g : FunDef} (hf : Top.fn f ∈ p) (hg : Top.fn g ∈ p)
    (e : f.name = g.name) : f = g := by
  induction p with
  | nil => simp at hf
  | cons t p ih =>
    have inp : ∀ {h : FunDef}, Top.fn h ∈ p → h.name ∈ funs p := fun hh => List.mem_filterMap.mpr ⟨_, hh, rfl⟩
    have tail : (funs p).Nodup := by
      cases t with
      | fn h => exact (List.nodup_cons.mp hd).2
      | _ => exact hd
    have head : ∀ {h : FunDef}, t = .fn h → h.name ∉ funs p := by
      rintro h rfl
      exact (List.nodup_cons.mp hd).1
    rcases List.mem_cons.mp hf with hf | hf <;> rcases List.mem_cons.mp hg with hg | hg
    · rw [← hf] at hg; cases hg; rfl
    · exact absurd (e ▸ inp hg) (head hf.symm)
    · exact absurd (e ▸ inp hf) (head hg.symm)
    · exact ih tail hf hg

/-- **C45 (part).** A program with a `main` gives a script whose last line calls it, with the exit status
unless `main` is `void` and with the arguments if `main` has parameters; no other line calls it, and a
program without a `main` gives a script that calls nothing. -/
theorem C45_main_partial (c : Cfg) (p : List Top) (hok : Ok c p) (l : List Cmd) (h : script c p = .ok l) :
    (∀ m, Top.fn m ∈ p → m.name = idMain →
      ∃ pre, l = pre ++ [.callMain (!m.void) (!m.params.isEmpty)] ∧ NoCall pre) ∧
    (idMain ∉ funs p → NoCall l) := by
  unfold script at h
  obtain ⟨s, h1, h2⟩ := Res.bind_eq_ok.mp h
  cases h2
  have b := between_all (pre := []) hok rfl (between_start c p) h1
  have i0 := produceRuntime_prod (c := c) (b.inv.lines (charLines_ok s s.out) (by rw [defNames_charLines]; simp)
    (by rw [defNames_charLines]; simp))
  have n0 : NoCall s.out := codegen_noCall h1 (by simp [NoCall, start])
  have n1 : NoCall (produceRuntime c (s.put (charLines s))).out := by
    obtain ⟨-, T, hT, hT'⟩ := produceRuntime_out c (s.put (charLines s))
    rw [hT]
    refine NoCall.append (NoCall.append n0 ?_) (noCall_rt hT')
    intro r a hm
    obtain ⟨ch, e⟩ := charLines_mem hm
    cases e
  have hm : (produceRuntime c (s.put (charLines s))).mainDefined = true ↔
      idMain ∈ funs p := by
    rw [i0.ext.mainDefined]; exact b.main
  have hr : (produceRuntime c (s.put (charLines s))).mainReturns = true ↔
      ∃ f, Top.fn f ∈ p ∧ f.name = idMain ∧ f.void = false := by
    rw [i0.ext.mainReturns]; exact b.returns
  have ha : (produceRuntime c (s.put (charLines s))).use .make_argv = true ↔
      ∃ f, Top.fn f ∈ p ∧ f.name = idMain ∧ f.params ≠ [] := by
    rw [i0.ext.use]; exact b.argv
  unfold epilogue
  dsimp only
  generalize produceRuntime c (s.put (charLines s)) = s1 at *
  have out1 : ∀ x : List Cmd, NoCall x → NoCall (s1.out ++ x) := fun x hx => n1.append hx
  constructor
  · intro m hmp hmn
    have hin : idMain ∈ funs p := hmn ▸ List.mem_filterMap.mpr ⟨_, hmp, rfl⟩
    have uniq : ∀ f, Top.fn f ∈ p → f.name = idMain → f = m := fun f h1 h2 =>
      fn_unique hok.distinct h1 hmp (h2.trans hmn.symm)
    have er : s1.mainReturns = !m.void := by
      rw [Bool.eq_iff_iff, hr, Bool.not_eq_true']
      exact ⟨fun ⟨f, h1, h2, h3⟩ => uniq f h1 h2 ▸ h3, fun h => ⟨m, hmp, hmn, h⟩⟩
    have ea : s1.use .make_argv = !m.params.isEmpty := by
      rw [Bool.eq_iff_iff, ha, Bool.not_eq_true', List.isEmpty_eq_false_iff]
      exact ⟨fun ⟨f, h1, h2, h3⟩ => uniq f h1 h2 ▸ h3, fun h => ⟨m, hmp, hmn, h⟩⟩
    rw [if_pos (hm.mpr hin), ← er, ← ea]
    cases hu : s1.use .make_argv with
    | true =>
      rw [if_pos rfl]
      cases hv : s1.mainReturns with
      | true =>
        exact ⟨s1.out ++ [.argv, .set (.rt .code) 0], by simp [E.put, hu, hv], out1 _ (by simp [NoCall])⟩
      | false => exact ⟨s1.out ++ [.argv], by simp [E.put, hu, hv], out1 _ (by simp [NoCall])⟩
    | false =>
      simp only [Bool.false_eq_true, if_false]
      cases hv : s1.mainReturns with
      | true => exact ⟨s1.out ++ [.set (.rt .code) 0], by simp [E.put, hu, hv], out1 _ (by simp [NoCall])⟩
      | false => exact ⟨s1.out, by simp [E.put, hu, hv], n1⟩
  · intro h
    rw [if_neg (fun e => h (hm.mp e))]
    exact n1

end Verif.ShTop
