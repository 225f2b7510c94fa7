import Verif.ShGlob.Proofs
/-! C46: the texts of the runtime, as far as `Wf` is concerned. -/
namespace Verif.ShGlob
open Verif ShTop ShTop.Spec Spec

/-- Check of a line of the runtime (the text of `defarr` apart). -/
def rtB (c : ShTop.Cfg) : Cmd → Bool
  | .defun n ds => decide (n ≠ .rt .defarr) && (textNeeds c n).all (fun m => ds.contains (.fn m))
  | .set (.rt h) _ => decide (h ≠ .argc_for_main) && decide (h ≠ .argv_for_main)
  | .malloc (.rt h) _ => decide (h ≠ .argc_for_main) && decide (h ≠ .argv_for_main) && decide (h ≠ .alloc)
  | _ => false

theorem rtB_ok {c : ShTop.Cfg} {x : Cmd} (h : rtB c x = true) :
    (∀ I, LineOk c I x) ∧ (sets x).flatMap gOf = [] ∧ ∀ ds, x ≠ .defun (.rt .defarr) ds := by
  cases x with
  | defun n ds =>
    simp only [rtB, Bool.and_eq_true, decide_eq_true_eq, List.all_eq_true] at h
    refine ⟨fun I => ⟨fun m hm => List.contains_iff_mem.mp (h.2 m hm), fun e => absurd e h.1⟩, rfl, ?_⟩
    rintro ds' e
    cases e
    exact h.1 rfl
  | set n v =>
    cases n with
    | rt k =>
      simp only [rtB, Bool.and_eq_true, decide_eq_true_eq] at h
      exact ⟨fun I => ⟨k, rfl, h.1, h.2⟩, rfl, by simp⟩
    | _ => simp [rtB] at h
  | malloc n v =>
    cases n with
    | rt k =>
      simp only [rtB, Bool.and_eq_true, decide_eq_true_eq] at h
      exact ⟨fun I => ⟨k, rfl, h.1.1, h.1.2, h.2⟩, rfl, by simp⟩
    | _ => simp [rtB] at h
  | _ => simp [rtB] at h

theorem allocOk_append : ∀ {l m : List Cmd}, allocOk l = true → allocOk m = true → allocOk (l ++ m) = true
  | [], m, _, h => h
  | x :: l, m, h, k => by
    rw [allocOk.eq_def] at h
    rw [List.cons_append, allocOk.eq_def]
    split at h
    · simp_all
    · rename_i heq
      simp only [List.cons.injEq] at heq
      obtain ⟨rfl, rfl⟩ := heq
      simp only [Bool.and_eq_true] at h ⊢
      obtain ⟨⟨h1, h2⟩, h3⟩ := h
      refine ⟨⟨h1, ?_⟩, allocOk_append h3 k⟩
      split at h2
      · rfl
      · cases h2
    · rename_i hne heq
      simp only [List.cons.injEq] at heq
      obtain ⟨rfl, rfl⟩ := heq
      split
      · simp_all
      · rename_i heq
        simp only [List.cons.injEq] at heq
        obtain ⟨e1, -⟩ := heq
        exact (hne _ e1).elim
      · rename_i heq
        simp only [List.cons.injEq] at heq
        obtain ⟨-, rfl⟩ := heq
        exact allocOk_append h k

/-- Lines without an assignment to `__ALLOC`. -/
theorem allocOk_none : ∀ {l : List Cmd}, (∀ v, Cmd.set (.rt .alloc) v ∉ l) → allocOk l = true
  | [], _ => rfl
  | x :: l, h => by
    rw [allocOk.eq_def]
    split
    · rfl
    · rename_i v l' heq
      simp only [List.cons.injEq] at heq
      exact absurd (by rw [heq.1]; simp) (h v)
    · rename_i heq
      simp only [List.cons.injEq] at heq
      obtain ⟨-, rfl⟩ := heq
      exact allocOk_none fun v hv => h v (List.mem_cons_of_mem _ hv)

/-- Printing runtime texts. -/
structure RtS (c : ShTop.Cfg) (arr : Bool) (s s' : E) : Prop where
  pend : s'.pend = s.pend
  tag : s'.tag = s.tag
  counter : s'.counter = s.counter
  use : s'.use = s.use
  out : ∃ T, s'.out = s.out ++ T ∧ (∀ x ∈ T, ∀ I, LineOk c I x) ∧ gs T = [] ∧ allocOk T = true ∧
    (arr = false → ∀ ds, Cmd.defun (.rt .defarr) ds ∉ T)
  defd : arr = false → s'.defined .defarr = s.defined .defarr

theorem RtS.refl {c arr} (s : E) : RtS c arr s s :=
  ⟨rfl, rfl, rfl, rfl, ⟨[], by simp, by simp, rfl, rfl, by simp⟩, fun _ => rfl⟩

theorem RtS.trans {c arr} {a b d : E} (h : RtS c arr a b) (k : RtS c arr b d) : RtS c arr a d := by
  obtain ⟨T, t1, t2, t3, t4, t5⟩ := h.out
  obtain ⟨U, u1, u2, u3, u4, u5⟩ := k.out
  refine ⟨k.pend.trans h.pend, k.tag.trans h.tag, k.counter.trans h.counter, k.use.trans h.use,
    ⟨T ++ U, by rw [u1, t1, List.append_assoc], ?_, by rw [gs_append, t3, u3]; rfl, allocOk_append t4 u4, ?_⟩,
    fun ha => (k.defd ha).trans (h.defd ha)⟩
  · intro x hx
    rcases List.mem_append.mp hx with hx | hx
    · exact t2 x hx
    · exact u2 x hx
  · intro ha ds hm
    rcases List.mem_append.mp hm with hm | hm
    · exact t5 ha ds hm
    · exact u5 ha ds hm

theorem RtS.weak {c} {a b : E} (h : RtS c false a b) : RtS c true a b :=
  ⟨h.pend, h.tag, h.counter, h.use, by
    obtain ⟨T, t1, t2, t3, t4, t5⟩ := h.out
    exact ⟨T, t1, t2, t3, t4, by simp⟩, by simp⟩

def textB (c : ShTop.Cfg) (T : List Cmd) : Bool := T.all (rtB c) && allocOk T

theorem gs_nil {T : List Cmd} (h : ∀ x ∈ T, (sets x).flatMap gOf = []) : gs T = [] := by
  unfold gs
  rw [List.flatMap_eq_nil_iff]
  exact h

theorem once_rtS {c : ShTop.Cfg} {f : Rt} {deps : E → E} {text : E → List Cmd} (hf : f ≠ .defarr)
    (hd : ∀ s, RtS c false s (deps s)) (ht : ∀ s, textB c (text s) = true) (s : E) :
    RtS c false s (once f deps text s) := by
  unfold once
  split
  · exact .refl s
  · dsimp only
    have a : RtS c false s (s.markDefined f) :=
      ⟨rfl, rfl, rfl, rfl, ⟨[], by simp [E.markDefined], by simp, rfl, rfl, by simp⟩, fun _ => by
        simp [E.markDefined, hf.symm]⟩
    refine (a.trans (hd _)).trans ⟨rfl, rfl, rfl, rfl, ⟨_, rfl, ?_⟩, fun _ => rfl⟩
    have h := ht (deps (s.markDefined f))
    simp only [textB, Bool.and_eq_true, List.all_eq_true] at h
    exact ⟨fun x hx => (rtB_ok (h.1 x hx)).1, gs_nil fun x hx => (rtB_ok (h.1 x hx)).2.1, h.2,
      fun _ ds hm => (rtB_ok (h.1 _ hm)).2.2 ds rfl⟩

theorem id_rtS {c} (s : E) : RtS c false s (id s) := .refl s

theorem rtMalloc_s (c s) : RtS c false s (rtMalloc s) := once_rtS (by decide) id_rtS (fun _ => rfl) s
theorem rtFree_s (c s) : RtS c false s (rtFree s) := once_rtS (by decide) id_rtS (fun _ => rfl) s
theorem rtInitialize_s (c s) : RtS c false s (rtInitialize s) := once_rtS (by decide) id_rtS (fun _ => rfl) s
theorem rtExit_s (c s) : RtS c false s (rtExit s) := once_rtS (by decide) id_rtS (fun _ => rfl) s
theorem rtPutchar_s (c s) : RtS c false s (rtPutchar s) := once_rtS (by decide) id_rtS (fun _ => rfl) s
theorem rtLocalVars_s (c s) : RtS c false s (rtLocalVars c s) :=
  once_rtS (by decide) id_rtS (fun _ => by obtain ⟨_, _, _, _, a, _, _, _, _⟩ := c; cases a <;> rfl) s
theorem rtCharToInt_s (c s) : RtS c false s (rtCharToInt c s) :=
  once_rtS (by decide) id_rtS (fun _ => by obtain ⟨a, _, _, _, _, _, _, _, _⟩ := c; cases a <;> rfl) s
theorem rtUnpackString_s (c s) : RtS c false s (rtUnpackString c s) :=
  once_rtS (by decide) (fun s => (rtMalloc_s c s).trans (rtCharToInt_s c _))
    (fun _ => by obtain ⟨a, _, _, _, _, _, _, _, _⟩ := c; cases a <;> rfl) s
theorem rtMakeArgv_s (c s) : RtS c false s (rtMakeArgv c s) :=
  once_rtS (by decide) (fun s => (rtMalloc_s c s).trans (rtUnpackString_s c _)) (fun _ => rfl) s
theorem rtUnpackEscaped_s (c s) : RtS c false s (rtUnpackEscaped c s) :=
  once_rtS (by decide) (fun s => (rtMalloc_s c s).trans (rtCharToInt_s c _))
    (fun _ => by obtain ⟨a, b, _, _, _, _, _, _, _⟩ := c; cases a <;> cases b <;> rfl) s
theorem rtDefstr_s (c s) : RtS c false s (rtDefstr c s) := once_rtS (by decide) (rtUnpackEscaped_s c) (fun _ => rfl) s
theorem rtGetchar_s (c s) : RtS c false s (rtGetchar c s) :=
  once_rtS (by decide) (rtCharToInt_s c)
    (fun _ => by obtain ⟨a, b, _, _, _, _, _, _, _⟩ := c; cases a <;> cases b <;> rfl) s
theorem rtPutPstr_s (c s) : RtS c false s (rtPutPstr c s) :=
  once_rtS (by decide) (fun s => by split; exact .refl s; exact rtPutchar_s c s) (fun _ => rfl) s
theorem rtPrintf_s (c s) : RtS c false s (rtPrintf c s) := once_rtS (by decide) (rtPutPstr_s c) (fun _ => rfl) s
theorem rtOpen_s (c s) : RtS c false s (rtOpen c s) :=
  once_rtS (by decide) (fun s => (rtMalloc_s c s).trans (rtPutPstr_s c _)) (fun _ => rfl) s
theorem rtReadByte_s (c s) : RtS c false s (rtReadByte c s) :=
  once_rtS (by decide) (fun s => ((rtMalloc_s c s).trans (rtFree_s c _)).trans (rtCharToInt_s c _)) (fun _ => rfl) s
theorem rtRead_s (c s) : RtS c false s (rtRead c s) :=
  once_rtS (by decide) (fun s => (rtReadByte_s c s).trans (rtOpen_s c _)) (fun _ => rfl) s
theorem rtWrite_s (c s) : RtS c false s (rtWrite c s) := once_rtS (by decide) (rtOpen_s c) (fun _ => rfl) s
theorem rtFopen_s (c s) : RtS c false s (rtFopen c s) :=
  once_rtS (by decide) (fun s => (rtMalloc_s c s).trans (rtOpen_s c _)) (fun _ => rfl) s
theorem rtClose_s (c s) : RtS c false s (rtClose c s) :=
  once_rtS (by decide) (fun s => (rtOpen_s c s).trans (rtFree_s c _)) (fun _ => rfl) s
theorem rtFclose_s (c s) : RtS c false s (rtFclose c s) :=
  once_rtS (by decide) (fun s => (rtFree_s c s).trans (rtClose_s c _)) (fun _ => rfl) s
theorem rtFgetc_s (c s) : RtS c false s (rtFgetc c s) := once_rtS (by decide) (rtReadByte_s c) (fun _ => rfl) s

theorem ifUse_s {c} {f : Rt} {r : E → E} {a s : E} (h : RtS c false a s) (hr : ∀ s, RtS c false s (r s)) :
    RtS c false a (ifUse f r s) := by
  unfold ifUse
  split
  · exact h.trans (hr _)
  · exact h

theorem produceRuntime_s (c : ShTop.Cfg) (s : E) : RtS c false s (produceRuntime c s) :=
  ifUse_s (ifUse_s (ifUse_s (ifUse_s (ifUse_s (ifUse_s (ifUse_s (ifUse_s (ifUse_s (ifUse_s
    (ifUse_s (ifUse_s (ifUse_s (ifUse_s (ifUse_s (ifUse_s (ifUse_s (ifUse_s (.refl s)
    (rtDefstr_s c)) (rtPutchar_s c)) (rtGetchar_s c)) (rtExit_s c)) (rtMalloc_s c)) (rtFree_s c)) (rtPutPstr_s c))
    (rtPrintf_s c)) (rtFopen_s c)) (rtFclose_s c)) (rtFgetc_s c)) (rtRead_s c)) (rtWrite_s c))
    (rtOpen_s c)) (rtClose_s c)) (rtMakeArgv_s c)) (rtLocalVars_s c)) (rtUnpackString_s c)

/-- `runtime_defarr`: its text calls `initialize` if some initialiser was seen before. -/
theorem rtDefarr_s (c : ShTop.Cfg) (s : E) : RtS c true s (rtDefarr c s) ∧ (rtDefarr c s).defined .defarr = true ∧
    ∀ ds, Cmd.defun (.rt .defarr) ds ∈ (rtDefarr c s).out →
      Cmd.defun (.rt .defarr) ds ∈ s.out ∨ (s.defined .defarr = false ∧
        (c.noInit = true → s.use .initialize = true → Need.fn (.rt .initialize) ∈ ds)) := by
  unfold rtDefarr once
  by_cases hd : s.defined .defarr = true
  · rw [if_pos hd]
    exact ⟨.refl s, hd, fun ds h => .inl h⟩
  · rw [if_neg hd]
    dsimp only
    have a : RtS c true s (s.markDefined .defarr) :=
      ⟨rfl, rfl, rfl, rfl, ⟨[], by simp [E.markDefined], by simp, rfl, rfl, by simp⟩, by simp⟩
    have hm := rtMalloc_s c (s.markDefined .defarr)
    have deps : ∀ s1, s1 = (if c.noInit = true then
        if (rtMalloc (s.markDefined .defarr)).use .initialize = true then rtInitialize (rtMalloc (s.markDefined .defarr))
        else rtMalloc (s.markDefined .defarr)
      else rtInitialize (rtMalloc (s.markDefined .defarr))) → RtS c false (s.markDefined .defarr) s1 := by
      rintro s1 rfl
      split
      · split
        · exact hm.trans (rtInitialize_s c _)
        · exact hm
      · exact hm.trans (rtInitialize_s c _)
    generalize hs1 : (if c.noInit = true then
        if (rtMalloc (s.markDefined .defarr)).use .initialize = true then rtInitialize (rtMalloc (s.markDefined .defarr))
        else rtMalloc (s.markDefined .defarr)
      else rtInitialize (rtMalloc (s.markDefined .defarr))) = s1
    have d := deps s1 hs1.symm
    have hu : s1.use = s.use := d.use
    have hdd : s1.defined .defarr = true := by rw [d.defd rfl]; simp [E.markDefined]
    refine ⟨(a.trans d.weak).trans ⟨rfl, rfl, rfl, rfl, ⟨_, rfl, ?_, ?_, ?_, by simp⟩, by simp⟩, hdd, ?_⟩
    · intro x hx I
      split at hx
      · rename_i hn
        split at hx <;> rw [List.mem_singleton] at hx <;> subst hx <;>
          exact ⟨by simp [textNeeds], fun _ _ => by simp⟩
      · rename_i hn
        rw [List.mem_singleton] at hx; subst hx
        exact ⟨by simp [textNeeds], fun _ h => absurd h hn⟩
    · split
      · split <;> rfl
      · rfl
    · split
      · split <;> rfl
      · rfl
    · intro ds h
      rcases List.mem_append.mp h with h | h
      · left
        obtain ⟨T, t1, -, -, -, t5⟩ := d.out
        rw [t1] at h
        rcases List.mem_append.mp h with h | h
        · exact h
        · exact absurd h (t5 rfl ds)
      · right
        refine ⟨by simpa using hd, fun hn hi => ?_⟩
        rw [if_pos hn, hu, if_pos hi, List.mem_singleton] at h
        cases h
        simp

end Verif.ShGlob
