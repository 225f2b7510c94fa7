import Verif.ShProg.Proofs4
/-! Statements: what the commands do is an execution of the statement. -/
namespace Verif.ShProg
open Verif Verif.Stmt Verif.Frame Verif.ShProg.Spec
open Verif.Hoist (Expr Args Rv Dest Cmd Machine obind omap)

variable {L : Lang}

/-- The state when the function has returned `r`, before its variables are restored. -/
structure RetOk (vars : List Name) (s0 : Store) (ret : Name) (S : Sh L.X) (r : Int) (g : Glob L.X) : Prop where
  result : S.s ret = r
  glob : getG S = gset ret r g
  others : ∀ y : Name, y.own = true → y ∉ vars → y ≠ ret → S.s y = s0 y
  sp : S.s .sp = s0 .sp
  stack : ∀ k ≤ s0 .sp, S.s (.stk k) = s0 (.stk k)

/-- The end of a statement. -/
def EndOk (vars : List Name) (s0 : Store) (ret : Name) (S : Sh L.X) (w : CW L.X) : CO → Spec.Out → Prop
  | .norm, .norm | .brk, .brk | .cont, .cont | .ret, .ret none => Ok vars s0 S w
  | .ret, .ret (some r) => RetOk vars s0 ret S r w.g
  | _, _ => False

theorem EndOk.norm {vars : List Name} {s0 : Store} {ret : Name} {S : Sh L.X} {w : CW L.X} {o : Spec.Out} (h : EndOk vars s0 ret S w .norm o) : o = .norm ∧ Ok vars s0 S w := by
  cases o with
  | norm => exact ⟨rfl, h⟩
  | brk => exact h.elim
  | cont => exact h.elim
  | ret v => exact h.elim

theorem EndOk.brk {vars : List Name} {s0 : Store} {ret : Name} {S : Sh L.X} {w : CW L.X} {o : Spec.Out} (h : EndOk vars s0 ret S w .brk o) : o = .brk ∧ Ok vars s0 S w := by
  cases o with
  | brk => exact ⟨rfl, h⟩
  | norm => exact h.elim
  | cont => exact h.elim
  | ret v => exact h.elim

theorem EndOk.cont {vars : List Name} {s0 : Store} {ret : Name} {S : Sh L.X} {w : CW L.X} {o : Spec.Out} (h : EndOk vars s0 ret S w .cont o) : o = .cont ∧ Ok vars s0 S w := by
  cases o with
  | cont => exact ⟨rfl, h⟩
  | norm => exact h.elim
  | brk => exact h.elim
  | ret v => exact h.elim

theorem EndOk.ret {vars : List Name} {s0 : Store} {ret : Name} {S : Sh L.X} {w : CW L.X} {o : Spec.Out} (h : EndOk vars s0 ret S w .ret o) : ∃ v, o = .ret v := by
  cases o with
  | ret v => exact ⟨v, rfl⟩
  | norm => exact h.elim
  | brk => exact h.elim
  | cont => exact h.elim

theorem EndOk.mk {vars : List Name} {s0 : Store} {ret : Name} {S : Sh L.X} {w : CW L.X} (h : Ok vars s0 S w) : EndOk vars s0 ret S w .norm .norm := h

/-! ## The table -/

theorem acts_eq {call : CallFn L} {f : CFn} {args : List Int} {ret : Name} : ∀ (as : List Act) (ls : List Nat) (S : Sh L.X), Has f.tab ls as → (shI call f args ret).acts ls S = sacts call ret as S := by
  intro as
  induction as with
  | nil =>
    intro ls S h
    cases ls with
    | nil => rfl
    | cons => simp [Has] at h
  | cons a r ih =>
    intro ls S h
    cases ls with
    | nil => simp [Has] at h
    | cons l ls =>
      simp only [Has, List.map_cons, List.cons.injEq] at h
      have : (shI call f args ret).act l S = sact call ret a S := by simp [shI, h.1]
      simp only [Interp.acts, sacts, this]
      congr 1
      funext S'
      exact ih ls S' h.2

theorem has_scope {t : Tab} {vars : List Name} (hs : t.scope vars = true) {as : List Act} {ls : List Nat} (h : Has t ls as) : as.all (scopeAct vars) = true := by
  simp only [Tab.scope, Bool.and_eq_true] at hs
  rw [List.all_eq_true]
  intro a ha
  have : some a ∈ ls.map (fun i => t.acts[i]?) := by rw [h]; exact List.mem_map.2 ⟨a, ha, rfl⟩
  obtain ⟨i, _, hi⟩ := List.mem_map.1 this
  exact List.all_eq_true.1 hs.1.1 a (List.mem_of_getElem? hi)

theorem has_scope_cmd {t : Tab} {vars : List Name} (hs : t.scope vars = true) {cs : List Cmd} {ls : List Nat} (h : Has t ls (cs.map .cmd)) : cs.all (scopeCmd vars) = true := by
  have := has_scope hs h
  rw [List.all_map] at this
  exact this

theorem test_scope {t : Tab} {vars : List Name} (hs : t.scope vars = true) {k : Nat} {p : List Hoist.Line × Hoist.Test} (h : t.tests[k]? = some p) : p.1.all (scopeLine vars) = true ∧ scopeTest vars p.2 = true := by
  simp only [Tab.scope, Bool.and_eq_true] at hs
  have := List.all_eq_true.1 hs.1.2 p (List.mem_of_getElem? h)
  simpa using this

theorem sel_scope {t : Tab} {vars : List Name} (hs : t.scope vars = true) {k : Nat} {p : Rv} (h : t.sels[k]? = some p) : p.lines.all (scopeLine vars) = true ∧ scope (okVar vars) p.e = true := by
  simp only [Tab.scope, Bool.and_eq_true] at hs
  have := List.all_eq_true.1 hs.2 p (List.mem_of_getElem? h)
  simpa using this

/-! ## Conditions and expression statements -/

/-- What is known of the function that is executed. -/
structure Ctx (C : Calls L) (call : CallFn L) (f : CFn) (vars : List Name) (ret : Name) : Prop where
  call : CallOK C call
  scope : f.tab.scope vars = true
  ret : ret.isVar = true

section
variable {C : Calls L} {call : CallFn L} {f : CFn} {vars : List Name} {ret : Name} {args : List Int} {s0 : Store} {n : Nat}

theorem test_sim (X : Ctx C call f vars ret) {c : Expr} {p : List Hoist.Line × Hoist.Test} {k : Nat} {S S' : Sh L.X} {w : CW L.X} {b : Bool} (hc : Hoist.compTest n c 0 = .ok p)
    (hk : f.tab.tests[k]? = some p) (hf : Hoist.Spec.fragTop c = true) (hok : Ok vars s0 S w) (he : (shI call f args ret).test k S = some (S', b)) : ∃ w', Ok vars s0 S' w' ∧ Spec.Cond C (some c) w b w' := by
  obtain ⟨h1, h2⟩ := test_scope X.scope hk
  simp only [shI, hk, Option.bind_some] at he
  obtain ⟨S1, h3, h4⟩ := obind he
  obtain ⟨⟨b', S2⟩, h5, h6⟩ := omap h4
  cases h6
  obtain ⟨w', v, h7, h8, h9⟩ := test_evals X.call hok hf (ls := p.1) (q := p.2) hc h1 h2 h3 h5
  exact ⟨w', h7, v, h8, h9⟩

theorem sel_sim (X : Ctx C call f vars ret) {e : Expr} {p : Rv} {k : Nat} {S S' : Sh L.X} {w : CW L.X} {v : Int} (hc : Hoist.compRv n e 0 = .ok p)
    (hk : f.tab.sels[k]? = some p) (hf : Hoist.Spec.frag e = true) (ho : Hoist.Spec.orderOk e = true) (hok : Ok vars s0 S w) (he : (shI call f args ret).sel k S = some (S', v)) :
    ∃ w', Ok vars s0 S' w' ∧ Spec.Evals C e w v w' := by
  obtain ⟨h1, h2⟩ := sel_scope X.scope hk
  simp only [shI, hk, Option.bind_some] at he
  obtain ⟨S1, h3, h4⟩ := obind he
  obtain ⟨⟨v', S2⟩, h5, h6⟩ := omap h4
  cases h6
  exact value_evals X.call hok hf ho hc h1 h2 h3 h5

theorem opt_sim (X : Ctx C call f vars ret) {e : Option Expr} {cs : List Cmd} {ls : List Nat} {S S' : Sh L.X} {w : CW L.X} (hc : compOpt n e = .ok cs) (hl : Has f.tab ls (cs.map .cmd))
    (hf : fragOpt Hoist.Spec.fragStmt e = true) (hok : Ok vars s0 S w) (he : (shI call f args ret).acts ls S = some S') : ∃ w', Ok vars s0 S' w' ∧ DoneOpt C e w w' := by
  rw [acts_eq _ _ _ hl] at he
  cases e with
  | none => cases hc; cases he; exact ⟨w, hok, rfl⟩
  | some e => exact stmt_done X.call hok hf hc (has_scope_cmd X.scope hl) he

theorem cond_sim (X : Ctx C call f vars ret) {c : Option Expr} {k : Option Nat} {S S' : Sh L.X} {w : CW L.X} {b : Bool} (hc : ElCond n f.tab c k) (hf : fragOpt Hoist.Spec.fragTop c = true)
    (hok : Ok vars s0 S w) (he : (match k with | some c => (shI call f args ret).test c | none => fun s => some (s, true)) S = some (S', b)) : ∃ w', Ok vars s0 S' w' ∧ Spec.Cond C c w b w' := by
  cases c with
  | none =>
    cases k with
    | none => cases he; exact ⟨w, hok, rfl, rfl⟩
    | some => exact hc.elim
  | some c =>
    cases k with
    | none => exact hc.elim
    | some k =>
      obtain ⟨p, h1, h2⟩ := hc
      exact test_sim X h1 h2 hf hok he

/-! ## `return` -/

theorem setRet {S : Sh L.X} {w : CW L.X} (hok : Ok vars s0 S w) (hr : ret.isVar = true) (v : Int) : RetOk vars s0 ret (S.set ret v) v w.g := by
  obtain ⟨hsp, _, hstk⟩ := isVar_ne hr
  refine ⟨by simp [Sh.set, Frame.set], by rw [getG_set, hok.glob], ?_, ?_, ?_⟩
  · intro y hy hn hne
    simp only [Sh.set, Frame.set, hne, if_false]
    exact hok.others y hy hn
  · simp only [Sh.set, Frame.set, hsp.symm, if_false]; exact hok.sp
  · intro k hk
    simp only [Sh.set, Frame.set, (hstk k).symm, if_false]
    exact hok.stack k hk

theorem sacts_append : ∀ (a b : List Act) (S : Sh L.X), sacts call ret (a ++ b) S = (sacts call ret a S).bind (sacts call ret b) := by
  intro a
  induction a with
  | nil => intro b S; rfl
  | cons x r ih =>
    intro b S
    simp only [List.cons_append, sacts]
    cases sact call ret x S with
    | none => rfl
    | some S1 => simp only [Option.bind_some]; exact ih b S1

theorem sacts_lines : ∀ (ls : List Hoist.Line) (S : Sh L.X), sacts call ret (ls.map fun l => .cmd (.line l)) S = slines call ls S := by
  intro ls
  induction ls with
  | nil => intro S; rfl
  | cons l r ih =>
    intro S
    simp only [List.map_cons, sacts, slines, sact]
    congr 1
    funext S1
    exact ih S1

theorem all_lines {ls : List Hoist.Line} (h : (ls.map fun l => ShProg.Act.cmd (.line l)).all (scopeAct vars) = true) : ls.all (scopeLine vars) = true := by
  rw [List.all_map] at h
  exact h

theorem retE_sim (X : Ctx C call f vars ret) {e : Expr} {p : Rv} {S S' : Sh L.X} {w : CW L.X} (hc : Hoist.compRv n e 0 = .ok p) (hf : Hoist.Spec.frag e = true) (ho : Hoist.Spec.orderOk e = true)
    (hs : (p.lines.map (fun l => ShProg.Act.cmd (.line l)) ++ [ShProg.Act.ret p.e]).all (scopeAct vars) = true) (hok : Ok vars s0 S w)
    (he : sacts call ret (p.lines.map (fun l => .cmd (.line l)) ++ [ShProg.Act.ret p.e]) S = some S') : ∃ v w', Spec.Evals C e w v w' ∧ RetOk vars s0 ret S' v w'.g := by
  rw [List.all_append, Bool.and_eq_true] at hs
  rw [sacts_append, sacts_lines] at he
  obtain ⟨S1, h1, h2⟩ := obind he
  simp only [sacts, sact] at h2
  obtain ⟨S2, h3, h4⟩ := obind h2
  cases h4
  obtain ⟨⟨v, S3⟩, h5, h6⟩ := omap h3
  cases h6
  obtain ⟨w', ok', ev⟩ := value_evals X.call hok hf ho hc (all_lines hs.1) (by simpa [scopeAct] using hs.2) h1 h5
  exact ⟨v, w', ev, setRet ok' X.ret v⟩

theorem retcall_sim (X : Ctx C call f vars ret) {k : Nat} {as : Args} {ls : List Hoist.Line} {es : List Expr} {g : Nat} {S S' : Sh L.X} {w : CW L.X}
    (hc : Hoist.compArgs (Hoist.compRv n) as 0 = .ok (ls, es, g)) (hf : Hoist.Spec.fragArgs as = true)
    (hs : (ls.map (fun l => ShProg.Act.cmd (.line l)) ++ [ShProg.Act.retcall k es]).all (scopeAct vars) = true) (hok : Ok vars s0 S w)
    (he : sacts call ret (ls.map (fun l => .cmd (.line l)) ++ [ShProg.Act.retcall k es]) S = some S') : ∃ v w', Spec.Evals C (.call k as) w v w' ∧ RetOk vars s0 ret S' v w'.g := by
  rw [List.all_append, Bool.and_eq_true] at hs
  rw [sacts_append, sacts_lines] at he
  obtain ⟨S1, h1, h2⟩ := obind he
  simp only [sacts, sact] at h2
  obtain ⟨S2, h3, h4⟩ := obind h2
  cases h4
  obtain ⟨⟨vs, S3⟩, h5, h6⟩ := obind h3
  obtain ⟨tape, w1, g1, ok1, r1⟩ := lines_ok X.call _ _ _ _ hok (all_lines hs.1) h1
  obtain ⟨w2, ok2, _, r2⟩ := ariths_ok ok1 rfl (by simpa [scopeAct] using hs.2) h5
  obtain ⟨r, g', hp⟩ := X.call _ _ _ _ _ X.ret h6
  have hmay : C k vs w2.g r g' := by have := hp.may; rwa [ok2.glob] at this
  obtain ⟨_, as', rfl, hao, _, _, _, st⟩ := Hoist.compArgs_ok (M := tM L) as _ _ _ _ hf hc
  obtain ⟨as'', h7, h8⟩ := Hoist.ariths_steps as' _ _ _ hao (r2 [⟨k, vs, w2.g, r, g'⟩])
  have hst : Hoist.Spec.Steps (tM L) (.call k as) (w, tape ++ [⟨k, vs, w2.g, r, g'⟩]) (.lit r) ({ w2 with g := g' }, []) :=
    (((st _ _ (r1 _)).1.trans h7).call).snoc (.call h8 tM_call)
  refine ⟨r, { w2 with g := g' }, erase_steps hst (g1.append (by simpa [Good] using hmay)), hp.result, hp.glob, ?_, ?_, ?_⟩
  · intro y hy hn hne
    rw [hp.others y hy hne]; exact ok2.others y hy hn
  · rw [hp.sp]; exact ok2.sp
  · intro j hj
    rw [hp.stack j (by rw [ok2.sp]; exact hj)]; exact ok2.stack j hj

theorem ret_sim (X : Ctx C call f vars ret) {e : Option Expr} {as : List Act} {ls : List Nat} {S S' : Sh L.X} {w : CW L.X} (hc : compRet n e = .ok as) (hl : Has f.tab ls as)
    (hf : fragRet e = true) (hok : Ok vars s0 S w) (he : (shI call f args ret).acts ls S = some S') : ∃ o w', Spec.Exec C (.ret e) w o w' ∧ EndOk vars s0 ret S' w' .ret o := by
  rw [acts_eq _ _ _ hl] at he
  have hs := has_scope X.scope hl
  cases e with
  | none => cases hc; cases he; exact ⟨_, w, .ret, hok⟩
  | some e =>
    have key : ∀ p, Hoist.compRv n e 0 = .ok p → as = p.lines.map (fun l => .cmd (.line l)) ++ [.ret p.e] → Hoist.Spec.frag e = true ∧ Hoist.Spec.orderOk e = true →
        ∃ o w', Spec.Exec C (.ret (some e)) w o w' ∧ EndOk vars s0 ret S' w' .ret o := by
      rintro p hp rfl ⟨hf, ho⟩
      obtain ⟨v, w', h1, h2⟩ := retE_sim X hp hf ho hs hok he
      exact ⟨_, w', .retE h1, h2⟩
    cases e with
    | call k bs =>
      simp only [compRet] at hc
      obtain ⟨⟨l, es, g⟩, h1, h2⟩ := Res.bind_eq_ok.1 hc
      cases h2
      obtain ⟨v, w', h3, h4⟩ := retcall_sim X h1 hf hs hok he
      exact ⟨_, w', .retE h3, h4⟩
    | _ =>
      simp only [compRet] at hc
      obtain ⟨p, h1, h2⟩ := Res.bind_eq_ok.1 hc
      cases h2
      simp only [fragRet, Bool.and_eq_true] at hf
      exact key p h1 rfl hf

end

end Verif.ShProg
