import Verif.ShProg.Proofs2
/-! Calls, tests and simple commands: what the shell does is a run of the machine with a tape. -/
namespace Verif.ShProg
open Verif Verif.Stmt Verif.Frame Verif.ShProg.Spec
open Verif.Hoist (Expr Args Rv Dest Cmd Machine obind omap)

variable {L : Lang}

/-- What a call of the shell does. -/
structure Post (C : Calls L) (k : Nat) (args : List Int) (ret : Name) (S S' : Sh L.X) (r : Int) (g' : Glob L.X) : Prop where
  may : C k args (getG S) r g'
  result : S'.s ret = r
  glob : getG S' = gset ret r g'
  others : ∀ y : Name, y.own = true → y ≠ ret → S'.s y = S.s y
  sp : S'.s .sp = S.s .sp
  stack : ∀ i ≤ S.s .sp, S'.s (.stk i) = S.s (.stk i)

/-- The calls of the shell do what `C` allows. -/
def CallOK (C : Calls L) (call : CallFn L) : Prop :=
  ∀ k args ret S S', ret.isVar = true → call k args ret S = some S' → ∃ r g', Post C k args ret S S' r g'

theorem Ok.afterCall {C : Calls L} {vars : List Name} {s0 : Store} {S S' : Sh L.X} {w : CW L.X} {k : Nat} {args : List Int} {ret : Name} {r : Int} {g' : Glob L.X} (h : Ok vars s0 S w)
    (hp : Post C k args ret S S' r g') (hret : ret.own = true → ret ∈ vars) : Ok vars s0 S' ⟨fun i => if .loc i = ret then r else w.loc i, gset ret r g'⟩ := by
  refine ⟨?_, hp.glob, ?_, by rw [hp.sp, h.sp], ?_⟩
  · intro i hi
    simp only
    split
    · rename_i e; rw [e]; exact hp.result
    · rename_i e; rw [hp.others _ rfl e]; exact h.loc i hi
  · intro y hy hn
    have : y ≠ ret := fun e => hn (e ▸ hret (e ▸ hy))
    rw [hp.others y hy this]; exact h.others y hy hn
  · intro k hk
    rw [hp.stack k (by rw [h.sp]; exact hk)]; exact h.stack k hk

theorem isVar_nm (x : Nat) : (nm x).isVar = true := by unfold nm; split <;> rfl

theorem dest_ok {vars : List Name} {s0 : Store} {S S1 : Sh L.X} {w : CW L.X} {d : Dest} {x : Name} {oa : Option Int} (h : Ok vars s0 S w) (hs : scopeDest vars d = true)
    (he : destName d S = some ((x, oa), S1)) :
    ∃ w1, Ok vars s0 S1 w1 ∧ S1.T = S.T ∧ x.isVar = true ∧ (x.own = true → x ∈ vars) ∧ ∀ t, Hoist.destAddr (tM L) S.T d (w, t) = some (oa, (w1, t)) := by
  cases d with
  | none => cases he; exact ⟨w, h, rfl, rfl, by simp [Name.own], fun t => rfl⟩
  | tmp k => cases he; exact ⟨w, h, rfl, rfl, fun _ => by simpa [scopeDest] using hs, fun t => rfl⟩
  | var x =>
    cases he
    refine ⟨w, h, rfl, isVar_nm x, fun ho => ?_, fun t => rfl⟩
    rcases nm_cases x with ⟨h0, e⟩ | ⟨h1, e⟩
    · rw [e]; exact okVar_loc hs h0
    · rw [e] at ho; simp [gv, Name.own] at ho
  | cell e =>
    simp only [destName] at he
    obtain ⟨⟨a, S2⟩, h1, h2⟩ := omap he
    cases h2
    obtain ⟨w1, h3, h4, h5⟩ := arith_ok h rfl hs h1
    exact ⟨w1, h3, h4, rfl, by simp [mc, Name.own], fun t => by simp [Hoist.destAddr, h5]⟩

theorem tM_call {f : Nat} {vs : List Int} {w : CW L.X} {r : Int} {g' : Glob L.X} {t : List (Entry L)} : (tM L).call f vs (w, ⟨f, vs, w.g, r, g'⟩ :: t) = some (r, ({ w with g := g' }, t)) := by
  simp [tM, callOf]

theorem line_ok {C : Calls L} {call : CallFn L} (hcall : CallOK C call) {vars : List Name} {s0 : Store} {S S' : Sh L.X} {w : CW L.X} {l : Hoist.Line} (h : Ok vars s0 S w) (hs : scopeLine vars l = true)
    (he : sline call l S = some S') :
    ∃ en w', C en.f en.vs en.g en.r en.g' ∧ Ok vars s0 S' w' ∧ ∀ t, Hoist.runLine (tM L) l ⟨S.T, (w, en :: t)⟩ = some ⟨S'.T, (w', t)⟩ := by
  simp only [scopeLine, Bool.and_eq_true] at hs
  simp only [sline] at he
  obtain ⟨⟨⟨x, oa⟩, S1⟩, h1, h2⟩ := obind he
  obtain ⟨⟨vs, S2⟩, h3, h4⟩ := obind h2
  obtain ⟨S3, h5, h6⟩ := obind h4
  obtain ⟨w1, ok1, t1, iv, iw, r1⟩ := dest_ok h hs.1 h1
  obtain ⟨w2, ok2, t2, r2⟩ := ariths_ok ok1 t1 hs.2 h3
  obtain ⟨r, g', hp⟩ := hcall _ _ _ _ _ iv h5
  have ok3 := ok2.afterCall hp iw
  have hmay : C l.f vs w2.g r g' := by have := hp.may; rwa [ok2.glob] at this
  have hS : S3 = S' ∧ storeOk oa S3 = true := by
    split at h6
    · cases h6; exact ⟨rfl, by assumption⟩
    · cases h6
  obtain ⟨rfl, hst⟩ := hS
  have hT : ∀ k, .temp k ≠ x → S3.T k = S.T k := fun k hk => by
    show S3.s (.temp k) = _
    rw [hp.others _ rfl hk]
    exact congrFun t2 k
  obtain ⟨d, f, as⟩ := l
  simp only at *
  have key : ∀ w', (∀ t, Hoist.putResult (tM L) d oa r ⟨S.T, ({ w2 with g := g' }, t)⟩ = some ⟨S3.T, (w', t)⟩) → ∀ t, Hoist.runLine (tM L) ⟨d, f, as⟩ ⟨S.T, (w, ⟨f, vs, w2.g, r, g'⟩ :: t)⟩ = some ⟨S3.T, (w', t)⟩ := by
    intro w' hw t
    rw [Hoist.runLine]
    simp [r1, r2, callOf, hw]
  cases d with
  | none =>
    cases h1
    refine ⟨⟨f, vs, w2.g, r, g'⟩, _, hmay, ok3, key _ fun t => ?_⟩
    simp only [reduceCtorEq, if_false, gset_none, Hoist.putResult, Option.some.injEq, Hoist.State.mk.injEq, and_true]
    funext k; exact (hT k (by simp)).symm
  | tmp k =>
    cases h1
    refine ⟨⟨f, vs, w2.g, r, g'⟩, _, hmay, ok3, key _ fun t => ?_⟩
    simp only [reduceCtorEq, if_false, gset_not r g' (x := .temp k) rfl, Hoist.putResult, Option.some.injEq, Hoist.State.mk.injEq, and_true]
    funext j
    simp only [Hoist.setTmp]
    split
    · rename_i e; subst e; exact hp.result.symm
    · rename_i e; exact (hT j (by simpa using e)).symm
  | var y =>
    cases h1
    have hT' : S3.T = S.T := by funext k; exact hT k (nm_temp y k).symm
    rcases nm_cases y with ⟨h0, e⟩ | ⟨h0, e⟩
    · rw [e, gset_not r g' (x := .loc (y / 2)) rfl] at ok3
      refine ⟨⟨f, vs, w2.g, r, g'⟩, CW.write y r { w2 with g := g' }, hmay, ?_, key _ fun t => by rw [hT']; rfl⟩
      have : CW.write y r { w2 with g := g' } = ⟨fun i => if Name.loc i = Name.loc (y / 2) then r else w2.loc i, g'⟩ := by
        simp only [CW.write, h0, if_true, CW.mk.injEq, and_true, Name.loc.injEq]; rfl
      rw [this]; exact ok3
    · rw [e, gset_gv] at ok3
      refine ⟨⟨f, vs, w2.g, r, g'⟩, CW.write y r { w2 with g := g' }, hmay, ?_, key _ fun t => by rw [hT']; rfl⟩
      have : CW.write y r { w2 with g := g' } = ⟨fun i => if Name.loc i = gv (y / 2) then r else w2.loc i, { g' with var := upd g'.var (y / 2) r }⟩ := by
        simp only [CW.write, if_neg (show ¬ y % 2 = 0 by omega), gv, reduceCtorEq, if_false]
      rw [this]; exact ok3
  | cell e =>
    simp only [destName] at h1
    obtain ⟨⟨a, S4⟩, h7, h8⟩ := omap h1
    cases h8
    rw [gset_mc] at ok3
    refine ⟨⟨f, vs, w2.g, r, g'⟩, _, hmay, ok3, key _ fun t => ?_⟩
    have hx : g'.x = S3.x := by have := congrArg Glob.x hp.glob; exact this.symm
    have hv : L.valid a g'.x = true := by rw [hx]; exact hst
    have hT' : S3.T = S.T := by funext k; exact hT k (by simp [mc])
    simp [Hoist.putResult, CW.store, hv, mc, hT']

theorem lines_ok {C : Calls L} {call : CallFn L} (hcall : CallOK C call) {vars : List Name} {s0 : Store} : ∀ (ls : List Hoist.Line) (S S' : Sh L.X) (w : CW L.X), Ok vars s0 S w → ls.all (scopeLine vars) = true →
    slines call ls S = some S' →
    ∃ tape w', Good C tape ∧ Ok vars s0 S' w' ∧ ∀ t, Hoist.runLines (tM L) ls ⟨S.T, (w, tape ++ t)⟩ = some ⟨S'.T, (w', t)⟩ := by
  intro ls
  induction ls with
  | nil => intro S S' w h _ he; cases he; exact ⟨[], w, by simp [Good], h, fun t => rfl⟩
  | cons l r ih =>
    intro S S' w h hs he
    simp only [List.all_cons, Bool.and_eq_true] at hs
    simp only [slines] at he
    obtain ⟨S1, h1, h2⟩ := obind he
    obtain ⟨en, w1, g1, ok1, r1⟩ := line_ok hcall h hs.1 h1
    obtain ⟨tape, w2, g2, ok2, r2⟩ := ih _ _ _ ok1 hs.2 h2
    refine ⟨en :: tape, w2, ?_, ok2, fun t => ?_⟩
    · intro x hx
      rcases List.mem_cons.1 hx with rfl | hx
      · exact g1
      · exact g2 x hx
    · simp only [Hoist.runLines, List.cons_append, r1, Option.bind_some, r2]

theorem Good.append {C : Calls L} {a b : List (Entry L)} (ha : Good C a) (hb : Good C b) : Good C (a ++ b) := by
  intro x hx
  rcases List.mem_append.1 hx with h | h
  · exact ha x h
  · exact hb x h

theorem test_ok {C : Calls L} {call : CallFn L} (hcall : CallOK C call) {vars : List Name} {s0 : Store} : ∀ (q : Hoist.Test) (S S' : Sh L.X) (w : CW L.X) (b : Bool), Ok vars s0 S w → scopeTest vars q = true →
    stest call q S = some (b, S') →
    ∃ tape w', Good C tape ∧ Ok vars s0 S' w' ∧ ∀ t, Hoist.runTest (tM L) q ⟨S.T, (w, tape ++ t)⟩ = some (b, ⟨S'.T, (w', t)⟩) := by
  intro q
  induction q with
  | leaf ls e =>
    intro S S' w b h hs he
    simp only [scopeTest, Bool.and_eq_true] at hs
    simp only [stest] at he
    obtain ⟨S1, h1, h2⟩ := obind he
    obtain ⟨tape, w1, g1, ok1, r1⟩ := lines_ok hcall ls _ _ _ h hs.1 h1
    obtain ⟨w2, ok2, t2, r2⟩ := leaf_ok ok1 hs.2 h2
    refine ⟨tape, w2, g1, ok2, fun t => ?_⟩
    simp only [Hoist.runTest, r1, Option.bind_some, r2, Option.map_some, t2]
  | logic i a c iha ihc =>
    intro S S' w b h hs he
    simp only [scopeTest, Bool.and_eq_true] at hs
    simp only [stest] at he
    obtain ⟨⟨x, S1⟩, h1, h2⟩ := obind he
    obtain ⟨tape, w1, g1, ok1, r1⟩ := iha _ _ _ _ h hs.1 h1
    simp only at h2
    split at h2
    · rename_i hx
      obtain ⟨tape2, w2, g2, ok2, r2⟩ := ihc _ _ _ _ ok1 hs.2 h2
      refine ⟨tape ++ tape2, w2, g1.append g2, ok2, fun t => ?_⟩
      simp only [Hoist.runTest, List.append_assoc, r1, Option.bind_some, hx, if_true, r2]
    · rename_i hx
      cases h2
      refine ⟨tape, w1, g1, ok1, fun t => ?_⟩
      simp only [Hoist.runTest, r1, Option.bind_some, hx, if_false]

theorem cmd_ok {C : Calls L} {call : CallFn L} (hcall : CallOK C call) {vars : List Name} {s0 : Store} {ret : Name} {c : Cmd} {S S' : Sh L.X} {w : CW L.X} (h : Ok vars s0 S w) (hs : scopeCmd vars c = true)
    (he : sact call ret (.cmd c) S = some S') :
    ∃ tape w', Good C tape ∧ Ok vars s0 S' w' ∧ ∀ t, Hoist.runCmd (tM L) c ⟨S.T, (w, tape ++ t)⟩ = some ⟨S'.T, (w', t)⟩ := by
  cases c with
  | line l =>
    obtain ⟨en, w', h1, h2, h3⟩ := line_ok hcall h hs he
    exact ⟨[en], w', by simpa [Good] using h1, h2, fun t => h3 t⟩
  | eval e =>
    simp only [sact] at he
    obtain ⟨⟨v, S1⟩, h1, h2⟩ := omap he
    cases h2
    obtain ⟨w', ok1, t1, r1⟩ := arith_ok h rfl hs h1
    exact ⟨[], w', by simp [Good], ok1, fun t => by simp [Hoist.runCmd, r1, t1]⟩
  | setVar x e =>
    simp only [scopeCmd, Bool.and_eq_true] at hs
    simp only [sact] at he
    obtain ⟨⟨v, S1⟩, h1, h2⟩ := omap he
    cases h2
    obtain ⟨w', ok1, t1, r1⟩ := arith_ok h rfl hs.2 h1
    refine ⟨[], _, by simp [Good], ok1.write hs.1 v, fun t => ?_⟩
    rw [T_set (nm_temp x), t1]
    simp only [Hoist.runCmd, List.nil_append, r1, Option.map_some]
  | setCell a e =>
    simp only [scopeCmd, Bool.and_eq_true] at hs
    simp only [sact] at he
    obtain ⟨⟨v, S1⟩, h1, h2⟩ := omap he
    cases h2
    obtain ⟨w', ok1, t1, r1⟩ := arith_ok h rfl (by simp [scope, hs]) h1
    exact ⟨[], w', by simp [Good], ok1, fun t => by simp [Hoist.runCmd, r1, t1]⟩

/-- Simple commands in sequence. -/
def sacts (call : CallFn L) (ret : Name) : List Act → Sh L.X → Option (Sh L.X)
  | [], S => some S
  | a :: r, S => (sact call ret a S).bind (sacts call ret r)

theorem cmds_ok {C : Calls L} {call : CallFn L} (hcall : CallOK C call) {vars : List Name} {s0 : Store} {ret : Name} : ∀ (cs : List Cmd) (S S' : Sh L.X) (w : CW L.X), Ok vars s0 S w → cs.all (scopeCmd vars) = true →
    sacts call ret (cs.map .cmd) S = some S' →
    ∃ tape w', Good C tape ∧ Ok vars s0 S' w' ∧ ∀ t, Hoist.runCmds (tM L) cs ⟨S.T, (w, tape ++ t)⟩ = some ⟨S'.T, (w', t)⟩ := by
  intro cs
  induction cs with
  | nil => intro S S' w h _ he; cases he; exact ⟨[], w, by simp [Good], h, fun t => rfl⟩
  | cons c r ih =>
    intro S S' w h hs he
    simp only [List.all_cons, Bool.and_eq_true] at hs
    simp only [List.map_cons, sacts] at he
    obtain ⟨S1, h1, h2⟩ := obind he
    obtain ⟨tape, w1, g1, ok1, r1⟩ := cmd_ok hcall h hs.1 h1
    obtain ⟨tape2, w2, g2, ok2, r2⟩ := ih _ _ _ ok1 hs.2 h2
    exact ⟨tape ++ tape2, w2, g1.append g2, ok2, fun t => by simp only [Hoist.runCmds, List.append_assoc, r1, Option.bind_some, r2]⟩

/-! ## Statements and conditions in C -/

theorem done_of {C : Calls L} {e : Expr} {n : Nat} {cs : List Cmd} {T T' : Nat → Int} {w w' : CW L.X} {tape : List (Entry L)} (hf : Hoist.Spec.fragStmt e = true) (hc : Hoist.compStmt n e = .ok cs)
    (hg : Good C tape) (hr : ∀ t, Hoist.runCmds (tM L) cs ⟨T, (w, tape ++ t)⟩ = some ⟨T', (w', t)⟩) : Spec.Done C e w w' := by
  have hr := hr []
  rw [List.append_nil] at hr
  obtain ⟨e', h1, h2, h3⟩ := Hoist.C37_statement_partial hf hc hr
  exact ⟨e', erase_steps h1 hg, h2, h3⟩

theorem stmt_done {C : Calls L} {call : CallFn L} (hcall : CallOK C call) {vars : List Name} {s0 : Store} {ret : Name} {S S' : Sh L.X} {w : CW L.X} {e : Expr} {n : Nat} {cs : List Cmd} (h : Ok vars s0 S w)
    (hf : Hoist.Spec.fragStmt e = true) (hc : Hoist.compStmt n e = .ok cs) (hs : cs.all (scopeCmd vars) = true) (he : sacts call ret (cs.map .cmd) S = some S') :
    ∃ w', Ok vars s0 S' w' ∧ Spec.Done C e w w' := by
  obtain ⟨tape, w', h1, h2, h3⟩ := cmds_ok hcall cs _ _ _ h hs he
  exact ⟨w', h2, done_of hf hc h1 h3⟩

theorem test_evals {C : Calls L} {call : CallFn L} (hcall : CallOK C call) {vars : List Name} {s0 : Store} {S S1 S' : Sh L.X} {w : CW L.X} {e : Expr} {n : Nat} {ls : List Hoist.Line} {q : Hoist.Test} {b : Bool}
    (h : Ok vars s0 S w) (hf : Hoist.Spec.fragTop e = true) (hc : Hoist.compTest n e 0 = .ok (ls, q)) (hl : ls.all (scopeLine vars) = true) (hq : scopeTest vars q = true)
    (h1 : slines call ls S = some S1) (h2 : stest call q S1 = some (b, S')) : ∃ w' v, Ok vars s0 S' w' ∧ Spec.Evals C e w v w' ∧ b = (v != 0) := by
  obtain ⟨tape, w1, g1, ok1, r1⟩ := lines_ok hcall ls _ _ _ h hl h1
  obtain ⟨tape2, w2, g2, ok2, r2⟩ := test_ok hcall q _ _ _ _ ok1 hq h2
  obtain ⟨v, h3, h4⟩ := Hoist.C37_test_partial (M := tM L) hf hc (r1 (tape2 ++ [])) (r2 [])
  exact ⟨w2, v, ok2, erase_steps h3 (g1.append (g2.append (by simp [Good]))), h4⟩

theorem value_evals {C : Calls L} {call : CallFn L} (hcall : CallOK C call) {vars : List Name} {s0 : Store} {S S1 S' : Sh L.X} {w : CW L.X} {e : Expr} {n : Nat} {p : Rv} {v : Int}
    (h : Ok vars s0 S w) (hf : Hoist.Spec.frag e = true) (ho : Hoist.Spec.orderOk e = true) (hc : Hoist.compRv n e 0 = .ok p) (hl : p.lines.all (scopeLine vars) = true) (hq : scope (okVar vars) p.e = true)
    (h1 : slines call p.lines S = some S1) (h2 : Hoist.arith (shM L) S1.T p.e S1 = some (v, S')) : ∃ w', Ok vars s0 S' w' ∧ Spec.Evals C e w v w' := by
  obtain ⟨tape, w1, g1, ok1, r1⟩ := lines_ok hcall _ _ _ _ h hl h1
  obtain ⟨w2, ok2, _, r2⟩ := arith_ok ok1 rfl hq h2
  have h3 := Hoist.C37_value_partial (M := tM L) hf ho hc (r1 []) (r2 [])
  exact ⟨w2, ok2, erase_steps h3 (by simpa using g1)⟩

end Verif.ShProg
