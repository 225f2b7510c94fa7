import Verif.Hoist.Proofs5
/-! C37: calls moved out of expressions. -/
namespace Verif.Hoist
open Verif Spec

variable {M : Machine}

/-- **C37 (values).** The commands that `comp_rvalue` puts in front, then `$((…))`: if they end, they did what C allows for the expression. Calls are made once, with the arguments that C passes, and their results are used
where they stood (`M` says what a call does with the world, so also how often and in which order calls are made). -/
theorem C37_value_partial {n g : Nat} {e : Expr} {p : Rv} {S S1 : State M} {v : Int} {w : M.W} (hf : frag e = true) (ho : orderOk e = true) (hc : compRv n e g = .ok p)
    (hr : runLines M p.lines S = some S1) (hv : arith M S1.T p.e S1.w = some (v, w)) : Evals M e S.w v w := by
  obtain ⟨_, b, _, _, c⟩ := compRv_ok (M := M) hf hc
  exact (c _ _ hr).1.trans (arith_steps (b.order.trans ho) b.wf hv)

/-- **C37 (conditions).** In the condition of `if`, `while`, `for`: `&&` and `||` make the calls of their second operand only if C evaluates it. -/
theorem C37_test_partial {n g : Nat} {e : Expr} {ls : List Line} {t : Test} {S S1 S' : State M} {b : Bool} (hf : fragTop e = true) (hc : compTest n e g = .ok (ls, t))
    (hr : runLines M ls S = some S1) (ht : runTest M t S1 = some (b, S')) : ∃ v, Evals M e S.w v S'.w ∧ b = (v != 0) := by
  rw [compTest] at hc
  obtain ⟨⟨s, st⟩, h1, h2⟩ := Res.bind_eq_ok.1 hc
  obtain ⟨⟨ls', g'⟩, h3, h4⟩ := Res.bind_eq_ok.1 h2
  obtain ⟨t', h5, h6⟩ := Res.bind_eq_ok.1 h4
  cases h6
  exact (top_ok e _ _ _ _ _ hf rfl h1 h3 h5).2 _ _ _ _ hr ht

theorem close_noEffect (T : Nat → Int) : ∀ (s : Expr), noEffect (close T s) = noEffect s := by
  intro s
  match s with
  | .lit _ | .var _ | .tmp _ | .call .. | .assign .. | .opassign .. | .post .. => rfl
  | .un _ e | .deref e | .paren e | .cast e => simpa [close, noEffect] using close_noEffect T e
  | .bin _ _ a b | .comma a b | .logic _ a b | .logic4 _ a b _ _ => simp [close, noEffect, close_noEffect T a, close_noEffect T b]
  | .cond c a b => simp [close, noEffect, close_noEffect T c, close_noEffect T a, close_noEffect T b]

theorem close_noCall (T : Nat → Int) : ∀ (s : Expr), simple s = true → noCall (close T s) = true := by
  intro s
  match s with
  | .lit _ | .var _ | .tmp _ => intro _; rfl
  | .un _ e | .deref e | .paren e | .cast e | .post _ e => simpa [close, noCall, simple] using close_noCall T e
  | .bin _ _ a b | .comma a b | .logic4 _ a b _ _ | .assign a b | .opassign _ a b =>
    simp only [close, noCall, simple, Bool.and_eq_true]; exact fun h => ⟨close_noCall T a h.1, close_noCall T b h.2⟩
  | .cond c a b => simp only [close, noCall, simple, Bool.and_eq_true]; exact fun h => ⟨⟨close_noCall T c h.1.1, close_noCall T a h.1.2⟩, close_noCall T b h.2⟩
  | .call .. | .logic .. => simp [simple]

theorem runCmds_lines : ∀ (ls : List Line) (r : List Cmd) (S S' : State M), runCmds M (ls.map .line ++ r) S = some S' → ∃ S1, runLines M ls S = some S1 ∧ runCmds M r S1 = some S' := by
  intro ls
  induction ls with
  | nil => intro r S S' h; exact ⟨S, rfl, h⟩
  | cons l ls ih =>
    intro r S S' h
    rw [List.map_cons, List.cons_append, runCmds, runCmd] at h
    obtain ⟨S1, h1, h2⟩ := obind h
    obtain ⟨S2, h3, h4⟩ := ih _ _ _ h2
    exact ⟨S2, by rw [runLines, h1]; exact h3, h4⟩

theorem runCmds_cat : ∀ (ls : List Line) (r : List Cmd) (S S1 S' : State M), runLines M ls S = some S1 → runCmds M r S1 = some S' → runCmds M (ls.map .line ++ r) S = some S' := by
  intro ls
  induction ls with
  | nil => intro r S S1 S' h h'; cases h; exact h'
  | cons l ls ih =>
    intro r S S1 S' h h'
    rw [runLines] at h
    obtain ⟨S2, h1, h2⟩ := obind h
    rw [List.map_cons, List.cons_append, runCmds, runCmd, h1]
    exact ih _ _ _ _ h2 h'

/-- `f(…)` or `l = f(…)`. -/
def whole : Option Expr → Expr → Expr
  | none, e => e
  | some l, e => .assign l e

/-- Statements `f(…);`, `x = f(…);`, `*p = f(…);`. -/
theorem call_line {n g g' : Nat} {f : Nat} {as : Args} {d : Option Expr} {ls : List Line} (hf : fragArgs as = true)
    (hd : d = none ∨ (∃ x, d = some (.var x)) ∨ ∃ a, d = some (.deref a) ∧ frag a = true ∧ orderOk a = true)
    (h : compCall (compRv n) d f as g = .ok (ls, g')) :
    (Total M → ∀ S : State M, ∃ S', runLines M ls S = some S') ∧ ∀ S S' : State M, runLines M ls S = some S' →
      ∃ v, Steps M (whole d (.call f as)) S.w (.lit v) S'.w := by
  rw [compCall] at h
  obtain ⟨⟨l1, d', g1⟩, h1, h2⟩ := Res.bind_eq_ok.1 h
  obtain ⟨⟨l2, es, g2⟩, h3, h4⟩ := Res.bind_eq_ok.1 h2
  cases h4
  obtain ⟨a2, as', rfl, ok, bd, si, t2, r2⟩ := compArgs_ok (M := M) as _ _ _ _ hf h3
  rcases hd with rfl | ⟨x, rfl⟩ | ⟨a, rfl, hfa, hoa⟩
  · simp only [compDest] at h1
    cases h1
    rw [List.nil_append]
    refine ⟨fun ht => runLines_cat (t2 ht) fun S => ?_, fun S S' hr => ?_⟩
    · obtain ⟨p, hp⟩ := ariths_total ht (T := S.T) as' S.w ok si
      obtain ⟨q, hq⟩ := ht.call f p.1 p.2
      exact ⟨{ S with w := q.2 }, by simp [runLines, runLine, destAddr, hp, hq, putResult]⟩
    · obtain ⟨S1, h5, h6⟩ := runLines_append _ _ _ _ hr
      simp only [runLines] at h6
      obtain ⟨S2, h7, h8⟩ := obind h6
      cases h8
      rw [runLine] at h7
      simp only [destAddr, Option.bind_some] at h7
      obtain ⟨⟨vs, w2⟩, h13, h14⟩ := obind h7
      obtain ⟨⟨v, w3⟩, h15, h16⟩ := obind h14
      simp only [putResult, Option.some.injEq] at h16
      subst h16
      obtain ⟨as'', h17, h18⟩ := ariths_steps as' _ _ _ ok h13
      exact ⟨v, (((r2 _ _ h5).1.trans h17).call).snoc (.call h18 h15)⟩
  · simp only [compDest] at h1
    cases h1
    rw [List.nil_append]
    refine ⟨fun ht => runLines_cat (t2 ht) fun S => ?_, fun S S' hr => ?_⟩
    · obtain ⟨p, hp⟩ := ariths_total ht (T := S.T) as' S.w ok si
      obtain ⟨q, hq⟩ := ht.call f p.1 p.2
      exact ⟨{ S with w := M.write x q.1 q.2 }, by simp [runLines, runLine, destAddr, hp, hq, putResult]⟩
    · obtain ⟨S1, h5, h6⟩ := runLines_append _ _ _ _ hr
      simp only [runLines] at h6
      obtain ⟨S2, h7, h8⟩ := obind h6
      cases h8
      rw [runLine] at h7
      simp only [destAddr, Option.bind_some] at h7
      obtain ⟨⟨vs, w2⟩, h13, h14⟩ := obind h7
      obtain ⟨⟨v, w3⟩, h15, h16⟩ := obind h14
      simp only [putResult, Option.some.injEq] at h16
      subst h16
      obtain ⟨as'', h17, h18⟩ := ariths_steps as' _ _ _ ok h13
      exact ⟨v, (Steps.map (C := .assign (.var x)) .assignR ((((r2 _ _ h5).1.trans h17).call).snoc (.call h18 h15))).snoc (.assign rfl)⟩
  · simp only [compDest] at h1
    obtain ⟨p, h10, h11⟩ := Res.bind_eq_ok.1 h1
    cases h11
    obtain ⟨_, sh, _, t1, r1⟩ := compRv_ok (M := M) hfa h10
    refine ⟨fun ht => runLines_cat (runLines_cat (t1 ht) (t2 ht)) fun S => ?_, fun S S' hr => ?_⟩
    · obtain ⟨o, ho⟩ := arith_total ht (T := S.T) S.w sh.wf sh.simple
      obtain ⟨p, hp⟩ := ariths_total ht (T := S.T) as' o.2 ok si
      obtain ⟨q, hq⟩ := ht.call f p.1 p.2
      obtain ⟨w', hw⟩ := ht.store o.1 q.1 q.2
      exact ⟨{ S with w := w' }, by simp [runLines, runLine, destAddr, ho, hp, hq, putResult, hw]⟩
    · obtain ⟨S1, h50, h6⟩ := runLines_append _ _ _ _ hr
      obtain ⟨S0, h51, h5⟩ := runLines_append _ _ _ _ h50
      simp only [runLines] at h6
      obtain ⟨S2, h7, h8⟩ := obind h6
      cases h8
      rw [runLine] at h7
      obtain ⟨⟨oa, w1⟩, h12, h9⟩ := obind h7
      simp only [destAddr] at h12
      obtain ⟨⟨addr, w1'⟩, h19, h20⟩ := omap h12
      cases h20
      obtain ⟨⟨vs, w2⟩, h13, h14⟩ := obind h9
      obtain ⟨⟨v, w3⟩, h15, h16⟩ := obind h14
      simp only [putResult] at h16
      obtain ⟨w4, h21, h22⟩ := omap h16
      cases h22
      obtain ⟨as'', h17, h18⟩ := ariths_steps as' _ _ _ ok h13
      obtain ⟨p1, _⟩ := r1 _ _ h51
      obtain ⟨p2, fr⟩ := r2 _ _ h5
      have p3 := arith_steps (sh.order.trans hoa) sh.wf h19
      rw [close_congr fr p.e sh.bound] at p3
      refine ⟨v, ?_⟩
      refine (Steps.map (C := fun a => .assign (.deref a) (.call f as)) .assignL p1).trans ?_
      refine (Steps.map (C := .assign (.deref (close S0.T p.e))) .assignR p2.call).trans ?_
      refine (Steps.map (C := fun a => .assign (.deref a) (.call f (closeArgs S1.T as'))) .assignL p3).trans ?_
      exact (Steps.map (C := .assign (.deref (.lit addr))) .assignR ((h17.call).snoc (.call h18 h15))).snoc (.assign h21)

theorem compStmt_assign_var {n x : Nat} {r : Expr} (h : isCall r = false) :
    compStmt n (.assign (.var x) r) = (compRv n r 0).bind fun p => .ok (p.lines.map .line ++ [.setVar x p.e]) := by
  cases r <;> first | rfl | (simp [isCall] at h)

theorem compStmt_assign_deref {n : Nat} {a r : Expr} (h : isCall r = false) :
    compStmt n (.assign (.deref a) r) = (compRv n a 0).bind fun pa => (compRv n r pa.g).bind fun p => .ok ((pa.lines ++ p.lines).map .line ++ [.setCell pa.e p.e]) := by
  cases r <;> first | rfl | (simp [isCall] at h)

theorem fragStmt_assign_var {x : Nat} {r : Expr} (h : isCall r = false) : fragStmt (.assign (.var x) r) = (frag r && orderOk r) := by
  cases r <;> first | rfl | (simp [isCall] at h)

theorem fragStmt_assign_deref {a r : Expr} (h : isCall r = false) : fragStmt (.assign (.deref a) r) = (frag a && frag r && orderOk (.assign (.deref a) r)) := by
  cases r <;> first | rfl | (simp [isCall] at h)

/-- The commands of a statement run, and do what C allows. -/
def StmtOk (M : Machine) (e : Expr) (cs : List Cmd) : Prop :=
  (Total M → ∀ S : State M, ∃ S', runCmds M cs S = some S') ∧ ∀ S S' : State M, runCmds M cs S = some S' → Done M e S.w S'.w

theorem StmtOk.ofLines {e : Expr} {ls : List Line} (ht : Total M → ∀ S : State M, ∃ S', runLines M ls S = some S')
    (h : ∀ S S' : State M, runLines M ls S = some S' → ∃ v, Steps M e S.w (.lit v) S'.w) : StmtOk M e (ls.map .line) := by
  have happ : ls.map Cmd.line = ls.map Cmd.line ++ [] := (List.append_nil _).symm
  rw [happ]
  refine ⟨fun t S => ?_, fun S S' hr => ?_⟩
  · obtain ⟨S', h1⟩ := ht t S
    exact ⟨S', runCmds_cat _ _ _ _ _ h1 rfl⟩
  · obtain ⟨S1, h1, h2⟩ := runCmds_lines _ _ _ _ hr
    cases h2
    obtain ⟨v, hv⟩ := h _ _ h1
    exact ⟨_, hv, rfl, rfl⟩

theorem stmt_rv {n : Nat} {e : Expr} {cs : List Cmd} (hf : (frag e && orderOk e && noPlain e) = true)
    (hc : (compRv n e 0).bind (fun p => .ok (p.lines.map .line ++ (if p.side then [Cmd.eval p.e] else []))) = .ok cs) : StmtOk M e cs := by
  simp only [Bool.and_eq_true] at hf
  obtain ⟨p, h1, h2⟩ := Res.bind_eq_ok.1 hc
  cases h2
  obtain ⟨_, sh, sd, t, r⟩ := compRv_ok (M := M) hf.1.1 h1
  refine ⟨fun ht S => ?_, fun S S' hr => ?_⟩
  · obtain ⟨S1, h3⟩ := t ht S
    split
    · obtain ⟨q, hq⟩ := arith_total ht (T := S1.T) S1.w sh.wf sh.simple
      exact ⟨_, runCmds_cat _ _ _ _ { S1 with w := q.2 } h3 (by simp [runCmds, runCmd, hq])⟩
    · exact ⟨_, runCmds_cat _ _ _ _ _ h3 rfl⟩
  · obtain ⟨S1, h3, h4⟩ := runCmds_lines _ _ _ _ hr
    obtain ⟨h5, _⟩ := r _ _ h3
    split at h4
    · simp only [runCmds, runCmd] at h4
      obtain ⟨S2, h6, h7⟩ := obind h4
      cases h7
      obtain ⟨⟨v, w⟩, h8, h9⟩ := omap h6
      cases h9
      exact ⟨_, h5.trans (arith_steps (sh.order.trans hf.1.2) sh.wf h8), rfl, rfl⟩
    · rename_i hs
      cases h4
      refine ⟨_, h5, ?_, close_noCall _ _ sh.simple⟩
      rw [close_noEffect, sh.eff]
      cases he : noEffect e with
      | true => rfl
      | false => exact absurd (sd hf.2 he) hs

theorem stmt_ok {n : Nat} {e : Expr} {cs : List Cmd} (hf : fragStmt e = true) (hc : compStmt n e = .ok cs) : StmtOk M e cs := by
  match e, hf, hc with
  | .call f as, hf, hc =>
    rw [compStmt] at hc
    obtain ⟨⟨ls, g⟩, h1, h2⟩ := Res.bind_eq_ok.1 hc
    cases h2
    obtain ⟨t, r⟩ := call_line (M := M) (by simpa [fragStmt] using hf) (.inl rfl) h1
    exact .ofLines t r
  | .assign (.var x) (.call f as), hf, hc =>
    rw [compStmt] at hc
    obtain ⟨⟨ls, g⟩, h1, h2⟩ := Res.bind_eq_ok.1 hc
    cases h2
    obtain ⟨t, r⟩ := call_line (M := M) (by simpa [fragStmt] using hf) (.inr (.inl ⟨x, rfl⟩)) h1
    exact .ofLines t r
  | .assign (.deref a) (.call f as), hf, hc =>
    rw [compStmt] at hc
    obtain ⟨⟨ls, g⟩, h1, h2⟩ := Res.bind_eq_ok.1 hc
    cases h2
    simp [fragStmt] at hf
    obtain ⟨t, r⟩ := call_line (M := M) hf.2 (.inr (.inr ⟨a, rfl, hf.1.1, hf.1.2⟩)) h1
    exact .ofLines t r
  | .assign l r, hf, hc =>
    by_cases hr : isCall r = false
    · match l, hf, hc with
      | .var x, hf, hc =>
        rw [compStmt_assign_var hr] at hc
        rw [fragStmt_assign_var hr, Bool.and_eq_true] at hf
        obtain ⟨p, h1, h2⟩ := Res.bind_eq_ok.1 hc
        cases h2
        obtain ⟨_, sh, _, t, rr⟩ := compRv_ok (M := M) hf.1 h1
        refine ⟨fun ht S => ?_, fun S S' hr => ?_⟩
        · obtain ⟨S1, h3⟩ := t ht S
          obtain ⟨q, hq⟩ := arith_total ht (T := S1.T) S1.w sh.wf sh.simple
          exact ⟨_, runCmds_cat _ _ _ _ { S1 with w := M.write x q.1 q.2 } h3 (by simp [runCmds, runCmd, hq])⟩
        · obtain ⟨S1, h3, h4⟩ := runCmds_lines _ _ _ _ hr
          simp only [runCmds, runCmd] at h4
          obtain ⟨S2, h6, h7⟩ := obind h4
          cases h7
          obtain ⟨⟨v, w⟩, h8, h9⟩ := omap h6
          cases h9
          exact ⟨_, (Steps.map (C := .assign (.var x)) .assignR ((rr _ _ h3).1.trans (arith_steps (sh.order.trans hf.2) sh.wf h8))).snoc (.assign rfl), rfl, rfl⟩
      | .deref a, hf, hc =>
        rw [compStmt_assign_deref hr] at hc
        rw [fragStmt_assign_deref hr, Bool.and_eq_true, Bool.and_eq_true] at hf
        obtain ⟨pa, h1, h2⟩ := Res.bind_eq_ok.1 hc
        obtain ⟨p, h3, h4⟩ := Res.bind_eq_ok.1 h2
        cases h4
        obtain ⟨_, sa, _, ta, ra⟩ := compRv_ok (M := M) hf.1.1 h1
        obtain ⟨hg, sh, _, t, rr⟩ := compRv_ok (M := M) hf.1.2 h3
        have sas := (sa.mono hg).deref.assign sh rfl
        refine ⟨fun ht S => ?_, fun S S' hr => ?_⟩
        · obtain ⟨S1, h5⟩ := runLines_cat (ta ht) (t ht) S
          obtain ⟨q, hq⟩ := arith_total ht (T := S1.T) S1.w sas.wf sas.simple
          exact ⟨_, runCmds_cat _ _ _ _ { S1 with w := q.2 } h5 (by simp [runCmds, runCmd, hq])⟩
        · obtain ⟨S1, h50, h6⟩ := runCmds_lines _ _ _ _ hr
          obtain ⟨S0, h51, h5⟩ := runLines_append _ _ _ _ h50
          simp only [runCmds, runCmd] at h6
          obtain ⟨S2, h7, h8⟩ := obind h6
          cases h8
          obtain ⟨⟨v, w⟩, h9, h10⟩ := omap h7
          cases h10
          obtain ⟨p1, _⟩ := ra _ _ h51
          obtain ⟨p2, fr⟩ := rr _ _ h5
          have p3 := arith_steps (sas.order.trans hf.2) sas.wf h9
          simp only [close] at p3
          rw [close_congr fr pa.e sa.bound] at p3
          exact ⟨_, ((Steps.map (C := fun a => .assign (.deref a) r) .assignL p1).trans (Steps.map (C := .assign (.deref (close S0.T pa.e))) .assignR p2)).trans p3, rfl, rfl⟩
      | .lit _, hf, hc | .tmp _, hf, hc | .un .., hf, hc | .paren _, hf, hc | .cast _, hf, hc | .bin .., hf, hc | .comma .., hf, hc | .assign .., hf, hc | .opassign .., hf, hc
      | .post .., hf, hc | .call .., hf, hc | .logic .., hf, hc | .logic4 .., hf, hc | .cond .., hf, hc =>
        simp [fragStmt, noPlain] at hf
    · match r, hr, l, hf, hc with
      | .call f as, _, .var x, hf, hc =>
        rw [compStmt] at hc
        obtain ⟨⟨ls, g⟩, h1, h2⟩ := Res.bind_eq_ok.1 hc
        cases h2
        obtain ⟨t, r⟩ := call_line (M := M) (by simpa [fragStmt] using hf) (.inr (.inl ⟨x, rfl⟩)) h1
        exact .ofLines t r
      | .call f as, _, .deref a, hf, hc =>
        rw [compStmt] at hc
        obtain ⟨⟨ls, g⟩, h1, h2⟩ := Res.bind_eq_ok.1 hc
        cases h2
        simp [fragStmt] at hf
        obtain ⟨t, r⟩ := call_line (M := M) hf.2 (.inr (.inr ⟨a, rfl, hf.1.1, hf.1.2⟩)) h1
        exact .ofLines t r
      | .call f as, _, .lit _, hf, hc | .call f as, _, .tmp _, hf, hc | .call f as, _, .un .., hf, hc | .call f as, _, .paren _, hf, hc | .call f as, _, .cast _, hf, hc
      | .call f as, _, .bin .., hf, hc | .call f as, _, .comma .., hf, hc | .call f as, _, .assign .., hf, hc | .call f as, _, .opassign .., hf, hc
      | .call f as, _, .post .., hf, hc | .call f as, _, .call .., hf, hc | .call f as, _, .logic .., hf, hc | .call f as, _, .logic4 .., hf, hc | .call f as, _, .cond .., hf, hc =>
        simp [fragStmt, noPlain] at hf
  | .lit _, hf, hc | .var _, hf, hc | .tmp _, hf, hc | .un .., hf, hc | .deref _, hf, hc | .paren _, hf, hc | .cast _, hf, hc | .bin .., hf, hc | .comma .., hf, hc | .opassign .., hf, hc
  | .post .., hf, hc | .logic .., hf, hc | .logic4 .., hf, hc | .cond .., hf, hc => exact stmt_rv hf hc

/-- **C37 (statements).** The commands for an expression statement do what C allows; what they leave out has no effects. -/
theorem C37_statement_partial {n : Nat} {e : Expr} {cs : List Cmd} {S S' : State M} (hf : fragStmt e = true) (hc : compStmt n e = .ok cs) (hr : runCmds M cs S = some S') : Done M e S.w S'.w :=
  (stmt_ok hf hc).2 _ _ hr

/-- **C37 (the commands run).** If no operation fails and every call returns, the commands for values, conditions and statements run to their end. -/
theorem C37_runs_partial (ht : Total M) :
    (∀ n g e p, frag e = true → compRv n e g = .ok p → ∀ S : State M, ∃ S1 r, runLines M p.lines S = some S1 ∧ arith M S1.T p.e S1.w = some r) ∧
    (∀ n g e ls t, fragTop e = true → compTest n e g = .ok (ls, t) → ∀ S : State M, ∃ S1 r, runLines M ls S = some S1 ∧ runTest M t S1 = some r) ∧
    (∀ n e cs, fragStmt e = true → compStmt n e = .ok cs → ∀ S : State M, ∃ S', runCmds M cs S = some S') := by
  refine ⟨fun n g e p hf hc S => ?_, fun n g e ls t hf hc S => ?_, fun n e cs hf hc => (stmt_ok hf hc).1 ht⟩
  · obtain ⟨_, sh, _, t, _⟩ := compRv_ok (M := M) hf hc
    obtain ⟨S1, h1⟩ := t ht S
    obtain ⟨q, hq⟩ := arith_total ht (T := S1.T) S1.w sh.wf sh.simple
    exact ⟨S1, q, h1, hq⟩
  · rw [compTest] at hc
    obtain ⟨⟨s, st⟩, h1, h2⟩ := Res.bind_eq_ok.1 hc
    obtain ⟨⟨ls', g'⟩, h3, h4⟩ := Res.bind_eq_ok.1 h2
    obtain ⟨t', h5, h6⟩ := Res.bind_eq_ok.1 h4
    cases h6
    exact (top_ok e _ _ _ _ _ hf rfl h1 h3 h5).1 ht S

/-- **C37 (accepted).** The expressions covered are compiled, unless an argument of a call has `&&` or `||`. -/
theorem C37_accepts_partial {n g : Nat} {e : Expr} (hf : frag e = true) (ha : argsPlain e = true) : ∃ p, compRv (n + 2) e g = .ok p := compRv_accept hf ha

/-- **C37 (refused).** Outside of conditions a call that C may skip is not compiled (if no `?:` is nested in an operand of `&&`, `||` or in a branch of `?:`). -/
theorem C37_refused {n g : Nat} {e : Expr} (hc : flat e = true) (hn : mayskip e = true) : ∀ p, compRv n e g ≠ .ok p := fun _ => compRv_rejects hc hn

end Verif.Hoist
