import Verif.ShProg.Model
/-! The generated commands use the variables of the function and its temporaries only. -/
namespace Verif.ShProg
open Verif Verif.Stmt Verif.Frame
open Verif.Hoist (Expr Args Rv Dest Cmd)

/-- The identifier is declared. -/
def okVar (vars : List Name) (x : Nat) : Bool := x % 2 = 1 || vars.contains (.loc (x / 2))

/-- The identifiers of an expression (`env_var`, sh.c:513-530, looks them up). -/
def scope (ok : Nat → Bool) : Expr → Bool
  | .lit _ | .tmp _ => true
  | .var x => ok x
  | .un _ e | .deref e | .paren e | .cast e | .post _ e => scope ok e
  | .bin _ _ a b | .comma a b | .assign a b | .opassign _ a b | .logic _ a b | .logic4 _ a b _ _ => scope ok a && scope ok b
  | .cond c a b => scope ok c && scope ok a && scope ok b
  | .call .. => false

def scopeDest (vars : List Name) : Dest → Bool
  | .none => true
  | .tmp k => vars.contains (.temp k)
  | .var x => okVar vars x
  | .cell e => scope (okVar vars) e

def scopeLine (vars : List Name) (l : Hoist.Line) : Bool := scopeDest vars l.dest && l.args.all (scope (okVar vars))

def scopeCmd (vars : List Name) : Cmd → Bool
  | .line l => scopeLine vars l
  | .eval e => scope (okVar vars) e
  | .setVar x e => okVar vars x && scope (okVar vars) e
  | .setCell a e => scope (okVar vars) a && scope (okVar vars) e

def scopeTest (vars : List Name) : Hoist.Test → Bool
  | .leaf ls e => ls.all (scopeLine vars) && scope (okVar vars) e
  | .logic _ a b => scopeTest vars a && scopeTest vars b

def scopeAct (vars : List Name) : Act → Bool
  | .cmd c => scopeCmd vars c
  | .ret e => scope (okVar vars) e
  | .retcall _ es => es.all (scope (okVar vars))

def Tab.scope (vars : List Name) (t : Tab) : Bool :=
  t.acts.all (scopeAct vars) && t.tests.all (fun p => p.1.all (scopeLine vars) && scopeTest vars p.2) && t.sels.all (fun p => p.lines.all (scopeLine vars) && ShProg.scope (okVar vars) p.e)

/-! ## Expressions while they are compiled -/

mutual
/-- Identifiers satisfy `ok`; temporaries are numbered from 1. -/
def mid (ok : Nat → Bool) : Expr → Bool
  | .lit _ => true
  | .tmp k => k != 0
  | .var x => ok x
  | .un _ e | .deref e | .paren e | .cast e | .post _ e => mid ok e
  | .bin _ _ a b | .comma a b | .assign a b | .opassign _ a b | .logic _ a b => mid ok a && mid ok b
  | .logic4 _ a b la lb => mid ok a && mid ok b && midCalls ok la && midCalls ok lb
  | .cond c a b => mid ok c && mid ok a && mid ok b
  | .call _ as => midArgs ok as
def midArgs (ok : Nat → Bool) : Args → Bool
  | .nil => true
  | .cons e r => mid ok e && midArgs ok r
def midCalls (ok : Nat → Bool) : Hoist.Calls → Bool
  | .nil => true
  | .cons d _ as r => mid ok d && midArgs ok as && midCalls ok r
end

mutual
theorem names_mid {ok : Nat → Bool} : (e : Expr) → names ok e = true → mid ok e = true
  | .lit _, _ => rfl
  | .tmp _, h | .logic4 .., h => by simp [names] at h
  | .var x, h => by simpa [names, mid] using h
  | .un _ e, h | .deref e, h | .paren e, h | .cast e, h | .post _ e, h => by simp only [names, mid] at h ⊢; exact names_mid e h
  | .bin _ _ a b, h | .comma a b, h | .assign a b, h | .opassign _ a b, h | .logic _ a b, h => by
    simp only [names, mid, Bool.and_eq_true] at h ⊢; exact ⟨names_mid a h.1, names_mid b h.2⟩
  | .cond c a b, h => by simp only [names, mid, Bool.and_eq_true] at h ⊢; exact ⟨⟨names_mid c h.1.1, names_mid a h.1.2⟩, names_mid b h.2⟩
  | .call _ as, h => by simp only [names, mid] at h ⊢; exact names_midArgs as h
theorem names_midArgs {ok : Nat → Bool} : (as : Args) → namesArgs ok as = true → midArgs ok as = true
  | .nil, _ => rfl
  | .cons e r, h => by simp only [namesArgs, midArgs, Bool.and_eq_true] at h ⊢; exact ⟨names_mid e h.1, names_midArgs r h.2⟩
end

theorem midCalls_append {ok : Nat → Bool} : (a b : Hoist.Calls) → midCalls ok a = true → midCalls ok b = true → midCalls ok (a.append b) = true
  | .nil, b, _, hb => hb
  | .cons d f as r, b, ha, hb => by
    simp only [Hoist.Calls.append, midCalls, Bool.and_eq_true] at ha ⊢
    exact ⟨ha.1, midCalls_append r b ha.2 hb⟩

/-- The two lists of calls. -/
def MidSt (ok : Nat → Bool) (st : Hoist.St) : Prop := midCalls ok st.repl = true ∧ midCalls ok st.cond = true

theorem push_mid {ok : Nat → Bool} {flag : Bool} {d : Expr} {f : Nat} {as : Args} {st : Hoist.St} (hd : mid ok d = true) (ha : midArgs ok as = true) (h : MidSt ok st) : MidSt ok (Hoist.push flag d f as st) := by
  have hc : midCalls ok (.cons d f as .nil) = true := by simp [midCalls, hd, ha]
  unfold Hoist.push
  split
  · exact ⟨h.1, midCalls_append _ _ h.2 hc⟩
  · exact ⟨midCalls_append _ _ h.1 hc, h.2⟩

mutual
theorem handle_mid {ok : Nat → Bool} (flag : Bool) : (e : Expr) → (st : Hoist.St) → (e' : Expr) → (st' : Hoist.St) → Hoist.handle flag e st = .ok (e', st') → mid ok e = true → MidSt ok st →
    mid ok e' = true ∧ MidSt ok st'
  | .lit _, st, e', st', h, hm, hs | .var _, st, e', st', h, hm, hs | .tmp _, st, e', st', h, hm, hs => by
    simp only [Hoist.handle] at h; cases h; exact ⟨hm, hs⟩
  | .un _ e, st, e', st', h, hm, hs | .deref e, st, e', st', h, hm, hs | .paren e, st, e', st', h, hm, hs | .cast e, st, e', st', h, hm, hs => by
    simp only [Hoist.handle] at h
    obtain ⟨⟨e1, s1⟩, h1, h2⟩ := Res.bind_eq_ok.1 h
    cases h2
    simp only [mid] at hm ⊢
    exact handle_mid flag e _ _ _ h1 hm hs
  | .post _ e, st, e', st', h, hm, hs => by
    simp only [Hoist.handle] at h
    obtain ⟨⟨e1, s1⟩, h1, h2⟩ := Res.bind_eq_ok.1 h
    cases h2
    simp only [mid] at hm ⊢
    exact handle_mid flag e _ _ _ h1 hm hs
  | .bin _ _ a b, st, e', st', h, hm, hs | .comma a b, st, e', st', h, hm, hs => by
    simp only [Hoist.handle] at h
    obtain ⟨⟨e1, s1⟩, h1, h2⟩ := Res.bind_eq_ok.1 h
    obtain ⟨⟨e2, s2⟩, h3, h4⟩ := Res.bind_eq_ok.1 h2
    cases h4
    simp only [mid, Bool.and_eq_true] at hm ⊢
    obtain ⟨m1, k1⟩ := handle_mid flag a _ _ _ h1 hm.1 hs
    obtain ⟨m2, k2⟩ := handle_mid flag b _ _ _ h3 hm.2 k1
    exact ⟨⟨m1, m2⟩, k2⟩
  | .opassign _ a b, st, e', st', h, hm, hs => by
    simp only [Hoist.handle] at h
    obtain ⟨⟨e1, s1⟩, h1, h2⟩ := Res.bind_eq_ok.1 h
    obtain ⟨⟨e2, s2⟩, h3, h4⟩ := Res.bind_eq_ok.1 h2
    cases h4
    simp only [mid, Bool.and_eq_true] at hm ⊢
    obtain ⟨m1, k1⟩ := handle_mid flag a _ _ _ h1 hm.1 hs
    obtain ⟨m2, k2⟩ := handle_mid flag b _ _ _ h3 hm.2 k1
    exact ⟨⟨m1, m2⟩, k2⟩
  | .assign a b, st, e', st', h, hm, hs => by
    have key : ((Hoist.handle flag a st).bind fun (l, st) => (Hoist.handle flag b st).bind fun (r, st) => .ok (.assign l r, st)) = .ok (e', st') → mid ok e' = true ∧ MidSt ok st' := by
      intro h
      obtain ⟨⟨e1, s1⟩, h1, h2⟩ := Res.bind_eq_ok.1 h
      obtain ⟨⟨e2, s2⟩, h3, h4⟩ := Res.bind_eq_ok.1 h2
      cases h4
      simp only [mid, Bool.and_eq_true] at hm ⊢
      obtain ⟨m1, k1⟩ := handle_mid flag a _ _ _ h1 hm.1 hs
      obtain ⟨m2, k2⟩ := handle_mid flag b _ _ _ h3 hm.2 k1
      exact ⟨⟨m1, m2⟩, k2⟩
    cases b with
    | call f as =>
      simp only [Hoist.handle] at h
      obtain ⟨⟨e1, s1⟩, h1, h2⟩ := Res.bind_eq_ok.1 h
      cases h2
      simp only [mid, Bool.and_eq_true] at hm ⊢
      obtain ⟨m1, k1⟩ := handleArgs_mid flag as _ _ _ h1 hm.2 hs
      exact ⟨hm.1, push_mid hm.1 m1 k1⟩
    | _ => simp only [Hoist.handle] at h; exact key (by simpa only [Hoist.handle] using h)
  | .call f as, st, e', st', h, hm, hs => by
    simp only [Hoist.handle] at h
    obtain ⟨⟨e1, s1⟩, h1, h2⟩ := Res.bind_eq_ok.1 h
    cases h2
    simp only [mid] at hm ⊢
    obtain ⟨m1, k1⟩ := handleArgs_mid flag as _ _ _ h1 hm hs
    exact ⟨by simp, push_mid (by simp [mid]) m1 k1⟩
  | .logic _ a b, st, e', st', h, hm, hs => by
    simp only [Hoist.handle] at h
    obtain ⟨⟨e1, s1⟩, h1, h2⟩ := Res.bind_eq_ok.1 h
    obtain ⟨⟨e2, s2⟩, h3, h4⟩ := Res.bind_eq_ok.1 h2
    cases h4
    simp only [mid, Bool.and_eq_true] at hm ⊢
    obtain ⟨m1, k1⟩ := handle_mid true a _ _ _ h1 hm.1 ⟨hs.1, rfl⟩
    obtain ⟨m2, k2⟩ := handle_mid true b _ _ _ h3 hm.2 ⟨k1.1, rfl⟩
    exact ⟨⟨⟨⟨m1, m2⟩, k1.2⟩, k2.2⟩, k2.1, hs.2⟩
  | .cond c a b, st, e', st', h, hm, hs => by
    simp only [Hoist.handle] at h
    obtain ⟨⟨e1, s1⟩, h1, h2⟩ := Res.bind_eq_ok.1 h
    obtain ⟨⟨e2, s2⟩, h3, h4⟩ := Res.bind_eq_ok.1 h2
    simp only [mid, Bool.and_eq_true] at hm
    obtain ⟨m1, k1⟩ := handle_mid true a _ _ _ h1 hm.1.2 ⟨hs.1, rfl⟩
    obtain ⟨m2, k2⟩ := handle_mid true b _ _ _ h3 hm.2 ⟨k1.1, rfl⟩
    simp only at h4
    split at h4
    · obtain ⟨⟨e3, s3⟩, h5, h6⟩ := Res.bind_eq_ok.1 h4
      cases h6
      obtain ⟨m3, k3⟩ := handle_mid flag c _ _ _ h5 hm.1.1 k2
      exact ⟨by simp [mid, m1, m2, m3], k3⟩
    · cases h4
  | .logic4 .., st, e', st', h, hm, hs => by simp [Hoist.handle] at h
theorem handleArgs_mid {ok : Nat → Bool} (flag : Bool) : (as : Args) → (st : Hoist.St) → (as' : Args) → (st' : Hoist.St) → Hoist.handleArgs flag as st = .ok (as', st') → midArgs ok as = true → MidSt ok st →
    midArgs ok as' = true ∧ MidSt ok st'
  | .nil, st, e', st', h, hm, hs => by simp only [Hoist.handleArgs] at h; cases h; exact ⟨hm, hs⟩
  | .cons e r, st, e', st', h, hm, hs => by
    simp only [Hoist.handleArgs] at h
    obtain ⟨⟨e1, s1⟩, h1, h2⟩ := Res.bind_eq_ok.1 h
    obtain ⟨⟨e2, s2⟩, h3, h4⟩ := Res.bind_eq_ok.1 h2
    cases h4
    simp only [midArgs, Bool.and_eq_true] at hm ⊢
    obtain ⟨m1, k1⟩ := handle_mid flag e _ _ _ h1 hm.1 hs
    obtain ⟨m2, k2⟩ := handleArgs_mid flag r _ _ _ h3 hm.2 k1
    exact ⟨⟨m1, m2⟩, k2⟩
end

/-! ## The commands -/

section
variable (ok : Nat → Bool) (tm : Nat → Bool)

def gDest : Dest → Bool
  | .none => true
  | .tmp k => tm k
  | .var x => ok x
  | .cell e => scope ok e

def gLine (l : Hoist.Line) : Bool := gDest ok tm l.dest && l.args.all (scope ok)

def gCmd : Cmd → Bool
  | .line l => gLine ok tm l
  | .eval e => scope ok e
  | .setVar x e => ok x && scope ok e
  | .setCell a e => scope ok a && scope ok e

def gTest : Hoist.Test → Bool
  | .leaf ls e => ls.all (gLine ok tm) && scope ok e
  | .logic _ a b => gTest a && gTest b

def gAct : Act → Bool
  | .cmd c => gCmd ok tm c
  | .ret e => scope ok e
  | .retcall _ es => es.all (scope ok)

def gTab (t : Tab) : Bool :=
  t.acts.all (gAct ok tm) && t.tests.all (fun p => p.1.all (gLine ok tm) && gTest ok tm p.2) && t.sels.all (fun p => p.lines.all (gLine ok tm) && scope ok p.e)
end

theorem scope_mono {ok ok' : Nat → Bool} (h : ∀ x, ok x = true → ok' x = true) : (e : Expr) → scope ok e = true → scope ok' e = true
  | .lit _, _ | .tmp _, _ => rfl
  | .var x, he => by simp only [scope] at he ⊢; exact h x he
  | .un _ e, he | .deref e, he | .paren e, he | .cast e, he | .post _ e, he => by simp only [scope] at he ⊢; exact scope_mono h e he
  | .bin _ _ a b, he | .comma a b, he | .assign a b, he | .opassign _ a b, he | .logic _ a b, he | .logic4 _ a b _ _, he => by
    simp only [scope, Bool.and_eq_true] at he ⊢; exact ⟨scope_mono h a he.1, scope_mono h b he.2⟩
  | .cond c a b, he => by simp only [scope, Bool.and_eq_true] at he ⊢; exact ⟨⟨scope_mono h c he.1.1, scope_mono h a he.1.2⟩, scope_mono h b he.2⟩
  | .call .., he => by simp [scope] at he

theorem mid_scope {ok : Nat → Bool} : (e : Expr) → mid ok e = true → Hoist.arithOk e = true → scope ok e = true
  | .lit _, _, _ | .tmp _, _, _ => rfl
  | .var x, he, _ => by simpa only [scope, mid] using he
  | .un _ e, he, ha | .deref e, he, ha | .paren e, he, ha | .cast e, he, ha | .post _ e, he, ha => by simp only [scope, mid, Hoist.arithOk] at he ha ⊢; exact mid_scope e he ha
  | .bin _ _ a b, he, ha | .comma a b, he, ha | .assign a b, he, ha | .opassign _ a b, he, ha => by
    simp only [scope, mid, Hoist.arithOk, Bool.and_eq_true] at he ha ⊢; exact ⟨mid_scope a he.1 ha.1, mid_scope b he.2 ha.2⟩
  | .logic4 _ a b _ _, he, ha => by
    simp only [scope, mid, Hoist.arithOk, Bool.and_eq_true] at he ha ⊢; exact ⟨mid_scope a he.1.1.1 ha.1.2, mid_scope b he.1.1.2 ha.2⟩
  | .cond c a b, he, ha => by
    simp only [scope, mid, Hoist.arithOk, Bool.and_eq_true] at he ha ⊢; exact ⟨⟨mid_scope c he.1.1 ha.1.1, mid_scope a he.1.2 ha.1.2⟩, mid_scope b he.2 ha.2⟩
  | .logic .., _, ha | .call .., _, ha => by simp [Hoist.arithOk] at ha

/-- Temporaries are numbered from 1. -/
def pos (k : Nat) : Bool := k != 0

/-- What is known of `comp_rvalue`. -/
def RvOk (ok : Nat → Bool) (rv : Expr → Nat → Res Rv) : Prop := ∀ e g p, rv e g = .ok p → mid ok e = true → p.lines.all (gLine ok pos) = true ∧ scope ok p.e = true

section
variable {ok : Nat → Bool} {rv : Expr → Nat → Res Rv}

theorem compArgs_names (hrv : RvOk ok rv) : ∀ (as : Args) (g : Nat) (ls : List Hoist.Line) (es : List Expr) (g' : Nat), Hoist.compArgs rv as g = .ok (ls, es, g') → midArgs ok as = true →
    ls.all (gLine ok pos) = true ∧ es.all (scope ok) = true
  | .nil, g, ls, es, g', h, _ => by simp only [Hoist.compArgs] at h; cases h; exact ⟨rfl, rfl⟩
  | .cons e r, g, ls, es, g', h, hm => by
    simp only [Hoist.compArgs] at h
    obtain ⟨p, h1, h2⟩ := Res.bind_eq_ok.1 h
    obtain ⟨⟨ls', es', g1⟩, h3, h4⟩ := Res.bind_eq_ok.1 h2
    cases h4
    simp only [midArgs, Bool.and_eq_true] at hm
    obtain ⟨a, b⟩ := hrv _ _ _ h1 hm.1
    obtain ⟨c, d⟩ := compArgs_names hrv r _ _ _ _ h3 hm.2
    exact ⟨by rw [List.all_append, a, c]; rfl, by rw [List.all_cons, b, d]; rfl⟩

theorem compDest_names (hrv : RvOk ok rv) {d : Option Expr} {g g' : Nat} {ls : List Hoist.Line} {dd : Dest} (h : Hoist.compDest rv d g = .ok (ls, dd, g')) (hd : ∀ e, d = some e → mid ok e = true) :
    ls.all (gLine ok pos) = true ∧ gDest ok pos dd = true := by
  cases d with
  | none => simp only [Hoist.compDest] at h; cases h; exact ⟨rfl, rfl⟩
  | some e =>
    have hd := hd e rfl
    cases e with
    | tmp k => simp only [Hoist.compDest] at h; cases h; exact ⟨rfl, by simpa [gDest, mid, pos] using hd⟩
    | var x => simp only [Hoist.compDest] at h; cases h; exact ⟨rfl, by simpa [gDest, mid] using hd⟩
    | deref e =>
      simp only [Hoist.compDest] at h
      obtain ⟨p, h1, h2⟩ := Res.bind_eq_ok.1 h
      cases h2
      simp only [mid] at hd
      exact hrv _ _ _ h1 hd
    | _ => simp [Hoist.compDest] at h

theorem compCall_names (hrv : RvOk ok rv) {d : Option Expr} {f : Nat} {as : Args} {g g' : Nat} {ls : List Hoist.Line} (h : Hoist.compCall rv d f as g = .ok (ls, g')) (hd : ∀ e, d = some e → mid ok e = true)
    (ha : midArgs ok as = true) : ls.all (gLine ok pos) = true := by
  simp only [Hoist.compCall] at h
  obtain ⟨⟨l1, d', g1⟩, h1, h2⟩ := Res.bind_eq_ok.1 h
  obtain ⟨⟨l2, es, g2⟩, h3, h4⟩ := Res.bind_eq_ok.1 h2
  cases h4
  obtain ⟨a, b⟩ := compDest_names hrv h1 hd
  obtain ⟨c, e⟩ := compArgs_names hrv _ _ _ _ _ h3 ha
  simp only [List.all_append, List.all_cons, List.all_nil, gLine, Bool.and_true, Bool.and_eq_true]
  exact ⟨⟨a, c⟩, b, e⟩

theorem compCalls_names (hrv : RvOk ok rv) : ∀ (c : Hoist.Calls) (g : Nat) (ls : List Hoist.Line) (g' : Nat), Hoist.compCalls rv c g = .ok (ls, g') → midCalls ok c = true → ls.all (gLine ok pos) = true
  | .nil, g, ls, g', h, _ => by simp only [Hoist.compCalls] at h; cases h; rfl
  | .cons d f as r, g, ls, g', h, hm => by
    simp only [Hoist.compCalls] at h
    obtain ⟨⟨l1, g1⟩, h1, h2⟩ := Res.bind_eq_ok.1 h
    obtain ⟨⟨l2, g2⟩, h3, h4⟩ := Res.bind_eq_ok.1 h2
    cases h4
    simp only [midCalls, Bool.and_eq_true] at hm
    rw [List.all_append, compCall_names hrv h1 (fun e he => by cases he; exact hm.1.1) hm.1.2, compCalls_names hrv r _ _ _ h3 hm.2]
    rfl

theorem compRv_names : ∀ n, RvOk ok (Hoist.compRv n) := by
  intro n
  induction n with
  | zero => intro e g p h; simp [Hoist.compRv] at h
  | succ n ih =>
    intro e g p h hm
    simp only [Hoist.compRv] at h
    obtain ⟨⟨s, st⟩, h1, h2⟩ := Res.bind_eq_ok.1 h
    obtain ⟨⟨ls, g1⟩, h3, h4⟩ := Res.bind_eq_ok.1 h2
    obtain ⟨m1, k1⟩ := handle_mid false e _ _ _ h1 hm ⟨rfl, rfl⟩
    simp only at h4
    split at h4
    · rename_i ha
      cases h4
      exact ⟨compCalls_names ih _ _ _ _ h3 k1.1, mid_scope _ m1 ha⟩
    · cases h4

theorem goTest_names (hrv : RvOk ok rv) {g : Nat} : (e : Expr) → (c : Hoist.Calls) → (q : Hoist.Test) → Hoist.goTest rv g e c = .ok q → mid ok e = true → midCalls ok c = true → gTest ok pos q = true
  | .paren e, c, q, h, hm, hc => by simp only [Hoist.goTest, mid] at h hm; exact goTest_names hrv e c q h hm hc
  | .cast e, c, q, h, hm, hc => by simp only [Hoist.goTest, mid] at h hm; exact goTest_names hrv e _ q h hm rfl
  | .logic4 i a b la lb, c, q, h, hm, hc => by
    simp only [Hoist.goTest] at h
    obtain ⟨q1, h1, h2⟩ := Res.bind_eq_ok.1 h
    obtain ⟨q2, h3, h4⟩ := Res.bind_eq_ok.1 h2
    cases h4
    simp only [mid, Bool.and_eq_true] at hm
    simp only [gTest, Bool.and_eq_true]
    exact ⟨goTest_names hrv a la q1 h1 hm.1.1.1 hm.1.2, goTest_names hrv b lb q2 h3 hm.1.1.2 hm.2⟩
  | .lit _, c, q, h, hm, hc | .tmp _, c, q, h, hm, hc | .var _, c, q, h, hm, hc | .un _ _, c, q, h, hm, hc | .deref _, c, q, h, hm, hc | .post _ _, c, q, h, hm, hc | .bin _ _ _ _, c, q, h, hm, hc
  | .comma _ _, c, q, h, hm, hc | .assign _ _, c, q, h, hm, hc | .opassign _ _ _, c, q, h, hm, hc | .logic _ _ _, c, q, h, hm, hc | .cond _ _ _, c, q, h, hm, hc | .call _ _, c, q, h, hm, hc => by
    simp only [Hoist.goTest] at h
    split at h
    · rename_i ha
      obtain ⟨⟨ls, g1⟩, h1, h2⟩ := Res.bind_eq_ok.1 h
      cases h2
      simp only [gTest, Bool.and_eq_true]
      exact ⟨compCalls_names hrv _ _ _ _ h1 hc, mid_scope _ hm ha⟩
    · cases h

theorem compTest_names {n : Nat} {e : Expr} {g : Nat} {p : List Hoist.Line × Hoist.Test} (h : Hoist.compTest n e g = .ok p) (hm : names ok e = true) : p.1.all (gLine ok pos) = true ∧ gTest ok pos p.2 = true := by
  simp only [Hoist.compTest] at h
  obtain ⟨⟨s, st⟩, h1, h2⟩ := Res.bind_eq_ok.1 h
  obtain ⟨⟨ls, g1⟩, h3, h4⟩ := Res.bind_eq_ok.1 h2
  obtain ⟨t, h5, h6⟩ := Res.bind_eq_ok.1 h4
  cases h6
  obtain ⟨m1, k1⟩ := handle_mid false e _ _ _ h1 (names_mid _ hm) ⟨rfl, rfl⟩
  exact ⟨compCalls_names (compRv_names n) _ _ _ _ h3 k1.1, goTest_names (compRv_names n) _ _ _ h5 m1 rfl⟩

theorem all_map_line {tm : Nat → Bool} {ls : List Hoist.Line} (h : ls.all (gLine ok tm) = true) : (ls.map Cmd.line).all (gCmd ok tm) = true := by rw [List.all_map]; exact h

theorem compStmt_names {n : Nat} {e : Expr} {cs : List Cmd} (h : Hoist.compStmt n e = .ok cs) (hm : names ok e = true) : cs.all (gCmd ok pos) = true := by
  have R := compRv_names (ok := ok) n
  have other : ∀ e, ((Hoist.compRv n e 0).bind fun p => .ok (p.lines.map .line ++ (if p.side then [.eval p.e] else []))) = .ok cs → names ok e = true → cs.all (gCmd ok pos) = true := by
    intro e h hm
    obtain ⟨p, h1, h2⟩ := Res.bind_eq_ok.1 h
    cases h2
    obtain ⟨a, b⟩ := R _ _ _ h1 (names_mid _ hm)
    rw [List.all_append, all_map_line a]
    split
    · simpa [gCmd] using b
    · rfl
  have asg : ∀ l r, ((Hoist.compRv n l 0).bind fun pa => (Hoist.compRv n r pa.g).bind fun p => .ok ((pa.lines ++ p.lines).map .line ++ [.setCell pa.e p.e])) = .ok cs → names ok l = true → names ok r = true →
      cs.all (gCmd ok pos) = true := by
    intro l r h hl hr
    obtain ⟨pa, h1, h2⟩ := Res.bind_eq_ok.1 h
    obtain ⟨p, h3, h4⟩ := Res.bind_eq_ok.1 h2
    cases h4
    obtain ⟨a, b⟩ := R _ _ _ h1 (names_mid _ hl)
    obtain ⟨c, d⟩ := R _ _ _ h3 (names_mid _ hr)
    rw [List.all_append, all_map_line (by rw [List.all_append, a, c]; rfl)]
    simp [gCmd, b, d]
  have asv : ∀ x r, ((Hoist.compRv n r 0).bind fun p => .ok (p.lines.map .line ++ [.setVar x p.e])) = .ok cs → ok x = true → names ok r = true → cs.all (gCmd ok pos) = true := by
    intro x r h hx hr
    obtain ⟨p, h1, h2⟩ := Res.bind_eq_ok.1 h
    cases h2
    obtain ⟨a, b⟩ := R _ _ _ h1 (names_mid _ hr)
    rw [List.all_append, all_map_line a]
    simp [gCmd, hx, b]
  cases e with
  | call f as =>
    simp only [Hoist.compStmt] at h
    obtain ⟨⟨ls, g⟩, h1, h2⟩ := Res.bind_eq_ok.1 h
    cases h2
    exact all_map_line (compCall_names R h1 (by simp) (names_midArgs _ (by simpa only [names] using hm)))
  | assign l r =>
    simp only [names, Bool.and_eq_true] at hm
    cases r with
    | call f as =>
      simp only [Hoist.compStmt] at h
      obtain ⟨⟨ls, g⟩, h1, h2⟩ := Res.bind_eq_ok.1 h
      cases h2
      exact all_map_line (compCall_names R h1 (fun e he => by cases he; exact names_mid _ hm.1) (names_midArgs _ (by simpa only [names] using hm.2)))
    | _ =>
      cases l with
      | var x => simp only [Hoist.compStmt] at h; exact asv _ _ h (by simpa only [names] using hm.1) hm.2
      | deref a => simp only [Hoist.compStmt] at h; exact asg _ _ h (by simpa only [names] using hm.1) hm.2
      | _ => simp [Hoist.compStmt] at h
  | _ => simp only [Hoist.compStmt] at h; exact other _ h hm

end

end Verif.ShProg
