import Verif.Hoist.Proofs3
/-! Values, conditions, statements. -/
namespace Verif.Hoist
open Verif Spec

variable {M : Machine}

/-- `comp_rvalue`. -/
theorem compRv_ok {n : Nat} {e : Expr} {g : Nat} {p : Rv} (hf : frag e = true) (h : compRv n e g = .ok p) :
    g ≤ p.g ∧ Shape e p.e p.g ∧ (noPlain e = true → noEffect e = false → p.side = true) ∧
      (Total M → ∀ S : State M, ∃ S1, runLines M p.lines S = some S1) ∧
      ∀ (S S1 : State M), runLines M p.lines S = some S1 → Steps M e S.w (close S1.T p.e) S1.w ∧ ∀ k ≤ g, S1.T k = S.T k := by
  cases n with
  | zero => cases h
  | succ n =>
    rw [compRv] at h
    obtain ⟨⟨s, st⟩, h1, h2⟩ := Res.bind_eq_ok.1 h
    obtain ⟨⟨ls, g'⟩, h3, h4⟩ := Res.bind_eq_ok.1 h2
    dsimp only at h3 h4
    split at h4
    · cases h4
      obtain ⟨a, b, c, d, f, cs, i, j⟩ := handle_ok (M := M) e false _ _ _ hf (by simp) h1
      simp only [pend, Bool.false_eq_true, if_false, Calls.append] at i
      rw [i] at h3
      obtain ⟨rfl, h5⟩ := j _ _ _ _ h3
      exact ⟨a, b, f, h5⟩
    · cases h4

theorem compArgs_ok {n : Nat} : ∀ (as : Args) (g : Nat) (ls : List Line) (es : List Expr) (g' : Nat), fragArgs as = true → compArgs (compRv n) as g = .ok (ls, es, g') →
    g ≤ g' ∧ ∃ as', as'.toList = es ∧ argsOk as' = true ∧ boundArgs g' as' = true ∧ simpleArgs as' = true ∧ (Total M → ∀ S : State M, ∃ S1, runLines M ls S = some S1) ∧
      ∀ (S S1 : State M), runLines M ls S = some S1 → StepsA M as S.w (closeArgs S1.T as') S1.w ∧ ∀ k ≤ g, S1.T k = S.T k := by
  intro as
  match as with
  | .nil =>
    intro g ls es g' _ h
    simp [compArgs] at h; obtain ⟨rfl, rfl, rfl⟩ := h
    refine ⟨Nat.le_refl _, .nil, rfl, rfl, rfl, rfl, fun _ S => ⟨S, rfl⟩, fun S S1 h => ?_⟩
    simp [runLines] at h; subst h
    exact ⟨.refl, fun _ _ => rfl⟩
  | .cons e r =>
    intro g ls es g' hf h
    simp [fragArgs] at hf
    rw [compArgs] at h
    obtain ⟨p, h1, h2⟩ := Res.bind_eq_ok.1 h
    obtain ⟨⟨ls', es', g1⟩, h3, h4⟩ := Res.bind_eq_ok.1 h2
    cases h4
    obtain ⟨a, b, _, t, c⟩ := compRv_ok (M := M) hf.1.1 h1
    obtain ⟨a2, as', b2, c2, d2, s2, t2, e2⟩ := compArgs_ok r _ _ _ _ hf.2 h3
    refine ⟨Nat.le_trans a a2, .cons p.e as', by simp [Args.toList, b2], by simp [argsOk, b.wf, b.order, hf.1.2, c2], by simp [boundArgs, bound_mono a2 _ b.bound, d2],
      by simp [simpleArgs, b.simple, s2], fun ht => runLines_cat (t ht) (t2 ht), fun S S1 h => ?_⟩
    obtain ⟨S2, h6, h7⟩ := runLines_append _ _ _ _ h
    obtain ⟨h8, h9⟩ := c _ _ h6
    obtain ⟨h10, h11⟩ := e2 _ _ h7
    refine ⟨?_, fun k hk => (h11 k (Nat.le_trans hk a)).trans (h9 k hk)⟩
    rw [closeArgs, close_congr h11 p.e b.bound]
    exact (StepsA.head h8).trans (StepsA.tail h10)

/-! ## Conditions -/

theorem noDeref_late : ∀ (e : Expr), noDeref e = true → noLateDeref e = true := by
  intro e
  match e with
  | .lit _ | .var _ | .tmp _ | .call .. => intro _; rfl
  | .un _ e | .paren e | .cast e | .post _ e => simpa [noDeref, noLateDeref] using noDeref_late e
  | .deref e => simp [noDeref]
  | .bin _ _ a b | .assign a b | .opassign _ a b => simp only [noDeref, noLateDeref, Bool.and_eq_true]; exact fun ⟨h1, h2⟩ => ⟨noDeref_late a h1, noDeref_late b h2⟩
  | .comma a b | .logic _ a b | .logic4 _ a b _ _ => simp only [noDeref, noLateDeref, Bool.and_eq_true]; exact fun ⟨h1, h2⟩ => ⟨noDeref_late a h1, h2⟩
  | .cond c a b => simp only [noDeref, noLateDeref, Bool.and_eq_true]; exact fun ⟨⟨h1, h2⟩, h3⟩ => ⟨⟨noDeref_late c h1, h2⟩, h3⟩

/-- Not one of the constructors which `goTest` goes through. -/
def plainHead : Expr → Bool
  | .paren _ | .cast _ | .logic .. | .logic4 .. => false
  | _ => true

theorem goTest_leaf {rv : Expr → Nat → Res Rv} {g : Nat} {s : Expr} {c : Calls} (h : plainHead s = true) :
    goTest rv g s c = if arithOk s then (compCalls rv c g).bind fun p => .ok (.leaf p.1 s) else .fatal := by
  cases s <;> first | rfl | (simp [plainHead] at h)

theorem handle_head {flag : Bool} {e s : Expr} {st st' : St} (hf : frag e = true) (hp : plainHead e = true) (h : handle flag e st = .ok (s, st')) : plainHead s = true := by
  cases e with
  | lit v | var v => simp [handle] at h; obtain ⟨rfl, _⟩ := h; rfl
  | tmp k => simp [frag] at hf
  | un o e | deref e | post o e =>
    rw [handle] at h
    obtain ⟨⟨s1, st1⟩, h1, h2⟩ := Res.bind_eq_ok.1 h
    cases h2; rfl
  | paren | cast | logic | logic4 => simp [plainHead] at hp
  | bin c o a b | comma a b | opassign o a b =>
    rw [handle] at h
    obtain ⟨⟨s1, st1⟩, h1, h2⟩ := Res.bind_eq_ok.1 h
    obtain ⟨⟨s2, st2⟩, h3, h4⟩ := Res.bind_eq_ok.1 h2
    cases h4; rfl
  | assign a b =>
    simp [frag] at hf
    rw [handle_assign hf.2] at h
    obtain ⟨⟨s1, st1⟩, h1, h2⟩ := Res.bind_eq_ok.1 h
    obtain ⟨⟨s2, st2⟩, h3, h4⟩ := Res.bind_eq_ok.1 h2
    cases h4; rfl
  | call f as =>
    rw [handle] at h
    obtain ⟨⟨s1, st1⟩, h1, h2⟩ := Res.bind_eq_ok.1 h
    cases h2; rfl
  | cond c a b =>
    rw [handle] at h
    obtain ⟨⟨s1, st1⟩, h1, h2⟩ := Res.bind_eq_ok.1 h
    obtain ⟨⟨s2, st2⟩, h3, h4⟩ := Res.bind_eq_ok.1 h2
    dsimp only at h4
    split at h4
    · obtain ⟨⟨s3, st3⟩, h5, h6⟩ := Res.bind_eq_ok.1 h4
      cases h6; rfl
    · cases h4

/-- `[ … ]` gives the truth value of the expression. -/
theorem runLeaf_steps {T : Nat → Int} {s : Expr} {w w' : M.W} {b : Bool} (ho : orderOk s = true) (hw : wf s = true) (h : runLeaf M T s w = some (b, w')) :
    ∃ v, Steps M (close T s) w (.lit v) w' ∧ b = (v != 0) := by
  have gen : (arith M T s w).map (fun (v, w) => (v != 0, w)) = some (b, w') → ∃ v, Steps M (close T s) w (.lit v) w' ∧ b = (v != 0) := by
    intro h
    obtain ⟨⟨v, w1⟩, h1, h2⟩ := omap h
    cases h2
    exact ⟨v, arith_steps ho hw h1, rfl⟩
  match s, ho, hw, h, gen with
  | .bin true o x y, ho, hw, h, _ =>
    rw [runLeaf] at h
    obtain ⟨⟨p, w1⟩, h1, h2⟩ := obind h
    obtain ⟨⟨q, w2⟩, h3, h4⟩ := obind h2
    obtain ⟨r, h5, h6⟩ := omap h4
    cases h6
    simp [wf] at hw
    have hx : orderOk x = true := by
      simp only [orderOk, noEffect, noLateDeref, Bool.or_eq_true, Bool.and_eq_true] at ho ⊢
      exact ho.imp (·.1) (·.1)
    have hy : orderOk y = true := by
      simp only [orderOk, noEffect, noLateDeref, Bool.or_eq_true, Bool.and_eq_true] at ho ⊢
      exact ho.imp (·.2) (·.2)
    exact ⟨r, ((Steps.map (C := fun a => .bin true o a (close T y)) .binL (arith_steps hx hw.1 h1)).trans (Steps.map (C := .bin true o (.lit p)) .binR (arith_steps hy hw.2 h3))).snoc (.bin h5), rfl⟩
  | .bin false .., _, _, h, gen | .lit _, _, _, h, gen | .var _, _, _, h, gen | .tmp _, _, _, h, gen | .un .., _, _, h, gen | .deref _, _, _, h, gen | .paren _, _, _, h, gen
  | .cast _, _, _, h, gen | .comma .., _, _, h, gen | .assign .., _, _, h, gen | .opassign .., _, _, h, gen | .post .., _, _, h, gen | .call .., _, _, h, gen | .logic .., _, _, h, gen
  | .logic4 .., _, _, h, gen | .cond .., _, _, h, gen => exact gen h

/-- `&&` and `||` of conditions. -/
theorem logic_steps {i x y : Bool} {a b : Expr} {w w1 w2 : M.W} {v : Int} (h : Steps M a w (.lit v) w1) (hx : x = (v != 0))
    (hb : if x = i then ∃ u, Steps M b w1 (.lit u) w2 ∧ y = (u != 0) else y = x ∧ w2 = w1) : ∃ u, Steps M (.logic i a b) w (.lit u) w2 ∧ y = (u != 0) := by
  have hs := Steps.map (C := fun a => .logic i a b) .logicL h
  have hob : ∀ z : Bool, (ofBool z != 0) = z := by intro z; cases z <;> rfl
  split at hb
  · rename_i hi
    obtain ⟨u, hu, rfl⟩ := hb
    have hi' : (v != 0) = i := hx ▸ hi
    exact ⟨ofBool (u != 0), (hs.trans (Steps.map (C := .logic i (.lit v)) (.logicR hi') hu)).snoc (.logicEnd hi'), (hob _).symm⟩
  · rename_i hi
    obtain ⟨rfl, rfl⟩ := hb
    exact ⟨ofBool (v != 0), hs.snoc (.logicSkip (hx ▸ hi)), by rw [hob, hx]⟩

theorem runLeaf_total (ht : Total M) {T : Nat → Int} {s : Expr} (w : M.W) (hw : wf s = true) (hs : simple s = true) : ∃ p, runLeaf M T s w = some p := by
  have gen : ∃ p, (arith M T s w).map (fun (v, w) => (v != 0, w)) = some p := by
    obtain ⟨p, hp⟩ := arith_total ht (T := T) w hw hs
    exact ⟨_, by rw [hp]; rfl⟩
  match s, hw, hs, gen with
  | .bin true o x y, hw, hs, _ =>
    simp [wf] at hw
    simp [simple] at hs
    obtain ⟨p, hp⟩ := arith_total ht (T := T) w hw.1 hs.1
    obtain ⟨q, hq⟩ := arith_total ht (T := T) p.2 hw.2 hs.2
    obtain ⟨r, hr⟩ := ht.bin o p.1 q.1
    exact ⟨(r != 0, q.2), by simp [runLeaf, hp, hq, hr]⟩
  | .bin false .., _, _, gen | .lit _, _, _, gen | .var _, _, _, gen | .tmp _, _, _, gen | .un .., _, _, gen | .deref _, _, _, gen | .paren _, _, _, gen
  | .cast _, _, _, gen | .comma .., _, _, gen | .assign .., _, _, gen | .opassign .., _, _, gen | .post .., _, _, gen | .call .., _, _, gen | .logic .., _, _, gen
  | .logic4 .., _, _, gen | .cond .., _, _, gen => exact gen

/-- A test is a C evaluation. -/
def TestOk (M : Machine) (e : Expr) (t : Test) : Prop := (Total M → ∀ S : State M, ∃ p, runTest M t S = some p) ∧
  ∀ (S : State M) (b : Bool) (S' : State M), runTest M t S = some (b, S') → ∃ v, Steps M e S.w (.lit v) S'.w ∧ b = (v != 0)

theorem TestOk.logic {i : Bool} {a b : Expr} {ta tb : Test} (ha : TestOk M a ta) (hb : TestOk M b tb) : TestOk M (.logic i a b) (.logic i ta tb) := by
  refine ⟨fun ht S => ?_, ?_⟩
  · obtain ⟨p, hp⟩ := ha.1 ht S
    obtain ⟨q, hq⟩ := hb.1 ht p.2
    rw [runTest, hp, Option.bind_some]
    dsimp only
    split
    · exact ⟨q, hq⟩
    · exact ⟨_, rfl⟩
  intro S y S' h
  rw [runTest] at h
  obtain ⟨⟨x, S1⟩, h1, h2⟩ := obind h
  obtain ⟨v, h3, h4⟩ := ha.2 _ _ _ h1
  refine logic_steps h3 h4 ?_
  dsimp only at h2
  by_cases hx : x = i
  · rw [if_pos hx] at h2 ⊢; exact hb.2 _ _ _ h2
  · rw [if_neg hx] at h2 ⊢; cases h2; exact ⟨rfl, rfl⟩

theorem TestOk.paren {e : Expr} {t : Test} (h : TestOk M e t) : TestOk M (.paren e) t := by
  refine ⟨h.1, fun S b S' hr => ?_⟩
  obtain ⟨v, h1, h2⟩ := h.2 _ _ _ hr
  exact ⟨v, (Steps.map (C := .paren) .parenIn h1).snoc .paren, h2⟩

theorem TestOk.cast {e : Expr} {t : Test} (h : TestOk M e t) : TestOk M (.cast e) t := by
  refine ⟨h.1, fun S b S' hr => ?_⟩
  obtain ⟨v, h1, h2⟩ := h.2 _ _ _ hr
  exact ⟨v, (Steps.map (C := .cast) .castIn h1).snoc .cast, h2⟩

/-- A leaf of a condition. -/
theorem leaf_ok {flag : Bool} {e s : Expr} {st st' : St} {n g : Nat} {t : Test} (ho : orderOk e = true) (hk : HOk M flag e s st st') (hn : pend flag st = .nil)
    (hc : flag = true ∨ pend flag st' = .nil) (hp : plainHead s = true) (h : goTest (compRv n) g s (if flag then st'.cond else .nil) = .ok t) : TestOk M e t := by
  obtain ⟨a, b, c, d, f, cs, i, j⟩ := hk
  rw [goTest_leaf hp] at h
  split at h
  · obtain ⟨⟨ls, g'⟩, h1, h2⟩ := Res.bind_eq_ok.1 h
    cases h2
    rw [hn, Calls.append] at i
    have h1' : compCalls (compRv n) cs g = .ok (ls, g') := by
      rw [← i]
      cases flag with
      | true => exact h1
      | false => rcases hc with hc | hc
                 · cases hc
                 · rw [hc]; exact h1
    obtain ⟨_, t7, h7⟩ := j _ _ _ _ h1'
    refine ⟨fun ht S => ?_, fun S x S' hr => ?_⟩
    · obtain ⟨S1, h3⟩ := t7 ht S
      obtain ⟨q, hq⟩ := runLeaf_total ht (T := S1.T) S1.w b.wf b.simple
      exact ⟨_, by rw [runTest, h3, Option.bind_some, hq]; rfl⟩
    rw [runTest] at hr
    obtain ⟨S1, h3, h4⟩ := obind hr
    obtain ⟨⟨y, w⟩, h5, h6⟩ := omap h4
    cases h6
    obtain ⟨h8, _⟩ := h7 _ _ h3
    obtain ⟨v, h9, h10⟩ := runLeaf_steps (b.order.trans ho) b.wf h5
    exact ⟨v, h8.trans h9, h10⟩
  · cases h

/-- Operands of `&&` and `||` in a condition. -/
theorem goTest_ok {n g : Nat} : ∀ (e : Expr) (st : St) (s : Expr) (st' : St), fragTest e = true → st.cond = .nil → handle true e st = .ok (s, st') →
    st'.repl = st.repl ∧ ∀ t, goTest (compRv n) g s st'.cond = .ok t → TestOk M e t := by
  intro e
  have leaf : ∀ (st : St) (s : Expr) (st' : St), plainHead e = true → (frag e && orderOk e && (noCall e || noCond e)) = true → st.cond = .nil → handle true e st = .ok (s, st') →
      st'.repl = st.repl ∧ ∀ t, goTest (compRv n) g s st'.cond = .ok t → TestOk M e t := by
    intro st s st' hp hf hn h
    simp only [Bool.and_eq_true, Bool.or_eq_true] at hf
    have hs := handle_head hf.1.1 hp h
    rcases hf.2 with hc | hc
    · obtain ⟨a, b, c, d, e', f, g', i⟩ := handle_noCall e true st s st' hf.1.1 hc h
      refine ⟨b, fun t ht => ?_⟩
      have hk : HOk M false e s st { st' with repl := st.repl } := ⟨by simp [a], f.mono (by simp), by simp, i, g', .nil, (Calls.append_nil _).symm, .nil e'⟩
      rw [c hn, goTest_leaf hs] at ht
      split at ht
      · simp only [compCalls, Res.bind_ok] at ht
        cases ht
        refine ⟨fun ht S => ?_, fun S x S' hr => ?_⟩
        · obtain ⟨q, hq⟩ := runLeaf_total ht (T := S.T) S.w f.wf f.simple
          exact ⟨_, by rw [runTest, runLines, Option.bind_some, hq]; rfl⟩
        rw [runTest] at hr
        simp only [runLines, Option.bind_some] at hr
        obtain ⟨⟨y, w⟩, h5, h6⟩ := omap hr
        cases h6
        obtain ⟨v, h9, h10⟩ := runLeaf_steps (f.order.trans hf.1.2) f.wf h5
        rw [e'] at h9
        exact ⟨v, h9, h10⟩
      · cases ht
    · have hk := handle_ok (M := M) e true st s st' hf.1.1 (fun _ => hc) h
      exact ⟨hk.repl rfl, fun t ht => leaf_ok hf.1.2 hk (by simpa [pend] using hn) (.inl rfl) hs (by simpa using ht)⟩
  match e, leaf with
  | .paren e, _ =>
    intro st s st' hf hn h
    rw [handle] at h
    obtain ⟨⟨s1, st1⟩, h1, h2⟩ := Res.bind_eq_ok.1 h
    cases h2
    obtain ⟨a, b⟩ := goTest_ok e st _ _ (by simpa [fragTest] using hf) hn h1
    refine ⟨a, fun t ht => ?_⟩
    rw [goTest] at ht
    exact (b t ht).paren
  | .cast e, _ =>
    intro st s st' hf hn h
    simp [fragTest] at hf
    rw [handle] at h
    obtain ⟨⟨s1, st1⟩, h1, h2⟩ := Res.bind_eq_ok.1 h
    cases h2
    obtain ⟨a, b⟩ := goTest_ok e st _ _ hf.1.1 hn h1
    obtain ⟨_, _, c, _⟩ := handle_noCall e true _ _ _ hf.1.2 hf.2 h1
    refine ⟨a, fun t ht => ?_⟩
    rw [goTest] at ht
    rw [c hn] at b
    exact (b t ht).cast
  | .logic i x y, _ =>
    intro st s st' hf hn h
    simp [fragTest] at hf
    rw [handle] at h
    obtain ⟨⟨s1, st1⟩, h1, h2⟩ := Res.bind_eq_ok.1 h
    obtain ⟨⟨s2, st2⟩, h3, h4⟩ := Res.bind_eq_ok.1 h2
    cases h4
    obtain ⟨a, b⟩ := goTest_ok x _ _ _ hf.1 rfl h1
    obtain ⟨a2, b2⟩ := goTest_ok y _ _ _ hf.2 rfl h3
    refine ⟨a2.trans a, fun t ht => ?_⟩
    rw [goTest] at ht
    obtain ⟨t1, h5, h6⟩ := Res.bind_eq_ok.1 ht
    obtain ⟨t2, h7, h8⟩ := Res.bind_eq_ok.1 h6
    cases h8
    exact (b _ h5).logic (b2 _ h7)
  | .lit v, leaf | .var v, leaf | .tmp v, leaf | .un .., leaf | .deref _, leaf | .bin .., leaf | .comma .., leaf | .assign .., leaf | .opassign .., leaf | .post .., leaf | .call .., leaf
  | .logic4 .., leaf | .cond .., leaf =>
    intro st s st' hf hn h
    first
      | (simp [fragTest, frag] at hf; done)
      | exact leaf st s st' rfl hf hn h

/-- Whole conditions. -/
theorem top_ok {n g h h' : Nat} : ∀ (e : Expr) (st : St) (s : Expr) (st' : St) (ls : List Line) (t : Test), fragTop e = true → st.repl = .nil → handle false e st = .ok (s, st') →
    compCalls (compRv n) st'.repl h = .ok (ls, h') → goTest (compRv n) g s .nil = .ok t →
    (Total M → ∀ S : State M, ∃ S1 p, runLines M ls S = some S1 ∧ runTest M t S1 = some p) ∧
    ∀ (S S1 : State M) (b : Bool) (S' : State M), runLines M ls S = some S1 → runTest M t S1 = some (b, S') → ∃ v, Steps M e S.w (.lit v) S'.w ∧ b = (v != 0) := by
  intro e
  have leaf : plainHead e = true → ∀ (st : St) (s : Expr) (st' : St) (ls : List Line) (t : Test), (frag e && orderOk e) = true → st.repl = .nil → handle false e st = .ok (s, st') →
    compCalls (compRv n) st'.repl h = .ok (ls, h') → goTest (compRv n) g s .nil = .ok t →
    (Total M → ∀ S : State M, ∃ S1 p, runLines M ls S = some S1 ∧ runTest M t S1 = some p) ∧
    ∀ (S S1 : State M) (b : Bool) (S' : State M), runLines M ls S = some S1 → runTest M t S1 = some (b, S') → ∃ v, Steps M e S.w (.lit v) S'.w ∧ b = (v != 0) := by
    intro hp st s st' ls t hf hn hh hc ht
    simp only [Bool.and_eq_true] at hf
    have hs := handle_head hf.1 hp hh
    obtain ⟨_, sh, _, _, _, cs, i, j⟩ := handle_ok (M := M) e false _ _ _ hf.1 (by simp) hh
    simp only [pend, Bool.false_eq_true, if_false, hn, Calls.append] at i
    rw [i] at hc
    obtain ⟨_, t1, h1⟩ := j _ _ _ _ hc
    rw [goTest_leaf hs] at ht
    split at ht
    · simp only [compCalls, Res.bind_ok] at ht
      cases ht
      refine ⟨fun ht S => ?_, fun S S1 b S' hr hr' => ?_⟩
      · obtain ⟨S1, h3⟩ := t1 ht S
        obtain ⟨q, hq⟩ := runLeaf_total ht (T := S1.T) S1.w sh.wf sh.simple
        exact ⟨S1, _, h3, by rw [runTest, runLines, Option.bind_some, hq]; rfl⟩
      obtain ⟨h2, _⟩ := h1 _ _ hr
      rw [runTest] at hr'
      simp only [runLines, Option.bind_some] at hr'
      obtain ⟨⟨y, w⟩, h5, h6⟩ := omap hr'
      cases h6
      obtain ⟨v, h9, h10⟩ := runLeaf_steps (sh.order.trans hf.2) sh.wf h5
      exact ⟨v, h2.trans h9, h10⟩
    · cases ht
  match e, leaf with
  | .paren e, _ =>
    intro st s st' ls t hf hn hh hc ht
    rw [handle] at hh
    obtain ⟨⟨s1, st1⟩, h1, h2⟩ := Res.bind_eq_ok.1 hh
    cases h2
    rw [goTest] at ht
    have ih := top_ok e st _ _ _ _ (by simpa [fragTop] using hf) hn h1 hc ht
    refine ⟨ih.1, fun S S1 b S' hr hr' => ?_⟩
    obtain ⟨v, h3, h4⟩ := ih.2 _ _ _ _ hr hr'
    exact ⟨v, (Steps.map (C := .paren) .parenIn h3).snoc .paren, h4⟩
  | .cast e, _ =>
    intro st s st' ls t hf hn hh hc ht
    rw [handle] at hh
    obtain ⟨⟨s1, st1⟩, h1, h2⟩ := Res.bind_eq_ok.1 hh
    cases h2
    rw [goTest] at ht
    have ih := top_ok e st _ _ _ _ (by simpa [fragTop] using hf) hn h1 hc ht
    refine ⟨ih.1, fun S S1 b S' hr hr' => ?_⟩
    obtain ⟨v, h3, h4⟩ := ih.2 _ _ _ _ hr hr'
    exact ⟨v, (Steps.map (C := .cast) .castIn h3).snoc .cast, h4⟩
  | .logic i x y, _ =>
    intro st s st' ls t hf hn hh hc ht
    simp [fragTop] at hf
    rw [handle] at hh
    obtain ⟨⟨s1, st1⟩, h1, h2⟩ := Res.bind_eq_ok.1 hh
    obtain ⟨⟨s2, st2⟩, h3, h4⟩ := Res.bind_eq_ok.1 h2
    cases h4
    obtain ⟨a, b⟩ := goTest_ok (M := M) (n := n) (g := g) x _ _ _ hf.1 rfl h1
    obtain ⟨a2, b2⟩ := goTest_ok (M := M) (n := n) (g := g) y _ _ _ hf.2 rfl h3
    rw [goTest] at ht
    obtain ⟨t1, h5, h6⟩ := Res.bind_eq_ok.1 ht
    obtain ⟨t2, h7, h8⟩ := Res.bind_eq_ok.1 h6
    cases h8
    dsimp only at hc a a2
    rw [a2, a, hn] at hc
    simp [compCalls] at hc
    obtain ⟨rfl, _⟩ := hc
    have hl := (b _ h5).logic (i := i) (b2 _ h7)
    refine ⟨fun ht S => ?_, fun S S1 x S' hr hr' => ?_⟩
    · obtain ⟨p, hp⟩ := hl.1 ht S
      exact ⟨S, p, rfl, hp⟩
    simp [runLines] at hr
    subst hr
    exact hl.2 _ _ _ hr'
  | .lit v, leaf | .var v, leaf | .tmp v, leaf | .un .., leaf | .deref _, leaf | .bin .., leaf | .comma .., leaf | .assign .., leaf | .opassign .., leaf | .post .., leaf | .call .., leaf
  | .logic4 .., leaf | .cond .., leaf =>
    intro st s st' ls t hf
    first
      | (simp [fragTop, frag] at hf; done)
      | exact leaf rfl st s st' ls t hf

end Verif.Hoist
