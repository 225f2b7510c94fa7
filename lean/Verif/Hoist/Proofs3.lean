import Verif.Hoist.Proofs2
/-! The hoisted calls are part of a C evaluation. -/
namespace Verif.Hoist
open Verif Spec

variable {M : Machine}

/-! Without failing operations, expansions do not fail. -/

def lvOk : Expr → Bool
  | .var _ | .deref (.lit _) => true
  | _ => false

/-- Arithmetic can evaluate the expression. -/
def evOk : Expr → Bool
  | .lit _ | .var _ => true
  | .un _ e | .deref e | .paren e | .cast e => evOk e
  | .bin _ _ a b | .comma a b | .logic _ a b => evOk a && evOk b
  | .assign l r | .opassign _ l r => lvOk l && evOk r
  | .post _ l => lvOk l
  | .cond c a b => evOk c && evOk a && evOk b
  | .tmp _ | .call .. | .logic4 .. => false

theorem get_total (ht : Total M) {l : Expr} (h : lvOk l = true) (w : M.W) : ∃ v, M.get l w = some v := by
  match l, h with
  | .var x, _ => exact ⟨_, rfl⟩
  | .deref (.lit a), _ => exact ht.load a w

theorem set_total (ht : Total M) {l : Expr} (h : lvOk l = true) (v : Int) (w : M.W) : ∃ w', M.set l v w = some w' := by
  match l, h with
  | .var x, _ => exact ⟨_, rfl⟩
  | .deref (.lit a), _ => exact ht.store a v w

theorem ev_total (ht : Total M) : ∀ (e : Expr) (w : M.W), evOk e = true → ∃ p, ev M e w = some p := by
  intro e
  match e with
  | .lit v | .var v => intro w _; exact ⟨_, rfl⟩
  | .tmp _ | .call .. | .logic4 .. => intro w h; simp [evOk] at h
  | .un o e =>
    intro w h
    obtain ⟨p, hp⟩ := ev_total ht e w (by simpa [evOk] using h)
    obtain ⟨r, hr⟩ := ht.un o p.1
    exact ⟨(r, p.2), by simp [ev, hp, hr]⟩
  | .deref e =>
    intro w h
    obtain ⟨p, hp⟩ := ev_total ht e w (by simpa [evOk] using h)
    obtain ⟨r, hr⟩ := ht.load p.1 p.2
    exact ⟨(r, p.2), by simp [ev, hp, hr]⟩
  | .paren e | .cast e => intro w h; rw [ev]; exact ev_total ht e w (by simpa [evOk] using h)
  | .bin c o a b =>
    intro w h
    simp [evOk] at h
    obtain ⟨p, hp⟩ := ev_total ht a w h.1
    obtain ⟨q, hq⟩ := ev_total ht b p.2 h.2
    obtain ⟨r, hr⟩ := ht.bin o p.1 q.1
    exact ⟨(r, q.2), by simp [ev, hp, hq, hr]⟩
  | .comma a b =>
    intro w h
    simp [evOk] at h
    obtain ⟨p, hp⟩ := ev_total ht a w h.1
    obtain ⟨q, hq⟩ := ev_total ht b p.2 h.2
    exact ⟨q, by simp [ev, hp, hq]⟩
  | .assign l r =>
    intro w h
    simp [evOk] at h
    obtain ⟨p, hp⟩ := ev_total ht r w h.2
    obtain ⟨w', hw⟩ := set_total ht h.1 p.1 p.2
    exact ⟨(p.1, w'), by simp [ev, hp, hw]⟩
  | .opassign o l r =>
    intro w h
    simp [evOk] at h
    obtain ⟨p, hp⟩ := ev_total ht r w h.2
    obtain ⟨x, hx⟩ := get_total ht h.1 p.2
    obtain ⟨y, hy⟩ := ht.bin o x p.1
    obtain ⟨w', hw⟩ := set_total ht h.1 y p.2
    exact ⟨(y, w'), by simp [ev, hp, hx, hy, hw]⟩
  | .post o l =>
    intro w h
    simp [evOk] at h
    obtain ⟨x, hx⟩ := get_total ht h w
    obtain ⟨y, hy⟩ := ht.bin o x 1
    obtain ⟨w', hw⟩ := set_total ht h y w
    exact ⟨(x, w'), by simp [ev, hx, hy, hw]⟩
  | .logic i a b =>
    intro w h
    simp [evOk] at h
    obtain ⟨p, hp⟩ := ev_total ht a w h.1
    obtain ⟨q, hq⟩ := ev_total ht b p.2 h.2
    rw [ev, hp]
    simp only [Option.bind_some]
    split
    · exact ⟨_, by rw [hq]; rfl⟩
    · exact ⟨_, rfl⟩
  | .cond c a b =>
    intro w h
    simp [evOk] at h
    obtain ⟨p, hp⟩ := ev_total ht c w h.1.1
    rw [ev, hp]
    simp only [Option.bind_some]
    split
    · exact ev_total ht a _ h.1.2
    · exact ev_total ht b _ h.2

theorem expand_total (ht : Total M) (T : Nat → Int) : ∀ (e : Expr) (w : M.W), wf e = true → simple e = true →
    ∃ p, expand M T e w = some p ∧ evOk p.1 = true ∧ (isLv e = true → lvOk p.1 = true) := by
  intro e
  match e with
  | .lit v | .tmp v => intro w _ _; exact ⟨_, rfl, rfl, by simp [isLv]⟩
  | .var v => intro w _ _; exact ⟨_, rfl, rfl, fun _ => rfl⟩
  | .call .. | .logic .. => intro w _ h; simp [simple] at h
  | .un o e | .paren e | .cast e =>
    intro w hw hs
    obtain ⟨p, hp, h1, _⟩ := expand_total ht T e w (by simpa [wf] using hw) (by simpa [simple] using hs)
    exact ⟨_, by rw [expand, hp]; rfl, by simpa [evOk] using h1, by simp [isLv]⟩
  | .deref e =>
    intro w hw hs
    obtain ⟨p, hp, h1, _⟩ := expand_total ht T e w (by simpa [wf] using hw) (by simpa [simple] using hs)
    obtain ⟨q, hq⟩ := ev_total ht p.1 p.2 h1
    exact ⟨(.deref (.lit q.1), q.2), by simp [expand, hp, hq], rfl, fun _ => rfl⟩
  | .post o l =>
    intro w hw hs
    simp [wf] at hw
    obtain ⟨p, hp, h1, h2⟩ := expand_total ht T l w hw.2 (by simpa [simple] using hs)
    exact ⟨(.post o p.1, p.2), by simp [expand, hp], by simpa [evOk] using h2 hw.1, by simp [isLv]⟩
  | .bin _ _ a b | .comma a b | .logic4 _ a b _ _ =>
    intro w hw hs
    simp [wf] at hw
    simp [simple] at hs
    obtain ⟨p, hp, h1, _⟩ := expand_total ht T a w hw.1 hs.1
    obtain ⟨q, hq, h2, _⟩ := expand_total ht T b p.2 hw.2 hs.2
    refine ⟨_, by rw [expand, hp, Option.bind_some]; dsimp only; rw [hq]; rfl, by simp [evOk, h1, h2], by simp [isLv]⟩
  | .assign a b | .opassign _ a b =>
    intro w hw hs
    simp [wf] at hw
    simp [simple] at hs
    obtain ⟨p, hp, _, h1⟩ := expand_total ht T a w hw.1.2 hs.1
    obtain ⟨q, hq, h2, _⟩ := expand_total ht T b p.2 hw.2 hs.2
    refine ⟨_, by rw [expand, hp, Option.bind_some]; dsimp only; rw [hq]; rfl, by simp [evOk, h1 hw.1.1, h2], by simp [isLv]⟩
  | .cond c a b =>
    intro w hw hs
    simp [wf] at hw
    simp [simple] at hs
    obtain ⟨o, ho, h0, _⟩ := expand_total ht T c w hw.1.1 hs.1.1
    obtain ⟨p, hp, h1, _⟩ := expand_total ht T a o.2 hw.1.2 hs.1.2
    obtain ⟨q, hq, h2, _⟩ := expand_total ht T b p.2 hw.2 hs.2
    refine ⟨(.cond o.1 p.1 q.1, q.2), by simp [expand, ho, hp, hq], by simp [evOk, h0, h1, h2], by simp [isLv]⟩

theorem arith_total (ht : Total M) {T : Nat → Int} {e : Expr} (w : M.W) (hw : wf e = true) (hs : simple e = true) : ∃ p, arith M T e w = some p := by
  obtain ⟨p, hp, h1, _⟩ := expand_total ht T e w hw hs
  obtain ⟨q, hq⟩ := ev_total ht p.1 p.2 h1
  exact ⟨q, by simp [arith, hp, hq]⟩

/-- Steps in arguments. -/
inductive StepsA (M : Machine) : Args → M.W → Args → M.W → Prop
  | refl {e w} : StepsA M e w e w
  | step {e w e' w' e'' w''} : StepArgs M e w e' w' → StepsA M e' w' e'' w'' → StepsA M e w e'' w''

theorem StepsA.trans {a b c : Args} {u v w : M.W} (h : StepsA M a u b v) (h' : StepsA M b v c w) : StepsA M a u c w := by
  induction h with
  | refl => exact h'
  | step s _ ih => exact .step s (ih h')

theorem StepsA.head {e e' : Expr} {r : Args} {u v : M.W} (h : Steps M e u e' v) : StepsA M (.cons e r) u (.cons e' r) v := by
  induction h with
  | refl => exact .refl
  | step s _ ih => exact .step (.head s) ih

theorem StepsA.tail {e : Expr} {r r' : Args} {u v : M.W} (h : StepsA M r u r' v) : StepsA M (.cons e r) u (.cons e r') v := by
  induction h with
  | refl => exact .refl
  | step s _ ih => exact .step (.tail s) ih

theorem StepsA.call {f : Nat} {r r' : Args} {u v : M.W} (h : StepsA M r u r' v) : Steps M (.call f r) u (.call f r') v := by
  induction h with
  | refl => exact .refl
  | step s _ ih => exact .step (.callIn s) ih

def closeArgs (T : Nat → Int) : Args → Args
  | .nil => .nil
  | .cons e r => .cons (close T e) (closeArgs T r)

/-- The arguments can be expanded. -/
def argsOk : Args → Bool
  | .nil => true
  | .cons e r => wf e && orderOk e && argsOk r

def boundArgs (g : Nat) : Args → Bool
  | .nil => true
  | .cons e r => bound g e && boundArgs g r

theorem boundArgs_mono {g g' : Nat} (h : g ≤ g') : ∀ (as : Args), boundArgs g as = true → boundArgs g' as = true := by
  intro as
  match as with
  | .nil => simp [boundArgs]
  | .cons e r => simp only [boundArgs, Bool.and_eq_true]; exact fun ⟨h1, h2⟩ => ⟨bound_mono h e h1, boundArgs_mono h r h2⟩

theorem closeArgs_congr {T T' : Nat → Int} {g : Nat} (h : ∀ k ≤ g, T' k = T k) : ∀ (as : Args), boundArgs g as = true → closeArgs T' as = closeArgs T as := by
  intro as
  match as with
  | .nil => intro _; rfl
  | .cons e r => intro hb; simp only [boundArgs, Bool.and_eq_true] at hb; simp only [closeArgs, close_congr h e hb.1, closeArgs_congr h r hb.2]

theorem ariths_steps {T : Nat → Int} : ∀ (as : Args) (w : M.W) (vs : List Int) (w' : M.W), argsOk as = true → ariths M T as.toList w = some (vs, w') →
    ∃ as', StepsA M (closeArgs T as) w as' w' ∧ values as' = some vs := by
  intro as
  match as with
  | .nil => intro w vs w' _ h; simp [Args.toList, ariths] at h; obtain ⟨rfl, rfl⟩ := h; exact ⟨.nil, .refl, rfl⟩
  | .cons e r =>
    intro w vs w' ha h
    simp [argsOk] at ha
    rw [Args.toList, ariths] at h
    obtain ⟨⟨v, w1⟩, h1, h2⟩ := obind h
    obtain ⟨⟨vs', w2⟩, h3, h4⟩ := omap h2
    cases h4
    obtain ⟨as', hs, hv⟩ := ariths_steps r _ _ _ ha.2 h3
    refine ⟨.cons (.lit v) as', (StepsA.head (arith_steps ha.1.2 ha.1.1 h1)).trans (StepsA.tail hs), ?_⟩
    simp [values, hv]

theorem ariths_total (ht : Total M) {T : Nat → Int} : ∀ (as : Args) (w : M.W), argsOk as = true → simpleArgs as = true → ∃ p, ariths M T as.toList w = some p := by
  intro as
  match as with
  | .nil => intro w _ _; exact ⟨_, rfl⟩
  | .cons e r =>
    intro w ha hs
    simp [argsOk] at ha
    simp [simpleArgs] at hs
    obtain ⟨p, hp⟩ := arith_total ht (T := T) w ha.1.1 hs.1
    obtain ⟨q, hq⟩ := ariths_total ht (T := T) r p.2 ha.2 hs.2
    exact ⟨(p.1 :: q.1, q.2), by simp [Args.toList, ariths, hp, hq]⟩

theorem runLines_cat {a b : List Line} (ha : ∀ S : State M, ∃ S', runLines M a S = some S') (hb : ∀ S : State M, ∃ S', runLines M b S = some S') :
    ∀ S : State M, ∃ S', runLines M (a ++ b) S = some S' := by
  induction a with
  | nil => exact hb
  | cons l r ih =>
    intro S
    obtain ⟨S1, h1⟩ := ha S
    rw [runLines] at h1
    obtain ⟨S2, h2, h3⟩ := obind h1
    rw [List.cons_append, runLines, h2, Option.bind_some]
    -- the rest of `a` runs from `S2`; from there on `b`
    have gen : ∀ (r : List Line) (S2 S1 : State M), runLines M r S2 = some S1 → ∃ S', runLines M (r ++ b) S2 = some S' := by
      intro r
      induction r with
      | nil => intro S2 S1 _; exact hb S2
      | cons l r ih' =>
        intro S2 S1 h
        rw [runLines] at h
        obtain ⟨S3, h4, h5⟩ := obind h
        obtain ⟨S', h6⟩ := ih' _ _ h5
        exact ⟨S', by rw [List.cons_append, runLines, h4, Option.bind_some]; exact h6⟩
    exact gen r S2 S1 h3

/-- The calls of one of the lists. -/
def pend (flag : Bool) (st : St) : Calls := if flag then st.cond else st.repl

/-- Making the calls `cs` takes `e` to `s`, and keeps the temporaries up to `g`. -/
def Hoists (M : Machine) (e s : Expr) (g : Nat) (cs : Calls) : Prop :=
  ∀ n h ls h', compCalls (compRv n) cs h = .ok (ls, h') → h' = h ∧ (Total M → ∀ S : State M, ∃ S', runLines M ls S = some S') ∧ ∀ S S', runLines M ls S = some S' → Steps M e S.w (close S'.T s) S'.w ∧ ∀ k ≤ g, S'.T k = S.T k

def HoistsA (M : Machine) (e s : Args) (g : Nat) (cs : Calls) : Prop :=
  ∀ n h ls h', compCalls (compRv n) cs h = .ok (ls, h') → h' = h ∧ (Total M → ∀ S : State M, ∃ S', runLines M ls S = some S') ∧ ∀ S S', runLines M ls S = some S' → StepsA M e S.w (closeArgs S'.T s) S'.w ∧ ∀ k ≤ g, S'.T k = S.T k

theorem Hoists.nil {e s : Expr} {g : Nat} (h : ∀ T, close T s = e) : Hoists M e s g .nil := by
  intro n k ls k' hc
  simp [compCalls] at hc; obtain ⟨rfl, rfl⟩ := hc
  refine ⟨rfl, fun _ S => ⟨S, rfl⟩, fun S S' hr => ?_⟩
  simp [runLines] at hr; subst hr
  rw [h]; exact ⟨.refl, fun _ _ => rfl⟩

theorem Hoists.map {C C' : Expr → Expr} (hC : ∀ {e w e' w'}, Step M e w e' w' → Step M (C e) w (C e') w') (hc : ∀ T s, close T (C' s) = C (close T s))
    {e s : Expr} {g : Nat} {cs : Calls} (h : Hoists M e s g cs) : Hoists M (C e) (C' s) g cs := by
  intro n k ls k' h1
  obtain ⟨rfl, h0, h2⟩ := h n k ls k' h1
  refine ⟨rfl, h0, fun S S' hr => ?_⟩
  obtain ⟨h3, h4⟩ := h2 S S' hr
  rw [hc]
  exact ⟨h3.map hC, h4⟩

/-- Two operands, in whatever order. -/
theorem Hoists.map2 {C : Expr → Expr → Expr} {C' : Expr → Expr} (hL : ∀ {e w e' w' b}, Step M e w e' w' → Step M (C e b) w (C e' b) w')
    (hR : ∀ {e w e' w' a}, Step M e w e' w' → Step M (C a e) w (C a e') w') {F : Expr → Expr → Expr} (hc : ∀ T s s', close T (F s s') = C (close T s) (close T s'))
    {a sa b sb : Expr} {g g1 : Nat} {ca cb : Calls} (ha : Hoists M a sa g ca) (hg : g ≤ g1) (hb : bound g1 sa = true) (h : Hoists M b sb g1 cb) : Hoists M (C a b) (F sa sb) g (ca.append cb) := by
  intro n k ls k' h1
  obtain ⟨la, lb, k1, h2, h3, rfl⟩ := compCalls_append _ _ _ _ _ h1
  obtain ⟨rfl, t4, h4⟩ := ha n _ _ _ h2
  obtain ⟨rfl, t5, h5⟩ := h n _ _ _ h3
  refine ⟨rfl, fun ht => runLines_cat (t4 ht) (t5 ht), fun S S' hr => ?_⟩
  obtain ⟨S1, h6, h7⟩ := runLines_append _ _ _ _ hr
  obtain ⟨h8, h9⟩ := h4 _ _ h6
  obtain ⟨h10, h11⟩ := h5 _ _ h7
  refine ⟨?_, fun k hk => (h11 k (by omega)).trans (h9 k hk)⟩
  rw [hc, close_congr h11 sa hb]
  exact (Steps.map (C := fun a => C a b) hL h8).trans (Steps.map (C := C (close S1.T sa)) hR h10)

structure HOk (M : Machine) (flag : Bool) (e s : Expr) (st st' : St) : Prop where
  g : st.g ≤ st'.g
  shape : Shape e s st'.g
  repl : flag = true → st'.repl = st.repl
  side : st.side = true → st'.side = true
  plain : noPlain e = true → noEffect e = false → st'.side = true
  calls : ∃ cs, pend flag st' = (pend flag st).append cs ∧ Hoists M e s st.g cs

structure HOkArgs (M : Machine) (flag : Bool) (e s : Args) (st st' : St) : Prop where
  g : st.g ≤ st'.g
  ok : argsOk s = true
  simple : simpleArgs s = true
  bound : boundArgs st'.g s = true
  repl : flag = true → st'.repl = st.repl
  side : st.side = true → st'.side = true
  calls : ∃ cs, pend flag st' = (pend flag st).append cs ∧ HoistsA M e s st.g cs

theorem HOk.ofNoCall {flag : Bool} {e s : Expr} {st st' : St} (hf : frag e = true) (hn : noCall e = true) (hc : flag = true → noCond e = true) (h : handle flag e st = .ok (s, st')) :
    HOk M flag e s st st' := by
  obtain ⟨a, b, c, d, e', f, g, i⟩ := handle_noCall e flag st s st' hf hn h
  refine ⟨by omega, f.mono (by omega), fun _ => b, i, g, .nil, ?_, .nil e'⟩
  rw [Calls.append_nil]
  cases flag with
  | true => exact d (hc rfl)
  | false => exact b

theorem pend_trans {flag : Bool} {st st1 st2 : St} {c1 c2 : Calls} (h1 : pend flag st1 = (pend flag st).append c1) (h2 : pend flag st2 = (pend flag st1).append c2) :
    pend flag st2 = (pend flag st).append (c1.append c2) := by rw [h2, h1, Calls.append_assoc]

theorem simpleArgs_values {n : Nat} {as : Args} {g : Nat} {f k : Nat} {l : List Line × Nat} (hs : simpleArgs as = true) (h : compCall (compRv n) (some (.tmp k)) f as g = .ok l) :
    l = ([⟨.tmp k, f, as.toList⟩], g) := by
  rw [compCall] at h
  simp only [compDest, Res.bind_ok] at h
  obtain ⟨p, h1, h2⟩ := Res.bind_eq_ok.1 h
  cases compArgs_again as g p hs h1
  cases h2
  rfl

mutual
theorem handle_ok : ∀ (e : Expr) (flag : Bool) (st : St) (s : Expr) (st' : St), frag e = true → (flag = true → noCond e = true) → handle flag e st = .ok (s, st') → HOk M flag e s st st' := by
  intro e
  match e with
  | .lit v | .var v => intro flag st s st' hf hc h; exact .ofNoCall hf rfl hc h
  | .tmp k => intro flag st s st' h; simp [frag] at h
  | .un o e =>
    intro flag st s st' hf hc h
    rw [handle] at h
    obtain ⟨⟨s1, st1⟩, h1, h2⟩ := Res.bind_eq_ok.1 h
    cases h2
    obtain ⟨a, b, c, d, f, cs, i, j⟩ := handle_ok e flag st _ _ (by simpa [frag] using hf) (by simpa [noCond] using hc) h1
    exact ⟨a, b.un, c, d, by simpa [noPlain, noEffect] using f, cs, i, j.map (C := .un o) .unIn (fun _ _ => rfl)⟩
  | .paren e =>
    intro flag st s st' hf hc h
    rw [handle] at h
    obtain ⟨⟨s1, st1⟩, h1, h2⟩ := Res.bind_eq_ok.1 h
    cases h2
    obtain ⟨a, b, c, d, f, cs, i, j⟩ := handle_ok e flag st _ _ (by simpa [frag] using hf) (by simpa [noCond] using hc) h1
    exact ⟨a, b.paren, c, d, by simpa [noPlain, noEffect] using f, cs, i, j.map (C := .paren) .parenIn (fun _ _ => rfl)⟩
  | .cast e =>
    intro flag st s st' hf hc h
    rw [handle] at h
    obtain ⟨⟨s1, st1⟩, h1, h2⟩ := Res.bind_eq_ok.1 h
    cases h2
    obtain ⟨a, b, c, d, f, cs, i, j⟩ := handle_ok e flag st _ _ (by simpa [frag] using hf) (by simpa [noCond] using hc) h1
    exact ⟨a, b.cast, c, d, by simpa [noPlain, noEffect] using f, cs, i, j.map (C := .cast) .castIn (fun _ _ => rfl)⟩
  | .deref e =>
    intro flag st s st' hf hc h
    rw [handle] at h
    obtain ⟨⟨s1, st1⟩, h1, h2⟩ := Res.bind_eq_ok.1 h
    cases h2
    obtain ⟨a, b, c, d, f, cs, i, j⟩ := handle_ok e flag st _ _ (by simpa [frag] using hf) (by simpa [noCond] using hc) h1
    exact ⟨a, b.deref, c, d, by simpa [noPlain, noEffect] using f, cs, i, j.map (C := .deref) .derefIn (fun _ _ => rfl)⟩
  | .post o l =>
    intro flag st s st' hf hc h
    simp [frag] at hf
    match l, hf with
    | .var x, hf => exact .ofNoCall (by simp [frag, isLv]) rfl (fun _ => rfl) h
    | .deref e, hf =>
      rw [handle, handle] at h
      obtain ⟨⟨s1, st1⟩, h1, h2⟩ := Res.bind_eq_ok.1 h
      obtain ⟨⟨s2, st2⟩, h3, h4⟩ := Res.bind_eq_ok.1 h1
      cases h4
      cases h2
      obtain ⟨a, b, c, d, f, cs, i, j⟩ := handle_ok e flag _ _ _ (by simpa [frag] using hf.2) (by simpa [noCond] using hc) h3
      exact ⟨a, b.deref.post rfl, c, fun _ => d rfl, fun _ _ => d rfl, cs, i, j.map (C := fun e => .post o (.deref e)) (C' := fun e => .post o (.deref e)) .postL (fun _ _ => rfl)⟩
  | .bin cm o x y =>
    intro flag st s st' hf hc h
    simp [frag] at hf
    rw [handle] at h
    obtain ⟨⟨s1, st1⟩, h1, h2⟩ := Res.bind_eq_ok.1 h
    obtain ⟨⟨s2, st2⟩, h3, h4⟩ := Res.bind_eq_ok.1 h2
    cases h4
    simp only [noCond, Bool.and_eq_true] at hc
    obtain ⟨a, b, c, d, f, cs, i, j⟩ := handle_ok x flag _ _ _ hf.1 (fun h => (hc h).1) h1
    obtain ⟨a2, b2, c2, d2, f2, cs2, i2, j2⟩ := handle_ok y flag _ _ _ hf.2 (fun h => (hc h).2) h3
    refine ⟨by omega, (b.mono a2).bin b2, fun h => (c2 h).trans (c h), fun h => d2 (d h), ?_, _, pend_trans i i2,
      Hoists.map2 (C := .bin cm o) (F := .bin cm o) (C' := id) .binL .binR (fun _ _ _ => rfl) j a b.bound j2⟩
    simp only [noPlain, noEffect, Bool.and_eq_true, Bool.and_eq_false_iff]
    rintro ⟨p1, p2⟩ (q | q)
    · exact d2 (f p1 q)
    · exact f2 p2 q
  | .comma x y =>
    intro flag st s st' hf hc h
    simp [frag] at hf
    rw [handle] at h
    obtain ⟨⟨s1, st1⟩, h1, h2⟩ := Res.bind_eq_ok.1 h
    obtain ⟨⟨s2, st2⟩, h3, h4⟩ := Res.bind_eq_ok.1 h2
    cases h4
    simp only [noCond, Bool.and_eq_true] at hc
    obtain ⟨a, b, c, d, f, cs, i, j⟩ := handle_ok x flag _ _ _ hf.1.1 (fun h => (hc h).1) h1
    obtain ⟨a2, b2, c2, d2, e2, f2, g2, i2⟩ := handle_noCall y flag _ _ _ hf.1.2 hf.2 h3
    refine ⟨by omega, (b.mono (by omega)).comma (f2.mono (by omega)), fun h => b2.trans (c h), fun h => i2 (d h), ?_, cs, ?_, ?_⟩
    · simp only [noPlain, noEffect, Bool.and_eq_true, Bool.and_eq_false_iff]
      rintro ⟨p1, p2⟩ (q | q)
      · exact i2 (f p1 q)
      · exact g2 p2 q
    · rw [← i]
      cases flag with
      | true => exact d2 (hc rfl).2
      | false => exact b2
    · exact j.map (C := fun e => .comma e y) (C' := fun e => .comma e s2) .commaL (fun _ _ => by simp [close, e2])
  | .assign l y =>
    intro flag st s st' hf hc h
    simp [frag] at hf
    rw [handle_assign hf.2] at h
    match l, hf with
    | .var x, hf =>
      rw [handle] at h
      simp only [Res.bind_ok] at h
      obtain ⟨⟨s2, st2⟩, h3, h4⟩ := Res.bind_eq_ok.1 h
      cases h4
      obtain ⟨a, b, c, d, f, cs, i, j⟩ := handle_ok y flag _ _ _ hf.1.2 (by simpa [noCond] using hc) h3
      have hx : Shape (.var x) (.var x) st2.g := ⟨rfl, rfl, rfl, rfl, rfl, rfl, id⟩
      exact ⟨a, hx.assign b rfl, c, d, by simp [noPlain], cs, i, j.map (C := .assign (.var x)) (C' := .assign (.var x)) .assignR (fun _ _ => rfl)⟩
    | .deref x, hf =>
      rw [handle] at h
      obtain ⟨⟨s1, st1⟩, h1, h2⟩ := Res.bind_eq_ok.1 h
      obtain ⟨⟨s0, st0⟩, h01, h02⟩ := Res.bind_eq_ok.1 h1
      cases h02
      obtain ⟨⟨s2, st2⟩, h3, h4⟩ := Res.bind_eq_ok.1 h2
      cases h4
      simp only [noCond, Bool.and_eq_true] at hc
      obtain ⟨a, b, c, d, f, cs, i, j⟩ := handle_ok x flag _ _ _ (by simpa [frag] using hf.1.1.2) (fun h => (hc h).1) h01
      obtain ⟨a2, b2, c2, d2, f2, cs2, i2, j2⟩ := handle_ok y flag _ _ _ hf.1.2 (fun h => (hc h).2) h3
      exact ⟨Nat.le_trans a a2, (b.mono a2).deref.assign b2 rfl, fun h => (c2 h).trans (c h), fun h => d2 (d h), by simp [noPlain], _, pend_trans i i2,
        Hoists.map2 (C := fun a b => .assign (.deref a) b) (F := fun a b => .assign (.deref a) b) (C' := id) .assignL .assignR (fun _ _ _ => rfl) j a b.bound j2⟩
  | .opassign o l y =>
    intro flag st s st' hf hc h
    simp [frag] at hf
    rw [handle] at h
    match l, hf with
    | .var x, hf =>
      rw [handle] at h
      simp only [Res.bind_ok] at h
      obtain ⟨⟨s2, st2⟩, h3, h4⟩ := Res.bind_eq_ok.1 h
      cases h4
      obtain ⟨a, b, c, d, f, cs, i, j⟩ := handle_ok y flag _ _ _ hf.2 (by simpa [noCond] using hc) h3
      have hx : Shape (.var x) (.var x) st2.g := ⟨rfl, rfl, rfl, rfl, rfl, rfl, id⟩
      exact ⟨a, hx.opassign b rfl, c, fun _ => d rfl, fun _ _ => d rfl, cs, i, j.map (C := .opassign o (.var x)) (C' := .opassign o (.var x)) .opassignR (fun _ _ => rfl)⟩
    | .deref x, hf =>
      rw [handle] at h
      obtain ⟨⟨s1, st1⟩, h1, h2⟩ := Res.bind_eq_ok.1 h
      obtain ⟨⟨s0, st0⟩, h01, h02⟩ := Res.bind_eq_ok.1 h1
      cases h02
      obtain ⟨⟨s2, st2⟩, h3, h4⟩ := Res.bind_eq_ok.1 h2
      cases h4
      simp only [noCond, Bool.and_eq_true] at hc
      obtain ⟨a, b, c, d, f, cs, i, j⟩ := handle_ok x flag _ _ _ (by simpa [frag] using hf.1.2) (fun h => (hc h).1) h01
      obtain ⟨a2, b2, c2, d2, f2, cs2, i2, j2⟩ := handle_ok y flag _ _ _ hf.2 (fun h => (hc h).2) h3
      exact ⟨Nat.le_trans a a2, (b.mono a2).deref.opassign b2 rfl, fun h => (c2 h).trans (c h), fun _ => d2 (d rfl), fun _ _ => d2 (d rfl), _, pend_trans i i2,
        Hoists.map2 (C := fun a b => .opassign o (.deref a) b) (F := fun a b => .opassign o (.deref a) b) (C' := id) .opassignL .opassignR (fun _ _ _ => rfl) j a b.bound j2⟩
  | .call f as =>
    intro flag st s st' hf hc h
    rw [handle] at h
    obtain ⟨⟨as', st1⟩, h1, h2⟩ := Res.bind_eq_ok.1 h
    cases h2
    obtain ⟨a, b, c, d, e, r, cs, i, j⟩ := handleArgs_ok as flag st _ _ (by simpa [frag] using hf) (by simpa [noCond] using hc) h1
    have hj : Hoists M (.call f as) (.tmp (st.g + 1)) st.g (cs.append (.cons (.tmp (st.g + 1)) f as' .nil)) := by
      intro n k ls k' hh
      obtain ⟨la, lb, k1, h2, h3, rfl⟩ := compCalls_append _ _ _ _ _ hh
      obtain ⟨rfl, t4, h4⟩ := j n _ _ _ h2
      rw [compCalls] at h3
      obtain ⟨p, h5, h6⟩ := Res.bind_eq_ok.1 h3
      cases simpleArgs_values c h5
      simp only [compCalls, Res.bind_ok] at h6
      cases h6
      refine ⟨rfl, fun ht => runLines_cat (t4 ht) fun S => ?_, fun S S' hr => ?_⟩
      · obtain ⟨p, hp⟩ := ariths_total ht (T := S.T) as' S.w b c
        obtain ⟨q, hq⟩ := ht.call f p.1 p.2
        exact ⟨⟨setTmp S.T (st.g + 1) q.1, q.2⟩, by simp [runLines, runLine, destAddr, hp, hq, putResult]⟩
      obtain ⟨S1, h7, h8⟩ := runLines_append _ _ _ _ hr
      obtain ⟨h9, h10⟩ := h4 _ _ h7
      simp only [List.append_nil, runLines] at h8
      obtain ⟨S2, h11, h12⟩ := obind h8
      cases h12
      rw [runLine] at h11
      simp only [destAddr, Option.bind_some] at h11
      obtain ⟨⟨vs, w2⟩, h13, h14⟩ := obind h11
      obtain ⟨⟨v, w3⟩, h15, h16⟩ := obind h14
      simp only [putResult, Option.some.injEq] at h16
      subst h16
      obtain ⟨as'', h17, h18⟩ := ariths_steps as' _ _ _ b h13
      refine ⟨?_, fun k hk => ?_⟩
      · simp only [close, setTmp, if_true]
        exact ((h9.trans h17).call).snoc (.call h18 h15)
      · have : k ≠ st.g + 1 := by omega
        simp [setTmp, this, h10 k hk]
    cases flag with
    | true => exact ⟨by simp [push], ⟨rfl, rfl, by simp [bound, push], rfl, rfl, rfl, by simp [isLv]⟩, fun _ => e rfl, r, by simp [noEffect], _, by
        simp only [pend, if_true] at i
        simp [pend, push, i, Calls.append_assoc], hj⟩
    | false => exact ⟨by simp [push], ⟨rfl, rfl, by simp [bound, push], rfl, rfl, rfl, by simp [isLv]⟩, by simp, r, by simp [noEffect], _, by
        simp only [pend, Bool.false_eq_true, if_false] at i
        simp [pend, push, i, Calls.append_assoc], hj⟩
  | .logic j x y =>
    intro flag st s st' hf hc h
    exact .ofNoCall hf (by simp [frag] at hf; simp [noCall, hf]) hc h
  | .logic4 .. => intro flag st s st' h; simp [frag] at h
  | .cond x y z =>
    intro flag st s st' hf hc h
    simp [frag] at hf
    rw [handle] at h
    obtain ⟨⟨s1, st1⟩, h1, h2⟩ := Res.bind_eq_ok.1 h
    obtain ⟨⟨s2, st2⟩, h3, h4⟩ := Res.bind_eq_ok.1 h2
    dsimp only at h4
    split at h4
    · obtain ⟨⟨s3, st3⟩, h5, h6⟩ := Res.bind_eq_ok.1 h4
      cases h6
      have hfl : flag = false := by cases flag with
        | false => rfl
        | true => simp [noCond] at hc
      subst hfl
      obtain ⟨a, b, c, d, e', f, g, i⟩ := handle_noCall y true _ _ _ hf.1.1.1.2 hf.1.2 h1
      obtain ⟨a2, b2, c2, d2, e2, f2, g2, i2⟩ := handle_noCall z true _ _ _ hf.1.1.2 hf.2 h3
      obtain ⟨a3, b3, c3, d3, f3, cs, i3, j3⟩ := handle_ok x false _ _ _ hf.1.1.1.1 (by simp) h5
      dsimp only at a b a2 b2
      have a3' := a3
      rw [a2, a] at a3'
      refine ⟨a3', b3.cond (f.mono (by omega)) (f2.mono (by omega)), by simp, fun h => d3 (i2 (i h)), ?_, cs, ?_, ?_⟩
      · simp only [noPlain, noEffect, Bool.and_eq_true, Bool.and_eq_false_iff]
        rintro ⟨⟨p1, p2⟩, p3⟩ ((q | q) | q)
        · exact f3 p1 q
        · exact d3 (i2 (g p2 q))
        · exact d3 (g2 p3 q)
      · simp only [pend, if_false, Bool.false_eq_true] at i3 ⊢
        rw [i3, b2, b]
      · rw [a2, a] at j3
        exact j3.map (C := fun e => .cond e y z) (C' := fun e => .cond e s1 s2) .condL (fun _ _ => by simp [close, e', e2])
    · cases h4
theorem handleArgs_ok : ∀ (as : Args) (flag : Bool) (st : St) (s : Args) (st' : St), fragArgs as = true → (flag = true → noCondArgs as = true) → handleArgs flag as st = .ok (s, st') →
    HOkArgs M flag as s st st' := by
  intro as
  match as with
  | .nil =>
    intro flag st s st' _ _ h
    simp [handleArgs] at h; obtain ⟨rfl, rfl⟩ := h
    refine ⟨Nat.le_refl _, rfl, rfl, rfl, fun _ => rfl, id, .nil, (Calls.append_nil _).symm, ?_⟩
    intro n k ls k' hc
    simp [compCalls] at hc; obtain ⟨rfl, rfl⟩ := hc
    refine ⟨rfl, fun _ S => ⟨S, rfl⟩, fun S S' hr => ?_⟩
    simp [runLines] at hr; subst hr
    exact ⟨.refl, fun _ _ => rfl⟩
  | .cons e r =>
    intro flag st s st' hf hc h
    simp [fragArgs] at hf
    rw [handleArgs] at h
    obtain ⟨⟨s1, st1⟩, h1, h2⟩ := Res.bind_eq_ok.1 h
    obtain ⟨⟨s2, st2⟩, h3, h4⟩ := Res.bind_eq_ok.1 h2
    cases h4
    simp only [noCondArgs, Bool.and_eq_true] at hc
    obtain ⟨a, b, c, d, f, cs, i, j⟩ := handle_ok e flag _ _ _ hf.1.1 (fun h => (hc h).1) h1
    obtain ⟨a2, b2, c2, d2, e2, f2, cs2, i2, j2⟩ := handleArgs_ok r flag _ _ _ hf.2 (fun h => (hc h).2) h3
    refine ⟨Nat.le_trans a a2, by simp [argsOk, b.wf, b.order, hf.1.2, b2], by simp [simpleArgs, b.simple, c2], by simp [boundArgs, bound_mono a2 _ b.bound, d2],
      fun h => (e2 h).trans (c h), fun h => f2 (d h), _, pend_trans i i2, ?_⟩
    intro n k ls k' hh
    obtain ⟨la, lb, k1, h2, h3, rfl⟩ := compCalls_append _ _ _ _ _ hh
    obtain ⟨rfl, t4, h4⟩ := j n _ _ _ h2
    obtain ⟨rfl, t5, h5⟩ := j2 n _ _ _ h3
    refine ⟨rfl, fun ht => runLines_cat (t4 ht) (t5 ht), fun S S' hr => ?_⟩
    obtain ⟨S1, h6, h7⟩ := runLines_append _ _ _ _ hr
    obtain ⟨h8, h9⟩ := h4 _ _ h6
    obtain ⟨h10, h11⟩ := h5 _ _ h7
    refine ⟨?_, fun k hk => (h11 k (Nat.le_trans hk a)).trans (h9 k hk)⟩
    rw [closeArgs, close_congr h11 s1 b.bound]
    exact (StepsA.head h8).trans (StepsA.tail h10)
end

end Verif.Hoist
