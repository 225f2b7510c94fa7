import Verif.Hoist.Proofs
/-! `handle_side_effects`: what it leaves of an expression. -/
namespace Verif.Hoist
open Verif Spec

/-- No call, no `&&`/`||` with two children. -/
def simple : Expr → Bool
  | .lit _ | .var _ | .tmp _ => true
  | .un _ e | .deref e | .paren e | .cast e | .post _ e => simple e
  | .bin _ _ a b | .comma a b | .assign a b | .opassign _ a b | .logic4 _ a b _ _ => simple a && simple b
  | .cond c a b => simple c && simple a && simple b
  | .logic .. | .call .. => false

/-- The temporaries are at most `g`. -/
def bound (g : Nat) : Expr → Bool
  | .lit _ | .var _ | .call .. => true
  | .tmp k => k ≤ g
  | .un _ e | .deref e | .paren e | .cast e | .post _ e => bound g e
  | .bin _ _ a b | .comma a b | .assign a b | .opassign _ a b | .logic4 _ a b _ _ | .logic _ a b => bound g a && bound g b
  | .cond c a b => bound g c && bound g a && bound g b

theorem bound_mono {g g' : Nat} (h : g ≤ g') : ∀ (s : Expr), bound g s = true → bound g' s = true := by
  intro s
  match s with
  | .lit _ | .var _ | .call .. => simp [bound]
  | .tmp k => simp [bound]; omega
  | .un _ e | .deref e | .paren e | .cast e | .post _ e => simpa [bound] using bound_mono h e
  | .bin _ _ a b | .comma a b | .assign a b | .opassign _ a b | .logic4 _ a b _ _ | .logic _ a b =>
    simp only [bound, Bool.and_eq_true]
    exact fun ⟨h1, h2⟩ => ⟨bound_mono h a h1, bound_mono h b h2⟩
  | .cond c a b =>
    simp only [bound, Bool.and_eq_true]
    exact fun ⟨⟨h0, h1⟩, h2⟩ => ⟨⟨bound_mono h c h0, bound_mono h a h1⟩, bound_mono h b h2⟩

/-- Only the temporaries of the expression matter. -/
theorem close_congr {T T' : Nat → Int} {g : Nat} (h : ∀ k ≤ g, T' k = T k) : ∀ (s : Expr), bound g s = true → close T' s = close T s := by
  intro s
  match s with
  | .lit _ | .var _ | .call .. => intro _; rfl
  | .tmp k => intro hb; simp [bound] at hb; simp [close, h k hb]
  | .un _ e | .deref e | .paren e | .cast e | .post _ e => intro hb; simp only [bound] at hb; simp only [close, close_congr h e hb]
  | .bin _ _ a b | .comma a b | .assign a b | .opassign _ a b | .logic4 _ a b _ _ | .logic _ a b =>
    intro hb
    simp only [bound, Bool.and_eq_true] at hb
    simp only [close, close_congr h a hb.1, close_congr h b hb.2]
  | .cond c a b =>
    intro hb
    simp only [bound, Bool.and_eq_true] at hb
    simp only [close, close_congr h c hb.1.1, close_congr h a hb.1.2, close_congr h b hb.2]

/-- What is left has the shape of the expression. -/
structure Shape (e s : Expr) (g : Nat) : Prop where
  wf : wf s = true
  simple : simple s = true
  bound : bound g s = true
  eff : noEffect s = noEffect e
  der : noDeref s = noDeref e
  late : noLateDeref s = noLateDeref e
  lv : isLv e = true → isLv s = true

theorem Shape.mono {e s : Expr} {g g' : Nat} (h : Shape e s g) (hg : g ≤ g') : Shape e s g' := { h with bound := bound_mono hg s h.bound }

theorem Shape.order {e s : Expr} {g : Nat} (h : Shape e s g) : orderOk s = orderOk e := by simp [orderOk, h.eff, h.late]

theorem Shape.un {e s : Expr} {g o : Nat} (h : Shape e s g) : Shape (.un o e) (.un o s) g :=
  ⟨h.wf, h.simple, h.bound, h.eff, h.der, h.late, by simp [isLv]⟩
theorem Shape.paren {e s : Expr} {g : Nat} (h : Shape e s g) : Shape (.paren e) (.paren s) g :=
  ⟨h.wf, h.simple, h.bound, h.eff, h.der, h.late, by simp [isLv]⟩
theorem Shape.cast {e s : Expr} {g : Nat} (h : Shape e s g) : Shape (.cast e) (.cast s) g :=
  ⟨h.wf, h.simple, h.bound, h.eff, h.der, h.late, by simp [isLv]⟩
theorem Shape.deref {e s : Expr} {g : Nat} (h : Shape e s g) : Shape (.deref e) (.deref s) g :=
  ⟨h.wf, h.simple, h.bound, h.eff, rfl, h.late, by simp [isLv]⟩
theorem Shape.post {e s : Expr} {g o : Nat} (h : Shape e s g) (hl : isLv e = true) : Shape (.post o e) (.post o s) g :=
  ⟨by simp [Hoist.wf, h.wf, h.lv hl], h.simple, h.bound, rfl, h.der, h.late, by simp [isLv]⟩
theorem Shape.bin {a sa b sb : Expr} {g o : Nat} {c : Bool} (h : Shape a sa g) (h' : Shape b sb g) : Shape (.bin c o a b) (.bin c o sa sb) g :=
  ⟨by simp [Hoist.wf, h.wf, h'.wf], by simp [Hoist.simple, h.simple, h'.simple], by simp [Hoist.bound, h.bound, h'.bound], by simp [noEffect, h.eff, h'.eff],
    by simp [noDeref, h.der, h'.der], by simp [noLateDeref, h.late, h'.late], by simp [isLv]⟩
theorem Shape.comma {a sa b sb : Expr} {g : Nat} (h : Shape a sa g) (h' : Shape b sb g) : Shape (.comma a b) (.comma sa sb) g :=
  ⟨by simp [Hoist.wf, h.wf, h'.wf], by simp [Hoist.simple, h.simple, h'.simple], by simp [Hoist.bound, h.bound, h'.bound], by simp [noEffect, h.eff, h'.eff],
    by simp [noDeref, h.der, h'.der], by simp [noLateDeref, h.late, h'.der], by simp [isLv]⟩
theorem Shape.assign {a sa b sb : Expr} {g : Nat} (h : Shape a sa g) (h' : Shape b sb g) (hl : isLv a = true) : Shape (.assign a b) (.assign sa sb) g :=
  ⟨by simp [Hoist.wf, h.wf, h'.wf, h.lv hl], by simp [Hoist.simple, h.simple, h'.simple], by simp [Hoist.bound, h.bound, h'.bound], rfl,
    by simp [noDeref, h.der, h'.der], by simp [noLateDeref, h.late, h'.late], by simp [isLv]⟩
theorem Shape.opassign {a sa b sb : Expr} {g o : Nat} (h : Shape a sa g) (h' : Shape b sb g) (hl : isLv a = true) : Shape (.opassign o a b) (.opassign o sa sb) g :=
  ⟨by simp [Hoist.wf, h.wf, h'.wf, h.lv hl], by simp [Hoist.simple, h.simple, h'.simple], by simp [Hoist.bound, h.bound, h'.bound], rfl,
    by simp [noDeref, h.der, h'.der], by simp [noLateDeref, h.late, h'.late], by simp [isLv]⟩
theorem Shape.logic {a sa b sb : Expr} {g : Nat} {i : Bool} {la lb : Calls} (h : Shape a sa g) (h' : Shape b sb g) : Shape (.logic i a b) (.logic4 i sa sb la lb) g :=
  ⟨by simp [Hoist.wf, h.wf, h'.wf], by simp [Hoist.simple, h.simple, h'.simple], by simp [Hoist.bound, h.bound, h'.bound], by simp [noEffect, h.eff, h'.eff],
    by simp [noDeref, h.der, h'.der], by simp [noLateDeref, h.late, h'.der], by simp [isLv]⟩
theorem Shape.cond {c sc a sa b sb : Expr} {g : Nat} (h0 : Shape c sc g) (h : Shape a sa g) (h' : Shape b sb g) : Shape (.cond c a b) (.cond sc sa sb) g :=
  ⟨by simp [Hoist.wf, h.wf, h'.wf, h0.wf], by simp [Hoist.simple, h.simple, h'.simple, h0.simple], by simp [Hoist.bound, h.bound, h'.bound, h0.bound],
    by simp [noEffect, h.eff, h'.eff, h0.eff], by simp [noDeref, h.der, h'.der, h0.der], by simp [noLateDeref, h0.late, h.der, h'.der], by simp [isLv]⟩

theorem handle_assign {flag : Bool} {l r : Expr} {st : St} (h : isCall r = false) :
    handle flag (.assign l r) st = (handle flag l st).bind fun p => (handle flag r p.2).bind fun q => .ok (.assign p.1 q.1, q.2) := by
  cases r <;> first | rfl | (simp [isCall] at h)

/-- An expression without calls stays as it is. -/
theorem handle_noCall : ∀ (e : Expr) (flag : Bool) (st : St) (s : Expr) (st' : St), frag e = true → noCall e = true → handle flag e st = .ok (s, st') →
    st'.g = st.g ∧ st'.repl = st.repl ∧ (st.cond = .nil → st'.cond = .nil) ∧ (noCond e = true → st'.cond = st.cond) ∧ (∀ T, close T s = e) ∧ Shape e s 0 ∧
      (noPlain e = true → noEffect e = false → st'.side = true) ∧ (st.side = true → st'.side = true) := by
  intro e
  match e with
  | .lit v =>
    intro flag st s st' _ _ h
    simp [handle] at h; obtain ⟨rfl, rfl⟩ := h
    exact ⟨rfl, rfl, id, fun _ => rfl, fun _ => rfl, ⟨rfl, rfl, rfl, rfl, rfl, rfl, id⟩, by simp [noEffect], id⟩
  | .var v =>
    intro flag st s st' _ _ h
    simp [handle] at h; obtain ⟨rfl, rfl⟩ := h
    exact ⟨rfl, rfl, id, fun _ => rfl, fun _ => rfl, ⟨rfl, rfl, rfl, rfl, rfl, rfl, id⟩, by simp [noEffect], id⟩
  | .tmp k => intro flag st s st' h; simp [frag] at h
  | .un o e =>
    intro flag st s st' hf hn h
    rw [handle] at h
    obtain ⟨⟨s1, st1⟩, h1, h2⟩ := Res.bind_eq_ok.1 h
    cases h2
    obtain ⟨a, b, c, d, e', f, g, i⟩ := handle_noCall e flag st _ _ (by simpa [frag] using hf) (by simpa [noCall] using hn) h1
    exact ⟨a, b, c, by simpa [noCond] using d, fun T => by simp [close, e'], f.un, by simpa [noPlain, noEffect] using g, i⟩
  | .paren e =>
    intro flag st s st' hf hn h
    rw [handle] at h
    obtain ⟨⟨s1, st1⟩, h1, h2⟩ := Res.bind_eq_ok.1 h
    cases h2
    obtain ⟨a, b, c, d, e', f, g, i⟩ := handle_noCall e flag st _ _ (by simpa [frag] using hf) (by simpa [noCall] using hn) h1
    exact ⟨a, b, c, by simpa [noCond] using d, fun T => by simp [close, e'], f.paren, by simpa [noPlain, noEffect] using g, i⟩
  | .cast e =>
    intro flag st s st' hf hn h
    rw [handle] at h
    obtain ⟨⟨s1, st1⟩, h1, h2⟩ := Res.bind_eq_ok.1 h
    cases h2
    obtain ⟨a, b, c, d, e', f, g, i⟩ := handle_noCall e flag st _ _ (by simpa [frag] using hf) (by simpa [noCall] using hn) h1
    exact ⟨a, b, c, by simpa [noCond] using d, fun T => by simp [close, e'], f.cast, by simpa [noPlain, noEffect] using g, i⟩
  | .deref e =>
    intro flag st s st' hf hn h
    rw [handle] at h
    obtain ⟨⟨s1, st1⟩, h1, h2⟩ := Res.bind_eq_ok.1 h
    cases h2
    obtain ⟨a, b, c, d, e', f, g, i⟩ := handle_noCall e flag st _ _ (by simpa [frag] using hf) (by simpa [noCall] using hn) h1
    exact ⟨a, b, c, by simpa [noCond] using d, fun T => by simp [close, e'], f.deref, by simpa [noPlain, noEffect] using g, i⟩
  | .post o e =>
    intro flag st s st' hf hn h
    rw [handle] at h
    obtain ⟨⟨s1, st1⟩, h1, h2⟩ := Res.bind_eq_ok.1 h
    cases h2
    simp [frag] at hf
    obtain ⟨a, b, c, d, e', f, g, i⟩ := handle_noCall e flag _ _ _ hf.2 (by simpa [noCall] using hn) h1
    exact ⟨a, b, c, by simpa [noCond] using d, fun T => by simp [close, e'], f.post hf.1, fun _ _ => i rfl, fun _ => i rfl⟩
  | .bin cm o x y =>
    intro flag st s st' hf hn h
    rw [handle] at h
    obtain ⟨⟨s1, st1⟩, h1, h2⟩ := Res.bind_eq_ok.1 h
    obtain ⟨⟨s2, st2⟩, h3, h4⟩ := Res.bind_eq_ok.1 h2
    cases h4
    simp [frag] at hf
    simp [noCall] at hn
    obtain ⟨a, b, c, d, e', f, g, i⟩ := handle_noCall x flag _ _ _ hf.1 hn.1 h1
    obtain ⟨a2, b2, c2, d2, e2, f2, g2, i2⟩ := handle_noCall y flag _ _ _ hf.2 hn.2 h3
    refine ⟨a2.trans a, b2.trans b, fun h => c2 (c h), ?_, fun T => by simp [close, e', e2], f.bin f2, ?_, fun h => i2 (i h)⟩
    · simp only [noCond, Bool.and_eq_true]; exact fun h => (d2 h.2).trans (d h.1)
    · simp only [noPlain, noEffect, Bool.and_eq_true, Bool.and_eq_false_iff]
      rintro ⟨p1, p2⟩ (q | q)
      · exact i2 (g p1 q)
      · exact g2 p2 q
  | .comma x y =>
    intro flag st s st' hf hn h
    rw [handle] at h
    obtain ⟨⟨s1, st1⟩, h1, h2⟩ := Res.bind_eq_ok.1 h
    obtain ⟨⟨s2, st2⟩, h3, h4⟩ := Res.bind_eq_ok.1 h2
    cases h4
    simp [frag] at hf
    simp [noCall] at hn
    obtain ⟨a, b, c, d, e', f, g, i⟩ := handle_noCall x flag _ _ _ hf.1.1 hn.1 h1
    obtain ⟨a2, b2, c2, d2, e2, f2, g2, i2⟩ := handle_noCall y flag _ _ _ hf.1.2 hn.2 h3
    refine ⟨a2.trans a, b2.trans b, fun h => c2 (c h), ?_, fun T => by simp [close, e', e2], f.comma f2, ?_, fun h => i2 (i h)⟩
    · simp only [noCond, Bool.and_eq_true]; exact fun h => (d2 h.2).trans (d h.1)
    · simp only [noPlain, noEffect, Bool.and_eq_true, Bool.and_eq_false_iff]
      rintro ⟨p1, p2⟩ (q | q)
      · exact i2 (g p1 q)
      · exact g2 p2 q
  | .assign x y =>
    intro flag st s st' hf hn h
    simp [frag] at hf
    simp [noCall] at hn
    rw [handle_assign hf.2] at h
    obtain ⟨⟨s1, st1⟩, h1, h2⟩ := Res.bind_eq_ok.1 h
    obtain ⟨⟨s2, st2⟩, h3, h4⟩ := Res.bind_eq_ok.1 h2
    cases h4
    obtain ⟨a, b, c, d, e', f, g, i⟩ := handle_noCall x flag _ _ _ hf.1.1.2 hn.1 h1
    obtain ⟨a2, b2, c2, d2, e2, f2, g2, i2⟩ := handle_noCall y flag _ _ _ hf.1.2 hn.2 h3
    refine ⟨a2.trans a, b2.trans b, fun h => c2 (c h), ?_, fun T => by simp [close, e', e2], f.assign f2 hf.1.1.1, by simp [noPlain], fun h => i2 (i h)⟩
    simp only [noCond, Bool.and_eq_true]; exact fun h => (d2 h.2).trans (d h.1)
  | .opassign o x y =>
    intro flag st s st' hf hn h
    simp [frag] at hf
    simp [noCall] at hn
    rw [handle] at h
    obtain ⟨⟨s1, st1⟩, h1, h2⟩ := Res.bind_eq_ok.1 h
    obtain ⟨⟨s2, st2⟩, h3, h4⟩ := Res.bind_eq_ok.1 h2
    cases h4
    obtain ⟨a, b, c, d, e', f, g, i⟩ := handle_noCall x flag _ _ _ hf.1.2 hn.1 h1
    obtain ⟨a2, b2, c2, d2, e2, f2, g2, i2⟩ := handle_noCall y flag _ _ _ hf.2 hn.2 h3
    refine ⟨a2.trans a, b2.trans b, fun h => c2 (c h), ?_, fun T => by simp [close, e', e2], f.opassign f2 hf.1.1, fun _ _ => i2 (i rfl), fun _ => i2 (i rfl)⟩
    simp only [noCond, Bool.and_eq_true]; exact fun h => (d2 h.2).trans (d h.1)
  | .call f as => intro flag st s st' _ h; simp [noCall] at h
  | .logic j x y =>
    intro flag st s st' hf hn h
    simp [frag] at hf
    rw [handle] at h
    obtain ⟨⟨s1, st1⟩, h1, h2⟩ := Res.bind_eq_ok.1 h
    obtain ⟨⟨s2, st2⟩, h3, h4⟩ := Res.bind_eq_ok.1 h2
    cases h4
    obtain ⟨a, b, c, d, e', f, g, i⟩ := handle_noCall x true _ _ _ hf.1.1.1 hf.1.2 h1
    obtain ⟨a2, b2, c2, d2, e2, f2, g2, i2⟩ := handle_noCall y true _ _ _ hf.1.1.2 hf.2 h3
    refine ⟨rfl, b2.trans b, id, fun _ => rfl, fun T => by simp [close, e', e2], f.logic f2, ?_, fun h => i2 (i h)⟩
    simp only [noPlain, noEffect, Bool.and_eq_true, Bool.and_eq_false_iff]
    rintro ⟨p1, p2⟩ (q | q)
    · exact i2 (g p1 q)
    · exact g2 p2 q
  | .logic4 .. => intro flag st s st' h; simp [frag] at h
  | .cond x y z =>
    intro flag st s st' hf hn h
    simp [frag] at hf
    simp [noCall] at hn
    rw [handle] at h
    obtain ⟨⟨s1, st1⟩, h1, h2⟩ := Res.bind_eq_ok.1 h
    obtain ⟨⟨s2, st2⟩, h3, h4⟩ := Res.bind_eq_ok.1 h2
    dsimp only at h4
    split at h4
    · rename_i hnil
      obtain ⟨⟨s3, st3⟩, h5, h6⟩ := Res.bind_eq_ok.1 h4
      cases h6
      obtain ⟨a, b, c, d, e', f, g, i⟩ := handle_noCall y true _ _ _ hf.1.1.1.2 hf.1.2 h1
      obtain ⟨a2, b2, c2, d2, e2, f2, g2, i2⟩ := handle_noCall z true _ _ _ hf.1.1.2 hf.2 h3
      obtain ⟨a3, b3, c3, d3, e3, f3, g3, i3⟩ := handle_noCall x flag _ _ _ hf.1.1.1.1 hn.1.1 h5
      refine ⟨a3.trans (a2.trans a), b3.trans (b2.trans b), fun _ => c3 (c2 rfl), by simp [noCond], fun T => by simp [close, e', e2, e3], f3.cond f f2, ?_, fun h => i3 (i2 (i h))⟩
      simp only [noPlain, noEffect, Bool.and_eq_true, Bool.and_eq_false_iff]
      rintro ⟨⟨p1, p2⟩, p3⟩ ((q | q) | q)
      · exact g3 p1 q
      · exact i3 (i2 (g p2 q))
      · exact i3 (g2 p3 q)
    · cases h4

/-- Handling what is left again does not change it. -/
theorem handle_again : ∀ (e : Expr) (flag : Bool) (st : St) (s : Expr) (st' : St), simple e = true → handle flag e st = .ok (s, st') →
    s = e ∧ st'.g = st.g ∧ st'.repl = st.repl := by
  intro e
  match e with
  | .lit v | .var v | .tmp k =>
    intro flag st s st' _ h
    simp [handle] at h; obtain ⟨rfl, rfl⟩ := h
    exact ⟨rfl, rfl, rfl⟩
  | .un o e | .paren e | .cast e | .deref e | .post o e =>
    intro flag st s st' hs h
    rw [handle] at h
    obtain ⟨⟨s1, st1⟩, h1, h2⟩ := Res.bind_eq_ok.1 h
    cases h2
    obtain ⟨rfl, a, b⟩ := handle_again e flag _ _ _ (by simpa [simple] using hs) h1
    exact ⟨rfl, a, b⟩
  | .bin cm o x y =>
    intro flag st s st' hs h
    simp [simple] at hs
    rw [handle] at h
    obtain ⟨⟨s1, st1⟩, h1, h2⟩ := Res.bind_eq_ok.1 h
    obtain ⟨⟨s2, st2⟩, h3, h4⟩ := Res.bind_eq_ok.1 h2
    cases h4
    obtain ⟨rfl, a, b⟩ := handle_again x flag _ _ _ hs.1 h1
    obtain ⟨rfl, a2, b2⟩ := handle_again y flag _ _ _ hs.2 h3
    exact ⟨rfl, a2.trans a, b2.trans b⟩
  | .comma x y =>
    intro flag st s st' hs h
    simp [simple] at hs
    rw [handle] at h
    obtain ⟨⟨s1, st1⟩, h1, h2⟩ := Res.bind_eq_ok.1 h
    obtain ⟨⟨s2, st2⟩, h3, h4⟩ := Res.bind_eq_ok.1 h2
    cases h4
    obtain ⟨rfl, a, b⟩ := handle_again x flag _ _ _ hs.1 h1
    obtain ⟨rfl, a2, b2⟩ := handle_again y flag _ _ _ hs.2 h3
    exact ⟨rfl, a2.trans a, b2.trans b⟩
  | .opassign o x y =>
    intro flag st s st' hs h
    simp [simple] at hs
    rw [handle] at h
    obtain ⟨⟨s1, st1⟩, h1, h2⟩ := Res.bind_eq_ok.1 h
    obtain ⟨⟨s2, st2⟩, h3, h4⟩ := Res.bind_eq_ok.1 h2
    cases h4
    obtain ⟨rfl, a, b⟩ := handle_again x flag _ _ _ hs.1 h1
    obtain ⟨rfl, a2, b2⟩ := handle_again y flag _ _ _ hs.2 h3
    exact ⟨rfl, a2.trans a, b2.trans b⟩
  | .assign x y =>
    intro flag st s st' hs h
    simp [simple] at hs
    rw [handle_assign (by cases y <;> simp_all [simple, isCall])] at h
    obtain ⟨⟨s1, st1⟩, h1, h2⟩ := Res.bind_eq_ok.1 h
    obtain ⟨⟨s2, st2⟩, h3, h4⟩ := Res.bind_eq_ok.1 h2
    cases h4
    obtain ⟨rfl, a, b⟩ := handle_again x flag _ _ _ hs.1 h1
    obtain ⟨rfl, a2, b2⟩ := handle_again y flag _ _ _ hs.2 h3
    exact ⟨rfl, a2.trans a, b2.trans b⟩
  | .call f as => intro flag st s st' h; simp [simple] at h
  | .logic j x y => intro flag st s st' h; simp [simple] at h
  | .logic4 .. => intro flag st s st' _ h; simp [handle] at h
  | .cond x y z =>
    intro flag st s st' hs h
    simp [simple] at hs
    rw [handle] at h
    obtain ⟨⟨s1, st1⟩, h1, h2⟩ := Res.bind_eq_ok.1 h
    obtain ⟨⟨s2, st2⟩, h3, h4⟩ := Res.bind_eq_ok.1 h2
    dsimp only at h4
    split at h4
    · obtain ⟨⟨s3, st3⟩, h5, h6⟩ := Res.bind_eq_ok.1 h4
      cases h6
      obtain ⟨rfl, a, b⟩ := handle_again y true _ _ _ hs.1.2 h1
      obtain ⟨rfl, a2, b2⟩ := handle_again z true _ _ _ hs.2 h3
      obtain ⟨rfl, a3, b3⟩ := handle_again x flag _ _ _ hs.1.1 h5
      exact ⟨rfl, a3.trans (a2.trans a), b3.trans (b2.trans b)⟩
    · cases h4

/-- An argument that has been handled is compiled as it is. -/
theorem compRv_again {n : Nat} {e : Expr} {g : Nat} {p : Rv} (hs : simple e = true) (h : compRv n e g = .ok p) : p.lines = [] ∧ p.e = e ∧ p.g = g := by
  cases n with
  | zero => cases h
  | succ n =>
    rw [compRv] at h
    obtain ⟨⟨s, st⟩, h1, h2⟩ := Res.bind_eq_ok.1 h
    obtain ⟨rfl, a, b⟩ := handle_again e false _ _ _ hs h1
    dsimp only at h2
    rw [b] at h2
    simp only [compCalls, Res.bind_ok] at h2
    split at h2
    · cases h2; exact ⟨rfl, rfl, a⟩
    · cases h2

def Args.toList : Args → List Expr
  | .nil => []
  | .cons e r => e :: r.toList

def simpleArgs : Args → Bool
  | .nil => true
  | .cons e r => simple e && simpleArgs r

theorem compArgs_again {n : Nat} : ∀ (as : Args) (g : Nat) (p : List Line × List Expr × Nat), simpleArgs as = true → compArgs (compRv n) as g = .ok p → p = ([], as.toList, g) := by
  intro as
  match as with
  | .nil => intro g p _ h; simp [compArgs] at h; exact h.symm
  | .cons e r =>
    intro g p hs h
    simp [simpleArgs] at hs
    rw [compArgs] at h
    obtain ⟨q, h1, h2⟩ := Res.bind_eq_ok.1 h
    obtain ⟨⟨ls, es, g'⟩, h3, h4⟩ := Res.bind_eq_ok.1 h2
    cases h4
    obtain ⟨a, b, c⟩ := compRv_again hs.1 h1
    rw [c] at h3
    cases compArgs_again r g _ hs.2 h3
    simp [a, b, Args.toList]

theorem compCalls_append {rv : Expr → Nat → Res Rv} : ∀ (a b : Calls) (g : Nat) (ls : List Line) (g' : Nat), compCalls rv (a.append b) g = .ok (ls, g') →
    ∃ la lb g1, compCalls rv a g = .ok (la, g1) ∧ compCalls rv b g1 = .ok (lb, g') ∧ ls = la ++ lb := by
  intro a
  match a with
  | .nil => intro b g ls g' h; exact ⟨[], ls, g, rfl, h, rfl⟩
  | .cons d f as r =>
    intro b g ls g' h
    rw [Calls.append, compCalls] at h
    obtain ⟨⟨l1, g1⟩, h1, h2⟩ := Res.bind_eq_ok.1 h
    obtain ⟨⟨l2, g2⟩, h3, h4⟩ := Res.bind_eq_ok.1 h2
    cases h4
    obtain ⟨la, lb, g3, h5, h6, rfl⟩ := compCalls_append r b _ _ _ h3
    refine ⟨l1 ++ la, lb, g3, ?_, h6, by simp⟩
    rw [compCalls, h1, Res.bind_ok]
    dsimp only
    rw [h5]; rfl

theorem Calls.append_nil : ∀ a : Calls, a.append .nil = a := by
  intro a
  match a with
  | .nil => rfl
  | .cons d f as r => rw [Calls.append, Calls.append_nil r]

theorem Calls.append_assoc : ∀ a b c : Calls, (a.append b).append c = a.append (b.append c) := by
  intro a b c
  match a with
  | .nil => rfl
  | .cons d f as r => rw [Calls.append, Calls.append, Calls.append, Calls.append_assoc r]

theorem runLines_append : ∀ (a b : List Line) (S S' : State M), runLines M (a ++ b) S = some S' → ∃ S1, runLines M a S = some S1 ∧ runLines M b S1 = some S' := by
  intro a
  induction a with
  | nil => intro b S S' h; exact ⟨S, rfl, h⟩
  | cons l r ih =>
    intro b S S' h
    rw [List.cons_append, runLines] at h
    obtain ⟨S1, h1, h2⟩ := obind h
    obtain ⟨S2, h3, h4⟩ := ih _ _ _ h2
    exact ⟨S2, by rw [runLines, h1]; exact h3, h4⟩

end Verif.Hoist
