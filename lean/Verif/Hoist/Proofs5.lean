import Verif.Hoist.Proofs4
/-! Which expressions are compiled. -/
namespace Verif.Hoist
open Verif Spec

/-- What is left of an expression without `&&` and `||`. -/
def again : Expr → Bool
  | .lit _ | .var _ | .tmp _ => true
  | .un _ e | .deref e | .paren e | .cast e | .post _ e => again e
  | .bin _ _ a b | .comma a b | .assign a b | .opassign _ a b => again a && again b
  | .cond c a b => again c && again a && again b
  | .logic .. | .logic4 .. | .call .. => false

theorem again_arith : ∀ (e : Expr), again e = true → arithOk e = true := by
  intro e
  match e with
  | .lit _ | .var _ | .tmp _ => intro _; rfl
  | .un _ e | .deref e | .paren e | .cast e | .post _ e => simpa [again, arithOk] using again_arith e
  | .bin _ _ a b | .comma a b | .assign a b | .opassign _ a b =>
    simp only [again, arithOk, Bool.and_eq_true]; exact fun ⟨h1, h2⟩ => ⟨again_arith a h1, again_arith b h2⟩
  | .cond c a b => simp only [again, arithOk, Bool.and_eq_true]; exact fun ⟨⟨h1, h2⟩, h3⟩ => ⟨⟨again_arith c h1, again_arith a h2⟩, again_arith b h3⟩
  | .logic .. | .logic4 .. | .call .. => simp [again]

theorem again_handle : ∀ (e : Expr) (flag : Bool) (st : St), again e = true → ∃ st', handle flag e st = .ok (e, st') ∧ (st.cond = .nil → st'.cond = .nil) ∧ st'.repl = st.repl := by
  intro e
  match e with
  | .lit _ | .var _ | .tmp _ => intro flag st _; exact ⟨st, rfl, id, rfl⟩
  | .un _ e | .deref e | .paren e | .cast e =>
    intro flag st h
    obtain ⟨st', h1, h2, h3⟩ := again_handle e flag st (by simpa [again] using h)
    exact ⟨st', by rw [handle, h1]; rfl, h2, h3⟩
  | .post _ e =>
    intro flag st h
    obtain ⟨st', h1, h2, h3⟩ := again_handle e flag { st with side := true } (by simpa [again] using h)
    exact ⟨st', by rw [handle, h1]; rfl, h2, h3⟩
  | .bin _ _ a b | .comma a b =>
    intro flag st h
    simp [again] at h
    obtain ⟨st1, h1, h2, h3⟩ := again_handle a flag st h.1
    obtain ⟨st2, h4, h5, h6⟩ := again_handle b flag st1 h.2
    exact ⟨st2, by rw [handle, h1, Res.bind_ok]; dsimp only; rw [h4]; rfl, fun h => h5 (h2 h), h6.trans h3⟩
  | .assign a b =>
    intro flag st h
    simp [again] at h
    obtain ⟨st1, h1, h2, h3⟩ := again_handle a flag st h.1
    obtain ⟨st2, h4, h5, h6⟩ := again_handle b flag st1 h.2
    exact ⟨st2, by rw [handle_assign (by cases b <;> simp_all [again, isCall]), h1, Res.bind_ok, h4]; rfl, fun h => h5 (h2 h), h6.trans h3⟩
  | .opassign o a b =>
    intro flag st h
    simp [again] at h
    obtain ⟨st1, h1, h2, h3⟩ := again_handle a flag { st with side := true } h.1
    obtain ⟨st2, h4, h5, h6⟩ := again_handle b flag st1 h.2
    exact ⟨st2, by rw [handle, h1, Res.bind_ok]; dsimp only; rw [h4]; rfl, fun h => h5 (h2 h), h6.trans h3⟩
  | .cond c a b =>
    intro flag st h
    simp [again] at h
    obtain ⟨st1, h1, h2, h3⟩ := again_handle a true { st with cond := .nil } h.1.2
    obtain ⟨st2, h4, h5, h6⟩ := again_handle b true { st1 with cond := .nil } h.2
    obtain ⟨st3, h7, h8, h9⟩ := again_handle c flag st2 h.1.1
    refine ⟨st3, ?_, fun _ => h8 (h5 rfl), h9.trans (h6.trans h3)⟩
    rw [handle, h1, Res.bind_ok]; dsimp only
    rw [h4, Res.bind_ok]; dsimp only
    rw [h2 rfl, h5 rfl]
    simp only [Calls.isNil, Bool.and_self, if_true]
    rw [h7]; rfl
  | .logic .. | .logic4 .. | .call .. => simp [again]

/-- An expression without calls is compiled. -/
theorem noCall_accept : ∀ (e : Expr) (flag : Bool) (st : St), frag e = true → noCall e = true → ∃ s st', handle flag e st = .ok (s, st') ∧ arithOk s = true ∧ (noLogic e = true → again s = true) := by
  intro e
  match e with
  | .lit _ | .var _ | .tmp _ => intro flag st _ _; exact ⟨_, st, rfl, rfl, fun _ => rfl⟩
  | .un _ e | .deref e | .paren e | .cast e =>
    intro flag st hf hn
    obtain ⟨s, st', h1, h2, h3⟩ := noCall_accept e flag st (by simpa [frag] using hf) (by simpa [noCall] using hn)
    exact ⟨_, st', by rw [handle, h1]; rfl, by simpa [arithOk] using h2, by simpa [noLogic, again] using h3⟩
  | .post _ e =>
    intro flag st hf hn
    simp [frag] at hf
    obtain ⟨s, st', h1, h2, h3⟩ := noCall_accept e flag { st with side := true } hf.2 (by simpa [noCall] using hn)
    exact ⟨_, st', by rw [handle, h1]; rfl, by simpa [arithOk] using h2, by simpa [noLogic, again] using h3⟩
  | .bin _ _ a b =>
    intro flag st hf hn
    simp [frag] at hf
    simp [noCall] at hn
    obtain ⟨s1, st1, h1, h2, h3⟩ := noCall_accept a flag st hf.1 hn.1
    obtain ⟨s2, st2, h4, h5, h6⟩ := noCall_accept b flag st1 hf.2 hn.2
    exact ⟨_, st2, by rw [handle, h1, Res.bind_ok]; dsimp only; rw [h4]; rfl, by simp [arithOk, h2, h5], by simp only [noLogic, again, Bool.and_eq_true]; exact fun h => ⟨h3 h.1, h6 h.2⟩⟩
  | .comma a b =>
    intro flag st hf hn
    simp [frag] at hf
    simp [noCall] at hn
    obtain ⟨s1, st1, h1, h2, h3⟩ := noCall_accept a flag st hf.1.1 hn.1
    obtain ⟨s2, st2, h4, h5, h6⟩ := noCall_accept b flag st1 hf.1.2 hn.2
    exact ⟨_, st2, by rw [handle, h1, Res.bind_ok]; dsimp only; rw [h4]; rfl, by simp [arithOk, h2, h5], by simp only [noLogic, again, Bool.and_eq_true]; exact fun h => ⟨h3 h.1, h6 h.2⟩⟩
  | .assign a b =>
    intro flag st hf hn
    simp [frag] at hf
    simp [noCall] at hn
    obtain ⟨s1, st1, h1, h2, h3⟩ := noCall_accept a flag st hf.1.1.2 hn.1
    obtain ⟨s2, st2, h4, h5, h6⟩ := noCall_accept b flag st1 hf.1.2 hn.2
    exact ⟨.assign s1 s2, st2, by rw [handle_assign hf.2, h1, Res.bind_ok, h4]; rfl, by simp [arithOk, h2, h5], by simp only [noLogic, again, Bool.and_eq_true]; exact fun h => ⟨h3 h.1, h6 h.2⟩⟩
  | .opassign o a b =>
    intro flag st hf hn
    simp [frag] at hf
    simp [noCall] at hn
    obtain ⟨s1, st1, h1, h2, h3⟩ := noCall_accept a flag { st with side := true } hf.1.2 hn.1
    obtain ⟨s2, st2, h4, h5, h6⟩ := noCall_accept b flag st1 hf.2 hn.2
    exact ⟨_, st2, by rw [handle, h1, Res.bind_ok]; dsimp only; rw [h4]; rfl, by simp [arithOk, h2, h5], by simp only [noLogic, again, Bool.and_eq_true]; exact fun h => ⟨h3 h.1, h6 h.2⟩⟩
  | .call .. => intro flag st _ h; simp [noCall] at h
  | .logic4 .. => intro flag st h; simp [frag] at h
  | .logic i a b =>
    intro flag st hf _
    simp [frag] at hf
    obtain ⟨s1, st1, h1, h2, _⟩ := noCall_accept a true { st with cond := .nil } hf.1.1.1 hf.1.2
    obtain ⟨s2, st2, h4, h5, _⟩ := noCall_accept b true { st1 with g := st.g, cond := .nil } hf.1.1.2 hf.2
    refine ⟨_, _, by rw [handle, h1, Res.bind_ok]; dsimp only; rw [h4]; rfl, ?_, by simp [noLogic]⟩
    obtain ⟨_, _, c1, _⟩ := handle_noCall a true _ _ _ hf.1.1.1 hf.1.2 h1
    obtain ⟨_, _, c2, _⟩ := handle_noCall b true _ _ _ hf.1.1.2 hf.2 h4
    dsimp only
    simp [arithOk, c1 rfl, c2 rfl, Calls.isNil, h2, h5]
  | .cond c a b =>
    intro flag st hf hn
    simp [frag] at hf
    simp [noCall] at hn
    obtain ⟨s1, st1, h1, h2, h3⟩ := noCall_accept a true { st with cond := .nil } hf.1.1.1.2 hf.1.2
    obtain ⟨s2, st2, h4, h5, h6⟩ := noCall_accept b true { st1 with cond := .nil } hf.1.1.2 hf.2
    obtain ⟨s3, st3, h7, h8, h9⟩ := noCall_accept c flag st2 hf.1.1.1.1 hn.1.1
    obtain ⟨_, _, c1, _⟩ := handle_noCall a true _ _ _ hf.1.1.1.2 hf.1.2 h1
    obtain ⟨_, _, c2, _⟩ := handle_noCall b true _ _ _ hf.1.1.2 hf.2 h4
    refine ⟨.cond s3 s1 s2, st3, ?_, by simp [arithOk, h2, h5, h8], by simp only [noLogic, again, Bool.and_eq_true]; exact fun h => ⟨⟨h9 h.1.1, h3 h.1.2⟩, h6 h.2⟩⟩
    rw [handle, h1, Res.bind_ok]; dsimp only
    rw [h4, Res.bind_ok]; dsimp only
    rw [c1 rfl, c2 rfl]
    simp only [Calls.isNil, Bool.and_self, if_true]
    rw [h7]; rfl

def againArgs : Args → Bool
  | .nil => true
  | .cons e r => again e && againArgs r

def callsOk : Calls → Bool
  | .nil => true
  | .cons (.tmp _) _ as r => againArgs as && callsOk r
  | .cons .. => false

theorem callsOk_append : ∀ (a b : Calls), callsOk a = true → callsOk b = true → callsOk (a.append b) = true := by
  intro a
  match a with
  | .nil => intro b _ h; exact h
  | .cons d f as r =>
    intro b h1 h2
    cases d <;> first | (simp [callsOk] at h1; done) | skip
    simp only [callsOk, Bool.and_eq_true, Calls.append] at h1 ⊢
    exact ⟨h1.1, callsOk_append r b h1.2 h2⟩

mutual
theorem handle_accept : ∀ (e : Expr) (st : St), frag e = true → argsPlain e = true →
    ∃ s st', handle false e st = .ok (s, st') ∧ arithOk s = true ∧ (noLogic e = true → again s = true) ∧ (callsOk st.repl = true → callsOk st'.repl = true) := by
  intro e
  match e with
  | .lit _ | .var _ | .tmp _ => intro st _ _; exact ⟨_, st, rfl, rfl, fun _ => rfl, id⟩
  | .un _ e | .deref e | .paren e | .cast e =>
    intro st hf hn
    obtain ⟨s, st', h1, h2, h3, h4⟩ := handle_accept e st (by simpa [frag] using hf) (by simpa [argsPlain] using hn)
    exact ⟨_, st', by rw [handle, h1]; rfl, by simpa [arithOk] using h2, by simpa [noLogic, again] using h3, h4⟩
  | .post _ e =>
    intro st hf hn
    simp [frag] at hf
    obtain ⟨s, st', h1, h2, h3, h4⟩ := handle_accept e { st with side := true } hf.2 (by simpa [argsPlain] using hn)
    exact ⟨_, st', by rw [handle, h1]; rfl, by simpa [arithOk] using h2, by simpa [noLogic, again] using h3, h4⟩
  | .bin _ _ a b =>
    intro st hf hn
    simp [frag] at hf
    simp [argsPlain] at hn
    obtain ⟨s1, st1, h1, h2, h3, h7⟩ := handle_accept a st hf.1 hn.1
    obtain ⟨s2, st2, h4, h5, h6, h8⟩ := handle_accept b st1 hf.2 hn.2
    exact ⟨_, st2, by rw [handle, h1, Res.bind_ok]; dsimp only; rw [h4]; rfl, by simp [arithOk, h2, h5], by simp only [noLogic, again, Bool.and_eq_true]; exact fun h => ⟨h3 h.1, h6 h.2⟩, fun h => h8 (h7 h)⟩
  | .comma a b =>
    intro st hf hn
    simp [frag] at hf
    simp [argsPlain] at hn
    obtain ⟨s1, st1, h1, h2, h3, h7⟩ := handle_accept a st hf.1.1 hn.1
    obtain ⟨s2, st2, h4, h5, h6, h8⟩ := handle_accept b st1 hf.1.2 hn.2
    exact ⟨_, st2, by rw [handle, h1, Res.bind_ok]; dsimp only; rw [h4]; rfl, by simp [arithOk, h2, h5], by simp only [noLogic, again, Bool.and_eq_true]; exact fun h => ⟨h3 h.1, h6 h.2⟩, fun h => h8 (h7 h)⟩
  | .assign a b =>
    intro st hf hn
    simp [frag] at hf
    simp [argsPlain] at hn
    obtain ⟨s1, st1, h1, h2, h3, h7⟩ := handle_accept a st hf.1.1.2 hn.1
    obtain ⟨s2, st2, h4, h5, h6, h8⟩ := handle_accept b st1 hf.1.2 hn.2
    exact ⟨.assign s1 s2, st2, by rw [handle_assign hf.2, h1, Res.bind_ok, h4]; rfl, by simp [arithOk, h2, h5], by simp only [noLogic, again, Bool.and_eq_true]; exact fun h => ⟨h3 h.1, h6 h.2⟩,
      fun h => h8 (h7 h)⟩
  | .opassign o a b =>
    intro st hf hn
    simp [frag] at hf
    simp [argsPlain] at hn
    obtain ⟨s1, st1, h1, h2, h3, h7⟩ := handle_accept a { st with side := true } hf.1.2 hn.1
    obtain ⟨s2, st2, h4, h5, h6, h8⟩ := handle_accept b st1 hf.2 hn.2
    exact ⟨_, st2, by rw [handle, h1, Res.bind_ok]; dsimp only; rw [h4]; rfl, by simp [arithOk, h2, h5], by simp only [noLogic, again, Bool.and_eq_true]; exact fun h => ⟨h3 h.1, h6 h.2⟩, fun h => h8 (h7 h)⟩
  | .call f as =>
    intro st hf hn
    simp only [frag] at hf
    simp only [argsPlain] at hn
    obtain ⟨as', st1, h1, h2, h3⟩ := handleArgs_accept as st hf hn
    refine ⟨_, _, by rw [handle, h1]; rfl, rfl, fun _ => rfl, fun h => ?_⟩
    simp only [push, Bool.false_eq_true, if_false]
    exact callsOk_append _ _ (h3 h) (by simp [callsOk, h2])
  | .logic4 .. => intro st h; simp [frag] at h
  | .logic i a b =>
    intro st hf hn
    have hc : noCall (.logic i a b) = true := by simp [frag] at hf; simp [noCall, hf]
    obtain ⟨s, st', h1, h2, h3⟩ := noCall_accept (.logic i a b) false st hf hc
    obtain ⟨_, h4, _⟩ := handle_noCall _ false _ _ _ hf hc h1
    exact ⟨s, st', h1, h2, h3, fun h => by rw [h4]; exact h⟩
  | .cond c a b =>
    intro st hf hn
    simp [frag] at hf
    simp [argsPlain] at hn
    obtain ⟨s1, st1, h1, h2, h3⟩ := noCall_accept a true { st with cond := .nil } hf.1.1.1.2 hf.1.2
    obtain ⟨s2, st2, h4, h5, h6⟩ := noCall_accept b true { st1 with cond := .nil } hf.1.1.2 hf.2
    obtain ⟨s3, st3, h7, h8, h9, h10⟩ := handle_accept c st2 hf.1.1.1.1 hn.1.1
    obtain ⟨_, r1, c1, _⟩ := handle_noCall a true _ _ _ hf.1.1.1.2 hf.1.2 h1
    obtain ⟨_, r2, c2, _⟩ := handle_noCall b true _ _ _ hf.1.1.2 hf.2 h4
    refine ⟨.cond s3 s1 s2, st3, ?_, by simp [arithOk, h2, h5, h8], by simp only [noLogic, again, Bool.and_eq_true]; exact fun h => ⟨⟨h9 h.1.1, h3 h.1.2⟩, h6 h.2⟩,
      fun h => h10 (by rw [r2]; dsimp only; rw [r1]; exact h)⟩
    rw [handle, h1, Res.bind_ok]; dsimp only
    rw [h4, Res.bind_ok]; dsimp only
    rw [c1 rfl, c2 rfl]
    simp only [Calls.isNil, Bool.and_self, if_true]
    rw [h7]; rfl
theorem handleArgs_accept : ∀ (as : Args) (st : St), fragArgs as = true → noLogicArgs as = true →
    ∃ s st', handleArgs false as st = .ok (s, st') ∧ againArgs s = true ∧ (callsOk st.repl = true → callsOk st'.repl = true) := by
  intro as
  match as with
  | .nil => intro st _ _; exact ⟨.nil, st, rfl, rfl, id⟩
  | .cons e r =>
    intro st hf hn
    simp [fragArgs] at hf
    simp [noLogicArgs] at hn
    obtain ⟨s1, st1, h1, _, h3, h7⟩ := handle_accept e st hf.1.1 (noLogic_plain e hn.1)
    obtain ⟨s2, st2, h4, h5, h8⟩ := handleArgs_accept r st1 hf.2 hn.2
    exact ⟨.cons s1 s2, st2, by rw [handleArgs, h1, Res.bind_ok]; dsimp only; rw [h4]; rfl, by simp [againArgs, h3 hn.1, h5], fun h => h8 (h7 h)⟩
theorem noLogic_plain : ∀ (e : Expr), noLogic e = true → argsPlain e = true := by
  intro e
  match e with
  | .lit _ | .var _ | .tmp _ => intro _; rfl
  | .un _ e | .deref e | .paren e | .cast e | .post _ e => simpa [noLogic, argsPlain] using noLogic_plain e
  | .bin _ _ a b | .comma a b | .assign a b | .opassign _ a b => simp only [noLogic, argsPlain, Bool.and_eq_true]; exact fun ⟨h1, h2⟩ => ⟨noLogic_plain a h1, noLogic_plain b h2⟩
  | .cond c a b => simp only [noLogic, argsPlain, Bool.and_eq_true]; exact fun ⟨⟨h1, h2⟩, h3⟩ => ⟨⟨noLogic_plain c h1, noLogic_plain a h2⟩, noLogic_plain b h3⟩
  | .logic .. | .logic4 .. => simp [noLogic]
  | .call f as => intro h; simpa [noLogic, argsPlain] using h
end

theorem compRv_accept_again {n : Nat} {e : Expr} {g : Nat} (h : again e = true) : ∃ p, compRv (n + 1) e g = .ok p := by
  obtain ⟨st', h1, _, h3⟩ := again_handle e false ⟨g, .nil, .nil, false⟩ h
  rw [compRv, h1, Res.bind_ok]
  dsimp only
  rw [h3]
  simp only [compCalls, Res.bind_ok, again_arith e h, if_true]
  exact ⟨_, rfl⟩

theorem compArgs_accept {n : Nat} : ∀ (as : Args) (g : Nat), againArgs as = true → ∃ p, compArgs (compRv (n + 1)) as g = .ok p := by
  intro as
  match as with
  | .nil => intro g _; exact ⟨_, rfl⟩
  | .cons e r =>
    intro g h
    simp [againArgs] at h
    obtain ⟨p, hp⟩ := compRv_accept_again (n := n) (g := g) h.1
    obtain ⟨q, hq⟩ := compArgs_accept r p.g h.2
    exact ⟨_, by rw [compArgs, hp, Res.bind_ok, hq]; rfl⟩

theorem compCalls_accept {n : Nat} : ∀ (cs : Calls) (g : Nat), callsOk cs = true → ∃ p, compCalls (compRv (n + 1)) cs g = .ok p := by
  intro cs
  match cs with
  | .nil => intro g _; exact ⟨_, rfl⟩
  | .cons d f as r =>
    intro g h
    cases d <;> first | (simp [callsOk] at h; done) | skip
    simp [callsOk] at h
    obtain ⟨p, hp⟩ := compArgs_accept (n := n) as g h.1
    obtain ⟨q, hq⟩ := compCalls_accept (n := n) r p.2.2 h.2
    exact ⟨_, by rw [compCalls, compCall, compDest]; simp only [Res.bind_ok]; rw [hp]; simp only [Res.bind_ok]; rw [hq]; rfl⟩

theorem compRv_accept {n : Nat} {e : Expr} {g : Nat} (hf : frag e = true) (ha : argsPlain e = true) : ∃ p, compRv (n + 2) e g = .ok p := by
  obtain ⟨s, st', h1, h2, _, h4⟩ := handle_accept e ⟨g, .nil, .nil, false⟩ hf ha
  obtain ⟨p, hp⟩ := compCalls_accept (n := n) st'.repl st'.g (h4 rfl)
  rw [compRv, h1, Res.bind_ok]
  dsimp only
  rw [hp, Res.bind_ok]
  simp only [h2, if_true]
  exact ⟨_, rfl⟩

/-! ## Rejection -/

theorem isNil_append (a b : Calls) : (a.append b).isNil = (a.isNil && b.isNil) := by cases a <;> rfl

theorem pushed (d : Expr) (f : Nat) (as : Args) (st : St) : (push true d f as st).cond.isNil = false := by
  simp only [push, if_true, isNil_append]; simp [Calls.isNil]

/-- The list of calls does not become empty. -/
theorem handle_keeps : ∀ (e : Expr) (st : St) (s : Expr) (st' : St), noCond e = true → handle true e st = .ok (s, st') → st.cond.isNil = false → st'.cond.isNil = false := by
  intro e
  match e with
  | .lit _ | .var _ | .tmp _ => intro st s st' _ h hi; simp [handle] at h; obtain ⟨_, rfl⟩ := h; exact hi
  | .un _ e | .deref e | .paren e | .cast e | .post _ e =>
    intro st s st' hc h hi
    rw [handle] at h
    obtain ⟨⟨s1, st1⟩, h1, h2⟩ := Res.bind_eq_ok.1 h
    cases h2
    exact handle_keeps e _ _ _ (by simpa [noCond] using hc) h1 hi
  | .bin _ _ a b | .comma a b | .opassign _ a b =>
    intro st s st' hc h hi
    simp [noCond] at hc
    rw [handle] at h
    obtain ⟨⟨s1, st1⟩, h1, h2⟩ := Res.bind_eq_ok.1 h
    obtain ⟨⟨s2, st2⟩, h3, h4⟩ := Res.bind_eq_ok.1 h2
    cases h4
    exact handle_keeps b _ _ _ hc.2 h3 (handle_keeps a _ _ _ hc.1 h1 hi)
  | .assign a b =>
    intro st s st' hc h hi
    simp [noCond] at hc
    by_cases hr : isCall b = false
    · rw [handle_assign hr] at h
      obtain ⟨⟨s1, st1⟩, h1, h2⟩ := Res.bind_eq_ok.1 h
      obtain ⟨⟨s2, st2⟩, h3, h4⟩ := Res.bind_eq_ok.1 h2
      cases h4
      exact handle_keeps b _ _ _ hc.2 h3 (handle_keeps a _ _ _ hc.1 h1 hi)
    · match b, hr with
      | .call f as, _ =>
        rw [handle] at h
        obtain ⟨⟨s1, st1⟩, h1, h2⟩ := Res.bind_eq_ok.1 h
        cases h2
        exact pushed ..
  | .call f as =>
    intro st s st' _ h _
    rw [handle] at h
    obtain ⟨⟨s1, st1⟩, h1, h2⟩ := Res.bind_eq_ok.1 h
    cases h2
    exact pushed ..
  | .logic i a b =>
    intro st s st' _ h hi
    rw [handle] at h
    obtain ⟨⟨s1, st1⟩, h1, h2⟩ := Res.bind_eq_ok.1 h
    obtain ⟨⟨s2, st2⟩, h3, h4⟩ := Res.bind_eq_ok.1 h2
    cases h4
    exact hi
  | .logic4 .. | .cond .. => intro st s st' hc; simp [noCond] at hc

/-- An operand with a call leaves a call in the list, or an `&&` or `||` that has one. -/
theorem handle_call : ∀ (e : Expr) (st : St) (s : Expr) (st' : St), noCond e = true → noCall e = false → handle true e st = .ok (s, st') → st'.cond.isNil = false ∨ arithOk s = false := by
  intro e
  match e with
  | .lit _ | .var _ | .tmp _ => intro st s st' _ h; simp [noCall] at h
  | .un _ e | .deref e | .paren e | .cast e | .post _ e =>
    intro st s st' hc hn h
    rw [handle] at h
    obtain ⟨⟨s1, st1⟩, h1, h2⟩ := Res.bind_eq_ok.1 h
    cases h2
    have := handle_call e _ _ _ (by simpa [noCond] using hc) (by simpa [noCall] using hn) h1
    simpa [arithOk] using this
  | .bin _ _ a b | .comma a b | .opassign _ a b =>
    intro st s st' hc hn h
    simp [noCond] at hc
    simp only [noCall, Bool.and_eq_false_iff] at hn
    rw [handle] at h
    obtain ⟨⟨s1, st1⟩, h1, h2⟩ := Res.bind_eq_ok.1 h
    obtain ⟨⟨s2, st2⟩, h3, h4⟩ := Res.bind_eq_ok.1 h2
    cases h4
    rcases hn with hn | hn
    · rcases handle_call a _ _ _ hc.1 hn h1 with h5 | h5
      · exact .inl (handle_keeps b _ _ _ hc.2 h3 h5)
      · right; simp [arithOk, h5]
    · rcases handle_call b _ _ _ hc.2 hn h3 with h5 | h5
      · exact .inl h5
      · right; simp [arithOk, h5]
  | .assign a b =>
    intro st s st' hc hn h
    simp [noCond] at hc
    simp only [noCall, Bool.and_eq_false_iff] at hn
    by_cases hr : isCall b = false
    · rw [handle_assign hr] at h
      obtain ⟨⟨s1, st1⟩, h1, h2⟩ := Res.bind_eq_ok.1 h
      obtain ⟨⟨s2, st2⟩, h3, h4⟩ := Res.bind_eq_ok.1 h2
      cases h4
      rcases hn with hn | hn
      · rcases handle_call a _ _ _ hc.1 hn h1 with h5 | h5
        · exact .inl (handle_keeps b _ _ _ hc.2 h3 h5)
        · right; simp [arithOk, h5]
      · rcases handle_call b _ _ _ hc.2 hn h3 with h5 | h5
        · exact .inl h5
        · right; simp [arithOk, h5]
    · match b, hr with
      | .call f as, _ =>
        rw [handle] at h
        obtain ⟨⟨s1, st1⟩, h1, h2⟩ := Res.bind_eq_ok.1 h
        cases h2
        exact .inl (pushed ..)
  | .call f as =>
    intro st s st' _ _ h
    rw [handle] at h
    obtain ⟨⟨s1, st1⟩, h1, h2⟩ := Res.bind_eq_ok.1 h
    cases h2
    exact .inl (pushed ..)
  | .logic i a b =>
    intro st s st' hc hn h
    simp [noCond] at hc
    simp only [noCall, Bool.and_eq_false_iff] at hn
    rw [handle] at h
    obtain ⟨⟨s1, st1⟩, h1, h2⟩ := Res.bind_eq_ok.1 h
    obtain ⟨⟨s2, st2⟩, h3, h4⟩ := Res.bind_eq_ok.1 h2
    cases h4
    right
    rcases hn with hn | hn
    · rcases handle_call a _ _ _ hc.1 hn h1 with h5 | h5
      · simp [arithOk, h5]
      · simp [arithOk, h5]
    · rcases handle_call b _ _ _ hc.2 hn h3 with h5 | h5
      · simp [arithOk, h5]
      · simp [arithOk, h5]
  | .logic4 .. | .cond .. => intro st s st' hc; simp [noCond] at hc

theorem noCall_arith : ∀ (e : Expr), noCond e = true → noCall e = false → arithOk e = false := by
  intro e
  match e with
  | .lit _ | .var _ | .tmp _ => simp [noCall]
  | .un _ e | .deref e | .paren e | .cast e | .post _ e => simpa [noCond, noCall, arithOk] using noCall_arith e
  | .bin _ _ a b | .comma a b | .opassign _ a b | .assign a b =>
    simp only [noCond, noCall, arithOk, Bool.and_eq_true, Bool.and_eq_false_iff]
    exact fun h h' => h'.imp (noCall_arith a h.1) (noCall_arith b h.2)
  | .call .. | .logic .. => intro _ _; rfl
  | .logic4 .. | .cond .. => simp [noCond]

theorem mayskip_arith : ∀ (e : Expr), flat e = true → mayskip e = true → arithOk e = false := by
  intro e
  match e with
  | .lit _ | .var _ | .tmp _ | .call .. | .logic4 .. => simp [mayskip]
  | .un _ e | .deref e | .paren e | .cast e | .post _ e => simpa [flat, mayskip, arithOk] using mayskip_arith e
  | .bin _ _ a b | .comma a b | .opassign _ a b | .assign a b =>
    simp only [flat, mayskip, arithOk, Bool.and_eq_true, Bool.or_eq_true, Bool.and_eq_false_iff]
    exact fun h h' => h'.imp (mayskip_arith a h.1) (mayskip_arith b h.2)
  | .logic .. => intro _ _; rfl
  | .cond c a b =>
    simp only [flat, mayskip, arithOk, Bool.and_eq_true, Bool.or_eq_true, Bool.and_eq_false_iff, Bool.not_eq_true']
    exact fun h h' => h'.imp (Or.imp (mayskip_arith c h.1.1) (noCall_arith a h.1.2)) (noCall_arith b h.2)

/-- A call that may be skipped is not accepted in arithmetic. -/
theorem handle_rejects : ∀ (e : Expr) (flag : Bool) (st : St) (s : Expr) (st' : St), flat e = true → mayskip e = true → handle flag e st = .ok (s, st') → arithOk s = false := by
  intro e
  match e with
  | .lit _ | .var _ | .tmp _ | .call .. | .logic4 .. => intro flag st s st' _ h; simp [mayskip] at h
  | .un _ e | .deref e | .paren e | .cast e | .post _ e =>
    intro flag st s st' hc hn h
    rw [handle] at h
    obtain ⟨⟨s1, st1⟩, h1, h2⟩ := Res.bind_eq_ok.1 h
    cases h2
    have := handle_rejects e _ _ _ _ (by simpa [flat] using hc) (by simpa [mayskip] using hn) h1
    simpa [arithOk] using this
  | .bin _ _ a b | .comma a b | .opassign _ a b =>
    intro flag st s st' hc hn h
    simp [flat] at hc
    simp only [mayskip, Bool.or_eq_true] at hn
    rw [handle] at h
    obtain ⟨⟨s1, st1⟩, h1, h2⟩ := Res.bind_eq_ok.1 h
    obtain ⟨⟨s2, st2⟩, h3, h4⟩ := Res.bind_eq_ok.1 h2
    cases h4
    rcases hn with hn | hn
    · simp [arithOk, handle_rejects a _ _ _ _ hc.1 hn h1]
    · simp [arithOk, handle_rejects b _ _ _ _ hc.2 hn h3]
  | .assign a b =>
    intro flag st s st' hc hn h
    simp [flat] at hc
    simp only [mayskip, Bool.or_eq_true] at hn
    by_cases hr : isCall b = false
    · rw [handle_assign hr] at h
      obtain ⟨⟨s1, st1⟩, h1, h2⟩ := Res.bind_eq_ok.1 h
      obtain ⟨⟨s2, st2⟩, h3, h4⟩ := Res.bind_eq_ok.1 h2
      cases h4
      rcases hn with hn | hn
      · simp [arithOk, handle_rejects a _ _ _ _ hc.1 hn h1]
      · simp [arithOk, handle_rejects b _ _ _ _ hc.2 hn h3]
    · match b, hr, hn with
      | .call f as, _, hn =>
        rw [handle] at h
        obtain ⟨⟨s1, st1⟩, h1, h2⟩ := Res.bind_eq_ok.1 h
        cases h2
        simp only [mayskip, Bool.false_eq_true, or_false] at hn
        exact mayskip_arith _ hc.1 hn
  | .logic i a b =>
    intro flag st s st' hc hn h
    simp [flat] at hc
    simp only [mayskip, Bool.or_eq_true, Bool.not_eq_true'] at hn
    rw [handle] at h
    obtain ⟨⟨s1, st1⟩, h1, h2⟩ := Res.bind_eq_ok.1 h
    obtain ⟨⟨s2, st2⟩, h3, h4⟩ := Res.bind_eq_ok.1 h2
    cases h4
    rcases hn with hn | hn
    · rcases handle_call a _ _ _ hc.1 hn h1 with h5 | h5
      · simp [arithOk, h5]
      · simp [arithOk, h5]
    · rcases handle_call b _ _ _ hc.2 hn h3 with h5 | h5
      · simp [arithOk, h5]
      · simp [arithOk, h5]
  | .cond c a b =>
    intro flag st s st' hc hn h
    simp [flat] at hc
    simp only [mayskip, Bool.or_eq_true, Bool.not_eq_true'] at hn
    rw [handle] at h
    obtain ⟨⟨s1, st1⟩, h1, h2⟩ := Res.bind_eq_ok.1 h
    obtain ⟨⟨s2, st2⟩, h3, h4⟩ := Res.bind_eq_ok.1 h2
    dsimp only at h4
    split at h4
    · rename_i hnil
      simp only [Bool.and_eq_true] at hnil
      obtain ⟨⟨s3, st3⟩, h5, h6⟩ := Res.bind_eq_ok.1 h4
      cases h6
      rcases hn with (hn | hn) | hn
      · simp [arithOk, handle_rejects c _ _ _ _ hc.1.1 hn h5]
      · rcases handle_call a _ _ _ hc.1.2 hn h1 with h7 | h7
        · rw [hnil.1] at h7; cases h7
        · simp [arithOk, h7]
      · rcases handle_call b _ _ _ hc.2 hn h3 with h7 | h7
        · rw [hnil.2] at h7; cases h7
        · simp [arithOk, h7]
    · cases h4

theorem compRv_rejects {n g : Nat} {e : Expr} {p : Rv} (hc : flat e = true) (hn : mayskip e = true) : compRv n e g ≠ .ok p := by
  intro h
  cases n with
  | zero => cases h
  | succ n =>
    rw [compRv] at h
    obtain ⟨⟨s, st⟩, h1, h2⟩ := Res.bind_eq_ok.1 h
    obtain ⟨⟨ls, g'⟩, h3, h4⟩ := Res.bind_eq_ok.1 h2
    dsimp only at h4
    rw [handle_rejects e _ _ _ _ hc hn h1] at h4
    cases h4

end Verif.Hoist
