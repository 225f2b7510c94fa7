import Verif.EvalConst.Proofs
/-! # C05 — `#if` expressions evaluate like C constant expressions -/
namespace Verif.EvalConst
open Verif Spec

/-- **C05 (partial), decision form.**  Whenever the evaluator produces a decision (neither a
diagnostic nor undefined behaviour such as overflow of `int`), the decision of `#if e` is the one
C prescribes, for every expression in which a `&&`/`||` with a non-boolean right operand is used
only for its truth.  Missing: such operators used for their value, see `C05_logical_value_false`. -/
theorem C05_if_decision_partial (e : Expr) (hc : chrOk e) (hok : okB e = true) (d : Bool)
    (h : ifDecision e = .ok d) : ∃ v, Spec.value e = some v ∧ (d = true ↔ v ≠ 0) := by
  simp only [ifDecision] at h
  obtain ⟨w, h1, h2⟩ := Res.bind_eq_ok.mp h
  injection h2 with h2
  obtain ⟨v, hv, hi⟩ := (eval_spec e hc).2 hok w h1
  refine ⟨v, hv, ?_⟩
  subst h2
  rw [bne_iff_ne]
  exact not_congr hi.symm

/-- **C05 (partial), value form** (also used for array sizes and enumerators). -/
theorem C05_value_partial (e : Expr) (hc : chrOk e) (hok : okV e = true) (v : Int)
    (h : eval true e = .ok v) : Spec.value e = some v := ((eval_spec e hc).1 hok v h).1

/-- Every expression without `&&` and `||` qualifies. -/
def noLogical : Expr → Bool
  | .land _ _ | .lor _ _ => false
  | .parens e | .bnot e | .lnot e | .neg e | .plus e => noLogical e
  | .bin _ a b => noLogical a && noLogical b
  | .cond c a b => noLogical c && noLogical a && noLogical b
  | _ => true

theorem noLogical_ok (e : Expr) (h : noLogical e = true) : okV e = true ∧ okB e = true := by
  induction e with
  | land | lor => simp [noLogical] at h
  | parens e ih => simpa [okV, okB] using ih (by simpa [noLogical] using h)
  | bnot e ih => simpa [okV, okB] using (ih (by simpa [noLogical] using h)).1
  | lnot e ih => simpa [okV, okB] using (ih (by simpa [noLogical] using h)).2
  | neg e ih => simpa [okV, okB] using (ih (by simpa [noLogical] using h)).1
  | plus e ih => simpa [okV, okB] using ih (by simpa [noLogical] using h)
  | bin op a b iha ihb =>
    simp only [noLogical, Bool.and_eq_true] at h
    simp [okV, okB, (iha h.1).1, (ihb h.2).1]
  | cond c a b ihc iha ihb =>
    simp only [noLogical, Bool.and_eq_true] at h
    simp [okV, okB, (ihc h.1.1).2, (iha h.1.2), (ihb h.2)]
  | _ => simp [okV, okB]

/-- **C05 without `&&`/`||`**: the value is C's. -/
theorem C05_value_no_logical (e : Expr) (hc : chrOk e) (hn : noLogical e = true) (v : Int)
    (h : eval true e = .ok v) : Spec.value e = some v :=
  C05_value_partial e hc (noLogical_ok e hn).1 v h

/-- **C05, short circuit.**  The right operand of `&&`/`||` and the other branch of `?:` are not
evaluated when C does not evaluate them: they may be invalid. -/
theorem C05_short_circuit (a b : Expr) (v : Int) (h : eval true a = .ok v) :
    (v = 0 → eval true (.land a b) = .ok 0) ∧ (v ≠ 0 → eval true (.lor a b) = .ok 1) ∧
    (v = 0 → eval true (.cond a .other b) = eval true b) ∧
    (v ≠ 0 → eval true (.cond a b .other) = eval true b) := by
  refine ⟨fun h0 => ?_, fun h0 => ?_, fun h0 => ?_, fun h0 => ?_⟩ <;> simp [eval, h, h0]

/-- **C05, constants outside `#if`** (enum values, array sizes, case labels): identifiers and
`defined` are rejected there, and a constant accepted there has the value it has in `#if`. -/
theorem C05_outside_if (e : Expr) :
    (∀ n, eval false (.ident n) = .fatal) ∧ (∀ b, eval false (.defined b) = .fatal) ∧
    ∀ v, eval false e = .ok v → eval true e = .ok v := by
  refine ⟨fun _ => rfl, fun _ => rfl, ?_⟩
  induction e with
  | int s => intro v h; exact h
  | chr c => intro v h; exact h
  | parens e ih => exact ih
  | bnot e ih =>
    intro v h
    obtain ⟨x, h1, h2⟩ := Res.bind_eq_ok.mp h
    simp only [eval, ih x h1]; exact h2
  | lnot e ih =>
    intro v h
    obtain ⟨x, h1, h2⟩ := Res.bind_eq_ok.mp h
    simp only [eval, ih x h1]; exact h2
  | neg e ih =>
    intro v h
    obtain ⟨x, h1, h2⟩ := Res.bind_eq_ok.mp h
    simp only [eval, ih x h1]; exact h2
  | plus e ih => exact ih
  | bin op a b iha ihb =>
    intro v h
    obtain ⟨x, h1, h2⟩ := Res.bind_eq_ok.mp h
    obtain ⟨y, h3, h4⟩ := Res.bind_eq_ok.mp h2
    simp only [eval, iha x h1, ihb y h3]; exact h4
  | land a b iha ihb =>
    intro v h
    obtain ⟨x, h1, h2⟩ := Res.bind_eq_ok.mp h
    simp only [eval, iha x h1, Res.bind_ok]
    split at h2
    · rename_i hx; rw [if_pos hx]; exact h2
    · rename_i hx; rw [if_neg hx]; exact ihb v h2
  | lor a b iha ihb =>
    intro v h
    obtain ⟨x, h1, h2⟩ := Res.bind_eq_ok.mp h
    simp only [eval, iha x h1, Res.bind_ok]
    split at h2
    · rename_i hx; rw [if_pos hx]; exact h2
    · rename_i hx; rw [if_neg hx]; exact ihb v h2
  | cond c a b ihc iha ihb =>
    intro v h
    obtain ⟨x, h1, h2⟩ := Res.bind_eq_ok.mp h
    simp only [eval, ihc x h1, Res.bind_ok]
    split at h2
    · rename_i hx; rw [if_pos hx]; exact iha v h2
    · rename_i hx; rw [if_neg hx]; exact ihb v h2
  | defined m => intro v h; cases h
  | ident n => intro v h; cases h
  | other => intro v h; cases h

/-- Non-vacuity: `defined(X) && (7 / 2 == 3 || Y)`, `(1 << 4 | 3) % 5 - -2`. -/
example : let e := Expr.land (.defined true) (.lor (.bin .eq (.bin .div (.int (-7)) (.int (-2)))
      (.int (-3))) (.ident 9))
    chrOk e ∧ okB e = true ∧ ifDecision e = .ok true := by
  refine ⟨by simp [chrOk], by decide, by decide⟩
example : let e := Expr.bin .sub (.bin .rem (.parens (.bin .or (.bin .shl (.int (-1)) (.int (-4)))
      (.int (-3)))) (.int (-5))) (.neg (.int (-2)))
    noLogical e = true ∧ eval true e = .ok 6 := by decide

/-- C05 is false of the code: `#if (1 && 2) == 1` is taken as false. -/
theorem C05_logical_value_false :
    ∃ e : Expr, Spec.value e = some 1 ∧ ifDecision e = .ok false :=
  ⟨.bin .eq (.parens (.land (.int (-1)) (.int (-2)))) (.int (-1)), by decide, by decide⟩

/-- C05 is false of the code: preprocessor arithmetic is done on `int`, so that
`#if 2147483647 + 1` (value 2147483648 in C) is undefined behaviour of the compiler. -/
theorem C05_int_overflow_false :
    ∃ e : Expr, Spec.value e = some 2147483648 ∧ ifDecision e = .ub :=
  ⟨.bin .add (.int (-2147483647)) (.int (-1)), by decide, by decide⟩

/-- A division by zero in a condition is not diagnosed: the compiler itself divides by zero. -/
theorem C05_division_by_zero_undiagnosed (a : Expr) (v : Int) (h : eval true a = .ok v) :
    eval true (.bin .div a (.int 0)) = .ub := by
  simp [eval, h, evalBin, chk, inInt]

end Verif.EvalConst
