import Verif.Enum.Model
import Verif.EvalConst.Props
/-! C36. -/
namespace Verif.Enum
open Verif Verif.EvalConst

namespace Spec
/-- C's numbering (C11 6.7.2.2p3): the value of the initialiser, or one more than the enumerator before;
`next` is the value of the next enumerator without initialiser. -/
def numbers (next : Int) : List (Nat × Option Expr) → Option (List (Nat × Int))
  | [] => some []
  | (x, some e) :: r =>
    match EvalConst.Spec.value e with
    | some v => (numbers (v + 1) r).map ((x, v) :: ·)
    | none => none
  | (x, none) :: r => (numbers (next + 1) r).map ((x, next) :: ·)

/-- The initialisers are in the domain of C05 (`&&`/`||` with a right operand that is visibly 0 or 1 where
their value matters; character constants in range). -/
def Inits (l : List (Nat × Option Expr)) : Prop :=
  ∀ x e, (x, some e) ∈ l → chrOk e ∧ EvalConst.Spec.okV e = true
end Spec

theorem value_unparen (e : Expr) : EvalConst.Spec.value (unparen e) = EvalConst.Spec.value e := by
  induction e <;> simp_all [unparen, EvalConst.Spec.value]

theorem eval_unparen (b : Bool) (e : Expr) : eval b (unparen e) = eval b e := by
  induction e <;> simp_all [unparen, eval]

theorem initVal_ok {base : Bool} {e : Expr} (hc : chrOk e) (hk : EvalConst.Spec.okV e = true) {s : Int}
    (h : initVal base e = .ok s) : EvalConst.Spec.value e = some (-s) := by
  have main : ∀ v, eval false e = .ok v → EvalConst.Spec.value e = some v :=
    fun v hv => C05_value_partial e hc hk v ((C05_outside_if e).2.2 v hv)
  have key : ∀ {s}, (eval false e).bind (fun v => chk (-v)) = .ok s → EvalConst.Spec.value e = some (-s) := by
    intro s h
    rw [Res.bind_eq_ok] at h
    obtain ⟨v, hv, h⟩ := h
    obtain ⟨rfl, _⟩ := chk_ok h
    rw [Int.neg_neg]
    exact main v hv
  unfold initVal at h
  split at h
  · split at h
    · rename_i s' hs
      injection h with h
      subst h
      rw [← value_unparen, hs]
      rfl
    · rw [eval_unparen] at h
      exact key h
  · exact key h

theorem parse_spec {base : Bool} : ∀ (l : List (Nat × Option Expr)) {next : Int} {out : List (Nat × Int)},
    Spec.Inits l → parse_enum base next l = .ok out →
    Spec.numbers (-next) l = some (out.map fun p => (p.1, -p.2))
  | [], next, out, _, h => by
    simp only [parse_enum, Res.ok.injEq] at h
    subst h
    rfl
  | (x, some e) :: r, next, out, hi, h => by
    simp only [parse_enum] at h
    rw [Res.bind_eq_ok] at h
    obtain ⟨s, hs, h⟩ := h
    rw [Res.bind_eq_ok] at h
    obtain ⟨n, hn, h⟩ := h
    rw [Res.bind_eq_ok] at h
    obtain ⟨l, hl, h⟩ := h
    simp only [Res.ok.injEq] at h
    subst h
    obtain ⟨hc, hk⟩ := hi x e (by simp)
    obtain ⟨rfl, _⟩ := chk_ok hn
    have ih := parse_spec r (fun y e hy => hi y e (by simp [hy])) hl
    rw [Int.neg_sub, Int.sub_eq_add_neg, Int.add_comm] at ih
    simp [Spec.numbers, initVal_ok hc hk hs, ih]
  | (x, none) :: r, next, out, hi, h => by
    simp only [parse_enum] at h
    rw [Res.bind_eq_ok] at h
    obtain ⟨n, hn, h⟩ := h
    rw [Res.bind_eq_ok] at h
    obtain ⟨l, hl, h⟩ := h
    simp only [Res.ok.injEq] at h
    subst h
    obtain ⟨rfl, _⟩ := chk_ok hn
    have ih := parse_spec r (fun y e hy => hi y e (by simp [hy])) hl
    rw [Int.neg_sub, Int.sub_eq_add_neg, Int.add_comm] at ih
    simp [Spec.numbers, ih]

/-- **C36 (partial)**: the numbers stored for the enumerators of an accepted enumeration (negated, as
all small integers of the compiler) are those of C. `base` selects the sh backend's variant.
Missing: initialisers outside the domain of C05, and the load of negative constants on x86-64
(`C36_load`, `C36_negative_false`). -/
theorem C36_numbering_partial (base : Bool) (l : List (Nat × Option Expr)) (out : List (Nat × Int))
    (hi : Spec.Inits l) (h : parse_enum base 0 l = .ok out) :
    Spec.numbers 0 l = some (out.map fun p => (p.1, -p.2)) := by
  have := parse_spec l hi h
  simpa using this

/-- Every enumeration whose numbers are in the range of `int` with one to spare, with literal or no
initialisers, is accepted. -/
theorem C36_accepts (base : Bool) : ∀ (l : List (Nat × Option Expr)) (next : Int),
    (∀ x e, (x, some e) ∈ l → ∃ s, e = .int s ∧ -2147483647 ≤ s ∧ s ≤ 0) →
    -2147483647 + l.length ≤ next → next ≤ 2147483647 →
    (∀ x e, (x, some (Expr.int e)) ∈ l → -2147483647 + l.length ≤ e) →
    ∃ out, parse_enum base next l = .ok out
  | [], next, _, _, _, _ => ⟨_, rfl⟩
  | (x, some e) :: r, next, he, hn, hn', hb => by
    obtain ⟨s, rfl, h1, h2⟩ := he x e (by simp)
    have hs : initVal base (.int s) = .ok s := by
      unfold initVal
      cases base
      · have a1 : inInt (-s) = true := by rw [inInt_iff]; omega
        have a2 : inInt s = true := by rw [inInt_iff]; omega
        have a3 : ¬ 0 < s := by omega
        simp [eval, chk, a1, a2, a3]
      · simp [unparen]
    have h3 := hb x s (by simp)
    simp only [List.length_cons] at h3 hb
    push_cast at h3
    have ih := C36_accepts base r (s - 1) (fun y e hy => he y e (by simp [hy])) (by omega) (by omega)
      (fun y e hy => by have := hb y e (by simp [hy]); push_cast at this; omega)
    obtain ⟨out, ho⟩ := ih
    have hc : chk (s - 1) = .ok (s - 1) := by simp [chk, inInt]; omega
    exact ⟨(x, s) :: out, by simp [parse_enum, hs, hc, ho]⟩
  | (x, none) :: r, next, he, hn, hn', hb => by
    simp only [List.length_cons] at hn hb
    push_cast at hn
    have ih := C36_accepts base r (next - 1) (fun y e hy => he y e (by simp [hy])) (by omega) (by omega)
      (fun y e hy => by have := hb y e (by simp [hy]); push_cast at this; omega)
    obtain ⟨out, ho⟩ := ih
    have hc : chk (next - 1) = .ok (next - 1) := by simp [chk, inInt]; omega
    exact ⟨(x, next) :: out, by simp [parse_enum, hc, ho]⟩

/-- **C36, use of a constant**: the word loaded for a constant with C value `v` is `v`, on i386 for
every `v`, on x86-64 for every `v` that is not negative (low and high half of its 64-bit encoding). -/
theorem C36_load (heap : Nat → Int) (v : Int) (h : -2147483648 ≤ v) (h' : v ≤ 2147483647) :
    load32 (-v) = .ok v ∧ (0 ≤ v → load64 heap (-v) = (v, 0)) := by
  constructor
  · simp [load32, chk, inInt]; omega
  · intro h0
    simp only [load64]
    rw [if_pos (by omega), Int.neg_neg]
    congr 1
    omega

/-- C36 is false of the code on x86-64: for `enum { A = -1 }` the stored number is 1, which is taken as
the index of a large integer in the heap, so that the constant has the value of unrelated heap cells. -/
theorem C36_negative_false (heap : Nat → Int) :
    parse_enum false 0 [(0, some (.neg (.int (-1))))] = .ok [(0, 1)] ∧
    Spec.numbers 0 [(0, some (.neg (.int (-1))))] = some [(0, -1)] ∧
    load64 heap 1 = (heap 1, heap 2) := ⟨rfl, rfl, rfl⟩

/-- `enum { A, B = 5, C, D = (2 + 1) * 3, E }`. -/
example : parse_enum false 0 [(0, none), (1, some (.int (-5))), (2, none),
      (3, some (.bin .mul (.parens (.bin .add (.int (-2)) (.int (-1)))) (.int (-3)))), (4, none)] =
    .ok [(0, 0), (1, -5), (2, -6), (3, -9), (4, -10)] := by decide

example : Spec.Inits [(0, none), (1, some (.int (-5))), (2, none),
      (3, some (.bin .mul (.parens (.bin .add (.int (-2)) (.int (-1)))) (.int (-3)))), (4, none)] := by
  intro x e h
  simp at h
  rcases h with ⟨_, rfl⟩ | ⟨_, rfl⟩ <;> exact ⟨by simp [chrOk], by decide⟩

end Verif.Enum
