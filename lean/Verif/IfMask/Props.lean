import Verif.IfMask.Proofs
/-! # C03, C04 — conditional compilation -/
namespace Verif.IfMask
open Verif Spec

/-- **C03 (partial).**  A properly nested source, of nesting depth at most 10 and whose conditions
can all be evaluated, compiles to exactly the tokens that the C rules select, with the macros they
define, and the conditional state is back to "no open group, text enabled".
Missing for the full statement: conditions in *skipped* text are evaluated too, so a skipped
condition that cannot be evaluated is an error (`C03_skipped_condition_false`), and depths 11..20
are refused although announced as supported (`C04_documented_depth_false`). -/
theorem C03_select_partial (p : Src) (m : Macros) (ht : p.Total) (hd : p.depth ≤ 10) :
    ∃ s, compile m p.lines = .ok s ∧ s.out = (p.select m).1 ∧ s.macros = (p.select m).2 ∧
      s.ix = 0 ∧ s.mask = true := by
  obtain ⟨s, h1, h2, h3, h4⟩ := src_on p (init m) ht (by simp [init, IFDEF_DEPTH_MAX]; omega) rfl
  refine ⟨s, ?_, ?_, ?_, ?_, ?_⟩
  · have hm : s.mask = true := h2.mask
    simp [compile, h1, hm]
  · simpa [init] using h3
  · simpa [init] using h4
  · simpa [init] using h2.ix
  · simpa [init] using h2.mask

/-- **C03, locality.**  Wherever a nested piece of source occurs (any reachable mask state), it
leaves the conditional state unchanged; in disabled text it contributes nothing at all. -/
theorem C03_balanced_restores (p : Src) (s : St) (ht : p.Total)
    (hd : s.ix + 2 * p.depth ≤ IFDEF_DEPTH_MAX) :
    ∃ s', run s p.lines = .ok s' ∧ s'.ix = s.ix ∧ s'.mask = s.mask ∧ s'.executed = s.executed ∧
      (s.mask = false → s'.out = s.out ∧ s'.macros = s.macros) := by
  cases hm : s.mask with
  | true =>
    obtain ⟨s', h1, h2, -⟩ := src_on p s ht hd hm
    exact ⟨s', h1, h2.ix, by rw [h2.mask, hm], h2.executed, by simp⟩
  | false =>
    obtain ⟨s', h1, h2, h3, h4⟩ := src_off p s ht hd hm
    exact ⟨s', h1, h2.ix, by rw [h2.mask, hm], h2.executed, fun _ => ⟨h3, h4⟩⟩

/-- Example source: a group with a nested group in each branch and a macro defined on the way. -/
def demo : Src :=
  .define 1 (.group (.ifdef 2) (.tok 10 .nil)
    (.elif (fun m => some (m 1)) (.tok 20 (.undef 1 (.group (.ifndef 1) (.tok 21 .nil)
        (.els (.tok 22 .nil)) .nil)))
      (.elif (fun _ => some true) (.tok 30 .nil) (.els (.tok 40 .nil)))) (.tok 50 .nil))
example : demo.Total ∧ demo.depth ≤ 10 := by
  simp [demo, Src.Total, Tail.Total, Cond.Total, Src.depth, Tail.depth]
example : (demo.select (fun _ => false)).1 = [20, 21, 50] := by
  simp [demo, Src.select, Tail.select, Head.holds, upd]

/-- C03 fails for skipped conditions: C ignores the condition of an `#elif` after a selected
branch; pnut evaluates it and gives up. -/
theorem C03_skipped_condition_false :
    ∃ p : Src, p.depth = 1 ∧ (p.select (fun _ => false)).1 = [1] ∧
      compile (fun _ => false) p.lines = .fatal := by
  refine ⟨.group (.ifc fun _ => some true) (.tok 1 .nil) (.elif (fun _ => none) .nil .endif) .nil,
    ?_, ?_, ?_⟩
  · simp [Src.depth, Tail.depth]
  · simp [Src.select, Head.holds]
  · simp [compile, Src.lines, Tail.lines, Head.ev, run, step, push, init, IFDEF_DEPTH_MAX]

/-- An unterminated disabled group makes the compiler loop forever at the end of the input. -/
theorem C03_unterminated_diverges (m : Macros) (es : List Ev) (s : St)
    (h : run (init m) es = .ok s) (hm : s.mask = false) : compile m es = .diverge := by
  simp [compile, h, hm]
example : compile (fun _ => false) [.ifdef 1, .tok 3] = .diverge :=
  C03_unterminated_diverges _ _ { init (fun _ => false) with
      stack := upd (upd (fun _ => false) 0 true) 1 false, ix := 2, mask := false, executed := false }
    (by simp [run, step, push, init, IFDEF_DEPTH_MAX]) rfl

/-! ## C04 -/

/-- Number of `#if`-like lines. -/
def opens : List Ev → Nat
  | [] => 0
  | .ifdef _ :: es | .ifndef _ :: es | .ifc _ :: es => opens es + 1
  | _ :: es => opens es
/-- Number of `#endif` lines. -/
def closes : List Ev → Nat
  | [] => 0
  | .endif :: es => closes es + 1
  | _ :: es => closes es
/-- All conditions can be evaluated. -/
def EvTotal : Ev → Prop
  | .ifc c | .elifc c => Cond.Total c
  | _ => True

theorem run_iff_depth (es : List Ev) (ht : ∀ e ∈ es, EvTotal e) (s : St) (h : s.ix % 2 = 0)
    (h2 : s.ix ≤ 20) :
    (∃ s', run s es = .ok s') ↔
      ∀ k, k ≤ es.length → closes (es.take k) ≤ s.ix / 2 + opens (es.take k) ∧
        s.ix / 2 + opens (es.take k) ≤ closes (es.take k) + 10 := by
  induction es generalizing s with
  | nil => simp [run, opens, closes]; omega
  | cons e es ih =>
    have ih' := fun s' => ih (fun e he => ht e (by simp [he])) s'
    have hsplit : (∀ k, k ≤ (e :: es).length →
        closes ((e :: es).take k) ≤ s.ix / 2 + opens ((e :: es).take k) ∧
        s.ix / 2 + opens ((e :: es).take k) ≤ closes ((e :: es).take k) + 10) ↔
        ∀ k, k ≤ es.length → closes (e :: es.take k) ≤ s.ix / 2 + opens (e :: es.take k) ∧
        s.ix / 2 + opens (e :: es.take k) ≤ closes (e :: es.take k) + 10 := by
      constructor
      · intro hh k hk
        have := hh (k + 1) (by simpa using hk)
        simpa using this
      · intro hh k hk
        cases k with
        | zero => simp [opens, closes]; omega
        | succ k => simpa using hh k (by simpa using hk)
    rw [hsplit]
    have hpush : ∀ b, (∃ s', (push s b).bind (fun s' => run s' es) = .ok s') ↔
        ∀ k, k ≤ es.length → closes (es.take k) ≤ s.ix / 2 + (opens (es.take k) + 1) ∧
        s.ix / 2 + (opens (es.take k) + 1) ≤ closes (es.take k) + 10 := by
      intro b
      unfold push
      by_cases hx : s.ix ≥ IFDEF_DEPTH_MAX
      · rw [if_pos hx]
        simp only [Res.bind_fatal, reduceCtorEq, exists_false, false_iff]
        intro hh
        have := hh 0 (by omega)
        simp only [IFDEF_DEPTH_MAX] at hx
        simp [opens, closes] at this; omega
      · rw [if_neg hx]
        have hx' : s.ix < 20 := by simpa [IFDEF_DEPTH_MAX] using hx
        rw [if_neg (by simp only [IFDEF_DEPTH_MAX]; omega)]
        simp only [Res.bind_ok]
        rw [ih' _ (by simp only; omega) (by simp only; omega)]
        constructor <;>
        · intro hh k hk; have := hh k hk; simp only at *; omega
    have hplain : ∀ s', step s e = .ok s' → s'.ix = s.ix → opens (e :: []) = 0 → closes (e :: []) = 0 →
        (∀ l, opens (e :: l) = opens l) → (∀ l, closes (e :: l) = closes l) →
        ((∃ s', run s (e :: es) = .ok s') ↔
        ∀ k, k ≤ es.length → closes (e :: es.take k) ≤ s.ix / 2 + opens (e :: es.take k) ∧
        s.ix / 2 + opens (e :: es.take k) ≤ closes (e :: es.take k) + 10) := by
      intro s' hs hix _ _ ho hc
      simp only [run, hs, Res.bind_ok, ho, hc]
      rw [ih' s' (by omega) (by omega), hix]
    have hte := ht e (by simp)
    cases e with
    | tok a => 
      refine hplain _ rfl ?_ rfl rfl (fun _ => rfl) (fun _ => rfl); split <;> rfl
    | define a => 
      refine hplain _ rfl ?_ rfl rfl (fun _ => rfl) (fun _ => rfl); split <;> rfl
    | undef a => 
      refine hplain _ rfl ?_ rfl rfl (fun _ => rfl) (fun _ => rfl); split <;> rfl
    | ifdef n => simpa only [run, step, opens, closes] using hpush (s.macros n)
    | ifndef n => simpa only [run, step, opens, closes] using hpush (!s.macros n)
    | ifc c =>
      cases hc : c s.macros with
      | none => exact absurd hc (hte _)
      | some b => simpa only [run, step, hc, opens, closes] using hpush b
    | elifc c =>
      cases hc : c s.macros with
      | none => exact absurd hc (hte _)
      | some b =>
        refine hplain (elifStep s b) (by simp [step, hc]) ?_ rfl rfl (fun _ => rfl) (fun _ => rfl)
        unfold elifStep; split <;> rfl
    | elsed =>
      refine hplain (elseStep s) rfl ?_ rfl rfl (fun _ => rfl) (fun _ => rfl)
      unfold elseStep; split <;> rfl
    | endif =>
      simp only [run, step, pop, opens, closes]
      by_cases hx : s.ix = 0
      · rw [if_pos hx]
        simp only [Res.bind_fatal, reduceCtorEq, exists_false, false_iff]
        intro hh
        have := hh 0 (by omega)
        simp [opens, closes] at this; omega
      · rw [if_neg hx]
        simp only [Res.bind_ok]
        rw [ih' _ (by simp only; omega) (by simp only; omega)]
        constructor <;>
        · intro hh k hk; have := hh k hk; simp only at *; omega

/-- **C04 (partial).**  Exactly which directive sequences are accepted, for *every* sequence
(nested or not) whose conditions evaluate: those in which at every point no `#endif` is unmatched
and at most 10 groups are open.  Every other sequence is rejected with a fatal error.
Missing: the limit announced by the diagnostic is 20 (`C04_documented_depth_false`). -/
theorem C04_accepts_iff_partial (m : Macros) (es : List Ev) (ht : ∀ e ∈ es, EvTotal e) :
    ((∃ s, run (init m) es = .ok s) ↔
      ∀ k, k ≤ es.length → closes (es.take k) ≤ opens (es.take k) ∧
        opens (es.take k) ≤ closes (es.take k) + 10) ∧
    ((∃ s, run (init m) es = .ok s) ∨ run (init m) es = .fatal) := by
  refine ⟨by simpa [init] using run_iff_depth es ht (init m) rfl (by simp [init]), ?_⟩
  rcases run_ix es (init m) rfl (by simp [init]) with ⟨s, h, -⟩ | h
  · exact .inl ⟨s, h⟩
  · exact .inr h

/-- **C04, memory safety.**  No directive sequence whatsoever makes the mask stack be accessed
outside its array. -/
theorem C04_no_overrun (m : Macros) (es : List Ev) : run (init m) es ≠ .ub := by
  rcases run_ix es (init m) rfl (by simp [init]) with ⟨s, h, -⟩ | h <;> simp [h]

/-- C04 is false of the code: 11 nested `#ifdef` are refused though the message says that 20 are
supported. -/
theorem C04_documented_depth_false (m : Macros) :
    run (init m) (List.replicate 11 (.ifdef 0)) = .fatal := by
  simp [List.replicate, run, step, push, init, IFDEF_DEPTH_MAX]

/-- `#else` (and `#elif`) outside any group are accepted silently. -/
theorem C04_stray_else_accepted (m : Macros) :
    ∃ s, run (init m) [.elsed, .tok 1, .elsed, .tok 2] = .ok s ∧ s.out = [1] := by
  simp [run, step, elseStep, prevMask, init]

example (m : Macros) : ∃ s, run (init m) [.ifdef 1, .elsed, .tok 3, .endif] = .ok s := by
  refine ((C04_accepts_iff_partial m _ ?_).1).mpr ?_
  · simp [EvTotal]
  · intro k hk
    simp only [List.length_cons, List.length_nil] at hk
    rcases k with _ | _ | _ | _ | _ | k
    all_goals first | (simp [opens, closes]) | omega

end Verif.IfMask
