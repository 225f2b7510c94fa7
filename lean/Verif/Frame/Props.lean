import Verif.Frame.SetProofs
/-! C12: a call leaves the variables of its callers alone. -/
namespace Verif.Frame
open Verif Verif.Stmt

/-! ### The variable table -/

theorem add_fresh {env : List (Nat × Bool)} {x : Nat} {b : Bool} (h : x ∉ env.map Prod.fst) : add_local_var env x b = (x, b) :: env := by
  have : env.any (fun p => p.1 == x) = false := by
    rw [List.any_eq_false]
    intro p hp e
    rw [beq_iff_eq] at e
    exact h (List.mem_map.2 ⟨p, hp, e⟩)
  simp [add_local_var, this]

theorem add_old {env : List (Nat × Bool)} {x : Nat} {b : Bool} (h : x ∈ env.map Prod.fst) : add_local_var env x b = env := by
  have : env.any (fun p => p.1 == x) = true := by
    rw [List.any_eq_true]
    simp only [List.mem_map] at h
    obtain ⟨p, hp, rfl⟩ := h
    exact ⟨p, hp, by simp⟩
  simp [add_local_var, this]

theorem add_params : (ps : List Nat) → (env : List (Nat × Bool)) → (env.map Prod.fst ++ ps).Nodup →
    ps.foldl (fun e x => add_local_var e x true) env = (ps.map fun x => (x, true)).reverse ++ env
  | [], _, _ => rfl
  | x :: r, env, h => by
    rw [List.nodup_append] at h
    obtain ⟨h1, h2, h3⟩ := h
    simp only [List.nodup_cons] at h2
    simp only [List.foldl_cons]
    rw [add_fresh (fun hm => h3 x hm x (by simp) rfl), add_params r]
    · simp
    · simp only [List.map_cons, List.cons_append, List.nodup_cons, List.mem_append, not_or, List.nodup_append]
      exact ⟨⟨fun hm => h3 x hm x (by simp) rfl, h2.1⟩, h1, h2.2, fun a ha b hb => h3 a ha b (by simp [hb])⟩

theorem add_others (ps : List Nat) : (vs : List Nat) → (os : List Nat) → (ps ++ os).Nodup →
    ∃ os', (ps ++ os').Nodup ∧
      vs.foldl (fun e x => add_local_var e x false) ((os.map fun x => (x, false)).reverse ++ (ps.map fun x => (x, true)).reverse) =
        (os'.map fun x => (x, false)).reverse ++ (ps.map fun x => (x, true)).reverse
  | [], os, h => ⟨os, h, rfl⟩
  | x :: r, os, h => by
    simp only [List.foldl_cons]
    have hmem : x ∈ ((os.map fun x => (x, false)).reverse ++ (ps.map fun x => (x, true)).reverse).map Prod.fst ↔ x ∈ ps ++ os := by
      simp [Function.comp_def, or_comm]
    by_cases hx : x ∈ ps ++ os
    · rw [add_old (hmem.2 hx)]; exact add_others ps r os h
    · rw [add_fresh (fun hm => hx (hmem.1 hm))]
      have e : (x, false) :: ((os.map fun x => (x, false)).reverse ++ (ps.map fun x => (x, true)).reverse) =
          ((os ++ [x]).map fun x => (x, false)).reverse ++ (ps.map fun x => (x, true)).reverse := by simp
      rw [e]
      refine add_others ps r (os ++ [x]) ?_
      rw [← List.append_assoc, List.nodup_append]
      exact ⟨h, by simp, fun a ha b hb => by simp at hb; subst hb; rintro rfl; exact hx ha⟩

/-- The table built by adding the parameters (all different: `add_var_to_local_env` stops at a
repetition), then the other variables in the order of their declarations, is as required below, also if
the same name is declared in several blocks. -/
theorem C12_table (f : Fn) (vs : List Nat) (hn : f.params.Nodup)
    (h : f.vars.locals_fun = vs.foldl (fun e x => add_local_var e x false) (f.params.foldl (fun e x => add_local_var e x true) [])) : f.wf := by
  rw [add_params f.params [] (by simpa using hn)] at h
  obtain ⟨os, ho, e⟩ := add_others f.params vs [] (by simpa using hn)
  refine ⟨hn, os, ho, ?_⟩
  rw [h]; simpa using e

/-! ### Calls -/

/-- **C12** (with `let`/`endlet`).  Take any program whose functions are compiled as described
(`comp_glo_fun_decl` on a supported body).  If in C — where each call has its own variables — a call
ends with globals `G'` and result `v`, then the shell command `_f ret args`, run in any store `s` that
agrees on the globals, ends too, and afterwards: the globals are those of `G'`; the result is in `ret`;
every other local variable or temporary, of whatever function, has the value it had before; and the
stack of saved values is as before.  Calls may nest and recurse to any depth `d`.

Partial: simple commands are abstract functions of the variables that a function can name; statements
are restricted as in C13. -/
theorem C12_call_partial (prog : Nat → Option Fn) (hp : ∀ k f, prog k = some f → f.wf ∧ f.dsts ∧ f.compiled)
    (n d k : Nat) (args : List Int) (ret : Name) (s G G' : Store) (v : Option Int)
    (hret : ∀ i, ret ≠ .stk i ∧ ret ≠ .sp ∧ ret ≠ .tmp) (hG : ∀ g, s (.glob g) = G (.glob g))
    (h : ccall prog n d k args G = some (G', v)) :
    ∃ s', scall prog n d k args ret s = some s' ∧
      (∀ g, .glob g ≠ ret → s' (.glob g) = G' (.glob g)) ∧
      (∀ x, v = some x → s' ret = x) ∧
      (∀ i, .loc i ≠ ret → s' (.loc i) = s (.loc i)) ∧
      (∀ i, .temp i ≠ ret → s' (.temp i) = s (.temp i)) ∧
      s' .sp = s .sp ∧ ∀ i ≤ s .sp, s' (.stk i) = s (.stk i) := by
  have hr : ret.isVar = true := by
    have := hret 0
    cases ret with
    | stk i => exact absurd rfl (hret i).1
    | sp => simp at this
    | tmp => simp at this
    | _ => rfl
  obtain ⟨s', e, p⟩ := call_ok hp n d k args G s ret G' v hr hG h
  exact ⟨s', e, fun g hg => p.globals g (Or.inl hg), p.result, fun i hi => p.others _ rfl hi, fun i hi => p.others _ rfl hi, p.sp, p.stack⟩

/-- **C12** (with `SH_SAVE_VARS_WITH_SET`).  If all calls pass as many arguments as there are parameters,
a call that ends leaves every local variable and temporary, except the one that receives the result, as
it was — whatever the variables of the called functions hold, at any depth of nesting. -/
theorem C12_call_set_partial (prog : Nat → Option Fn) (hp : ∀ k f, prog k = some f → f.wf ∧ f.dsts ∧ f.compiled ∧ f.arity prog)
    (n d k : Nat) (args : List Int) (ret : Name) (s s' : Store)
    (hret : ∀ i, ret ≠ .stk i ∧ ret ≠ .sp ∧ ret ≠ .tmp) (ha : ∀ f, prog k = some f → args.length = f.params.length)
    (h : scall2 prog n d k args ret s = some s') :
    (∀ i, .loc i ≠ ret → s' (.loc i) = s (.loc i)) ∧ ∀ i, .temp i ≠ ret → s' (.temp i) = s (.temp i) := by
  have hr : ret.isVar = true := by
    have := hret 0
    cases ret with
    | stk i => exact absurd rfl (hret i).1
    | sp => simp at this
    | tmp => simp at this
    | _ => rfl
  have := keeps hp n d k args ret s s' hr ha h
  exact ⟨fun i hi => this _ rfl hi, fun i hi => this _ rfl hi⟩

/-! ### A recursive function -/

/-- `int fib(int n) { int a; if (n < 2) return n; a = fib(n - 1); return a + fib(n - 2); }`:
`n` is variable 0, `a` variable 1, `__t1` holds the result of the second call. -/
def fib : Fn where
  params := [0]
  vars := ⟨add_local_var (add_local_var [] 0 true) 1 false, 1⟩
  body := .block (.cons (.ite 0 (.ret [0]) .empty) (.cons (.act [1]) (.cons (.ret [2, 3]) .nil)))
  code := .cons (.ite 0 (.cons (.simple 0) (.cons .ret .nil)) .none) (.cons (.simple 1) (.cons (.simple 2) (.cons (.simple 3) .nil)))
  acts
    | 0 => .ret fun s => s (.loc 0)
    | 1 => .call 0 (fun _ => .loc 1) fun s => [s (.loc 0) - 1]
    | 2 => .call 0 (fun _ => .temp 1) fun s => [s (.loc 0) - 2]
    | _ => .ret fun s => s (.loc 1) + s (.temp 1)
  tests _ := ⟨[], fun s => (s, if s (.loc 0) < 2 then 1 else 0)⟩

def fibProg : Nat → Option Fn := fun k => if k = 0 then some fib else none

theorem fib_compiled : fib.compiled := by refine ⟨by decide +kernel, ?_⟩; decide +kernel

theorem fib_ok (k : Nat) (f : Fn) (h : fibProg k = some f) : f.wf ∧ f.dsts ∧ f.compiled ∧ f.arity fibProg := by
  simp only [fibProg] at h
  split at h
  · simp only [Option.some.injEq] at h
    subst h
    refine ⟨C12_table fib [1] (by simp [fib]) rfl, ?_, fib_compiled, ?_, ?_⟩
    · intro a k dst args ha v
      match a with
      | 0 => simp [fib] at ha
      | 1 => simp only [fib, Act.call.injEq] at ha; obtain ⟨_, rfl, _⟩ := ha; rfl
      | 2 => simp only [fib, Act.call.injEq] at ha; obtain ⟨_, rfl, _⟩ := ha; rfl
      | a + 3 => simp [fib] at ha
    · intro a k dst args g ha hg v
      match a with
      | 0 => simp [fib] at ha
      | 1 =>
        simp only [fib, Act.call.injEq] at ha; obtain ⟨rfl, _, rfl⟩ := ha
        simp [fibProg] at hg; subst hg; rfl
      | 2 =>
        simp only [fib, Act.call.injEq] at ha; obtain ⟨rfl, _, rfl⟩ := ha
        simp [fibProg] at hg; subst hg; rfl
      | a + 3 => simp [fib] at ha
    · intro a k args g ha
      match a with
      | 0 => simp [fib] at ha
      | 1 => simp [fib] at ha
      | 2 => simp [fib] at ha
      | a + 3 => simp [fib] at ha
  · simp at h

/-- The call `fib(7)` gives 13 in C … -/
example : ((ccall fibProg 1 9 0 [7] fun _ => 0).map fun r => r.2) = some (some 13) := by decide +kernel
/-- … and in the shell, where the caller's `n`, `a` and `__t1` survive. -/
example : ((scall fibProg 1 9 0 [7] (.glob 5) fun x => match x with | .loc 0 => 70 | .loc 1 => 71 | .temp 1 => 72 | .sp => 3 | _ => 0).map
    fun s => [s (.glob 5), s (.loc 0), s (.loc 1), s (.temp 1), s .sp]) = some [13, 70, 71, 72, 3] := by decide +kernel
/-- The result may go to a variable of the same name as one of the function's own. -/
example : ((scall fibProg 1 9 0 [7] (.loc 1) fun x => match x with | .loc 0 => 70 | .loc 1 => 71 | .temp 1 => 72 | .sp => 3 | _ => 0).map
    fun s => [s (.loc 1), s (.loc 0), s (.temp 1), s .sp]) = some [13, 70, 72, 3] := by decide +kernel
example : ((scall2 fibProg 1 9 0 [7] (.loc 1) fun x => match x with | .loc 0 => 70 | .loc 1 => 71 | .temp 1 => 72 | .sp => 3 | _ => 0).map
    fun s => [s (.loc 1), s (.loc 0), s (.temp 1), s .sp]) = some [13, 70, 72, 3] := by decide +kernel

/-! ### Calls with missing arguments -/

/-- With `SH_SAVE_VARS_WITH_SET`, a call with too few arguments shifts the saved values: the caller's
variables are mixed up (here `a` receives the value of `__t1`).  The hypothesis on the number of
arguments is needed. -/
theorem C12_set_arity_false : ¬ ∀ (prog : Nat → Option Fn) (_ : ∀ k f, prog k = some f → f.wf ∧ f.dsts ∧ f.compiled ∧ f.arity prog)
    (n d k : Nat) (args : List Int) (s s' : Store), scall2 prog n d k args (.glob 5) s = some s' → ∀ i, s' (.loc i) = s (.loc i) := by
  intro h
  have e : ((scall2 fibProg 1 9 0 [] (.glob 5) fun x => match x with | .loc 0 => 1 | .loc 1 => 71 | .temp 1 => 72 | _ => 0).map
      fun s => s (.loc 1)) = some 72 := by decide +kernel
  rw [Option.map_eq_some_iff] at e
  obtain ⟨s', e1, e2⟩ := e
  have := h fibProg fib_ok 1 9 0 [] _ s' e1 1
  rw [e2] at this
  revert this; decide

end Verif.Frame
