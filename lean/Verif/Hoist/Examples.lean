import Verif.Hoist.Props
/-! C37: cases that meet the hypotheses, and expressions for which the generated commands do something C does not allow. -/
namespace Verif.Hoist
open Verif Spec

/-! ## All C evaluations of an expression -/

mutual
def succ (M : Machine) : Expr → M.W → List (Expr × M.W)
  | .lit _, _ => []
  | .var x, w => [(.lit (M.read x w), w)]
  | .tmp _, _ => []
  | .un o e, w => (match e with | .lit v => (M.un o v).toList.map fun r => (.lit r, w) | _ => []) ++ (succ M e w).map fun p => (.un o p.1, p.2)
  | .deref e, w => (match e with | .lit v => (M.load v w).toList.map fun r => (.lit r, w) | _ => []) ++ (succ M e w).map fun p => (.deref p.1, p.2)
  | .paren e, w => (match e with | .lit v => [(.lit v, w)] | _ => []) ++ (succ M e w).map fun p => (.paren p.1, p.2)
  | .cast e, w => (match e with | .lit v => [(.lit v, w)] | _ => []) ++ (succ M e w).map fun p => (.cast p.1, p.2)
  | .bin c o a b, w => (match a, b with | .lit x, .lit y => (M.bin o x y).toList.map fun r => (.lit r, w) | _, _ => []) ++ (succ M a w).map (fun p => (.bin c o p.1 b, p.2)) ++
      (succ M b w).map fun p => (.bin c o a p.1, p.2)
  | .comma a b, w => (match a with | .lit _ => [(b, w)] | _ => []) ++ (succ M a w).map fun p => (.comma p.1 b, p.2)
  | .assign l r, w => (match r with | .lit v => (M.set l v w).toList.map fun w' => (.lit v, w') | _ => []) ++ (succ M r w).map (fun p => (.assign l p.1, p.2)) ++
      (match l with | .deref e => (succ M e w).map fun p => (.assign (.deref p.1) r, p.2) | _ => [])
  | .opassign o l r, w =>
      (match r with | .lit v => ((M.get l w).bind fun x => (M.bin o x v).bind fun y => (M.set l y w).map fun w' => (Expr.lit y, w')).toList | _ => []) ++
      (succ M r w).map (fun p => (.opassign o l p.1, p.2)) ++ (match l with | .deref e => (succ M e w).map fun p => (.opassign o (.deref p.1) r, p.2) | _ => [])
  | .post o l, w => ((M.get l w).bind fun x => (M.bin o x 1).bind fun y => (M.set l y w).map fun w' => (Expr.lit x, w')).toList ++
      (match l with | .deref e => (succ M e w).map fun p => (.post o (.deref p.1), p.2) | _ => [])
  | .call f as, w => ((values as).bind fun vs => (M.call f vs w).map fun p => (Expr.lit p.1, p.2)).toList ++ (succArgs M as w).map fun p => (.call f p.1, p.2)
  | .logic i a b, w => (succ M a w).map (fun p => (.logic i p.1 b, p.2)) ++
      (match a with
        | .lit x => if (x != 0) = i then (succ M b w).map (fun p => (.logic i a p.1, p.2)) ++ (match b with | .lit y => [(.lit (ofBool (y != 0)), w)] | _ => []) else [(.lit (ofBool (x != 0)), w)]
        | _ => [])
  | .logic4 .., _ => []
  | .cond c a b, w => (succ M c w).map (fun p => (.cond p.1 a b, p.2)) ++ (match c with | .lit x => if x = 0 then [(b, w)] else [(a, w)] | _ => [])
def succArgs (M : Machine) : Args → M.W → List (Args × M.W)
  | .nil, _ => []
  | .cons e r, w => (succ M e w).map (fun p => (.cons p.1 r, p.2)) ++ (succArgs M r w).map fun p => (.cons e p.1, p.2)
end

mutual
theorem succ_complete {M : Machine} {e e' : Expr} {w w' : M.W} (h : Step M e w e' w') : (e', w') ∈ succ M e w := by
  match h with
  | .var => simp [succ]
  | .un h => simp [succ, h]
  | .unIn h => have := succ_complete h; simp [succ]; right; first | exact this | exact ⟨_, _, this, rfl, rfl⟩
  | .deref h => simp [succ, h]
  | .derefIn h => have := succ_complete h; simp [succ]; right; first | exact this | exact ⟨_, _, this, rfl, rfl⟩
  | .paren => simp [succ]
  | .parenIn h => have := succ_complete h; simp [succ]; right; first | exact this | exact ⟨_, _, this, rfl, rfl⟩
  | .cast => simp [succ]
  | .castIn h => have := succ_complete h; simp [succ]; right; first | exact this | exact ⟨_, _, this, rfl, rfl⟩
  | .bin h => simp [succ, h]
  | .binL h => have := succ_complete h; simp [succ]; right; left; first | exact this | exact ⟨_, _, this, rfl, rfl⟩
  | .binR h => have := succ_complete h; simp [succ]; right; right; first | exact this | exact ⟨_, _, this, rfl, rfl⟩
  | .comma => simp [succ]
  | .commaL h => have := succ_complete h; simp [succ]; right; first | exact this | exact ⟨_, _, this, rfl, rfl⟩
  | .assign h => rw [succ.eq_def]; dsimp only; simp [h]
  | .assignL h => have := succ_complete h; rw [succ.eq_def]; dsimp only; simp; right; right; first | exact this | exact ⟨_, _, this, rfl, rfl⟩
  | .assignR h => have := succ_complete h; rw [succ.eq_def]; dsimp only; simp; right; left; first | exact this | exact ⟨_, _, this, rfl, rfl⟩
  | .opassign h1 h2 h3 => rw [succ.eq_def]; dsimp only; simp [h1, h2, h3]
  | .opassignL h => have := succ_complete h; rw [succ.eq_def]; dsimp only; simp; right; right; first | exact this | exact ⟨_, _, this, rfl, rfl⟩
  | .opassignR h => have := succ_complete h; rw [succ.eq_def]; dsimp only; simp; right; left; first | exact this | exact ⟨_, _, this, rfl, rfl⟩
  | .post h1 h2 h3 => rw [succ.eq_def]; dsimp only; simp [h1, h2, h3]
  | .postL h => have := succ_complete h; rw [succ.eq_def]; dsimp only; simp; right; first | exact this | exact ⟨_, _, this, rfl, rfl⟩
  | .call h1 h2 => simp [succ, h1, h2]
  | .callIn h => have := succArgs_complete h; simp [succ]; right; first | exact this | exact ⟨_, _, this, rfl, rfl⟩
  | .logicL h => have := succ_complete h; simp [succ]; left; first | exact this | exact ⟨_, _, this, rfl, rfl⟩
  | .logicR hx h => have := succ_complete h; rw [succ.eq_def]; dsimp only; apply List.mem_append_right; rw [if_pos hx]; exact List.mem_append_left _ (List.mem_map.2 ⟨_, this, rfl⟩)
  | .logicEnd hx => rw [succ]; apply List.mem_append_right; rw [if_pos hx]; simp [truth, ofBool]
  | .logicSkip hx => rw [succ.eq_def]; dsimp only; apply List.mem_append_right; rw [if_neg hx]; simp [truth, ofBool]
  | .condL h => have := succ_complete h; simp [succ]; left; first | exact this | exact ⟨_, _, this, rfl, rfl⟩
  | .condT hx => rw [succ]; apply List.mem_append_right; rw [if_neg hx]; simp
  | .condF hx => rw [succ]; apply List.mem_append_right; rw [if_pos hx]; simp
theorem succArgs_complete {M : Machine} {e e' : Args} {w w' : M.W} (h : StepArgs M e w e' w') : (e', w') ∈ succArgs M e w := by
  match h with
  | .head h => have := succ_complete h; simp [succArgs]; left; first | exact this | exact ⟨_, _, this, rfl, rfl⟩
  | .tail h => have := succArgs_complete h; simp [succArgs]; right; first | exact this | exact ⟨_, _, this, rfl, rfl⟩
end

/-- `P` holds wherever an evaluation of at most `n` steps can be, and there are no longer ones. -/
def everywhere (M : Machine) (P : Expr → M.W → Bool) : Nat → Expr → M.W → Bool
  | 0, _, _ => false
  | n + 1, e, w => P e w && (succ M e w).all fun p => everywhere M P n p.1 p.2

theorem everywhere_sound {M : Machine} {P : Expr → M.W → Bool} {e e' : Expr} {w w' : M.W} (h : Steps M e w e' w') : ∀ n, everywhere M P n e w = true → P e' w' = true := by
  induction h with
  | refl =>
    intro n hn
    cases n with
    | zero => cases hn
    | succ n => simp only [everywhere, Bool.and_eq_true] at hn; exact hn.1
  | step s _ ih =>
    intro n hn
    cases n with
    | zero => cases hn
    | succ n =>
      simp only [everywhere, Bool.and_eq_true, List.all_eq_true] at hn
      exact ih n (hn.2 _ (succ_complete s))

/-! ## A world with two variables and a list of the calls made

Function 0 returns 1; function 1 sets variable 0 to 9 and returns 2. Operator 0 is `+`. -/

structure Wd where
  x : Int
  y : Int
  calls : List (Nat × List Int)
  deriving DecidableEq

def Mx : Machine where
  W := Wd
  read i w := if i = 0 then w.x else w.y
  write i v w := if i = 0 then { w with x := v } else { w with y := v }
  load a _ := some (10 * a)
  store a v w := some { w with calls := w.calls ++ [(100, [a, v])] }
  un _ v := some (-v)
  bin o a b := some (if o = 0 then a + b else ofBool (a < b))
  call f vs w := if f = 0 then some (1, { w with calls := w.calls ++ [(0, vs)] }) else some (2, { w with x := 9, calls := w.calls ++ [(f, vs)] })

def X : Expr := .var 0
def Y : Expr := .var 1
def call0 (f : Nat) : Expr := .call f .nil
def call1 (f : Nat) (e : Expr) : Expr := .call f (.cons e .nil)
/-- The initial state: `x = a`, `y = b`, no calls, temporaries 0. -/
def init (a b : Int) : State Mx := ⟨fun _ => 0, (⟨a, b, []⟩ : Wd)⟩

/-- The value and the world after the commands for a value. -/
def runValue (e : Expr) (S : State Mx) : Option (Int × Wd) :=
  match compRv 3 e 0 with
  | .ok p => (runLines Mx p.lines S).bind fun S1 => arith Mx S1.T p.e S1.w
  | _ => none

def runCondition (e : Expr) (S : State Mx) : Option (Bool × Wd) :=
  match compTest 3 e 0 with
  | .ok p => (runLines Mx p.1 S).bind fun S1 => (runTest Mx p.2 S1).map fun q => (q.1, q.2.w)
  | _ => none

def runStatement (e : Expr) (S : State Mx) : Option Wd :=
  match compStmt 3 e with
  | .ok cs => (runCmds Mx cs S).map (·.w)
  | _ => none

/-! ### Cases covered by the theorems -/

/-- `f(g(x) + 1) + h(y++)`. -/
def ex1 : Expr := .bin false 0 (call1 0 (.bin false 0 (call1 1 X) (.lit 1))) (call1 2 (.post 0 Y))
example : frag ex1 = true ∧ orderOk ex1 = true ∧ argsPlain ex1 = true := by decide +kernel
example : runValue ex1 (init 5 7) = some (3, ⟨9, 8, [(1, [5]), (0, [3]), (2, [7])]⟩) := by decide +kernel

/-- `x && (f(y) < g() || !h())`. -/
def ex2 : Expr := .logic true X (.paren (.logic false (.bin true 1 (call1 0 Y) (call0 1)) (.un 0 (call0 2))))
example : fragTop ex2 = true := by decide +kernel
example : runCondition ex2 (init 1 7) = some (true, ⟨9, 7, [(0, [7]), (1, [])]⟩) := by decide +kernel
example : runCondition ex2 (init 0 7) = some (false, ⟨0, 7, []⟩) := by decide +kernel

/-- `*(x + g()) = f(y)`, `x += f(y)`. -/
def ex3 : Expr := .assign (.deref (.bin false 0 X (call0 1))) (call1 0 Y)
def ex4 : Expr := .opassign 0 X (call1 0 Y)
example : fragStmt ex3 = true ∧ fragStmt ex4 = true := by decide +kernel
example : runStatement ex3 (init 1 7) = some ⟨9, 7, [(1, []), (0, [7]), (100, [11, 1])]⟩ := by decide +kernel
example : runStatement ex4 (init 1 7) = some ⟨2, 7, [(0, [7])]⟩ := by decide +kernel
example : Total Mx := by
  refine ⟨fun _ _ => ⟨_, rfl⟩, fun _ _ _ => ⟨_, rfl⟩, fun _ _ => ⟨_, rfl⟩, fun _ _ _ => ⟨_, rfl⟩, fun f vs w => ?_⟩
  simp only [Mx]; split <;> exact ⟨_, rfl⟩

/-- `y && f()` and `y ? f() : 0` outside of conditions are refused. -/
example : flat (.logic true Y (call0 0)) = true ∧ mayskip (.logic true Y (call0 0)) = true ∧ flat (.cond Y (call0 0) (.lit 0)) = true ∧ mayskip (.cond Y (call0 0) (.lit 0)) = true := by decide +kernel

/-- Also refused, although C never skips the call: `1 + f(x && y)`. -/
example : frag (.bin false 0 (.lit 1) (call1 0 (.logic true X Y))) = true ∧ (∀ r, compRv 9 (.bin false 0 (.lit 1) (call1 0 (.logic true X Y))) 0 ≠ .ok r) := by
  refine ⟨by decide +kernel, fun r h => ?_⟩
  simp [compRv, handle, handleArgs, call1, X, Y, push, compCalls, compCall, compDest, compArgs, Calls.append, Res.bind] at h

/-! ### Cases where the commands do something else -/

def called (f : Nat) (w : Wd) : Bool := w.calls.any fun p => p.1 = f

/-- `y && f() + (y ? 1 : 2)` in a condition: `f` is not called, though C always calls it if `y` is not 0. -/
def bad1 : Expr := .logic true Y (.bin false 0 (call0 0) (.cond Y (.lit 1) (.lit 2)))
theorem C37_nested_conditional_false : (∃ w, runCondition bad1 (init 0 1) = some (true, w) ∧ called 0 w = false) ∧ ∀ v w', Evals Mx bad1 (init 0 1).w v w' → called 0 w' = true := by
  refine ⟨⟨⟨0, 1, []⟩, by decide +kernel, by decide +kernel⟩, fun v w' h => ?_⟩
  exact everywhere_sound (P := fun e (w : Wd) => match e with | .lit _ => called 0 w | _ => true) h 20 (by decide +kernel)

/-- `y ? f() + (y ? 1 : 2) : 0`: also as a value. -/
def bad2 : Expr := .cond Y (.bin false 0 (call0 0) (.cond Y (.lit 1) (.lit 2))) (.lit 0)
theorem C37_branch_call_dropped_false : (∃ v w, runValue bad2 (init 0 1) = some (v, w) ∧ called 0 w = false) ∧ ∀ v w', Evals Mx bad2 (init 0 1).w v w' → called 0 w' = true := by
  refine ⟨⟨1, ⟨0, 1, []⟩, by decide +kernel, by decide +kernel⟩, fun v w' h => ?_⟩
  exact everywhere_sound (P := fun e (w : Wd) => match e with | .lit _ => called 0 w | _ => true) h 20 (by decide +kernel)

/-- `(int)f() && y` in a condition: `f` is not called. -/
def bad3 : Expr := .logic true (.cast (call0 0)) Y
theorem C37_cast_operand_false : (∃ b w, runCondition bad3 (init 0 1) = some (b, w) ∧ called 0 w = false) ∧ ∀ v w', Evals Mx bad3 (init 0 1).w v w' → called 0 w' = true := by
  refine ⟨⟨false, ⟨0, 1, []⟩, by decide +kernel, by decide +kernel⟩, fun v w' h => ?_⟩
  exact everywhere_sound (P := fun e (w : Wd) => match e with | .lit _ => called 0 w | _ => true) h 20 (by decide +kernel)

/-- `(x = 0, f(x))`: `f` gets the old value of `x`. -/
def bad4 : Expr := .comma (.assign X (.lit 0)) (call1 0 X)
theorem C37_comma_order_false : runValue bad4 (init 5 1) = some (1, ⟨0, 1, [(0, [5])]⟩) ∧ ∀ v w', Evals Mx bad4 (init 5 1).w v w' → w' = (⟨0, 1, [(0, [0])]⟩ : Wd) := by
  refine ⟨by decide +kernel, fun v w' h => ?_⟩
  have := everywhere_sound (P := fun e (w : Wd) => match e with | .lit _ => decide ((w : Wd) = (⟨0, 1, [(0, [0])]⟩ : Wd)) | _ => true) h 20 (by decide +kernel)
  simp at this
  exact this

/-- `(x = f()) + g()`, where `g` changes `x`: the value of the assignment is lost. -/
def bad5 : Expr := .bin false 0 (.paren (.assign X (call0 0))) (call0 1)
theorem C37_inner_assignment_false : (∃ w, runValue bad5 (init 5 1) = some (11, w)) ∧ ∀ v w', Evals Mx bad5 (init 5 1).w v w' → v = 3 := by
  refine ⟨⟨⟨9, 1, [(0, []), (1, [])]⟩, by decide +kernel⟩, fun v w' h => ?_⟩
  have := everywhere_sound (P := fun e _ => match e with | .lit v => decide (v = 3) | _ => true) h 20 (by decide +kernel)
  simpa using this

/-- `y ? *x++ : 0`: `x` is incremented although `y` is 0. -/
def bad6 : Expr := .cond Y (.deref (.post 0 X)) (.lit 0)
theorem C37_address_effect_false : (∃ v, runValue bad6 (init 5 0) = some (v, ⟨6, 0, []⟩)) ∧ ∀ v w', Evals Mx bad6 (init 5 0).w v w' → w' = (⟨5, 0, []⟩ : Wd) := by
  refine ⟨⟨0, by decide +kernel⟩, fun v w' h => ?_⟩
  have := everywhere_sound (P := fun _ (w : Wd) => decide ((w : Wd) = (⟨5, 0, []⟩ : Wd))) h 20 (by decide +kernel)
  simp at this
  exact this

/-- The statement `x = 1, y = 2;` is dropped. -/
def bad7 : Expr := .comma (.assign X (.lit 1)) (.assign Y (.lit 2))
theorem C37_comma_statement_false : runStatement bad7 (init 5 7) = some ⟨5, 7, []⟩ ∧ ∀ w', Done Mx bad7 (init 5 7).w w' → w' = (⟨1, 2, []⟩ : Wd) := by
  refine ⟨by decide +kernel, fun w' ⟨e', h, he, _⟩ => ?_⟩
  have := everywhere_sound (P := fun e (w : Wd) => !noEffect e || decide ((w : Wd) = (⟨1, 2, []⟩ : Wd))) h 20 (by decide +kernel)
  simp [he] at this
  exact this

/-- `y = (*x++ = f())`: `x` is incremented twice. -/
def bad8 : Expr := .assign Y (.paren (.assign (.deref (.post 0 X)) (call0 0)))
theorem C37_double_increment_false : (∃ w, runStatement bad8 (init 5 1) = some w ∧ w.x = 7) ∧ ∀ w', Done Mx bad8 (init 5 1).w w' → Wd.x w' = 6 := by
  refine ⟨⟨⟨7, 60, [(0, []), (100, [5, 1])]⟩, by decide +kernel, rfl⟩, fun w' ⟨e', h, he, _⟩ => ?_⟩
  have := everywhere_sound (P := fun e (w : Wd) => !noEffect e || decide (Wd.x w = 6)) h 20 (by decide +kernel)
  simpa [he] using this

end Verif.Hoist
