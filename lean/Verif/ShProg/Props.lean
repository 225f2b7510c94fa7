import Verif.ShProg.Proofs7
/-! C51: the shell script of a whole program does only what the C program may do. -/
namespace Verif.ShProg
open Verif Verif.Stmt Verif.Frame Verif.ShProg.Spec
open Verif.Hoist (Expr Args)

variable {L : Lang}

/-- **C51** (functions).  `Q` holds the shell functions generated for the program `P`.  If the command `_k ret args`, run when the shell variables are `S`, ends with the shell variables `S'`, then C allows the call
`k(args)`, made when the globals, the memory and the outside world are those of `S`, to return some `r` and to leave some `g'` such that: `r` is in the variable `ret`; all global variables, memory cells and the outside
world, except `ret`, are those of `g'`; and the local variables and temporaries of all functions except `ret`, the pointer of the stack of saved values and the stack below it, are as before the call.

Partial: the statements are those of C13, the expressions those of C37 (`Script`), identifiers are resolved, run-time functions are given by `L.builtin`, arithmetic is that of `L.un` and `L.bin` for both sides (C04, C11). -/
theorem C51_call_partial {P : Nat → Option FDef} {Q : Nat → Option CFn} (hs : Spec.Script P Q) (n d k : Nat) (args : List Int) (ret : Name) (hret : ret ≠ .sp ∧ ret ≠ .tmp ∧ ∀ i, ret ≠ .stk i) (S S' : Sh L.X)
    (h : scall L Q n d k args ret S = some S') :
    ∃ r g', Spec.May L P d k args (getG S) r g' ∧ S'.s ret = r ∧
      (∀ i, gv i ≠ ret → S'.s (gv i) = g'.var i) ∧ (∀ a, mc a ≠ ret → S'.s (mc a) = g'.mem a) ∧ S'.x = g'.x ∧
      (∀ i, .loc i ≠ ret → S'.s (.loc i) = S.s (.loc i)) ∧ (∀ i, .temp i ≠ ret → S'.s (.temp i) = S.s (.temp i)) ∧
      S'.s .sp = S.s .sp ∧ ∀ i ≤ S.s .sp, S'.s (.stk i) = S.s (.stk i) := by
  have hv : ret.isVar = true := by
    cases ret with
    | sp => exact absurd rfl hret.1
    | tmp => exact absurd rfl hret.2.1
    | stk i => exact absurd rfl (hret.2.2 i)
    | _ => rfl
  obtain ⟨r, g', hp⟩ := call_ok hs n d k args ret S S' hv h
  refine ⟨r, g', hp.may, hp.result, fun i hi => ?_, fun a ha => ?_, ?_, fun i hi => hp.others _ rfl hi, fun i hi => hp.others _ rfl hi, hp.sp, hp.stack⟩
  · have := congrArg (fun g => g.var i) hp.glob
    simpa [getG, gset, hi] using this
  · have := congrArg (fun g => g.mem a) hp.glob
    simpa [getG, gset, ha] using this
  · exact congrArg Glob.x hp.glob

/-- **C51** (the program).  The script ends with the command `_main __ args`.  If it comes back, the C program may leave exactly the global variables, memory and outside world that the script leaves. -/
theorem C51_program_partial {P : Nat → Option FDef} {Q : Nat → Option CFn} (hs : Spec.Script P Q) (n d k : Nat) (args : List Int) (S S' : Sh L.X) (h : scall L Q n d k args (.glob 0) S = some S') :
    Spec.May L P d k args (getG S) (S'.s (.glob 0)) (getG S') := by
  obtain ⟨r, g', h1, h2, h3, h4, h5, _⟩ := C51_call_partial hs n d k args (.glob 0) (by simp) S S' h
  have : getG S' = g' := by
    cases g' with
    | mk a b c =>
      simp only [getG, Glob.mk.injEq]
      exact ⟨funext fun i => h3 i (by simp [gv]), funext fun i => h4 i (by simp [mc]), h5⟩
  rw [h2, this]; exact h1

/-- If C allows only one result and one final state of the globals, the script gives these. -/
theorem C51_determined_partial {P : Nat → Option FDef} {Q : Nat → Option CFn} (hs : Spec.Script P Q) (n d k : Nat) (args : List Int) (S S' : Sh L.X) (r : Int) (g : Glob L.X)
    (hu : ∀ r' g', Spec.May L P d k args (getG S) r' g' → r' = r ∧ g' = g) (h : scall L Q n d k args (.glob 0) S = some S') : S'.s (.glob 0) = r ∧ getG S' = g :=
  hu _ _ (C51_program_partial hs n d k args S S' h)

/-- The compiler's functions: when it accepts a definition, there is a generated function, and its commands are determined. -/
theorem C51_compiled (n : Nat) (fd : FDef) (b : St) (t : Tab) (ls : List Line) (hn : num n (.block fd.body) ⟨[], [], []⟩ = .ok (b, t)) (hok : b.ok = true) (hp : fd.params.Nodup) (vars : Vars)
    (hv : vars = ⟨fd.vars.foldl (fun e x => add_local_var e x false) (fd.params.foldl (fun e x => add_local_var e x true) []), t.temps⟩) (hs : namesSts fd.declared fd.body = true)
    (hl : comp_glo_fun_decl (!fd.params.isEmpty || !(restore_local_vars vars).isEmpty) [] b = .ok ls) :
    ∃ f : CFn, Compiled n fd f ∧ funLines f.locals [] f.code = ls ∧ f.body = b ∧ f.tab = t ∧ ∀ f', Compiled n fd f' → f'.code = f.code := by
  obtain ⟨c, h1, _, _, _⟩ := C13_function_partial _ [] b ls hok hl
  have hc : Compiled n fd ⟨fd.params, vars, b, c, t⟩ := ⟨rfl, hv, hp, hn, hs, by rw [h1] at hl; exact hl⟩
  refine ⟨_, hc, h1.symm, rfl, rfl, fun f' h' => ?_⟩
  have e := h'.body
  rw [hn] at e
  simp only [Res.ok.injEq, Prod.mk.injEq] at e
  have ev : f'.vars = vars := by rw [h'.vars, hv, e.2]
  have el : f'.locals = (!fd.params.isEmpty || !(restore_local_vars vars).isEmpty) := by
    simp only [CFn.locals, Fn.locals, CFn.frame, ev, h'.params]
  have := h'.lines
  rw [el, ← e.1, hl, h1] at this
  simp only [Res.ok.injEq] at this
  exact (C13_lines_unique _ _ _ _ this).symm

/-! ## An example

```
int n;
int fib(int k) { if (k < 2) return k; return fib(k - 1) + fib(k - 2); }
int main() { int i; for (i = 0; i < n; i += 1) { putchar(48 + fib(i)); } return 0; }
``` -/

def fibD : FDef :=
  ⟨[0], [], .cons (.ite (.bin true 0 (.var 0) (.lit 2)) (.ret (some (.var 0))) .empty)
    (.cons (.ret (some (.bin false 1 (.call 0 (.cons (.bin false 2 (.var 0) (.lit 1)) .nil)) (.call 0 (.cons (.bin false 2 (.var 0) (.lit 2)) .nil))))) .nil)⟩

def mainD : FDef :=
  ⟨[], [0], .cons (.for_ (some (.assign (.var 0) (.lit 0))) (some (.bin true 0 (.var 0) (.var 1))) (some (.opassign 1 (.var 0) (.lit 1)))
      (.block (.cons (.expr (.call 2 (.cons (.bin false 1 (.lit 48) (.call 0 (.cons (.var 0) .nil))) .nil))) .nil)))
    (.cons (.ret (some (.lit 0))) .nil)⟩

/-- The function generated for `fd`, with the commands `code`. -/
def genFn (n : Nat) (fd : FDef) (code : Shs) : CFn :=
  match num n (.block fd.body) ⟨[], [], []⟩ with
  | .ok (b, t) => ⟨fd.params, ⟨fd.vars.foldl (fun e x => add_local_var e x false) (fd.params.foldl (fun e x => add_local_var e x true) []), t.temps⟩, b, code, t⟩
  | _ => ⟨[], ⟨[], 0⟩, .empty, .nil, ⟨[], [], []⟩⟩

def fibC : CFn := genFn 10 fibD
  (.cons (.ite 0 (.cons (.simple 0) (.cons .ret .nil)) .none) (.cons (.simple 1) (.cons (.simple 2) (.cons (.simple 3) .nil))))

def mainC : CFn := genFn 10 mainD
  (.cons (.simple 0) (.cons (.while_ (some 0) (.cons (.simple 2) (.cons (.simple 3) (.cons (.simple 1) .nil)))) (.cons (.simple 4) .nil)))

def exP (k : Nat) : Option FDef := match k with | 0 => some fibD | 1 => some mainD | _ => none
def exQ (k : Nat) : Option CFn := match k with | 0 => some fibC | 1 => some mainC | _ => none

theorem fibC_ok : Compiled 10 fibD fibC := ⟨rfl, rfl, by simp [fibD], rfl, by decide +kernel, by decide +kernel⟩
theorem mainC_ok : Compiled 10 mainD mainC := ⟨rfl, rfl, by simp [mainD], rfl, by decide +kernel, by decide +kernel⟩

theorem ex_script : Spec.Script exP exQ := by
  refine ⟨fun k f h => ?_, fun k h => ?_⟩
  · match k with
    | 0 => cases h; exact ⟨fibD, 10, rfl, fibC_ok, by decide +kernel, by decide +kernel⟩
    | 1 => cases h; exact ⟨mainD, 10, rfl, mainC_ok, by decide +kernel, by decide +kernel⟩
    | k + 2 => cases h
  · match k with
    | 0 => cases h
    | 1 => cases h
    | k + 2 => rfl

/-- Addition, subtraction, `<`; the outside world is what has been printed by `putchar`. -/
def exL : Lang where
  X := List Int
  un _ _ := none
  bin o a b := match o with | 0 => some (if a < b then 1 else 0) | 1 => some (a + b) | 2 => some (a - b) | _ => none
  valid _ _ := false
  nonneg := by simp
  builtin k as g := match k, as with | 2, [c] => some (some c, { g with x := g.x ++ [c] }) | _, _ => none

def exS (n : Int) : Sh exL.X := ⟨fun y => if y = gv 0 then n else 0, []⟩

/-- The script prints `0112`. -/
theorem ex_run : ((scall exL exQ 5 6 1 [] (.glob 0) (exS 4)).map fun S => (S.x : List Int)) = some [48, 49, 49, 50] := by decide +kernel

/-- So the C program may do it. -/
example : ∃ r g', Spec.May exL exP 6 1 [] (getG (exS 4)) r g' ∧ g'.x = [48, 49, 49, 50] := by
  have h := ex_run
  obtain ⟨S', h1, h2⟩ := Hoist.omap h
  exact ⟨_, _, C51_program_partial ex_script 5 6 1 [] _ S' h1, h2⟩

/-! `int inc(int k) { return k + 1; }`: C allows one result only. -/

def incD : FDef := ⟨[0], [], .cons (.ret (some (.bin false 1 (.var 0) (.lit 1)))) .nil⟩
def incC : CFn := genFn 10 incD (.cons (.simple 0) .nil)
def incP (k : Nat) : Option FDef := if k = 0 then some incD else none
def incQ (k : Nat) : Option CFn := if k = 0 then some incC else none

theorem inc_script : Spec.Script incP incQ := by
  refine ⟨fun k f h => ?_, fun k h => ?_⟩
  · simp only [incQ] at h
    split at h
    · rename_i e; subst e; cases h
      exact ⟨incD, 10, rfl, ⟨rfl, rfl, by simp [incD], rfl, by decide +kernel, by decide +kernel⟩, by decide +kernel, by decide +kernel⟩
    · cases h
  · simp only [incQ] at h
    simp only [incP]
    split at h
    · cases h
    · rename_i e; simp [e]

theorem step_lit {M : Hoist.Machine} {v : Int} {w w' : M.W} {e : Expr} (h : Hoist.Spec.Step M (.lit v) w e w') : False := by cases h

theorem step_var {M : Hoist.Machine} {x : Nat} {w w' : M.W} {e : Expr} (h : Hoist.Spec.Step M (.var x) w e w') : e = .lit (M.read x w) ∧ w' = w := by cases h; exact ⟨rfl, rfl⟩

theorem step_bin {M : Hoist.Machine} {c : Bool} {o : Nat} {a b : Expr} {w w' : M.W} {e : Expr} (h : Hoist.Spec.Step M (.bin c o a b) w e w') :
    (∃ x y r, a = .lit x ∧ b = .lit y ∧ M.bin o x y = some r ∧ e = .lit r ∧ w' = w) ∨ (∃ a', Hoist.Spec.Step M a w a' w' ∧ e = .bin c o a' b) ∨ ∃ b', Hoist.Spec.Step M b w b' w' ∧ e = .bin c o a b' := by
  cases h with
  | bin h => exact .inl ⟨_, _, _, rfl, rfl, h, rfl, rfl⟩
  | binL h => exact .inr (.inl ⟨_, h, rfl⟩)
  | binR h => exact .inr (.inr ⟨_, h, rfl⟩)

theorem steps_lit {C : Spec.Calls L} {v : Int} {w w' : Spec.CW L.X} {e : Expr} (h : Spec.Steps C (.lit v) w e w') : e = .lit v ∧ w' = w := by
  cases h with
  | refl => exact ⟨rfl, rfl⟩
  | step h _ => obtain ⟨_, _, h⟩ := h; exact (step_lit h).elim

theorem inc_unique (d : Nat) (a r : Int) (g g' : Glob exL.X) (h : Spec.May exL incP d 0 [a] g r g') : r = a + 1 ∧ g' = g := by
  cases d with
  | zero => exact h.elim
  | succ d =>
    simp only [Spec.May, incP, if_true] at h
    obtain ⟨loc, o, w', hl, hx, rfl, hr⟩ := h
    have hl := hl 0 0 a rfl rfl
    cases hx with
    | block hb =>
      cases hb with
      | cons h1 => cases h1
      | stop h1 =>
        cases h1 with
        | retE ev =>
          simp only [Spec.Result] at hr
          subst hr
          cases ev with
          | step h1 h2 =>
            obtain ⟨_, _, h1⟩ := h1
            rcases step_bin h1 with ⟨_, _, _, e, _⟩ | ⟨a', h3, rfl⟩ | ⟨b', h3, rfl⟩
            · cases e
            · obtain ⟨rfl, rfl⟩ := step_var h3
              cases h2 with
              | step h1 h2 =>
                obtain ⟨_, _, h1⟩ := h1
                rcases step_bin h1 with ⟨x, y, r, e1, e2, e3, rfl, rfl⟩ | ⟨a', h3, _⟩ | ⟨b', h3, _⟩
                · obtain ⟨e4, rfl⟩ := steps_lit h2
                  cases e1; cases e2; cases e4
                  simp only [exL, Spec.CW.read, Option.some.injEq] at e3
                  exact ⟨by rw [← e3]; simp [hl], rfl⟩
                · exact (step_lit h3).elim
                · exact (step_lit h3).elim
            · exact (step_lit h3).elim

/-- The hypothesis of `C51_determined_partial` holds: the script's `_inc __ 41` leaves 42 in `__`, and the globals as they are. -/
example (S' : Sh exL.X) (n d : Nat) (h : scall exL incQ n d 0 [41] (.glob 0) (exS 4) = some S') : S'.s (.glob 0) = 42 ∧ getG S' = getG (exS 4) :=
  C51_determined_partial inc_script n d 0 [41] _ S' 42 (getG (exS 4)) (fun r' g' h => inc_unique d 41 r' _ g' h) h

example : ((scall exL incQ 1 1 0 [41] (.glob 0) (exS 4)).map fun S => S.s (.glob 0)) = some 42 := by decide +kernel

end Verif.ShProg
