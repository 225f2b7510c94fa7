import Verif.Stmt.Proofs3
/-! C13: structured statements keep their meaning in the shell script. -/
namespace Verif.Stmt
open Verif
variable {σ : Type}

/-! ### The lines determine the commands -/

/-- What can follow a sequence of commands. -/
def Stop : List Line → Bool
  | [] => true
  | .fi :: _ => true
  | .elifL _ :: _ => true
  | .elseL :: _ => true
  | .done :: _ => true
  | .dsemi :: _ => true
  | .esac :: _ => true
  | _ => false

theorem Sh.lines_ne_stop (c : Sh) (r : List Line) : Stop (c.lines ++ r) = false := by
  cases c <;> simp [Sh.lines, Stop]

theorem els_stop (e : Els) (r : List Line) : Stop (e.lines ++ .fi :: r) = true := by
  cases e <;> simp [Els.lines, Stop]

theorem cases_stop_head (c : Cases) (r : List Line) : ∃ x y, c.lines ++ .esac :: r = x :: y ∧ (x = .esac ∨ ∃ ps, x = .pat ps) := by
  cases c with
  | nil => exact ⟨_, _, rfl, Or.inl rfl⟩
  | cons ps b r' => exact ⟨_, _, rfl, Or.inr ⟨ps, rfl⟩⟩

mutual
theorem sh_inj : (a b : Sh) → (r1 r2 : List Line) → a.lines ++ r1 = b.lines ++ r2 → a = b ∧ r1 = r2
  | .simple _, b, r1, r2, h => by cases b <;> simp_all [Sh.lines]
  | .colon, b, r1, r2, h => by cases b <;> simp_all [Sh.lines]
  | .ret, b, r1, r2, h => by cases b <;> simp_all [Sh.lines]
  | .brk _, b, r1, r2, h => by cases b <;> simp_all [Sh.lines]
  | .cont, b, r1, r2, h => by cases b <;> simp_all [Sh.lines]
  | .orBreak _, b, r1, r2, h => by cases b <;> simp_all [Sh.lines]
  | .ite c x y, b, r1, r2, h => by
    cases b with
    | ite c' x' y' =>
      simp only [Sh.lines, List.cons_append, List.append_assoc, List.cons.injEq, List.nil_append, Line.ifL.injEq] at h
      obtain ⟨rfl, h⟩ := h
      obtain ⟨rfl, h'⟩ := shs_inj x x' _ _ (els_stop y r1) (els_stop y' r2) h
      obtain ⟨rfl, h''⟩ := els_inj y y' _ _ h'
      exact ⟨rfl, h''⟩
    | _ => simp [Sh.lines] at h
  | .while_ c x, b, r1, r2, h => by
    cases b with
    | while_ c' x' =>
      simp only [Sh.lines, List.cons_append, List.append_assoc, List.cons.injEq, List.nil_append, Line.whileL.injEq] at h
      obtain ⟨rfl, h⟩ := h
      obtain ⟨rfl, h'⟩ := shs_inj x x' _ _ rfl rfl h
      simp only [List.cons.injEq, true_and] at h'
      exact ⟨rfl, h'⟩
    | _ => simp [Sh.lines] at h
  | .case_ e x, b, r1, r2, h => by
    cases b with
    | case_ e' x' =>
      simp only [Sh.lines, List.cons_append, List.append_assoc, List.cons.injEq, List.nil_append, Line.caseL.injEq] at h
      obtain ⟨rfl, h⟩ := h
      obtain ⟨rfl, h'⟩ := cases_inj x x' _ _ h
      exact ⟨rfl, h'⟩
    | _ => simp [Sh.lines] at h
theorem shs_inj : (a b : Shs) → (r1 r2 : List Line) → Stop r1 = true → Stop r2 = true → a.lines ++ r1 = b.lines ++ r2 → a = b ∧ r1 = r2
  | .nil, .nil, r1, r2, _, _, h => by simpa [Shs.lines] using h
  | .nil, .cons c r, r1, r2, h1, h2, h => by
    simp only [Shs.lines, List.nil_append, List.append_assoc] at h
    rw [h, Sh.lines_ne_stop] at h1
    simp at h1
  | .cons c r, .nil, r1, r2, h1, h2, h => by
    simp only [Shs.lines, List.nil_append, List.append_assoc] at h
    rw [← h, Sh.lines_ne_stop] at h2
    simp at h2
  | .cons c r, .cons c' r', r1, r2, h1, h2, h => by
    simp only [Shs.lines, List.append_assoc] at h
    obtain ⟨rfl, h'⟩ := sh_inj c c' _ _ h
    obtain ⟨rfl, h''⟩ := shs_inj r r' _ _ h1 h2 h'
    exact ⟨rfl, h''⟩
theorem els_inj : (a b : Els) → (r1 r2 : List Line) → a.lines ++ .fi :: r1 = b.lines ++ .fi :: r2 → a = b ∧ r1 = r2
  | .none, b, r1, r2, h => by cases b <;> simp_all [Els.lines]
  | .els x, b, r1, r2, h => by
    cases b with
    | els x' =>
      simp only [Els.lines, List.cons_append, List.cons.injEq, true_and] at h
      obtain ⟨rfl, h'⟩ := shs_inj x x' _ _ rfl rfl h
      simp only [List.cons.injEq, true_and] at h'
      exact ⟨rfl, h'⟩
    | _ => simp [Els.lines] at h
  | .elif c x y, b, r1, r2, h => by
    cases b with
    | elif c' x' y' =>
      simp only [Els.lines, List.cons_append, List.append_assoc, List.cons.injEq, Line.elifL.injEq] at h
      obtain ⟨rfl, h⟩ := h
      obtain ⟨rfl, h'⟩ := shs_inj x x' _ _ (els_stop y r1) (els_stop y' r2) h
      obtain ⟨rfl, h''⟩ := els_inj y y' _ _ h'
      exact ⟨rfl, h''⟩
    | _ => simp [Els.lines] at h
theorem cases_inj : (a b : Cases) → (r1 r2 : List Line) → a.lines ++ .esac :: r1 = b.lines ++ .esac :: r2 → a = b ∧ r1 = r2
  | .nil, b, r1, r2, h => by cases b <;> simp_all [Cases.lines]
  | .cons ps x y, b, r1, r2, h => by
    cases b with
    | nil => simp [Cases.lines] at h
    | cons ps' x' y' =>
      simp only [Cases.lines, List.cons_append, List.append_assoc, List.cons.injEq, Line.pat.injEq] at h
      obtain ⟨rfl, h⟩ := h
      obtain ⟨rfl, h'⟩ := shs_inj x x' _ _ rfl rfl h
      simp only [List.cons.injEq, true_and] at h'
      obtain ⟨rfl, h''⟩ := cases_inj y y' _ _ h'
      exact ⟨rfl, h''⟩
end

/-- The generated lines can be read as shell commands in one way only. -/
theorem C13_lines_unique (locals : Bool) (params : List Nat) (a b : Shs)
    (h : funLines locals params a = funLines locals params b) : a = b := by
  simp only [funLines, List.append_assoc, List.append_cancel_left_eq] at h
  simp only [← List.append_assoc, List.append_cancel_right_eq] at h
  exact (shs_inj a b [] [] rfl rfl (by simpa using h)).1

/-! ### Functions -/

/-- **C13** (partial).  The lines generated for a function are those of grammatical shell commands, and
calling them has exactly the effect of the C function: the same effects in the same order (the state
`σ` is arbitrary and may be the list of all effects performed), whatever the tests, with the same
number of iterations of each loop; and the caller's variables, saved on entry, are restored exactly
once, whichever way the body ends.

Missing (see the theorems `…_false` below): `continue` in `do … while`, `for (;;)` loops with a `break`
whose body always ends with a jump, `switch` with a `case` after `default`, labels; and the conditions
and simple statements themselves are abstract here. -/
theorem C13_function_partial (locals : Bool) (params : List Nat) (body : St) (ls : List Line)
    (hok : body.ok = true) (h : comp_glo_fun_decl locals params body = .ok ls) :
    ∃ c : Shs, ls = funLines locals params c ∧ c.wf = true ∧ ls ≠ [] ∧
      ∀ (σ : Type) (I : Interp σ), (locals = false → (∀ s, I.save s = s) ∧ ∀ s, I.restore s = s) →
        ∀ (n : Nat) (s : σ), sfun I n locals params c s = cfun I n params body s := by
  cases body with
  | block b =>
    simp only [comp_glo_fun_decl] at h
    rw [Res.bind_eq_ok] at h
    obtain ⟨⟨t, tail', l⟩, h1, h⟩ := h
    -- the commands of the body
    have key : ∃ c : Shs, l = c.lines ∧ c.wf = true ∧ ∀ (σ : Type) (I : Interp σ) (n : Nat) (x : σ),
        Rel I [] t true (cseq I n b x) (sseq I n c x) := by
      cases hb : b.isNil with
      | true =>
        cases b with
        | nil =>
          simp only [comp_body, Res.ok.injEq, Prod.mk.injEq] at h1
          obtain ⟨rfl, rfl, rfl⟩ := h1
          exact ⟨.nil, rfl, rfl, fun σ I n x => ⟨rfl, rfl⟩⟩
        | cons => simp [Sts.isNil] at hb
      | false =>
        obtain ⟨_, _, c, hl, hw, _⟩ := seq_sound (σ := Unit) ⟨fun _ _ => none, fun _ _ => none, fun _ _ => none, id, id⟩ b
          (by simpa [St.ok] using hok) false [] (by simp [nearSw]) true t tail' l h1 hb
        refine ⟨c, hl, hw, fun σ I n x => ?_⟩
        obtain ⟨_, _, c', hl', _, hr⟩ := seq_sound I b (by simpa [St.ok] using hok) false [] (by simp [nearSw]) true t tail' l h1 hb
        have : c = c' := (shs_inj c c' [] [] rfl rfl (by rw [← hl, ← hl'])).1
        rw [this]; exact hr n x
    obtain ⟨c, hl, hw, hrel⟩ := key
    have hfun : ∀ (σ : Type) (I : Interp σ), (locals = false → (∀ s, I.save s = s) ∧ ∀ s, I.restore s = s) →
        ∀ (n : Nat) (s : σ), sfun I n locals params c s = cfun I n params (.block b) s := by
      intro σ I hI n s
      rw [sfun, cfun]
      have e1 : (if locals = true then I.save s else s) = I.save s := by
        cases locals with
        | true => rfl
        | false => simp [(hI rfl).1]
      have e2 : ∀ s, (if locals = true then I.restore s else s) = I.restore s := by
        cases locals with
        | true => intro s; rfl
        | false => intro s; simp [(hI rfl).2]
      rw [e1]
      cases I.acts params (I.save s) with
      | none => rfl
      | some y =>
        simp only [Option.bind_some, e2]
        have := hrel σ I n y
        rw [cexec]
        cases hc : cseq I n b y with
        | none => rw [hc] at this; simp only [Rel] at this; rw [this]; rfl
        | some q =>
          obtain ⟨o, z⟩ := q
          rw [hc] at this
          cases o with
          | norm => rw [this.2]; rfl
          | brk => exact this.elim
          | cont => exact this.elim
          | ret =>
            rcases this with this | ⟨_, this⟩
            · rw [this]; rfl
            · rw [this]; rfl
    simp only [Res.ok.injEq] at h
    subst hl
    by_cases hcol : (locals = false ∧ params = [] ∧ c = .nil)
    · obtain ⟨rfl, rfl, rfl⟩ := hcol
      refine ⟨.cons .colon .nil, ?_, rfl, ?_, ?_⟩
      · rw [← h]; simp [funLines, Shs.lines, Sh.lines]
      · rw [← h]; simp [Shs.lines]
      · intro σ I hI n s
        rw [← hfun σ I hI n s]
        simp [sfun, sseq_one, sexec, sseq]
    · have hls : ls = funLines locals params c := by
        rw [← h, if_pos]
        · rfl
        · cases locals with
          | true => simp
          | false =>
            cases params with
            | cons a r => simp
            | nil =>
              have : c.isNil = false := by
                cases c with
                | nil => simp at hcol
                | cons => rfl
              have ha := Shs.active c
              rw [this] at ha
              simpa [any_active] using ha
      refine ⟨c, hls, hw, ?_, hfun⟩
      rw [hls]
      intro hnil
      simp only [funLines, List.append_eq_nil_iff] at hnil
      obtain ⟨⟨⟨h1, h2⟩, h3⟩, _⟩ := hnil
      refine hcol ⟨?_, by simpa using h2, ?_⟩
      · cases locals with
        | false => rfl
        | true => simp at h1
      · cases c with
        | nil => rfl
        | cons d r =>
          have := Shs.active (.cons d r)
          rw [h3] at this
          simp [any_active, Shs.isNil] at this
  | _ => simp [comp_glo_fun_decl] at h

/-- The script terminates iff the C function does, with the same result. -/
theorem C13_termination_partial (locals : Bool) (params : List Nat) (body : St) (ls : List Line)
    (hok : body.ok = true) (h : comp_glo_fun_decl locals params body = .ok ls) :
    ∃ c : Shs, ls = funLines locals params c ∧
      ∀ (σ : Type) (I : Interp σ), (locals = false → (∀ s, I.save s = s) ∧ ∀ s, I.restore s = s) →
        ∀ (s s' : σ), (∃ n, sfun I n locals params c s = some s') ↔ ∃ n, cfun I n params body s = some s' := by
  obtain ⟨c, h1, _, _, h2⟩ := C13_function_partial locals params body ls hok h
  refine ⟨c, h1, fun σ I hI s s' => ?_⟩
  simp only [h2 σ I hI]

/-! ### Non-vacuity -/

/-- The interpretation that records what is executed: test `2k` is true as long as fewer than `k` effects
have been recorded, odd tests are true; operand `e` is the number of effects recorded plus `e`. -/
def traceI : Interp (List Nat) where
  act a s := some (s ++ [a])
  test c s := some (s ++ [1000 + c], if c % 2 = 0 then s.length < c / 2 else true)
  sel e s := some (s ++ [2000 + e], (s.length : Int) + e)
  save s := s ++ [9001]
  restore s := s ++ [9002]

/-- `f() { for (a0; t20; a1) { switch (e0) { case 2: a2; return a3; case 3: case 4: if (t1) continue; a4; break;
default: a5; } if (t30) { } else if (t1) { a6; break; } } do { a7; } while (t60); while (t1) { if (t80) a8; else return a9; } }` -/
def sample : St := .block <|
  .cons (.for_ [0] (some 20) [1] (.block <|
    .cons (.switch 0 <|
      .cons (.case_ 2 (.act [2])) <| .cons (.ret [3]) <|
      .cons (.case_ 3 (.case_ 4 (.ite 1 .continue_ .empty))) <| .cons (.act [4]) <| .cons .break_ <|
      .cons (.default_ (.act [5])) .nil) <|
    .cons (.ite 8 .empty (.ite 1 (.block (.cons (.act [6]) (.cons .break_ .nil))) .empty)) .nil)) <|
  .cons (.do_ (.act [7]) 60) <|
  .cons (.while_ 1 (.ite 80 (.act [8]) (.ret [9]))) .nil

example : sample.ok = true := by decide +kernel
example : comp_glo_fun_decl true [100] sample = .ok
    [.save, .simple 100, .simple 0, .whileL (some 20), .caseL 0, .pat [.num 2], .simple 2, .simple 3, .restore, .ret, .dsemi,
     .pat [.num 3, .num 4], .ifL 1, .simple 1, .cont, .fi, .simple 4, .dsemi, .pat [.star], .simple 5, .dsemi, .esac,
     .ifL 8, .colon, .elifL 1, .simple 6, .brk 1, .fi, .simple 1, .done,
     .whileL none, .simple 7, .orBreak 60, .done,
     .whileL (some 1), .ifL 80, .simple 8, .elseL, .simple 9, .brk 1, .fi, .done, .restore] := by decide +kernel
example : cfun traceI 50 [100] sample [] =
    some [9001, 100, 0, 1020, 2000, 1001, 1, 1020, 2000, 5, 1008, 1001, 6, 7, 1060, 7, 1060, 7, 1060, 7, 1060, 7, 1060, 7, 1060, 7, 1060,
      7, 1060, 7, 1060, 1001, 1080, 8, 1001, 1080, 8, 1001, 1080, 8, 1001, 1080, 9, 9002] := by decide +kernel

/-- A `switch` in tail position: the `return`s need no command at all. -/
example : comp_glo_fun_decl true [] (.block (.cons (.switch 0 (.cons (.case_ 1 (.ret [1])) (.cons (.default_ (.ret [2])) .nil))) .nil))
    = .ok [.save, .caseL 0, .pat [.num 1], .simple 1, .dsemi, .pat [.star], .simple 2, .dsemi, .esac, .restore] := by decide +kernel

/-! ### What goes wrong outside of the supported statements -/

/-- `do { if (t1) continue; a1; } while (t0)`: `continue` jumps to the next iteration without evaluating
the condition. Here the C function terminates and the script does not (shown for every bound). -/
theorem C13_do_continue_false :
    ∃ body ls c, comp_glo_fun_decl false [] body = .ok ls ∧ ls = funLines false [] c ∧
      cfun traceI 1 [] body [] = some [9001, 1001, 1000, 9002] ∧
      ∀ n, sfun traceI n false [] c [] = none := by
  refine ⟨.block (.cons (.do_ (.block (.cons (.ite 1 .continue_ .empty) (.cons (.act [1]) .nil))) 0) .nil), _,
    .cons (.while_ none (.cons (.ite 1 (.cons .cont .nil) .none) (.cons (.simple 1) (.cons (.orBreak 0) .nil)))) .nil,
    rfl, rfl, by decide +kernel, ?_⟩
  intro n
  have : ∀ k (s : List Nat), sloop (fun s => some (s, true)) (sseq traceI n (.cons (.ite 1 (.cons .cont .nil) .none) (.cons (.simple 1) (.cons (.orBreak 0) .nil)))) k s = none := by
    intro k
    induction k with
    | zero => intro s; rfl
    | succ k ih =>
      intro s
      have e : sseq traceI n (.cons (.ite 1 (.cons .cont .nil) .none) (.cons (.simple 1) (.cons (.orBreak 0) .nil))) s = some (.cont, s ++ [1001]) := by
        simp [sseq, sexec, traceI]
      rw [sloop, Option.bind_some]
      simp only [if_true, e, Option.bind_some]
      exact ih _
  simp only [sfun, Interp.acts, Option.bind_some, sseq_one, Bool.false_eq_true, if_false]
  have e := this n []
  unfold sexec
  simp only [e, Option.map_none]

/-- `switch (e0) { default: a1; break; case 0: a2; }`: the pattern `*` comes first and hides `case 0`. -/
theorem C13_default_first_false :
    ∃ body ls c, comp_glo_fun_decl false [] body = .ok ls ∧ ls = funLines false [] c ∧
      cfun traceI 5 [] body [] = some [9001, 2007, 2, 9002] ∧
      sfun traceI 5 false [] c [] = some [2007, 1] := by
  refine ⟨.block (.cons (.switch 7 (.cons (.default_ (.act [1])) (.cons .break_ (.cons (.case_ 8 (.act [2])) .nil)))) .nil), _,
    .cons (.case_ 7 (.cons [.star] (.cons (.simple 1) .nil) (.cons [.num 8] (.cons (.simple 2) .nil) .nil))) .nil,
    rfl, rfl, by decide +kernel, by decide +kernel⟩

/-- `for (;;) { a1; break; } a2;`: what follows the loop is dropped. -/
theorem C13_for_break_false :
    ∃ body ls c, comp_glo_fun_decl false [] body = .ok ls ∧ ls = funLines false [] c ∧
      cfun traceI 5 [] body [] = some [9001, 1, 2, 9002] ∧
      sfun traceI 5 false [] c [] = some [1] := by
  refine ⟨.block (.cons (.for_ [] none [] (.block (.cons (.act [1]) (.cons .break_ .nil)))) (.cons (.act [2]) .nil)), _,
    .cons (.while_ none (.cons (.simple 1) (.cons (.brk 1) .nil))) .nil,
    rfl, rfl, by decide +kernel, by decide +kernel⟩

/-- `if (t1) { lbl: ; }`: the branch consists of a comment only, which is a syntax error in the shell:
without their comments the lines are not those of any grammatical command. -/
theorem C13_label_false :
    ∃ body ls, comp_glo_fun_decl false [] body = .ok ls ∧
      ¬ ∃ c : Shs, c.wf = true ∧ ls.filter (· != .comment) = funLines false [] c := by
  refine ⟨.block (.cons (.ite 1 (.block (.cons (.label .empty) .nil)) .empty) .nil), _, rfl, ?_⟩
  rintro ⟨c, hw, h⟩
  have h2 : (Shs.cons (.ite 1 .nil .none) .nil).lines = c.lines := by
    have e : (funLines false [] c) = c.lines := by simp [funLines]
    rw [e] at h
    exact h
  obtain ⟨rfl, _⟩ := shs_inj _ c [] [] rfl rfl (by rw [h2])
  simp [Shs.wf, Sh.wf, Shs.isNil] at hw

end Verif.Stmt
