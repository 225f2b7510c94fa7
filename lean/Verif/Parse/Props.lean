import Verif.Parse.Proofs
/-! C10: operator precedence and associativity are C's. -/
namespace Verif.Parse
open Verif Spec

theorem parse_terminates (ts : List Tok) : parse ts ≠ .diverge :=
  run_terminates _ .comma ts trivial (by simp [rank]; omega)

theorem parse_of_ev {ts r} (h : Ev .comma ts r) : parse ts = .ok r := by
  obtain ⟨n, h⟩ := h
  have h1 := run_mono (Nat.le_max_left n (32 * (ts.length + 1))) h
  rw [run_mono_ne (Nat.le_max_right n (32 * (ts.length + 1))) (parse_terminates ts)] at h1
  exact h1

/-- **C10 (completeness).** If the ISO C expression grammar derives the tokens `ts` with tree `t`,
and what follows cannot continue an expression (end, `)`, `]`, `:` or `;`), then the parser
consumes exactly `ts` and builds exactly `t`. -/
theorem C10_parses_iso_expressions {ts : List Tok} {t : E} (h : IsoExpr ts t) (rest : List Tok)
    (hr : rest = [] ∨ ∃ q r, q ∈ [P.rpar, .rbrk, .colon, .semi] ∧ rest = .p q :: r) :
    parse (ts ++ rest) = .ok (t, rest) := by
  apply parse_of_ev
  refine (complete h).1 rest ?_
  rcases hr with rfl | ⟨q, r, hq, rfl⟩
  · trivial
  · simp at hq
    rcases hq with rfl | rfl | rfl | rfl <;> simp [stop, contLevel]

/-- **C10 (soundness).** Whatever the parser accepts is derived, with the tree it builds, by the C
grammar, except that the left side of an assignment may be any conditional expression. -/
theorem C10_accepts_only_expressions {ts rest : List Tok} {t : E} (h : parse ts = .ok (t, rest)) :
    ∃ pre, ts = pre ++ rest ∧ D true .expr pre t :=
  sound _ _ _ _ _ h

/-- **C10.** The parser terminates on every token sequence: it returns a tree or reports an error. -/
theorem C10_terminates (ts : List Tok) : parse ts = .fatal ∨ ∃ t rest, parse ts = .ok (t, rest) := by
  have aux : ∀ n c ts, run n c ts ≠ .ub := by
    intro n
    induction n with
    | zero => intro c ts h; cases h
    | succ n ih =>
      intro c ts
      change step (run n) c ts ≠ .ub
      have b1 : ∀ {o : Out} {f : E × List Tok → Out}, o ≠ .ub → (∀ a, f a ≠ .ub) → o.bind f ≠ .ub := by
        intro o f h1 h2
        cases o with
        | ok a => exact h2 a
        | ub => exact absurd rfl h1
        | _ => simp
      have b2 : ∀ {q ts} {f : List Tok → Out}, (∀ a, f a ≠ .ub) → (expect q ts).bind f ≠ .ub := by
        intro q ts f h2
        unfold expect
        split
        · split
          · exact h2 _
          · simp
        · simp
      unfold step
      repeat' first
        | exact ih _ _
        | (intro hh; cases hh; done)
        | refine b1 ?_ (fun _ => ?_)
        | refine b2 (fun _ => ?_)
        | split
  have h1 := parse_terminates ts
  have h2 := aux (32 * (ts.length + 1)) .comma ts
  change parse ts ≠ .ub at h2
  cases h : parse ts with
  | ok r => exact Or.inr ⟨r.1, r.2, rfl⟩
  | fatal => exact Or.inl rfl
  | ub => exact absurd h h2
  | diverge => exact absurd h h1

/-- **C10.** The tree is determined by the tokens: the grammar the parser implements is
unambiguous, so precedence and associativity leave no choice. -/
theorem C10_unambiguous {ts : List Tok} {t t' : E} (h : IsoExpr ts t) (h' : IsoExpr ts t') :
    t = t' := by
  have a := C10_parses_iso_expressions h [] (Or.inl rfl)
  have b := C10_parses_iso_expressions h' [] (Or.inl rfl)
  rw [a] at b
  simpa using b

/-- **C10 (round trip).** Printing any expression tree with exactly the parentheses C requires and
parsing the result gives back the tree (parentheses nodes aside). -/
theorem C10_print_parse {e : E} (h : WF false e) :
    ∃ t, parse (unparse 15 e) = .ok (t, []) ∧ erase t = erase e := by
  obtain ⟨t, hd, he⟩ := unparse_good h 15 (by decide)
  have := C10_parses_iso_expressions hd [] (Or.inl rfl)
  rw [List.append_nil] at this
  exact ⟨t, this, he⟩

/-! Non-vacuity and readability examples. -/

/-- `a - b - c * d` is `(a - b) - (c * d)`. -/
example : parse [.ident 0, .p .minus, .ident 1, .p .minus, .ident 2, .p .star, .ident 3] =
    .ok (.bin .minus (.bin .minus (.ident 0) (.ident 1)) (.bin .star (.ident 2) (.ident 3)), []) := by
  decide +kernel

/-- `a = b = c ? d : e , f` -/
example : parse [.ident 0, .p .eq, .ident 1, .p .eq, .ident 2, .p .quest, .ident 3, .p .colon,
      .ident 4, .p .comma, .ident 5] =
    .ok (.comma (.assign .eq (.ident 0) (.assign .eq (.ident 1)
      (.cond (.ident 2) (.ident 3) (.ident 4)))) (.ident 5), []) := by
  decide +kernel

/-- `-a.x[1]++ & *p` -/
example : parse [.p .minus, .ident 0, .p .dot, .ident 1, .p .lbrk, .num 1, .p .rbrk, .p .incr,
      .p .amp, .p .star, .ident 2] =
    .ok (.bin .amp (.unary .minus (.postinc (.index (.member (.ident 0) 1) (.num 1))))
      (.unary .star (.ident 2)), []) := by
  decide +kernel

/-- `sizeof (int) * (char) f(a, b)` -/
example : parse [.sizeofKw, .p .lpar, .ty 0, .p .rpar, .p .star, .p .lpar, .ty 1, .p .rpar,
      .ident 0, .p .lpar, .ident 1, .p .comma, .ident 2, .p .rpar] =
    .ok (.bin .star (.sizeofT 0) (.cast 1 (.call (.ident 0) (.list (.ident 1)
      (.list (.ident 2) .nil)))), []) := by
  decide +kernel

/-- Errors are reported: `a + )`. -/
example : parse [.ident 0, .p .plus, .p .rpar] = .fatal := by decide +kernel

/-- The hypothesis of `C10_parses_iso_expressions` holds of `a - b - c`. -/
example : IsoExpr [.ident 0, .p .minus, .ident 1, .p .minus, .ident 2]
    (.bin .minus (.bin .minus (.ident 0) (.ident 1)) (.ident 2)) := by
  have up : ∀ {ts e}, D false (.bin 2) ts e → D false .expr ts e := fun h =>
    .ofAssign <| .ofCond <| .ofLor <| .ofLower (by decide) <| .ofLower (by decide) <|
      .ofLower (by decide) <| .ofLower (by decide) <| .ofLower (by decide) <|
      .ofLower (by decide) <| .ofLower (by decide) <| .ofLower (by decide) h
  have id1 : ∀ x, D false (.bin 1) [.ident x] (.ident x) := fun x =>
    .ofLower (by decide) <| .ofUnary <| .ofPostfix <| .ofPrimary <| .ident x
  exact up (D.bin (ts := [.ident 0, .p .minus, .ident 1]) (by decide)
    (D.bin (ts := [.ident 0]) (by decide) (.ofLower (by decide) (id1 0)) (id1 1)) (id1 2))

/-- The hypothesis of `C10_print_parse` holds of `(a + b) * c`, which is printed with parentheses. -/
example : WF false (.bin .star (.bin .plus (.ident 0) (.ident 1)) (.ident 2)) ∧
    unparse 15 (.bin .star (.bin .plus (.ident 0) (.ident 1)) (.ident 2)) =
      [.p .lpar, .ident 0, .p .plus, .ident 1, .p .rpar, .p .star, .ident 2] :=
  ⟨.bin ⟨1, by decide⟩ (.bin ⟨2, by decide⟩ (.ident 0) (.ident 1)) (.ident 2), by decide +kernel⟩

end Verif.Parse
