import Verif.PStmt.Proofs
/-! C43: statements are parsed as C's statements. -/
namespace Verif.PStmt
open Verif Verif.PStmt.Spec Verif.Parse.Spec

/-- **C43 (completeness).** If the statement grammar of ISO C derives the tokens of a function body with tree `s`, the parser consumes exactly those tokens and builds exactly `s`, whatever follows. -/
theorem C43_parses_iso_bodies {ts : List Tok} {s : St} (h : Body false ts s) (rest : List Tok) : body (ts ++ rest) = .ok (s, rest) := body_complete h rest

/-- **C43 (soundness).** Whatever the parser accepts is derived, with the tree it builds, by the grammar, except for what `relaxed` allows: the label of a `case` may be any expression, the left side
of an assignment any conditional expression, and a `;` from a macro may change the name of the label of a `goto`. -/
theorem C43_accepts_only_statements_partial {ts rest : List Tok} {s : St} (h : body ts = .ok (s, rest)) : ∃ pre, ts = pre ++ rest ∧ Body true pre s := body_sound h

/-- **C43.** The parser ends on every sequence of tokens. -/
theorem C43_terminates (ts : List Tok) : body ts ≠ .diverge := body_nd ts

/-- **C43.** The tree of a body is determined by its tokens: each `else` has one `if` it can belong to. -/
theorem C43_unambiguous {ts : List Tok} {s s' : St} (h : Body false ts s) (h' : Body false ts s') : s = s' := by
  have a := C43_parses_iso_bodies h []
  rw [C43_parses_iso_bodies h' []] at a
  cases a
  rfl

/-- **C43.** In `if (c) if (d) A else B` the `else` belongs to the inner `if`, for all conditions and all statements `A` and `B`. -/
theorem C43_else_belongs_to_nearest_if {tc td ta tb : List Tok} {c d : E} {a b : St} {o o' : Bool} (hc : Ex false tc c) (hd : Ex false td d) (ha : Stm false o ta a) (hno : o = false)
    (hb : Stm false o' tb b) (rest : List Tok) :
    body (.lbrace :: .kw .if_ :: .p .lpar :: (tc ++ .p .rpar :: .kw .if_ :: .p .lpar :: (td ++ .p .rpar :: (ta ++ .kw .else_ :: (tb ++ .rbrace :: rest))))) =
      .ok (.block (.if_ (.parens c) (.if_ (.parens d) a b) .nil) .nil, rest) := by
  subst hno
  have := C43_parses_iso_bodies (.mk (.stm (.ifThen hc (.ifElse hd ha hb)) .nil)) rest
  simpa using this

/-- **C43.** A statement between braces is closed: in `if (c) { if (d) A } else B` the `else` belongs to the outer `if`. -/
theorem C43_braces_close_an_if {tc td ta tb : List Tok} {c d : E} {a b : St} {o o' : Bool} (hc : Ex false tc c) (hd : Ex false td d) (ha : Stm false o ta a) (hb : Stm false o' tb b) (rest : List Tok) :
    body (.lbrace :: .kw .if_ :: .p .lpar :: (tc ++ .p .rpar :: .lbrace :: .kw .if_ :: .p .lpar :: (td ++ .p .rpar :: (ta ++ .rbrace :: .kw .else_ :: (tb ++ .rbrace :: rest))))) =
      .ok (.block (.if_ (.parens c) (.block (.if_ (.parens d) a .nil) .nil) b) .nil, rest) := by
  have := C43_parses_iso_bodies (.mk (.stm (.ifElse hc (.block (.stm (.ifThen hd ha) .nil)) hb) .nil)) rest
  simpa using this

/-! ## Where the parser departs from C -/

theorem cond_not_comma {rx : Bool} {pts : List PTok} {e : E} (h : D rx .cond pts e) : ∀ a b, e ≠ .comma a b := by
  have key : ∀ {nt pts e}, D rx nt pts e → nt ≠ .expr → nt ≠ .assign → nt ≠ .args → ∀ a b, e ≠ .comma a b := by
    intro nt pts e h
    induction h with
    | ofAssign => intro h; exact absurd rfl h
    | comma => intro h; exact absurd rfl h
    | ofCond => intro _ h; exact absurd rfl h
    | assign => intro _ h; exact absurd rfl h
    | assignRelaxed => intro _ h; exact absurd rfl h
    | arg => intro _ _ h; exact absurd rfl h
    | args => intro _ _ h; exact absurd rfl h
    | ofPrimary _ ih => exact fun _ _ _ => ih (by simp) (by simp) (by simp)
    | ofPostfix _ ih => exact fun _ _ _ => ih (by simp) (by simp) (by simp)
    | ofUnary _ ih => exact fun _ _ _ => ih (by simp) (by simp) (by simp)
    | ofLower _ _ ih => exact fun _ _ _ => ih (by simp) (by simp) (by simp)
    | ofLor _ ih => exact fun _ _ _ => ih (by simp) (by simp) (by simp)
    | _ => intro _ _ _ a b e; cases e
  exact key h (by simp) (by simp) (by simp)

/-- **C43, the full claim is false (1).** `case 1, 2: ;` is accepted: the label of a `case` is read as a comma expression, which a constant expression cannot be. -/
theorem C43_comma_in_case_label_false :
    let ts : List Tok := [.lbrace, .kw .case, .e (.num 1), .p .comma, .e (.num 2), .p .colon, .p .semi, .rbrace]
    body ts = .ok (.block (.case (.comma (.num 1) (.num 2)) .nil) .nil, []) ∧ ¬ ∃ s, Body false ts s := by
  have h1 : body [.lbrace, .kw .case, .e (.num 1), .p .comma, .e (.num 2), .p .colon, .p .semi, .rbrace] = .ok (.block (.case (.comma (.num 1) (.num 2)) .nil) .nil, []) := by decide +kernel
  refine ⟨h1, ?_⟩
  rintro ⟨s, h⟩
  have h2 := C43_parses_iso_bodies h []
  rw [List.append_nil, h1] at h2
  cases h2
  generalize [Tok.lbrace, .kw .case, .e (.num 1), .p .comma, .e (.num 2), .p .colon, .p .semi, .rbrace] = ts at h
  cases h with
  | mk h =>
    cases h with
    | stm hs _ =>
      cases hs with
      | case hc _ =>
        rcases hc with ⟨_, _, hd⟩ | ⟨hf, _⟩
        · exact cond_not_comma hd _ _ rfl
        · cases hf
      | block hi => cases hi

/-- **C43, the full claim is false (2).** With `#define GO(l) goto l;` the statement `GO(x)` jumps to `l`: the `;` of the macro's body brings back the value the parser keeps the name of the label in. -/
theorem C43_goto_with_a_semicolon_from_a_macro_false (x l : Nat) (rest : List Tok) :
    body (.lbrace :: .kw .goto :: .e (.ident x) :: .semiM l :: .rbrace :: rest) = .ok (.block (.goto l) .nil, rest) := by
  have h : stmtF (3 * rest.length + 16) (.kw .goto :: .e (.ident x) :: .semiM l :: .rbrace :: rest) = .ok (.goto l, .rbrace :: rest) := by rw [stmtF.eq_def]; rfl
  have h2 : itemsF (3 * rest.length + 17) (.kw .goto :: .e (.ident x) :: .semiM l :: .rbrace :: rest) = .ok (.block (.goto l) .nil, .rbrace :: rest) := by
    rw [items_stm (by simp) (by simp), h, Res.bind_ok]
    rfl
  rw [body, expect_ok, Res.bind_ok]
  have e : 3 * (Tok.lbrace :: .kw .goto :: .e (.ident x) :: .semiM l :: .rbrace :: rest).length + 3 = 3 * rest.length + 17 + 1 := by simp; omega
  rw [e, blockF, h2, Res.bind_ok]
  exact congrArg (fun (r : Res (List Tok)) => r.bind fun r => .ok (_, r)) (expect_ok .rbrace rest)

/-- **C43, the full claim is false (3).** The C99 form `for (int i = 0; ; )` is refused, whatever the declaration. -/
theorem C43_for_with_declaration_false (d : Nat) (rest : List Tok) : body (.lbrace :: .kw .for_ :: .p .lpar :: .decl d :: rest) = .fatal := by
  rw [body, expect_ok, Res.bind_ok]
  have e : 3 * (Tok.lbrace :: .kw .for_ :: .p .lpar :: .decl d :: rest).length + 3 = 3 * rest.length + 12 + 1 + 1 + 1 := by simp; omega
  rw [e, blockF, items_stm (by simp) (by simp), stmtF.eq_def]
  dsimp only
  rw [expect_ok, Res.bind_ok]
  rfl

/-- **C43, the full claim is false (4).** A statement that begins with `:` is not refused: the parser reads the operator of a node that does not exist. -/
theorem C43_statement_starting_with_colon_false (rest : List Tok) : body (.lbrace :: .p .colon :: rest) = .ub := by
  rw [body, expect_ok, Res.bind_ok]
  have e : 3 * (Tok.lbrace :: .p .colon :: rest).length + 3 = 3 * rest.length + 6 + 1 + 1 + 1 := by simp; omega
  rw [e, blockF, items_stm (by simp) (by simp), stmtF_e]
  rfl

/-! ## Examples -/

private def P (q : Parse.P) : Tok := .p q
private def I (x : Nat) : Tok := .e (.ident x)

/-- `{ if (1x) if (2x) 3x; else 4x; }` -/
example : body [.lbrace, .kw .if_, P .lpar, I 1, P .rpar, .kw .if_, P .lpar, I 2, P .rpar, I 3, P .semi, .kw .else_, I 4, P .semi, .rbrace] =
    .ok (.block (.if_ (.parens (.ident 1)) (.if_ (.parens (.ident 2)) (.expr (.ident 3)) (.expr (.ident 4))) .nil) .nil, []) := by decide +kernel

/-- `{ for (;;) { x: while (a) do ; while (b); goto x; } return a; }` -/
example : body [.lbrace, .kw .for_, P .lpar, P .semi, P .semi, P .rpar, .lbrace, I 7, P .colon, .kw .while_, P .lpar, I 1, P .rpar, .kw .do_, P .semi, .kw .while_, P .lpar, I 2, P .rpar, P .semi,
      .kw .goto, I 7, P .semi, .rbrace, .kw .return_, I 1, P .semi, .rbrace] =
    .ok (.block (.for_ none none none (.block (.label 7 (.while_ (.parens (.ident 1)) (.do_ .nil (.parens (.ident 2))))) (.block (.goto 7) .nil)))
      (.block (.return_ (some (.ident 1))) .nil), []) := by decide +kernel

/-- The hypotheses of the completeness theorem are met by it: `{ switch (a) { case 1: break; default: return; } }` -/
example : Body false [.lbrace, .kw .switch, P .lpar, I 1, P .rpar, .lbrace, .kw .case, I 2, P .colon, .kw .break, P .semi, .kw .default, P .colon, .kw .return_, P .semi, .rbrace, .rbrace]
    (.block (.switch (.parens (.ident 1)) (.block (.case (.ident 2) .break) (.block (.default (.return_ none)) .nil))) .nil) :=
  .mk (ts := [.kw .switch, P .lpar, I 1, P .rpar, .lbrace, .kw .case, I 2, P .colon, .kw .break, P .semi, .kw .default, P .colon, .kw .return_, P .semi, .rbrace])
    (.stm (ts := [.kw .switch, P .lpar, I 1, P .rpar, .lbrace, .kw .case, I 2, P .colon, .kw .break, P .semi, .kw .default, P .colon, .kw .return_, P .semi, .rbrace])
      (.switch (te := [I 1]) ⟨[.ident 1], rfl, expr_ident _ _⟩
        (.block (ts := [.kw .case, I 2, P .colon, .kw .break, P .semi, .kw .default, P .colon, .kw .return_, P .semi])
          (.stm (ts := [.kw .case, I 2, P .colon, .kw .break, P .semi]) (.case (te := [I 2]) (.inl ⟨[.ident 2], rfl, .ofLor (bin_ident _ _ 10 (by omega))⟩) (.break .text))
            (.stm (ts := [.kw .default, P .colon, .kw .return_, P .semi]) (.default (.return_ (te := []) .none .text)) .nil)))) .nil)

/-- `{ else ; }` and `{ if (a) }` are refused. -/
example : body [.lbrace, .kw .else_, P .semi, .rbrace] = .fatal ∧ body [.lbrace, .kw .if_, P .lpar, I 1, P .rpar, .rbrace] = .fatal := by decide +kernel

end Verif.PStmt
