import Verif.PStmt.Spec
import Verif.Parse.Props
/-! The statement parser and the grammar. -/
namespace Verif.PStmt
open Verif Verif.PStmt.Spec Verif.Parse.Spec

/-! ## Expressions in a list of tokens -/

theorem split_eq : ∀ ts, ts = (split ts).1.map .e ++ (split ts).2
  | [] => rfl
  | t :: r => by
    cases t with
    | e t => rw [split]; simp only [List.map_cons, List.cons_append]; rw [← split_eq r]
    | _ => rfl

theorem split_append : ∀ (pre : List PTok) (rest : List Tok), split (pre.map .e ++ rest) = (pre ++ (split rest).1, (split rest).2)
  | [], rest => rfl
  | t :: r, rest => by
    rw [List.map_cons, List.cons_append, split, split_append r rest]
    rfl

/-- What may follow an expression. -/
def StopE (rest : List Tok) : Prop := (∃ q r, rest = .p q :: r ∧ q ∈ [Parse.P.rpar, .colon, .semi]) ∨ (∃ v r, rest = .semiM v :: r)

theorem semi_stop {s : Tok} (h : Semi s) (r : List Tok) : StopE (s :: r) := by
  cases h with
  | text => exact .inl ⟨_, _, rfl, by simp⟩
  | fromMacro => exact .inr ⟨_, _, rfl⟩

theorem semi_isSemi {s : Tok} (h : Semi s) : isSemi s = true := by cases h <;> rfl

theorem isSemi_semi {s : Tok} (h : isSemi s = true) : Semi s := by
  cases s with
  | e t =>
    cases t with
    | p q => cases q <;> first | exact .text | cases h
    | _ => cases h
  | semiM v => exact .fromMacro
  | _ => cases h

theorem commaExpr_ok {te : List Tok} {e : E} (h : Ex false te e) {rest : List Tok} (hs : StopE rest) : commaExpr (te ++ rest) = .ok (e, rest) := by
  obtain ⟨pts, rfl, hd⟩ := h
  rw [commaExpr, split_append]
  dsimp only
  have := Parse.C10_parses_iso_expressions hd (split rest).1 (by
    rcases hs with ⟨q, r, rfl, hq⟩ | ⟨v, r, rfl⟩
    · refine .inr ⟨q, (split r).1, ?_, rfl⟩
      simp at hq ⊢
      rcases hq with rfl | rfl | rfl <;> simp
    · exact .inl rfl)
  rw [this, Res.bind_ok, ← split_eq]

/-- How an expression can begin. -/
def starts (t : PTok) : Prop := t ≠ .p .colon ∧ t ≠ .p .semi ∧ t ≠ .p .rpar

theorem expr_head {rx : Bool} {pts : List PTok} {e : E} (h : D rx .expr pts e) : ∃ t r, pts = t :: r ∧ starts t := by
  have key : ∀ {nt pts e}, D rx nt pts e → ∃ t r, pts = t :: r ∧ starts t := by
    intro nt pts e h
    have un : ∀ q, q ∈ isoUnary → starts (.p q) := by
      intro q hq
      simp [isoUnary] at hq
      rcases hq with rfl | rfl | rfl | rfl | rfl | rfl <;> simp [starts]
    induction h with
    | str h => cases h <;> exact ⟨_, _, rfl, by simp [starts]⟩
    | unary hq _ _ => exact ⟨_, _, rfl, un _ hq⟩
    | _ => first
      | exact ⟨_, _, rfl, by simp [starts]⟩
      | assumption
      | (rename_i h; obtain ⟨t, r, rfl, hs⟩ := h; exact ⟨_, _, rfl, hs⟩)
      | (rename_i h _; obtain ⟨t, r, rfl, hs⟩ := h; exact ⟨_, _, rfl, hs⟩)
      | (rename_i h _ _; obtain ⟨t, r, rfl, hs⟩ := h; exact ⟨_, _, rfl, hs⟩)
  exact key h

/-! ## The parser accepts ISO C's statements -/

theorem cond_expr {rx : Bool} {ts e} (h : D rx .cond ts e) : D rx .expr ts e := .ofAssign (.ofCond h)

theorem bin_ident (rx : Bool) (x : Nat) : ∀ k, k ≤ 10 → D rx (.bin k) [.ident x] (.ident x)
  | 0, _ => .ofUnary (.ofPostfix (.ofPrimary (.ident x)))
  | k + 1, h => .ofLower (by omega) (bin_ident rx x k (by omega))

theorem expr_ident (rx : Bool) (x : Nat) : D rx .expr [.ident x] (.ident x) := cond_expr (.ofLor (bin_ident rx x 10 (by omega)))

theorem caseEx_ex {te : List Tok} {e : E} (h : CaseEx false te e) : Ex false te e := by
  rcases h with ⟨pts, rfl, h⟩ | ⟨h, _⟩
  · exact ⟨pts, rfl, cond_expr h⟩
  · cases h

theorem ex_head {rx : Bool} {te : List Tok} {e : E} (h : Ex rx te e) : ∃ t r, te = .e t :: r ∧ starts t := by
  obtain ⟨pts, rfl, h⟩ := h
  obtain ⟨t, r, rfl, hs⟩ := expr_head h
  exact ⟨t, _, rfl, hs⟩

theorem stm_head {rx : Bool} {o : Bool} {ts : List Tok} {s : St} (h : Stm rx o ts s) : ∃ t r, ts = t :: r ∧ t ≠ .rbrace ∧ t ≠ .kw .else_ ∧ ∀ d, t ≠ .decl d := by
  cases h with
  | empty h => cases h <;> exact ⟨_, _, rfl, by simp, by simp, by simp⟩
  | expr h => obtain ⟨t, r, rfl, _⟩ := ex_head h; exact ⟨_, _, rfl, by simp, by simp, by simp⟩
  | _ => exact ⟨_, _, rfl, by simp, by simp, by simp⟩

theorem items_head {rx : Bool} {ts : List Tok} {s : St} (h : Items rx ts s) (r : List Tok) : (ts ++ .rbrace :: r).head? ≠ some (.kw .else_) := by
  cases h with
  | nil => simp
  | decl => simp
  | stm h => obtain ⟨t, r, rfl, _, h, _⟩ := stm_head h; simp [h]

theorem expectSemi_ok {s : Tok} (h : Semi s) (r : List Tok) : expectSemi (s :: r) = .ok r := by rw [expectSemi, if_pos (semi_isSemi h)]
theorem expect_ok (t : Tok) (r : List Tok) : expect t (t :: r) = .ok r := by simp [expect]

theorem rpar_stop (r : List Tok) : StopE (.p .rpar :: r) := .inl ⟨_, _, rfl, by simp⟩
theorem colon_stop (r : List Tok) : StopE (.p .colon :: r) := .inl ⟨_, _, rfl, by simp⟩

theorem parenExpr_ok {te : List Tok} {e : E} (h : Ex false te e) (rest : List Tok) : parenExpr (.p .lpar :: (te ++ .p .rpar :: rest)) = .ok (.parens e, rest) := by
  rw [parenExpr, expect_ok, Res.bind_ok, commaExpr_ok h (rpar_stop _), Res.bind_ok]
  dsimp only
  rw [expect_ok, Res.bind_ok]

/-- The tests of `parse_comma_expression_opt`. -/
theorem opt_none {t : Tok} {r : List Tok} (h : t = .p .colon ∨ isSemi t ∨ t = .p .rpar) : commaExprOpt (t :: r) = .ok (none, t :: r) := by rw [commaExprOpt]; exact if_pos h
theorem opt_some {t : PTok} (hs : starts t) (r : List Tok) : commaExprOpt (.e t :: r) = (commaExpr (.e t :: r)).bind fun (e, r) => .ok (some e, r) := by
  rw [commaExprOpt]
  refine if_neg ?_
  obtain ⟨h1, h2, h3⟩ := hs
  simp only [Tok.e.injEq, h1, h3, or_false, false_or]
  cases t with
  | p q => cases q <;> simp_all [isSemi]
  | _ => simp [isSemi]

theorem opt_ex {te : List Tok} {e : E} (h : Ex false te e) {rest : List Tok} (hs : StopE rest) : commaExprOpt (te ++ rest) = .ok (some e, rest) := by
  have h1 := commaExpr_ok h hs
  obtain ⟨t, r, rfl, ht⟩ := ex_head h
  rw [List.cons_append] at h1 ⊢
  rw [opt_some ht, h1, Res.bind_ok]

theorem opt_ok {te : List Tok} {e : Option E} (h : ExOpt false te e) {t : Tok} {rest : List Tok} (ht : Semi t ∨ t = .p .rpar) : commaExprOpt (te ++ t :: rest) = .ok (e, t :: rest) := by
  cases h with
  | none =>
    rcases ht with h | rfl
    · exact opt_none (.inr (.inl (semi_isSemi h)))
    · exact opt_none (.inr (.inr rfl))
  | some h =>
    refine opt_ex h ?_
    rcases ht with h | rfl
    · exact semi_stop h _
    · exact rpar_stop _

/-- The case of `parse_statement` for anything that does not begin with a keyword or `{`. -/
def exprStmt (n : Nat) (ts : List Tok) : Res (St × List Tok) :=
  (commaExprOpt ts).bind fun (e, r) =>
    if r.head? = some (.p .colon) ∧ ts.head? ≠ some (.p .lpar) then
      match e with
      | none => .ub
      | some (.ident x) => (stmtF n r.tail).bind fun (a, r) => .ok (.label x a, r)
      | some _ => .fatal
    else
      (expectSemi r).bind fun r =>
        match e with
        | none => .ok (.nil, r)
        | some e => .ok (.expr e, r)

theorem stmtF_e (n : Nat) (t : PTok) (r : List Tok) : stmtF (n + 1) (.e t :: r) = exprStmt n (.e t :: r) := by rw [stmtF.eq_def]; rfl
theorem stmtF_semiM (n : Nat) (v : Nat) (r : List Tok) : stmtF (n + 1) (.semiM v :: r) = exprStmt n (.semiM v :: r) := by rw [stmtF.eq_def]; rfl

theorem semi_not_colon {s : Tok} (h : Semi s) : s ≠ .p .colon := by cases h <;> simp

theorem items_stm {n : Nat} {t : Tok} {r : List Tok} (h1 : t ≠ .rbrace) (h2 : ∀ d, t ≠ .decl d) :
    itemsF (n + 1) (t :: r) = (stmtF n (t :: r)).bind fun (a, r) => (itemsF n r).bind fun (b, r) => .ok (.block a b, r) := by
  rw [itemsF.eq_def]
  cases t <;> first | rfl | exact absurd rfl h1 | exact absurd rfl (h2 _)

mutual
theorem stm_complete : ∀ {o : Bool} {ts : List Tok} {s : St} (_ : Stm false o ts s) (n : Nat) (rest : List Tok), (o = true → rest.head? ≠ some (.kw .else_)) → 3 * ts.length ≤ n →
    stmtF n (ts ++ rest) = .ok (s, rest)
  | _, _, _, .ifThen (te := te) (ts := ts) he ha, n, rest, ho, hn => by
    cases n with
    | zero => simp at hn
    | succ n =>
      have h1 := stm_complete ha n rest (fun _ => ho rfl) (by simp at hn; omega)
      rw [stmtF.eq_def]
      simp only [List.cons_append, List.append_assoc]
      rw [parenExpr_ok he, Res.bind_ok]
      dsimp only
      rw [h1, Res.bind_ok]
      dsimp only
      split
      · exact absurd rfl (ho rfl)
      · rfl
  | _, _, _, .ifElse (te := te) (ts := ts) (ts' := ts') he ha hb, n, rest, ho, hn => by
    cases n with
    | zero => simp at hn
    | succ n =>
      have h1 := stm_complete ha n (.kw .else_ :: (ts' ++ rest)) (fun e => by cases e) (by simp at hn; omega)
      have h2 := stm_complete hb n rest ho (by simp at hn; omega)
      rw [stmtF.eq_def]
      simp only [List.cons_append, List.append_assoc]
      rw [parenExpr_ok he, Res.bind_ok]
      dsimp only
      rw [h1, Res.bind_ok]
      dsimp only
      rw [h2, Res.bind_ok]
  | _, _, _, .switch (te := te) (ts := ts) he ha, n, rest, ho, hn => by
    cases n with
    | zero => simp at hn
    | succ n =>
      have h1 := stm_complete ha n rest ho (by simp at hn; omega)
      rw [stmtF.eq_def]
      simp only [List.cons_append, List.append_assoc]
      rw [parenExpr_ok he, Res.bind_ok]
      dsimp only
      rw [h1, Res.bind_ok]
  | _, _, _, .while_ (te := te) (ts := ts) he ha, n, rest, ho, hn => by
    cases n with
    | zero => simp at hn
    | succ n =>
      have h1 := stm_complete ha n rest ho (by simp at hn; omega)
      rw [stmtF.eq_def]
      simp only [List.cons_append, List.append_assoc]
      rw [parenExpr_ok he, Res.bind_ok]
      dsimp only
      rw [h1, Res.bind_ok]
  | _, _, _, .case (te := te) (ts := ts) he ha, n, rest, ho, hn => by
    cases n with
    | zero => simp at hn
    | succ n =>
      have h1 := stm_complete ha n rest ho (by simp at hn; omega)
      rw [stmtF.eq_def]
      simp only [List.cons_append, List.append_assoc]
      rw [commaExpr_ok (caseEx_ex he) (colon_stop _), Res.bind_ok]
      dsimp only
      rw [expect_ok, Res.bind_ok, h1, Res.bind_ok]
  | _, _, _, .default (ts := ts) ha, n, rest, ho, hn => by
    cases n with
    | zero => simp at hn
    | succ n =>
      have h1 := stm_complete ha n rest ho (by simp at hn; omega)
      rw [stmtF.eq_def]
      simp only [List.cons_append]
      rw [expect_ok, Res.bind_ok, h1, Res.bind_ok]
  | _, _, _, .do_ (te := te) (ts := ts) (s := s) ha he hs, n, rest, ho, hn => by
    cases n with
    | zero => simp at hn
    | succ n =>
      have h1 := stm_complete ha n (.kw .while_ :: .p .lpar :: (te ++ [.p .rpar, s] ++ rest)) (fun _ => by simp) (by simp at hn; omega)
      rw [stmtF.eq_def]
      simp only [List.cons_append, List.append_assoc, List.nil_append] at h1 ⊢
      rw [h1, Res.bind_ok]
      dsimp only
      rw [expect_ok, Res.bind_ok, parenExpr_ok he, Res.bind_ok]
      dsimp only
      rw [expectSemi_ok hs, Res.bind_ok]
  | _, _, _, .for_ (t1 := t1) (t2 := t2) (t3 := t3) (ts := ts) h1 h2 h3 ha hs hs', n, rest, ho, hn => by
    cases n with
    | zero => simp at hn
    | succ n =>
      have h4 := stm_complete ha n rest ho (by simp at hn; omega)
      rw [stmtF.eq_def]
      simp only [List.cons_append, List.append_assoc]
      rw [expect_ok, Res.bind_ok, opt_ok h1 (.inl hs), Res.bind_ok]
      dsimp only
      rw [expectSemi_ok hs, Res.bind_ok, opt_ok h2 (.inl hs'), Res.bind_ok]
      dsimp only
      rw [expectSemi_ok hs', Res.bind_ok, opt_ok h3 (.inr rfl), Res.bind_ok]
      dsimp only
      rw [expect_ok, Res.bind_ok, h4, Res.bind_ok]
  | _, _, _, .goto, n, rest, ho, hn => by
    cases n with
    | zero => simp at hn
    | succ n => rw [stmtF.eq_def]; rfl
  | _, _, _, .gotoM h, n, rest, ho, hn => by
    cases n with
    | zero => simp at hn
    | succ n => rw [stmtF.eq_def]; rfl
  | _, _, _, .continue hs, n, rest, ho, hn => by
    cases n with
    | zero => simp at hn
    | succ n => rw [stmtF.eq_def]; simp only [List.cons_append, List.nil_append]; rw [expectSemi_ok hs, Res.bind_ok]
  | _, _, _, .break hs, n, rest, ho, hn => by
    cases n with
    | zero => simp at hn
    | succ n => rw [stmtF.eq_def]; simp only [List.cons_append, List.nil_append]; rw [expectSemi_ok hs, Res.bind_ok]
  | _, _, _, .return_ he hs, n, rest, ho, hn => by
    cases n with
    | zero => simp at hn
    | succ n =>
      rw [stmtF.eq_def]
      simp only [List.cons_append, List.append_assoc, List.nil_append]
      rw [opt_ok he (.inl hs), Res.bind_ok]
      dsimp only
      rw [expectSemi_ok hs, Res.bind_ok]
  | _, _, _, .empty hs, n, rest, ho, hn => by
    cases n with
    | zero => simp at hn
    | succ n => cases hs <;> rw [stmtF.eq_def] <;> rfl
  | _, _, _, .expr (te := te) he hs, n, rest, ho, hn => by
    cases n with
    | zero => simp at hn
    | succ n =>
      have h1 := opt_ex he (semi_stop hs rest)
      obtain ⟨t, r, rfl, ht⟩ := ex_head he
      simp only [List.cons_append, List.append_assoc, List.nil_append] at h1 ⊢
      rw [stmtF_e, exprStmt, h1, Res.bind_ok]
      dsimp only
      rw [if_neg (fun h => semi_not_colon hs (by simpa using h.1)), expectSemi_ok hs, Res.bind_ok]
  | _, _, _, .label (x := x) (ts := ts) ha, n, rest, ho, hn => by
    cases n with
    | zero => simp at hn
    | succ n =>
      have h1 := stm_complete ha n rest ho (by simp at hn; omega)
      have h2 := opt_ex (te := [.e (.ident x)]) ⟨[.ident x], rfl, expr_ident false x⟩ (colon_stop (ts ++ rest))
      simp only [List.cons_append, List.nil_append] at h2 ⊢
      rw [stmtF_e, exprStmt, h2, Res.bind_ok]
      dsimp only
      rw [if_pos ⟨by simp, by simp⟩]
      simp only [List.tail_cons]
      rw [h1, Res.bind_ok]
  | _, _, _, .block (ts := ts) hi, n, rest, ho, hn => by
    match n with
    | 0 => simp at hn
    | 1 => simp at hn; omega
    | n + 2 =>
      have h1 := items_complete hi n rest (by simp at hn; omega)
      rw [stmtF.eq_def]
      simp only [List.cons_append, List.append_assoc, List.nil_append]
      rw [blockF, h1, Res.bind_ok]
      dsimp only
      rw [expect_ok, Res.bind_ok]
theorem items_complete : ∀ {ts : List Tok} {s : St} (_ : Items false ts s) (n : Nat) (rest : List Tok), 3 * ts.length + 1 ≤ n → itemsF n (ts ++ .rbrace :: rest) = .ok (s, .rbrace :: rest)
  | _, _, .nil, n, rest, hn => by
    cases n with
    | zero => simp at hn
    | succ n => rw [itemsF.eq_def]; rfl
  | _, _, .decl (ts := ts) h, n, rest, hn => by
    cases n with
    | zero => simp at hn
    | succ n =>
      have h1 := items_complete h n rest (by simp at hn; omega)
      rw [itemsF.eq_def]
      simp only [List.cons_append]
      rw [h1, Res.bind_ok]
  | _, _, .stm (ts := ts) (ts' := ts') ha hb, n, rest, hn => by
    cases n with
    | zero => simp at hn
    | succ n =>
      have hl : 1 ≤ ts.length := by obtain ⟨t, r, rfl, _⟩ := stm_head ha; simp
      have h1 := stm_complete ha n (ts' ++ .rbrace :: rest) (fun _ => items_head hb rest) (by simp at hn; omega)
      have h2 := items_complete hb n rest (by simp at hn; omega)
      obtain ⟨t, r, rfl, ht, _, ht'⟩ := stm_head ha
      simp only [List.cons_append, List.append_assoc] at h1 ⊢
      rw [items_stm ht ht', h1, Res.bind_ok]
      dsimp only
      rw [h2, Res.bind_ok]
end

theorem body_complete {ts : List Tok} {s : St} (h : Body false ts s) (rest : List Tok) : body (ts ++ rest) = .ok (s, rest) := by
  cases h with
  | mk h =>
    rename_i ts
    simp only [List.cons_append, List.append_assoc, List.nil_append]
    rw [body, expect_ok, Res.bind_ok, blockF, items_complete h _ rest (by simp; omega), Res.bind_ok]
    dsimp only
    rw [expect_ok, Res.bind_ok]


/-! ## What it accepts is a statement -/

theorem ident_inv {rx : Bool} {x : Nat} {nt : NT} {pts : List PTok} {e : E} (h : D rx nt pts e) : e = .ident x → pts = [.ident x] := by
  induction h with
  | ident y => intro e; cases e; rfl
  | args => rename_i l _ _ _ _ _ _; intro e; cases l <;> cases e
  | comma => rename_i a _ _ _ _ _ _; intro e; cases a <;> cases e
  | _ => first | assumption | (intro e; cases e; done)

theorem commaExpr_sound {ts : List Tok} {e : E} {r : List Tok} (h : commaExpr ts = .ok (e, r)) : ∃ te, ts = te ++ r ∧ Ex true te e := by
  replace h := Res.bind_eq_ok.1 h; obtain ⟨⟨e', r'⟩, h1, h2⟩ := h
  obtain ⟨pre, h3, h4⟩ := Parse.C10_accepts_only_expressions h1
  simp only [Res.ok.injEq, Prod.mk.injEq] at h2
  obtain ⟨rfl, rfl⟩ := h2
  refine ⟨pre.map .e, ?_, pre, rfl, h4⟩
  conv => lhs; rw [split_eq ts, h3]
  simp

theorem expect_sound {t : Tok} {ts r : List Tok} (h : expect t ts = .ok r) : ts = t :: r := by
  rw [expect] at h
  split at h
  · rename_i h1
    cases ts with
    | nil => simp at h1
    | cons a b => simp only [List.head?_cons, Option.some.injEq, List.tail_cons, Res.ok.injEq] at h1 h; rw [h1, h]
  · cases h

theorem expectSemi_sound {ts r : List Tok} (h : expectSemi ts = .ok r) : ∃ s, ts = s :: r ∧ Semi s := by
  cases ts with
  | nil => cases h
  | cons a b =>
    rw [expectSemi] at h
    split at h
    · rename_i h1; cases h; exact ⟨a, rfl, isSemi_semi h1⟩
    · cases h

theorem opt_sound {ts : List Tok} {e : Option E} {r : List Tok} (h : commaExprOpt ts = .ok (e, r)) : ∃ te, ts = te ++ r ∧ ExOpt true te e := by
  have key : ∀ {e r}, ((commaExpr ts).bind fun (e, r) => (Res.ok (some e, r) : Res (Option E × List Tok))) = .ok (e, r) → ∃ te, ts = te ++ r ∧ ExOpt true te e := by
    intro e r h
    replace h := Res.bind_eq_ok.1 h; obtain ⟨⟨e', r'⟩, h1, h2⟩ := h
    cases h2
    obtain ⟨te, h3, h4⟩ := commaExpr_sound h1
    exact ⟨te, h3, .some h4⟩
  rw [commaExprOpt.eq_def] at h
  split at h
  · split at h
    · cases h; exact ⟨[], rfl, .none⟩
    · exact key h
  · exact key h

theorem parenExpr_sound {ts : List Tok} {e : E} {r : List Tok} (h : parenExpr ts = .ok (e, r)) : ∃ te c, ts = .p .lpar :: (te ++ .p .rpar :: r) ∧ e = .parens c ∧ Ex true te c := by
  replace h := Res.bind_eq_ok.1 h; obtain ⟨r1, h1, h⟩ := h
  replace h := Res.bind_eq_ok.1 h; obtain ⟨⟨c, r2⟩, h2, h⟩ := h
  replace h := Res.bind_eq_ok.1 h; obtain ⟨r3, h3, h⟩ := h
  cases h
  obtain ⟨te, rfl, h5⟩ := commaExpr_sound h2
  rw [expect_sound h1, expect_sound h3]
  exact ⟨te, c, rfl, rfl, h5⟩

/-- What the parser found is a statement followed by what it left. -/
def Found (ts : List Tok) (s : St) (rest : List Tok) : Prop := ∃ pre o, ts = pre ++ rest ∧ Stm true o pre s ∧ (o = true → rest.head? ≠ some (.kw .else_))

theorem gotoStmt_sound {ts : List Tok} {s : St} {rest : List Tok} (h : gotoStmt ts = .ok (s, rest)) : Found (.kw .goto :: ts) s rest := by
  rw [gotoStmt.eq_def] at h
  split at h
  · cases h; exact ⟨[_, _, _], false, rfl, .gotoM (.inr rfl), by simp⟩
  · rename_i x r hx
    replace h := Res.bind_eq_ok.1 h; obtain ⟨r', h1, h⟩ := h
    cases h
    obtain ⟨s, rfl, hs⟩ := expectSemi_sound h1
    cases hs with
    | text => exact ⟨[_, _, _], false, rfl, .goto, by simp⟩
    | fromMacro => exact absurd rfl (hx _ _)
  · cases h

theorem exprStmt_sound {n : Nat} (ih : ∀ ts s rest, stmtF n ts = .ok (s, rest) → Found ts s rest) {ts : List Tok} {s : St} {rest : List Tok} (h : exprStmt n ts = .ok (s, rest)) : Found ts s rest := by
  replace h := Res.bind_eq_ok.1 h; obtain ⟨⟨e, r⟩, h1, h⟩ := h
  obtain ⟨te, rfl, h2⟩ := opt_sound h1
  dsimp only at h
  split at h
  · rename_i hc
    cases h2 with
    | none => cases h
    | some he =>
      split at h
      · rename_i h'; cases h'
      · rename_i x h'
        cases h'
        replace h := Res.bind_eq_ok.1 h; obtain ⟨⟨a, r'⟩, h3, h⟩ := h
        cases h
        obtain ⟨pre, o, h4, h5, h6⟩ := ih _ _ _ h3
        obtain ⟨pts, rfl, hd⟩ := he
        rw [ident_inv hd rfl]
        refine ⟨.e (.ident x) :: .p .colon :: pre, o, ?_, .label h5, h6⟩
        cases r with
        | nil => simp at hc
        | cons t r =>
          have : t = .p .colon := by simpa using hc.1
          subst this
          rw [List.tail_cons] at h4
          rw [h4]
          rfl
      · cases h
  · replace h := Res.bind_eq_ok.1 h; obtain ⟨r', h3, h⟩ := h
    obtain ⟨s, rfl, hs⟩ := expectSemi_sound h3
    cases h2 with
    | none => cases h; exact ⟨[s], false, rfl, .empty hs, by simp⟩
    | some he => cases h; exact ⟨te ++ [s], false, by simp, .expr he hs, by simp⟩

/-- The first token of a statement without a keyword or a `{`. -/
theorem stmtF_other {n : Nat} {ts : List Tok} (h1 : ∀ k r, ts = .kw k :: r → k = .else_) (h2 : ∀ r, ts ≠ .lbrace :: r) : stmtF (n + 1) ts = exprStmt n ts := by
  rw [stmtF.eq_def]
  cases ts with
  | nil => rfl
  | cons t r =>
    cases t with
    | kw k => have := h1 k r rfl; subst this; rfl
    | lbrace => exact absurd rfl (h2 r)
    | _ => rfl

/-- The three parsers at a given bound. -/
def SoundAt (n : Nat) : Prop :=
  (∀ ts s rest, stmtF n ts = .ok (s, rest) → Found ts s rest) ∧
  (∀ ts s rest, blockF n ts = .ok (s, rest) → ∃ pre, ts = pre ++ .rbrace :: rest ∧ Items true pre s) ∧
  (∀ ts s rest, itemsF n ts = .ok (s, rest) → (∃ pre, ts = pre ++ rest ∧ Items true pre s) ∧ rest.head? ≠ some (.kw .else_))

theorem stmtF_sound_kw {n : Nat} (ih : SoundAt n) {ts : List Tok} {s : St} {rest : List Tok} (h : stmtF (n + 1) ts = .ok (s, rest)) : Found ts s rest := by
  obtain ⟨ih, ihb, _⟩ := ih
  cases ts with
  | nil => exact exprStmt_sound ih h
  | cons t r =>
    cases t with
    | lbrace =>
      rw [stmtF.eq_def] at h
      obtain ⟨pre, rfl, hi⟩ := ihb _ _ _ h
      exact ⟨.lbrace :: (pre ++ [.rbrace]), false, by simp, .block hi, by simp⟩
    | kw k =>
      cases k with
      | else_ => exact exprStmt_sound ih h
      | if_ =>
        rw [stmtF.eq_def] at h
        replace h := Res.bind_eq_ok.1 h; obtain ⟨⟨c, r1⟩, h1, h⟩ := h
        replace h := Res.bind_eq_ok.1 h; obtain ⟨⟨a, r2⟩, h2, h⟩ := h
        obtain ⟨te, c, rfl, rfl, he⟩ := parenExpr_sound h1
        obtain ⟨pre, o, rfl, hs, ho⟩ := ih _ _ _ h2
        dsimp only at h
        split at h
        · replace h := Res.bind_eq_ok.1 h; obtain ⟨⟨b, r3⟩, h3, h⟩ := h
          cases h
          obtain ⟨pre', o', rfl, hs', ho'⟩ := ih _ _ _ h3
          have : o = false := by cases o; rfl; exact absurd rfl (ho rfl)
          subst this
          exact ⟨_, o', by simp, .ifElse he hs hs', ho'⟩
        · rename_i hne
          cases h
          refine ⟨_, true, by simp, .ifThen he hs, fun _ hh => ?_⟩
          cases rest with
          | nil => cases hh
          | cons t rest => simp only [List.head?_cons, Option.some.injEq] at hh; subst hh; exact hne _ rfl
      | switch =>
        rw [stmtF.eq_def] at h
        replace h := Res.bind_eq_ok.1 h; obtain ⟨⟨c, r1⟩, h1, h⟩ := h
        replace h := Res.bind_eq_ok.1 h; obtain ⟨⟨a, r2⟩, h2, h⟩ := h
        obtain ⟨te, c, rfl, rfl, he⟩ := parenExpr_sound h1
        obtain ⟨pre, o, rfl, hs, ho⟩ := ih _ _ _ h2
        cases h
        exact ⟨_, o, by simp, .switch he hs, ho⟩
      | while_ =>
        rw [stmtF.eq_def] at h
        replace h := Res.bind_eq_ok.1 h; obtain ⟨⟨c, r1⟩, h1, h⟩ := h
        replace h := Res.bind_eq_ok.1 h; obtain ⟨⟨a, r2⟩, h2, h⟩ := h
        obtain ⟨te, c, rfl, rfl, he⟩ := parenExpr_sound h1
        obtain ⟨pre, o, rfl, hs, ho⟩ := ih _ _ _ h2
        cases h
        exact ⟨_, o, by simp, .while_ he hs, ho⟩
      | case =>
        rw [stmtF.eq_def] at h
        replace h := Res.bind_eq_ok.1 h; obtain ⟨⟨c, r1⟩, h1, h⟩ := h
        replace h := Res.bind_eq_ok.1 h; obtain ⟨r2, h2, h⟩ := h
        replace h := Res.bind_eq_ok.1 h; obtain ⟨⟨a, r3⟩, h3, h⟩ := h
        obtain ⟨te, rfl, he⟩ := commaExpr_sound h1
        obtain ⟨pre, o, rfl, hs, ho⟩ := ih _ _ _ h3
        rw [expect_sound h2]
        cases h
        exact ⟨_, o, by simp, .case (.inr ⟨rfl, he⟩) hs, ho⟩
      | default =>
        rw [stmtF.eq_def] at h
        replace h := Res.bind_eq_ok.1 h; obtain ⟨r2, h2, h⟩ := h
        replace h := Res.bind_eq_ok.1 h; obtain ⟨⟨a, r3⟩, h3, h⟩ := h
        obtain ⟨pre, o, rfl, hs, ho⟩ := ih _ _ _ h3
        rw [expect_sound h2]
        cases h
        exact ⟨_, o, by simp, .default hs, ho⟩
      | do_ =>
        rw [stmtF.eq_def] at h
        replace h := Res.bind_eq_ok.1 h; obtain ⟨⟨a, r1⟩, h1, h⟩ := h
        replace h := Res.bind_eq_ok.1 h; obtain ⟨r2, h2, h⟩ := h
        replace h := Res.bind_eq_ok.1 h; obtain ⟨⟨c, r3⟩, h3, h⟩ := h
        replace h := Res.bind_eq_ok.1 h; obtain ⟨r4, h4, h⟩ := h
        obtain ⟨pre, o, rfl, hs, ho⟩ := ih _ _ _ h1
        have e2 := expect_sound h2
        subst e2
        obtain ⟨te, c, rfl, rfl, he⟩ := parenExpr_sound h3
        obtain ⟨s, rfl, hs'⟩ := expectSemi_sound h4
        cases h
        exact ⟨_, false, by simp, .do_ hs he hs', by simp⟩
      | for_ =>
        rw [stmtF.eq_def] at h
        replace h := Res.bind_eq_ok.1 h; obtain ⟨r1, h1, h⟩ := h
        replace h := Res.bind_eq_ok.1 h; obtain ⟨⟨i, r2⟩, h2, h⟩ := h
        replace h := Res.bind_eq_ok.1 h; obtain ⟨r3, h3, h⟩ := h
        replace h := Res.bind_eq_ok.1 h; obtain ⟨⟨c, r4⟩, h4, h⟩ := h
        replace h := Res.bind_eq_ok.1 h; obtain ⟨r5, h5, h⟩ := h
        replace h := Res.bind_eq_ok.1 h; obtain ⟨⟨u, r6⟩, h6, h⟩ := h
        replace h := Res.bind_eq_ok.1 h; obtain ⟨r7, h7, h⟩ := h
        replace h := Res.bind_eq_ok.1 h; obtain ⟨⟨a, r8⟩, h8, h⟩ := h
        have e1 := expect_sound h1
        subst e1
        obtain ⟨t1, rfl, k1⟩ := opt_sound h2
        obtain ⟨s, rfl, hs⟩ := expectSemi_sound h3
        obtain ⟨t2, rfl, k2⟩ := opt_sound h4
        obtain ⟨s', rfl, hs'⟩ := expectSemi_sound h5
        obtain ⟨t3, rfl, k3⟩ := opt_sound h6
        have e7 := expect_sound h7
        subst e7
        obtain ⟨pre, o, rfl, hb, ho⟩ := ih _ _ _ h8
        cases h
        exact ⟨_, o, by simp, .for_ k1 k2 k3 hb hs hs', ho⟩
      | goto => exact gotoStmt_sound (by rw [stmtF.eq_def] at h; exact h)
      | «continue» =>
        rw [stmtF.eq_def] at h
        replace h := Res.bind_eq_ok.1 h; obtain ⟨r1, h1, h⟩ := h
        obtain ⟨s, rfl, hs⟩ := expectSemi_sound h1
        cases h
        exact ⟨[_, _], false, rfl, .continue hs, by simp⟩
      | «break» =>
        rw [stmtF.eq_def] at h
        replace h := Res.bind_eq_ok.1 h; obtain ⟨r1, h1, h⟩ := h
        obtain ⟨s, rfl, hs⟩ := expectSemi_sound h1
        cases h
        exact ⟨[_, _], false, rfl, .break hs, by simp⟩
      | return_ =>
        rw [stmtF.eq_def] at h
        replace h := Res.bind_eq_ok.1 h; obtain ⟨⟨e, r1⟩, h1, h⟩ := h
        replace h := Res.bind_eq_ok.1 h; obtain ⟨r2, h2, h⟩ := h
        obtain ⟨te, rfl, he⟩ := opt_sound h1
        obtain ⟨s, rfl, hs⟩ := expectSemi_sound h2
        cases h
        exact ⟨.kw .return_ :: (te ++ [s]), false, by simp, .return_ he hs, by simp⟩
    | _ => exact exprStmt_sound ih h


theorem sound_all : ∀ n, SoundAt n
  | 0 => ⟨fun _ _ _ h => (by cases h), fun _ _ _ h => (by cases h), fun _ _ _ h => (by cases h)⟩
  | n + 1 => by
    have ih := sound_all n
    refine ⟨fun ts s rest h => stmtF_sound_kw ih h, ?_, ?_⟩
    · intro ts s rest h
      rw [blockF] at h
      replace h := Res.bind_eq_ok.1 h; obtain ⟨⟨a, r1⟩, h1, h⟩ := h
      replace h := Res.bind_eq_ok.1 h; obtain ⟨r2, h2, h⟩ := h
      obtain ⟨⟨pre, rfl, hi⟩, _⟩ := ih.2.2 _ _ _ h1
      have e := expect_sound h2
      subst e
      cases h
      exact ⟨pre, rfl, hi⟩
    · intro ts s rest h
      have other : ∀ t r, t ≠ .rbrace → (∀ d, t ≠ .decl d) → itemsF (n + 1) (t :: r) = .ok (s, rest) →
          (∃ pre, t :: r = pre ++ rest ∧ Items true pre s) ∧ rest.head? ≠ some (.kw .else_) := by
        intro t r h1 h2 h
        rw [items_stm h1 h2] at h
        replace h := Res.bind_eq_ok.1 h; obtain ⟨⟨a, r1⟩, h1, h⟩ := h
        replace h := Res.bind_eq_ok.1 h; obtain ⟨⟨b, r2⟩, h2, h⟩ := h
        obtain ⟨pre, o, e1, hs, _⟩ := ih.1 _ _ _ h1
        obtain ⟨⟨pre', e2, hi⟩, hr⟩ := ih.2.2 _ _ _ h2
        cases h
        exact ⟨⟨pre ++ pre', by rw [e1, e2, List.append_assoc], .stm hs hi⟩, hr⟩
      cases ts with
      | nil => rw [itemsF.eq_def] at h; cases h; exact ⟨⟨[], rfl, .nil⟩, by simp⟩
      | cons t r =>
        cases t with
        | rbrace => rw [itemsF.eq_def] at h; cases h; exact ⟨⟨[], rfl, .nil⟩, by simp⟩
        | decl d =>
          rw [itemsF.eq_def] at h
          replace h := Res.bind_eq_ok.1 h; obtain ⟨⟨b, r2⟩, h2, h⟩ := h
          obtain ⟨⟨pre, rfl, hi⟩, hr⟩ := ih.2.2 _ _ _ h2
          cases h
          exact ⟨⟨.decl d :: pre, rfl, .decl hi⟩, hr⟩
        | _ => exact other _ _ (by simp) (by simp) h

theorem body_sound {ts : List Tok} {s : St} {rest : List Tok} (h : body ts = .ok (s, rest)) : ∃ pre, ts = pre ++ rest ∧ Body true pre s := by
  obtain ⟨r, h1, h⟩ := Res.bind_eq_ok.1 h
  obtain ⟨pre, rfl, hi⟩ := (sound_all _).2.1 _ _ _ h
  rw [expect_sound h1]
  exact ⟨.lbrace :: (pre ++ [.rbrace]), by simp, .mk hi⟩

/-! ## The parser ends -/

theorem nd_bind {α β : Type} {o : Res α} {f : α → Res β} (h1 : o ≠ .diverge) (h2 : ∀ a, o = .ok a → f a ≠ .diverge) : o.bind f ≠ .diverge := by
  cases o with
  | ok a => exact h2 a rfl
  | diverge => exact absurd rfl h1
  | _ => simp [Res.bind]

theorem commaExpr_nd (ts : List Tok) : commaExpr ts ≠ .diverge := nd_bind (Parse.parse_terminates _) (fun _ _ => by simp)
theorem expect_nd (t : Tok) (ts : List Tok) : expect t ts ≠ .diverge := by rw [expect]; split <;> simp
theorem expectSemi_nd (ts : List Tok) : expectSemi ts ≠ .diverge := by
  cases ts with
  | nil => simp [expectSemi]
  | cons t r => rw [expectSemi]; split <;> simp
theorem opt_nd (ts : List Tok) : commaExprOpt ts ≠ .diverge := by
  rw [commaExprOpt.eq_def]
  split
  · split
    · simp
    · exact nd_bind (commaExpr_nd _) (fun _ _ => by simp)
  · exact nd_bind (commaExpr_nd _) (fun _ _ => by simp)
theorem parenExpr_nd (ts : List Tok) : parenExpr ts ≠ .diverge :=
  nd_bind (expect_nd _ _) fun _ _ => nd_bind (commaExpr_nd _) fun _ _ => nd_bind (expect_nd _ _) fun _ _ => by simp
theorem gotoStmt_nd (ts : List Tok) : gotoStmt ts ≠ .diverge := by
  rw [gotoStmt.eq_def]
  split
  · simp
  · exact nd_bind (expectSemi_nd _) fun _ _ => by simp
  · simp

theorem commaExpr_len {ts : List Tok} {x : E × List Tok} (h : commaExpr ts = .ok x) : x.2.length ≤ ts.length := by
  obtain ⟨te, rfl, _⟩ := commaExpr_sound (e := x.1) (r := x.2) h; simp
theorem expect_len {t : Tok} {ts r : List Tok} (h : expect t ts = .ok r) : r.length < ts.length := by rw [expect_sound h]; simp
theorem expectSemi_len {ts r : List Tok} (h : expectSemi ts = .ok r) : r.length < ts.length := by obtain ⟨s, rfl, _⟩ := expectSemi_sound h; simp
theorem opt_len {ts : List Tok} {x : Option E × List Tok} (h : commaExprOpt ts = .ok x) : x.2.length ≤ ts.length := by
  obtain ⟨te, rfl, _⟩ := opt_sound (e := x.1) (r := x.2) h; simp
theorem parenExpr_len {ts : List Tok} {x : E × List Tok} (h : parenExpr ts = .ok x) : x.2.length < ts.length := by
  obtain ⟨te, c, rfl, _⟩ := parenExpr_sound (e := x.1) (r := x.2) h; simp; omega
theorem stmtF_len {n : Nat} {ts : List Tok} {x : St × List Tok} (h : stmtF n ts = .ok x) : x.2.length < ts.length := by
  obtain ⟨pre, o, rfl, hs, _⟩ := (sound_all n).1 _ x.1 x.2 h
  obtain ⟨t, r, rfl, _⟩ := stm_head hs
  simp; omega

theorem exprStmt_nd {n : Nat} (ih : ∀ ts, 3 * ts.length + 1 ≤ n → stmtF n ts ≠ .diverge) {ts : List Tok} (hn : 3 * ts.length ≤ n) : exprStmt n ts ≠ .diverge := by
  refine nd_bind (opt_nd _) fun ⟨e, r⟩ h => ?_
  have hl := opt_len h
  dsimp only at hl ⊢
  split
  · rename_i hc
    split
    · simp
    · refine nd_bind (ih _ ?_) fun _ _ => by simp
      cases r with
      | nil => simp at hc
      | cons t r => simp at hl ⊢; omega
    · simp
  · refine nd_bind (expectSemi_nd _) fun _ _ => ?_
    split <;> simp

/-- With the bound `3 * length + 1` (statement), `+ 3` (block), `+ 2` (items) nothing diverges. -/
theorem nd_all : ∀ n,
    (∀ ts, 3 * ts.length + 1 ≤ n → stmtF n ts ≠ .diverge) ∧ (∀ ts, 3 * ts.length + 3 ≤ n → blockF n ts ≠ .diverge) ∧ (∀ ts, 3 * ts.length + 2 ≤ n → itemsF n ts ≠ .diverge)
  | 0 => ⟨fun _ h => (by omega), fun _ h => (by omega), fun _ h => (by omega)⟩
  | n + 1 => by
    obtain ⟨ih, ihb, ihi⟩ := nd_all n
    refine ⟨?_, ?_, ?_⟩
    · intro ts hn
      cases ts with
      | nil => exact exprStmt_nd ih (by simp)
      | cons t r =>
        have hr : 3 * r.length + 3 ≤ n := by simp at hn; omega
        have hx : exprStmt n (t :: r) ≠ .diverge := exprStmt_nd ih (by simp at hn ⊢; omega)
        cases t with
        | lbrace => rw [stmtF.eq_def]; exact ihb _ hr
        | kw k =>
          cases k with
          | else_ => exact hx
          | if_ =>
            rw [stmtF.eq_def]
            refine nd_bind (parenExpr_nd _) fun ⟨c, r1⟩ h1 => ?_
            have l1 := parenExpr_len h1
            dsimp only at l1 ⊢
            refine nd_bind (ih _ (by omega)) fun ⟨a, r2⟩ h2 => ?_
            have l2 := stmtF_len h2
            dsimp only at l2 ⊢
            split
            · exact nd_bind (ih _ (by simp at l2; omega)) fun _ _ => by simp
            · simp
          | switch =>
            rw [stmtF.eq_def]
            refine nd_bind (parenExpr_nd _) fun ⟨c, r1⟩ h1 => ?_
            have l1 := parenExpr_len h1
            dsimp only at l1 ⊢
            exact nd_bind (ih _ (by omega)) fun ⟨a, r2⟩ h2 => by simp
          | while_ =>
            rw [stmtF.eq_def]
            refine nd_bind (parenExpr_nd _) fun ⟨c, r1⟩ h1 => ?_
            have l1 := parenExpr_len h1
            dsimp only at l1 ⊢
            exact nd_bind (ih _ (by omega)) fun ⟨a, r2⟩ h2 => by simp
          | case =>
            rw [stmtF.eq_def]
            refine nd_bind (commaExpr_nd _) fun ⟨c, r1⟩ h1 => ?_
            have l1 := commaExpr_len h1
            dsimp only at l1 ⊢
            refine nd_bind (expect_nd _ _) fun r2 h2 => ?_
            have l2 := expect_len h2
            exact nd_bind (ih _ (by omega)) fun ⟨a, r2⟩ h2 => by simp
          | default =>
            rw [stmtF.eq_def]
            refine nd_bind (expect_nd _ _) fun r2 h2 => ?_
            have l2 := expect_len h2
            exact nd_bind (ih _ (by omega)) fun ⟨a, r2⟩ h2 => by simp
          | do_ =>
            rw [stmtF.eq_def]
            refine nd_bind (ih _ (by omega)) fun ⟨a, r1⟩ h1 => ?_
            refine nd_bind (expect_nd _ _) fun r2 h2 => ?_
            refine nd_bind (parenExpr_nd _) fun ⟨c, r1⟩ h1 => ?_
            exact nd_bind (expectSemi_nd _) fun r2 h2 => by simp
          | for_ =>
            rw [stmtF.eq_def]
            refine nd_bind (expect_nd _ _) fun r1 h1 => ?_
            have l1 := expect_len h1
            refine nd_bind (opt_nd _) fun ⟨i, r2⟩ h2 => ?_
            have l2 := opt_len h2
            refine nd_bind (expectSemi_nd _) fun r3 h3 => ?_
            have l3 := expectSemi_len h3
            refine nd_bind (opt_nd _) fun ⟨i, r4⟩ h4 => ?_
            have l4 := opt_len h4
            refine nd_bind (expectSemi_nd _) fun r5 h5 => ?_
            have l5 := expectSemi_len h5
            refine nd_bind (opt_nd _) fun ⟨i, r6⟩ h6 => ?_
            have l6 := opt_len h6
            refine nd_bind (expect_nd _ _) fun r7 h7 => ?_
            have l7 := expect_len h7
            dsimp only at l2 l3 l4 l5 l6 l7
            exact nd_bind (ih _ (by omega)) fun _ _ => by simp
          | goto => rw [stmtF.eq_def]; exact gotoStmt_nd _
          | «continue» => rw [stmtF.eq_def]; exact nd_bind (expectSemi_nd _) fun r2 h2 => by simp
          | «break» => rw [stmtF.eq_def]; exact nd_bind (expectSemi_nd _) fun r2 h2 => by simp
          | return_ =>
            rw [stmtF.eq_def]
            exact nd_bind (opt_nd _) fun ⟨i, r2⟩ h2 => nd_bind (expectSemi_nd _) fun r2 h2 => by simp
        | _ => exact hx
    · intro ts hn
      rw [blockF]
      exact nd_bind (ihi _ (by omega)) fun _ _ => nd_bind (expect_nd _ _) fun _ _ => by simp
    · intro ts hn
      cases ts with
      | nil => rw [itemsF.eq_def]; simp
      | cons t r =>
        have hr : 3 * r.length + 2 ≤ n := by simp at hn; omega
        have other : t ≠ .rbrace → (∀ d, t ≠ .decl d) → itemsF (n + 1) (t :: r) ≠ .diverge := by
          intro h1 h2
          rw [items_stm h1 h2]
          refine nd_bind (ih _ (by simp at hn ⊢; omega)) fun ⟨a, r1⟩ h3 => ?_
          have l1 := stmtF_len h3
          dsimp only at l1 ⊢
          exact nd_bind (ihi _ (by simp at l1; omega)) fun _ _ => by simp
        cases t with
        | rbrace => rw [itemsF.eq_def]; simp
        | decl d => rw [itemsF.eq_def]; exact nd_bind (ihi _ hr) fun _ _ => by simp
        | _ => exact other (by simp) (by simp)

theorem body_nd (ts : List Tok) : body ts ≠ .diverge := by
  refine nd_bind (expect_nd _ _) fun r h => ?_
  have := expect_len h
  exact (nd_all _).2.1 _ (by omega)

end Verif.PStmt
