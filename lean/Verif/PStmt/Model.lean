import Verif.Parse.Model
/-! Model of the parser of statements (pnut.c:3754-3927), on top of the model of the parser of expressions.

Simplifications (all of this file): the current token is the head of the list of tokens to come, the empty list is the end of the file; a declaration (read by `parse_declaration(true)`) is one
token; a statement cannot begin with the tokens of a type name other than as such a declaration. The AST is a tree; `nil` is the number 0. -/
namespace Verif.PStmt
open Verif
abbrev PTok := Verif.Parse.Tok
abbrev E := Verif.Parse.E

/-- Keywords of statements. -/
inductive Kw where
  | if_ | else_ | switch | case | default | while_ | do_ | for_ | goto | continue | break | return_
  deriving DecidableEq, Repr

/-- Tokens. -/
inductive Tok where
  /-- a token that can occur in expressions (with `;`, `:`, `(` and `)`) -/
  | e (t : PTok)
  | kw (k : Kw)
  | lbrace | rbrace
  /-- a whole declaration, `;` included -/
  | decl (d : Nat)
  /-- a `;` that comes from the body of a macro: with it the global variable `val` is set to what it was when the macro was defined (pnut.c:2047-2049). Any other `;` leaves `val` as it is. -/
  | semiM (v : Nat)
  deriving DecidableEq, Repr

abbrev Tok.p (q : Parse.P) : Tok := .e (.p q)

/-- Statements. A block is a list of `{` cells: `block a rest`. -/
inductive St where
  | nil
  | if_ (c : E) (a b : St)
  | switch (c : E) (a : St)
  | case (c : E) (a : St)
  | default (a : St)
  | while_ (c : E) (a : St)
  | do_ (a : St) (c : E)
  | for_ (i c u : Option E) (a : St)
  | goto (x : Nat)
  | continue
  | break
  | return_ (e : Option E)
  | expr (e : E)
  | label (x : Nat) (a : St)
  | decl (d : Nat)
  | block (a rest : St)
  deriving DecidableEq, Repr

/-- The tokens up to the first one that the parser of expressions does not know. -/
def split : List Tok → List PTok × List Tok
  | .e t :: r => (t :: (split r).1, (split r).2)
  | r => ([], r)

/-- `parse_comma_expression` (pnut.c:3708-3719): it cannot get past a token it does not know. -/
def commaExpr (ts : List Tok) : Res (E × List Tok) :=
  (Parse.parse (split ts).1).bind fun (e, r) => .ok (e, r.map .e ++ (split ts).2)

/-- `tok == ';'`. -/
def isSemi : Tok → Bool
  | .e (.p .semi) => true
  | .semiM _ => true
  | _ => false

/-- `expect_tok(';')`. -/
def expectSemi : List Tok → Res (List Tok)
  | t :: r => if isSemi t then .ok r else .fatal
  | [] => .fatal

/-- `expect_tok` of another token. -/
def expect (t : Tok) (ts : List Tok) : Res (List Tok) := if ts.head? = some t then .ok ts.tail else .fatal

/-- `parse_comma_expression_opt` (pnut.c:3733-3744). -/
def commaExprOpt (ts : List Tok) : Res (Option E × List Tok) :=
  match ts with
  | t :: r => if t = .p .colon ∨ isSemi t ∨ t = .p .rpar then .ok (none, t :: r) else (commaExpr ts).bind fun (e, r) => .ok (some e, r)
  | [] => (commaExpr ts).bind fun (e, r) => .ok (some e, r)

/-- `parse_parenthesized_expression(false)` (pnut.c:3255-3268). -/
def parenExpr (ts : List Tok) : Res (E × List Tok) :=
  (expect (.p .lpar) ts).bind fun r => (commaExpr r).bind fun (e, r) => (expect (.p .rpar) r).bind fun r => .ok (.parens e, r)

/-- `goto` (pnut.c:3833-3838), behind the keyword: the name of the label is taken from `val` after the next token has been read. -/
def gotoStmt : List Tok → Res (St × List Tok)
  | .e (.ident _) :: .semiM v :: r => .ok (.goto v, r)
  | .e (.ident x) :: r => (expectSemi r).bind fun r => .ok (.goto x, r)
  | _ => .fatal

mutual
/-- `parse_statement` (pnut.c:3754-3889); `n` bounds the recursion. The test `get_op(result) == IDENTIFIER` is undefined when there is no expression (`result` is 0). -/
def stmtF : Nat → List Tok → Res (St × List Tok)
  | 0, _ => .diverge
  | n + 1, ts =>
    match ts with
    | .kw .if_ :: r =>
      (parenExpr r).bind fun (c, r) => (stmtF n r).bind fun (a, r) =>
        match r with
        | .kw .else_ :: r => (stmtF n r).bind fun (b, r) => .ok (.if_ c a b, r)
        | r => .ok (.if_ c a .nil, r)
    | .kw .switch :: r => (parenExpr r).bind fun (c, r) => (stmtF n r).bind fun (a, r) => .ok (.switch c a, r)
    | .kw .case :: r => (commaExpr r).bind fun (c, r) => (expect (.p .colon) r).bind fun r => (stmtF n r).bind fun (a, r) => .ok (.case c a, r)
    | .kw .default :: r => (expect (.p .colon) r).bind fun r => (stmtF n r).bind fun (a, r) => .ok (.default a, r)
    | .kw .while_ :: r => (parenExpr r).bind fun (c, r) => (stmtF n r).bind fun (a, r) => .ok (.while_ c a, r)
    | .kw .do_ :: r => (stmtF n r).bind fun (a, r) => (expect (.kw .while_) r).bind fun r => (parenExpr r).bind fun (c, r) => (expectSemi r).bind fun r => .ok (.do_ a c, r)
    | .kw .for_ :: r =>
      (expect (.p .lpar) r).bind fun r => (commaExprOpt r).bind fun (i, r) => (expectSemi r).bind fun r => (commaExprOpt r).bind fun (c, r) => (expectSemi r).bind fun r =>
        (commaExprOpt r).bind fun (u, r) => (expect (.p .rpar) r).bind fun r => (stmtF n r).bind fun (a, r) => .ok (.for_ i c u a, r)
    | .kw .goto :: r => gotoStmt r
    | .kw .continue :: r => (expectSemi r).bind fun r => .ok (.continue, r)
    | .kw .break :: r => (expectSemi r).bind fun r => .ok (.break, r)
    | .kw .return_ :: r => (commaExprOpt r).bind fun (e, r) => (expectSemi r).bind fun r => .ok (.return_ e, r)
    | .lbrace :: r => blockF n r
    | ts =>
      (commaExprOpt ts).bind fun (e, r) =>
        if r.head? = some (.p .colon) ∧ ts.head? ≠ some (.p .lpar) then
          match e with
          | none => .ub
          | some (.ident x) => (stmtF n r.tail).bind fun (a, r) => .ok (.label x a, r)
          | some _ => .fatal
        else
          (expectSemi r).bind fun r =>
            match e with
            | none => .ok (.nil, r)
            | some e => .ok (.expr e, r)

/-- `parse_compound_statement` (pnut.c:3891-3927), behind `{`. -/
def blockF : Nat → List Tok → Res (St × List Tok)
  | 0, _ => .diverge
  | n + 1, ts => (itemsF n ts).bind fun (a, r) => (expect .rbrace r).bind fun r => .ok (a, r)

/-- The loop of `parse_compound_statement`. -/
def itemsF : Nat → List Tok → Res (St × List Tok)
  | 0, _ => .diverge
  | n + 1, ts =>
    match ts with
    | [] => .ok (.nil, [])
    | .rbrace :: r => .ok (.nil, .rbrace :: r)
    | .decl d :: r => (itemsF n r).bind fun (b, r) => .ok (.block (.decl d) b, r)
    | ts => (stmtF n ts).bind fun (a, r) => (itemsF n r).bind fun (b, r) => .ok (.block a b, r)
end

/-- `parse_compound_statement` (pnut.c:3891-3927), as used for the body of a function (pnut.c:3204). The bound on the depth is never reached. -/
def body (ts : List Tok) : Res (St × List Tok) := (expect .lbrace ts).bind fun r => blockF (3 * ts.length + 3) r

end Verif.PStmt
