import Verif.Base
/-! Model of the recursive-descent expression parser (pnut.c:3255-3752) on token lists.

Simplifications (all of this file): the parser's current token is the head of the remaining token
list, the empty list standing for end of file; the tokens of a type name in a cast or `sizeof` are
one token `ty` (so `is_type_starter`, pnut.c, is "the token is a `ty`", and
`parse_declarator(true, parse_declaration_specifiers(false))` consumes exactly this token); the
mode used inside `#if` (`skip_newlines` false: no `sizeof`, `defined` handled) is not modelled.
The AST is a tree instead of heap cells (the heap representation is the subject of C02). -/
namespace Verif.Parse
open Verif

/-- Punctuators that can occur in an expression. -/
inductive P where
  | lpar | rpar | lbrk | rbrk | dot | arrow | incr | decr
  | amp | star | plus | minus | tilde | excl
  | slash | percent | shl | shr | lt | gt | le | ge | eqeq | ne | caret | bar | andand | oror
  | quest | colon | semi | comma
  | eq | pluseq | minuseq | stareq | slasheq | percenteq | shleq | shreq | ampeq | careteq | bareq
  deriving DecidableEq, Repr

/-- Tokens. -/
inductive Tok where
  | ident (x : Nat)
  | num (v : Int)
  | chr (v : Int)
  | str (s : List Nat)
  | sizeofKw
  /-- a whole type name -/
  | ty (t : Nat)
  | p (q : P)
  deriving DecidableEq, Repr

/-- Syntax trees as built by the parser; argument lists are `LIST` nodes ended by 0 (`nil`). -/
inductive E where
  | ident (x : Nat)
  | num (v : Int)
  | chr (v : Int)
  | str (s : List Nat)
  | parens (e : E)
  | index (a i : E)
  | call (f args : E)
  | member (a : E) (x : Nat)
  | arrow (a : E) (x : Nat)
  | postinc (e : E)
  | postdec (e : E)
  | preinc (e : E)
  | predec (e : E)
  | unary (op : P) (e : E)
  | sizeofE (e : E)
  | sizeofT (t : Nat)
  | cast (t : Nat) (e : E)
  | bin (op : P) (a b : E)
  | cond (c a b : E)
  | assign (op : P) (a b : E)
  | comma (a b : E)
  | list (hd tl : E)
  | nil
  deriving DecidableEq, Repr

/-- The token tests of the ten `while` loops pnut.c:3504, 3522, 3540, 3558, 3576, 3593, 3609, 3625,
3641, 3657, numbered 1 (multiplicative) to 10 (logical OR). -/
def isLevelOp : Nat → P → Bool
  | 1, q => q == .star || q == .slash || q == .percent
  | 2, q => q == .plus || q == .minus
  | 3, q => q == .shl || q == .shr
  | 4, q => q == .lt || q == .gt || q == .le || q == .ge
  | 5, q => q == .eqeq || q == .ne
  | 6, q => q == .amp
  | 7, q => q == .caret
  | 8, q => q == .bar
  | 9, q => q == .andand
  | 10, q => q == .oror
  | _, _ => false

/-- pnut.c:3693-3696, the assignment operators. -/
def isAssignOp (q : P) : Bool :=
  q == .eq || q == .pluseq || q == .minuseq || q == .stareq || q == .slasheq || q == .percenteq ||
  q == .shleq || q == .shreq || q == .ampeq || q == .careteq || q == .bareq

/-- pnut.c:3417, the unary operators followed by a cast expression. -/
def isUnaryOp (q : P) : Bool :=
  q == .amp || q == .star || q == .plus || q == .minus || q == .tilde || q == .excl

/-- `expect_tok` (pnut.c): the current token must be `q`; move to the next one. -/
def expect (q : P) : List Tok → Res (List Tok)
  | .p q' :: r => if q' = q then .ok r else .fatal
  | _ => .fatal

/-- pnut.c:3294-3314: the loop collecting contiguous string literals (concatenated). -/
def moreStrs : List Tok → List Nat × List Tok
  | .str s :: r => let (s', r') := moreStrs r; (s ++ s', r')
  | r => ([], r)

/-- The parsing functions, as names of calls (the C functions are mutually recursive). -/
inductive Call where
  /-- `parse_parenthesized_expression(true)` -/
  | paren
  | primary
  | postfix
  /-- the `while (1)` of `parse_postfix_expression` with the tree built so far -/
  | postLoop (e : E)
  | unary
  | cast
  /-- level 0 is `parse_cast_expression`, 1 … 10 the binary operator functions -/
  | bin (k : Nat)
  /-- the `while` of level `k` with the tree built so far -/
  | binLoop (k : Nat) (e : E)
  | cond
  | assign
  | comma
  | params
  deriving DecidableEq, Repr

abbrev Out := Res (E × List Tok)

/-- The bodies of the parsing functions, with `rec` for the calls they make. -/
def step (rec : Call → List Tok → Out) : Call → List Tok → Out
  -- pnut.c:3255-3268 parse_parenthesized_expression, after '('
  | .paren, ts =>
    (rec .comma ts).bind fun (e, r) => (expect .rpar r).bind fun r => .ok (.parens e, r)
  -- pnut.c:3270-3320 parse_primary_expression
  | .primary, ts =>
    match ts with
    | .ident x :: r => .ok (.ident x, r)
    | .num v :: r => .ok (.num v, r)
    | .chr v :: r => .ok (.chr v, r)
    | .str s :: r => let (s', r') := moreStrs r; .ok (.str (s ++ s'), r')
    | .p .lpar :: r => rec .paren r
    | _ => .fatal
  -- pnut.c:3322-3328 parse_postfix_expression(0)
  | .postfix, ts => (rec .primary ts).bind fun (e, r) => rec (.postLoop e) r
  -- pnut.c:3329-3381, the loop of parse_postfix_expression
  | .postLoop e, ts =>
    match ts with
    | .p .lbrk :: r =>
      (rec .comma r).bind fun (i, r) => (expect .rbrk r).bind fun r => rec (.postLoop (.index e i)) r
    | .p .lpar :: r =>
      match r with
      | .p .rpar :: r => rec (.postLoop (.call e .nil)) r
      | r => (rec .params r).bind fun (a, r) =>
          (expect .rpar r).bind fun r => rec (.postLoop (.call e a)) r
    | .p .dot :: r =>
      match r with
      | .ident x :: r => rec (.postLoop (.member e x)) r
      | _ => .fatal
    | .p .arrow :: r =>
      match r with
      | .ident x :: r => rec (.postLoop (.arrow e x)) r
      | _ => .fatal
    | .p .incr :: r => rec (.postLoop (.postinc e)) r
    | .p .decr :: r => rec (.postLoop (.postdec e)) r
    | ts => .ok (e, ts)
  -- pnut.c:3400-3462 parse_unary_expression
  | .unary, ts =>
    match ts with
    | .p .incr :: r => (rec .unary r).bind fun (e, r) => .ok (.preinc e, r)
    | .p .decr :: r => (rec .unary r).bind fun (e, r) => .ok (.predec e, r)
    | .sizeofKw :: r =>
      match r with
      | .p .lpar :: r =>
        match r with
        | .ty t :: r => (expect .rpar r).bind fun r => .ok (.sizeofT t, r)
        | r => (rec .paren r).bind fun (e, r) =>
            (rec (.postLoop e) r).bind fun (e, r) => .ok (.sizeofE e, r)
      | r => (rec .unary r).bind fun (e, r) => .ok (.sizeofE e, r)
    | .p q :: r =>
      if isUnaryOp q then (rec .cast r).bind fun (e, r) => .ok (.unary q e, r)
      else rec .postfix (.p q :: r)
    | ts => rec .postfix ts
  -- pnut.c:3464-3496 parse_cast_expression
  | .cast, ts =>
    match ts with
    | .p .lpar :: r =>
      match r with
      | .ty t :: r => (expect .rpar r).bind fun r =>
          (rec .cast r).bind fun (e, r) => .ok (.cast t e, r)
      | r => (rec .paren r).bind fun (e, r) => rec (.postLoop e) r
    | ts => rec .unary ts
  -- pnut.c:3498-3666, the ten binary levels
  | .bin 0, ts => rec .cast ts
  | .bin (k + 1), ts => (rec (.bin k) ts).bind fun (e, r) => rec (.binLoop (k + 1) e) r
  | .binLoop k e, ts =>
    match ts with
    | .p q :: r =>
      if isLevelOp k q then (rec (.bin (k - 1)) r).bind fun (b, r) => rec (.binLoop k (.bin q e b)) r
      else .ok (e, .p q :: r)
    | ts => .ok (e, ts)
  -- pnut.c:3668-3685 parse_conditional_expression
  | .cond, ts =>
    (rec (.bin 10) ts).bind fun (c, r) =>
      match r with
      | .p .quest :: r =>
        (rec .comma r).bind fun (a, r) => (expect .colon r).bind fun r =>
          (rec .cond r).bind fun (b, r) => .ok (.cond c a b, r)
      | r => .ok (c, r)
  -- pnut.c:3687-3706 parse_assignment_expression
  | .assign, ts =>
    (rec .cond ts).bind fun (a, r) =>
      match r with
      | .p q :: r =>
        if isAssignOp q then (rec .assign r).bind fun (b, r) => .ok (.assign q a b, r)
        else .ok (a, .p q :: r)
      | r => .ok (a, r)
  -- pnut.c:3708-3719 parse_comma_expression
  | .comma, ts =>
    (rec .assign ts).bind fun (a, r) =>
      match r with
      | .p .comma :: r => (rec .comma r).bind fun (b, r) => .ok (.comma a b, r)
      | r => .ok (a, r)
  -- pnut.c:3721-3731 parse_call_params
  | .params, ts =>
    (rec .assign ts).bind fun (a, r) =>
      match r with
      | .p .comma :: r => (rec .params r).bind fun (b, r) => .ok (.list a b, r)
      | r => .ok (.list a .nil, r)

/-- Running a call with a bound `n` on the depth of the C call stack. -/
def run : Nat → Call → List Tok → Out
  | 0 => fun _ _ => .diverge
  | n + 1 => step (run n)

/-- `parse_expression` (pnut.c:3746-3748) on a token sequence.  The bound on the call depth is
generous enough never to be reached (`parse_terminates`). -/
def parse (ts : List Tok) : Out := run (32 * (ts.length + 1)) .comma ts

end Verif.Parse
