import Verif.Parse.Model
/-! The expression grammar of ISO C (C99 6.5.1 – 6.5.17) as derivations of token sequences, with
the tree each derivation denotes.  Parentheses are kept as a node (as pnut does); type names are
one token; compound literals are left out. -/
namespace Verif.Parse.Spec
open Verif.Parse

/-- Binary operators of 6.5.5 … 6.5.14, by increasing looseness. -/
def isoOps : Nat → List P
  | 1 => [.star, .slash, .percent]      -- 6.5.5 multiplicative
  | 2 => [.plus, .minus]                -- 6.5.6 additive
  | 3 => [.shl, .shr]                   -- 6.5.7 shift
  | 4 => [.lt, .gt, .le, .ge]           -- 6.5.8 relational
  | 5 => [.eqeq, .ne]                   -- 6.5.9 equality
  | 6 => [.amp]                         -- 6.5.10 AND
  | 7 => [.caret]                       -- 6.5.11 exclusive OR
  | 8 => [.bar]                         -- 6.5.12 inclusive OR
  | 9 => [.andand]                      -- 6.5.13 logical AND
  | 10 => [.oror]                       -- 6.5.14 logical OR
  | _ => []

/-- 6.5.3 unary operators applied to a cast expression. -/
def isoUnary : List P := [.amp, .star, .plus, .minus, .tilde, .excl]

/-- 6.5.16 assignment operators. -/
def isoAssign : List P :=
  [.eq, .stareq, .slasheq, .percenteq, .pluseq, .minuseq, .shleq, .shreq, .ampeq, .careteq, .bareq]

/-- Nonterminals. `bin 0` is cast-expression, `bin 1` multiplicative-expression, …,
`bin 10` logical-OR-expression; `args` is argument-expression-list. -/
inductive NT where
  | primary | postfix | unary | bin (k : Nat) | cond | assign | expr | args
  deriving DecidableEq, Repr

/-- `(x, y), z` denotes the same sequence as `x, (y, z)`: the comma operator is left-recursive in
6.5.17; a sequence of operands is represented as a right-nested chain. -/
def commaSnoc : E → E → E
  | .comma a b, c => .comma a (commaSnoc b c)
  | e, c => .comma e c

/-- An argument list is a chain of `list` cells; add one at the end. -/
def argSnoc : E → E → E
  | .list a b, c => .list a (argSnoc b c)
  | _, c => .list c .nil

/-- Adjacent string literal tokens (translation phase 6): a nonempty run of string tokens. -/
inductive Strs : List Tok → List Nat → Prop where
  | one (s) : Strs [.str s] s
  | more (s ts s') : Strs ts s' → Strs (.str s :: ts) (s ++ s')

/-- `D relaxed nt ts t`: the nonterminal `nt` derives exactly the tokens `ts`, and the derivation
denotes the tree `t`.  With `relaxed = false` this is the ISO grammar; `relaxed = true` adds the
production `assignment: conditional op assignment` (no program using it satisfies ISO's grammar). -/
inductive D (relaxed : Bool) : NT → List Tok → E → Prop where
  -- 6.5.1
  | ident (x) : D relaxed .primary [.ident x] (.ident x)
  | num (v) : D relaxed .primary [.num v] (.num v)
  | chr (v) : D relaxed .primary [.chr v] (.chr v)
  | str {ts s} : Strs ts s → D relaxed .primary ts (.str s)
  | parens {ts e} : D relaxed .expr ts e →
      D relaxed .primary (.p .lpar :: (ts ++ [.p .rpar])) (.parens e)
  -- 6.5.2
  | ofPrimary {ts e} : D relaxed .primary ts e → D relaxed .postfix ts e
  | index {ts a is i} : D relaxed .postfix ts a → D relaxed .expr is i →
      D relaxed .postfix (ts ++ .p .lbrk :: (is ++ [.p .rbrk])) (.index a i)
  | call0 {ts f} : D relaxed .postfix ts f →
      D relaxed .postfix (ts ++ [.p .lpar, .p .rpar]) (.call f .nil)
  | call {ts f as l} : D relaxed .postfix ts f → D relaxed .args as l →
      D relaxed .postfix (ts ++ .p .lpar :: (as ++ [.p .rpar])) (.call f l)
  | member {ts a} (x) : D relaxed .postfix ts a →
      D relaxed .postfix (ts ++ [.p .dot, .ident x]) (.member a x)
  | arrow {ts a} (x) : D relaxed .postfix ts a →
      D relaxed .postfix (ts ++ [.p .arrow, .ident x]) (.arrow a x)
  | postinc {ts a} : D relaxed .postfix ts a → D relaxed .postfix (ts ++ [.p .incr]) (.postinc a)
  | postdec {ts a} : D relaxed .postfix ts a → D relaxed .postfix (ts ++ [.p .decr]) (.postdec a)
  -- argument-expression-list
  | arg {ts a} : D relaxed .assign ts a → D relaxed .args ts (.list a .nil)
  | args {ts l ts' a} : D relaxed .args ts l → D relaxed .assign ts' a →
      D relaxed .args (ts ++ .p .comma :: ts') (argSnoc l a)
  -- 6.5.3
  | ofPostfix {ts e} : D relaxed .postfix ts e → D relaxed .unary ts e
  | preinc {ts e} : D relaxed .unary ts e → D relaxed .unary (.p .incr :: ts) (.preinc e)
  | predec {ts e} : D relaxed .unary ts e → D relaxed .unary (.p .decr :: ts) (.predec e)
  | unary {ts e q} : q ∈ isoUnary → D relaxed (.bin 0) ts e →
      D relaxed .unary (.p q :: ts) (.unary q e)
  | sizeofE {ts e} : D relaxed .unary ts e → D relaxed .unary (.sizeofKw :: ts) (.sizeofE e)
  | sizeofT (t) : D relaxed .unary [.sizeofKw, .p .lpar, .ty t, .p .rpar] (.sizeofT t)
  -- 6.5.4
  | ofUnary {ts e} : D relaxed .unary ts e → D relaxed (.bin 0) ts e
  | cast {ts e} (t) : D relaxed (.bin 0) ts e →
      D relaxed (.bin 0) (.p .lpar :: .ty t :: .p .rpar :: ts) (.cast t e)
  -- 6.5.5 - 6.5.14
  | ofLower {k ts e} : k < 10 → D relaxed (.bin k) ts e → D relaxed (.bin (k + 1)) ts e
  | bin {k q ts a ts' b} : q ∈ isoOps (k + 1) → D relaxed (.bin (k + 1)) ts a →
      D relaxed (.bin k) ts' b → D relaxed (.bin (k + 1)) (ts ++ .p q :: ts') (.bin q a b)
  -- 6.5.15
  | ofLor {ts e} : D relaxed (.bin 10) ts e → D relaxed .cond ts e
  | cond {tc c ta a tb b} : D relaxed (.bin 10) tc c → D relaxed .expr ta a →
      D relaxed .cond tb b →
      D relaxed .cond (tc ++ .p .quest :: (ta ++ .p .colon :: tb)) (.cond c a b)
  -- 6.5.16
  | ofCond {ts e} : D relaxed .cond ts e → D relaxed .assign ts e
  | assign {ts a q ts' b} : q ∈ isoAssign → D relaxed .unary ts a → D relaxed .assign ts' b →
      D relaxed .assign (ts ++ .p q :: ts') (.assign q a b)
  | assignRelaxed {ts a q ts' b} : relaxed = true → q ∈ isoAssign → D relaxed .cond ts a →
      D relaxed .assign ts' b → D relaxed .assign (ts ++ .p q :: ts') (.assign q a b)
  -- 6.5.17
  | ofAssign {ts e} : D relaxed .assign ts e → D relaxed .expr ts e
  | comma {ts a ts' b} : D relaxed .expr ts a → D relaxed .assign ts' b →
      D relaxed .expr (ts ++ .p .comma :: ts') (commaSnoc a b)

/-- The ISO C expression grammar. -/
abbrev IsoExpr (ts : List Tok) (t : E) : Prop := D false .expr ts t

/-! ### Printing with the parentheses C requires -/

/-- Level (1 … 10) of a binary operator in `isoOps`. -/
def isoLevel (q : P) : Nat := ((List.range 11).find? fun k => decide (q ∈ isoOps k)).getD 0

/-- Precedence of the top operator of a tree: 0 postfix/primary, 1 unary, 2 cast, 2 + k binary
level k, 13 conditional, 14 assignment, 15 comma. -/
def prec : E → Nat
  | .preinc _ | .predec _ | .unary _ _ | .sizeofE _ | .sizeofT _ => 1
  | .cast _ _ => 2
  | .bin q _ _ => 2 + isoLevel q
  | .cond _ _ _ => 13
  | .assign _ _ _ => 14
  | .comma _ _ => 15
  | _ => 0

/-- Put parentheses around `ts` if its operator binds less tightly than the context allows. -/
def wrap (p lvl : Nat) (ts : List Tok) : List Tok :=
  if p ≤ lvl then ts else .p .lpar :: (ts ++ [.p .rpar])

/-- The tokens of a tree, in a context accepting operators up to precedence `lvl`, with the
parentheses the ISO grammar requires and no other. -/
def unparse (lvl : Nat) (e : E) : List Tok :=
  wrap (prec e) lvl <| match e with
  | .ident x => [.ident x]
  | .num v => [.num v]
  | .chr v => [.chr v]
  | .str s => [.str s]
  | .parens e => .p .lpar :: (unparse 15 e ++ [.p .rpar])
  | .index a i => unparse 0 a ++ .p .lbrk :: (unparse 15 i ++ [.p .rbrk])
  | .call f .nil => unparse 0 f ++ [.p .lpar, .p .rpar]
  | .call f l => unparse 0 f ++ .p .lpar :: (unparse 14 l ++ [.p .rpar])
  | .member a x => unparse 0 a ++ [.p .dot, .ident x]
  | .arrow a x => unparse 0 a ++ [.p .arrow, .ident x]
  | .postinc a => unparse 0 a ++ [.p .incr]
  | .postdec a => unparse 0 a ++ [.p .decr]
  | .preinc e => .p .incr :: unparse 1 e
  | .predec e => .p .decr :: unparse 1 e
  | .unary q e => .p q :: unparse 2 e
  | .sizeofE e => .sizeofKw :: unparse 1 e
  | .sizeofT t => [.sizeofKw, .p .lpar, .ty t, .p .rpar]
  | .cast t e => .p .lpar :: .ty t :: .p .rpar :: unparse 2 e
  | .bin q a b => unparse (2 + isoLevel q) a ++ .p q :: unparse (1 + isoLevel q) b
  | .cond c a b => unparse 12 c ++ .p .quest :: (unparse 15 a ++ .p .colon :: unparse 13 b)
  | .assign q a b => unparse 1 a ++ .p q :: unparse 14 b
  | .comma a b => unparse 14 a ++ .p .comma :: unparse 15 b
  | .list a .nil => unparse 14 a
  | .list a l => unparse 14 a ++ .p .comma :: unparse 14 l
  | .nil => []

/-- Trees that are expressions (`WF`) or nonempty argument lists. -/
inductive WF : Bool → E → Prop where
  | ident (x) : WF false (.ident x)
  | num (v) : WF false (.num v)
  | chr (v) : WF false (.chr v)
  | str (s) : WF false (.str s)
  | parens {e} : WF false e → WF false (.parens e)
  | index {a i} : WF false a → WF false i → WF false (.index a i)
  | call0 {f} : WF false f → WF false (.call f .nil)
  | call {f l} : WF false f → WF true l → WF false (.call f l)
  | member {a} (x) : WF false a → WF false (.member a x)
  | arrow {a} (x) : WF false a → WF false (.arrow a x)
  | postinc {e} : WF false e → WF false (.postinc e)
  | postdec {e} : WF false e → WF false (.postdec e)
  | preinc {e} : WF false e → WF false (.preinc e)
  | predec {e} : WF false e → WF false (.predec e)
  | unary {q e} : q ∈ isoUnary → WF false e → WF false (.unary q e)
  | sizeofE {e} : WF false e → WF false (.sizeofE e)
  | sizeofT (t) : WF false (.sizeofT t)
  | cast {e} (t) : WF false e → WF false (.cast t e)
  | bin {q a b} : (∃ k, q ∈ isoOps k) → WF false a → WF false b → WF false (.bin q a b)
  | cond {c a b} : WF false c → WF false a → WF false b → WF false (.cond c a b)
  | assign {q a b} : q ∈ isoAssign → WF false a → WF false b → WF false (.assign q a b)
  | comma {a b} : WF false a → WF false b → WF false (.comma a b)
  | arg {a} : WF false a → WF true (.list a .nil)
  | args {a l} : WF false a → WF true l → WF true (.list a l)

/-- The tree without its `parens` nodes. -/
def erase : E → E
  | .parens e => erase e
  | .index a i => .index (erase a) (erase i)
  | .call f l => .call (erase f) (erase l)
  | .member a x => .member (erase a) x
  | .arrow a x => .arrow (erase a) x
  | .postinc e => .postinc (erase e)
  | .postdec e => .postdec (erase e)
  | .preinc e => .preinc (erase e)
  | .predec e => .predec (erase e)
  | .unary q e => .unary q (erase e)
  | .sizeofE e => .sizeofE (erase e)
  | .cast t e => .cast t (erase e)
  | .bin q a b => .bin q (erase a) (erase b)
  | .cond c a b => .cond (erase c) (erase a) (erase b)
  | .assign q a b => .assign q (erase a) (erase b)
  | .comma a b => .comma (erase a) (erase b)
  | .list a l => .list (erase a) (erase l)
  | e => e

end Verif.Parse.Spec
