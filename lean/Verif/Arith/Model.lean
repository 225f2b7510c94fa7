import Verif.Parse.Model
/-! Model of the printer of arithmetic expressions of the shell back end: `comp_rvalue_go`
(sh.c:1201-1383), `wrap_if_needed` (sh.c:1171-1189), `is_associative_operator` (sh.c:1162-1165),
`comp_lvalue_address` (sh.c:1439-1474) and `comp_lvalue` (sh.c:1476-1511), for expressions without
function calls (hoisting of calls is C37), in the contexts `RVALUE_CTX_BASE` and
`RVALUE_CTX_ARITH_EXPANSION`.

Simplifications: text is a list of lexical pieces instead of characters; variables are numbers
(names are the subject of C14); a character constant `__a__` and a struct field offset `__f`, both
read-only shell variables with a fixed value, are printed as that value; `sizeof` is a constant. -/
namespace Verif.Arith
open Verif
open Verif.Parse (P Tok)

/-- C expressions (syntax trees after `handle_side_effects`, no calls).  `sh`-relevant nodes only. -/
inductive X where
  /-- `INTEGER` -/
  | int (v : Nat)
  /-- `INTEGER_HEX`, `INTEGER_OCT` -/
  | hex (v : Nat)
  | var (x : Nat)
  | deref (e : X)
  | plus (e : X)
  | parens (e : X)
  | neg (e : X)
  | bnot (e : X)
  | lnot (e : X)
  | preinc (l : X)
  | predec (l : X)
  | postinc (l : X)
  | postdec (l : X)
  | addr (l : X)
  /-- binary operators, comparisons, `&&` and `||` (without calls) -/
  | bin (q : P) (a b : X)
  | comma (a b : X)
  | cond (c a b : X)
  | assign (q : P) (l e : X)
  | index (a b : X)
  /-- `a->f`, `off` is the value of the field's offset variable -/
  | arrow (a : X) (off : Nat)
  | cast (e : X)
  deriving DecidableEq, Repr

/-- Locations: a local/global variable or a heap cell `_n`. -/
inductive LV where
  | var (x : Nat)
  | cell (a : Int)
  deriving DecidableEq, Repr

/-- Locations as identifiers of the arithmetic expansion (`x` and `_n`): an injective code. -/
def enc : LV → Nat
  | .var x => 3 * x
  | .cell (.ofNat n) => 3 * n + 1
  | .cell (.negSucc n) => 3 * n + 2

def dec (n : Nat) : LV :=
  if n % 3 = 0 then .var (n / 3)
  else if n % 3 = 1 then .cell (.ofNat (n / 3)) else .cell (.negSucc (n / 3))

/-- Pieces of shell text. -/
inductive Piece where
  /-- a token of arithmetic text -/
  | tok (t : Tok)
  /-- `_` immediately followed by a word: the heap cell whose number is the value of the word -/
  | cell (w : List Piece)
  /-- `$x` -/
  | dollar (x : Nat)
  /-- `$(( … ))` -/
  | exp (ps : List Piece)
  deriving Repr

/-- `outer_op` -/
inductive Outer where
  | zero
  | op (q : P)
  | castOp
  deriving DecidableEq, Repr

inductive Ctx where
  | base
  | arith
  deriving DecidableEq, Repr

abbrev pt (q : P) : Piece := .tok (.p q)
abbrev pn (v : Int) : Piece := .tok (.num v)

/-- `wrap_int` (sh.c:82) as arithmetic text: a negative number is `-` and digits. -/
def wrapInt (v : Int) : List Piece := if v < 0 then [pt .minus, pn (-v)] else [pn v]

/-- `string_concat(wrap_char(op), sub1)` (sh.c:1252): no blank between, so `-` before a text that
starts with `-` reads as the token `--` in shells that have it (bash, ksh, zsh, mksh, yash). -/
def glue (q : P) : List Piece → List Piece
  | .tok (.p .minus) :: r => if q = .minus then .tok (.p .decr) :: r else pt q :: pt .minus :: r
  | r => pt q :: r

/-- sh.c:1162-1165 `is_associative_operator`. -/
def isAssoc (q : P) : Bool :=
  q == .plus || q == .star || q == .amp || q == .bar || q == .caret || q == .eqeq ||
  q == .andand || q == .oror

/-- sh.c:1175-1181: are parentheses added inside `$(( ))`? -/
def needParens (parensOtherwise : Bool) (outer : Outer) (inner : Option P) : Bool :=
  parensOtherwise && outer != .zero && outer != .op .eq &&
    (match inner with
     | none => true
     | some q => !isAssoc q || outer != .op q)

/-- sh.c:1171-1189 `wrap_if_needed`. -/
def wrapIf (parensOtherwise : Bool) (ctx : Ctx) (code : List Piece) (outer : Outer)
    (inner : Option P) : List Piece :=
  match ctx with
  | .arith =>
    if needParens parensOtherwise outer inner then pt .lpar :: (code ++ [pt .rpar]) else code
  | .base => [.exp code]

/-- `op_to_str` (sh.c:797-822) of a compound assignment etc. is the operator token itself. -/
abbrev T := Res (List Piece)

mutual
/-- sh.c:1201-1383 `comp_rvalue_go`. -/
def go : X → Ctx → Outer → T
  | .int v, _, _ => .ok (wrapInt v)                                              -- 1212
  | .hex v, ctx, o => .ok (wrapIf false ctx [pn v] o none)                       -- 1214
  | .var x, .arith, _ => .ok [.tok (.ident (enc (.var x)))]                      -- 1229
  | .var x, .base, _ => .ok [.dollar x]                                          -- 1230
  | .deref e, ctx, o =>                                                          -- 1237
    (go e .base (.op .star)).bind fun s => .ok (wrapIf false ctx [.cell s] o (some .star))
  | .plus e, ctx, o => go e ctx o                                                -- 1243
  | .parens e, ctx, o => go e ctx o
  | .neg e, ctx, o =>                                                            -- 1246
    match e with
    | .int v => .ok (wrapInt (-(v : Int)))
    | e => (go e .arith (.op .minus)).bind fun s =>
        .ok (wrapIf false ctx (glue .minus s) o (some .minus))
  | .bnot e, ctx, o =>
    match e with
    | .int v => .ok (wrapInt (-(v : Int)))
    | e => (go e .arith (.op .tilde)).bind fun s =>
        .ok (wrapIf false ctx (glue .tilde s) o (some .tilde))
  | .lnot e, ctx, o =>
    match e with
    | .int v => .ok (wrapInt (-(v : Int)))
    | e => (go e .arith (.op .excl)).bind fun s =>
        .ok (wrapIf false ctx (glue .excl s) o (some .excl))
  | .predec l, ctx, o =>                                                         -- 1254
    (lv l).bind fun s => .ok (wrapIf true ctx (s ++ [pt .minuseq, pn 1]) o none)
  | .preinc l, ctx, o =>
    (lv l).bind fun s => .ok (wrapIf true ctx (s ++ [pt .pluseq, pn 1]) o none)
  | .postdec l, ctx, o =>                                                        -- 1260
    (lv l).bind fun s => .ok (wrapIf false ctx
      (pt .lpar :: (s ++ [pt .minuseq, pn 1, pt .rpar, pt .plus, pn 1])) o (some .plus))
  | .postinc l, ctx, o =>
    (lv l).bind fun s => .ok (wrapIf false ctx
      (pt .lpar :: (s ++ [pt .pluseq, pn 1, pt .rpar, pt .minus, pn 1])) o (some .minus))
  | .addr l, ctx, o =>                                                           -- 1292
    (lvAddr l).bind fun s => .ok (wrapIf false ctx s o (some .amp))
  | .bin q a b, ctx, o =>                                                        -- 1300, 1322, 1375
    (go a .arith (.op q)).bind fun s1 => (go b .arith (.op q)).bind fun s2 =>
      .ok (wrapIf true ctx (s1 ++ pt q :: s2) o (some q))
  | .comma a b, ctx, o =>                                                        -- 1300
    (go a .arith (.op .comma)).bind fun s1 => (go b .arith (.op .comma)).bind fun s2 =>
      .ok (wrapIf true ctx (s1 ++ pt .comma :: s2) o (some .comma))
  | .assign q l e, ctx, o =>                                                     -- 1304
    (lv l).bind fun s1 => (go e .arith (.op q)).bind fun s2 =>
      .ok (wrapIf true ctx (s1 ++ pt q :: s2) o (some q))
  | .index a b, ctx, o =>                                                        -- 1308
    (go a .arith (.op .plus)).bind fun s1 => (go b .arith (.op .plus)).bind fun s2 =>
      .ok (wrapIf false ctx [.cell [.exp (s1 ++ pt .plus :: s2)]] o (some .lbrk))
  | .arrow a off, ctx, o =>                                                      -- 1312
    (go a .arith (.op .arrow)).bind fun s1 =>
      .ok (wrapIf false ctx [.cell [.exp (s1 ++ [pt .plus, pn off])]] o (some .arrow))
  | .cast e, ctx, _ => go e ctx .castOp                                          -- 1326
  | .cond c a b, ctx, o =>                                                       -- 1332
    (go c .arith (.op .quest)).bind fun s1 => (go a .arith (.op .quest)).bind fun s2 =>
      (go b .arith (.op .quest)).bind fun s3 =>
        .ok (wrapIf true ctx (s1 ++ pt .quest :: (s2 ++ pt .colon :: s3)) o (some .quest))

/-- sh.c:1439-1474 `comp_lvalue_address`. -/
def lvAddr : X → T
  | .index a b =>
    (go a .arith .zero).bind fun s1 => (go b .arith .zero).bind fun s2 =>
      .ok (s1 ++ pt .plus :: s2)
  | .deref e => go e .base .zero
  | .arrow a off => (go a .arith .zero).bind fun s1 => .ok (s1 ++ [pt .plus, pn off])
  | .cast l => lvAddr l
  | .parens l => lvAddr l
  | _ => .fatal

/-- sh.c:1476-1511 `comp_lvalue`. -/
def lv : X → T
  | .var x => .ok [.tok (.ident (enc (.var x)))]
  | .index a b =>
    (go a .arith .zero).bind fun s1 => (go b .arith .zero).bind fun s2 =>
      .ok [.cell [.exp (s1 ++ pt .plus :: s2)]]
  | .deref e => (go e .base .zero).bind fun s => .ok [.cell s]
  | .arrow a off => (go a .arith .zero).bind fun s1 =>
      .ok [.cell [.exp (s1 ++ [pt .plus, pn off])]]
  | .cast l => lv l
  | .parens l => lvAddr l
  | _ => .fatal
end

/-- `comp_rvalue(node, RVALUE_CTX_ARITH_EXPANSION)` for a call-free expression (sh.c:1385-1429). -/
def compArith (e : X) : T := go e .arith .zero
/-- `comp_rvalue(node, RVALUE_CTX_BASE)`. -/
def compBase (e : X) : T := go e .base .zero

end Verif.Arith
