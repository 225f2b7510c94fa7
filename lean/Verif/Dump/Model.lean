import Verif.Lex.Tok
import Verif.Num.Model
import Verif.Cli.Model
/-! Model of the preprocess-only mode (pnut.c:132 "Run preprocessor like gcc -E", pnut.c:4082-4090): `print_tok` of debug.c on the stream of tokens that the preprocessor delivers.

Simplifications: names of macros that were not expanded (printed in brackets) are not in the stream; large literals of the 64-bit configuration (whose value is an object) neither. -/
namespace Verif.Dump
open Verif

/-- `putchar`: the low byte is written. -/
def put (c : Int) : Nat := (c % 256).toNat

/-- `putint` (pnut.c:273-280). -/
def putn (n : Int) : List Nat := (Num.putint n).map put

/-- `print_string_char` (debug.c:14-24); `>>` of a negative `int` is arithmetic. -/
def printStringChar (c : Int) : List Nat :=
  if c = 7 then [92, 97]
  else if c = 8 then [92, 98]
  else if c = 12 then [92, 102]
  else if c = 10 then [92, 110]
  else if c = 13 then [92, 114]
  else if c = 9 then [92, 116]
  else if c = 11 then [92, 118]
  else if c = 92 ∨ c = 39 ∨ c = 34 then [92, put c]
  else if c < 32 ∨ c > 126 then 92 :: (putn (c / 64) ++ putn (c / 8 % 8) ++ putn (c % 8))
  else [put c]

/-- The value of a `char` with byte `b`; `sg`: `char` is signed. -/
def chr (sg : Bool) (b : Nat) : Int := if sg && b ≥ 128 then (b : Int) - 256 else b

/-- `print_tok_string` (debug.c:26-34): the bytes are read through a `char` pointer. -/
def printTokString (sg : Bool) (bs : List Nat) : List Nat := bs.flatMap fun b => printStringChar (chr sg b)

/-- The keywords with a line in `print_tok` (debug.c:77-110), by the position in the enumeration (pnut.c:169-201): all but number 16, `inline`. -/
def keywordLines : List Nat := (List.range 33).filter (· ≠ 16)

/-- `putstr` of the spelling for a keyword that has a line; else `putchar` of its code (debug.c:189). -/
def printKeyword (i : Nat) : List Nat := if i ∈ keywordLines then Cli.keywordInits.getD i [] else [put (300 + i)]

/-- debug.c:77-110, 151-152: keywords and identifiers. -/
def printName (s : List Nat) : List Nat :=
  match Cli.keywordInits.findIdx? (· == s) with
  | some i => printKeyword i
  | none => s

/-- debug.c:112-142: operators; those without a line (`++`, number 466, and `...`, number 476) go to `putchar`. -/
def printOp : Lex.Op → List Nat
  | .ch c => [put c]
  | .ampAmp => [38, 38]
  | .ampEq => [38, 61]
  | .arrow => [45, 62]
  | .barBar => [124, 124]
  | .barEq => [124, 61]
  | .caretEq => [94, 61]
  | .eqEq => [61, 61]
  | .gtEq => [62, 61]
  | .lShiftEq => [60, 60, 61]
  | .lShift => [60, 60]
  | .ltEq => [60, 61]
  | .minusEq => [45, 61]
  | .minusMinus => [45, 45]
  | .exclEq => [33, 61]
  | .percentEq => [37, 61]
  | .plusEq => [43, 61]
  | .plusPlus => [put 466]
  | .rShiftEq => [62, 62, 61]
  | .rShift => [62, 62]
  | .slashEq => [47, 61]
  | .starEq => [42, 61]
  | .hashHash => [35, 35]
  | .ellipsis => [put 476]

/-- debug.c:156-173: integers; `val` is minus the value of the literal. -/
def printInt : Lit.Kind → Int → List Nat
  | .int, v => putn v
  | .hex, v => putn v
  | .oct, v => putn v
  | .intL, v => putn (-v)
  | .intLL, v => putn (-v)
  | .intU, v => putn (-v) ++ [85]
  | .intUL, v => putn (-v) ++ [85]
  | .intULL, v => putn (-v) ++ [85]

/-- What is written for a token (debug.c:77-192). -/
def printBody (sg : Bool) : Lex.Tok → List Nat
  | .ident s => printName s
  | .int k v => printInt k v
  | .chr v => 39 :: printStringChar v ++ [39]
  | .str bs => 34 :: printTokString sg bs ++ [34]
  | .op o => printOp o
  | _ => []

/-- `print_tok_indent_level` and `print_tok_preceding_nl_count` (debug.c:36-37). -/
structure S where
  level : Int
  nls : Nat

/-- `print_tok_indent` (debug.c:38-41). -/
def indent (s : S) : List Nat := List.replicate s.level.toNat 32

/-- `print_tok` (debug.c:43-195). -/
def printTok (sg : Bool) (s : S) (t : Lex.Tok) : List Nat × S :=
  if t = .newline then if s.nls ≥ 2 then ([], s) else ([10], { s with nls := s.nls + 1 })
  else if t = .op (.ch 123) then (indent s ++ [123], { s with level := s.level + 2 })
  else if t = .op (.ch 125) then (indent { s with level := s.level - 2 } ++ [125], { s with level := s.level - 2 })
  else ((if s.nls ≠ 0 then indent s else []) ++ printBody sg t ++ [32], { s with nls := 0 })

/-- The loop of `main` (pnut.c:4082-4090). -/
def dumpFrom (sg : Bool) (s : S) : List Lex.Tok → List Nat
  | [] => []
  | t :: ts => (printTok sg s t).1 ++ dumpFrom sg (printTok sg s t).2 ts

def dump (sg : Bool) (ts : List Lex.Tok) : List Nat := dumpFrom sg ⟨0, 0⟩ ts

/-- The calls of `get_tok` (pnut.c:4083-4090): the first one skips newlines, the others do not; `nl`: the last token was a newline. Directives are not modelled here. -/
def readF (sh : Bool) : Nat → Bool → Bool → List Nat → Res (List Lex.Tok)
  | 0, _, _, _ => .diverge
  | n + 1, skip, nl, inp => (Lex.get_tok sh skip nl inp).bind fun (t, r) =>
    match t with
    | .eof => .ok []
    | .directive => .fatal
    | t => (readF sh n false (t == .newline) r).bind fun ts => .ok (t :: ts)

/-- The program in this mode: `main` (pnut.c:4082-4090). -/
def preprocess (sh sg : Bool) (inp : List Nat) : Res (List Nat) := (readF sh (inp.length + 1) true true inp).bind fun ts => .ok (dump sg ts)

end Verif.Dump
