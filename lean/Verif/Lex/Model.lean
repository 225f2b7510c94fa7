import Verif.Lex.Tok
import Verif.Str.Model
/-! Model of `get_tok` (pnut.c:2022-2476) when it reads from the file: no macro is being expanded (`macro_tok_lst == 0`,
`macro_stack_ix == 0`), `if_macro_mask` is true, and no identifier is a macro.  The input is the list of characters still to be read; its head is `ch`, the
empty list is `ch == EOF`; `get_ch` drops the head (`SUPPORT_LINE_CONTINUATION` is off, pnut.c:79).  Characters are 0..255. -/
namespace Verif.Lex
open Verif Verif.Lit Verif.Str

/-- pnut.c:2125-2127, 1559-1562. -/
def isAlpha (c : Nat) : Bool := (97 ≤ c && c ≤ 122) || (65 ≤ c && c ≤ 90) || c == 95
def isDigit (c : Nat) : Bool := 48 ≤ c && c ≤ 57

/-- The loop of `get_ident` (pnut.c:1559-1565): the characters of the name and the remaining input. -/
def get_ident : List Nat → List Nat × List Nat
  | [] => ([], [])
  | c :: r => if isAlpha c || isDigit c then let p := get_ident r; (c :: p.1, p.2) else ([], c :: r)

/-- The whitespace loop (pnut.c:2101-2104): is `tok` now `'\n'`, and the remaining input. -/
def skipWs (nl : Bool) : List Nat → Bool × List Nat
  | [] => (nl, [])
  | c :: r => if c ≤ 32 then skipWs (nl || c == 10) r else (nl, c :: r)

/-- The loop of a block comment (pnut.c:2252-2259), `tok` is the previous character; `none` when the comment is not closed. -/
def blockLoop (tok : Nat) : List Nat → Option (List Nat)
  | [] => none
  | c :: r => if tok = 42 ∧ c = 47 then some r else blockLoop c r

/-- pnut.c:2250-2260, after `/*`: `tok` starts as the first character. -/
def skipBlock (inp : List Nat) : Option (List Nat) := blockLoop (inp.headD 0) inp

/-- pnut.c:2262-2264. -/
def skipLine : List Nat → List Nat
  | [] => []
  | c :: r => if c = 10 then c :: r else skipLine r

/-- `if (ch == c) { get_ch(); tok = o; }` -/
def next (c : Nat) (r : List Nat) : Option (List Nat) :=
  match r with
  | d :: r => if d = c then some r else none
  | [] => none

/-- Operators other than `/` and `\` (pnut.c:2275-2450): `c` is the first character, `r` what follows it. -/
def operator (c : Nat) (r : List Nat) : Res (Op × List Nat) :=
  if c = 38 then
    match next 38 r with
    | some r => .ok (.ampAmp, r)
    | none => match next 61 r with
      | some r => .ok (.ampEq, r)
      | none => .ok (.ch c, r)
  else if c = 124 then
    match next 124 r with
    | some r => .ok (.barBar, r)
    | none => match next 61 r with
      | some r => .ok (.barEq, r)
      | none => .ok (.ch c, r)
  else if c = 60 then
    match next 61 r with
    | some r => .ok (.ltEq, r)
    | none => match next 60 r with
      | some r => match next 61 r with
        | some r => .ok (.lShiftEq, r)
        | none => .ok (.lShift, r)
      | none => .ok (.ch c, r)
  else if c = 62 then
    match next 61 r with
    | some r => .ok (.gtEq, r)
    | none => match next 62 r with
      | some r => match next 61 r with
        | some r => .ok (.rShiftEq, r)
        | none => .ok (.rShift, r)
      | none => .ok (.ch c, r)
  else if c = 61 then
    match next 61 r with
    | some r => .ok (.eqEq, r)
    | none => .ok (.ch c, r)
  else if c = 33 then
    match next 61 r with
    | some r => .ok (.exclEq, r)
    | none => .ok (.ch c, r)
  else if c = 43 then
    match next 61 r with
    | some r => .ok (.plusEq, r)
    | none => match next 43 r with
      | some r => .ok (.plusPlus, r)
      | none => .ok (.ch c, r)
  else if c = 45 then
    match next 61 r with
    | some r => .ok (.minusEq, r)
    | none => match next 62 r with
      | some r => .ok (.arrow, r)
      | none => match next 45 r with
        | some r => .ok (.minusMinus, r)
        | none => .ok (.ch c, r)
  else if c = 42 then
    match next 61 r with
    | some r => .ok (.starEq, r)
    | none => .ok (.ch c, r)
  else if c = 37 then
    match next 61 r with
    | some r => .ok (.percentEq, r)
    | none => .ok (.ch c, r)
  else if c = 94 then
    match next 61 r with
    | some r => .ok (.caretEq, r)
    | none => .ok (.ch c, r)
  else if c = 35 then
    match next 35 r with
    | some r => .ok (.hashHash, r)
    | none => .ok (.ch c, r)
  else if c = 46 then
    match next 46 r with
    | some r => match next 46 r with
      | some r => .ok (.ellipsis, r)
      | none => .fatal
    | none => .ok (.ch c, r)
  else if c = 126 ∨ c = 63 ∨ c = 44 ∨ c = 58 ∨ c = 59 ∨ c = 40 ∨ c = 41 ∨ c = 91 ∨ c = 93 ∨ c = 123 ∨ c = 125 then .ok (.ch c, r)
  else .fatal

/-- The number case (pnut.c:2148-2209) for the shell backend (`sh`: with bases, no suffixes) and the i386 backend (suffixes). -/
def number (sh : Bool) (inp : List Nat) : Res (Kind × Int × List Nat) :=
  if sh then number32 true inp
  else (number32 false inp).bind fun (_, v, r) => .ok ((suffix r).1, v, (suffix r).2)

/-- The loop of `get_tok` (pnut.c:2043-2460). `skip` is `skip_newlines`, `nl` is `tok == '\n'`.  `fuel` bounds the number of iterations. -/
def get_tokF (sh skip : Bool) : Nat → Bool → List Nat → Res (Tok × List Nat)
  | 0, _, _ => .diverge
  | _ + 1, _, [] => .ok (.eof, [])
  | n + 1, nl, c :: r =>
    if c ≤ 32 then
      let p := skipWs false (c :: r)
      if p.1 && !skip then .ok (.newline, p.2) else get_tokF sh skip n p.1 p.2
    else if nl && c == 35 then .ok (.directive, c :: r)
    else if isAlpha c then let p := get_ident (c :: r); .ok (.ident p.1, p.2)
    else if isDigit c then (number sh (c :: r)).bind fun (k, v, r) => .ok (.int k v, r)
    else if c = 39 then (scanChar r).bind fun (v, r) => .ok (.chr v, r)
    else if c = 34 then (scanString r).bind fun (s, r) => .ok (.str s, r)
    else if c = 47 then
      match next 42 r with
      | some r => match skipBlock r with
        | none => .fatal
        | some r => get_tokF sh skip n false r
      | none => match next 47 r with
        | some r => get_tokF sh skip n false (skipLine (47 :: r))
        | none => match next 61 r with
          | some r => .ok (.op .slashEq, r)
          | none => .ok (.op (.ch c), r)
    else if c = 92 then
      match next 10 r with
      | some r => get_tokF sh skip n false r
      | none => .fatal
    else (operator c r).bind fun (o, r) => .ok (.op o, r)

/-- `get_tok` (pnut.c:2022-2476). Each iteration that continues the loop consumes a character. -/
def get_tok (sh skip nl : Bool) (inp : List Nat) : Res (Tok × List Nat) := get_tokF sh skip (inp.length + 1) nl inp

/-- Repeated calls of `get_tok`, newlines skipped, up to the end of the input. -/
def tokensF (sh : Bool) : Nat → List Nat → Res (List Tok)
  | 0, _ => .diverge
  | n + 1, inp => (get_tok sh true false inp).bind fun (t, r) =>
    match t with
    | .eof => .ok []
    | .directive => .fatal
    | t => (tokensF sh n r).bind fun ts => .ok (t :: ts)

def tokens (sh : Bool) (inp : List Nat) : Res (List Tok) := tokensF sh (inp.length + 1) inp

end Verif.Lex
