import Verif.Lex.Model
import Verif.PStmt.Model
import Verif.Intern.Model
import Verif.Cli.Model
/-! Model of the way from the text of a block to its tree: the symbol table made by `init_ident_table` and `init_pnut_macros` (pnut.c:1590-1726), the scanner (`Verif.Lex`), which enters every name and
every string literal in the table and takes the kind of a name's token from there (`get_ident`, pnut.c:1555-1569; pnut.c:2234-2237), and the parser of statements (`Verif.PStmt`).

Simplifications (all of this file): the scanner is run to the end of the text before the parser starts (nothing that the parser does changes a token, because typedefs are not modelled); the keywords that begin a type, the names
of predefined macros, `#`, `##` and `...` are outside the model (the result is `none`); all kinds of integer literals are the same token for the parser. -/
namespace Verif.Front
open Verif Verif.Intern


/-- pnut.c:169-201: the codes of the keywords, in the order of `init_ident_table` (pnut.c:1605-1637), start with 300; `MACRO` is 502 (pnut.c:256). -/
def AUTO_KW : Nat := 300
def MACRO : Int := 502

/-- The names that `init_ident_table` (pnut.c:1596-1677) and `init_pnut_macros` (pnut.c:1698-1726) enter, with their kinds. -/
def inits (t : Cli.Target) : List (List Nat × Int) :=
  (Cli.keywordInits.zipIdx AUTO_KW).map (fun p => (p.1, (p.2 : Int))) ++ Cli.identInits.map (fun n => (n, IDENTIFIER)) ++
    Cli.commonInits.map (fun p => (p.1, MACRO)) ++ (Cli.targetInits t).map (fun p => (p.1, MACRO))

/-- `init_ident` (pnut.c:1590-1594) for each of them; `i` numbers the names. -/
def initOps : Nat → List (List Nat × Int) → List Op
  | _, [] => []
  | i, (n, k) :: r => .intern false n :: .setKind i k :: initOps (i + 1) r

/-- The table before the text is read. -/
def start (t : Cli.Target) : Res World := run World.init (initOps 0 (inits t))

/-- What the parser takes a word of kind `k` for (pnut.c:3754-3889, 3270-3320, 3400-3462); `h` is its entry. -/
def word (k : Int) (h : Nat) : Option PStmt.Tok :=
  if k = IDENTIFIER then some (.e (.ident h))
  else if k = 301 then some (.kw .break)
  else if k = 302 then some (.kw .case)
  else if k = 305 then some (.kw .continue)
  else if k = 306 then some (.kw .default)
  else if k = 307 then some (.kw .do_)
  else if k = 309 then some (.kw .else_)
  else if k = 313 then some (.kw .for_)
  else if k = 314 then some (.kw .goto)
  else if k = 315 then some (.kw .if_)
  else if k = 320 then some (.kw .return_)
  else if k = 323 then some (.e .sizeofKw)
  else if k = 326 then some (.kw .switch)
  else if k = 332 then some (.kw .while_)
  else none

/-- The token codes of operators (pnut.c:220-247; single characters are their own codes) as the parser knows them. -/
def oper : Lex.Op → Option PStmt.Tok
  | .ch 40 => some (.p .lpar)
  | .ch 41 => some (.p .rpar)
  | .ch 91 => some (.p .lbrk)
  | .ch 93 => some (.p .rbrk)
  | .ch 123 => some .lbrace
  | .ch 125 => some .rbrace
  | .ch 46 => some (.p .dot)
  | .ch 38 => some (.p .amp)
  | .ch 42 => some (.p .star)
  | .ch 43 => some (.p .plus)
  | .ch 45 => some (.p .minus)
  | .ch 126 => some (.p .tilde)
  | .ch 33 => some (.p .excl)
  | .ch 47 => some (.p .slash)
  | .ch 37 => some (.p .percent)
  | .ch 60 => some (.p .lt)
  | .ch 62 => some (.p .gt)
  | .ch 94 => some (.p .caret)
  | .ch 124 => some (.p .bar)
  | .ch 63 => some (.p .quest)
  | .ch 58 => some (.p .colon)
  | .ch 59 => some (.p .semi)
  | .ch 44 => some (.p .comma)
  | .ch 61 => some (.p .eq)
  | .ch _ => none
  | .ampAmp => some (.p .andand)
  | .ampEq => some (.p .ampeq)
  | .arrow => some (.p .arrow)
  | .barBar => some (.p .oror)
  | .barEq => some (.p .bareq)
  | .caretEq => some (.p .careteq)
  | .eqEq => some (.p .eqeq)
  | .gtEq => some (.p .ge)
  | .lShiftEq => some (.p .shleq)
  | .ltEq => some (.p .le)
  | .lShift => some (.p .shl)
  | .minusEq => some (.p .minuseq)
  | .minusMinus => some (.p .decr)
  | .exclEq => some (.p .ne)
  | .percentEq => some (.p .percenteq)
  | .plusEq => some (.p .pluseq)
  | .plusPlus => some (.p .incr)
  | .rShiftEq => some (.p .shreq)
  | .rShift => some (.p .shr)
  | .slashEq => some (.p .slasheq)
  | .starEq => some (.p .stareq)
  | .hashHash => none
  | .ellipsis => none

/-- The entry of a name or string (`get_ident`, pnut.c:1555-1569; `end_string`, pnut.c:2237). -/
def enter (w : World) (bs : List Nat) : Res (Nat × World) :=
  (intern false w.st bs).bind fun (h, s) => .ok (h, { w with st := s, handles := w.handles ++ [h] })

/-- One token: the name's kind is read from its entry (pnut.c:1568), a string's bytes from the pool. -/
def one (w : World) : Lex.Tok → Res (Option PStmt.Tok × World)
  | .ident s => (enter w s).bind fun (h, w) => .ok (word (w.st.heap (h + 2)) h, w)
  | .str s => (enter w s).bind fun (h, w) => .ok (some (.e (.str (spelling w.st h))), w)
  | .int _ v => .ok (some (.e (.num v)), w)
  | .chr v => .ok (some (.e (.chr v)), w)
  | .op o => .ok (oper o, w)
  | _ => .ok (none, w)

def cons? (a : Option PStmt.Tok) (b : Option (List PStmt.Tok)) : Option (List PStmt.Tok) := a.bind fun a => b.map (a :: ·)

/-- The tokens for the parser. `more i` is what is done with the heap and the string pool before token `i` is read: objects made and changed by the parser, adjacent string literals joined. -/
def conv (more : Nat → List Op) : Nat → World → List Lex.Tok → Res (Option (List PStmt.Tok) × World)
  | _, w, [] => .ok (some [], w)
  | i, w, t :: r =>
    (run w (more i)).bind fun w => (one w t).bind fun (x, w) => (conv more (i + 1) w r).bind fun (xs, w) => .ok (cons? x xs, w)

/-- From the text to the tree of a block: `parse_compound_statement` (pnut.c:3891-3927) on the tokens that `get_tok` makes of it; the second component is what is left. -/
def front (sh : Bool) (t : Cli.Target) (more : Nat → List Op) (inp : List Nat) : Res (Option (PStmt.St × List PStmt.Tok)) :=
  (Lex.tokens sh inp).bind fun ts => (start t).bind fun w => (conv more 0 w ts).bind fun (xs, _) =>
    match xs with
    | none => .ok none
    | some xs => (PStmt.body xs).bind fun r => .ok (some r)

end Verif.Front
