import Verif.Front.Model
import Verif.Decl.Model
/-! Model of the way from the text of a file of declarations to the declared names and types, in the native compilers: the symbol table made by `init_ident_table` and `init_pnut_macros` (pnut.c:1590-1726), the scanner
(`Verif.Lex`), which enters every name in the table and takes the kind of its token from there (`get_ident`, pnut.c:1555-1569), and the parser of declarations (`Verif.Decl`).

Simplifications (all of this file): the scanner is run to the end of the text before the parser starts; typedef names are kept in the table of `Verif.Decl` instead of the kind of the entry; an expression is a literal; enumerations, bodies of
functions, strings, names of predefined macros, other operators and keywords, `#`, `##` are outside the model (the result is `none`). -/
namespace Verif.FrontD
open Verif Verif.Intern

/-- What the parser of declarations takes a word of kind `k` for (pnut.c:169-201, 2545-2622, 2699-2850); `h` is its entry. -/
def word (k : Int) (h : Nat) : Option Decl.Tok :=
  if k = IDENTIFIER then some (.ident h)
  else if k = 300 then some (.sc .auto)
  else if k = 303 then some (.kw .char)
  else if k = 304 then some .const
  else if k = 308 then some (.kw .double)
  else if k = 311 then some (.sc .extern)
  else if k = 312 then some (.kw .float)
  else if k = 316 then some .inline
  else if k = 317 then some (.kw .int)
  else if k = 318 then some (.kw .long)
  else if k = 319 then some (.sc .register)
  else if k = 321 then some (.kw .short)
  else if k = 322 then some (.kw .signed)
  else if k = 324 then some (.sc .static)
  else if k = 325 then some (.su .struct)
  else if k = 327 then some (.sc .typedef)
  else if k = 328 then some (.su .union)
  else if k = 329 then some (.kw .unsigned)
  else if k = 330 then some (.kw .void)
  else if k = 331 then some .volatile
  else none

/-- The token codes of operators (single characters are their own codes; `ELLIPSIS`, pnut.c:247) as the parser of declarations knows them. -/
def oper : Lex.Op → Option Decl.Tok
  | .ch 42 => some .star
  | .ch 40 => some .lpar
  | .ch 41 => some .rpar
  | .ch 91 => some .lbrk
  | .ch 93 => some .rbrk
  | .ch 123 => some .lbrace
  | .ch 125 => some .rbrace
  | .ch 44 => some .comma
  | .ch 59 => some .semi
  | .ch 61 => some .eq
  | .ellipsis => some .ellipsis
  | _ => none

/-- One token: the kind of a name is read from its entry (pnut.c:1568); the token of an integer literal has the negative of its value (pnut.c:1021-1045), `eval_constant` changes the sign again (pnut.c:1282-1300). -/
def one (w : World) : Lex.Tok → Res (Option Decl.Tok × World)
  | .ident s => (Front.enter w s).bind fun (h, w) => .ok (word (w.st.heap (h + 2)) h, w)
  | .str s => (Front.enter w s).bind fun (_, w) => .ok (none, w)
  | .int _ v => .ok (some (.expr (-v) false), w)
  | .chr v => .ok (some (.expr v false), w)
  | .op o => .ok (oper o, w)
  | _ => .ok (none, w)

def cons? (a : Option Decl.Tok) (b : Option (List Decl.Tok)) : Option (List Decl.Tok) := a.bind fun a => b.map (a :: ·)

/-- The tokens for the parser. `more i` is what is done with the heap and the string pool before token `i` is read (as in `Front.conv`). -/
def conv (more : Nat → List Op) : Nat → World → List Lex.Tok → Res (Option (List Decl.Tok) × World)
  | _, w, [] => .ok (some [], w)
  | i, w, t :: r =>
    (run w (more i)).bind fun w => (one w t).bind fun (x, w) => (conv more (i + 1) w r).bind fun (xs, w) => .ok (cons? x xs, w)

/-- The table of typedef names at the start. -/
def noTypes : Decl.Types := fun _ => none

/-- From the text to the declarations: the loop of `main` over `parse_declaration` (pnut.c:4095-4110) on the tokens that `get_tok` makes of the text; `n` bounds the steps of the parser. -/
def front (n : Nat) (t : Cli.Target) (more : Nat → List Op) (inp : List Nat) : Res (Option (List Decl.Out × Decl.Types × Decl.S)) :=
  (Lex.tokens false inp).bind fun ts => (Front.start t).bind fun w => (conv more 0 w ts).bind fun (xs, _) =>
    match xs with
    | none => .ok none
    | some xs => (Decl.unitF n noTypes [] ⟨xs, [], none, false⟩).bind fun r => .ok (some r)

end Verif.FrontD
