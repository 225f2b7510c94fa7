import Verif.Lex.Spec
import Verif.PStmt.Spec
/-! Specification: the words of C and the tokens that the statement grammar of C (`Verif.PStmt.Spec`) is made of. -/
namespace Verif.Front.Spec
open Verif

/-- The bytes of an ASCII string. -/
def str (s : String) : List Nat := s.toList.map Char.toNat

/-- The keywords of statements and expressions (C99 6.4.1). -/
def keywords : List (List Nat × PStmt.Tok) :=
  [(str "break", .kw .break), (str "case", .kw .case), (str "continue", .kw .continue), (str "default", .kw .default), (str "do", .kw .do_), (str "else", .kw .else_), (str "for", .kw .for_), (str "goto", .kw .goto),
   (str "if", .kw .if_), (str "return", .kw .return_), (str "sizeof", .e .sizeofKw), (str "switch", .kw .switch), (str "while", .kw .while_)]

/-- The keywords of declarations (C99 6.4.1 without those that pnut does not know). -/
def typeWords : List (List Nat) :=
  ["auto", "char", "const", "double", "enum", "extern", "float", "inline", "int", "long", "register", "short", "signed", "static", "struct", "typedef", "union", "unsigned", "void", "volatile"].map str

/-- Predefined macros: those of every target, then those of some targets. -/
def macros : List (List Nat) :=
  ["PNUT_CC", "__DATE__", "__TIME__", "__TIMESTAMP__", "__FILE__", "__LINE__", "PNUT_SH", "PNUT_EXE", "PNUT_EXE_32", "PNUT_EXE_64", "PNUT_I386", "PNUT_I386_LINUX", "PNUT_X86_64", "PNUT_X86_64_LINUX", "PNUT_X86_64_MAC"].map str

/-- Those of every target. -/
def allMacros : List (List Nat) := ["PNUT_CC", "__DATE__", "__TIME__", "__TIMESTAMP__", "__FILE__", "__LINE__"].map str

/-- Punctuators. -/
def punct : Lex.Op → Option PStmt.Tok
  | .ch c =>
    [(str "(", .p .lpar), (str ")", .p .rpar), (str "[", .p .lbrk), (str "]", .p .rbrk), (str "{", .lbrace), (str "}", .rbrace), (str ".", .p .dot), (str "&", .p .amp), (str "*", .p .star), (str "+", .p .plus), (str "-", .p .minus),
     (str "~", .p .tilde), (str "!", .p .excl), (str "/", .p .slash), (str "%", .p .percent), (str "<", .p .lt), (str ">", .p .gt), (str "^", .p .caret), (str "|", .p .bar), (str "?", .p .quest), (str ":", .p .colon),
     (str ";", .p .semi), (str ",", .p .comma), (str "=", .p .eq)].lookup [c]
  | .ampAmp => some (.p .andand) | .barBar => some (.p .oror) | .arrow => some (.p .arrow) | .plusPlus => some (.p .incr) | .minusMinus => some (.p .decr)
  | .eqEq => some (.p .eqeq) | .exclEq => some (.p .ne) | .ltEq => some (.p .le) | .gtEq => some (.p .ge) | .lShift => some (.p .shl) | .rShift => some (.p .shr)
  | .plusEq => some (.p .pluseq) | .minusEq => some (.p .minuseq) | .starEq => some (.p .stareq) | .slashEq => some (.p .slasheq) | .percentEq => some (.p .percenteq)
  | .lShiftEq => some (.p .shleq) | .rShiftEq => some (.p .shreq) | .ampEq => some (.p .ampeq) | .caretEq => some (.p .careteq) | .barEq => some (.p .bareq)
  | .hashHash | .ellipsis => none

/-- What a token is for the grammar, when the identifier spelled `s` is number `num s`. `none`: keywords of declarations, macros, `#`, `##`, `...`. -/
def tok (num : List Nat → Nat) : Lex.Tok → Option PStmt.Tok
  | .ident s =>
    match keywords.lookup s with
    | some t => some t
    | none => if s ∈ typeWords ∨ s ∈ macros then none else some (.e (.ident (num s)))
  | .int _ v => some (.e (.num v))
  | .chr v => some (.e (.chr v))
  | .str s => some (.e (.str s))
  | .op o => punct o
  | _ => none

/-- `Toks num ts xs`: `ts` are the tokens `xs` of the grammar. -/
inductive Toks (num : List Nat → Nat) : List Lex.Tok → List PStmt.Tok → Prop
  | nil : Toks num [] []
  | cons {t x ts xs} : tok num t = some x → Toks num ts xs → Toks num (t :: ts) (x :: xs)

/-- The spellings of the identifiers and keywords. -/
def names : List Lex.Tok → List (List Nat)
  | [] => []
  | .ident s :: r => s :: names r
  | _ :: r => names r

/-- No string literal has a null byte in it. -/
def NulFree (ts : List Lex.Tok) : Prop := ∀ s, Lex.Tok.str s ∈ ts → 0 ∉ s

end Verif.Front.Spec
