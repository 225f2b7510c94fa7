import Verif.Front.Spec
import Verif.Decl.Spec
/-! Specification: the words of C and the tokens that the grammar of declarations (`Verif.Decl.Spec`) is made of. -/
namespace Verif.FrontD.Spec
open Verif Verif.Front.Spec

/-- The keywords of declarations (C99 6.4.1 without `enum`). -/
def keywords : List (List Nat × Decl.Tok) :=
  [(str "auto", .sc .auto), (str "char", .kw .char), (str "const", .const), (str "double", .kw .double), (str "extern", .sc .extern), (str "float", .kw .float), (str "inline", .inline), (str "int", .kw .int),
   (str "long", .kw .long), (str "register", .sc .register), (str "short", .kw .short), (str "signed", .kw .signed), (str "static", .sc .static), (str "struct", .su .struct), (str "typedef", .sc .typedef),
   (str "union", .su .union), (str "unsigned", .kw .unsigned), (str "void", .kw .void), (str "volatile", .volatile)]

/-- The other keywords. -/
def otherWords : List (List Nat) := ["break", "case", "continue", "default", "do", "else", "enum", "for", "goto", "if", "return", "sizeof", "switch", "while"].map str

/-- Punctuators. -/
def punct : Lex.Op → Option Decl.Tok
  | .ch c => [(str "*", .star), (str "(", .lpar), (str ")", .rpar), (str "[", .lbrk), (str "]", .rbrk), (str "{", .lbrace), (str "}", .rbrace), (str ",", .comma), (str ";", .semi), (str "=", Decl.Tok.eq)].lookup [c]
  | .ellipsis => some .ellipsis
  | _ => none

/-- What a token is for the grammar, when the identifier spelled `s` is number `num s`; a literal is an expression (`Verif.Lex` has the negative of the value of an integer literal in its token). -/
def tok (num : List Nat → Nat) : Lex.Tok → Option Decl.Tok
  | .ident s =>
    match keywords.lookup s with
    | some t => some t
    | none => if s ∈ otherWords ∨ s ∈ macros then none else some (.ident (num s))
  | .int _ v => some (.expr (-v) false)
  | .chr v => some (.expr v false)
  | .op o => punct o
  | _ => none

/-- `Toks num ts xs`: `ts` are the tokens `xs` of the grammar. -/
inductive Toks (num : List Nat → Nat) : List Lex.Tok → List Decl.Tok → Prop
  | nil : Toks num [] []
  | cons {t x ts xs} : tok num t = some x → Toks num ts xs → Toks num (t :: ts) (x :: xs)

end Verif.FrontD.Spec
