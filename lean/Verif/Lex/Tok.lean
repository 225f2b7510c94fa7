import Verif.Lit.Model
/-! Tokens (pnut.c:150-260 names the codes; single-character tokens are their character code). -/
namespace Verif.Lex
open Verif

inductive Op where
  | ch (c : Nat)
  | ampAmp | ampEq | arrow | barBar | barEq | caretEq | eqEq | gtEq | lShiftEq | ltEq | lShift | minusEq | minusMinus
  | exclEq | percentEq | plusEq | plusPlus | rShiftEq | rShift | slashEq | starEq | hashHash | ellipsis
  deriving DecidableEq, Repr

inductive Tok where
  | eof
  | newline
  /-- `#` at the start of a line: `handle_preprocessor_directive` takes over. -/
  | directive
  | ident (name : List Nat)
  | int (k : Lit.Kind) (val : Int)
  | chr (val : Nat)
  | str (bytes : List Nat)
  | op (o : Op)
  deriving DecidableEq, Repr

end Verif.Lex
