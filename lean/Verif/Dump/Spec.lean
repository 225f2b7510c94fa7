import Verif.Lex.Spec
/-! Specification for the preprocess-only mode. -/
namespace Verif.Dump.Spec
open Verif Verif.Lex.Spec

/-- The tokens of C that stand for a token in the output.  A literal `n` that is not 0 comes out as `- n`; suffixes: only the `U` is kept. Line ends are layout. -/
def seen : Lex.Tok → List Lex.Tok
  | .int .int v | .int .hex v | .int .oct v => if v = 0 then [.int .int 0] else [.op (.ch 45), .int .int v]
  | .int .intL v | .int .intLL v => [.int .int v]
  | .int .intU v | .int .intUL v | .int .intULL v => [.int .intU v]
  | .newline => []
  | t => [t]

/-- The tokens that are printed in a way that C can read: not `inline`, `++`, `...`; no `#`; no bytes from 128 on in strings if `char` is signed; integers of 32 bits. -/
def Fine (sh sg : Bool) : Lex.Tok → Prop
  | .ident s => Identifier s ∧ s ≠ [105, 110, 108, 105, 110, 101]
  | .int k v => v ≤ 0 ∧ -2147483648 ≤ v ∧ ((k = .int ∨ k = .hex ∨ k = .oct) ∨ (sh = false ∧ -2147483648 < v))
  | .chr v => v < 256
  | .str bs => ∀ b ∈ bs, b < 256 ∧ (sg = true → b < 128)
  | .op o => (∃ s, (s, o) ∈ punctuators) ∧ o ≠ .plusPlus ∧ o ≠ .ellipsis ∧ o ≠ .ch 35 ∧ o ≠ .hashHash
  | .newline => True
  | .eof => False
  | .directive => False

end Verif.Dump.Spec
