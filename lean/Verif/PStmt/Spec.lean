import Verif.PStmt.Model
import Verif.Parse.Spec
/-! The statement grammar of ISO C (C89 6.6 / C99 6.8) as derivations of token sequences, with the tree each derivation denotes. -/
namespace Verif.PStmt.Spec
open Verif Verif.Parse.Spec

/-- A full expression. `relaxed = false` is ISO C. -/
def Ex (relaxed : Bool) (ts : List Tok) (e : E) : Prop := ∃ pts, ts = pts.map .e ∧ D relaxed .expr pts e

/-- An optional expression. -/
inductive ExOpt (relaxed : Bool) : List Tok → Option E → Prop
  | none : ExOpt relaxed [] none
  | some {ts e} : Ex relaxed ts e → ExOpt relaxed ts (some e)

/-- The constant expression of a `case` label: a conditional expression; relaxed: any expression. -/
def CaseEx (relaxed : Bool) (ts : List Tok) (e : E) : Prop := (∃ pts, ts = pts.map .e ∧ D relaxed .cond pts e) ∨ (relaxed = true ∧ Ex relaxed ts e)

/-- A semicolon, from the source text or from a macro. -/
inductive Semi : Tok → Prop
  | text : Semi (.p .semi)
  | fromMacro {v} : Semi (.semiM v)

mutual
/-- `Stm relaxed o ts s`: the tokens `ts` are the statement `s`. `o`: the statement ends with an `if` without `else` (an `else` behind it would belong to that `if`); so what stands
between an `if` and its `else` must not be such a statement: an `else` belongs to the nearest `if` it can belong to. -/
inductive Stm (relaxed : Bool) : Bool → List Tok → St → Prop
  | ifThen {te c ts a o} : Ex relaxed te c → Stm relaxed o ts a → Stm relaxed true (.kw .if_ :: .p .lpar :: (te ++ .p .rpar :: ts)) (.if_ (.parens c) a .nil)
  | ifElse {te c ts a o ts' b} : Ex relaxed te c → Stm relaxed false ts a → Stm relaxed o ts' b →
      Stm relaxed o (.kw .if_ :: .p .lpar :: (te ++ .p .rpar :: (ts ++ .kw .else_ :: ts'))) (.if_ (.parens c) a b)
  | switch {te c ts a o} : Ex relaxed te c → Stm relaxed o ts a → Stm relaxed o (.kw .switch :: .p .lpar :: (te ++ .p .rpar :: ts)) (.switch (.parens c) a)
  | case {te c ts a o} : CaseEx relaxed te c → Stm relaxed o ts a → Stm relaxed o (.kw .case :: (te ++ .p .colon :: ts)) (.case c a)
  | default {ts a o} : Stm relaxed o ts a → Stm relaxed o (.kw .default :: .p .colon :: ts) (.default a)
  | while_ {te c ts a o} : Ex relaxed te c → Stm relaxed o ts a → Stm relaxed o (.kw .while_ :: .p .lpar :: (te ++ .p .rpar :: ts)) (.while_ (.parens c) a)
  | do_ {te c ts a o s} : Stm relaxed o ts a → Ex relaxed te c → Semi s → Stm relaxed false (.kw .do_ :: (ts ++ .kw .while_ :: .p .lpar :: (te ++ [.p .rpar, s]))) (.do_ a (.parens c))
  | for_ {t1 i t2 c t3 u ts a o s s'} : ExOpt relaxed t1 i → ExOpt relaxed t2 c → ExOpt relaxed t3 u → Stm relaxed o ts a → Semi s → Semi s' →
      Stm relaxed o (.kw .for_ :: .p .lpar :: (t1 ++ s :: (t2 ++ s' :: (t3 ++ .p .rpar :: ts)))) (.for_ i c u a)
  | goto {x} : Stm relaxed false [.kw .goto, .e (.ident x), .p .semi] (.goto x)
  /-- the `;` comes from a macro and brings the label's name with it, as when the label stands in the macro's body before it (relaxed: any name) -/
  | gotoM {x v} : x = v ∨ relaxed = true → Stm relaxed false [.kw .goto, .e (.ident x), .semiM v] (.goto v)
  | continue {s} : Semi s → Stm relaxed false [.kw .continue, s] .continue
  | break {s} : Semi s → Stm relaxed false [.kw .break, s] .break
  | return_ {te e s} : ExOpt relaxed te e → Semi s → Stm relaxed false (.kw .return_ :: (te ++ [s])) (.return_ e)
  | empty {s} : Semi s → Stm relaxed false [s] .nil
  | expr {te e s} : Ex relaxed te e → Semi s → Stm relaxed false (te ++ [s]) (.expr e)
  | label {x ts a o} : Stm relaxed o ts a → Stm relaxed o (.e (.ident x) :: .p .colon :: ts) (.label x a)
  | block {ts a} : Items relaxed ts a → Stm relaxed false (.lbrace :: (ts ++ [.rbrace])) a

/-- What stands in a block, as a chain of cells. -/
inductive Items (relaxed : Bool) : List Tok → St → Prop
  | nil : Items relaxed [] .nil
  | decl {d ts b} : Items relaxed ts b → Items relaxed (.decl d :: ts) (.block (.decl d) b)
  | stm {o ts a ts' b} : Stm relaxed o ts a → Items relaxed ts' b → Items relaxed (ts ++ ts') (.block a b)
end

/-- A function body. -/
inductive Body (relaxed : Bool) : List Tok → St → Prop
  | mk {ts a} : Items relaxed ts a → Body relaxed (.lbrace :: (ts ++ [.rbrace])) a

end Verif.PStmt.Spec
