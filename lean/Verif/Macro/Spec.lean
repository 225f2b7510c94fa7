import Verif.Macro.Model
/-! Specification: macro replacement of C99 (6.10.3), without `#` and `##` (these have their own theorems). -/
namespace Verif.Macro.Spec
open Verif Verif.Lex

/-- `#define M body` and `#define F(params) body`. -/
inductive CMacro where
  | obj (body : List Tok)
  | fn (params : List Name) (body : List Tok)

abbrev CTable := Name → Option CMacro

abbrev lpar : Tok := .op (.ch 40)
abbrev rpar : Tok := .op (.ch 41)
abbrev comma : Tok := .op (.ch 44)

def CMacro.body : CMacro → List Tok
  | .obj b => b
  | .fn _ b => b

def CMacro.params : CMacro → List Name
  | .obj _ => []
  | .fn ps _ => ps

/-- The tokens of the directive behind the name. -/
def CMacro.text : CMacro → List Tok
  | .obj b => b
  | .fn ps b => lpar :: (List.intercalate [comma] (ps.map fun x => [Tok.ident x]) ++ rpar :: b)

def CMacro.isFn : CMacro → Bool
  | .obj _ => false
  | .fn _ _ => true

/-- A token that is not an identifier, an operator `#` or `##`, or the end of a line or file. -/
def Plain (t : Tok) : Prop := (∀ x, t ≠ .ident x) ∧ t ≠ .op (.ch 35) ∧ t ≠ .op .hashHash ∧ t ≠ .eof ∧ t ≠ .newline

/-- Parentheses match. -/
inductive Bal : List Tok → Prop
  | nil : Bal []
  | tok {t r} : t ≠ lpar → t ≠ rpar → Bal r → Bal (t :: r)
  | paren {a r} : Bal a → Bal r → Bal (lpar :: a ++ rpar :: r)

/-- Parentheses match, and all commas are inside parentheses. -/
inductive ArgText : List Tok → Prop
  | nil : ArgText []
  | tok {t r} : t ≠ lpar → t ≠ rpar → t ≠ comma → ArgText r → ArgText (t :: r)
  | paren {a r} : Bal a → ArgText r → ArgText (lpar :: a ++ rpar :: r)

/-- `Exp C hide env ts out`: the tokens `ts` are replaced by `out`. `hide` are the macros that are being replaced, `env` gives the (completely
replaced) arguments of the parameters that may occur in `ts`.

This is the fragment of C's macro replacement in which a function-like macro is always called, with its parentheses in the same list, and with
arguments that do not expand to something with a comma outside parentheses; the first argument, if any, is not empty. -/
inductive Exp (C : CTable) : List Name → (Name → Option (List Tok)) → List Tok → List Tok → Prop
  | nil {hide env} : Exp C hide env [] []
  | plain {hide env t r out} : Plain t → Exp C hide env r out → Exp C hide env (t :: r) (t :: out)
  /-- a parameter -/
  | param {hide env x o r out} : env x = some o → Exp C hide env r out → Exp C hide env (.ident x :: r) (o ++ out)
  | ident {hide env x r out} : env x = none → C x = none → Exp C hide env r out → Exp C hide env (.ident x :: r) (.ident x :: out)
  /-- a macro is not replaced inside its own replacement -/
  | hidden {hide env x r out} : env x = none → x ∈ hide → Exp C hide env r out → Exp C hide env (.ident x :: r) (.ident x :: out)
  | obj {hide env m body o r out} : env m = none → m ∉ hide → C m = some (.obj body) → Exp C (m :: hide) (fun _ => none) body o →
      Exp C hide env r out → Exp C hide env (.ident m :: r) (o ++ out)
  | call {hide env f ps body as os o r out} : env f = none → f ∉ hide → C f = some (.fn ps body) →
      as.length = ps.length → os.length = ps.length → (∀ a ∈ as, ArgText a) → (∀ a ∈ os, ArgText a) →
      (as.head? ≠ some []) → (os.head? ≠ some []) →
      (∀ p ∈ as.zip os, Exp C hide env p.1 p.2) →
      Exp C (f :: hide) (fun x => (ps.zip os).lookup x) body o → Exp C hide env r out →
      Exp C hide env (.ident f :: lpar :: (List.intercalate [comma] as ++ rpar :: r)) (o ++ out)

/-- Replacement in a file: also, the name of a function-like macro is left alone when the next token is not `(`. -/
inductive File (C : CTable) : List Tok → List Tok → Prop
  | nil : File C [] []
  | seg {a o r out} : Exp C [] (fun _ => none) a o → File C r out → File C (a ++ r) (o ++ out)
  | name {f ps b t r out} : C f = some (.fn ps b) → t ≠ lpar → (Plain t ∨ ∃ x, t = .ident x ∧ C x = none) → File C r out →
      File C (.ident f :: t :: r) (.ident f :: t :: out)

/-- The table of pnut holds the macros of `C`, as `#define` stored them. -/
def Defined (C : CTable) (D : Table) : Prop :=
  ∀ m, match C m with
    | none => D m = none
    | some c => ∃ mac, handle_define c.isFn c.text = .ok mac ∧ D m = some mac

/-- Identifiers of a text. -/
def names (ts : List Tok) : List Name := ts.filterMap fun t => match t with | .ident x => some x | _ => none

/-- Well-formed macros: different parameters; bodies without line ends, `#` and `##`. -/
def WF (C : CTable) : Prop := ∀ m c, C m = some c → c.params.Nodup ∧
  ∀ t ∈ c.body, t ≠ .eof ∧ t ≠ .newline ∧ t ≠ .op (.ch 35) ∧ t ≠ .op .hashHash

/-- No macro uses itself, and chains of macros have at most 50 links: a macro uses only macros of smaller rank. -/
def Ranked (C : CTable) (rk : Name → Nat) : Prop :=
  ∀ m c, C m = some c → rk m ≤ 50 ∧ ∀ x ∈ names c.body, x ∉ c.params → C x ≠ none → rk x < rk m

/-- In the source, an argument of a macro uses macros up to the rank of that macro. -/
def ArgsRanked (C : CTable) (rk : Name → Nat) (src : List Tok) : Prop :=
  ∀ pre f text post, src = pre ++ .ident f :: lpar :: (text ++ rpar :: post) → C f ≠ none → Bal text → ∀ x ∈ names text, C x ≠ none → rk x ≤ rk f

/-- Line ends are not tokens. -/
def strip (src : List Tok) : List Tok := src.filter (· ≠ .newline)

end Verif.Macro.Spec
