import Verif.Inc.Model
import Verif.Lex.Spec
/-! Specification of including files. -/
namespace Verif.Inc.Spec
open Verif Verif.Lex

/-- The directory of a path: everything up to the last slash. -/
def IsDir (dir path : Path) : Prop := ∃ base, path = dir ++ base ∧ 47 ∉ base ∧ (dir = [] ∨ ∃ d, dir = d ++ [47])

/-- A character with the file and the line it belongs to. -/
abbrev Ch := Nat × Path × Nat

/-- The text of a file, from line `l` on. The line number is the one after reading the character. -/
def annot (p : Path) : Nat → List Nat → List Ch
  | _, [] => []
  | l, c :: r => if c = 10 then (c, p, l + 1) :: annot p (l + 1) r else (c, p, l) :: annot p l r

/-- The text to come, the current file and line, and the directory of each file. -/
structure Src where
  text : List Ch
  path : Path
  line : Nat

/-- The path of the file that is meant: on the command line as it stands, for `"name"` relative to the directory of the current file, for `<name>` to the search path. -/
def target (dir : Path → Path) (cur : Path) (name : Path) : How → Path
  | .cmd => name
  | .quote => dir cur ++ name
  | .angle search => search ++ name

/-- A reading program on the text in which each included file has been put in the place where it was included, followed by a newline (which belongs to the including file).
`dir` gives the directory of a path. -/
def run {α : Type} (fs : FS) (dir : Path → Path) : Prog α → Src → Res α
  | .ret a, _ => .ok a
  | .get k, s =>
    match s.text with
    | [] => run fs dir (k none s.path s.line) s
    | (c, p, l) :: r => run fs dir (k (some c) p l) ⟨r, p, l⟩
  | .inc how name k, s =>
    match fs (target dir s.path name how) with
    | none => .fatal
    | some content => run fs dir k ⟨annot (target dir s.path name how) 1 content ++ (10, s.path, s.line) :: s.text, target dir s.path name how, 1⟩

/-- `#include "name"`. -/
def includeLine (name : List Nat) : List Nat := 35 :: (includeId ++ 32 :: 34 :: (name ++ [34]))

/-- `Reads fs sh inp r`: reading the text `inp` gives the tokens `r`, or an error. Between tokens there may be white space and comments; where a line is `#include "name"`
(white space may precede the `#`), the text of that file stands in place of the line. No token starts with `#`. -/
inductive Reads (fs : FS) (sh : Bool) : List Nat → Res (List Tok) → Prop
  | done {g} : Lex.Spec.GapEnd g → Reads fs sh g (.ok [])
  | token {g lex rest t r} : Lex.Spec.Gap g → Lex.Spec.Token sh lex rest t → Lex.Spec.Longest lex rest → Lex.Spec.NoComment (lex ++ rest) → lex.head? ≠ some 35 → Reads fs sh rest r →
      Reads fs sh (g ++ (lex ++ rest)) (r.bind fun ts => .ok (t :: ts))
  | include {g ws name content rest r} : Lex.Spec.Gap g → (∀ c ∈ ws, Lex.Spec.Space c) → 34 ∉ name → 92 ∉ name → fs name = some content →
      Reads fs sh (10 :: (content ++ 10 :: rest)) r → Reads fs sh (g ++ 10 :: (ws ++ (includeLine name ++ 10 :: rest))) r
  | missing {g ws name rest} : Lex.Spec.Gap g → (∀ c ∈ ws, Lex.Spec.Space c) → 34 ∉ name → 92 ∉ name → fs name = none →
      Reads fs sh (g ++ 10 :: (ws ++ (includeLine name ++ rest))) .fatal

end Verif.Inc.Spec
