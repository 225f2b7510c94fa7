import Verif.ShInc.Model
import Verif.Inc.Spec
/-! Specification: where the included shell files (and the texts of warnings) are in the script. -/
namespace Verif.ShInc.Spec
open Verif Verif.Inc

/-- A declaration: its tokens, each with the directives between it and the next token. -/
abbrev Decl := List (Nat × List Dir)

/-- A source: the directives before the first declaration, the declarations. -/
structure Source where
  first : List Dir
  decls : List Decl

def tokens (d : Decl) : List Nat := d.map (·.1)

/-- The directives in a declaration and behind it. -/
def dirs (d : Decl) : List Dir := d.flatMap (·.2)

def Source.dirs (s : Source) : List Dir := s.first ++ s.decls.flatMap Spec.dirs

/-- The included shell files. -/
def nameOf : Dir → Option Path
  | .shell n => some n
  | _ => none

def Source.names (s : Source) : List Path := s.dirs.filterMap nameOf

/-- The source as it stands in the file. -/
def items (s : Source) : List Item := s.first.map .dir ++ s.decls.flatMap fun d => d.flatMap fun x => .tok x.1 :: x.2.map .dir

/-- `d` is a declaration: it is complete with its last token and not before. -/
def IsDecl (ends : List Nat → Bool) (d : Decl) : Prop := ends (tokens d) = true ∧ d ≠ [] ∧ ∀ p, p <+: tokens d → p ≠ tokens d → p ≠ [] → ends p = false

/-- `Texts fs dir ds bs`: `bs` is what the directives put into the script: the contents of shell files of the directory `dir`, each followed by a line end, and lines with warnings. -/
inductive Texts (fs : FS) (dir : Path) : List Dir → List Nat → Prop
  | nil : Texts fs dir [] []
  | shell {n ns c bs} : fs (dir ++ n) = some c → Texts fs dir ns bs → Texts fs dir (.shell n :: ns) (c ++ [10] ++ bs)
  | warning {w ns bs} : Texts fs dir ns bs → Texts fs dir (.warning w :: ns) ("warning:".toList.map Char.toNat ++ w ++ [10] ++ bs)

/-- What makes the compiler fail: a file that does not exist, `#error`. -/
def Bad (fs : FS) (dir : Path) : Dir → Prop
  | .shell n => fs (dir ++ n) = none
  | .warning _ => False
  | .error _ => True

/-- `Body fs dir code done ds bs`: `bs` is what the script has for the declarations `ds`, after the declarations `done`: for each one the shell files included (and the warnings) in it and behind it, then its code. -/
inductive Body (fs : FS) (dir : Path) (code : List (List Nat) → List Nat) : List (List Nat) → List Decl → List Nat → Prop
  | nil {done} : Body fs dir code done [] []
  | cons {done d ds b bs} : Texts fs dir (dirs d) b → Body fs dir code (done ++ [tokens d]) ds bs → Body fs dir code done (d :: ds) (b ++ code (done ++ [tokens d]) ++ bs)

end Verif.ShInc.Spec
