import Verif.Base
import Verif.Lex.Model
/-! Model of source files: `include_file`, `fopen_source_file`, `file_parent_directory` and `get_ch` (pnut.c:828-963), `handle_include` (pnut.c:1420-1443) and the
`#include` part of `handle_preprocessor_directive` (pnut.c:1449-1553).  `INCLUDE_LINE_NUMBER_ON_ERROR` is on, `SUPPORT_LINE_CONTINUATION` is off. -/
namespace Verif.Inc
open Verif Verif.Lex

/-- A path or file name: its characters. -/
abbrev Path := List Nat

/-- What `fopen(path, "r")` finds. -/
abbrev FS := Path → Option (List Nat)

/-- `struct IncludeStack` (pnut.c:151-160); `rest` is what has not been read from `fp`. -/
structure Frame where
  rest : List Nat
  dirname : Path
  filepath : Path
  line : Nat
  column : Nat
  deriving DecidableEq, Repr

/-- `include_stack` (the top first), `fp_filepath`, `line_number`, `column_number`. `fp` is the file of the top. -/
structure St where
  stack : List Frame
  fp_filepath : Path
  line_number : Nat
  column_number : Nat
  deriving DecidableEq, Repr

/-- The loop of `file_parent_directory` (pnut.c:916-920): the last slash, if any. -/
def lastSlash : Nat → Option Nat → Path → Option Nat
  | _, last, [] => last
  | i, last, c :: r => lastSlash (i + 1) (if c = 47 then some i else last) r

/-- `file_parent_directory` (pnut.c:913-928). -/
def file_parent_directory (path : Path) : Path :=
  match lastSlash 0 none path with
  | none => []
  | some i => path.take (i + 1)

/-- The path that `fopen_source_file` opens (pnut.c:930-941). -/
def source_path (name : Path) : Option Path → Path
  | none => name
  | some d => d ++ name

/-- `include_file` with `fopen_source_file` (pnut.c:930-963). -/
def include_file (fs : FS) (name : Path) (relative_to : Option Path) (st : St) : Res St :=
  match fs (source_path name relative_to) with
  | none => .fatal
  | some content =>
    let below := match st.stack with
      | [] => []
      | f :: r => { f with line := st.line_number, column := st.column_number } :: r
    .ok ⟨⟨content, file_parent_directory (source_path name relative_to), source_path name relative_to, 1, 0⟩ :: below, source_path name relative_to, 1, 1⟩

/-- `get_ch` (pnut.c:828-862): `ch` (`none` is EOF). -/
def get_ch (st : St) : Res (Option Nat × St) :=
  match st.stack with
  | [] => .ub
  | f :: r =>
    match f.rest with
    | c :: t =>
      let st := { st with stack := { f with rest := t } :: r }
      .ok (some c, if c = 10 then { st with line_number := st.line_number + 1, column_number := 0 } else { st with column_number := st.column_number + 1 })
    | [] =>
      match r with
      | [] => .ok (none, st)
      | g :: _ => .ok (some 10, ⟨r, g.filepath, g.line, g.column⟩)

/-- How a file is named: on the command line (pnut.c:4068), by `#include "…"` (pnut.c:1422) or by `#include <…>` with a search path (pnut.c:1436). -/
inductive How where
  | cmd
  | quote
  | angle (search : Path)

def relative (how : How) (st : St) : Res (Option Path) :=
  match how with
  | .cmd => .ok none
  | .angle p => .ok (some p)
  | .quote => match st.stack with
    | [] => .ub
    | f :: _ => .ok (some f.dirname)

/-! ## A program that reads -/

/-- A program that reads characters and includes files, such as the lexer: after each character it sees the character, the current file and the
line number. -/
inductive Prog (α : Type) where
  | ret (a : α)
  | get (k : Option Nat → Path → Nat → Prog α)
  | inc (how : How) (name : Path) (k : Prog α)

/-- Running it on pnut's include stack. -/
def run {α : Type} (fs : FS) : Prog α → St → Res α
  | .ret a, _ => .ok a
  | .get k, st => (get_ch st).bind fun (c, st) => run fs (k c st.fp_filepath st.line_number) st
  | .inc how name k, st => (relative how st).bind fun rel => (include_file fs name rel st).bind fun st => run fs k st

/-! ## The lexer

The input is the list of characters to come, the first is `ch` (the empty list is EOF), as in `Verif.Lex`; all files are in one directory. -/

/-- `include_file` puts the text of the file in front of what has not been read, and `get_ch` puts a newline behind it; `ch` has already been read. At the end of the
main file, `ch` is EOF and stays so. -/
def insert (content : List Nat) : List Nat → List Nat
  | [] => []
  | ch :: r => ch :: (content ++ 10 :: r)

def includeId : List Nat := [105, 110, 99, 108, 117, 100, 101]

/-- `handle_preprocessor_directive` (pnut.c:1449-1553) at `#include "…"`: whether `tok` is `'\n'` and the input. Other directives and `<…>` are not modelled (`.ub`). -/
def directive (fs : FS) (sh : Bool) (inp : List Nat) : Res (Bool × List Nat) :=
  (get_tok sh false false inp).bind fun (_, r) => (get_tok sh false false r).bind fun (t, r) =>
    if t = .ident includeId then
      (get_tok sh false false r).bind fun (t, r) =>
        match t with
        | .str name =>
          match fs name with
          | none => .fatal
          | some content => (get_tok sh false false (insert content r)).bind fun (t, r) =>
            if t = .newline then .ok (true, r) else if t = .eof then .ok (false, r) else .fatal
        | _ => .ub
    else .ub

/-- `get_tok` with directives (pnut.c:2118-2122). -/
def get_tok_inc (fs : FS) (sh : Bool) : Nat → Bool → List Nat → Res (Tok × List Nat)
  | 0, _, _ => .diverge
  | n + 1, nl, inp => (get_tok sh true nl inp).bind fun (t, r) =>
    if t = .directive then (directive fs sh r).bind fun (nl, r) => get_tok_inc fs sh n nl r else .ok (t, r)

def tokens_incF (fs : FS) (sh : Bool) : Nat → List Nat → Res (List Tok)
  | 0, _ => .diverge
  | n + 1, inp => (get_tok_inc fs sh n false inp).bind fun (t, r) =>
    if t = .eof then .ok [] else (tokens_incF fs sh n r).bind fun ts => .ok (t :: ts)

/-- The tokens of a file: the result of any sufficiently long run; `ch` starts as a newline (pnut.c:4077). -/
def Tokens (fs : FS) (sh : Bool) (src : List Nat) (r : Res (List Tok)) : Prop := ∃ N, ∀ n, N ≤ n → tokens_incF fs sh n (10 :: src) = r

end Verif.Inc
