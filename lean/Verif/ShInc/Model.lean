import Verif.Inc.Model
/-! Model of `#include_shell` (sh.c:5-26, pnut.c:1489-1495), `#warning` and `#error` (pnut.c:1509-1522) in the main loop of the shell compiler (pnut.c:4105-4114).

Simplifications (all of this file): the source is one C file, given as its tokens and these directives between them (how they are read from the text: C20, C21; macros, `__FILE__` among them, are expanded before; which of them are skipped by `#if`: C03). The parser is a parameter `ends`, which says of the tokens
of a declaration that have been read whether the declaration is complete; a file that ends inside a declaration is refused. What is printed for a declaration is a parameter `code` of the declarations so far (pnut.c: nothing that the directive changes
is looked at: it sets only run-time library flags, which the epilogue looks at). `SH_INCLUDE_C_CODE` is off. -/
namespace Verif.ShInc
open Verif Verif.Inc

/-- `#include_shell "name"`, `#warning text`, `#error text` (the text: what stands behind the name of the directive, up to the end of the line). -/
inductive Dir where
  | shell (name : Path)
  | warning (text : List Nat)
  | error (text : List Nat)
  deriving DecidableEq

/-- A token or a directive. -/
inductive Item where
  | tok (t : Nat)
  | dir (d : Dir)
  deriving DecidableEq

/-- What has been printed; `fp_filepath` (pnut.c:163), which error messages and `__FILE__` (pnut.c:1885-1888) show; `runtime_use_put_pstr` and `runtime_use_unpack_string` (as far as this directive sets them). -/
structure Out where
  out : List Nat
  fp_filepath : Path
  use_put_pstr : Bool
  use_unpack_string : Bool
  deriving DecidableEq

/-- `while ((c = fgetc(shell_include_fp)) != EOF) putchar(c);` (sh.c:15-17). -/
def copy : List Nat → List Nat → List Nat
  | [], out => out
  | c :: r, out => copy r (out ++ [c])

/-- `handle_shell_include` (sh.c:5-26) with `fopen_source_file` (pnut.c:930-942), which sets `fp_filepath`; `dir` is `include_stack->dirname`. -/
def handle_shell_include (fs : FS) (dir name : Path) (o : Out) : Res Out :=
  match fs (source_path name (some dir)) with
  | none => .fatal
  | some c => .ok { out := copy c o.out ++ [10], fp_filepath := source_path name (some dir), use_put_pstr := true, use_unpack_string := true }

/-- The directives of `handle_preprocessor_directive` (pnut.c:1449-1553) that are modelled here. `exit(1)` is `.fatal`; what has been printed by then is left out. -/
def handle_directive (fs : FS) (dir : Path) (o : Out) : Dir → Res Out
  | .shell name => handle_shell_include fs dir name o
  | .warning text => .ok { o with out := copy text (o.out ++ [119, 97, 114, 110, 105, 110, 103, 58]) ++ [10] }
  | .error _ => .fatal

/-- `get_tok` (pnut.c:2022-2460), of it that directives are handled before the next token is found: the token (`none`: EOF), what follows it. -/
def get_tok (fs : FS) (dir : Path) : List Item → Out → Res (Option Nat × List Item × Out)
  | [], o => .ok (none, [], o)
  | .tok t :: r, o => .ok (some t, r, o)
  | .dir d :: r, o => (handle_directive fs dir o d).bind fun o => get_tok fs dir r o

/-- `parse_declaration` (pnut.c:3206-3253) with `tok` the current token: it goes on with `get_tok` behind every token, the last one too (`expect_tok_`, pnut.c:2531-2543). The result: the tokens of the declaration, the next token, what follows. -/
def parse_declaration (fs : FS) (dir : Path) (ends : List Nat → Bool) : Nat → List Nat → Nat → List Item → Out → Res (List Nat × Option Nat × List Item × Out)
  | 0, _, _, _, _ => .diverge
  | n + 1, seen, t, r, o => (get_tok fs dir r o).bind fun (t', r', o') =>
    if ends (seen ++ [t]) then .ok (seen ++ [t], t', r', o')
    else match t' with
      | none => .fatal
      | some t' => parse_declaration fs dir ends n (seen ++ [t]) t' r' o'

/-- `while (tok != EOF) { decl = parse_declaration(false); codegen_glo_decl(decl); }` (pnut.c:4107-4113); `ds` are the declarations so far. -/
def loop (fs : FS) (dir : Path) (ends : List Nat → Bool) (code : List (List Nat) → List Nat) : Nat → List (List Nat) → Option Nat → List Item → Out → Res Out
  | 0, _, _, _, _ => .diverge
  | _ + 1, _, none, _, o => .ok o
  | n + 1, ds, some t, r, o => (parse_declaration fs dir ends (r.length + 1) [] t r o).bind fun (d, t', r', o') =>
    loop fs dir ends code n (ds ++ [d]) t' r' { o' with out := o'.out ++ code (ds ++ [d]) }

/-- `codegen_begin(); get_tok(); while …; codegen_end();` (pnut.c:4105-4114); the epilogue (sh.c:2516-2550) depends on the two flags. -/
def compile (fs : FS) (file : Path) (ends : List Nat → Bool) (code : List (List Nat) → List Nat) (prologue : List Nat) (epilogue : Bool → Bool → List Nat) (src : List Item) : Res Out :=
  (get_tok fs (file_parent_directory file) src ⟨prologue, file, false, false⟩).bind fun (t, r, o) =>
  (loop fs (file_parent_directory file) ends code (src.length + 1) [] t r o).bind fun o =>
  .ok { o with out := o.out ++ epilogue o.use_put_pstr o.use_unpack_string }

end Verif.ShInc
