import Verif.Base
/-! Model of the names of shell variables in generated scripts (sh.c:472-557, 585-621, 842-893).

Simplifications.  Names are lists of characters; decimal numbers are written with `Nat.toDigits 10`
(that `putint` prints them is C07).  Identifiers are given as texts instead of probes (C01). -/
namespace Verif.Names
open Verif

abbrev Txt := List Char

/-- `wrap_int` (sh.c:82-87) of a number that is not negative, as printed. -/
def num (k : Nat) : Txt := Nat.toDigits 10 k

/-- `struct_member_var` (sh.c:501-503). -/
def struct_member_var (m : Txt) : Txt := "__".toList ++ m

/-- `struct_sizeof_var` (sh.c:505-507). -/
def struct_sizeof_var (s : Txt) : Txt := "__sizeof__".toList ++ s

/-- `global_var` (sh.c:509-511); `function_name` (sh.c:534-536) is the same function. -/
def global_var (x : Txt) : Txt := '_' :: x

/-- `env_var_with_prefix` (sh.c:513-528) for an identifier; `isLocal` is the result of the lookup. -/
def env_var (isLocal : Bool) (x : Txt) : Txt :=
  if isLocal then (if x = "argv".toList then "argv_".toList else x) else global_var x

/-- `format_special_var` (sh.c:472-499) for `IDENTIFIER_INTERNAL`. -/
def temp_var (k : Nat) : Txt := "__t".toList ++ num k

/-- `format_special_var` (sh.c:472-499) for `IDENTIFIER_STRING`. -/
def string_var (k : Nat) : Txt := "__str_".toList ++ num k

/-- `assert_var_decl_is_safe` (sh.c:585-621), the part about names (C12 and C37 deal with types). -/
def assert_var_decl_is_safe (name : Txt) (isLocal : Bool) : Res Unit :=
  if name.head? = some '_' || (name.length = 2 && name.getLast? = some '_') then .fatal
  else if isLocal && (name = "argv_".toList || name = "IFS".toList) then .fatal
  else .ok ()

/-- `character_ident` (sh.c:842-893). -/
def character_ident (c : Nat) : Res Txt :=
  if (65 ≤ c ∧ c ≤ 90) ∨ (97 ≤ c ∧ c ≤ 122) ∨ (48 ≤ c ∧ c ≤ 57) then
    .ok ['_', '_', Char.ofNat c, '_', '_']
  else match c with
  | 0 => .ok "__NUL__".toList
  | 10 => .ok "__NEWLINE__".toList
  | 32 => .ok "__SPACE__".toList
  | 33 => .ok "__EXCL__".toList
  | 34 => .ok "__DQUOTE__".toList
  | 35 => .ok "__SHARP__".toList
  | 36 => .ok "__DOLLAR__".toList
  | 37 => .ok "__PERCENT__".toList
  | 38 => .ok "__AMP__".toList
  | 39 => .ok "__QUOTE__".toList
  | 40 => .ok "__LPAREN__".toList
  | 41 => .ok "__RPAREN__".toList
  | 42 => .ok "__STAR__".toList
  | 43 => .ok "__PLUS__".toList
  | 44 => .ok "__COMMA__".toList
  | 45 => .ok "__MINUS__".toList
  | 46 => .ok "__PERIOD__".toList
  | 47 => .ok "__SLASH__".toList
  | 58 => .ok "__COLON__".toList
  | 59 => .ok "__SEMICOLON__".toList
  | 60 => .ok "__LT__".toList
  | 61 => .ok "__EQ__".toList
  | 62 => .ok "__GT__".toList
  | 63 => .ok "__QUESTION__".toList
  | 64 => .ok "__AT__".toList
  | 94 => .ok "__CARET__".toList
  | 91 => .ok "__LBRACK__".toList
  | 92 => .ok "__BACKSLASH__".toList
  | 93 => .ok "__RBRACK__".toList
  | 95 => .ok "__UNDERSCORE__".toList
  | 96 => .ok "__BACKTICK__".toList
  | 123 => .ok "__LBRACE__".toList
  | 124 => .ok "__BAR__".toList
  | 125 => .ok "__RBRACE__".toList
  | 126 => .ok "__TILDE__".toList
  | 7 => .ok "__ALARM__".toList
  | 8 => .ok "__BACKSPACE__".toList
  | 12 => .ok "__PAGE__".toList
  | 13 => .ok "__RET__".toList
  | 9 => .ok "__TAB__".toList
  | 11 => .ok "__VTAB__".toList
  | _ => .fatal

/-- The variables of the runtime library and of the script itself (all of sh-runtime.c;
`__argc_for_main`, `__argv_for_main`, `__code`, `LC_ALL`: sh.c:2505-2550), except the families below. -/
def runtimeVars : List Txt := [
  "__", "__ALLOC", "__SP", "__addr", "__argc", "__argv", "__argv_ptr", "__argc_for_main", "__argv_for_main",
  "__buf", "__buffer", "__buflen", "__byte", "__c", "__char", "__code", "__continue", "__count", "__cursor",
  "__end", "__ends_with_eof", "__fd", "__fgetc_buf16", "__fgetc_buf", "__file", "__flags", "__fmt_ptr",
  "__head", "__head_char", "__i", "__int", "__len", "__mod", "__mod_start", "__precision", "__ptr", "__res",
  "__ret", "__size", "__stdin_buf16", "__stdin_buf256", "__stdin_buf", "__stdin_end", "__stdin_line_ending",
  "__str", "__tail", "__temp", "__temp_buf", "__tmp", "__us_buf16", "__us_buf256", "__width",
  "IFS", "LC_ALL"].map String.toList

/-- The variables kept for each file descriptor (sh-runtime.c:742-745). -/
inductive FdVar where
  | state | buffer | cursor | buflen
  deriving DecidableEq, Repr

def FdVar.prefix : FdVar → Txt
  | .state => "state_fd".toList
  | .buffer => "buffer_fd".toList
  | .cursor => "cursor_fd".toList
  | .buflen => "buflen_fd".toList

/-- Characters for which the runtime has a variable `__c2i_…` (`char_to_int`, sh-runtime.c:111-190). -/
def c2iChars : Txt := "0123456789abcdefghijklmnopqrstuvwxyzABCDEFGHIJKLMNOPQRSTUVWXYZ".toList

/-! ### String constants -/

/-- Numbers of string constants: the tag of each interned string (`heap[probe + 3]`) and
`string_counter`. -/
structure Strs where
  tag : Nat → Nat
  counter : Nat

/-- `fresh_string_ident` (sh.c:549-558). -/
def fresh_string_ident (p : Nat) (s : Strs) : Nat × Strs :=
  if s.tag p = 0 then (s.counter, ⟨upd s.tag p s.counter, s.counter + 1⟩)
  else (s.tag p, s)

/-- What happens to the table: a string constant is used, or the text is given another meaning
(`#define`, pnut.c:1268; `typedef`, pnut.c:3188: the tag becomes an index in the heap). -/
inductive Ev where
  | use (p : Nat)
  | define (p v : Nat)

/-- Numbers given to string constants, in order, with their strings. -/
def numbers : List Ev → Strs → List (Nat × Nat)
  | [], _ => []
  | .use p :: r, s => (p, (fresh_string_ident p s).1) :: numbers r (fresh_string_ident p s).2
  | .define p v :: r, s => numbers r { s with tag := upd s.tag p v }

end Verif.Names
