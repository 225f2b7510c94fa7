import Verif.Names.Model
/-! Specification for C14: the things that have a shell variable. -/
namespace Verif.Names
open Verif

/-- What a shell variable can stand for. -/
inductive Ent where
  /-- a local variable or parameter -/
  | loc (x : Txt)
  /-- a global variable -/
  | glob (x : Txt)
  /-- an enumeration constant -/
  | enum (x : Txt)
  /-- the offset of a structure member -/
  | member (x : Txt)
  /-- the size of a structure -/
  | size (x : Txt)
  /-- a temporary -/
  | temp (k : Nat)
  /-- a string constant -/
  | str (k : Nat)
  /-- a memory cell -/
  | heap (k : Nat)
  /-- a cell of the stack of saved variables -/
  | stk (k : Nat)
  /-- a character constant -/
  | chr (c : Nat)
  /-- code of a character, in the runtime library -/
  | c2i (c : Char)
  /-- a variable of an open file -/
  | fd (b : FdVar) (k : Nat)
  /-- another variable of the runtime library -/
  | rt (x : Txt)
  deriving DecidableEq, Repr

/-- The name of a character constant. -/
def chrText (c : Nat) : Txt := match character_ident c with | .ok t => t | _ => []

/-- The shell name. -/
def Ent.name : Ent → Txt
  | .loc x => env_var true x
  | .glob x => env_var false x
  | .enum x => env_var false x
  | .member x => struct_member_var x
  | .size x => struct_sizeof_var x
  | .temp k => temp_var k
  | .str k => string_var k
  | .heap k => '_' :: num k
  | .stk k => "__".toList ++ num k
  | .chr c => chrText c
  | .c2i c => "__c2i_".toList ++ [c]
  | .fd b k => "__".toList ++ b.prefix ++ num k
  | .rt x => x

/-- C identifiers. -/
def isIdent : Txt → Bool
  | [] => false
  | c :: r => (c.isAlpha || c = '_') && r.all fun c => c.isAlphanum || c = '_'

def digits (t : Txt) : Bool := !t.isEmpty && t.all Char.isDigit

/-- `__t` is the variable of a character constant. -/
def isChr (t : Txt) : Bool := (List.range 256).any fun c => (Ent.chr c).name == "__".toList ++ t

/-- `__t` is a variable of the runtime library. -/
def isRt (t : Txt) : Bool := runtimeVars.contains ("__".toList ++ t)

/-- Names that begin with `__` and are used by the compiler or the runtime library; the argument is
what follows `__`. -/
def reserved (t : Txt) : Bool :=
  digits t ||
  ("t".toList.isPrefixOf t && digits (t.drop 1)) ||
  ("str_".toList.isPrefixOf t && digits (t.drop 4)) ||
  "sizeof__".toList.isPrefixOf t ||
  ("state_fd".toList.isPrefixOf t && digits (t.drop 8)) ||
  ("buffer_fd".toList.isPrefixOf t && digits (t.drop 9)) ||
  ("cursor_fd".toList.isPrefixOf t && digits (t.drop 9)) ||
  ("buflen_fd".toList.isPrefixOf t && digits (t.drop 9)) ||
  "c2i_".toList.isPrefixOf t ||
  isChr t || isRt t

/-- Entities of accepted programs, with the restrictions that the theorem needs on top of those that
the compiler checks: structure members do not have a reserved name, enumeration constants do not begin
with `_`, no local variable is called `LC_ALL`. -/
def Ent.ok : Ent → Prop
  | .loc x => isIdent x = true ∧ assert_var_decl_is_safe x true = .ok () ∧ x ≠ "LC_ALL".toList
  | .glob x => isIdent x = true ∧ assert_var_decl_is_safe x false = .ok ()
  | .enum x => isIdent x = true ∧ x.head? ≠ some '_'
  | .member x => isIdent x = true ∧ reserved x = false
  | .size x => isIdent x = true
  | .chr c => c < 256 ∧ ∃ t, character_ident c = .ok t
  | .c2i c => c ∈ c2iChars
  | .rt x => x ∈ runtimeVars
  | _ => True

/-- Different entities, as far as C requires: a global variable and an enumeration constant cannot have
the same identifier in C. -/
def Ent.same : Ent → Ent → Prop
  | .glob x, .enum y => x = y
  | .enum x, .glob y => x = y
  | a, b => a = b

end Verif.Names
