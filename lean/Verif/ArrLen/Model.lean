import Verif.Base
/-! Model of the sizes of arrays that are declared without one: `initializer_size` and `infer_array_length` (exe.c:1930-1962), as `codegen_glo_var_decl` and `compute_local_var_decl_size` (exe.c:1964-2004) use them, the check of the number of elements
in `codegen_initializer` (exe.c:1825-1928), and what the shell compiler does instead (sh.c:1085-1095, 2299-2346).

Simplifications (all of this file): of a type node only its operator (`[` or not) and its length (child 1; 0: none) are kept, of an expression nothing; arrays of arrays only by their outer length; a string is an initializer only for arrays here. -/
namespace Verif.ArrLen
open Verif

/-- Initializers (pnut.c:3106-3136): an expression, a string with its bytes, a braced list. -/
inductive Ini where
  | expr
  | str (bs : List Nat)
  | list (is : List Ini)

/-- The type nodes: `some n` is a `[` node with length `n`, `none` another one. The declarators of one declaration made with a typedef name share the node of that use of the name (pnut.c:3024-3036, 3153-3168); each use of the name clones it (pnut.c:2893-2899). -/
abbrev Nodes := Nat → Option Nat

/-- `initializer_size` (exe.c:1933-1952). -/
def initializer_size : Ini → Res Nat
  | .list is => .ok is.length
  | .str bs => .ok (bs.length + 1)
  | .expr => .fatal

/-- `infer_array_length` (exe.c:1954-1962): the node is changed. -/
def infer_array_length (h : Nodes) (type : Nat) (init : Option Ini) : Res Nodes :=
  match h type with
  | some 0 =>
    match init with
    | none => .fatal
    | some i => (initializer_size i).bind fun n => .ok (upd h type (some n))
  | _ => .ok h

/-- What `codegen_initializer` (exe.c:1825-1928) and `codegen_initializer_string` (exe.c:1798-1822) refuse: more elements than the array has, a string that is too long, an array initialized with an expression. -/
def fits (len : Option Nat) : Option Ini → Bool
  | none => true
  | some i =>
    match len with
    | none => true
    | some n =>
      match i with
      | .list is => decide (is.length ≤ n)
      | .str bs => decide (bs.length ≤ n)
      | .expr => false

/-- `codegen_glo_var_decl` (exe.c:1964-1992): the number of elements that the variable is given room for, the nodes. -/
def declare (h : Nodes) (type : Nat) (init : Option Ini) : Res (Option Nat × Nodes) :=
  (infer_array_length h type init).bind fun h => if fits (h type) init then .ok (h type, h) else .fatal

/-- A sequence of declarations (type node, initializer). -/
def declareAll : Nodes → List (Nat × Option Ini) → Res (List (Option Nat) × Nodes)
  | h, [] => .ok ([], h)
  | h, (t, i) :: r => (declare h t i).bind fun (n, h) => (declareAll h r).bind fun (ns, h) => .ok (n :: ns, h)

/-- The shell compiler (sh.c:2299-2332) for an array with length `n` in its type: the length given to `defarr` or `defstr`. -/
def shLen (n : Nat) : Option Ini → Res Nat
  | some (.str bs) => if n ≠ 0 ∧ n < bs.length + 1 then .fatal else .ok (if n ≠ 0 then n else bs.length + 1)
  | some (.list is) => if n = 0 then (if is.length = 0 then .fatal else .ok is.length) else if n < is.length then .fatal else .ok n
  | some .expr => .fatal
  | none => if n = 0 then .fatal else .ok n

end Verif.ArrLen
