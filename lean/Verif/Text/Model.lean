import Verif.Base
import Verif.Num.Model
import Verif.ShStr.Model
/-! Model of the text trees of the shell back end (sh.c:28-332) and of the list of generated lines
(sh.c:334-464).

A `text` is an `int`: 0 is the empty text, a negative number a character, a positive one the index of a
node in `text_pool`.  Cells hold `intptr_t`; C strings live in a memory `cm` of characters indexed by
pointers, with pointer 0 being NULL (simplification: pointers are not truncated by `TEXT_TO_INT`). -/
namespace Verif.Text
open Verif

/-- `text_pool` and `text_alloc` (sh.c:30-32). -/
structure TP where
  pool : Nat → Int
  alloc : Nat

/-- The start (sh.c:32). -/
def TP.init : TP := ⟨fun _ => 0, 1⟩

/-- What all the constructors do (e.g. sh.c:82-87): check, store the cells, bump. -/
def node (cells : List Int) (st : TP) : Res (Int × TP) :=
  if st.alloc + cells.length ≥ 1000000 then .fatal
  else .ok (st.alloc, ⟨writeList st.pool st.alloc cells, st.alloc + cells.length⟩)

/-- `wrap_char` (sh.c:80). -/
def wrap_char (c : Nat) : Int := -(c : Int)
/-- `wrap_int` (sh.c:82-87); `TEXT_INTEGER` is 1 (sh.c:35-42). -/
def wrap_int (i : BitVec 32) : TP → Res (Int × TP) := node [1, i.toInt]
/-- `wrap_int_hex` (sh.c:89-94). -/
def wrap_int_hex (i : BitVec 32) : TP → Res (Int × TP) := node [2, i.toInt]
/-- `wrap_int_oct` (sh.c:96-101). -/
def wrap_int_oct (i : BitVec 32) : TP → Res (Int × TP) := node [3, i.toInt]
/-- `escape_text` (sh.c:117-124). -/
def escape_text (t : Int) (for_printf : Bool) : TP → Res (Int × TP) := node [5, t, if for_printf then 1 else 0]
/-- `string_concat` .. `string_concat5` (sh.c:126-166), with the list of the parts. -/
def string_concat (ts : List Int) : TP → Res (Int × TP) := node (0 :: (ts.length : Int) :: ts)
/-- `wrap_str_imm` (sh.c:187-193). -/
def wrap_str_imm (s e : Int) : TP → Res (Int × TP) := node [4, s, e]
/-- `wrap_str_lit`, `wrap_str_pool` (sh.c:195-201). -/
def wrap_str_lit (s : Int) : TP → Res (Int × TP) := wrap_str_imm s 0
/-- `concatenate_strings_with` (sh.c:203-207). -/
def concatenate_strings_with (t1 t2 sep : Int) (st : TP) : Res (Int × TP) :=
  if t1 = 0 then .ok (t2, st) else if t2 = 0 then .ok (t1, st) else string_concat [t1, sep, t2] st

/-- The character of a negative text (sh.c:267, 272, 302, 307): converted to `char`. -/
def charOf (t : Int) : Nat := (-t % 256).toNat

/-- The loop over the children of a tree node (sh.c:269-277, 304-312): `n` children from cell `p`. -/
def kids (emit : Nat → List Nat) (sub : Int → Res (List Nat)) (pool : Nat → Int) : Nat → Nat → Res (List Nat)
  | _, 0 => .ok []
  | p, n + 1 =>
    (if pool p < 0 then .ok (emit (charOf (pool p))) else sub (pool p)).bind fun a =>
    (kids emit sub pool (p + 1) n).bind fun b => .ok (a ++ b)

/-- `putstr` (pnut.c:261-266), and the loop for a NULL end in `print_escaped_string` (sh.c:253-258). -/
def putstr (emit : Nat → List Nat) (cm : Int → Nat) : Nat → Int → Res (List Nat)
  | 0, _ => .diverge
  | fuel + 1, s => if cm s = 0 then .ok [] else (putstr emit cm fuel (s + 1)).bind fun b => .ok (emit (cm s) ++ b)

/-- The loop with an end in `print_escaped_string` (sh.c:248-252). -/
def escape_upto (fp : Bool) (cm : Int → Nat) (e : Int) : Nat → Int → Res (List Nat)
  | 0, _ => .diverge
  | fuel + 1, s =>
    if s < e then (escape_upto fp cm e fuel (s + 1)).bind fun b => .ok (ShStr.escapeChar fp (cm s) ++ b) else .ok []

/-- The loop with an end in `print_text` (sh.c:325-329), with its `||`. -/
def print_upto (cm : Int → Nat) (e : Int) : Nat → Int → Res (List Nat)
  | 0, _ => .diverge
  | fuel + 1, s =>
    if s < e ∨ cm s ≠ 0 then (print_upto cm e fuel (s + 1)).bind fun b => .ok (cm s :: b) else .ok []

/-- The integer nodes (sh.c:278-285, 313-320). -/
def int_node (k : Int) (v : Int) : List Nat :=
  (Num.printInt (if k = 1 then .dec (BitVec.ofInt 32 v) else if k = 2 then .hex (BitVec.ofInt 32 v)
    else .oct (BitVec.ofInt 32 v))).map Int.toNat

/-- `print_escaped_text` (sh.c:261-293): the characters printed. -/
def print_escaped_text (cm : Int → Nat) (pool : Nat → Int) (fp : Bool) : Nat → Int → Res (List Nat)
  | 0, _ => .diverge
  | fuel + 1, t =>
    if t = 0 then .ok []
    else if t < 0 then .ok (ShStr.escapeChar fp (charOf t))
    else
      let k := pool t.toNat
      if k = 0 then kids (ShStr.escapeChar fp) (print_escaped_text cm pool fp fuel) pool (t.toNat + 2) (pool (t.toNat + 1)).toNat
      else if k = 1 ∨ k = 2 ∨ k = 3 then .ok (int_node k (pool (t.toNat + 1)))
      else if k = 4 then
        if pool (t.toNat + 2) ≠ 0 then escape_upto fp cm (pool (t.toNat + 2)) fuel (pool (t.toNat + 1))
        else putstr (ShStr.escapeChar fp) cm fuel (pool (t.toNat + 1))
      else .fatal

/-- `print_text` (sh.c:295-336): the characters printed. -/
def print_text (cm : Int → Nat) (pool : Nat → Int) : Nat → Int → Res (List Nat)
  | 0, _ => .diverge
  | fuel + 1, t =>
    if t = 0 then .ok []
    else if t < 0 then .ok [charOf t]
    else
      let k := pool t.toNat
      if k = 0 then kids (fun c => [c]) (print_text cm pool fuel) pool (t.toNat + 2) (pool (t.toNat + 1)).toNat
      else if k = 1 ∨ k = 2 ∨ k = 3 then .ok (int_node k (pool (t.toNat + 1)))
      else if k = 4 then
        if pool (t.toNat + 2) = 0 then putstr (fun c => [c]) cm fuel (pool (t.toNat + 1))
        else print_upto cm (pool (t.toNat + 2)) fuel (pool (t.toNat + 1))
      else if k = 5 then print_escaped_text cm pool (pool (t.toNat + 2) ≠ 0) fuel (pool (t.toNat + 1))
      else .fatal

end Verif.Text
