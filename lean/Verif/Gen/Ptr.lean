import Verif.Gen.Types
import Verif.X86.Props
/-! Model of the pointer scaling code of `exe.c`: the sequence of emitter calls. -/
namespace Verif.Gen
open Verif Verif.X86

/-- `is_power_of_2` (exe.c:217-219), on a nonnegative width. -/
def is_power_of_2 (n : Nat) : Bool := n ≠ 0 && (n &&& (n - 1)) = 0

/-- `power_of_2_log` (exe.c:221-228). -/
def power_of_2_log (n : Nat) : Nat := if h : n > 1 then power_of_2_log (n / 2) + 1 else 0
decreasing_by omega

/-- The loop of `mul_for_pointer_arith` (exe.c:230-246). -/
def doublings (reg n : Nat) : List Emit :=
  if h : n > 1 then .add_reg_reg reg reg :: doublings reg (n / 2) else []
decreasing_by omega

/-- `mul_for_pointer_arith` (exe.c:230-246); `reg_X = 0`, `reg_Y = 1`; `mul_reg_reg` is
`imul_reg_reg` (x86.c:392). -/
def mul_for_pointer_arith (reg width : Nat) : List Emit :=
  let other := if reg = 0 then 1 else 0
  if width = 1 then []
  else if is_power_of_2 width then doublings reg width
  else [.push_reg other, .mov_reg_imm other width, .imul_reg_reg reg other, .pop_reg other]

/-- `div_for_pointer_arith` (exe.c:248-293); `sar_reg_reg` (x86.c:513-522) and `div_reg_reg`
(x86.c:452-467) are unfolded. -/
def div_for_pointer_arith (reg width : Nat) : List Emit :=
  if width = 1 then []
  else if is_power_of_2 width then
    (if reg ≠ 0 then [.push_reg 0, .mov_reg_reg 0 reg] else [.push_reg 1]) ++
    [.mov_reg_imm 1 (power_of_2_log width), .mov_reg_reg 1 1, .sar_reg_cl 0] ++
    (if reg ≠ 0 then [.mov_reg_reg reg 0, .pop_reg 0] else [.pop_reg 1])
  else
    (if reg ≠ 0 then [.push_reg 0] else [.push_reg 1]) ++
    [.mov_reg_imm 1 width, .mov_reg_reg 0 0, .mov_reg_imm 2 0, .div_reg 1, .mov_reg_reg 0 0] ++
    (if reg ≠ 0 then [.mov_reg_reg reg 0, .pop_reg 0] else [.pop_reg 1])

/-- The `+` part of `codegen_binop` (exe.c:991-1116) between the pops and the push. -/
def binop_add (w : Nat) (T : Tags) (lt rt : CTy) : Res (List Emit) :=
  (if is_pointer_type lt && !is_pointer_type rt then
    (ref_type_width w T lt).bind fun k => .ok (mul_for_pointer_arith 1 k)
  else if is_pointer_type rt && !is_pointer_type lt then
    (ref_type_width w T rt).bind fun k => .ok (mul_for_pointer_arith 0 k)
  else .ok []).bind fun es => .ok (es ++ [.add_reg_reg 0 1])

/-- The `-` part of `codegen_binop` (exe.c:991-1116) between the pops and the push. -/
def binop_sub (w : Nat) (T : Tags) (lt rt : CTy) : Res (List Emit) :=
  if is_pointer_type lt && is_pointer_type rt then
    (ref_type_width w T lt).bind fun k => .ok (.sub_reg_reg 0 1 :: div_for_pointer_arith 0 k)
  else if is_pointer_type lt then
    (ref_type_width w T lt).bind fun k => .ok (mul_for_pointer_arith 1 k ++ [.sub_reg_reg 0 1])
  else if is_pointer_type rt then
    (ref_type_width w T rt).bind fun k => .ok (mul_for_pointer_arith 0 k ++ [.sub_reg_reg 0 1])
  else .ok [.sub_reg_reg 0 1]

/-- `load_mem_location` (exe.c:149-173). -/
def load_mem_location (w dst base : Nat) (offset : Int) (width : Nat) (is_signed : Bool) : Res (List Emit) :=
  if is_signed then
    if width = 1 then .ok [.mov_reg_mem8_sign_ext dst base offset]
    else if width = 2 then .ok [.mov_reg_mem16_sign_ext dst base offset]
    else if width = 4 then
      if w = 4 then .ok [.mov_reg_mem32 dst base offset] else .ok [.mov_reg_mem32_sign_ext dst base offset]
    else if width = 8 ∧ w = 8 then .ok [.mov_reg_mem64 dst base offset]
    else .fatal
  else
    if width = 1 then .ok [.mov_reg_mem8 dst base offset]
    else if width = 2 then .ok [.mov_reg_mem16 dst base offset]
    else if width = 4 then .ok [.mov_reg_mem32 dst base offset]
    else if width = 8 ∧ w = 8 then .ok [.mov_reg_mem64 dst base offset]
    else .fatal

/-- `write_mem_location` (exe.c:176-188). -/
def write_mem_location (w base : Nat) (offset : Int) (src width : Nat) : Res (List Emit) :=
  if width > w then .fatal
  else if width = 1 then .ok [.mov_mem8_reg base offset src]
  else if width = 2 then .ok [.mov_mem16_reg base offset src]
  else if width = 4 then .ok [.mov_mem32_reg base offset src]
  else if width = 8 then .ok [.mov_mem64_reg base offset src]
  else .fatal

/-- The `[` part of `codegen_binop` (exe.c:991-1116) between the pops and the push. -/
def binop_index (w : Nat) (T : Tags) (lt rt : CTy) : Res (List Emit) :=
  if is_pointer_type lt && !is_pointer_type rt then
    (ref_type_width w T lt).bind fun k => (dereference_type lt).bind fun t =>
    (load_mem_location w 0 0 0 k (is_signed_numeric_type t)).bind fun ld =>
    .ok (mul_for_pointer_arith 1 k ++ [.add_reg_reg 0 1] ++ ld)
  else if is_pointer_type rt && !is_pointer_type lt then
    (ref_type_width w T rt).bind fun k => (dereference_type rt).bind fun t =>
    (load_mem_location w 0 0 0 k (is_signed_numeric_type t)).bind fun ld =>
    .ok (mul_for_pointer_arith 0 k ++ [.add_reg_reg 0 1] ++ ld)
  else .fatal

end Verif.Gen
