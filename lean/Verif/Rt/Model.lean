import Verif.Cg.Model
/-! Model of the run-time functions `malloc` and `free` of compiled programs (exe.c:2513-2532, 2651-2660). -/
namespace Verif.Rt
open Verif Verif.Gen Verif.X86 Verif.Cg

/-- `RT_HEAP_SIZE` (exe.c:5). -/
def RT_HEAP_SIZE : Int := 104857600

/-- `mov_reg_mem` (exe.c:116, 119). -/
def mov_reg_mem (w dst base : Nat) (o : Int) : Emit := if w = 8 then .mov_reg_mem64 dst base o else .mov_reg_mem32 dst base o
/-- `mov_mem_reg` (exe.c:115, 118). -/
def mov_mem_reg (w base : Nat) (o : Int) (src : Nat) : Emit := if w = 8 then .mov_mem64_reg base o src else .mov_mem32_reg base o src

/-- `rt_malloc` (exe.c:2513-2532); `crash` is the code of `rt_crash` (exe.c:2476-2479: prints the message and leaves the
program, never returns), `l` the label `rt_malloc_success`. -/
def rt_malloc (w : Nat) (crash : List Asm) (l : Nat) : List Asm :=
  I [mov_reg_mem w 1 3 w, .add_reg_reg 0 1, mov_reg_mem w 1 3 0, .add_reg_imm 1 RT_HEAP_SIZE] ++
  jump_cond_reg_reg 0xe l 0 1 ++ crash ++ [.lbl l] ++
  I [mov_reg_mem w 1 3 w, mov_mem_reg w 3 w 0, .mov_reg_reg 0 1]

/-- `malloc` (exe.c:2651-2655). -/
def malloc (w : Nat) (mlbl : Nat) (crash : List Asm) (l : Nat) : List Asm :=
  [.lbl mlbl] ++ I [mov_reg_mem w 0 4 w] ++ rt_malloc w crash l ++ [.ret]

/-- `free` (exe.c:2657-2661). -/
def free (w : Nat) (flbl : Nat) : List Asm := [.lbl flbl] ++ I [mov_reg_mem w 0 4 w] ++ [.ret]

end Verif.Rt
