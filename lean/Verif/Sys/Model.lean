import Verif.Rt.Model
/-! Model of the system calls, the run-time functions and the start-up code of compiled programs, for
i386 Linux (`w = 4`) and x86-64 Linux (`w = 8`): x86.c:639-669, 686-849, exe.c:2457-2511, 2534-2672.  The macOS variant is not modelled. -/
namespace Verif.Sys
open Verif Verif.Gen Verif.X86 Verif.Cg Verif.Rt

/-- `if (reg >= 0) mov_reg_reg(dst, reg)` (x86.c:699-701, 801-803). -/
def movOpt (dst : Nat) : Option Nat → List Emit
  | some r => [.mov_reg_reg dst r]
  | none => []

/-- `syscall_3` (x86.c:697-705 for i386, 800-806 for x86-64); a parameter `-1` is `none`. -/
def syscall_3 (w : Nat) (nr : Int) (a b c : Option Nat) : List Emit :=
  if w = 4 then [.push_reg 3] ++ movOpt 3 a ++ movOpt 1 b ++ movOpt 2 c ++ [.mov_reg_imm 0 nr, .int_i8 0x80, .pop_reg 3]
  else movOpt 7 a ++ movOpt 6 b ++ movOpt 2 c ++ [.mov_reg_imm 0 nr, .syscall_]

/-- `os_allocate_memory` (x86.c:707-718, 808-817). -/
def os_allocate_memory (w : Nat) (size : Int) : List Emit :=
  if w = 4 then [.push_reg 3, .mov_reg_imm 0 192, .mov_reg_imm 3 0, .mov_reg_imm 1 size, .mov_reg_imm 2 3, .mov_reg_imm 6 0x22, .mov_reg_imm 7 (-1),
    .mov_reg_imm 5 0, .int_i8 0x80, .pop_reg 3]
  else [.mov_reg_imm 7 0, .mov_reg_imm 6 size, .mov_reg_imm 2 3, .mov_reg_imm 10 0x22, .mov_reg_imm 8 (-1), .mov_reg_imm 9 0, .mov_reg_imm 0 9, .syscall_]

/-- `os_exit` (x86.c:720-722, 819-821). -/
def os_exit (w : Nat) : List Emit := syscall_3 w (if w = 4 then 1 else 60) (some 0) none none
/-- `os_read` (x86.c:724-726, 823-825). -/
def os_read (w : Nat) : List Emit := syscall_3 w (if w = 4 then 3 else 0) (some 0) (some 1) (some 2)
/-- `os_write` (x86.c:728-730, 827-829). -/
def os_write (w : Nat) : List Emit := syscall_3 w (if w = 4 then 4 else 1) (some 0) (some 1) (some 2)
/-- `os_open` (x86.c:732-734, 831-835). -/
def os_open (w : Nat) : List Emit := syscall_3 w (if w = 4 then 5 else 2) (some 0) (some 1) (some 2)
/-- `os_close` (x86.c:736-738, 837-839). -/
def os_close (w : Nat) : List Emit := syscall_3 w (if w = 4 then 6 else 3) (some 0) none none
/-- `os_seek` (x86.c:740-742, 841-843). -/
def os_seek (w : Nat) : List Emit := syscall_3 w (if w = 4 then 19 else 8) (some 0) (some 1) (some 2)
/-- `os_unlink` (x86.c:744-746, 845-847). -/
def os_unlink (w : Nat) : List Emit := syscall_3 w (if w = 4 then 10 else 87) (some 0) none none

/-- `rt_putchar` (exe.c:2457-2464). -/
def rt_putchar (w : Nat) : List Emit := [.push_reg 0, .mov_reg_imm 0 1, .mov_reg_reg 1 4, .mov_reg_imm 2 1] ++ os_write w ++ [.pop_reg 0]

/-- `rt_debug` (exe.c:2466-2474); `msg` are the characters of the message. -/
def rt_debug (w : Nat) (msg : List Nat) : List Emit :=
  msg.flatMap (fun c => [.mov_reg_imm 0 c] ++ rt_putchar w) ++ ([.mov_reg_imm 0 10] ++ rt_putchar w)

/-- `rt_crash` (exe.c:2476-2479). -/
def rt_crash (w : Nat) (msg : List Nat) : List Emit := rt_debug w msg ++ os_exit w

/-- `rt_fgetc` (exe.c:2483-2497); `l` is the label `rt_fgetc_success`. -/
def rt_fgetc (w fd_reg l : Nat) : List Asm :=
  I ([.push_reg 0, .mov_reg_reg 0 fd_reg, .mov_reg_reg 1 4, .mov_reg_imm 2 1] ++ os_read w ++ [.pop_reg 2, .mov_reg_imm 1 0]) ++
  jump_cond_reg_reg 0x5 l 0 1 ++ I [.mov_reg_imm 2 (-1)] ++ [.lbl l] ++ I [.mov_reg_reg 0 2]

/-- `rt_fopen` (exe.c:2499-2511); `l` is the label `fopen_success`. -/
def rt_fopen (w l : Nat) : List Asm :=
  I ([mov_reg_mem w 0 4 w, .mov_reg_imm 1 0, .mov_reg_imm 2 0] ++ os_open w ++ [.mov_reg_imm 1 0]) ++
  jump_cond_reg_reg 0xd l 0 1 ++ I [.mov_reg_imm 0 0] ++ [.lbl l]

/-- `setup_proc_args` (x86.c:639-669). -/
def setup_proc_args (w : Nat) (global_vars_size : Int) : List Emit :=
  [.mov_reg_reg 0 4, .add_reg_imm 0 (global_vars_size + w), .push_reg 0, mov_reg_mem w 1 0 (-w), .push_reg 1]

/-- The labels of the run-time system (exe.c:325-350; allocated by `codegen_begin`, exe.c:1667-1732, and by the functions above). -/
structure Labels where
  (setup init_start init_next main exit read write open_ close seek unlink fclose putchar getchar fopen fgetc malloc free printf : Nat)
  (getchar_ok fopen_ok fgetc_ok malloc_ok : Nat)

/-- "Heap overflow" (exe.c:2524). -/
def heapMsg : List Nat := [72, 101, 97, 112, 32, 111, 118, 101, 114, 102, 108, 111, 119]
/-- "printf is not supported yet." (exe.c:2665). -/
def printfMsg : List Nat := [112, 114, 105, 110, 116, 102, 32, 105, 115, 32, 110, 111, 116, 32, 115, 117, 112, 112, 111, 114, 116, 101, 100, 32, 121, 101, 116, 46]

/-- `codegen_end`, the set-up of the memory (exe.c:2535-2556). -/
def setupCode (w : Nat) (L : Labels) (global_alloc : Int) : List Asm :=
  [.lbl L.setup] ++ I (os_allocate_memory w global_alloc) ++ I [.mov_reg_reg 3 0] ++
  I (os_allocate_memory w RT_HEAP_SIZE) ++ I [mov_mem_reg w 3 0 0, mov_mem_reg w 3 w 0] ++ [.jmp L.init_start]
/-- `codegen_end`, the call of `main` and the `exit` function, which follows (exe.c:2558-2568). -/
def mainCode (w : Nat) (L : Labels) (main_returns : Bool) : List Asm :=
  [.lbl L.init_next] ++ I (setup_proc_args w 0) ++ [.call L.main] ++ I (if main_returns then [] else [.mov_reg_imm 0 0]) ++
  I [.push_reg 0, .push_reg 0] ++ [.lbl L.exit] ++ I (mov_reg_mem w 0 4 w :: os_exit w)
/-- Load the first three arguments (exe.c:2572-2574). -/
def args3 (w : Nat) : List Emit := [mov_reg_mem w 0 4 w, mov_reg_mem w 1 4 (2 * w), mov_reg_mem w 2 4 (3 * w)]
/-- `read` (exe.c:2571-2576). -/
def readFn (w : Nat) (L : Labels) : List Asm := [.lbl L.read] ++ I (args3 w ++ os_read w) ++ [.ret]
/-- `write` (exe.c:2579-2584). -/
def writeFn (w : Nat) (L : Labels) : List Asm := [.lbl L.write] ++ I (args3 w ++ os_write w) ++ [.ret]
/-- `open` (exe.c:2596-2601). -/
def openFn (w : Nat) (L : Labels) : List Asm := [.lbl L.open_] ++ I (args3 w ++ os_open w) ++ [.ret]
/-- `close`, `fclose` (exe.c:2604-2611). -/
def closeFn (w : Nat) (L : Labels) : List Asm := [.lbl L.close, .lbl L.fclose] ++ I (mov_reg_mem w 0 4 w :: os_close w) ++ [.ret]
/-- `lseek` (exe.c:2614-2619). -/
def seekFn (w : Nat) (L : Labels) : List Asm := [.lbl L.seek] ++ I (args3 w ++ os_seek w) ++ [.ret]
/-- `unlink` (exe.c:2622-2625). -/
def unlinkFn (w : Nat) (L : Labels) : List Asm := [.lbl L.unlink] ++ I (mov_reg_mem w 0 4 w :: os_unlink w) ++ [.ret]
/-- `putchar` (exe.c:2629-2632). -/
def putcharFn (w : Nat) (L : Labels) : List Asm := [.lbl L.putchar] ++ I (mov_reg_mem w 0 4 w :: rt_putchar w) ++ [.ret]
/-- `getchar` (exe.c:2635-2638). -/
def getcharFn (w : Nat) (L : Labels) : List Asm := [.lbl L.getchar] ++ I [.mov_reg_imm 0 0] ++ rt_fgetc w 0 L.getchar_ok ++ [.ret]
/-- `fopen` (exe.c:2641-2643). -/
def fopenFn (w : Nat) (L : Labels) : List Asm := [.lbl L.fopen] ++ rt_fopen w L.fopen_ok ++ [.ret]
/-- `fgetc` (exe.c:2646-2649). -/
def fgetcFn (w : Nat) (L : Labels) : List Asm := [.lbl L.fgetc] ++ I [mov_reg_mem w 0 4 w] ++ rt_fgetc w 0 L.fgetc_ok ++ [.ret]
/-- `printf` (exe.c:2664-2666). -/
def printfFn (w : Nat) (L : Labels) : List Asm := [.lbl L.printf] ++ I (rt_crash w printfMsg) ++ [.ret]

/-- `codegen_end` (exe.c:2534-2667), the code. -/
def codegen_end (w : Nat) (L : Labels) (global_alloc : Int) (main_returns : Bool) : List Asm :=
  setupCode w L global_alloc ++ (mainCode w L main_returns ++ (readFn w L ++ (writeFn w L ++ (openFn w L ++ (closeFn w L ++ (seekFn w L ++
  (unlinkFn w L ++ (putcharFn w L ++ (getcharFn w L ++ (fopenFn w L ++ (fgetcFn w L ++ (malloc w L.malloc (I (rt_crash w heapMsg)) L.malloc_ok ++
  (free w L.free ++ printfFn w L)))))))))))))

/-- A top-level declaration, as far as the layout of the code is concerned: code that is reached only by calls (functions, exe.c:2367-2427; nothing for
types and for variables without initial value), or the code `c` that stores the initial value of a variable (exe.c:1985-1990, 2034-2037),
where `l` is the label allocated at exe.c:1987. -/
inductive Decl where
  | code (c : List Asm)
  | init (l : Nat) (c : List Asm)

/-- `codegen_glo_decl` for every declaration (exe.c:2429-2455), with the chain of the initialisations (exe.c:1985-1990: `def_label(init_next_lbl)`, a new `init_next_lbl`,
the code, a jump to the new label).  The result is the code and the last `init_next_lbl`. -/
def genDecls (init_next : Nat) : List Decl → List Asm × Nat
  | [] => ([], init_next)
  | .code c :: ds => let r := genDecls init_next ds; (c ++ r.1, r.2)
  | .init l c :: ds => let r := genDecls l ds; ([.lbl init_next] ++ (c ++ ([.jmp l] ++ r.1)), r.2)

/-- The code of a whole program: `codegen_begin` (exe.c:1735), the code of its declarations, `codegen_end`. -/
def program (w : Nat) (L : Labels) (global_alloc : Int) (main_returns : Bool) (ds : List Decl) : List Asm :=
  [.jmp L.setup] ++ ((genDecls L.init_start ds).1 ++ codegen_end w L global_alloc main_returns)

end Verif.Sys
