import Verif.Base
/-! Model of the system calls and of the unbuffered file functions of the portable C library on Linux, i386 (portable_libc/src/crt1.c, compiled by another C compiler; portable_libc/src/stdio.c).

Simplifications (all of this file): registers hold integers; the memory is known to the kernel only, except the bytes of the object that `fwrite` writes; registers that an `asm` statement does not name hold anything (`g`). -/
namespace Verif.Crt
open Verif

/-- The registers in which the kernel takes its arguments. -/
structure Regs where
  eax : Int
  ebx : Int
  ecx : Int
  edx : Int
  deriving DecidableEq, Repr

/-- What a system call does: it returns a value in `eax`, or ends the process. -/
inductive Out (W : Type) where
  | ret (a : Int) (w : W)
  | exited (status : Int) (w : W)
  deriving DecidableEq, Repr

/-- The kernel. -/
abbrev Kernel (W : Type) := Regs → W → Out W

/-- `exit` (crt1.c:11-18). -/
def exit_ {W : Type} (K : Kernel W) (g : Regs) (status : Int) (w : W) : Out W := K { g with eax := 1, ebx := status } w

/-- `read` (crt1.c:31-39). -/
def read {W : Type} (K : Kernel W) (g : Regs) (fd buf count : Int) (w : W) : Out W := K { g with eax := 3, ebx := fd, ecx := buf, edx := count } w

/-- `write` (crt1.c:41-49). -/
def write {W : Type} (K : Kernel W) (g : Regs) (fd buf count : Int) (w : W) : Out W := K { g with eax := 4, ebx := fd, ecx := buf, edx := count } w

/-- `open` (crt1.c:51-59). -/
def open_ {W : Type} (K : Kernel W) (g : Regs) (path flags mode : Int) (w : W) : Out W := K { g with eax := 5, ebx := path, ecx := flags, edx := mode } w

/-- `close` (crt1.c:61-69). -/
def close {W : Type} (K : Kernel W) (g : Regs) (fd : Int) (w : W) : Out W := K { g with eax := 5, ebx := fd } w

/-- `_start` (crt1.c:20-29): what a C compiler puts before it (`push %ebp; mov %esp, %ebp`), then the `asm` statement; `main` takes `argc` and `argv` and gives its result and the world. -/
def start {W : Type} (K : Kernel W) (g : Regs) (mem : Int → Int) (esp ebp : Int) (main : Int → Int → W → Int × W) (w : W) : Out W :=
  let esp' := esp - 4
  let mem' := fun a => if a = esp' then ebp else mem a
  let ebp' := esp'
  let argc := mem' (ebp' + 4)
  let argv := ebp' + 8
  let (r, w) := main argc argv w
  exit_ K g r w

/-- `fputc` (stdio.c:69-82) on a file whose descriptor is not -1; `out` is the address of `_output_buf`; `store` puts the byte there. -/
def fputc {W : Type} (K : Kernel W) (g : Regs) (store : Int → W → W) (out fd c : Int) (w : W) : Out W :=
  match write K g fd out 1 (store c w) with
  | .ret _ w => .ret c w
  | .exited s w => .exited s w

/-- The loop of `fwrite` (stdio.c:84-93). -/
def fwriteLoop {W : Type} (K : Kernel W) (g : Regs) (store : Int → W → W) (out fd : Int) : List Int → W → Out W
  | [], w => .ret 0 w
  | c :: r, w =>
    match fputc K g store out fd c w with
    | .ret _ w => fwriteLoop K g store out fd r w
    | .exited s w => .exited s w

/-- `fwrite` (stdio.c:84-93): `ptr` are the bytes of memory from the pointer on. -/
def fwrite {W : Type} (K : Kernel W) (g : Regs) (store : Int → W → W) (out fd : Int) (ptr : List Int) (size nmemb : Nat) (w : W) : Out W :=
  match fwriteLoop K g store out fd (ptr.take (size * nmemb % 4294967296)) w with
  | .ret _ w => .ret nmemb w
  | .exited s w => .exited s w

/-- `fread` (stdio.c:59-61): the division is that of `size_t` (32 bits). -/
def fread {W : Type} (K : Kernel W) (g : Regs) (fd buf : Int) (size count : Nat) (w : W) : Res (Out W) :=
  match read K g fd buf (size * count % 4294967296 : Nat) w with
  | .ret a w => if size = 0 then .ub else .ok (.ret (a % 4294967296 / size) w)
  | .exited s w => .ok (.exited s w)

end Verif.Crt
