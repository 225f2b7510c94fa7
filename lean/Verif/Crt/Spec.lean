import Verif.Crt.Model
/-! Specification: the operations of a Unix system, the numbers under which Linux has them on i386 (asm/unistd_32.h), and a table of descriptors. -/
namespace Verif.Crt.Spec
open Verif

/-- The operations of the system; each gives the value returned and the new world. -/
structure Os (W : Type) where
  read : (fd buf count : Int) → W → Int × W
  write : (fd buf count : Int) → W → Int × W
  open_ : (path flags mode : Int) → W → Int × W
  close : (fd : Int) → W → Int × W

def ret {W : Type} (x : Int × W) : Out W := .ret x.1 x.2

/-- Linux on i386; -38 is ENOSYS. -/
def linux {W : Type} (os : Os W) : Kernel W := fun r w =>
  if r.eax = 1 then .exited r.ebx w
  else if r.eax = 3 then ret (os.read r.ebx r.ecx r.edx w)
  else if r.eax = 4 then ret (os.write r.ebx r.ecx r.edx w)
  else if r.eax = 5 then ret (os.open_ r.ebx r.ecx r.edx w)
  else if r.eax = 6 then ret (os.close r.ebx w)
  else .ret (-38) w

/-- The state of a system with files that are only opened and closed: the number of open descriptors is `n`, they are 0, ..., n - 1 (when one is closed, the last one: the case of a program that opens and closes one file at a time). -/
structure Fds where
  n : Nat
  deriving DecidableEq, Repr

/-- At most 1024 descriptors (-24 is EMFILE); the name of a file lies at an address from 65536 on (`mmap_min_addr`; otherwise -14, EFAULT); -9 is EBADF. -/
def files : Os Fds where
  read := fun _ _ _ w => (0, w)
  write := fun _ _ n w => (n, w)
  open_ := fun path _ _ w => if path < 65536 then (-14, w) else if w.n < 1024 then (w.n, ⟨w.n + 1⟩) else (-24, w)
  close := fun fd w => if fd + 1 = w.n then (0, ⟨w.n - 1⟩) else (-9, w)

/-- The world of a file that is written: the byte at the address of the buffer, what was written. -/
structure Disk where
  byte : Int
  written : List Int
  deriving DecidableEq, Repr

/-- Each write of one byte from `out` to `fd` appends the byte. -/
def disk (fd out : Int) : Os Disk where
  read := fun _ _ _ w => (0, w)
  write := fun f b n w => if f = fd ∧ b = out ∧ n = 1 then (1, { w with written := w.written ++ [w.byte] }) else (-9, w)
  open_ := fun _ _ _ w => (-14, w)
  close := fun _ w => (-9, w)

end Verif.Crt.Spec
