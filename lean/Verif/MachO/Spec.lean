import Verif.Elf.Spec
/-! Specification: reading a Mach-O file (Apple's mach-o/loader.h: `mach_header_64`, load commands
`LC_SEGMENT_64` and `LC_UNIXTHREAD` with the x86-64 thread state) and what the kernel maps. -/
namespace Verif.MachO.Spec
open Verif.Elf.Spec (field)

structure Hdr where
  magic : Nat
  cputype : Nat
  filetype : Nat
  ncmds : Nat
  sizeofcmds : Nat
  deriving DecidableEq, Repr

structure Seg where
  name : List Int
  vmaddr : Nat
  vmsize : Nat
  fileoff : Nat
  filesize : Nat
  maxprot : Nat
  initprot : Nat
  nsects : Nat
  deriving DecidableEq, Repr

inductive Cmd where
  | seg (s : Seg)
  | thread (flavor count : Nat) (rip : Nat)
  deriving DecidableEq, Repr

def hdr (f : List Int) : Option Hdr := do
  let magic ← field f 0 4
  let cputype ← field f 4 4
  let filetype ← field f 12 4
  let ncmds ← field f 16 4
  let sizeofcmds ← field f 20 4
  return ⟨magic, cputype, filetype, ncmds, sizeofcmds⟩

/-- The load command at an offset and its size. The fields of a segment command are 72 bytes; a thread
command is 16 bytes and `count` words of 4 bytes, `rip` being the 17th register. -/
def cmd (f : List Int) (p : Nat) : Option (Cmd × Nat) := do
  let c ← field f p 4
  let size ← field f (p + 4) 4
  if c = 0x19 then
    let vmaddr ← field f (p + 24) 8
    let vmsize ← field f (p + 32) 8
    let fileoff ← field f (p + 40) 8
    let filesize ← field f (p + 48) 8
    let maxprot ← field f (p + 56) 4
    let initprot ← field f (p + 60) 4
    let nsects ← field f (p + 64) 4
    if size = 72 + 80 * nsects then
      return (.seg ⟨(f.drop (p + 8)).take 16, vmaddr, vmsize, fileoff, filesize, maxprot, initprot, nsects⟩, size)
    else none
  else if c = 5 then
    let flavor ← field f (p + 8) 4
    let count ← field f (p + 12) 4
    let rip ← field f (p + 16 + 8 * 16) 8
    if size = 16 + 4 * count then return (.thread flavor count rip, size) else none
  else none

/-- `k` load commands from an offset on, and the offset behind them. -/
def cmds (f : List Int) : Nat → Nat → Option (List Cmd × Nat)
  | 0, p => some ([], p)
  | k + 1, p => do
    let c ← cmd f p
    let r ← cmds f k (p + c.2)
    return (c.1 :: r.1, r.2)

/-- Sizes in memory are whole pages. -/
def pageUp (n : Nat) : Nat := (n + 4095) / 4096 * 4096

/-- The byte at an address of a segment mapped exactly. -/
def exact (f : List Int) (s : Seg) (a : Nat) : Option Int :=
  if s.vmaddr ≤ a ∧ a < s.vmaddr + s.filesize then f[s.fileoff + (a - s.vmaddr)]? else none

/-- The byte at an address of a segment mapped by whole pages (0 behind the end of the file). -/
def mapped (f : List Int) (s : Seg) (a : Nat) : Option Int :=
  if s.vmaddr ≤ a ∧ a < s.vmaddr + pageUp s.filesize then some (f[s.fileoff + (a - s.vmaddr)]?.getD 0) else none

end Verif.MachO.Spec
