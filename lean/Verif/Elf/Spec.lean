/-! Specification: reading an ELF file (System V ABI, "Object files": ELF header and program header;
field offsets from elf.h) and what the loader maps. -/
namespace Verif.Elf.Spec

/-- Little-endian number in the `k` bytes at offset `off`. -/
def field (file : List Int) (off : Nat) : Nat → Option Nat
  | 0 => some 0
  | k + 1 =>
    match file[off]?, field file (off + 1) k with
    | some b, some r => if 0 ≤ b ∧ b < 256 then some (b.toNat + 256 * r) else none
    | _, _ => none

structure Ehdr where
  type : Nat
  machine : Nat
  version : Nat
  entry : Nat
  phoff : Nat
  ehsize : Nat
  phentsize : Nat
  phnum : Nat
deriving DecidableEq, Repr

structure Phdr where
  type : Nat
  flags : Nat
  offset : Nat
  vaddr : Nat
  filesz : Nat
  memsz : Nat
  align : Nat
deriving DecidableEq, Repr

/-- e_ident: magic number, class (1: 32-bit, 2: 64-bit), data encoding 1 (little-endian), version 1. -/
def ident (cls : Nat) (file : List Int) : Prop :=
  file.take 7 = [0x7f, 0x45, 0x4c, 0x46, (cls : Int), 1, 1]

/-- Elf32_Ehdr / Elf64_Ehdr. -/
def ehdr (w : Nat) (f : List Int) : Option Ehdr := do
  let type ← field f 16 2
  let machine ← field f 18 2
  let version ← field f 20 4
  if w = 4 then
    let entry ← field f 24 4
    let phoff ← field f 28 4
    let ehsize ← field f 40 2
    let phentsize ← field f 42 2
    let phnum ← field f 44 2
    return ⟨type, machine, version, entry, phoff, ehsize, phentsize, phnum⟩
  else
    let entry ← field f 24 8
    let phoff ← field f 32 8
    let ehsize ← field f 52 2
    let phentsize ← field f 54 2
    let phnum ← field f 56 2
    return ⟨type, machine, version, entry, phoff, ehsize, phentsize, phnum⟩

/-- Elf32_Phdr / Elf64_Phdr at offset `p`. -/
def phdr (w : Nat) (f : List Int) (p : Nat) : Option Phdr := do
  if w = 4 then
    let type ← field f p 4
    let offset ← field f (p + 4) 4
    let vaddr ← field f (p + 8) 4
    let filesz ← field f (p + 16) 4
    let memsz ← field f (p + 20) 4
    let flags ← field f (p + 24) 4
    let align ← field f (p + 28) 4
    return ⟨type, flags, offset, vaddr, filesz, memsz, align⟩
  else
    let type ← field f p 4
    let flags ← field f (p + 4) 4
    let offset ← field f (p + 8) 8
    let vaddr ← field f (p + 16) 8
    let filesz ← field f (p + 32) 8
    let memsz ← field f (p + 40) 8
    let align ← field f (p + 48) 8
    return ⟨type, flags, offset, vaddr, filesz, memsz, align⟩

/-- The byte the loader puts at virtual address `a` for this segment. -/
def loaded (f : List Int) (p : Phdr) (a : Nat) : Option Int :=
  if p.vaddr ≤ a ∧ a < p.vaddr + p.filesz then f[p.offset + (a - p.vaddr)]?
  else if p.vaddr + p.filesz ≤ a ∧ a < p.vaddr + p.memsz then some 0
  else none

end Verif.Elf.Spec
