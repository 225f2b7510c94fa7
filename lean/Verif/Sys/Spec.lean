import Verif.Cg.Asm
/-! Specification: a compiled program running on Linux.

The processor executes the machine code (`Cg.Step`); at a system call instruction (`int 0x80` on i386,
`syscall` on x86-64) the kernel reads the number of the call and its arguments from the registers
(linux/arch/x86/entry/syscalls/syscall_32.tbl and syscall_64.tbl; syscall(2)), does what is asked and puts the result in AX.
The operating system itself is arbitrary: any state `W` of the world, any answers. -/
namespace Verif.Sys.Spec
open Verif Verif.X86 Verif.X86.Spec Verif.Cg

/-- What a program can ask the operating system to do, besides reading and exiting (`path` and `data` are bytes). -/
inductive Req where
  | write (fd : Int) (data : List Nat)
  | open_ (path : List Nat) (flags mode : Int)
  | close (fd : Int)
  | lseek (fd offset whence : Int)
  | unlink (path : List Nat)
  /-- A new block of zeroed memory, private to the program, readable and writable. -/
  | alloc (size : Int)

/-- An operating system: what the world is after a request, and the result (an error is a negative number). -/
structure OS (W : Type) where
  serve : W → Req → W × Int
  /-- Reading at most `n` bytes: an error number, or the bytes (none at the end of the file). -/
  read : W → (fd n : Int) → W × Except Nat (List Nat)
  read_len : ∀ σ fd n l, (read σ fd n).2 = .ok l → (l.length : Int) ≤ n
  read_byte : ∀ σ fd n l, (read σ fd n).2 = .ok l → ∀ b ∈ l, b < 256
  read_err : ∀ σ fd n e, (read σ fd n).2 = .error e → 0 < e ∧ e < 4096
  /-- The flags register, which `syscall` saves in R11. -/
  flags : W → Int

/-- The result of `read` in AX: the number of bytes or the negated error number. -/
def readResult : Except Nat (List Nat) → Int
  | .ok l => l.length
  | .error e => -e
/-- The bytes that `read` stores. -/
def readBytes : Except Nat (List Nat) → List Nat
  | .ok l => l
  | .error _ => []

/-- Register of argument number `i`. i386: EBX, ECX, EDX, ESI, EDI, EBP; x86-64: RDI, RSI, RDX, R10, R8, R9. -/
def argReg (w i : Nat) : Nat := ((if w = 4 then [3, 1, 2, 6, 7, 5] else [7, 6, 2, 10, 8, 9])[i]?).getD 0
def arg (w : Nat) (s : MS) (i : Nat) : Int := s.reg (argReg w i)

/-- Numbers of the system calls. -/
def nrExit (w : Nat) : Int := if w = 4 then 1 else 60
def nrRead (w : Nat) : Int := if w = 4 then 3 else 0
def nrWrite (w : Nat) : Int := if w = 4 then 4 else 1
def nrOpen (w : Nat) : Int := if w = 4 then 5 else 2
def nrClose (w : Nat) : Int := if w = 4 then 6 else 3
def nrLseek (w : Nat) : Int := if w = 4 then 19 else 8
def nrUnlink (w : Nat) : Int := if w = 4 then 10 else 87
/-- `mmap2` on i386, `mmap` on x86-64. -/
def nrMmap (w : Nat) : Int := if w = 4 then 192 else 9

/-- The `n` bytes of memory at `a`. -/
def bytes (w : Nat) (m : Int → Nat) (a : Int) (n : Nat) : List Nat := (List.range n).map fun (i : Nat) => m (uns w (a + i)) % 256

/-- The NUL-terminated string at `a` is `p`. -/
def CStr (w : Nat) (m : Int → Nat) (a : Int) (p : List Nat) : Prop :=
  bytes w m a p.length = p ∧ 0 ∉ p ∧ m (uns w (a + p.length)) % 256 = 0

/-- Bytes `l` stored from address `a` on: what is stored at address `x`, if anything. -/
def stored (w : Nat) (a : Int) (l : List Nat) (x : Int) : Option Nat := if uns w x = x then l[(uns w (x - a)).toNat]? else none
/-- A zeroed block. -/
def zeroed (w : Nat) (a : Int) (size : Int) (x : Int) : Option Nat := if uns w x = x ∧ uns w (x - a) < size then some 0 else none

/-- What the kernel does with a system call. -/
structure Answer (W : Type) where
  world : W
  result : Int
  stores : Int → Option Nat

/-- The kernel's answer to the system call asked for by the registers (file descriptors, flags and modes are 32-bit numbers).
For `mmap` only the one kind of request that the compiled programs make is described: a new private anonymous
block, readable and writable, at an address chosen by the kernel. -/
inductive Serves {W : Type} (os : OS W) (w : Nat) (s : MS) (σ : W) : Answer W → Prop
  | read : s.reg 0 = nrRead w →
      Serves os w s σ (let r := os.read σ (sgn 4 (arg w s 0)) (uns w (arg w s 2)); ⟨r.1, readResult r.2, stored w (arg w s 1) (readBytes r.2)⟩)
  | write : s.reg 0 = nrWrite w →
      Serves os w s σ (let r := os.serve σ (.write (sgn 4 (arg w s 0)) (bytes w s.mem (arg w s 1) (uns w (arg w s 2)).toNat)); ⟨r.1, r.2, fun _ => none⟩)
  | open_ {p} : s.reg 0 = nrOpen w → CStr w s.mem (arg w s 0) p →
      Serves os w s σ (let r := os.serve σ (.open_ p (sgn 4 (arg w s 1)) (sgn 4 (arg w s 2))); ⟨r.1, r.2, fun _ => none⟩)
  | close : s.reg 0 = nrClose w →
      Serves os w s σ (let r := os.serve σ (.close (sgn 4 (arg w s 0))); ⟨r.1, r.2, fun _ => none⟩)
  | lseek : s.reg 0 = nrLseek w →
      Serves os w s σ (let r := os.serve σ (.lseek (sgn 4 (arg w s 0)) (arg w s 1) (sgn 4 (arg w s 2))); ⟨r.1, r.2, fun _ => none⟩)
  | unlink {p} : s.reg 0 = nrUnlink w → CStr w s.mem (arg w s 0) p →
      Serves os w s σ (let r := os.serve σ (.unlink p); ⟨r.1, r.2, fun _ => none⟩)
  | mmap : s.reg 0 = nrMmap w → arg w s 0 = 0 → sgn 4 (arg w s 2) = 3 → sgn 4 (arg w s 3) = 0x22 → sgn 4 (arg w s 4) = -1 → arg w s 5 = 0 →
      Serves os w s σ (let r := os.serve σ (.alloc (uns w (arg w s 1)))
        ⟨r.1, r.2, if -4096 < r.2 ∧ r.2 < 0 then fun _ => none else zeroed w r.2 (uns w (arg w s 1))⟩)

/-- The system call instruction. -/
def isSys (w : Nat) (i : Insn) : Prop := (w = 4 ∧ i = .int 0x80) ∨ (w = 8 ∧ i = .syscall)

/-- The registers after a system call: the result is in AX; `syscall` overwrites RCX with the address of the next instruction
and R11 with the flags. -/
def sysReg (w : Nat) (next flags : Int) (s : MS) (res : Int) (r : Nat) : Int :=
  if r = 0 then sgn w res else if w = 8 ∧ r = 1 then sgn w next else if w = 8 ∧ r = 11 then sgn w flags else s.reg r

/-- A process: running at an item of code, or ended with an exit status. -/
inductive Cfg (W : Type) where
  | run (pc : Nat) (s : MS) (σ : W)
  | done (status : Nat) (σ : W)

/-- One step of a process. -/
inductive PStep {W : Type} (os : OS W) (w : Nat) (base : Int) (P : List Asm) : Cfg W → Cfg W → Prop
  | cpu {pc s pc' s' σ} : Step w base P (pc, s) (pc', s') → PStep os w base P (.run pc s σ) (.run pc' s' σ)
  | sys {pc s σ e A} : P[pc]? = some (.ins e) → isSys w (e.intended w) → Serves os w s σ A →
      PStep os w base P (.run pc s σ) (.run (pc + 1)
        { s with reg := sysReg w (adr w base P (pc + 1)) (os.flags A.world) s A.result, mem := fun x => (A.stores x).getD (s.mem x) } A.world)
  | exit {pc s σ e} : P[pc]? = some (.ins e) → isSys w (e.intended w) → s.reg 0 = nrExit w →
      PStep os w base P (.run pc s σ) (.done (arg w s 0 % 256).toNat σ)

inductive PSteps {W : Type} (os : OS W) (w : Nat) (base : Int) (P : List Asm) : Cfg W → Cfg W → Prop
  | refl {c} : PSteps os w base P c c
  | head {a b c} : PStep os w base P a b → PSteps os w base P b c → PSteps os w base P a c

/-- Printing bytes on standard output, one at a time. -/
def prints {W : Type} (os : OS W) (σ : W) (l : List Nat) : W := l.foldl (fun σ b => (os.serve σ (.write 1 [b])).1) σ

end Verif.Sys.Spec

namespace Verif.Sys.Spec
open Verif Verif.X86 Verif.X86.Spec Verif.Cg

/-- A word of memory, signed. -/
def word (w : Nat) (m : Int → Nat) (a : Int) : Int := sgn w (rd w m a w)

/-- The machine is about to execute a call of the function with label `n`, at item `k`; the arguments are the words from the stack
pointer `sp` on, and three more words fit below. -/
structure Calls (w : Nat) (P : List Asm) (n k : Nat) (sp : Int) (s : MS) : Prop where
  call : P[k]? = some (.call n)
  stack : s.reg 4 = sgn w sp
  glo : sgn w (s.reg 3) = s.reg 3
  low : 3 * w ≤ sp
  high : sp + 3 * w ≤ (2 ^ (8 * w) : Nat)

/-- Argument number `i` (from 0) of the call. -/
def argument (w : Nat) (sp : Int) (s : MS) (i : Nat) : Int := word w s.mem (sp + i * w)

/-- The state after the call: the stack pointer and the register of the global variables are as before,
the memory is changed only as given by `stores` (and in the free part of the stack). -/
structure Back (w : Nat) (sp : Int) (s s' : MS) (stores : Int → Option Nat) : Prop where
  stack : s'.reg 4 = s.reg 4
  glo : s'.reg 3 = s.reg 3
  mem : ∀ x, ¬ (sp - 3 * w ≤ x ∧ x < sp) → s'.mem x = (stores x).getD (s.mem x)

/-- The `n` bytes at `a` are not in the free part of the stack, which the call may overwrite. -/
def Clear (w : Nat) (sp a : Int) (n : Int) : Prop := ∀ i, 0 ≤ i → i < n → ¬ (sp - 3 * w ≤ uns w (a + i) ∧ uns w (a + i) < sp)

/-- The call at item `k` returns to the next item, with result `v` and world `σ'`. -/
def CallGives {W : Type} (os : OS W) (w : Nat) (base : Int) (P : List Asm) (k : Nat) (sp : Int) (s : MS) (σ : W) (v : Int) (σ' : W) (stores : Int → Option Nat) : Prop :=
  ∃ s', PSteps os w base P (.run k s σ) (.run (k + 1) s' σ') ∧ s'.reg 0 = sgn w v ∧ Back w sp s s' stores

/-- What C's `getchar` and `fgetc` return: the byte read, or EOF (-1) at the end of the file or on an error. -/
def charOrEof : Except Nat (List Nat) → Int
  | .ok (b :: _) => b
  | _ => -1

/-- Nothing is stored. -/
def nothing : Int → Option Nat := fun _ => none

end Verif.Sys.Spec

namespace Verif.Sys.Spec
open Verif Verif.X86 Verif.X86.Spec Verif.Cg

/-- The state in which the kernel starts a process (System V ABI): the word at the stack pointer is `argc`, the
pointers `argv[0]`, `argv[1]`, ... follow. -/
structure Started (w : Nat) (sp : Int) (s : MS) : Prop where
  stack : s.reg 4 = sgn w sp
  words : ∀ r, sgn w (s.reg r) = s.reg r
  low : 5 * w ≤ sp
  high : sp + w ≤ (2 ^ (8 * w) : Nat)

/-- The kernel gives the program the two blocks it asks for (the global variables at `G` and 100 MB of heap at `H`), outside the free part of the stack and
apart from each other. -/
structure Given {W : Type} (os : OS W) (w : Nat) (sp ga : Int) (σ : W) (G H : Int) (σ' : W) : Prop where
  glo : (os.serve σ (.alloc ga)).2 = G
  heap : os.serve (os.serve σ (.alloc ga)).1 (.alloc 104857600) = (σ', H)
  gSpace : 0 ≤ G ∧ G + ga ≤ (2 ^ (8 * w) : Nat)
  hSpace : 0 ≤ H ∧ H + 104857600 ≤ (2 ^ (8 * w) : Nat)
  gStack : G + ga ≤ sp - 5 * w ∨ sp + w ≤ G
  hStack : H + 104857600 ≤ sp - 5 * w ∨ sp + w ≤ H
  apart : G + ga ≤ H ∨ H + 104857600 ≤ G

/-- The memory at the start of the program proper: the first two words of the global variables are the address of the heap, the other global variables
and the heap are zero, everything else (except in the free part of the stack) is as it was. -/
structure Fresh (w : Nat) (sp ga G H : Int) (m m' : Int → Nat) : Prop where
  heapStart : word w m' G = sgn w H
  heapUsed : word w m' (G + w) = sgn w H
  globals : ∀ x, G + 2 * w ≤ x → x < G + ga → m' x = 0
  heap : ∀ x, H ≤ x → x < H + 104857600 → m' x = 0
  others : ∀ x, ¬ (G ≤ x ∧ x < G + ga) → ¬ (H ≤ x ∧ x < H + 104857600) → ¬ (sp - w ≤ x ∧ x < sp) → m' x = m x

/-- The loader has put the bytes of the string literals, each with a zero byte after it, where the code has them. -/
def Image (w : Nat) (base : Int) (P : List Cg.Asm) (m : Int → Nat) : Prop :=
  ∀ pc k bs, P[pc]? = some (.data k bs) → ∀ i : Nat, i ≤ bs.length → m (Cg.adr w base P pc + i) % 256 = (bs ++ [0]).getD i 0

/-- At the start of the program proper the byte at `a`, which is in neither block and not in the free part of the stack, is `b`: this is what the process was started with there (`m`), or
`b` is a byte of a string literal or the zero byte after it. -/
def OtherByte (w : Nat) (sp ga G H base : Int) (P : List Cg.Asm) (m : Int → Nat) (a : Int) (b : Nat) : Prop :=
  (a < sp - 5 * w ∨ sp ≤ a) ∧ ¬ (G ≤ a ∧ a < G + ga) ∧ ¬ (H ≤ a ∧ a < H + 104857600) ∧
  (m a % 256 = b ∨ ∃ (pc k : Nat) (bs : List Nat) (i : Nat), P[pc]? = some (.data k bs) ∧ i ≤ bs.length ∧ a = Cg.adr w base P pc + i ∧ b = (bs ++ [0]).getD i 0)

theorem OtherByte.mem {w : Nat} {sp ga G H base : Int} {P : List Cg.Asm} {m : Int → Nat} {a : Int} {b : Nat} (h : OtherByte w sp ga G H base P m a b)
    (hi : Image w base P m) : m a % 256 = b := by
  obtain ⟨-, -, -, h | ⟨pc, k, bs, i, h1, h2, rfl, rfl⟩⟩ := h
  · exact h
  · exact hi pc k bs h1 i h2

end Verif.Sys.Spec
