import Verif.Sys.Spec
import Verif.Elf.Spec
import Verif.X86.Props
/-! Specification: a processor that executes bytes.

The instruction pointer is an address; the instruction there is what `X86.Spec.decode` makes of the bytes in memory (an instruction is at most 15 bytes long).
Instructions that do not transfer control have the effect `X86.Spec.exec1`; jumps, calls, returns and system calls are described here.

The bytes of code are those that are in memory when the process is started (`img`): the segment that holds them is not writable (C35), so that no store changes them.  The fault that an attempt
to store there causes is not described. -/
namespace Verif.Img.Spec
open Verif Verif.X86 Verif.X86.Spec Verif.Sys.Spec

/-- The 15 bytes at address `ip`. -/
def window (w : Nat) (img : Int → Nat) (ip : Int) : List Nat := (List.range 15).map fun (j : Nat) => img (uns w (ip + j)) % 256

/-- The instruction at `ip` is `i`, and `next` is the address after it. -/
def Fetch (w : Nat) (img : Int → Nat) (ip : Int) (i : Insn) (next : Int) : Prop :=
  ∃ rest, decode w (window w img ip) = some (i, rest) ∧ next = uns w (ip + (15 - rest.length : Nat))

/-- A process: running with the instruction pointer `ip`, or ended with an exit status. -/
inductive Cfg (W : Type) where
  | run (ip : Int) (s : MS) (σ : W)
  | done (status : Nat) (σ : W)

/-- One step of a process. -/
inductive BStep {W : Type} (os : OS W) (w : Nat) (img : Int → Nat) : Cfg W → Cfg W → Prop
  | ins {ip s σ i next s'} : Fetch w img ip i next → exec1 w s i = some s' → BStep os w img (.run ip s σ) (.run next s' σ)
  | jmp {ip s σ rel next} : Fetch w img ip (.jmp rel) next → BStep os w img (.run ip s σ) (.run (uns w (next + rel)) s σ)
  | jccT {ip s σ cc rel next} : Fetch w img ip (.jcc cc rel) next → X86.Spec.cond w cc s.cmpA s.cmpB = some true →
      BStep os w img (.run ip s σ) (.run (uns w (next + rel)) s σ)
  | jccF {ip s σ cc rel next} : Fetch w img ip (.jcc cc rel) next → X86.Spec.cond w cc s.cmpA s.cmpB = some false →
      BStep os w img (.run ip s σ) (.run next s σ)
  | call {ip s σ rel next} : Fetch w img ip (.call rel) next →
      BStep os w img (.run ip s σ) (.run (uns w (next + rel)) { setReg s 4 (sgn w (s.reg 4 - w)) with
        mem := wr w s.mem (sgn w (s.reg 4 - w)) (sgn w next) w } σ)
  | ret {ip s σ next} : Fetch w img ip .ret next →
      BStep os w img (.run ip s σ) (.run (uns w (rd w s.mem (s.reg 4) w)) (setReg s 4 (sgn w (s.reg 4 + w))) σ)
  | sys {ip s σ i next A} : Fetch w img ip i next → isSys w i → Serves os w s σ A →
      BStep os w img (.run ip s σ) (.run next
        { s with reg := sysReg w next (os.flags A.world) s A.result, mem := fun x => (A.stores x).getD (s.mem x) } A.world)
  | exit {ip s σ i next} : Fetch w img ip i next → isSys w i → s.reg 0 = nrExit w →
      BStep os w img (.run ip s σ) (.done (arg w s 0 % 256).toNat σ)

inductive BSteps {W : Type} (os : OS W) (w : Nat) (img : Int → Nat) : Cfg W → Cfg W → Prop
  | refl {c} : BSteps os w img c c
  | head {a b c} : BStep os w img a b → BSteps os w img b c → BSteps os w img a c

/-- The loader has read the file: it is an ELF file for this machine with one loadable segment, whose bytes are in the memory `m`, and the process is to be started at `entry`. -/
structure ExecFile (w : Nat) (file : List Int) (m : Int → Nat) (entry : Int) : Prop where
  load : ∃ eh ph, Elf.Spec.ident (w / 4) file ∧ Elf.Spec.ehdr w file = some eh ∧ eh.type = 2 ∧ eh.machine = (if w = 4 then 3 else 62) ∧ eh.phnum = 1 ∧
    Elf.Spec.phdr w file eh.phoff = some ph ∧ ph.type = 1 ∧ (∀ (a : Nat) (b : Int), Elf.Spec.loaded file ph a = some b → ((m a % 256 : Nat) : Int) = b) ∧ entry = eh.entry

/-- The numbers in an item of code fit in their fields: immediates and displacements in 32 bits, characters in a byte (and registers and condition codes are numbers of registers and conditions). -/
def Encodable (w : Nat) : Cg.Asm → Prop
  | .ins e => e.ok w
  | .jcc c _ => c < 16
  | .data _ bs => ∀ b ∈ bs, b < 256
  | _ => True

/-- The immediate or displacement of an instruction fits in 32 bits. -/
def SmallE : X86.Emit → Prop
  | .mov_reg_imm _ i | .add_reg_imm _ i => I32 i
  | .mov_mem8_reg _ o _ | .mov_mem16_reg _ o _ | .mov_mem32_reg _ o _ | .mov_mem64_reg _ o _ => I32 o
  | .mov_reg_mem8 _ _ o | .mov_reg_mem16 _ _ o | .mov_reg_mem32 _ _ o | .mov_reg_mem64 _ _ o => I32 o
  | .mov_reg_mem8_sign_ext _ _ o | .mov_reg_mem16_sign_ext _ _ o | .mov_reg_mem32_sign_ext _ _ o => I32 o
  | .jump_rel o | .call_rel o | .jump_cond_rel _ o => I32 o
  | _ => True
/-- The number in an item fits in 32 bits, or the characters in a byte. -/
def Small : Cg.Asm → Prop
  | .ins e => SmallE e
  | .data _ bs => ∀ b ∈ bs, b < 256
  | _ => True

end Verif.Img.Spec
