import Verif.Cg.Asm
import Verif.Cg.Val
/-! Specification for `malloc`: histories of requests. -/
namespace Verif.Rt
open Verif Verif.X86 Verif.X86.Spec Verif.Cg

/-- A call returns: the first time that the machine is at item `t` with stack pointer `sp`, its state is `r`. -/
inductive Returns (w : Nat) (base : Int) (P : List Asm) (t : Nat) (sp : Int) : Nat × MS → MS → Prop
  | here {s} : s.reg 4 = sp → Returns w base P t sp (t, s) s
  | step {a b r} : ¬ (a.1 = t ∧ a.2.reg 4 = sp) → Step w base P a b → Returns w base P t sp b r → Returns w base P t sp a r

/-- Size of the heap of a compiled program in bytes: 100 MB. -/
def heapSize : Int := 100 * 1024 * 1024

/-- A word of memory, signed. -/
def cell (w : Nat) (m : Int → Nat) (a : Int) : Int := sgn w (rd w m a w)

/-- The history of a program that starts with an empty heap at `h` and calls `malloc`: the current state and the
blocks (address, size) handed out so far, the last first.  `G` is the address of the two words of the
run-time system at the start of the globals, which hold the start of the heap and the end of its used part.

Between calls the program does what it wants, but does not write these two words or the register that holds `G`.  A call is a `call` of label
`mlbl` with the size in the word at the stack pointer; it returns to the next item with the stack pointer it had. -/
inductive Hist (w : Nat) (base : Int) (P : List Asm) (mlbl : Nat) (G h : Int) : MS → List (Int × Int) → Prop
  | start {s} : s.reg 3 = sgn w G → cell w s.mem G = h → cell w s.mem (G + w) = h →
      Hist w base P mlbl G h s []
  | other {s s' bs} : Hist w base P mlbl G h s bs → s'.reg 3 = s.reg 3 →
      cell w s'.mem G = cell w s.mem G → cell w s'.mem (G + w) = cell w s.mem (G + w) → Hist w base P mlbl G h s' bs
  | malloc {s s' bs k sp} : Hist w base P mlbl G h s bs → P[k]? = some (.call mlbl) → s.reg 4 = sgn w sp →
      -- the stack does not overlap the two words
      w ≤ sp → sp + w ≤ (2 ^ (8 * w) : Nat) → (G + 2 * w ≤ sp - w ∨ sp ≤ G) →
      -- the size is not negative and not absurdly large
      0 ≤ cell w s.mem sp → h + heapSize + cell w s.mem sp < (2 ^ (8 * w - 1) : Nat) →
      Returns w base P (k + 1) (s.reg 4) (k, s) s' →
      Hist w base P mlbl G h s' ((s'.reg 0, cell w s.mem sp) :: bs)

/-- The blocks lie in the heap and do not overlap. -/
structure Sound (h : Int) (bs : List (Int × Int)) : Prop where
  inside : ∀ b ∈ bs, h ≤ b.1 ∧ 0 ≤ b.2 ∧ b.1 + b.2 ≤ h + heapSize
  disjoint : bs.Pairwise fun a b => a.1 + a.2 ≤ b.1 ∨ b.1 + b.2 ≤ a.1

end Verif.Rt
