import Verif.StInit.Props
import Verif.Sys.Examples
/-! A program with a static variable: the hypotheses of C62 hold. -/
namespace Verif.StInit
open Verif Verif.X86 Verif.X86.Spec Verif.Cg Verif.Rt Verif.Sys Verif.Sys.Spec

/-- `static int n = 7;` at address 16. -/
def seven : List Asm := I [.mov_reg_imm 0 7, mov_mem_reg 8 3 16 0]
/-- The functions of `Sys.ds0`, and a function with the label 90 and the static variable. -/
def items : List Item := [.code fns0, .code calls0, .code [.lbl 90], .static 91 92 seven, .code [.ret]]
def L1 : Labels := { L0 with init_next := (gen L0.init_start items).2 }
def P1 : List Asm := whole 8 L1 24 true items

theorem program1 : Program 8 L1 P1 24 true items := ⟨.inr rfl, rfl, rfl⟩
theorem uniq1 : Uniq P1 := uniqB_ok (by decide +kernel)

/-- Before `main` the variable is 7. -/
theorem runs1 : RunsAll os0 8 4096 P1 (inits items) (AtInit 8 1048576 24 2097152 268435456 s0.mem (2, []))
    (AtMain 8 1048576 2097152 fun s σ => word 8 s.mem 2097168 = 7 ∧ σ = (2, [])) := by
  refine .cons (B := AtMain 8 1048576 2097152 fun s σ => word 8 s.mem 2097168 = 7 ∧ σ = (2, [])) ?_ (.nil fun _ _ h => h)
  intro i s σ hat ha
  have h1 : P1[i]? = some (.ins (.mov_reg_imm 0 7)) := hat.head
  have h2 : P1[i + 1]? = some (.ins (mov_mem_reg 8 3 16 0)) := hat.tail.head
  have e1 : exec1 8 s ((Emit.mov_reg_imm 0 7).intended 8) = some (setReg s 0 7) := by
    rw [show (7 : Int) = sgn 8 7 from by decide +kernel]
    simp [Emit.intended, exec1]
    rw [show sgn 8 (sgn 8 7) = sgn 8 7 from by decide +kernel]
  refine ⟨_, σ, .head (.cpu (.ins h1 e1)) (.head (.cpu (.ins h2 (ex_st (.inr rfl) _ _ _ _))) .refl), ?_, ?_, ?_, ha.world⟩
  · simpa [setReg] using ha.glo
  · simpa [setReg] using ha.stack
  · have hg : (setReg s 0 7).reg 3 + 16 = 2097168 := by
      have := ha.glo
      simp only [setReg]
      simp only [show ((3 : Nat) = 0) = False by simp, if_false, this]
      decide +kernel
    have h0 : (setReg s 0 7).reg 0 = 7 := by simp [setReg]
    simp only [hg, h0, word]
    rw [rd_wr_word (.inr rfl)]
    decide +kernel

example : ∃ j s' σ', At P1 j (mainCode 8 L1 true) ∧ PSteps os0 8 4096 P1 (.run 0 s0 (0, [])) (.run j s' σ') ∧
    AtMain 8 1048576 2097152 (fun s σ => word 8 s.mem 2097168 = 7 ∧ σ = (2, [])) s' σ' :=
  C62_before_main program1 (by decide) started0 given0 runs1
example (s : MS) := C62_declaration_skipped (os := os0) (base := 4096) program1 uniq1
  (a := [.code fns0, .code calls0, .code [.lbl 90]]) (b := [.code [.ret]]) (skip := 91) (l := 92) (c := seven) rfl s (0, [])

end Verif.StInit
