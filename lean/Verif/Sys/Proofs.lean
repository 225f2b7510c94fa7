import Verif.Sys.Model
import Verif.Sys.Spec
import Verif.Rt.Props
/-! Proofs for the system calls: symbolic execution of the code of the run-time functions. -/
namespace Verif.Sys
open Verif Verif.X86 Verif.X86.Spec Verif.Cg Verif.Rt Spec

theorem Spec.PSteps.trans {W} {os : OS W} {w base P a b c} (h1 : PSteps os w base P a b) (h2 : PSteps os w base P b c) : PSteps os w base P a c := by
  induction h1 with
  | refl => exact h2
  | head h _ ih => exact .head h (ih h2)

theorem Spec.PSteps.one {W} {os : OS W} {w base P a b} (h : PStep os w base P a b) : PSteps os w base P a b := .head h .refl

theorem Spec.PSteps.cpus {W} {os : OS W} {w base P} {a b : Nat × MS} {σ : W} (h : Steps w base P a b) :
    PSteps os w base P (.run a.1 a.2 σ) (.run b.1 b.2 σ) := by
  induction h with
  | refl => exact .refl
  | head h _ ih => exact .head (.cpu h) ih

theorem word_bounds {w : Nat} (hw : w = 4 ∨ w = 8) : (w : Int) ≤ (2 ^ (8 * w) : Nat) := by
  rcases hw with rfl | rfl <;> decide

/-- The state `s1` at the system call instruction of `syscall_3`. -/
def Pre3 (w : Nat) (base : Int) (P : List Asm) (pc : Nat) (nr : Int) (b c : Option Nat) (s : MS) (sp : Int) : Prop :=
    ∃ (s1 : MS) (k : Nat) (e : Emit) (es : List Emit), Steps w base P (pc, s) (pc + k, s1) ∧ P[pc + k]? = some (.ins e) ∧ isSys w (e.intended w) ∧
      At P (pc + k + 1) (I es) ∧ (syscall_3 w nr (some 0) b c).length = k + 1 + es.length ∧
      s1.reg 0 = nr ∧ arg w s1 0 = s.reg 0 ∧ (b = some 1 → arg w s1 1 = s.reg 1) ∧ arg w s1 2 = s.reg 2 ∧
      (∀ x, ¬ (sp - w ≤ x ∧ x < sp) → s1.mem x = s.mem x) ∧
      ((w = 4 ∧ es = [.pop_reg 3] ∧ s1.reg 4 = sgn w (sp - w) ∧ cell w s1.mem (sp - w) = sgn w (s.reg 3)) ∨
       (w = 8 ∧ es = [] ∧ s1.reg 4 = s.reg 4 ∧ s1.reg 3 = s.reg 3 ∧ s1.mem = s.mem))

/-- The state at the system call instruction of `syscall_3`. -/
theorem sys3_pre {w : Nat} {base : Int} {P : List Asm} {pc : Nat} {nr : Int} {b c : Option Nat} {s : MS} {sp : Int} (hw : w = 4 ∨ w = 8)
    (hnr : 0 ≤ nr ∧ nr < 256) (hb : b = none ∨ b = some 1) (hc : c = none ∨ c = some 2)
    (hat : At P pc (I (syscall_3 w nr (some 0) b c))) (h4 : s.reg 4 = sgn w sp) (hsp : w ≤ sp ∧ sp ≤ (2 ^ (8 * w) : Nat)) :
    Pre3 w base P pc nr b c s sp := by
  have hn : sgn w nr = nr := by
    rcases hw with rfl | rfl <;> exact sgn_id (by omega) (by omega) (by omega)
  rcases hw with rfl | rfl
  · -- i386
    have hm : ∀ x, ¬ (sp - (4 : Nat) ≤ x ∧ x < sp) → wr 4 s.mem (sgn 4 (s.reg 4 - (4 : Nat))) (s.reg 3) 4 x = s.mem x := by
      intro x hx
      rw [h4, sgn_sub_l, ← wr_addr 4 4 s.mem (sp - (4 : Nat)) (sgn 4 (sp - (4 : Nat))) _ (uns_sgn ..).symm]
      exact wr_out 4 4 _ _ _ _ (by rw [inR_iff (by omega) (by omega)]; omega)
    have hcell : cell 4 (wr 4 s.mem (sgn 4 (s.reg 4 - (4 : Nat))) (s.reg 3) 4) (sp - (4 : Nat)) = sgn 4 (s.reg 3) := by
      rw [h4, sgn_sub_l, ← wr_addr 4 4 s.mem (sp - (4 : Nat)) (sgn 4 (sp - (4 : Nat))) _ (uns_sgn ..).symm]
      unfold cell
      rw [rd_wr_word (.inl rfl)]
    have h4' : sgn 4 (s.reg 4 - (4 : Nat)) = sgn 4 (sp - (4 : Nat)) := by rw [h4, sgn_sub_l]
    have main : ∀ (es : List Emit) (s1 : MS), syscall_3 4 nr (some 0) b c = es ++ [.int_i8 0x80, .pop_reg 3] → Gen.run 4 s es = some s1 →
        s1.mem = wr 4 s.mem (sgn 4 (s.reg 4 - (4 : Nat))) (s.reg 3) 4 → s1.reg 0 = sgn 4 nr → s1.reg 3 = s.reg 0 → s1.reg 1 = s.reg 1 → s1.reg 2 = s.reg 2 →
        s1.reg 4 = sgn 4 (s.reg 4 - (4 : Nat)) → Pre3 4 base P pc nr b c s sp := by
      intro es s1 he hr e1 e2 e3 e4 e5 e6
      rw [he, I_append] at hat
      have hr2 : At P (pc + es.length) [.ins (.int_i8 0x80), .ins (.pop_reg 3)] := by
        have := hat.right; rwa [I_length] at this
      refine ⟨s1, es.length, .int_i8 0x80, [.pop_reg 3], steps_run hat.left hr, hr2.head, .inl ⟨rfl, rfl⟩, hr2.tail, ?_, by rw [e2, hn], e3, fun _ => e4, e5, ?_, ?_⟩
      · rw [he]; simp
      · intro x hx; rw [e1]; exact hm x hx
      · left; exact ⟨rfl, rfl, by rw [e6, h4'], by rw [e1]; exact hcell⟩
    obtain ⟨s1, h⟩ : ∃ s1, Gen.run 4 s ([.push_reg 3] ++ movOpt 3 (some 0) ++ movOpt 1 b ++ movOpt 2 c ++ [.mov_reg_imm 0 nr]) = some s1 ∧
        s1.mem = wr 4 s.mem (sgn 4 (s.reg 4 - (4 : Nat))) (s.reg 3) 4 ∧ s1.reg 0 = sgn 4 nr ∧ s1.reg 3 = s.reg 0 ∧ s1.reg 1 = s.reg 1 ∧ s1.reg 2 = s.reg 2 ∧
        s1.reg 4 = sgn 4 (s.reg 4 - (4 : Nat)) := by
      rcases hb with rfl | rfl <;> rcases hc with rfl | rfl <;> exact ⟨_, rfl, rfl, rfl, rfl, rfl, rfl, rfl⟩
    obtain ⟨f1, f2, f3, f4, f5, f6, f7⟩ := h
    exact main _ s1 (by simp [syscall_3]) f1 f2 f3 f4 f5 f6 f7
  · have main : ∀ (es : List Emit) (s1 : MS), syscall_3 8 nr (some 0) b c = es ++ [.syscall_] → Gen.run 8 s es = some s1 →
        s1.mem = s.mem → s1.reg 0 = sgn 8 nr → s1.reg 7 = s.reg 0 → (b = some 1 → s1.reg 6 = s.reg 1) → s1.reg 2 = s.reg 2 →
        s1.reg 4 = s.reg 4 → s1.reg 3 = s.reg 3 → Pre3 8 base P pc nr b c s sp := by
      intro es s1 he hr e1 e2 e3 e4 e5 e6 e7
      rw [he, I_append] at hat
      have hr2 : At P (pc + es.length) [.ins .syscall_] := by
        have := hat.right; rwa [I_length] at this
      refine ⟨s1, es.length, .syscall_, [], steps_run hat.left hr, hr2.head, .inr ⟨rfl, rfl⟩, hr2.tail, ?_, by rw [e2, hn], e3, e4, e5, ?_, ?_⟩
      · rw [he]; simp
      · intro x hx; rw [e1]
      · right; exact ⟨rfl, rfl, e6, e7, e1⟩
    obtain ⟨s1, h⟩ : ∃ s1, Gen.run 8 s (movOpt 7 (some 0) ++ movOpt 6 b ++ movOpt 2 c ++ [.mov_reg_imm 0 nr]) = some s1 ∧
        s1.mem = s.mem ∧ s1.reg 0 = sgn 8 nr ∧ s1.reg 7 = s.reg 0 ∧ (b = some 1 → s1.reg 6 = s.reg 1) ∧ s1.reg 2 = s.reg 2 ∧
        s1.reg 4 = s.reg 4 ∧ s1.reg 3 = s.reg 3 := by
      rcases hb with rfl | rfl <;> rcases hc with rfl | rfl <;>
        exact ⟨_, rfl, rfl, rfl, rfl, (by intro h; first | rfl | cases h), rfl, rfl, rfl⟩
    obtain ⟨f1, f2, f3, f4, f5, f6, f7, f8⟩ := h
    exact main _ s1 (by simp [syscall_3]) f1 f2 f3 f4 f5 f6 f7 f8

theorem set43_3 (s : MS) (a b : Int) : (setReg (setReg s 4 a) 3 b).reg 3 = b := rfl
theorem set43_4 (s : MS) (a b : Int) : (setReg (setReg s 4 a) 3 b).reg 4 = a := rfl

/-- A system call by `syscall_3`: the kernel's answer to the request is in AX and in memory; BX and the stack pointer are as before. -/
theorem sys3 {W : Type} {os : OS W} {w : Nat} {base : Int} {P : List Asm} {pc : Nat} {nr : Int} {b c : Option Nat} {s : MS} {σ : W} {sp : Int} {A : Answer W}
    (hw : w = 4 ∨ w = 8) (hnr : 0 ≤ nr ∧ nr < 256) (hb : b = none ∨ b = some 1) (hc : c = none ∨ c = some 2)
    (hat : At P pc (I (syscall_3 w nr (some 0) b c))) (h4 : s.reg 4 = sgn w sp) (h3 : sgn w (s.reg 3) = s.reg 3) (hsp : w ≤ sp ∧ sp ≤ (2 ^ (8 * w) : Nat))
    (hk : ∀ s1 : MS, s1.reg 0 = nr → arg w s1 0 = s.reg 0 → (b = some 1 → arg w s1 1 = s.reg 1) → arg w s1 2 = s.reg 2 →
      (∀ x, ¬ (sp - w ≤ x ∧ x < sp) → s1.mem x = s.mem x) → Serves os w s1 σ A)
    (hst : ∀ x, sp - w ≤ x → x < sp → A.stores x = none) :
    ∃ s', PSteps os w base P (.run pc s σ) (.run (pc + (syscall_3 w nr (some 0) b c).length) s' A.world) ∧ s'.reg 0 = sgn w A.result ∧
      s'.reg 3 = s.reg 3 ∧ s'.reg 4 = s.reg 4 ∧ (∀ x, ¬ (sp - w ≤ x ∧ x < sp) → s'.mem x = (A.stores x).getD (s.mem x)) ∧
      (w = 8 → ∀ x, s'.mem x = (A.stores x).getD (s.mem x)) := by
  obtain ⟨s1, k, e, es, st, hp, hi, hat2, hlen, e0, a0, a1, a2, hm, hcase⟩ := sys3_pre (base := base) hw hnr hb hc hat h4 hsp
  have hS := hk s1 e0 a0 a1 a2 hm
  have p1 : PSteps os w base P (.run pc s σ) (.run (pc + k) s1 σ) := .cpus st
  have p2 := PSteps.one (PStep.sys (os := os) (base := base) hp hi hS)
  rcases hcase with ⟨w4, rfl, e4, ec⟩ | ⟨rfl, rfl, e4, e3, em⟩
  · let s2 : MS := { s1 with reg := sysReg w (adr w base P (pc + k + 1)) (os.flags A.world) s1 A.result, mem := fun x => (A.stores x).getD (s1.mem x) }
    have r4 : s2.reg 4 = sgn w (sp - w) := by
      simp [s2, sysReg, e4]
    let s3 : MS := setReg (setReg s2 4 (sgn w (s2.reg 4 + w))) 3 (cell w s2.mem (s2.reg 4))
    have st3 : Step w base P (pc + k + 1, s2) (pc + k + 1 + 1, s3) := .ins hat2.head rfl
    refine ⟨s3, ?_, rfl, ?_, ?_, ?_, by omega⟩
    · rw [show pc + (syscall_3 w nr (some 0) b c).length = pc + k + 1 + 1 by rw [hlen]; simp; omega]
      exact p1.trans (p2.trans (.one (.cpu st3)))
    · rw [set43_3, r4, cell_addr (sgn_sgn w (sp - w)), ← h3, ← ec]
      refine word_congr (by omega) (by omega) ?_
      intro x h1 h2
      show (A.stores x).getD (s1.mem x) = _
      rw [hst x (by omega) (by omega)]; rfl
    · rw [set43_4, r4, sgn_add_l, h4]; congr 1; omega
    · intro x hx
      show (A.stores x).getD (s1.mem x) = _
      rw [hm x hx]
  · refine ⟨{ s1 with reg := sysReg 8 (adr 8 base P (pc + k + 1)) (os.flags A.world) s1 A.result, mem := fun x => (A.stores x).getD (s1.mem x) }, ?_, rfl, e3, e4, ?_, ?_⟩
    · rw [show pc + (syscall_3 8 nr (some 0) b c).length = pc + k + 1 by rw [hlen]; simp; omega]
      exact p1.trans p2
    · intro x hx
      show (A.stores x).getD (s1.mem x) = _
      rw [em]
    · intro _ x
      show (A.stores x).getD (s1.mem x) = _
      rw [em]

/-- `os_exit` ends the process with the status in AX. -/
theorem exit_sim {W : Type} {os : OS W} {w : Nat} {base : Int} {P : List Asm} {pc : Nat} {s : MS} {σ : W} {sp : Int}
    (hw : w = 4 ∨ w = 8) (hat : At P pc (I (os_exit w))) (h4 : s.reg 4 = sgn w sp) (hsp : w ≤ sp ∧ sp ≤ (2 ^ (8 * w) : Nat)) :
    PSteps os w base P (.run pc s σ) (.done (s.reg 0 % 256).toNat σ) := by
  obtain ⟨s1, k, e, es, st, hp, hi, _, _, e0, a0, _⟩ := sys3_pre (base := base) hw (by split <;> omega) (.inl rfl) (.inl rfl) hat h4 hsp
  have p1 : PSteps os w base P (.run pc s σ) (.run (pc + k) s1 σ) := .cpus st
  have := PStep.exit (os := os) (σ := σ) (base := base) hp hi (by rw [e0]; rfl)
  rw [a0] at this
  exact p1.trans (.one this)

end Verif.Sys
