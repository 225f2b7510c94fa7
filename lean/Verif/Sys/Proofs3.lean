import Verif.Sys.Proofs2
/-! Proofs for the run-time functions that handle characters. -/
namespace Verif.Sys
open Verif Verif.X86 Verif.X86.Spec Verif.Cg Verif.Rt Spec

theorem sgn_emod256 {w : Nat} (hw : w = 4 ∨ w = 8) (x : Int) : sgn w x % 256 = x % 256 := by
  have := bmod_emod_dvd (m := 2 ^ (8 * w)) (n := 256) (by rcases hw with rfl | rfl <;> decide) x
  exact this

theorem rd_low {w : Nat} (hw : w = 4 ∨ w = 8) (m : Int → Nat) (a : Int) : rd w m a w % 256 = m (uns w a) % 256 := by
  rcases hw with rfl | rfl <;> (unfold rd; omega)

/-- The state after pushing a register. -/
theorem push_sim' {w : Nat} (hw : w = 4 ∨ w = 8) {s : MS} {sp : Int} (h4 : s.reg 4 = sgn w sp) (hsp : w ≤ sp ∧ sp ≤ (2 ^ (8 * w) : Nat)) (r : Nat) :
    ∃ s', exec1 w s ((Emit.push_reg r).intended w) = some s' ∧ s'.reg 4 = sgn w (sp - w) ∧ (∀ x, x ≠ 4 → s'.reg x = s.reg x) ∧
      (∀ x, ¬ (sp - w ≤ x ∧ x < sp) → s'.mem x = s.mem x) ∧ cell w s'.mem (sp - w) = sgn w (s.reg r) := by
  refine ⟨{ setReg s 4 (sgn w (s.reg 4 - w)) with mem := wr w s.mem (sgn w (s.reg 4 - w)) (s.reg r) w }, ?_, ?_, ?_, ?_, ?_⟩
  · rcases hw with rfl | rfl <;> rfl
  · show sgn w (s.reg 4 - w) = _
    rw [h4, sgn_sub_l]
  · intro x hx; simp [setReg, hx]
  · intro x hx
    show wr w s.mem (sgn w (s.reg 4 - w)) (s.reg r) w x = _
    rw [h4, sgn_sub_l, ← wr_addr w w s.mem (sp - w) (sgn w (sp - w)) _ (uns_sgn ..).symm,
      wr_out w w _ _ _ _ (by rw [inR_iff (by omega) (by omega)]; omega)]
  · show sgn w (rd w (wr w s.mem (sgn w (s.reg 4 - w)) (s.reg r) w) (sp - w) w) = _
    rw [h4, sgn_sub_l, ← wr_addr w w s.mem (sp - w) (sgn w (sp - w)) _ (uns_sgn ..).symm, rd_wr_word hw]

theorem exec_pop {w : Nat} (hw : w = 4 ∨ w = 8) (s : MS) (r : Nat) :
    exec1 w s ((Emit.pop_reg r).intended w) = some (setReg (setReg s 4 (sgn w (s.reg 4 + w))) r (cell w s.mem (s.reg 4))) := by
  rcases hw with rfl | rfl <;> rfl
theorem exec_imm {w : Nat} (hw : w = 4 ∨ w = 8) (s : MS) (r : Nat) (v : Int) :
    exec1 w s ((Emit.mov_reg_imm r v).intended w) = some (setReg s r (sgn w v)) := by
  rcases hw with rfl | rfl <;> rfl
theorem exec_mov {w : Nat} (hw : w = 4 ∨ w = 8) (s : MS) (d r : Nat) :
    exec1 w s ((Emit.mov_reg_reg d r).intended w) = some (setReg s d (s.reg r)) := by
  rcases hw with rfl | rfl <;> rfl
theorem exec_cmp {w : Nat} (hw : w = 4 ∨ w = 8) (s : MS) (d r : Nat) :
    exec1 w s ((Emit.cmp_reg_reg d r).intended w) = some { s with cmpA := s.reg d, cmpB := s.reg r } := by
  rcases hw with rfl | rfl <;> rfl

/-- Pushing AX and setting up a system call on the one byte at the stack pointer. -/
theorem buffer_sim {w : Nat} {base : Int} {P : List Asm} {pc : Nat} {s : MS} {sp : Int} {fd : Emit} (hw : w = 4 ∨ w = 8)
    (hat : At P pc (I [.push_reg 0, fd, .mov_reg_reg 1 4, .mov_reg_imm 2 1])) (h4 : s.reg 4 = sgn w sp) (hsp : w ≤ sp ∧ sp ≤ (2 ^ (8 * w) : Nat))
    {v : Int} (hfd : ∀ s : MS, s.reg 0 = v ∨ fd = .mov_reg_imm 0 v → exec1 w s (fd.intended w) = some (setReg s 0 (sgn w v))) (hv : s.reg 0 = v ∨ fd = .mov_reg_imm 0 v) :
    ∃ s1, Steps w base P (pc, s) (pc + 4, s1) ∧ s1.reg 0 = sgn w v ∧ s1.reg 1 = sgn w (sp - w) ∧ s1.reg 2 = 1 ∧ s1.reg 3 = s.reg 3 ∧ s1.reg 4 = sgn w (sp - w) ∧
      (∀ x, ¬ (sp - w ≤ x ∧ x < sp) → s1.mem x = s.mem x) ∧ cell w s1.mem (sp - w) = sgn w (s.reg 0) := by
  have hat' : At P pc [.ins (.push_reg 0), .ins fd, .ins (.mov_reg_reg 1 4), .ins (.mov_reg_imm 2 1)] := hat
  obtain ⟨s0, x0, e4, er, em, ec⟩ := push_sim' hw h4 hsp 0
  have x1 := hfd s0 (by rw [er 0 (by omega)]; exact hv)
  refine ⟨_, .head (.ins hat'.head x0) (.head (.ins hat'.tail.head x1) (.head (.ins hat'.tail.tail.head (exec_mov hw ..)) (.head (.ins hat'.tail.tail.tail.head (exec_imm hw ..)) .refl))), rfl, ?_, ?_, ?_, ?_, ?_, ?_⟩
  · exact e4
  · show sgn w 1 = 1
    exact sgn_lt hw (by omega) (by omega)
  · exact er 3 (by omega)
  · exact e4
  · exact em
  · exact ec

/-- `rt_putchar` writes the low byte of AX on standard output. -/
theorem putchar_sim {W : Type} {os : OS W} {w : Nat} {base : Int} {P : List Asm} {pc : Nat} {s : MS} {σ : W} {sp : Int} (hw : w = 4 ∨ w = 8)
    (hat : At P pc (I (rt_putchar w))) (h4 : s.reg 4 = sgn w sp) (h3 : sgn w (s.reg 3) = s.reg 3) (hsp : 2 * w ≤ sp ∧ sp ≤ (2 ^ (8 * w) : Nat)) :
    ∃ s', PSteps os w base P (.run pc s σ) (.run (pc + (rt_putchar w).length) s' (os.serve σ (.write 1 [(s.reg 0 % 256).toNat])).1) ∧
      s'.reg 0 = sgn w (s.reg 0) ∧ s'.reg 3 = s.reg 3 ∧ s'.reg 4 = s.reg 4 ∧ ∀ x, ¬ (sp - 2 * w ≤ x ∧ x < sp) → s'.mem x = s.mem x := by
  have wp : 0 < w := by rcases hw with rfl | rfl <;> omega
  unfold rt_putchar at hat
  rw [List.append_assoc, I_append, I_append] at hat
  obtain ⟨s1, p1, e0, e1, e2, e3, e4, em, ec⟩ := buffer_sim (base := base) (v := 1) hw hat.left h4 (by omega) (fun s _ => exec_imm hw s 0 1) (.inr rfl)
  have h5 := hat.right.left
  have h6 := hat.right.right.head
  simp only [I_length, List.length_cons, List.length_nil] at h5 h6
  obtain ⟨s2, p2, f0, f3, f4, f5, _⟩ := sys3 (os := os) (σ := σ) (base := base) (s := s1) (sp := sp - w)
    (A := ⟨(os.serve σ (.write 1 [(s.reg 0 % 256).toNat])).1, (os.serve σ (.write 1 [(s.reg 0 % 256).toNat])).2, nothing⟩) hw (by split <;> omega) (.inr rfl) (.inr rfl) h5 e4
    (by rw [e3, h3]) (by omega) (by
      intro t t0 t1 t2 t3 tm
      have := Serves.write (os := os) (w := w) (s := t) (σ := σ) (by rw [t0]; rfl)
      have hb : bytes w t.mem (arg w t 1) (uns w (arg w t 2)).toNat = [(s.reg 0 % 256).toNat] := by
        rw [t2 rfl, t3, e1, e2, show uns w 1 = 1 by rcases hw with rfl | rfl <;> rfl]
        show [t.mem (uns w (sgn w (sp - w) + (0 : Nat))) % 256] = _
        rw [show sgn w (sp - w) + ((0 : Nat) : Int) = sgn w (sp - w) by omega, uns_sgn]
        have hu : uns w (sp - w) = sp - w := uns_of_lt (by omega) (by omega)
        rw [hu, tm (sp - w) (by omega)]
        have h1 := rd_low hw s1.mem (sp - w)
        rw [hu] at h1
        have h2 : (rd w s1.mem (sp - w) w : Int) % 256 = s.reg 0 % 256 := by
          rw [← sgn_emod256 hw, show sgn w (rd w s1.mem (sp - w) w) = sgn w (s.reg 0) from ec, sgn_emod256 hw]
        congr 1; omega
      rw [hb, t1, e0, show sgn 4 (sgn w 1) = 1 by rw [sgn_lt hw (by omega) (by omega)]; decide] at this
      exact this)
    (fun _ _ _ => rfl)
  have r4 : s2.reg 4 = sgn w (sp - w) := by rw [f4, e4]
  let s3 := setReg (setReg s2 4 (sgn w (s2.reg 4 + w))) 0 (cell w s2.mem (s2.reg 4))
  have p3 : Step w base P (pc + 4 + (os_write w).length, s2) (pc + 4 + (os_write w).length + 1, s3) := .ins h6 (exec_pop hw s2 0)
  refine ⟨s3, ?_, ?_, ?_, ?_, ?_⟩
  · rw [show pc + (rt_putchar w).length = pc + 4 + (os_write w).length + 1 by unfold rt_putchar; simp; omega]
    exact (PSteps.cpus (os := os) (σ := σ) p1).trans (p2.trans (.one (.cpu p3)))
  · show cell w s2.mem (s2.reg 4) = _
    rw [r4, cell_addr (sgn_sgn w (sp - w)), ← ec]
    exact word_congr (by omega) (by omega) (fun x h1 h2 => by rw [f5 x (by omega)]; rfl)
  · show s2.reg 3 = _
    rw [f3, e3]
  · show sgn w (s2.reg 4 + w) = _
    rw [r4, sgn_add_l, h4]; congr 1; omega
  · intro x hx
    show s2.mem x = _
    rw [f5 x (by omega)]
    exact em x (by omega)

/-- `rt_debug` prints the message and a newline. -/
theorem debug_sim {W : Type} {os : OS W} {w : Nat} {base : Int} {P : List Asm} {sp : Int} (hw : w = 4 ∨ w = 8) (hsp : 2 * w ≤ sp ∧ sp ≤ (2 ^ (8 * w) : Nat)) :
    ∀ (msg : List Nat) (pc : Nat) (s : MS) (σ : W), (∀ c ∈ msg, c < 256) → At P pc (I (msg.flatMap (fun c : Nat => [.mov_reg_imm 0 (c : Int)] ++ rt_putchar w))) →
    s.reg 4 = sgn w sp → sgn w (s.reg 3) = s.reg 3 →
    ∃ s', PSteps os w base P (.run pc s σ) (.run (pc + (msg.flatMap (fun c : Nat => [Emit.mov_reg_imm 0 (c : Int)] ++ rt_putchar w)).length) s' (prints os σ msg)) ∧
      s'.reg 3 = s.reg 3 ∧ s'.reg 4 = s.reg 4 := by
  intro msg
  induction msg with
  | nil => intro pc s σ _ _ _ _; exact ⟨s, .refl, rfl, rfl⟩
  | cons c msg ih =>
    intro pc s σ hmsg hat h4 h3
    rw [List.flatMap_cons, I_append, I_append] at hat
    have hc : sgn w (c : Int) = c := sgn_lt hw (by omega) (by have := hmsg c (by simp); omega)
    have a1 := hat.left.left.head
    have a2 := hat.left.right
    have a3 := hat.right
    simp only [List.length_append, I_length, List.length_cons, List.length_nil] at a2 a3
    let s1 := setReg s 0 (sgn w c)
    have p1 : Step w base P (pc, s) (pc + 1, s1) := .ins a1 (exec_imm hw ..)
    obtain ⟨s2, p2, e0, e3, e4, _⟩ := putchar_sim (os := os) (σ := σ) (base := base) (s := s1) (sp := sp) hw a2 h4 h3 hsp
    have e3' : s2.reg 3 = s.reg 3 := e3
    have e4' : s2.reg 4 = s.reg 4 := e4
    obtain ⟨s3, p3, g3, g4⟩ := ih (pc + (0 + 1 + (rt_putchar w).length)) s2 (os.serve σ (.write 1 [(s1.reg 0 % 256).toNat])).1 (fun c hc => hmsg c (by simp [hc])) a3
      (by rw [e4', h4]) (by rw [e3', h3])
    have hb : (s1.reg 0 % 256).toNat = c := by
      show (sgn w c % 256).toNat = c
      rw [hc]
      have := hmsg c (by simp); omega
    rw [hb] at p2 p3
    refine ⟨s3, ?_, by rw [g3, e3'], by rw [g4, e4']⟩
    · refine .head (.cpu p1) (p2.trans ?_)
      rw [show pc + 1 + (rt_putchar w).length = pc + (0 + 1 + (rt_putchar w).length) by omega, List.flatMap_cons]
      rw [show pc + ([Emit.mov_reg_imm 0 (c : Int)] ++ rt_putchar w ++ msg.flatMap (fun c : Nat => [Emit.mov_reg_imm 0 (c : Int)] ++ rt_putchar w)).length =
        pc + (0 + 1 + (rt_putchar w).length) + (msg.flatMap (fun c : Nat => [Emit.mov_reg_imm 0 (c : Int)] ++ rt_putchar w)).length by
          simp only [List.length_append, List.length_cons, List.length_nil]; omega]
      exact p3

/-- `rt_crash` prints the message and a newline and ends the process with status 10. -/
theorem crash_sim {W : Type} {os : OS W} {w : Nat} {base : Int} {P : List Asm} {sp : Int} {pc : Nat} {s : MS} {σ : W} {msg : List Nat} (hw : w = 4 ∨ w = 8)
    (hsp : 2 * w ≤ sp ∧ sp ≤ (2 ^ (8 * w) : Nat)) (hmsg : ∀ c ∈ msg, c < 256) (hat : At P pc (I (rt_crash w msg))) (h4 : s.reg 4 = sgn w sp) (h3 : sgn w (s.reg 3) = s.reg 3) :
    PSteps os w base P (.run pc s σ) (.done 10 (prints os σ (msg ++ [10]))) := by
  unfold rt_crash rt_debug at hat
  rw [List.append_assoc, I_append, List.append_assoc, I_append, I_append] at hat
  have a1 := hat.left
  have a2 := hat.right.left.head
  have a3 := hat.right.right.left
  have a4 := hat.right.right.right
  simp only [I_length, List.length_cons, List.length_nil] at a2 a3 a4
  obtain ⟨s1, p1, e3, e4⟩ := debug_sim (os := os) (base := base) hw hsp msg pc s σ hmsg a1 h4 h3
  generalize pc + (msg.flatMap (fun c : Nat => [Emit.mov_reg_imm 0 (c : Int)] ++ rt_putchar w)).length = q at a2 a3 a4 p1
  let s2 := setReg s1 0 (sgn w 10)
  have p2 : Step w base P (q, s1) (q + 1, s2) := .ins a2 (exec_imm hw ..)
  have h10 : sgn w 10 = 10 := sgn_lt hw (by omega) (by omega)
  obtain ⟨s3, p3, f0, f3, f4, _⟩ := putchar_sim (os := os) (σ := prints os σ msg) (base := base) (s := s2) (sp := sp) hw a3 (e4.trans h4) (by
    show sgn w (s1.reg 3) = s1.reg 3
    rw [e3, h3]) hsp
  have hb : s2.reg 0 = 10 := h10
  rw [hb] at p3 f0
  have p4 := exit_sim (os := os) (σ := prints os σ (msg ++ [10])) (base := base) (s := s3) (sp := sp) hw a4 (by rw [f4]; exact e4.trans h4) (by omega)
  rw [f0, h10] at p4
  refine p1.trans (.head (.cpu p2) (p3.trans ?_))
  have : prints os σ (msg ++ [10]) = (os.serve (prints os σ msg) (.write 1 [10])).1 := by unfold prints; rw [List.foldl_append]; rfl
  rw [this] at p4
  rw [this]
  exact p4

/-- What `rt_fgetc` returns, if it is given the descriptor `v`. -/
def fgetcVal (v : Int) : Except Nat (List Nat) → Int
  | .ok [] => -1
  | .ok (b :: _) => v - v % 256 + b
  | .error _ => v

/-- Replacing the low byte of a word. -/
theorem rd_byte {w : Nat} (hw : w = 4 ∨ w = 8) {m m' : Int → Nat} {a : Int} (h0 : 0 ≤ a) (h1 : a + w ≤ (2 ^ (8 * w) : Nat)) (hm : ∀ x, a < x → x < a + w → m' x = m x) :
    (rd w m' a w : Int) = rd w m a w - m a % 256 + m' a % 256 := by
  have e : ∀ k : Nat, 1 ≤ k → k ≤ w → rd w m' (a + 1) (k - 1) = rd w m (a + 1) (k - 1) := by
    intro k h2 h3
    refine rd_congr w (k - 1) m' m (a + 1) ?_
    intro x hx
    rw [inR_iff (by omega) (by omega)] at hx
    exact hm x (by omega) (by omega)
  have hu : uns w a = a := uns_of_lt h0 (by rcases hw with rfl | rfl <;> omega)
  obtain ⟨k, hk⟩ : ∃ k, w = k + 1 := ⟨w - 1, by rcases hw with rfl | rfl <;> rfl⟩
  have e1 := e w (by omega) (Nat.le_refl _)
  have e2 : ∀ m : Int → Nat, rd w m a w = m (uns w a) % 256 + 256 * rd w m (a + 1) (w - 1) := by
    intro m
    conv => lhs; rw [show rd w m a w = rd w m a (k + 1) by rw [← hk]]
    rw [show w - 1 = k by omega]; rfl
  rw [e2 m, e2 m', e1, hu]
  omega

/-- `rt_fgetc` reads one byte. -/
theorem fgetc_sim {W : Type} {os : OS W} {w : Nat} {base : Int} {P : List Asm} {pc l : Nat} {s : MS} {σ : W} {sp v : Int} (hw : w = 4 ∨ w = 8)
    (hat : At P pc (rt_fgetc w 0 l)) (h4 : s.reg 4 = sgn w sp) (h3 : sgn w (s.reg 3) = s.reg 3) (hsp : 2 * w ≤ sp ∧ sp ≤ (2 ^ (8 * w) : Nat))
    (hv : s.reg 0 = v) (hvw : sgn w v = v) :
    ∃ s', PSteps os w base P (.run pc s σ) (.run (pc + (rt_fgetc w 0 l).length) s' (os.read σ (sgn 4 v) 1).1) ∧
      s'.reg 0 = sgn w (fgetcVal v (os.read σ (sgn 4 v) 1).2) ∧ s'.reg 3 = s.reg 3 ∧ s'.reg 4 = s.reg 4 ∧ ∀ x, ¬ (sp - 2 * w ≤ x ∧ x < sp) → s'.mem x = s.mem x := by
  have wp : 0 < w := by rcases hw with rfl | rfl <;> omega
  have hat' : At P pc (I [.push_reg 0, .mov_reg_reg 0 0, .mov_reg_reg 1 4, .mov_reg_imm 2 1] ++ (I (os_read w) ++ ([.ins (.pop_reg 2), .ins (.mov_reg_imm 1 0),
      .ins (.cmp_reg_reg 0 1), .jcc 0x5 l, .ins (.mov_reg_imm 2 (-1)), .lbl l, .ins (.mov_reg_reg 0 2)]))) := by
    have := hat
    simpa [rt_fgetc, jump_cond_reg_reg, I] using this
  have hlen : (rt_fgetc w 0 l).length = 4 + (os_read w).length + 7 := by simp [rt_fgetc, jump_cond_reg_reg, I]; omega
  rw [hlen]
  obtain ⟨s1, p1, e0, e1, e2, e3, e4, em, ec⟩ := buffer_sim (base := base) (v := v) hw hat'.left h4 (by omega) (by
    intro s' hs'
    rcases hs' with h | h
    · rw [exec_mov hw, h, hvw]
    · cases h) (.inl hv)
  have h5 := hat'.right.left
  have h6 := hat'.right.right
  simp only [I_length, List.length_cons, List.length_nil] at h5 h6
  generalize hr : os.read σ (sgn 4 v) 1 = r
  have hlen1 : (readBytes r.2).length ≤ 1 := by
    cases e : r.2 with
    | ok l =>
      have := os.read_len σ (sgn 4 v) 1 l (by rw [hr, e])
      simp only [readBytes]; omega
    | error _ => simp [readBytes]
  have hu : uns w (sp - w) = sp - w := uns_of_lt (by omega) (by omega)
  have hst : ∀ x, x ≠ sp - w → stored w (sgn w (sp - w)) (readBytes r.2) x = none := by
    intro x hx
    unfold stored
    split
    · rename_i h
      rw [List.getElem?_eq_none_iff]
      have hn := uns_nonneg w (x - sgn w (sp - w))
      rcases Nat.lt_or_ge (uns w (x - sgn w (sp - w))).toNat (readBytes r.2).length with hlt | hge
      · exfalso
        have h0 : uns w (x - sgn w (sp - w)) = 0 := by omega
        have : uns w (sgn w (sp - w) + uns w (x - sgn w (sp - w))) = x := by
          rw [Int.add_comm, uns_add, ← h]; congr 1; rw [h]; omega
        rw [h0, Int.add_zero, uns_sgn, hu] at this
        exact hx this.symm
      · exact hge
    · rfl
  obtain ⟨s2, p2, f0, f3, f4, f5, _⟩ := sys3 (os := os) (σ := σ) (base := base) (s := s1) (sp := sp - w)
    (A := ⟨r.1, readResult r.2, stored w (sgn w (sp - w)) (readBytes r.2)⟩) hw (by split <;> omega) (.inr rfl) (.inr rfl) h5 e4
    (by rw [e3, h3]) (by omega) (by
      intro t t0 t1 t2 t3 tm
      have := Serves.read (os := os) (w := w) (s := t) (σ := σ) (by rw [t0]; rfl)
      rw [t2 rfl, t1, t3, e0, e1, e2, hvw, show uns w 1 = 1 by rcases hw with rfl | rfl <;> rfl, hr] at this
      exact this)
    (fun x h1 h2 => hst x (by omega))
  have r4 : s2.reg 4 = sgn w (sp - w) := by rw [f4, e4]
  generalize hq : pc + 4 + (os_read w).length = q at h6
  have p2' : PSteps os w base P (.run (pc + 4) s1 σ) (.run q s2 r.1) := by rw [← hq]; exact p2
  let z := cell w s2.mem (s2.reg 4)
  let s3 := setReg (setReg s2 4 (sgn w (s2.reg 4 + w))) 2 z
  let s4 := setReg s3 1 (sgn w 0)
  let s5 : MS := { s4 with cmpA := s4.reg 0, cmpB := s4.reg 1 }
  have st : Steps w base P (q, s2) (q + 3, s5) :=
    .head (.ins h6.head (exec_pop hw ..)) (.head (.ins h6.tail.head (exec_imm hw ..)) (.head (.ins h6.tail.tail.head (exec_cmp hw ..)) .refl))
  have hz : z = sgn w (v - v % 256 + ((readBytes r.2).head?.getD (v % 256).toNat : Nat)) := by
    show cell w s2.mem (s2.reg 4) = _
    rw [r4, cell_addr (sgn_sgn w (sp - w))]
    have hm2 : ∀ x, sp - w < x → x < sp - w + w → s2.mem x = s1.mem x := by
      intro x h1 h2
      rw [f5 x (by omega)]
      show (stored w (sgn w (sp - w)) (readBytes r.2) x).getD _ = _
      rw [hst x (by omega)]; rfl
    have key := rd_byte hw (m := s1.mem) (m' := s2.mem) (a := sp - w) (by omega) (by omega) hm2
    have ec' : sgn w (rd w s1.mem (sp - w) w) = v := by
      show cell w s1.mem (sp - w) = v
      rw [ec, hv, hvw]
    have hlow : (s1.mem (sp - w) % 256 : Int) = v % 256 := by
      have h1 := rd_low hw s1.mem (sp - w)
      rw [hu] at h1
      have h2 : (rd w s1.mem (sp - w) w : Int) % 256 = v % 256 := by rw [← sgn_emod256 hw, ec']
      omega
    have hb : (s2.mem (sp - w) % 256 : Int) = ((readBytes r.2).head?.getD (v % 256).toNat : Nat) := by
      have : s2.mem (sp - w) = ((readBytes r.2).head?).getD (s1.mem (sp - w)) := by
        rw [f5 (sp - w) (by omega)]
        show (stored w (sgn w (sp - w)) (readBytes r.2) (sp - w)).getD _ = _
        unfold stored
        rw [if_pos hu, show uns w (sp - w - sgn w (sp - w)) = 0 by
          have : uns w (sp - w - sgn w (sp - w)) = uns w (sgn w (sp - w - sgn w (sp - w))) := (uns_sgn ..).symm
          rw [this, sgn_sub_r]; simp [sgn, uns]]
        simp [List.head?_eq_getElem?]
      rw [this]
      cases e : r.2 with
      | error _ =>
        simp only [readBytes, List.head?_nil, Option.getD_none]
        omega
      | ok l' =>
        cases l' with
        | nil => simp only [readBytes, List.head?_nil, Option.getD_none]; omega
        | cons b t =>
          have := os.read_byte σ (sgn 4 v) 1 (b :: t) (by rw [hr, e]) b (by simp)
          simp only [readBytes, List.head?_cons, Option.getD_some]
          omega
    show sgn w (rd w s2.mem (sp - w) w) = _
    rw [key, hlow, hb, show (rd w s1.mem (sp - w) w : Int) - v % 256 + ((readBytes r.2).head?.getD (v % 256).toNat : Nat) =
      rd w s1.mem (sp - w) w + (((readBytes r.2).head?.getD (v % 256).toNat : Nat) - v % 256) by omega, ← sgn_add_l, ec']
    congr 1; omega
  have hend : ∀ (s6 : MS), s6.reg 2 = sgn w (fgetcVal v r.2) → s6.reg 3 = s2.reg 3 → s6.reg 4 = sgn w (s2.reg 4 + w) → s6.mem = s2.mem →
      Steps w base P (q + 3, s5) (q + 5, s6) → ∃ s', PSteps os w base P (.run pc s σ) (.run (pc + (4 + (os_read w).length + 7)) s' r.1) ∧
      s'.reg 0 = sgn w (fgetcVal v r.2) ∧ s'.reg 3 = s.reg 3 ∧ s'.reg 4 = s.reg 4 ∧ ∀ x, ¬ (sp - 2 * w ≤ x ∧ x < sp) → s'.mem x = s.mem x := by
    intro s6 g2 g3 g4 gm st2
    refine ⟨setReg s6 0 (s6.reg 2), ?_, g2, ?_, ?_, ?_⟩
    · rw [show pc + (4 + (os_read w).length + 7) = q + 7 by omega]
      refine (PSteps.cpus (os := os) (σ := σ) p1).trans (p2'.trans ?_)
      refine (PSteps.cpus (os := os) (σ := r.1) st).trans ((PSteps.cpus (os := os) (σ := r.1) st2).trans ?_)
      exact .head (.cpu (.lbl h6.tail.tail.tail.tail.tail.head)) (.one (.cpu (.ins h6.tail.tail.tail.tail.tail.tail.head (exec_mov hw ..))))
    · show s6.reg 3 = _
      rw [g3, f3, e3]
    · show s6.reg 4 = _
      rw [g4, r4, sgn_add_l, h4]; congr 1; omega
    · intro x hx
      show s6.mem x = _
      rw [gm, f5 x (by omega)]
      show (stored w (sgn w (sp - w)) (readBytes r.2) x).getD _ = _
      rw [hst x (by omega)]
      exact em x (by omega)
  have hj : P[q + 3]? = some (.jcc 0x5 l) := h6.tail.tail.tail.head
  have hl5 : P[q + 5]? = some (.lbl l) := h6.tail.tail.tail.tail.tail.head
  have h0 : sgn w 0 = 0 := sgn_lt hw (by omega) (by omega)
  by_cases hcase : r.2 = .ok []
  · refine hend (setReg s5 2 (sgn w (-1))) ?_ rfl rfl rfl ?_
    · rw [hcase]; rfl
    · refine .head (.jccF hj ?_) (.head (.ins h6.tail.tail.tail.tail.head (exec_imm hw ..)) .refl)
      show cond w 0x5 (s2.reg 0) (sgn w 0) = some false
      rw [f0]
      show cond w 0x5 (sgn w (readResult r.2)) (sgn w 0) = some false
      rw [hcase]
      simp [readResult, X86.Spec.cond]
  · refine hend s5 ?_ rfl rfl rfl ?_
    · show z = _
      rw [hz]
      cases e : r.2 with
      | error _ =>
        simp only [readBytes, fgetcVal, List.head?_nil, Option.getD_none]
        congr 1; omega
      | ok l' =>
        cases l' with
        | nil => exact absurd e hcase
        | cons b t => simp only [readBytes, fgetcVal, List.head?_cons, Option.getD_some]
    · refine .head (.jccT hj ?_ hl5) .refl
      show cond w 0x5 (s2.reg 0) (sgn w 0) = some true
      rw [f0]
      show cond w 0x5 (sgn w (readResult r.2)) (sgn w 0) = some true
      have hne : sgn w (readResult r.2) ≠ 0 := by
        cases e : r.2 with
        | error x =>
          have := os.read_err σ (sgn 4 v) 1 x (by rw [hr, e])
          simp only [readResult]
          rw [sgn_id hw (by rcases hw with rfl | rfl <;> omega) (by rcases hw with rfl | rfl <;> omega)]
          omega
        | ok l' =>
          cases l' with
          | nil => exact absurd e hcase
          | cons b t =>
            have : t = [] := by rw [e] at hlen1; simpa [readBytes] using hlen1
            subst this
            simp only [readResult, List.length_singleton]
            rw [show ((1 : Nat) : Int) = 1 from rfl, sgn_lt hw (by omega) (by omega)]; omega
      rw [h0]
      simp [X86.Spec.cond, hne]

/-- `rt_fopen` opens the file read-only. -/
theorem fopen_sim {W : Type} {os : OS W} {w : Nat} {base : Int} {P : List Asm} {pc l : Nat} {s : MS} {σ : W} {sp : Int} {p : List Nat} (hw : w = 4 ∨ w = 8)
    (hat : At P pc (rt_fopen w l)) (h4 : s.reg 4 = sgn w sp) (h3 : sgn w (s.reg 3) = s.reg 3) (hsp : w ≤ sp ∧ sp ≤ (2 ^ (8 * w) : Nat))
    (hp : ∀ m : Int → Nat, (∀ x, ¬ (sp - w ≤ x ∧ x < sp) → m x = s.mem x) → CStr w m (cell w s.mem (s.reg 4 + w)) p) :
    ∃ s', PSteps os w base P (.run pc s σ) (.run (pc + (rt_fopen w l).length) s' (os.serve σ (.open_ p 0 0)).1) ∧
      s'.reg 0 = sgn w (if sgn w (os.serve σ (.open_ p 0 0)).2 < 0 then 0 else (os.serve σ (.open_ p 0 0)).2) ∧
      s'.reg 3 = s.reg 3 ∧ s'.reg 4 = s.reg 4 ∧ ∀ x, ¬ (sp - w ≤ x ∧ x < sp) → s'.mem x = s.mem x := by
  have h0 : sgn w 0 = 0 := sgn_lt hw (by omega) (by omega)
  have hat' : At P pc ([.ins (mov_reg_mem w 0 4 w), .ins (.mov_reg_imm 1 0), .ins (.mov_reg_imm 2 0)] ++ (I (os_open w) ++ ([.ins (.mov_reg_imm 1 0),
      .ins (.cmp_reg_reg 0 1), .jcc 0xd l, .ins (.mov_reg_imm 0 0), .lbl l]))) := by
    have := hat
    simpa [rt_fopen, jump_cond_reg_reg, I] using this
  have hlen : (rt_fopen w l).length = 3 + (os_open w).length + 5 := by simp [rt_fopen, jump_cond_reg_reg, I]; omega
  rw [hlen]
  let s1 := setReg (setReg (setReg s 0 (cell w s.mem (s.reg 4 + w))) 1 (sgn w 0)) 2 (sgn w 0)
  have p1 : Steps w base P (pc, s) (pc + 3, s1) :=
    .head (.ins hat'.left.head (ex_ld hw ..)) (.head (.ins hat'.left.tail.head (exec_imm hw ..)) (.head (.ins hat'.left.tail.tail.head (exec_imm hw ..)) .refl))
  have h5 := hat'.right.left
  have h6 := hat'.right.right
  simp only [I_length, List.length_cons, List.length_nil] at h5 h6
  generalize hr : os.serve σ (.open_ p 0 0) = r
  obtain ⟨s2, p2, f0, f3, f4, f5, _⟩ := sys3 (os := os) (σ := σ) (base := base) (s := s1) (sp := sp)
    (A := ⟨r.1, r.2, nothing⟩) hw (by split <;> omega) (.inr rfl) (.inr rfl) h5 h4
    h3 hsp (by
      intro t t0 t1 t2 t3 tm
      have := Serves.open_ (os := os) (w := w) (s := t) (σ := σ) (p := p) (by rw [t0]; rfl) (by rw [t1]; exact hp t.mem tm)
      rw [t2 rfl, t3, show s1.reg 1 = sgn w 0 from rfl, show s1.reg 2 = sgn w 0 from rfl, h0, show sgn 4 0 = 0 by decide, hr] at this
      exact this)
    (fun _ _ _ => rfl)
  generalize hq : pc + 3 + (os_open w).length = q at h6
  have p2' : PSteps os w base P (.run (pc + 3) s1 σ) (.run q s2 r.1) := by rw [← hq]; exact p2
  let s4 := setReg s2 1 (sgn w 0)
  let s5 : MS := { s4 with cmpA := s4.reg 0, cmpB := s4.reg 1 }
  have st : Steps w base P (q, s2) (q + 2, s5) := .head (.ins h6.head (exec_imm hw ..)) (.head (.ins h6.tail.head (exec_cmp hw ..)) .refl)
  have hj : P[q + 2]? = some (.jcc 0xd l) := h6.tail.tail.head
  have hl5 : P[q + 4]? = some (.lbl l) := h6.tail.tail.tail.tail.head
  have f0' : s2.reg 0 = sgn w r.2 := f0
  have hend : ∀ (s6 : MS), s6.reg 0 = sgn w (if sgn w r.2 < 0 then 0 else r.2) → s6.reg 3 = s2.reg 3 → s6.reg 4 = s2.reg 4 → s6.mem = s2.mem →
      Steps w base P (q + 2, s5) (q + 4, s6) → ∃ s', PSteps os w base P (.run pc s σ) (.run (pc + (3 + (os_open w).length + 5)) s' r.1) ∧
      s'.reg 0 = sgn w (if sgn w r.2 < 0 then 0 else r.2) ∧ s'.reg 3 = s.reg 3 ∧ s'.reg 4 = s.reg 4 ∧ ∀ x, ¬ (sp - w ≤ x ∧ x < sp) → s'.mem x = s.mem x := by
    intro s6 g0 g3 g4 gm st2
    refine ⟨s6, ?_, g0, ?_, ?_, ?_⟩
    · rw [show pc + (3 + (os_open w).length + 5) = q + 5 by omega]
      refine (PSteps.cpus (os := os) (σ := σ) p1).trans (p2'.trans ?_)
      refine (PSteps.cpus (os := os) (σ := r.1) st).trans ((PSteps.cpus (os := os) (σ := r.1) st2).trans ?_)
      exact .one (.cpu (.lbl hl5))
    · rw [g3, f3]; rfl
    · rw [g4, f4]; rfl
    · intro x hx
      rw [gm, f5 x hx]; rfl
  by_cases hcase : sgn w r.2 < 0
  · refine hend (setReg s5 0 (sgn w 0)) ?_ rfl rfl rfl ?_
    · rw [if_pos hcase]; rfl
    · refine .head (.jccF hj ?_) (.head (.ins h6.tail.tail.tail.head (exec_imm hw ..)) .refl)
      show X86.Spec.cond w 0xd (s2.reg 0) (sgn w 0) = some false
      rw [f0', h0]
      simp [X86.Spec.cond]; omega
  · refine hend s5 ?_ rfl rfl rfl ?_
    · rw [if_neg hcase]; exact f0'
    · refine .head (.jccT hj ?_ hl5) .refl
      show X86.Spec.cond w 0xd (s2.reg 0) (sgn w 0) = some true
      rw [f0', h0]
      simp [X86.Spec.cond]; omega

end Verif.Sys
