import Verif.Sys.Proofs3
/-! Proofs for the start-up code. -/
namespace Verif.Sys
open Verif Verif.X86 Verif.X86.Spec Verif.Cg Verif.Rt Spec

theorem zeroed_iff {w : Nat} {a size x : Int} (hz : 0 ≤ size) (h0 : 0 ≤ a) (h1 : a + size ≤ (2 ^ (8 * w) : Nat)) (v : Nat) :
    (zeroed w a size x).getD v = if a ≤ x ∧ x < a + size then 0 else v := by
  unfold zeroed
  by_cases hx : uns w x = x
  · have hx0 : 0 ≤ x := by rw [← hx]; exact uns_nonneg w x
    have hx1 : x < (2 ^ (8 * w) : Nat) := by rw [← hx]; exact uns_lt w x
    by_cases ha : a ≤ x
    · rw [uns_of_lt (x := x - a) (by omega) (by omega)]
      by_cases hs : x < a + size
      · rw [if_pos ⟨hx, by omega⟩, if_pos ⟨ha, hs⟩]; rfl
      · rw [if_neg (by omega), if_neg (by omega)]; rfl
    · by_cases hs : uns w (x - a) < size
      · exfalso
        have : uns w (x - a) = x - a + (2 ^ (8 * w) : Nat) := by
          have e : uns w (x - a) = uns w (x - a + (2 ^ (8 * w) : Nat)) := by unfold uns; exact (Int.add_emod_right ..).symm
          rw [e, uns_of_lt (by omega) (by omega)]
        omega
      · rw [if_neg (by omega), if_neg (by omega)]; rfl
  · rw [if_neg (by omega), if_neg]
    · rfl
    · intro hc
      exact hx (uns_of_lt (by omega) (by omega))

/-- `os_allocate_memory` asks for a new block of zeroed memory. -/
theorem alloc_sim {W : Type} {os : OS W} {w : Nat} {base : Int} {P : List Asm} {pc : Nat} {size : Int} {s : MS} {σ : W} {sp : Int} (hw : w = 4 ∨ w = 8)
    (hsz : 0 ≤ size ∧ size < 2147483648) (hat : At P pc (I (os_allocate_memory w size))) (h4 : s.reg 4 = sgn w sp) (h3 : sgn w (s.reg 3) = s.reg 3)
    (hsp : w ≤ sp ∧ sp ≤ (2 ^ (8 * w) : Nat)) (hok : 0 ≤ (os.serve σ (.alloc size)).2) (hfit : (os.serve σ (.alloc size)).2 + size ≤ (2 ^ (8 * w) : Nat))
    (hap : (os.serve σ (.alloc size)).2 + size ≤ sp - w ∨ sp ≤ (os.serve σ (.alloc size)).2) :
    ∃ s', PSteps os w base P (.run pc s σ) (.run (pc + (os_allocate_memory w size).length) s' (os.serve σ (.alloc size)).1) ∧
      s'.reg 0 = sgn w (os.serve σ (.alloc size)).2 ∧ s'.reg 3 = s.reg 3 ∧ s'.reg 4 = s.reg 4 ∧
      (∀ x, ¬ (sp - w ≤ x ∧ x < sp) → s'.mem x = if (os.serve σ (.alloc size)).2 ≤ x ∧ x < (os.serve σ (.alloc size)).2 + size then 0 else s.mem x) := by
  have hs : sgn w size = size := by rcases hw with rfl | rfl <;> exact sgn_id (by omega) (by omega) (by omega)
  have hus : uns w size = size := uns_of_lt hsz.1 (by rcases hw with rfl | rfl <;> omega)
  have hS : ∀ s1 : MS, s1.reg 0 = nrMmap w → arg w s1 0 = sgn w 0 → arg w s1 1 = sgn w size → arg w s1 2 = sgn w 3 → arg w s1 3 = sgn w 0x22 →
      arg w s1 4 = sgn w (-1) → arg w s1 5 = sgn w 0 → Serves os w s1 σ
        ⟨(os.serve σ (.alloc size)).1, (os.serve σ (.alloc size)).2, zeroed w (os.serve σ (.alloc size)).2 size⟩ := by
    intro s1 e0 a0 a1 a2 a3 a4 a5
    have := Serves.mmap (os := os) (w := w) (s := s1) (σ := σ) e0 (by rw [a0]; exact sgn_lt hw (by omega) (by omega)) (by rw [a2]; rcases hw with rfl | rfl <;> decide)
      (by rw [a3]; rcases hw with rfl | rfl <;> decide) (by rw [a4]; rcases hw with rfl | rfl <;> decide) (by rw [a5]; exact sgn_lt hw (by omega) (by omega))
    rw [a1, hs, hus] at this
    simp only at this
    rw [if_neg (by omega)] at this
    exact this
  generalize hr : os.serve σ (.alloc size) = r at hok hfit hap hS ⊢
  have hw' := hw
  rcases hw with hw4 | rfl
  · have hm : ∀ x, ¬ (sp - w ≤ x ∧ x < sp) → wr w s.mem (sgn w (s.reg 4 - w)) (s.reg 3) w x = s.mem x := by
      intro x hx
      rw [h4, sgn_sub_l, ← wr_addr w w s.mem (sp - w) (sgn w (sp - w)) _ (uns_sgn ..).symm]
      exact wr_out w w _ _ _ _ (by rw [inR_iff (by omega) (by omega)]; omega)
    have hcell : cell w (wr w s.mem (sgn w (s.reg 4 - w)) (s.reg 3) w) (sp - w) = sgn w (s.reg 3) := by
      rw [h4, sgn_sub_l, ← wr_addr w w s.mem (sp - w) (sgn w (sp - w)) _ (uns_sgn ..).symm]
      unfold cell
      rw [rd_wr_word hw']
    have h4' : sgn w (s.reg 4 - w) = sgn w (sp - w) := by rw [h4, sgn_sub_l]
    have hat' : At P pc (I [.push_reg 3, .mov_reg_imm 0 192, .mov_reg_imm 3 0, .mov_reg_imm 1 size, .mov_reg_imm 2 3, .mov_reg_imm 6 0x22, .mov_reg_imm 7 (-1),
      .mov_reg_imm 5 0] ++ [.ins (.int_i8 0x80), .ins (.pop_reg 3)]) := by subst hw4; exact hat
    obtain ⟨s1, hrun, em, e0, a0, a1, a2, a3, a4, a5, e4⟩ : ∃ s1, Gen.run w s [.push_reg 3, .mov_reg_imm 0 192, .mov_reg_imm 3 0, .mov_reg_imm 1 size, .mov_reg_imm 2 3, .mov_reg_imm 6 0x22, .mov_reg_imm 7 (-1),
      .mov_reg_imm 5 0] = some s1 ∧
        s1.mem = wr w s.mem (sgn w (s.reg 4 - w)) (s.reg 3) w ∧ s1.reg 0 = sgn w 192 ∧ arg w s1 0 = sgn w 0 ∧ arg w s1 1 = sgn w size ∧
        arg w s1 2 = sgn w 3 ∧ arg w s1 3 = sgn w 0x22 ∧ arg w s1 4 = sgn w (-1) ∧ arg w s1 5 = sgn w 0 ∧ s1.reg 4 = sgn w (s.reg 4 - w) := by
      subst hw4
      exact ⟨_, rfl, rfl, rfl, rfl, rfl, rfl, rfl, rfl, rfl, rfl⟩
    have p1 : Steps w base P (pc, s) (pc + 8, s1) := steps_run (base := base) hat'.left hrun
    have hr2 : At P (pc + 8) [.ins (.int_i8 0x80), .ins (.pop_reg 3)] := hat'.right
    have p2 := PSteps.one (PStep.sys (os := os) (base := base) hr2.head (.inl ⟨hw4, rfl⟩) (hS s1 (by rw [e0]; subst hw4; decide) a0 a1 a2 a3 a4 a5))
    generalize hs2 : ({ s1 with reg := _, mem := _ } : MS) = s2 at p2
    have r4 : s2.reg 4 = sgn w (sp - w) := by rw [← hs2]; simp [sysReg, e4, h4']
    have rm : ∀ x, s2.mem x = (zeroed w r.2 size x).getD (s1.mem x) := by intro x; rw [← hs2]
    have r0 : s2.reg 0 = sgn w r.2 := by rw [← hs2]; rfl
    let s3 : MS := setReg (setReg s2 4 (sgn w (s2.reg 4 + w))) 3 (cell w s2.mem (s2.reg 4))
    have st3 : Step w base P (pc + 8 + 1, s2) (pc + 8 + 1 + 1, s3) := .ins hr2.tail.head (exec_pop hw' ..)
    refine ⟨s3, ?_, ?_, ?_, ?_, ?_⟩
    · have : (os_allocate_memory w size).length = 10 := by subst hw4; rfl
      rw [this]
      exact (PSteps.cpus (os := os) (σ := σ) p1).trans (p2.trans (.one (.cpu st3)))
    · exact r0
    · rw [set43_3, r4, cell_addr (sgn_sgn w (sp - w)), ← h3, ← hcell]
      refine word_congr (by omega) (by omega) ?_
      intro x h1 h2
      rw [rm, zeroed_iff hsz.1 hok hfit, if_neg (by omega), em]
    · rw [set43_4, r4, sgn_add_l, h4]; congr 1; omega
    · intro x hx
      show s2.mem x = _
      rw [rm, zeroed_iff hsz.1 hok hfit, em, hm x hx]
  · have hat' : At P pc (I [.mov_reg_imm 7 0, .mov_reg_imm 6 size, .mov_reg_imm 2 3, .mov_reg_imm 10 0x22, .mov_reg_imm 8 (-1), .mov_reg_imm 9 0, .mov_reg_imm 0 9] ++ [.ins .syscall_]) := hat
    obtain ⟨s1, hrun, em, e0, a0, a1, a2, a3, a4, a5, e4, e3⟩ : ∃ s1, Gen.run 8 s [.mov_reg_imm 7 0, .mov_reg_imm 6 size, .mov_reg_imm 2 3, .mov_reg_imm 10 0x22, .mov_reg_imm 8 (-1), .mov_reg_imm 9 0, .mov_reg_imm 0 9] = some s1 ∧
        s1.mem = s.mem ∧ s1.reg 0 = sgn 8 9 ∧ arg 8 s1 0 = sgn 8 0 ∧ arg 8 s1 1 = sgn 8 size ∧
        arg 8 s1 2 = sgn 8 3 ∧ arg 8 s1 3 = sgn 8 0x22 ∧ arg 8 s1 4 = sgn 8 (-1) ∧ arg 8 s1 5 = sgn 8 0 ∧ s1.reg 4 = s.reg 4 ∧ s1.reg 3 = s.reg 3 :=
      ⟨_, rfl, rfl, rfl, rfl, rfl, rfl, rfl, rfl, rfl, rfl, rfl⟩
    have p1 := steps_run (base := base) hat'.left hrun
    have p2 := PSteps.one (PStep.sys (os := os) (base := base) hat'.right.head (.inr ⟨rfl, rfl⟩) (hS s1 (by rw [e0]; decide) a0 a1 a2 a3 a4 a5))
    refine ⟨_, (PSteps.cpus (os := os) (σ := σ) p1).trans p2, rfl, e3, e4, ?_⟩
    intro x _
    show (zeroed 8 r.2 size x).getD (s1.mem x) = _
    rw [zeroed_iff hsz.1 hok hfit, em]

theorem setup_sim {W : Type} {os : OS W} {w : Nat} {L : Labels} {base : Int} {P : List Asm} {i i0 : Nat} {ga : Int} {s : MS} {σ σ' : W} {sp G H : Int} (hw : w = 4 ∨ w = 8)
    (hat : At P i (setupCode w L ga)) (hi0 : P[i0]? = some (.lbl L.init_start)) (hga : 2 * w ≤ ga ∧ ga < 2147483648) (hs : Started w sp s) (hg : Given os w sp ga σ G H σ') :
    ∃ s', PSteps os w base P (.run i s σ) (.run i0 s' σ') ∧ s'.reg 3 = sgn w G ∧ s'.reg 4 = s.reg 4 ∧ Fresh w sp ga G H s.mem s'.mem := by
  obtain ⟨h4, h3, low, high⟩ := hs
  replace h3 := h3 3
  obtain ⟨g1, g2, ⟨g3, g4⟩, ⟨g5, g6⟩, g7, g8, g9⟩ := hg
  have wp : 0 < w := by rcases hw with rfl | rfl <;> omega
  unfold setupCode at hat
  simp only [List.append_assoc] at hat
  have b0 := hat.head
  have b1 := hat.right.left
  have b2 := hat.right.right.left.head
  have b3 := hat.right.right.right.left
  have b4 := hat.right.right.right.right.left
  have b5 := hat.right.right.right.right.right.head
  simp only [I_length, List.length_singleton, List.length_cons, List.length_nil] at b1 b2 b3 b4 b5
  obtain ⟨s1, p1, e0, e3, e4, em⟩ := alloc_sim (os := os) (σ := σ) (base := base) (sp := sp) hw (by omega) b1 h4 h3 (by omega) (by rw [g1]; exact g3) (by rw [g1]; exact g4)
    (by rw [g1]; omega)
  rw [g1] at e0 em
  generalize i + 1 + (os_allocate_memory w ga).length = q at p1 b2 b3 b4 b5
  let s2 := setReg s1 3 (s1.reg 0)
  have p2 : Step w base P (q, s1) (q + 1, s2) := .ins b2 (exec_mov hw ..)
  obtain ⟨s3, p3, f0, f3, f4, fm⟩ := alloc_sim (os := os) (σ := (os.serve σ (.alloc ga)).1) (base := base) (s := s2) (sp := sp) hw (by unfold RT_HEAP_SIZE; omega) b3 (e4.trans h4)
    (by show sgn w (s1.reg 0) = s1.reg 0; rw [e0, sgn_sgn]) (by omega) (by show 0 ≤ (os.serve _ (.alloc 104857600)).2; rw [g2]; exact g5)
    (by show (os.serve _ (.alloc 104857600)).2 + 104857600 ≤ _; rw [g2]; exact g6) (by show (os.serve _ (.alloc 104857600)).2 + 104857600 ≤ _ ∨ _ ≤ (os.serve _ (.alloc 104857600)).2; rw [g2]; omega)
  have g2' : os.serve (os.serve σ (.alloc ga)).1 (.alloc RT_HEAP_SIZE) = (σ', H) := g2
  rw [g2'] at p3 f0 fm
  have fm : ∀ x, ¬ (sp - w ≤ x ∧ x < sp) → s3.mem x = if H ≤ x ∧ x < H + 104857600 then 0 else s1.mem x := fm
  have f3' : s3.reg 3 = sgn w G := by rw [f3]; exact e0
  have f0' : s3.reg 0 = sgn w H := f0
  generalize q + 1 + (os_allocate_memory w RT_HEAP_SIZE).length = q2 at p3 b4 b5
  have b4' : At P q2 [.ins (mov_mem_reg w 3 0 0), .ins (mov_mem_reg w 3 w 0)] := b4
  let m4 := wr w s3.mem (s3.reg 3 + 0) (s3.reg 0) w
  let m5 := wr w m4 (s3.reg 3 + w) (s3.reg 0) w
  have p4 : Step w base P (q2, s3) (q2 + 1, { s3 with mem := m4 }) := .ins b4'.head (ex_st hw ..)
  have p5 : Step w base P (q2 + 1, { s3 with mem := m4 }) (q2 + 2, { s3 with mem := m5 }) := .ins b4'.tail.head (ex_st hw ..)
  have p6 : Step w base P (q2 + 2, { s3 with mem := m5 }) (i0, { s3 with mem := m5 }) := .jmp b5 hi0
  have a4 : uns w (s3.reg 3 + 0) = uns w G := by rw [f3', Int.add_zero, uns_sgn]
  have a5 : uns w (s3.reg 3 + w) = uns w (G + w) := by rw [f3', ← uns_sgn, sgn_add_l, uns_sgn]
  have m4e : m4 = wr w s3.mem G (sgn w H) w := by show wr w s3.mem (s3.reg 3 + 0) (s3.reg 0) w = _; rw [wr_addr w w _ _ _ _ a4, f0']
  have m5e : m5 = wr w m4 (G + w) (sgn w H) w := by show wr w m4 (s3.reg 3 + w) (s3.reg 0) w = _; rw [wr_addr w w _ _ _ _ a5, f0']
  have out4 : ∀ x, ¬ (G ≤ x ∧ x < G + w) → m4 x = s3.mem x := by
    intro x hx; rw [m4e, wr_out w w _ _ _ _ (by rw [inR_iff (by omega) (by omega)]; omega)]
  have out5 : ∀ x, ¬ (G + w ≤ x ∧ x < G + w + w) → m5 x = m4 x := by
    intro x hx; rw [m5e, wr_out w w _ _ _ _ (by rw [inR_iff (by omega) (by omega)]; omega)]
  refine ⟨{ s3 with mem := m5 }, ?_, f3', ?_, ?_, ?_, ?_, ?_, ?_⟩
  · refine .head (.cpu (.lbl b0)) (p1.trans (.head (.cpu p2) (p3.trans ?_)))
    exact .head (.cpu p4) (.head (.cpu p5) (.one (.cpu p6)))
  · show s3.reg 4 = _
    rw [f4]; exact e4
  · show cell w m5 G = _
    have : cell w m5 G = cell w m4 G := word_congr (by omega) (by omega) (fun x h1 h2 => out5 x (by omega))
    rw [this, m4e]
    unfold cell
    rw [rd_wr_word hw, sgn_sgn]
  · show cell w m5 (G + w) = _
    rw [m5e]
    unfold cell
    rw [rd_wr_word hw, sgn_sgn]
  · intro x h1 h2
    show m5 x = 0
    rw [out5 x (by omega), out4 x (by omega), fm x (by omega), if_neg (by omega), em x (by omega), if_pos (by omega)]
  · intro x h1 h2
    show m5 x = 0
    rw [out5 x (by omega), out4 x (by omega), fm x (by omega), if_pos (by omega)]
  · intro x h1 h2 h3
    show m5 x = _
    rw [out5 x (by omega), out4 x (by omega), fm x (by omega), if_neg (by omega), em x (by omega), if_neg (by omega)]

/-- From the label `init_next` to the call of `main`. -/
theorem main_sim {w : Nat} {L : Labels} {base : Int} {P : List Asm} {i : Nat} {mr : Bool} {s : MS} {sp : Int} (hw : w = 4 ∨ w = 8)
    (hat : At P i (mainCode w L mr)) (h4 : s.reg 4 = sgn w sp) (low : 5 * w ≤ sp) (high : sp + w ≤ (2 ^ (8 * w) : Nat)) :
    ∃ s', Steps w base P (i, s) (i + 6, s') ∧ P[i + 6]? = some (.call L.main) ∧ s'.reg 4 = sgn w (sp - 2 * w) ∧ s'.reg 3 = s.reg 3 ∧
      cell w s'.mem (sp - 2 * w) = cell w s.mem sp ∧ cell w s'.mem (sp - w) = sgn w (sp + w) ∧ (∀ x, ¬ (sp - 2 * w ≤ x ∧ x < sp) → s'.mem x = s.mem x) := by
  have wp : 0 < w := by rcases hw with rfl | rfl <;> omega
  unfold mainCode at hat
  simp only [List.append_assoc] at hat
  have b0 := hat.head
  have b1 : At P (i + 1) [.ins (.mov_reg_reg 0 4), .ins (.add_reg_imm 0 (0 + w)), .ins (.push_reg 0), .ins (mov_reg_mem w 1 0 (-w)), .ins (.push_reg 1)] := hat.right.left
  have b2 : P[i + 6]? = some (.call L.main) := hat.right.right.head
  let s1 := setReg s 0 (s.reg 4)
  let s2 := setReg s1 0 (sgn w (s1.reg 0 + (0 + w)))
  have x1 : exec1 w s ((Emit.mov_reg_reg 0 4).intended w) = some s1 := exec_mov hw ..
  have x2 : exec1 w s1 ((Emit.add_reg_imm 0 (0 + w)).intended w) = some s2 := by rcases hw with rfl | rfl <;> rfl
  have r0 : s2.reg 0 = sgn w (sp + w) := by
    show sgn w (s.reg 4 + (0 + w)) = _
    rw [h4, sgn_add_l]; congr 1; omega
  obtain ⟨s3, x3, e4, er, em, ec⟩ := push_sim' (s := s2) (sp := sp) hw h4 (by omega) 0
  let s4 := setReg s3 1 (cell w s3.mem (s3.reg 0 + -w))
  have x4 : exec1 w s3 ((mov_reg_mem w 1 0 (-w)).intended w) = some s4 := ex_ld hw ..
  have r1 : s4.reg 1 = cell w s.mem sp := by
    show cell w s3.mem (s3.reg 0 + -w) = _
    have : cell w s3.mem (s3.reg 0 + -w) = cell w s3.mem sp := cell_addr (by rw [er 0 (by omega), r0, sgn_add_l]; congr 1; omega)
    rw [this]
    exact word_congr (by omega) (by omega) (fun x h1 h2 => by rw [em x (by omega)]; rfl)
  obtain ⟨s5, x5, f4, fr, fm, fc⟩ := push_sim' (s := s4) (sp := sp - w) hw e4 (by omega) 1
  have e2 : sp - (2 : Int) * w = sp - w - w := by omega
  refine ⟨s5, ?_, b2, by rw [f4, e2], ?_, ?_, ?_, ?_⟩
  · exact .head (.lbl b0) (.head (.ins b1.head x1) (.head (.ins b1.tail.head x2) (.head (.ins b1.tail.tail.head x3) (.head (.ins b1.tail.tail.tail.head x4)
      (.head (.ins b1.tail.tail.tail.tail.head x5) .refl)))))
  · rw [fr 3 (by omega)]
    show s3.reg 3 = _
    rw [er 3 (by omega)]; rfl
  · rw [e2, fc, r1]
    exact sgn_sgn ..
  · have : cell w s5.mem (sp - w) = cell w s4.mem (sp - w) := word_congr (by omega) (by omega) (fun x h1 h2 => fm x (by omega))
    rw [this]
    show cell w s3.mem (sp - w) = _
    rw [ec, r0, sgn_sgn]
  · intro x hx
    rw [fm x (by omega)]
    show s3.mem x = _
    rw [em x (by omega)]; rfl

/-- After `main` has returned. -/
theorem end_sim {W : Type} {os : OS W} {w : Nat} {L : Labels} {base : Int} {P : List Asm} {i : Nat} {mr : Bool} {s : MS} {sp : Int} {σ : W} (hw : w = 4 ∨ w = 8)
    (hat : At P i (mainCode w L mr)) (h4 : s.reg 4 = sgn w sp) (hsp : 3 * w ≤ sp ∧ sp ≤ (2 ^ (8 * w) : Nat)) :
    PSteps os w base P (.run (i + 7) s σ) (.done (if mr then (s.reg 0 % 256).toNat else 0) σ) := by
  have wp : 0 < w := by rcases hw with rfl | rfl <;> omega
  unfold mainCode at hat
  simp only [List.append_assoc] at hat
  have b1 : At P (i + 7) _ := hat.right.right.right.left
  have b2 : At P (i + 7 + _) [.ins (.push_reg 0), .ins (.push_reg 0)] := hat.right.right.right.right.left
  have b3 : P[i + 7 + _ + 2]? = some (.lbl L.exit) := hat.right.right.right.right.right.left.head
  have b4 : At P (i + 7 + _ + 2 + 1) (.ins (mov_reg_mem w 0 4 w) :: I (os_exit w)) := hat.right.right.right.right.right.right
  have h0 : ∃ s1, Steps w base P (i + 7, s) (i + 7 + (I (if mr = true then [] else [Emit.mov_reg_imm 0 0])).length, s1) ∧ s1.reg 0 = (if mr then s.reg 0 else 0) ∧ s1.reg 4 = s.reg 4 := by
    cases mr with
    | true => exact ⟨s, .refl, rfl, rfl⟩
    | false => exact ⟨_, .head (.ins b1.head (exec_imm hw ..)) .refl, sgn_lt hw (by omega) (by omega), rfl⟩
  obtain ⟨s1, p1, e0, e4⟩ := h0
  generalize i + 7 + (I (if mr = true then [] else [Emit.mov_reg_imm 0 0])).length = q at p1 b2 b3 b4
  obtain ⟨s2, x2, f4, fr, fm, fc⟩ := push_sim' (s := s1) (sp := sp) hw (e4.trans h4) (by omega) 0
  obtain ⟨s3, x3, g4, gr, gm, gc⟩ := push_sim' (s := s2) (sp := sp - w) hw f4 (by omega) 0
  let s4 := setReg s3 0 (cell w s3.mem (s3.reg 4 + w))
  have x4 : exec1 w s3 ((mov_reg_mem w 0 4 w).intended w) = some s4 := ex_ld hw ..
  have r0 : s4.reg 0 = sgn w (s1.reg 0) := by
    show cell w s3.mem (s3.reg 4 + w) = _
    have : cell w s3.mem (s3.reg 4 + w) = cell w s3.mem (sp - w) := cell_addr (by rw [g4, sgn_add_l]; congr 1; omega)
    rw [this, ← fc]
    exact word_congr (by omega) (by omega) (fun x h1 h2 => gm x (by omega))
  have p4 := exit_sim (os := os) (σ := σ) (base := base) (s := s4) (sp := sp - w - w) hw b4.tail g4 (by omega)
  rw [r0, sgn_emod256 hw, e0] at p4
  have : (if mr = true then (s.reg 0 % 256).toNat else 0) = ((if mr = true then s.reg 0 else 0) % 256).toNat := by cases mr <;> rfl
  rw [this]
  refine (PSteps.cpus (os := os) (σ := σ) p1).trans (.head (.cpu (.ins b2.head x2)) (.head (.cpu (.ins b2.tail.head x3)) (.head (.cpu (.lbl b3)) (.head (.cpu (.ins b4.head x4)) p4))))

end Verif.Sys
