import Verif.Cg.Expr4
/-! Correctness of the code of expressions: `&&`, `||`, `?:`, calls; all expressions. -/
namespace Verif.Cg
open Verif Verif.Gen Verif.Gen.Spec Verif.X86 Verif.X86.Spec Spec

section
variable {C : Ctx} {base : Mach} {P : List Asm} {Γ : Env} {ρ : Spec.Env} {F G : Int} {cf : CallF}

/-- A jump on the result of a comparison with zero. -/
theorem jump_zero {w : Nat} {pc cc n : Nat} {s : MS} {z : Int} (hat : At P pc (jump_cond_reg_reg cc n 0 1)) (h0 : s.reg 0 = z) (h1 : s.reg 1 = 0)
    (hcc : cc = 4 ∨ cc = 5) :
    ((cc = 4 ↔ z = 0) → ∀ i, P[i]? = some (.lbl n) → Go w base P (pc, s) (i, { s with cmpA := s.reg 0, cmpB := s.reg 1 })) ∧
    (¬ (cc = 4 ↔ z = 0) → Go w base P (pc, s) (pc + 2, { s with cmpA := s.reg 0, cmpB := s.reg 1 })) := by
  constructor
  · intro h i hi
    refine .head (.ins hat.head (exec_cmp s 0 1)) (.one (.jccT hat.tail.head ?_ hi))
    show X86.Spec.cond w cc (s.reg 0) (s.reg 1) = _
    rw [h0, h1]
    rcases hcc with rfl | rfl
    · simp [X86.Spec.cond, h.1 rfl]
    · have : z ≠ 0 := fun e => absurd (h.2 e) (by decide)
      simp [X86.Spec.cond, this]
  · intro h
    refine jump_no hat ?_
    rw [h0, h1]
    rcases hcc with rfl | rfl
    · have : z ≠ 0 := fun e => h (by simp [e])
      simp [X86.Spec.cond, this]
    · have : z = 0 := Classical.byContradiction fun e => h (by simp [e])
      simp [X86.Spec.cond, this]

/-- The test of a condition. -/
theorem test_steps {cc n pc : Nat} {sp : Int} {M M1 : Mem} {s s1 : MS} {z : Int} (o : OutV C G sp M M1 s s1 z)
    (hat : At P pc (I [.pop_reg 0, .xor_reg_reg 1 1] ++ jump_cond_reg_reg cc n 0 1)) (hcc : cc = 4 ∨ cc = 5) :
    ∃ s2, Rel C G sp M1 s2 ∧ Outside C M sp s s2 ∧
      ((cc = 4 ↔ z = 0) → ∀ i, P[i]? = some (.lbl n) → Go C.w base P (pc, s1) (i, s2)) ∧
      (¬ (cc = 4 ↔ z = 0) → Go C.w base P (pc, s1) (pc + 4, s2)) := by
  obtain ⟨s2, p1, p2, p3, p4⟩ := sl_pop o.rel sp (r := 0) (by decide) (by decide)
  have p1r := p1.rel
  rw [show sp - (C.w : Int) + C.w = sp by omega] at p1 p1r
  have a1 := sl_set p1r sp (exec_xor0 s2 1) (by decide) (by decide) (by simp [sgn])
  have sl := p1.trans a1
  have st1 := go_run (base := base) (w := C.w) (es := [.pop_reg 0] ++ [.xor_reg_reg 1 1]) hat.left sl.run
  obtain ⟨j1, j2⟩ := jump_zero (base := base) (w := C.w) hat.right (s := setReg s2 1 0) (z := z) (by simp [setReg, p2, o.top]) (by simp [setReg]) hcc
  refine ⟨_, sl.rel.cmp ((setReg s2 1 0).reg 0) ((setReg s2 1 0).reg 1), o.out.trans o.dom sl.scr.out (Int.le_refl _) (Int.le_refl _), fun h i hi => st1.trans (j1 h i hi), fun h => st1.trans (j2 h)⟩

theorem OutV.cmp {sp : Int} {M M' : Mem} {s s' : MS} {z : Int} (h : OutV C G sp M M' s s' z) (x y : Int) :
    OutV C G sp M M' s { s' with cmpA := x, cmpB := y } z := ⟨h.rel.cmp x y, h.out, h.top, h.dom⟩

/-- Code of `&&` and `||`: the second operand is evaluated unless the first decides. -/
theorem short_steps (H : Hyp C base P Γ ρ F G cf) {cc n pc : Nat} {sp : Int} {M M1 : Mem} {s s1 : MS} {z : Int} {cb : List Asm}
    (hr : C.lim + 5 * C.w ≤ sp) (hM : MemOk C sp M) (o : OutV C G sp M M1 s s1 z)
    (hat : At P pc (I [.pop_reg 0, .push_reg 0, .xor_reg_reg 1 1] ++ jump_cond_reg_reg cc n 0 1 ++ I [.pop_reg 0] ++ cb ++ [.lbl n])) (hcc : cc = 4 ∨ cc = 5) :
    ((cc = 4 ↔ z = 0) → ∃ s', Go C.w base P (pc, s1) (pc + 6 + cb.length + 1, s') ∧ OutV C G sp M M1 s s' z) ∧
    (¬ (cc = 4 ↔ z = 0) → ∃ s', Go C.w base P (pc, s1) (pc + 6, s') ∧ Rel C G sp M1 s' ∧ Outside C M sp s s') := by
  have hM1 := hM.same o.dom
  obtain ⟨s2, p1, p2, p3, p4⟩ := sl_pop o.rel sp (r := 0) (by decide) (by decide)
  have p1r := p1.rel
  rw [show sp - (C.w : Int) + C.w = sp by omega] at p1 p1r
  obtain ⟨s3, b1, b2, b3, b4⟩ := sl_push H.hw p1r hM1 (Int.le_refl _) (by omega) 0
  have a1 := sl_set b1.rel sp (exec_xor0 s3 1) (by decide) (by decide) (by simp [sgn])
  have sl := (p1.trans b1).trans a1
  have st1 := go_run (base := base) (w := C.w) (es := [.pop_reg 0] ++ [.push_reg 0] ++ [.xor_reg_reg 1 1]) hat.left.left.left.left sl.run
  have k3 : word C.w s3.mem (sp - C.w) = z := by rw [b3, p2, o.top]
  have o2 : OutV C G sp M M1 s (setReg s3 1 0) z := o.sl sl k3
  obtain ⟨j1, j2⟩ := jump_zero (base := base) (w := C.w) hat.left.left.left.right (s := setReg s3 1 0) (z := z)
    (by simp [setReg]; rw [b2 0 (by decide), p2, o.top]) (by simp [setReg]) hcc
  constructor
  · intro h
    have hl : P[pc + 6 + cb.length]? = some (.lbl n) := by
      have := hat.right.head
      rw [← this]; congr 1
      simp [I, jump_cond_reg_reg]; omega
    exact ⟨_, (st1.trans (j1 h _ hl)).trans (.one (.lbl hl)), o2.cmp _ _⟩
  · intro h
    have st2 := st1.trans (j2 h)
    have o3 := o2.cmp ((setReg s3 1 0).reg 0) ((setReg s3 1 0).reg 1)
    obtain ⟨s4, d1, d2, d3, d4⟩ := sl_pop o3.rel sp (r := 0) (by decide) (by decide)
    have d1r := d1.rel
    rw [show sp - (C.w : Int) + C.w = sp by omega] at d1 d1r
    refine ⟨s4, ?_, d1r, o3.out.trans o3.dom d1.scr.out (Int.le_refl _) (Int.le_refl _)⟩
    have st3 := go_run (base := base) (w := C.w) hat.left.left.right d1.run
    refine st2.trans ?_
    have e : pc + (I [.pop_reg 0, .push_reg 0, .xor_reg_reg 1 1] ++ jump_cond_reg_reg cc n 0 1).length = pc + 5 := by simp [I, jump_cond_reg_reg]
    rw [e] at st3
    exact st3

theorem b2i_zero (b : Bool) : b2i b = 0 ↔ b = false := by cases b <;> simp [b2i]

theorem topOk_bool {z v : Int} {md : Md} (h : topOk md z v) (hb : md = .low 0 ∨ md = .test ∨ (v = 0 ∨ v = 1)) : topOk md z (b2i (decide (v ≠ 0))) := by
  rcases hb with rfl | rfl | hb
  · simp [topOk]
  · have h' : z = 0 ↔ v = 0 := h
    show z = 0 ↔ _
    rw [h', b2i_zero]; simp
  · rcases hb with rfl | rfl <;> simpa [b2i] using h

theorem rv_land (H : Hyp C base P Γ ρ F G cf) (a b : E) (iha : RV C base P Γ ρ F G cf a) (ihb : RV C base P Γ ρ F G cf b) :
    RV C base P Γ ρ F G cf (.land a b) := by
  intro md fs l c fs' l' sp M v' M' pc s hc hs hm he hsp hat hR hM
  simp only [codegen_rvalue, Res.bind_eq_ok, Res.ok.injEq, Prod.mk.injEq] at hc
  obtain ⟨⟨ca, f1, l1⟩, h1, ⟨cb, f2, l2⟩, h2, rfl, -, -⟩ := hc
  simp only [evalE, Option.ite_none_right_eq_some, Option.bind_eq_some_iff] at he
  obtain ⟨hr, ⟨va, M1⟩, ea, eb⟩ := he
  unfold Room at hr
  have hs' : Sup C Γ ρ.kind .test a = true ∧ Sup C Γ ρ.kind md b = true ∧ (md = .low 0 ∨ md = .test ∨ isBool b = true) := by
    simp only [Sup, Bool.and_eq_true] at hs
    refine ⟨hs.1, ?_⟩
    have := hs.2
    split at this
    · exact ⟨this, by simp⟩
    · exact ⟨this, by simp⟩
    · simp only [Bool.and_eq_true] at this
      exact ⟨this.2, by simp [this.1]⟩
  obtain ⟨sa, sb, hb⟩ := hs'
  have hf1 := (fs_all H.hw C.T Γ a).1 _ _ _ _ _ h1
  simp only [List.append_assoc] at hat
  obtain ⟨s1, x, st1, o1, t1⟩ := iha _ _ _ _ _ _ _ _ _ _ _ _ h1 sa trivial ea hsp hat.left hR hM
  have hat2 := hat.right
  simp only [← List.append_assoc] at hat2
  have t1' : x = 0 ↔ va = 0 := t1
  obtain ⟨j1, j2⟩ := short_steps H hr hM o1 hat2 (.inl rfl)
  simp only at eb
  have len : ∀ k, pc + ca.length + 6 + cb.length + 1 = k → pc + (ca ++ I [.pop_reg 0, .push_reg 0, .xor_reg_reg 1 1] ++ jump_cond_reg_reg 0x4 l 0 1 ++
      I [.pop_reg 0] ++ cb ++ [Asm.lbl l]).length = k := by
    intro k hk; simp [I, jump_cond_reg_reg]; omega
  rw [len _ rfl]
  by_cases hz : va = 0
  · rw [if_pos hz, Option.some.injEq, Prod.mk.injEq] at eb
    obtain ⟨rfl, rfl⟩ := eb
    obtain ⟨s2, st2, o2⟩ := j1 (by simp [t1'.2 hz])
    refine ⟨s2, x, st1.trans st2, o2, ?_⟩
    rw [t1'.2 hz]
    cases md <;> simp [topOk]
  · rw [if_neg hz] at eb
    simp only [Option.bind_eq_some_iff, Option.some.injEq, Prod.mk.injEq] at eb
    obtain ⟨⟨vb, M2⟩, eb, rfl, rfl⟩ := eb
    obtain ⟨s2, st2, r2, o2⟩ := j2 (by simp only [true_iff]; rw [t1']; exact hz)
    obtain ⟨s3, y, st3, o3, t3⟩ := ihb _ _ _ _ _ _ _ _ _ _ (pc + ca.length + 6) _ h2 sb hm eb (by rw [hf1, hsp]; simp) (by
        have := hat2.left.right
        have e : pc + ca.length + (I [.pop_reg 0, .push_reg 0, .xor_reg_reg 1 1] ++ jump_cond_reg_reg 0x4 l 0 1 ++ I [.pop_reg 0]).length = pc + ca.length + 6 := by
          simp [I, jump_cond_reg_reg]
        rwa [e] at this) r2 (hM.same o1.dom)
    have hl : P[pc + ca.length + 6 + cb.length]? = some (.lbl l) := by
      have := hat2.right.head
      rw [← this]; congr 1
      simp [I, jump_cond_reg_reg]; omega
    refine ⟨s3, y, ((st1.trans st2).trans st3).trans (.one (.lbl hl)), OutV.trans o2 o1.dom o3, ?_⟩
    exact topOk_bool t3 (hb.imp id (Or.imp id (fun h => isBool_val h eb)))

theorem rv_lor (H : Hyp C base P Γ ρ F G cf) (a b : E) (iha : RV C base P Γ ρ F G cf a) (ihb : RV C base P Γ ρ F G cf b) :
    RV C base P Γ ρ F G cf (.lor a b) := by
  intro md fs l c fs' l' sp M v' M' pc s hc hs hm he hsp hat hR hM
  simp only [codegen_rvalue, Res.bind_eq_ok, Res.ok.injEq, Prod.mk.injEq] at hc
  obtain ⟨⟨ca, f1, l1⟩, h1, ⟨cb, f2, l2⟩, h2, rfl, -, -⟩ := hc
  simp only [evalE, Option.ite_none_right_eq_some, Option.bind_eq_some_iff] at he
  obtain ⟨hr, ⟨va, M1⟩, ea, eb⟩ := he
  unfold Room at hr
  -- the use of the value of the left operand
  have hs' : ∃ ma, mdOk C ma ∧ Sup C Γ ρ.kind ma a = true ∧ Sup C Γ ρ.kind md b = true ∧ (md = .low 0 ∨ md = .test ∨ isBool b = true) ∧
      (ma = .test ∧ (md = .low 0 ∨ md = .test) ∨ ma = .low C.w ∧ isBool a = true) := by
    simp only [Sup] at hs
    split at hs
    · simp only [Bool.and_eq_true] at hs
      exact ⟨.test, trivial, hs.1, hs.2, by simp, by simp⟩
    · simp only [Bool.and_eq_true] at hs
      exact ⟨.test, trivial, hs.1, hs.2, by simp, by simp⟩
    · simp only [Bool.and_eq_true] at hs
      exact ⟨.low C.w, Nat.le_refl _, hs.1.1.2, hs.2, by simp [hs.1.2], .inr ⟨rfl, hs.1.1.1⟩⟩
  obtain ⟨ma, hma, sa, sb, hb, hba⟩ := hs'
  have hf1 := (fs_all H.hw C.T Γ a).1 _ _ _ _ _ h1
  simp only [List.append_assoc] at hat
  obtain ⟨s1, x, st1, o1, t1⟩ := iha _ _ _ _ _ _ _ _ _ _ _ _ h1 sa hma ea hsp hat.left hR hM
  have hat2 := hat.right
  simp only [← List.append_assoc] at hat2
  have t1' : x = 0 ↔ va = 0 := by
    rcases hba with ⟨rfl, _⟩ | ⟨rfl, hba⟩
    · exact t1
    · have e := topOk_full o1.sgn t1
      rcases isBool_val hba ea with rfl | rfl
      · rw [e]; simp [sgn]
      · rw [e]; have := sgn_b2i H.hw true
        simp only [b2i, if_true] at this
        rw [this]
  have t1'' : topOk md x (b2i (decide (va ≠ 0))) := by
    rcases hba with ⟨rfl, rfl | rfl⟩ | ⟨rfl, hba⟩
    · simp [topOk]
    · exact topOk_bool t1 (by simp)
    · have e := topOk_full o1.sgn t1
      have e2 : x = b2i (decide (va ≠ 0)) := by
        rcases isBool_val hba ea with rfl | rfl
        · rw [e]; simp [sgn, b2i]
        · rw [e]; exact sgn_b2i H.hw true
      rw [e2]
      have := topOk_fits H.hw (fits_b2i H.hw (decide (va ≠ 0))) hm
      rwa [sgn_b2i H.hw] at this
  obtain ⟨j1, j2⟩ := short_steps H hr hM o1 hat2 (.inr rfl)
  simp only at eb
  have len : ∀ k, pc + ca.length + 6 + cb.length + 1 = k → pc + (ca ++ I [.pop_reg 0, .push_reg 0, .xor_reg_reg 1 1] ++ jump_cond_reg_reg 0x5 l 0 1 ++
      I [.pop_reg 0] ++ cb ++ [Asm.lbl l]).length = k := by
    intro k hk; simp [I, jump_cond_reg_reg]; omega
  rw [len _ rfl]
  by_cases hz : va = 0
  · rw [if_neg (by simp [hz])] at eb
    simp only [Option.bind_eq_some_iff, Option.some.injEq, Prod.mk.injEq] at eb
    obtain ⟨⟨vb, M2⟩, eb, rfl, rfl⟩ := eb
    obtain ⟨s2, st2, r2, o2⟩ := j2 (by simp [t1'.2 hz])
    obtain ⟨s3, y, st3, o3, t3⟩ := ihb _ _ _ _ _ _ _ _ _ _ (pc + ca.length + 6) _ h2 sb hm eb (by rw [hf1, hsp]; simp) (by
        have := hat2.left.right
        have e : pc + ca.length + (I [.pop_reg 0, .push_reg 0, .xor_reg_reg 1 1] ++ jump_cond_reg_reg 0x5 l 0 1 ++ I [.pop_reg 0]).length = pc + ca.length + 6 := by
          simp [I, jump_cond_reg_reg]
        rwa [e] at this) r2 (hM.same o1.dom)
    have hl : P[pc + ca.length + 6 + cb.length]? = some (.lbl l) := by
      have := hat2.right.head
      rw [← this]; congr 1
      simp [I, jump_cond_reg_reg]; omega
    refine ⟨s3, y, ((st1.trans st2).trans st3).trans (.one (.lbl hl)), OutV.trans o2 o1.dom o3, ?_⟩
    exact topOk_bool t3 (hb.imp id (Or.imp id (fun h => isBool_val h eb)))
  · rw [if_pos hz, Option.some.injEq, Prod.mk.injEq] at eb
    obtain ⟨rfl, rfl⟩ := eb
    obtain ⟨s2, st2, o2⟩ := j1 (by simp only [show ¬ (5 = 4) by decide, false_iff]; rw [t1']; exact hz)
    refine ⟨s2, x, st1.trans st2, o2, ?_⟩
    simpa [hz, b2i] using t1''

theorem rv_cond (H : Hyp C base P Γ ρ F G cf) (a b d : E) (iha : RV C base P Γ ρ F G cf a) (ihb : RV C base P Γ ρ F G cf b)
    (ihd : RV C base P Γ ρ F G cf d) : RV C base P Γ ρ F G cf (.cond a b d) := by
  intro md fs l c fs' l' sp M v' M' pc s hc hs hm he hsp hat hR hM
  simp only [codegen_rvalue, Res.bind_eq_ok, Res.ok.injEq, Prod.mk.injEq] at hc
  obtain ⟨⟨ca, f1, l1⟩, h1, ⟨cb, f2, l2⟩, h2, ⟨cd, f3, l3⟩, h3, rfl, -, -⟩ := hc
  simp only [evalE, Option.ite_none_right_eq_some, Option.bind_eq_some_iff, Option.some.injEq, Prod.mk.injEq] at he
  obtain ⟨hr, t, ht, hsc, ⟨va, M1⟩, ea, ⟨v, M2⟩, ev, rfl, rfl⟩ := he
  unfold Room at hr
  have hsz := sizeof_le H.hw C.T hsc
  have hf1 := (fs_all H.hw C.T Γ a).1 _ _ _ _ _ h1
  have hf2 := (fs_all H.hw C.T Γ b).1 _ _ _ _ _ h2
  simp only [Sup, Bool.and_eq_true, ht] at hs
  obtain ⟨sa, hs⟩ := hs
  cases htb : ctype C ρ.kind b with
  | none => rw [htb] at hs; simp at hs
  | some tb =>
  cases htd : ctype C ρ.kind d with
  | none => rw [htb, htd] at hs; simp at hs
  | some td =>
  rw [htb, htd] at hs
  simp only at hs
  -- what is needed of the branches
  obtain ⟨mb, hmb, sb, sd, fin⟩ : ∃ mb, mdOk C mb ∧ Sup C Γ ρ.kind mb b = true ∧ Sup C Γ ρ.kind mb d = true ∧
      ∀ z v M1 M2, sgn C.w z = z → topOk mb z v → (evalE C cf ρ b sp M1 = some (v, M2) ∨ evalE C cf ρ d sp M1 = some (v, M2)) →
        topOk md z (conv C t v) := by
    by_cases hle : md.le (sizeof C.w C.T t) = true
    · rw [if_pos hle] at hs
      simp only [Bool.and_eq_true] at hs
      refine ⟨md, hm, hs.1, hs.2, fun z v M1 M2 hz h _ => ?_⟩
      cases md with
      | test => simp [Md.le] at hle
      | low n =>
        simp only [Md.le, decide_eq_true_eq] at hle
        show _ = _
        rw [conv_emod C t v hle]; exact h
    · rw [if_neg hle] at hs
      simp only [Bool.and_eq_true] at hs
      obtain ⟨⟨⟨sb, sd⟩, cb⟩, cd⟩ := hs
      refine ⟨.low C.w, Nat.le_refl _, sb, sd, fun z v M1 M2 hz h hv => ?_⟩
      have e : sgn C.w (conv C t v) = sgn C.w v := by
        rcases hv with hv | hv
        · obtain ⟨te', e1, fe⟩ := val_fits H (low_w H) sb hv
          rw [htb] at e1; cases e1
          exact convOk_val H.hw cb fe.1 fe.2
        · obtain ⟨te', e1, fe⟩ := val_fits H (low_w H) sd hv
          rw [htd] at e1; cases e1
          exact convOk_val H.hw cd fe.1 fe.2
      rw [topOk_full hz h, ← e]
      exact topOk_fits H.hw (conv_fits H.hw hsc v) hm
  have e0 : ca ++ I [.pop_reg 0, .xor_reg_reg 1 1] ++ jump_cond_reg_reg 0x4 l 0 1 ++ cb ++ [.jmp (l + 1), .lbl l] ++ cd ++ [.lbl (l + 1)] =
    ca ++ ((I [.pop_reg 0, .xor_reg_reg 1 1] ++ jump_cond_reg_reg 0x4 l 0 1) ++ (cb ++ ([.jmp (l + 1)] ++ ([.lbl l] ++ (cd ++ [.lbl (l + 1)]))))) := by
    simp only [List.append_assoc, List.cons_append, List.nil_append]
  rw [e0] at hat ⊢
  obtain ⟨s1, x, st1, o1, t1⟩ := iha _ _ _ _ _ _ _ _ _ _ _ _ h1 sa trivial ea hsp hat.left hR hM
  have hM1 := hM.same o1.dom
  have t1' : x = 0 ↔ va = 0 := t1
  have a1 := hat.right.left
  have a2 := hat.right.right.left
  have a3 := hat.right.right.right.left
  have a4 := hat.right.right.right.right.left
  have a5 := hat.right.right.right.right.right.left
  have a6 := hat.right.right.right.right.right.right
  obtain ⟨s2, r2, o2, j1, j2⟩ := test_steps (base := base) o1 a1 (.inl rfl)
  simp only [true_iff] at j1 j2
  by_cases hz : va = 0
  · simp only [hz, ne_eq, not_true, if_false] at ev
    have st2 := (j1 (t1'.2 hz) _ a4.head).trans (.one (.lbl a4.head))
    obtain ⟨s3, y, st3, o3, t3⟩ := ihd _ _ _ _ _ _ _ _ _ _ _ _ h3 sd hmb ev (by rw [hf2, hf1, hsp]; simp) a5 r2 hM1
    refine ⟨s3, y, ?_, OutV.trans o2 o1.dom o3, fin _ _ _ _ o3.sgn t3 (.inr ev)⟩
    have st4 := ((st1.trans st2).trans st3).trans (.one (.lbl a6.head))
    simp only [List.length_append, List.length_cons, List.length_nil, ← Nat.add_assoc, Nat.add_zero, Nat.zero_add] at st4 ⊢
    exact st4
  · simp only [hz, ne_eq, not_false_iff, if_true] at ev
    have st2 := j2 (fun h => hz (t1'.1 h))
    obtain ⟨s3, y, st3, o3, t3⟩ := ihb _ _ _ _ _ _ _ _ _ _ _ _ h2 sb hmb ev (by rw [hf1, hsp]; simp) a2 r2 hM1
    refine ⟨s3, y, ?_, OutV.trans o2 o1.dom o3, fin _ _ _ _ o3.sgn t3 (.inl ev)⟩
    have st4 := ((st1.trans st2).trans st3).trans (jump_lbl a3.head a6.head)
    simp only [List.length_append, List.length_cons, List.length_nil, ← Nat.add_assoc, Nat.add_zero, Nat.zero_add] at st4 ⊢
    exact st4

/-- An expression is only evaluated where there is room. -/
theorem eval_room {e : E} {sp : Int} {M M' : Mem} {v : Int} (h : evalE C cf ρ e sp M = some (v, M')) : C.lim + 5 * C.w ≤ sp := by
  cases e <;> simp only [evalE, Option.ite_none_right_eq_some, reduceCtorEq] at h <;> first | exact h.1 | exact h.1.1

theorem pv_nil (e : E) (he : e = .anil ∨ ∀ fs l, codegen_params C.w C.T Γ e fs l = .fatal) : PV C base P Γ ρ F G cf e := by
  intro fs l c fs' l' k sp M vs M' pc s hc hs he' hsp hat hR hM
  rcases he with rfl | h
  · simp only [codegen_params, Res.ok.injEq, Prod.mk.injEq] at hc
    obtain ⟨rfl, -, -, -⟩ := hc
    simp only [evalA, Option.some.injEq, Prod.mk.injEq] at he'
    obtain ⟨rfl, rfl⟩ := he'
    refine ⟨s, .refl, ?_, Outside.refl _ _ _ _, SameDom.refl _, fun i h => absurd h (by simp)⟩
    simpa [nargs] using hR
  · rw [h] at hc; cases hc

theorem pv_cons (H : Hyp C base P Γ ρ F G cf) (e es : E) (ihe : RV C base P Γ ρ F G cf e) (ihs : PV C base P Γ ρ F G cf es) :
    PV C base P Γ ρ F G cf (.acons e es) := by
  intro fs l c fs' l' k sp M vs M' pc s hc hs he hsp hat hR hM
  simp only [codegen_params, Res.bind_eq_ok] at hc
  obtain ⟨⟨c1, f1, l1, n1⟩, h1, t, ht, hc⟩ := hc
  split at hc
  · cases hc
  simp only [Res.bind_eq_ok, Res.ok.injEq, Prod.mk.injEq] at hc
  obtain ⟨⟨c2, f2, l2⟩, h2, k2, hk2, rfl, -, -, -⟩ := hc
  simp only [evalA, Option.bind_eq_some_iff, Option.some.injEq, Prod.mk.injEq] at he
  obtain ⟨⟨vs', M1⟩, ea, ⟨v, M2⟩, ev, rfl, rfl⟩ := he
  simp only [SupA, Bool.and_eq_true] at hs
  have hroom : C.lim ≤ sp - nargs es * C.w - C.w := by
    have := eval_room ev
    omega
  have hf := (fs_all H.hw C.T Γ es).2.2 _ _ _ _ _ _ h1
  obtain ⟨s1, st1, r1, o1, d1, w1⟩ := ihs _ _ _ _ _ _ _ _ _ _ _ _ h1 hs.2 ea hsp hat.left hR hM
  have hM1 := hM.same d1
  have hn : (0 : Int) ≤ nargs es * C.w := Int.mul_nonneg (by omega) (by omega)
  obtain ⟨s2, z, st2, o2, t2⟩ := ihe _ _ _ _ _ _ _ _ _ _ _ _ h2 hs.1 (Nat.le_refl _) ev (by
    show _ = F - f1 * _
    rw [hf.1, hsp, Int.add_mul]; omega) hat.right r1 (hM1.mono (by omega))
  have e1 : sp - ((nargs (.acons e es) : Nat) : Int) * C.w = sp - nargs es * C.w - C.w := by
    simp only [nargs]; push_cast; rw [Int.add_mul]; omega
  have hl : vs'.length = nargs es := evalA_len ea
  rw [e1]
  refine ⟨s2, ?_, o2.rel, o1.trans d1 o2.out (Int.le_refl _) (by omega), d1.trans o2.dom, ?_⟩
  · rw [List.length_append, ← Nat.add_assoc]; exact st1.trans st2
  · intro i hi
    cases i with
    | zero =>
      have := o2.top
      simp only [Int.ofNat_zero, Int.zero_mul, Int.add_zero, List.getElem_cons_zero]
      rw [this, topOk_full o2.sgn t2]
    | succ i =>
      have hi' : i < vs'.length := by simpa using hi
      have := w1 i hi'
      simp only [List.getElem_cons_succ]
      have hi2 : ((i : Int) + 1) * C.w ≤ nargs es * C.w := by
        refine Int.mul_le_mul_of_nonneg_right ?_ (by omega)
        omega
      have hi3 : (0 : Int) ≤ i * C.w := Int.mul_nonneg (by omega) (by omega)
      rw [Int.add_mul] at hi2
      rw [← this, ← o2.out.word (a := sp - nargs es * C.w + i * C.w) hM1 (by omega) (by omega) (by omega)]
      congr 1
      push_cast; rw [Int.add_mul]; omega

theorem rv_call (H : Hyp C base P Γ ρ F G cf) (f : Nat) (args : E) (ih : PV C base P Γ ρ F G cf args) :
    RV C base P Γ ρ F G cf (.call f args) := by
  intro md fs l c fs' l' sp M v' M' pc s hc hs hm he hsp hat hR hM
  simp only [codegen_rvalue, Res.bind_eq_ok] at hc
  obtain ⟨b, hb, hc⟩ := hc
  cases b with
  | loc _ => cases hc
  | glo _ _ => cases hc
  | cst _ => cases hc
  | fn lbl r =>
  simp only [Res.bind_eq_ok, Res.ok.injEq, Prod.mk.injEq] at hc
  obtain ⟨⟨ca, f1, l1, n⟩, h1, rfl, -, -⟩ := hc
  simp only [evalE, Option.ite_none_right_eq_some, Option.bind_eq_some_iff] at he
  obtain ⟨hr, rt, hrt, ⟨vs, M1⟩, ea, ec⟩ := he
  unfold Room at hr
  simp only [Sup, Bool.and_eq_true, Bool.or_eq_true, beq_iff_eq] at hs
  have hf := (fs_all H.hw C.T Γ args).2.2 _ _ _ _ _ _ h1
  have hn : n = nargs args := hf.2
  subst hn
  have hl : vs.length = nargs args := evalA_len ea
  obtain ⟨s1, st1, r1, o1, d1, w1⟩ := ih _ _ _ _ _ _ _ _ _ _ _ _ h1 hs.1 ea hsp hat.left.left.left hR hM
  have hM1 := hM.same d1
  have hk := H.env.fn _ _ _ hb
  have hrt' : rt = r := by
    simp only [ctype, hk, Option.bind_some, Option.some.injEq] at hrt
    exact hrt.symm
  subst hrt'
  have esp : sp - nargs args * C.w + vs.length * C.w = sp := by rw [hl]; omega
  obtain ⟨s2, st2, r2, o2, t2⟩ := H.call f vs _ M1 v' M' lbl rt _ s1 hb hat.left.left.right.head ec r1 (by rw [esp]; exact hM1) w1
  rw [esp] at o2
  have d2 : SameDom M1 M' := H.cfok.dom _ _ _ _ _ _ ec (by rw [esp]; exact hM1)
  have hM2 := hM1.same d2
  have b1 := sl_grow r2 sp (-(-(nargs args : Int)) * C.w)
  have b1r := b1.rel
  rw [show sp - (nargs args : Int) * C.w + -(-(nargs args : Int)) * C.w = sp by rw [Int.neg_neg]; omega] at b1 b1r
  obtain ⟨s4, e1, e2, e3, e4⟩ := sl_push H.hw b1r hM2 (Int.le_refl _) (by omega) 0
  have sl := b1.trans e1
  have ei : grow_stack C.w (-(nargs args : Int)) ++ I [.push_reg 0] = I ([.add_reg_imm 4 (-(-(nargs args : Int)) * C.w)] ++ [.push_reg 0]) := by
    simp [I, grow_stack]
  rw [List.append_assoc (ca ++ [Asm.call lbl]), ei] at hat ⊢
  have z0 : s4.mem = s4.mem := rfl
  refine ⟨s4, s2.reg 0, ?_, ⟨sl.rel, (o1.trans d1 o2 (Int.le_refl _) (Int.le_refl _)).trans (d1.trans d2) sl.scr.out (Int.le_refl _) (Int.le_refl _), ?_, d1.trans d2⟩, ?_⟩
  · have st3 := go_run (base := base) (w := C.w) hat.right sl.run
    simp only [List.length_append, I_length, List.length_cons, List.length_nil, ← Nat.add_assoc, Nat.add_zero, Nat.zero_add] at st1 st2 st3 ⊢
    exact (st1.trans st2).trans st3
  · rw [e3]; simp [setReg]
  · rcases hs.2 with rfl | hv
    · simp [topOk]
    · simp only [ctype, hk, Option.bind_some] at hv
      have hnv : rt ≠ .void := by rintro rfl; simp at hv
      rw [t2 hnv]
      rcases H.cfok.ty _ _ _ _ _ _ _ ec hk with h | h
      · exact absurd h hnv
      · exact topOk_fits H.hw h hm

theorem lv_none {e : E} (h : ∀ fs l, codegen_lvalue C.w C.T Γ e fs l = .fatal) : LV C base P Γ ρ F G cf e := by
  intro fs l c fs' l' k sp M a M' pc s hc
  rw [h] at hc; cases hc

theorem rv_none {e : E} (h : ∀ fs l, codegen_rvalue C.w C.T Γ e fs l = .fatal) : RV C base P Γ ρ F G cf e := by
  intro md fs l c fs' l' sp M v M' pc s hc
  rw [h] at hc; cases hc

/-- Every expression. -/
theorem rv_all (H : Hyp C base P Γ ρ F G cf) (e : E) :
    RV C base P Γ ρ F G cf e ∧ LV C base P Γ ρ F G cf e ∧ PV C base P Γ ρ F G cf e := by
  have nl := @lv_none C base P Γ ρ F G cf
  have np : ∀ e, (∀ fs l, codegen_params C.w C.T Γ e fs l = .fatal) → PV C base P Γ ρ F G cf e := fun e h => pv_nil e (.inr h)
  induction e with
  | num v => exact ⟨rv_num H v, nl fun _ _ => rfl, np _ fun _ _ => rfl⟩
  | chr v => exact ⟨rv_chr H v, nl fun _ _ => rfl, np _ fun _ _ => rfl⟩
  | str k bs => exact ⟨rv_str H k bs, nl fun _ _ => rfl, np _ fun _ _ => rfl⟩
  | var x => exact ⟨rv_var H x, lv_var H x, np _ fun _ _ => rfl⟩
  | deref e ih => exact ⟨rv_deref H e ih.1, lv_deref H e ih.1, np _ fun _ _ => rfl⟩
  | addr e ih => exact ⟨rv_addr H e ih.2.1, nl fun _ _ => rfl, np _ fun _ _ => rfl⟩
  | neg e ih => exact ⟨rv_neg H e ih.1, nl fun _ _ => rfl, np _ fun _ _ => rfl⟩
  | bnot e ih => exact ⟨rv_bnot H e ih.1, nl fun _ _ => rfl, np _ fun _ _ => rfl⟩
  | lnot e ih => exact ⟨rv_lnot H e ih.1, nl fun _ _ => rfl, np _ fun _ _ => rfl⟩
  | plus e ih => exact ⟨rv_plus e ih.1, nl fun _ _ => rfl, np _ fun _ _ => rfl⟩
  | paren e ih => exact ⟨rv_paren e ih.1, lv_paren e ih.2.1, np _ fun _ _ => rfl⟩
  | incdec post dec e ih => exact ⟨rv_incdec H post dec e ih.2.1, nl fun _ _ => rfl, np _ fun _ _ => rfl⟩
  | sizeofT t => exact ⟨rv_sizeofT H t, nl fun _ _ => rfl, np _ fun _ _ => rfl⟩
  | sizeofE e _ => exact ⟨rv_sizeofE H e, nl fun _ _ => rfl, np _ fun _ _ => rfl⟩
  | bin op a b iha ihb => exact ⟨rv_bin H op a b iha.1 ihb.1, nl fun _ _ => rfl, np _ fun _ _ => rfl⟩
  | comma a b iha ihb => exact ⟨rv_comma H a b iha.1 ihb.1, nl fun _ _ => rfl, np _ fun _ _ => rfl⟩
  | index a b iha ihb => exact ⟨rv_index H a b iha.1 ihb.1, lv_index H a b iha.1 ihb.1, np _ fun _ _ => rfl⟩
  | assign a b iha ihb => exact ⟨rv_assign H a b iha.2.1 ihb.1, nl fun _ _ => rfl, np _ fun _ _ => rfl⟩
  | opassign op a b iha ihb => exact ⟨rv_opassign H op a b iha.2.1 ihb.1, nl fun _ _ => rfl, np _ fun _ _ => rfl⟩
  | land a b iha ihb => exact ⟨rv_land H a b iha.1 ihb.1, nl fun _ _ => rfl, np _ fun _ _ => rfl⟩
  | lor a b iha ihb => exact ⟨rv_lor H a b iha.1 ihb.1, nl fun _ _ => rfl, np _ fun _ _ => rfl⟩
  | cond a b d iha ihb ihd => exact ⟨rv_cond H a b d iha.1 ihb.1 ihd.1, nl fun _ _ => rfl, np _ fun _ _ => rfl⟩
  | cast t e ih => exact ⟨rv_cast H t e ih.1, nl fun _ _ => rfl, np _ fun _ _ => rfl⟩
  | dot e m ih => exact ⟨rv_dot H e m ih.2.1, lv_dot H e m ih.2.1, np _ fun _ _ => rfl⟩
  | arrow e m ih => exact ⟨rv_arrow H e m ih.1, lv_arrow H e m ih.1, np _ fun _ _ => rfl⟩
  | call f args ih => exact ⟨rv_call H f args ih.2.2, nl fun _ _ => rfl, np _ fun _ _ => rfl⟩
  | anil => exact ⟨rv_none fun _ _ => rfl, nl fun _ _ => rfl, pv_nil _ (.inl rfl)⟩
  | acons e es ihe ihs => exact ⟨rv_none fun _ _ => rfl, nl fun _ _ => rfl, pv_cons H e es ihe.1 ihs.2.2⟩

end
end Verif.Cg
