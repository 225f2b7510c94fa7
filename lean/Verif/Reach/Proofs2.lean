import Verif.Reach.Proofs1
/-! The machine follows the C program: expressions. -/
namespace Verif.Reach
open Verif Verif.Gen Verif.Gen.Spec Verif.X86 Verif.X86.Spec Verif.Cg Verif.Cg.Spec Spec
section
variable {C : Ctx} {base : Mach} {P : List Asm} {cs : Nat → Option Fun} {ρ0 : Cg.Spec.Env} {Γ0 : Cg.Env} {G : Int}
variable {ρ : Cg.Spec.Env} {sp : Int} {M M1 : Mem} {pc : Nat} {s : MS} {n : Nat}

theorem m_first {e a : E} (h : firstE e = some a) (hm : Match C P ρ0 Γ0 G (.rv ρ e sp M) pc s) : Gets C base P ρ0 Γ0 G (.rv ρ a sp M) pc s := by
  obtain ⟨Γ, Γs, F, md, fs, l, c, fs', l', h1, h2, h3, h4, h5, h6, h7, h8⟩ := hm
  obtain ⟨l1, ca, f1, l2, g1, rest, rfl⟩ := first_code h h2
  obtain ⟨m, m1, m2⟩ := first_sup h h4 h3
  exact Match.gets ⟨Γ, Γs, F, m, fs, _, _, _, _, h1, g1, m2, m1, h5, h6.left, h7, h8⟩

theorem m_object {e a : E} (h : firstL e = some a) (hm : Match C P ρ0 Γ0 G (.rv ρ e sp M) pc s) : Gets C base P ρ0 Γ0 G (.lv ρ a sp M) pc s := by
  obtain ⟨Γ, Γs, F, md, fs, l, c, fs', l', h1, h2, h3, h4, h5, h6, h7, h8⟩ := hm
  obtain ⟨l1, ca, f1, l2, k, g1, rest, rfl⟩ := firstL_code h h2
  exact Match.gets ⟨Γ, Γs, F, fs, _, _, _, _, _, h1, g1, firstL_sup h h3, h5, h6.left, h7, h8⟩

theorem m_value {e a : E} (h : inValue e = some a) (hm : Match C P ρ0 Γ0 G (.lv ρ e sp M) pc s) : Gets C base P ρ0 Γ0 G (.rv ρ a sp M) pc s := by
  obtain ⟨Γ, Γs, F, fs, l, c, fs', l', k, h1, h2, h3, h5, h6, h7, h8⟩ := hm
  obtain ⟨ca, f1, l2, g1, rest, rfl⟩ := inValue_code h h2
  exact Match.gets ⟨Γ, Γs, F, .low C.w, fs, _, _, _, _, h1, g1, inValue_sup h h3, Nat.le_refl _, h5, h6.left, h7, h8⟩

theorem m_inner {e a : E} (h : inObject e = some a) (hm : Match C P ρ0 Γ0 G (.lv ρ e sp M) pc s) : Gets C base P ρ0 Γ0 G (.lv ρ a sp M) pc s := by
  obtain ⟨Γ, Γs, F, fs, l, c, fs', l', k, h1, h2, h3, h5, h6, h7, h8⟩ := hm
  obtain ⟨ca, f1, l2, k2, g1, rest, rfl⟩ := inObject_code h h2
  exact Match.gets ⟨Γ, Γs, F, fs, _, _, _, _, _, h1, g1, inObject_sup h h3, h5, h6.left, h7, h8⟩

theorem m_cast {t : CTy} {e : E} (g : Glob C base P cs ρ0) (hsc : scalar C.w t = true) (hm : Match C P ρ0 Γ0 G (.rv ρ (.cast t e) sp M) pc s) :
    Gets C base P ρ0 Γ0 G (.rv ρ e sp M) pc s := by
  obtain ⟨Γ, Γs, F, md, fs, l, c, fs', l', h1, h2, h3, h4, h5, h6, h7, h8⟩ := hm
  simp only [codegen_rvalue, Res.bind_eq_ok, Res.ok.injEq, Prod.mk.injEq] at h2
  obtain ⟨⟨c1, f1, l1⟩, g1, te, hte, k, hk, ke, hke, tr, -, rfl, -⟩ := h2
  have hk' : k ≤ C.w := by
    rw [type_width_scalar C.T hsc false, Res.ok.injEq] at hk
    subst hk; exact (sizeof_le g.hw C.T hsc).2
  have : ∃ m, mdOk C m ∧ Sup C Γ ρ.kind m e = true := by
    simp only [Sup, vt_of hte] at h3
    split at h3
    · rename_i e1 e2; cases e1
      rw [hk, hke] at h3
      simp only at h3
      split at h3
      · exact ⟨.low k, hk', h3⟩
      · split at h3
        · exact ⟨_, h4, h3⟩
        · simp only [Bool.and_eq_true] at h3
          exact ⟨.low C.w, Nat.le_refl _, h3.1⟩
    · cases h3
  obtain ⟨m, m1, m2⟩ := this
  exact Match.gets ⟨Γ, Γs, F, m, fs, _, _, _, _, h1, g1, m2, m1, h5, h6.left, h7, h8⟩

theorem m_lnot {e : E} (g : Glob C base P cs ρ0) (hr : Room C sp) (hm : Match C P ρ0 Γ0 G (.rv ρ (.lnot e) sp M) pc s) :
    Gets C base P ρ0 Γ0 G (.rv ρ e (sp - C.w) M) pc s := by
  obtain ⟨Γ, Γs, F, md, fs, l, c, fs', l', h1, h2, h3, h4, h5, h6, h7, h8⟩ := hm
  unfold Room at hr
  simp only [codegen_rvalue, Res.bind_eq_ok, Res.ok.injEq, Prod.mk.injEq] at h2
  obtain ⟨⟨c1, f1, l1⟩, g1, p, hp, ⟨cb, l2⟩, g2, rfl, -, -⟩ := h2
  simp only [Sup] at h3
  have a1 := sl_set h7 sp (exec_xor0 s 0) (by decide) (by decide) (by simp [sgn])
  obtain ⟨s1, a2, _, a3, _⟩ := sl_push g.hw a1.rel h8 (Int.le_refl _) (by omega) 0
  have sl := a1.trans a2
  have st1 := go_run (base := base) (w := C.w) (es := [.xor_reg_reg 0 0] ++ [.push_reg 0]) h6.left.left sl.run
  exact ⟨_, s1, st1, Γ, Γs, F, .test, _, _, _, _, _, h1, g1, h3, trivial, by rw [h5, Int.add_mul]; omega, h6.left.right, a2.rel, h8.mono (by omega)⟩

theorem m_right {e a b : E} {va : Int} (g : Glob C base P cs ρ0) (hc : CallOk C base P Γ0 G (call C cs ρ0 n)) (h : both e = some (a, b))
    (he : evalE C (call C cs ρ0 n) ρ a sp M = some (va, M1)) (hm : Match C P ρ0 Γ0 G (.rv ρ e sp M) pc s) :
    Gets C base P ρ0 Γ0 G (.rv ρ b (sp - C.w) M1) pc s := by
  obtain ⟨Γ, Γs, F, md, fs, l, c, fs', l', h1, h2, h3, h4, h5, h6, h7, h8⟩ := hm
  obtain ⟨ca, f1, l1, cb, f2, l2, rest, g1, g2, rfl⟩ := both_code h h2
  obtain ⟨ma, mb, k1, k2, k3, k4⟩ := both_sup h h4 h3
  obtain ⟨s1, z, st, o, -⟩ := (rv_all (h1.hyp g hc) a).1 ma fs l ca f1 l1 sp M va M1 pc s g1 k3 k1 he h5 h6.left.left h7 h8
  have hf := (fs_all g.hw C.T Γ a).1 _ _ _ _ _ g1
  exact ⟨_, s1, st, Γ, Γs, F, mb, _, _, _, _, _, h1, g2, k4, k2, by rw [hf, h5, Int.add_mul]; omega, h6.left.right, o.rel, (h8.same o.dom).mono (by omega)⟩

theorem m_assign {a b : E} {t : CTy} {pa : Int} (g : Glob C base P cs ρ0) (hc : CallOk C base P Γ0 G (call C cs ρ0 n)) (ht : ctype C ρ.kind a = some t)
    (hsc : scalar C.w t = true) (he : evalL C (call C cs ρ0 n) ρ a sp M = some (pa, M1)) (hm : Match C P ρ0 Γ0 G (.rv ρ (.assign a b) sp M) pc s) :
    Gets C base P ρ0 Γ0 G (.rv ρ b (sp - C.w) M1) pc s := by
  obtain ⟨Γ, Γs, F, md, fs, l, c, fs', l', h1, h2, h3, h4, h5, h6, h7, h8⟩ := hm
  simp only [codegen_rvalue, Res.bind_eq_ok] at h2
  obtain ⟨t', -, ⟨ca, f1, l1, k⟩, g1, h2⟩ := h2
  split at h2
  · cases h2
  simp only [Res.bind_eq_ok, Res.ok.injEq, Prod.mk.injEq] at h2
  obtain ⟨⟨cb, f2, l2⟩, g2, st, -, rfl, -, -⟩ := h2
  simp only [Sup, Bool.and_eq_true, ht] at h3
  obtain ⟨sa, h3⟩ := h3
  have : ∃ m, mdOk C m ∧ Sup C Γ ρ.kind m b = true := by
    split at h3
    · rename_i e1 e2; cases e1
      split at h3
      · exact ⟨.low (sizeof C.w C.T t), (sizeof_le g.hw C.T hsc).2, h3⟩
      · simp only [Bool.and_eq_true] at h3
        exact ⟨.low C.w, Nat.le_refl _, h3.1⟩
    · cases h3
  obtain ⟨m, m1, m2⟩ := this
  obtain ⟨-, s1, st1, o1⟩ := (rv_all (h1.hyp g hc) a).2.1 _ _ _ _ _ _ _ _ _ _ _ _ g1 sa he h5 h6.left.left h7 h8
  have hf := (fs_all g.hw C.T Γ a).2.1 _ _ _ _ _ _ g1
  exact ⟨_, s1, st1, Γ, Γs, F, m, _, _, _, _, _, h1, g2, m2, m1, by rw [hf, h5, Int.add_mul]; omega, h6.left.right, o1.rel, (h8.same o1.dom).mono (by omega)⟩

theorem m_opassign {op : Bop} {a b : E} {t : CTy} {pa va : Int} (g : Glob C base P cs ρ0) (hc : CallOk C base P Γ0 G (call C cs ρ0 n)) (hr : Room C sp)
    (ht : ctype C ρ.kind a = some t) (he : evalL C (call C cs ρ0 n) ρ a sp M = some (pa, M1)) (hva : loadT C M1 pa t = some va)
    (hm : Match C P ρ0 Γ0 G (.rv ρ (.opassign op a b) sp M) pc s) :
    Gets C base P ρ0 Γ0 G (.rv ρ b (sp - 2 * C.w) M1) pc s := by
  obtain ⟨Γ, Γs, F, md, fs, l, c, fs', l', h1, h2, h3, h4, h5, h6, h7, h8⟩ := hm
  unfold Room at hr
  simp only [codegen_rvalue, Res.bind_eq_ok, Res.ok.injEq, Prod.mk.injEq] at h2
  obtain ⟨⟨ca, f1, l1, k⟩, g1, pa', hpa, ld, hld, ⟨cb, f2, l2⟩, g2, pb, hpb, ⟨co, l3⟩, g3, st, hst, rfl, -, -⟩ := h2
  simp only [Sup, Bool.and_eq_true, vt_of hpa, vt_of hpb, ht] at h3
  obtain ⟨sa, h3⟩ := h3
  have : pa' = t ∧ ∃ m, mdOk C m ∧ Sup C Γ ρ.kind m b = true := by
    split at h3
    · rename_i e1 e2 e3 e4; cases e1; cases e2; cases e3
      simp only [Bool.and_eq_true, beq_iff_eq, Bool.or_eq_true] at h3
      refine ⟨h3.1, ?_⟩
      rcases h3.2 with h3 | h3
      · refine ⟨_, ?_, h3.2⟩
        split
        · exact Nat.le_refl _
        · exact (sizeof_le g.hw C.T (loadT_scalar hva)).2
      · exact ⟨.low C.w, Nat.le_refl _, h3.1.1⟩
    · cases h3
  obtain ⟨rfl, m, m1, m2⟩ := this
  obtain ⟨⟨t', ht', hk⟩, s1, st1, o1⟩ := (rv_all (h1.hyp g hc) a).2.1 _ _ _ _ _ _ _ _ _ _ _ _ g1 sa he h5 h6.left.left.left.left h7 h8
  rw [ht] at ht'; cases ht'
  subst hk
  have hf := (fs_all g.hw C.T Γ a).2.1 _ _ _ _ _ _ g1
  obtain ⟨s2, q1, q2, q3, q4, q5⟩ := load_head (h1.hyp g hc) hr h8 o1 hld hva
  have st2 := go_run (base := base) h6.left.left.left.right q1
  exact ⟨_, s2, st1.trans st2, Γ, Γs, F, m, _, _, _, _, _, h1, g2, m2, m1, by rw [hf, h5, Int.add_mul, Int.add_mul]; omega,
    by have := h6.left.left.right; rwa [List.length_append, I_length, ← Nat.add_assoc] at this, q2, (h8.same o1.dom).mono (by omega)⟩

theorem m_land {a b : E} {va : Int} (g : Glob C base P cs ρ0) (hc : CallOk C base P Γ0 G (call C cs ρ0 n)) (hr : Room C sp)
    (he : evalE C (call C cs ρ0 n) ρ a sp M = some (va, M1)) (hv : va ≠ 0) (hm : Match C P ρ0 Γ0 G (.rv ρ (.land a b) sp M) pc s) :
    Gets C base P ρ0 Γ0 G (.rv ρ b sp M1) pc s := by
  obtain ⟨Γ, Γs, F, md, fs, l, c, fs', l', h1, h2, h3, h4, h5, h6, h7, h8⟩ := hm
  unfold Room at hr
  simp only [codegen_rvalue, Res.bind_eq_ok, Res.ok.injEq, Prod.mk.injEq] at h2
  obtain ⟨⟨ca, f1, l1⟩, g1, ⟨cb, f2, l2⟩, g2, rfl, -, -⟩ := h2
  have hs' : Sup C Γ ρ.kind .test a = true ∧ Sup C Γ ρ.kind md b = true := by
    simp only [Sup, Bool.and_eq_true] at h3
    refine ⟨h3.1, ?_⟩
    have := h3.2
    split at this
    · exact this
    · exact this
    · simp only [Bool.and_eq_true] at this
      exact this.2
  obtain ⟨sa, sb⟩ := hs'
  have hf1 := (fs_all g.hw C.T Γ a).1 _ _ _ _ _ g1
  simp only [List.append_assoc] at h6
  obtain ⟨s1, x, st1, o1, t1⟩ := (rv_all (h1.hyp g hc) a).1 _ _ _ _ _ _ _ _ _ _ _ _ g1 sa trivial he h5 h6.left h7 h8
  have hat2 := h6.right
  simp only [← List.append_assoc] at hat2
  have t1' : x = 0 ↔ va = 0 := t1
  obtain ⟨j1, j2⟩ := short_steps (h1.hyp g hc) hr h8 o1 hat2 (.inl rfl)
  obtain ⟨s2, st2, r2, o2⟩ := j2 (by simp only [true_iff]; rw [t1']; exact hv)
  refine ⟨pc + ca.length + 6, s2, st1.trans st2, Γ, Γs, F, md, _, _, _, _, _, h1, g2, sb, h4, by rw [hf1, h5]; simp, ?_, r2, h8.same o1.dom⟩
  have := hat2.left.right
  have e : pc + ca.length + (I [.pop_reg 0, .push_reg 0, .xor_reg_reg 1 1] ++ jump_cond_reg_reg 0x4 l 0 1 ++ I [.pop_reg 0]).length = pc + ca.length + 6 := by
    simp [I, jump_cond_reg_reg]
  rwa [e] at this

theorem m_lor {a b : E} (g : Glob C base P cs ρ0) (hc : CallOk C base P Γ0 G (call C cs ρ0 n)) (hr : Room C sp)
    (he : evalE C (call C cs ρ0 n) ρ a sp M = some (0, M1)) (hm : Match C P ρ0 Γ0 G (.rv ρ (.lor a b) sp M) pc s) :
    Gets C base P ρ0 Γ0 G (.rv ρ b sp M1) pc s := by
  obtain ⟨Γ, Γs, F, md, fs, l, c, fs', l', h1, h2, h3, h4, h5, h6, h7, h8⟩ := hm
  unfold Room at hr
  simp only [codegen_rvalue, Res.bind_eq_ok, Res.ok.injEq, Prod.mk.injEq] at h2
  obtain ⟨⟨ca, f1, l1⟩, g1, ⟨cb, f2, l2⟩, g2, rfl, -, -⟩ := h2
  have hs' : ∃ ma, mdOk C ma ∧ Sup C Γ ρ.kind ma a = true ∧ Sup C Γ ρ.kind md b = true ∧ (ma = .test ∨ ma = .low C.w) := by
    simp only [Sup] at h3
    split at h3
    · simp only [Bool.and_eq_true] at h3
      exact ⟨.test, trivial, h3.1, h3.2, by simp⟩
    · simp only [Bool.and_eq_true] at h3
      exact ⟨.test, trivial, h3.1, h3.2, by simp⟩
    · simp only [Bool.and_eq_true] at h3
      exact ⟨.low C.w, Nat.le_refl _, h3.1.1.2, h3.2, by simp⟩
  obtain ⟨ma, hma, sa, sb, hba⟩ := hs'
  have hf1 := (fs_all g.hw C.T Γ a).1 _ _ _ _ _ g1
  simp only [List.append_assoc] at h6
  obtain ⟨s1, x, st1, o1, t1⟩ := (rv_all (h1.hyp g hc) a).1 _ _ _ _ _ _ _ _ _ _ _ _ g1 sa hma he h5 h6.left h7 h8
  have hat2 := h6.right
  simp only [← List.append_assoc] at hat2
  have t1' : x = 0 := by
    rcases hba with rfl | rfl
    · exact (show x = 0 ↔ (0 : Int) = 0 from t1).2 rfl
    · have := topOk_full o1.sgn t1
      rw [this]; simp [sgn]
  obtain ⟨j1, j2⟩ := short_steps (h1.hyp g hc) hr h8 o1 hat2 (.inr rfl)
  obtain ⟨s2, st2, r2, o2⟩ := j2 (by simp [t1'])
  refine ⟨pc + ca.length + 6, s2, st1.trans st2, Γ, Γs, F, md, _, _, _, _, _, h1, g2, sb, h4, by rw [hf1, h5]; simp, ?_, r2, h8.same o1.dom⟩
  have := hat2.left.right
  have e : pc + ca.length + (I [.pop_reg 0, .push_reg 0, .xor_reg_reg 1 1] ++ jump_cond_reg_reg 0x5 l 0 1 ++ I [.pop_reg 0]).length = pc + ca.length + 6 := by
    simp [I, jump_cond_reg_reg]
  rwa [e] at this

/-- The branches of `?:`. -/
theorem m_cond {e a b d : E} {v : Int} (g : Glob C base P cs ρ0) (hc : CallOk C base P Γ0 G (call C cs ρ0 n))
    (he : evalE C (call C cs ρ0 n) ρ e sp M = some (v, M1)) (hd : d = if v = 0 then b else a) (hm : Match C P ρ0 Γ0 G (.rv ρ (.cond e a b) sp M) pc s) :
    Gets C base P ρ0 Γ0 G (.rv ρ d sp M1) pc s := by
  obtain ⟨Γ, Γs, F, md, fs, l, c, fs', l', h1, h2, h3, h4, h5, h6, h7, h8⟩ := hm
  simp only [codegen_rvalue, Res.bind_eq_ok, Res.ok.injEq, Prod.mk.injEq] at h2
  obtain ⟨⟨ce, f1, l1⟩, g1, ⟨ca, f2, l2⟩, g2, ⟨cb, f3, l3⟩, g3, rfl, -, -⟩ := h2
  simp only [Sup, Bool.and_eq_true] at h3
  obtain ⟨se, h3⟩ := h3
  obtain ⟨mb, hmb, sa, sb⟩ : ∃ mb, mdOk C mb ∧ Sup C Γ ρ.kind mb a = true ∧ Sup C Γ ρ.kind mb b = true := by
    split at h3
    · split at h3
      · simp only [Bool.and_eq_true] at h3
        exact ⟨md, h4, h3.1, h3.2⟩
      · simp only [Bool.and_eq_true] at h3
        exact ⟨.low C.w, Nat.le_refl _, h3.1.1.1, h3.1.1.2⟩
    · cases h3
  have hf1 := (fs_all g.hw C.T Γ e).1 _ _ _ _ _ g1
  have hf2 := (fs_all g.hw C.T Γ a).1 _ _ _ _ _ g2
  simp only at hf1 hf2
  obtain ⟨s1, r1, o1, d1, m1, j1, j2⟩ := cond_steps g h1 hc g1 (by rw [← (Sup_eq h1.ty ρ.kind e).1]; exact se) he h5 h6.left.left.left.left (.inl rfl) h7 h8
  have i1 := h6.left.left.right.tail.head
  by_cases hv : v = 0
  · rw [if_pos hv] at hd; subst hd
    have st := (j1 (by simpa using hv) _ i1).trans (.one (.lbl i1))
    refine ⟨_, s1, st, Γ, Γs, F, mb, _, _, _, _, _, h1, g3, sb, hmb, by simp only [hf2, hf1]; rw [h5]; congr 2; omega, ?_, r1, m1⟩
    have := h6.left.right
    simp only [List.length_append, List.length_cons, List.length_nil, ← Nat.add_assoc, Nat.zero_add] at this ⊢
    exact this
  · rw [if_neg hv] at hd; subst hd
    have st := j2 (by simp [hv])
    refine ⟨_, s1, st, Γ, Γs, F, mb, _, _, _, _, _, h1, g2, sa, hmb, by simp only [hf1]; rw [h5]; congr 2; omega, ?_, r1, m1⟩
    have := h6.left.left.left.right
    rwa [show pc + (ce ++ I [.pop_reg 0, .xor_reg_reg 1 1] ++ jump_cond_reg_reg 0x4 l 0 1).length = pc + ce.length + 4 by simp [I, jump_cond_reg_reg]; omega] at this

theorem call_code {w : Nat} {T : Tags} {Γ : Cg.Env} {f : Nat} {as : E} {fs : Int} {l : Nat} {c : List Asm} {fs' : Int} {l' : Nat}
    (hc : codegen_rvalue w T Γ (.call f as) fs l = .ok (c, fs', l')) : ∃ lbl r ca f1 l1 k rest, resolve Γ f = .ok (.fn lbl r) ∧
      codegen_params w T Γ as fs l = .ok (ca, f1, l1, k) ∧ c = ca ++ ([.call lbl] ++ rest) := by
  simp only [codegen_rvalue, Res.bind_eq_ok] at hc
  obtain ⟨b, hb, hc⟩ := hc
  cases b with
  | fn lbl r =>
    simp only [Res.bind_eq_ok, Res.ok.injEq, Prod.mk.injEq] at hc
    obtain ⟨⟨ca, f1, l1, n⟩, h1, rfl, -, -⟩ := hc
    exact ⟨lbl, r, ca, f1, l1, n, _, hb, h1, by simp only [List.append_assoc]; rfl⟩
  | _ => cases hc

theorem m_args {f : Nat} {as : E} (hm : Match C P ρ0 Γ0 G (.rv ρ (.call f as) sp M) pc s) : Gets C base P ρ0 Γ0 G (.ar ρ as sp M) pc s := by
  obtain ⟨Γ, Γs, F, md, fs, l, c, fs', l', h1, h2, h3, h4, h5, h6, h7, h8⟩ := hm
  obtain ⟨lbl, r, ca, f1, l1, k, rest, g0, g1, rfl⟩ := call_code h2
  simp only [Sup, Bool.and_eq_true] at h3
  exact Match.gets ⟨Γ, Γs, F, fs, _, _, _, _, _, h1, g1, h3.1, h5, h6.left, h7, h8⟩

theorem m_call {f : Nat} {as : E} {vs : List Int} (g : Glob C base P cs ρ0) (hc : CallOk C base P Γ0 G (call C cs ρ0 n))
    (he : evalA C (call C cs ρ0 n) ρ as sp M = some (vs, M1)) (hm : Match C P ρ0 Γ0 G (.rv ρ (.call f as) sp M) pc s) :
    Gets C base P ρ0 Γ0 G (.fn f vs (sp - nargs as * C.w) M1) pc s := by
  obtain ⟨Γ, Γs, F, md, fs, l, c, fs', l', h1, h2, h3, h4, h5, h6, h7, h8⟩ := hm
  obtain ⟨lbl, r, ca, f1, l1, k, rest, g0, g1, rfl⟩ := call_code h2
  simp only [Sup, Bool.and_eq_true] at h3
  have hl : vs.length = nargs as := evalA_len he
  obtain ⟨s1, st1, r1, o1, d1, w1⟩ := (rv_all (h1.hyp g hc) as).2.2 _ _ _ _ _ _ _ _ _ _ _ _ g1 h3.1 he h5 h6.left h7 h8
  have esp : sp - nargs as * C.w + vs.length * C.w = sp := by rw [hl]; omega
  exact ⟨_, s1, st1, lbl, r, h1.fn _ _ _ g0, h6.right.left.head, r1, by rw [esp]; exact h8.same d1, w1⟩

theorem m_index {a b : E} {va : Int} (g : Glob C base P cs ρ0) (hc : CallOk C base P Γ0 G (call C cs ρ0 n))
    (he : evalE C (call C cs ρ0 n) ρ a sp M = some (va, M1)) (hm : Match C P ρ0 Γ0 G (.lv ρ (.index a b) sp M) pc s) :
    Gets C base P ρ0 Γ0 G (.rv ρ b (sp - C.w) M1) pc s := by
  obtain ⟨Γ, Γs, F, fs, l, c, fs', l', k, h1, h2, h3, h5, h6, h7, h8⟩ := hm
  simp only [codegen_lvalue, Res.bind_eq_ok] at h2
  obtain ⟨_, -, ⟨ca, f1, l1⟩, g1, ⟨cb, f2, l2⟩, g2, _, -, _, -, _, -, h2⟩ := h2
  split at h2
  · cases h2
  simp only [Res.ok.injEq, Prod.mk.injEq] at h2
  obtain ⟨rfl, -⟩ := h2
  simp only [SupL, Bool.and_eq_true] at h3
  obtain ⟨s1, z, st, o, -⟩ := (rv_all (h1.hyp g hc) a).1 _ _ _ _ _ _ _ _ _ _ _ _ g1 h3.1.1 (Nat.le_refl _) he h5 h6.left.left h7 h8
  have hf := (fs_all g.hw C.T Γ a).1 _ _ _ _ _ g1
  exact ⟨_, s1, st, Γ, Γs, F, .low C.w, _, _, _, _, _, h1, g2, h3.1.2, Nat.le_refl _, by rw [hf, h5, Int.add_mul]; omega, h6.left.right, o.rel, (h8.same o.dom).mono (by omega)⟩

theorem params_code {w : Nat} {T : Tags} {Γ : Cg.Env} {e es : E} {fs : Int} {l : Nat} {c : List Asm} {fs' : Int} {l' k : Nat}
    (hc : codegen_params w T Γ (.acons e es) fs l = .ok (c, fs', l', k)) : ∃ c1 f1 l1 n1 c2 f2 l2, codegen_params w T Γ es fs l = .ok (c1, f1, l1, n1) ∧
      codegen_rvalue w T Γ e f1 l1 = .ok (c2, f2, l2) ∧ c = c1 ++ c2 := by
  simp only [codegen_params, Res.bind_eq_ok] at hc
  obtain ⟨⟨c1, f1, l1, n1⟩, h1, t, ht, hc⟩ := hc
  split at hc
  · cases hc
  simp only [Res.bind_eq_ok, Res.ok.injEq, Prod.mk.injEq] at hc
  obtain ⟨⟨c2, f2, l2⟩, h2, k2, hk2, rfl, -, -, -⟩ := hc
  exact ⟨_, _, _, _, _, _, _, h1, h2, rfl⟩

theorem m_others {e es : E} (hm : Match C P ρ0 Γ0 G (.ar ρ (.acons e es) sp M) pc s) : Gets C base P ρ0 Γ0 G (.ar ρ es sp M) pc s := by
  obtain ⟨Γ, Γs, F, fs, l, c, fs', l', k, h1, h2, h3, h5, h6, h7, h8⟩ := hm
  obtain ⟨c1, f1, l1, n1, c2, f2, l2, g1, g2, rfl⟩ := params_code h2
  simp only [SupA, Bool.and_eq_true] at h3
  exact Match.gets ⟨Γ, Γs, F, fs, _, _, _, _, _, h1, g1, h3.2, h5, h6.left, h7, h8⟩

theorem m_arg {e es : E} {vs : List Int} (g : Glob C base P cs ρ0) (hc : CallOk C base P Γ0 G (call C cs ρ0 n))
    (he : evalA C (call C cs ρ0 n) ρ es sp M = some (vs, M1)) (hm : Match C P ρ0 Γ0 G (.ar ρ (.acons e es) sp M) pc s) :
    Gets C base P ρ0 Γ0 G (.rv ρ e (sp - nargs es * C.w) M1) pc s := by
  obtain ⟨Γ, Γs, F, fs, l, c, fs', l', k, h1, h2, h3, h5, h6, h7, h8⟩ := hm
  obtain ⟨c1, f1, l1, n1, c2, f2, l2, g1, g2, rfl⟩ := params_code h2
  simp only [SupA, Bool.and_eq_true] at h3
  have hf := (fs_all g.hw C.T Γ es).2.2 _ _ _ _ _ _ g1
  have hn : (0 : Int) ≤ nargs es * C.w := Int.mul_nonneg (by omega) (by omega)
  obtain ⟨s1, st1, r1, o1, d1, w1⟩ := (rv_all (h1.hyp g hc) es).2.2 _ _ _ _ _ _ _ _ _ _ _ _ g1 h3.2 he h5 h6.left h7 h8
  exact ⟨_, s1, st1, Γ, Γs, F, .low C.w, _, _, _, _, _, h1, g2, h3.1, Nat.le_refl _, by
    show _ = F - f1 * _
    rw [hf.1, h5, Int.add_mul]; omega, h6.right, r1, (h8.same d1).mono (by omega)⟩

end
end Verif.Reach
