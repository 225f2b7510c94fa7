import Verif.Reach.Proofs2
/-! The machine follows the C program: statements. -/
namespace Verif.Reach
open Verif Verif.Gen Verif.Gen.Spec Verif.X86 Verif.X86.Spec Verif.Cg Verif.Cg.Spec Spec
section
variable {C : Ctx} {base : Mach} {P : List Asm} {cs : Nat → Option Fun} {ρ0 : Cg.Spec.Env} {Γ0 : Cg.Env} {G : Int}
variable {ρ : Cg.Spec.Env} {sp : Int} {M M1 M2 M3 : Mem} {pc : Nat} {s : MS} {n : Nat}

theorem sup_of {Γ Γs : Cg.Env} {F : Int} {md : Md} {e : E} (h : FH C ρ0 Γ0 G Γ Γs ρ F) (hs : Sup C Γs ρ.kind md e = true) : Sup C Γ ρ.kind md e = true := by
  rw [(Sup_eq h.ty ρ.kind e).1]; exact hs

theorem m_expr {e : E} (hm : Match C P ρ0 Γ0 G (.st ρ (.expr e) sp M) pc s) : Gets C base P ρ0 Γ0 G (.rv ρ e sp M) pc s := by
  obtain ⟨lab, Γ, Γs, F, fs, l, sw, c, fs', l', sw', h1, h2, h3, h4, h5, h6, h7, h8⟩ := hm
  simp only [codegen_statement, Res.bind_eq_ok, Res.ok.injEq, Prod.mk.injEq] at h2
  obtain ⟨⟨ce, f1, l1⟩, g1, rfl, -⟩ := h2
  simp only [SupS] at h3
  exact Match.gets ⟨Γ, Γs, F, .low 0, fs, _, _, _, _, h1, g1, sup_of h1 h3, Nat.zero_le _, h4, h6.left, h7, h8⟩

theorem m_ret {e : E} (hm : Match C P ρ0 Γ0 G (.st ρ (.ret (some e)) sp M) pc s) : Gets C base P ρ0 Γ0 G (.rv ρ e sp M) pc s := by
  obtain ⟨lab, Γ, Γs, F, fs, l, sw, c, fs', l', sw', h1, h2, h3, h4, h5, h6, h7, h8⟩ := hm
  simp only [codegen_statement, Res.bind_eq_ok, Res.ok.injEq, Prod.mk.injEq] at h2
  obtain ⟨⟨c1, f1, l1⟩, ⟨⟨ce, f2, l2⟩, g1, rfl, rfl, rfl⟩, rfl, rfl, -⟩ := h2
  simp only [SupS, Bool.and_eq_true] at h3
  exact Match.gets ⟨Γ, Γs, F, .low C.w, fs, _, _, _, _, h1, g1, sup_of h1 h3.1, Nat.le_refl _, h4, h6.left.left.left, h7, h8⟩

theorem m_blk {b : St} (hm : Match C P ρ0 Γ0 G (.st ρ (.blk b) sp M) pc s) : Gets C base P ρ0 Γ0 G (.it ρ b sp M) pc s := by
  obtain ⟨lab, Γ, Γs, F, fs, l, sw, c, fs', l', sw', h1, h2, h3, h4, h5, h6, h7, h8⟩ := hm
  simp only [codegen_statement, Res.bind_eq_ok, Res.ok.injEq, Prod.mk.injEq] at h2
  obtain ⟨⟨cb, f1, l1, s1⟩, g1, rfl, rfl, -⟩ := h2
  simp only [SupS] at h3
  exact Match.gets ⟨none, Γ, Γs, F, fs, _, _, _, _, _, _, h1, g1, h3, h4, h5, h6.left, h7, h8⟩

theorem m_ifC {e : E} {a b : St} (hm : Match C P ρ0 Γ0 G (.st ρ (.ifte e a b) sp M) pc s) : Gets C base P ρ0 Γ0 G (.rv ρ e sp M) pc s := by
  obtain ⟨lab, Γ, Γs, F, fs, l, sw, c, fs', l', sw', h1, h2, h3, h4, h5, h6, h7, h8⟩ := hm
  simp only [codegen_statement, Res.bind_eq_ok, Res.ok.injEq, Prod.mk.injEq] at h2
  obtain ⟨⟨ce, f1, l1⟩, g1, ⟨ca, f2, l2, s2⟩, g2, ⟨cb, f3, l3, s3⟩, g3, rfl, rfl, -⟩ := h2
  simp only [SupS, Bool.and_eq_true] at h3
  exact Match.gets ⟨Γ, Γs, F, .test, fs, _, _, _, _, h1, g1, sup_of h1 h3.1.1, trivial, h4, h6.left.left.left.left.left.left, h7, h8⟩

/-- The branches of `if`. -/
theorem m_if {e : E} {a b d : St} {v : Int} (g : Glob C base P cs ρ0) (hc : CallOk C base P Γ0 G (call C cs ρ0 n))
    (he : evalE C (call C cs ρ0 n) ρ e sp M = some (v, M1)) (hd : d = if v = 0 then b else a) (hm : Match C P ρ0 Γ0 G (.st ρ (.ifte e a b) sp M) pc s) :
    Gets C base P ρ0 Γ0 G (.st ρ d sp M1) pc s := by
  obtain ⟨lab, Γ, Γs, F, fs, l, sw, c, fs', l', sw', h1, h2, h3, h4, h5, h6, h7, h8⟩ := hm
  simp only [codegen_statement, Res.bind_eq_ok, Res.ok.injEq, Prod.mk.injEq] at h2
  obtain ⟨⟨ce, f1, l1⟩, g1, ⟨ca, f2, l2, s2⟩, g2, ⟨cb, f3, l3, s3⟩, g3, rfl, rfl, -⟩ := h2
  simp only [SupS, Bool.and_eq_true] at h3
  obtain ⟨⟨hs1, hs2⟩, hs3⟩ := h3
  have e1 := (fs_all g.hw C.T Γ e).1 _ _ _ _ _ g1
  simp only at g2 g3
  have e2 := (fs_stmt g.hw C.T a).1 _ _ _ _ _ _ _ _ g2
  obtain ⟨ms1, r1, o1, d1, m1, j1, j2⟩ := cond_steps g h1 hc g1 hs1 he h4 h6.left.left.left.left (.inl rfl) h7 h8
  have i1 := h6.left.left.right.tail.head
  by_cases hv : v = 0
  · rw [if_pos hv] at hd; subst hd
    have st := (j1 (by simpa using hv) _ i1).trans (.one (.lbl i1))
    refine ⟨_, ms1, st, none, Γ, Γs, F, _, _, _, _, _, _, _, h1, g3, hs3, by rw [e2, e1, h4]; congr 2; omega, by omega, ?_, r1, m1⟩
    have := h6.left.right
    simp only [List.length_append, List.length_cons, List.length_nil, ← Nat.add_assoc, Nat.zero_add] at this ⊢
    exact this
  · rw [if_neg hv] at hd; subst hd
    have st := j2 (by simp [hv])
    refine ⟨_, ms1, st, none, Γ, Γs, F, _, _, _, _, _, _, _, h1, g2, hs2, by rw [e1, h4]; congr 2; omega, by omega, ?_, r1, m1⟩
    have := h6.left.left.left.right
    rwa [show pc + (ce ++ I [.pop_reg 0, .xor_reg_reg 1 1] ++ jump_cond_reg_reg 0x4 l 0 1).length = pc + ce.length + 4 by simp [I, jump_cond_reg_reg]; omega] at this

theorem m_whileC {e : E} {b : St} (hm : Match C P ρ0 Γ0 G (.st ρ (.whil e b) sp M) pc s) : Gets C base P ρ0 Γ0 G (.rv ρ e sp M) pc s := by
  obtain ⟨lab, Γ, Γs, F, fs, l, sw, c, fs', l', sw', h1, h2, h3, h4, h5, h6, h7, h8⟩ := hm
  simp only [codegen_statement, Res.bind_eq_ok, Res.ok.injEq, Prod.mk.injEq] at h2
  obtain ⟨⟨ce, f1, l1⟩, g1, ⟨cb, f2, l2, s2⟩, g2, rfl, rfl, -⟩ := h2
  simp only [SupS, Bool.and_eq_true] at h3
  have h' := h1.loops (⟨fs, l + 1, some l⟩ :: Γ.loops)
  have hat1 : At P pc (.lbl l :: (ce ++ I [.pop_reg 0, .xor_reg_reg 1 1] ++ jump_cond_reg_reg 0x4 (l + 1) 0 1)) := h6.left.left
  exact ⟨_, s, .one (.lbl hat1.head), _, Γs, F, .test, fs, _, _, _, _, h', g1, sup_of h' h3.1, trivial, h4, hat1.tail.left.left, h7, h8⟩

/-- The body of `while`, and the loop again. -/
theorem m_while {e : E} {b : St} {v : Int} (g : Glob C base P cs ρ0) (hc : CallOk C base P Γ0 G (call C cs ρ0 n))
    (he : evalE C (call C cs ρ0 n) ρ e sp M = some (v, M1)) (hv : v ≠ 0) (hm : Match C P ρ0 Γ0 G (.st ρ (.whil e b) sp M) pc s) :
    Gets C base P ρ0 Γ0 G (.st ρ b sp M1) pc s ∧ (SV C base P cs ρ0 Γ0 G n → ∀ o, exec C cs ρ0 n ρ b sp M1 = some (o, M2) → goesOn o = true →
      Gets1 C base P ρ0 Γ0 G (.st ρ (.whil e b) sp M2) pc s) := by
  have hm0 := hm
  obtain ⟨lab, Γ, Γs, F, fs, l, sw, c, fs', l', sw', h1, h2, h3, h4, h5, h6, h7, h8⟩ := hm
  have hg0 := h2
  have hs0 := h3
  have hat0 := h6
  simp only [codegen_statement, Res.bind_eq_ok, Res.ok.injEq, Prod.mk.injEq] at h2
  obtain ⟨⟨ce, f1, l1⟩, g1, ⟨cb, f2, l2, s2⟩, g2, rfl, rfl, -⟩ := h2
  simp only [SupS, Bool.and_eq_true] at h3
  obtain ⟨hs1, hs2⟩ := h3
  have h' := h1.loops (⟨fs, l + 1, some l⟩ :: Γ.loops)
  have e1 := (fs_all g.hw C.T _ e).1 _ _ _ _ _ g1
  simp only at g2
  have hat1 : At P pc (.lbl l :: (ce ++ I [.pop_reg 0, .xor_reg_reg 1 1] ++ jump_cond_reg_reg 0x4 (l + 1) 0 1)) := h6.left.left
  have i1 := hat1.head
  have i2 := h6.right.tail.head
  have st0 : Go C.w base P (pc, s) (pc + 1, s) := .one (.lbl i1)
  obtain ⟨ms1, r1, o1, d1, m1, j1, j2⟩ := cond_steps g h' hc g1 hs1 he h4 hat1.tail (.inl rfl) h7 h8
  have st := j2 (by simpa using hv)
  have st1 : Go C.w base P (pc, s) (pc + ([Asm.lbl l] ++ ce ++ I [.pop_reg 0, .xor_reg_reg 1 1] ++ jump_cond_reg_reg 0x4 (l + 1) 0 1).length, ms1) := by
    have := st0.trans st
    rwa [show pc + ([Asm.lbl l] ++ ce ++ I [.pop_reg 0, .xor_reg_reg 1 1] ++ jump_cond_reg_reg 0x4 (l + 1) 0 1).length = pc + 1 + ce.length + 4 by
      simp [I, jump_cond_reg_reg]; omega]
  have ef : sp = F - (f1 - 1) * C.w := by rw [e1, h4]; congr 2; omega
  refine ⟨⟨_, ms1, st1, none, _, Γs, F, _, _, _, _, _, _, _, h', g2, hs2, ef, by omega, h6.left.right, r1, m1⟩, ?_⟩
  intro ih o hx ho
  have B := ih b none _ Γs ρ F _ _ _ _ _ _ _ sp M1 o M2 _ ms1 g2 hs2 h' hx ef (by omega) h6.left.right r1 m1
  have d2 := (exec_dom g.hw g.ft n).1 _ _ _ _ _ _ h1.kfn hx m1
  have fin : ∀ {s'}, Rel C G sp M2 s' → Go C.w base P (pc + ([Asm.lbl l] ++ ce ++ I [.pop_reg 0, .xor_reg_reg 1 1] ++ jump_cond_reg_reg 0x4 (l + 1) 0 1).length, ms1) (pc, s') →
      Gets1 C base P ρ0 Γ0 G (.st ρ (.whil e b) sp M2) pc s := fun r st =>
    ⟨pc, _, .pre st1 ((go_moves st).1 (by simp)), lab, Γ, Γs, F, _, _, _, _, _, _, _, h1, hg0, hs0, h4, h5, hat0, r, m1.same d2⟩
  cases o with
  | brk => cases ho
  | ret v => cases ho
  | cont =>
    obtain ⟨s', k1, k2, k3⟩ := B.cont
    rw [← h4] at k2
    exact fin k2 (k3 _ i1)
  | norm =>
    obtain ⟨s', k1, k3, k2⟩ := B
    refine fin k2 (k3.trans ?_)
    have j := Go.one (Step.jmp (w := C.w) (base := base.base) (s := s') h6.right.head i1)
    rwa [List.length_append (bs := cb), ← Nat.add_assoc] at j

/-- The code of `for`. -/
theorem for_code (g : Glob C base P cs ρ0) {i p b : St} {e : Option E} (hm : Match C P ρ0 Γ0 G (.st ρ (.forr i e p b) sp M) pc s) :
    ∃ Γ' Γs F fs l sw ci l1 s1, FH C ρ0 Γ0 G Γ' Γs ρ F ∧ codegen_statement C.w C.T Γ' i fs l sw = .ok (ci, fs, l1, s1) ∧ SupS C ρ.rett i none Γs ρ.kind = true ∧
      sp = F - fs * C.w ∧ 0 ≤ fs ∧ At P pc ci ∧ Rel C G sp M s ∧ MemOk C sp M ∧
      ∀ s1 M1, Rel C G sp M1 s1 → MemOk C sp M1 → Gets C base P ρ0 Γ0 G (.lp ρ e p b sp M1) (pc + ci.length) s1 := by
  obtain ⟨lab, Γ, Γs, F, fs, l, sw, c, fs', l', sw', h1, h2, h3, h4, h5, h6, h7, h8⟩ := hm
  simp only [codegen_statement, Res.bind_eq_ok, Res.ok.injEq, Prod.mk.injEq] at h2
  obtain ⟨⟨ci, f1, l1, s1⟩, g1, ⟨cp, f2, l2, s2⟩, g2, ⟨ct, f3, l3⟩, g3, ⟨cb, f4, l4, s4⟩, g4, rfl, rfl, -⟩ := h2
  have h3' : forTest C.w C.T { Γ with loops := ⟨fs, l + 1, some l⟩ :: Γ.loops } e f2 l2 (l + 1) = .ok (ct, f3, l3) := g3
  simp only [SupS, Bool.and_eq_true] at h3
  obtain ⟨⟨⟨⟨⟨hs1, hs2⟩, hs3⟩, hs4⟩, hs5⟩, hs6⟩ := h3
  have hs5' : supTest C Γs ρ.kind e = true := hs5
  have e1 := (fs_stmt g.hw C.T _).1 _ _ _ _ _ _ _ _ g1
  have e2 := (fs_stmt g.hw C.T _).1 _ _ _ _ _ _ _ _ g2
  simp only at e1 e2 g2 g4
  subst e1; subst e2
  have e3 : f3 = f2 := by
    cases e with
    | none => simp only [forTest, Res.ok.injEq, Prod.mk.injEq] at h3'; exact h3'.2.1.symm
    | some e =>
      simp only [forTest, Res.bind_eq_ok, Res.ok.injEq, Prod.mk.injEq] at h3'
      obtain ⟨⟨ce, g1, _⟩, hh, -, rfl, -⟩ := h3'
      have e1 := (fs_all g.hw C.T _ e).1 _ _ _ _ _ hh
      simp only; omega
  subst e3
  have h' := h1.loops (⟨f3, l + 1, some l⟩ :: Γ.loops)
  have ec : ci ++ [Asm.jmp (l + 2), Asm.lbl l] ++ cp ++ [Asm.lbl (l + 2)] ++ ct ++ cb ++ [Asm.jmp l, Asm.lbl (l + 1)] =
      (ci ++ [Asm.jmp (l + 2)]) ++ ([Asm.lbl l] ++ cp ++ [Asm.lbl (l + 2)] ++ ct ++ cb ++ [Asm.jmp l, Asm.lbl (l + 1)]) := by simp
  rw [ec] at h6
  have i3 := h6.right.left.left.left.right.head
  have j3 := h6.left.right.head
  refine ⟨_, Γs, F, _, _, _, _, _, _, h', g1, hs3, h4, h5, h6.left.left, h7, h8, ?_⟩
  intro s1 M1 r1 m1
  exact ⟨_, s1, .one (.jmp j3 i3), Γ, Γs, F, _, l, l + 1, l + 2, _, _, _, _, _, _, _, _, _, _, _, _, _, _, _, _, _, h1, g2, h3', g4, hs4, hs5', hs6, h4, h5, h6.right, rfl, r1, m1⟩

theorem m_forI (g : Glob C base P cs ρ0) {i p b : St} {e : Option E} (hm : Match C P ρ0 Γ0 G (.st ρ (.forr i e p b) sp M) pc s) :
    Gets C base P ρ0 Γ0 G (.st ρ i sp M) pc s := by
  obtain ⟨Γ', Γs, F, fs, l, sw, ci, l1, s1, h1, h2, h3, h4, h5, h6, h7, h8, -⟩ := for_code g hm
  exact Match.gets ⟨none, Γ', Γs, F, _, _, _, _, _, _, _, h1, h2, h3, h4, h5, h6, h7, h8⟩

theorem m_forL (g : Glob C base P cs ρ0) (ih : SV C base P cs ρ0 Γ0 G n) {i p b : St} {e : Option E} (hx : exec C cs ρ0 n ρ i sp M = some (.norm, M1))
    (hm : Match C P ρ0 Γ0 G (.st ρ (.forr i e p b) sp M) pc s) : Gets C base P ρ0 Γ0 G (.lp ρ e p b sp M1) pc s := by
  obtain ⟨Γ', Γs, F, fs, l, sw, ci, l1, s1, h1, h2, h3, h4, h5, h6, h7, h8, h9⟩ := for_code g hm
  have d1 := (exec_dom g.hw g.ft n).1 _ _ _ _ _ _ h1.kfn hx h8
  obtain ⟨s1, k1, k2, k3⟩ := ih i none _ Γs ρ F _ _ _ _ _ _ _ sp M .norm M1 pc s h2 h3 h1 hx h4 h5 h6 h7 h8
  exact (h9 s1 M1 k3 (h8.same d1)).pre k2

theorem m_forC {e : E} {p b : St} (hm : Match C P ρ0 Γ0 G (.lp ρ (some e) p b sp M) pc s) : Gets C base P ρ0 Γ0 G (.rv ρ e sp M) pc s := by
  obtain ⟨Γ, Γs, F, fs, l1, l2, l3, lp, swp, cp, fp, lp', swp', lt, ct, ft, lt', lb, swb, cb, fb, lb', swb', pc0, h1, hp, ht, hb, sp1, sp2, sp3, hsp, h0, hat, rfl, hR, hM⟩ := hm
  have h' := h1.loops (⟨fs, l2, some l1⟩ :: Γ.loops)
  simp only [forTest, Res.bind_eq_ok, Res.ok.injEq, Prod.mk.injEq] at ht
  obtain ⟨⟨ce, f1, m1⟩, g1, rfl, rfl, -⟩ := ht
  have i3 := hat.left.left.left.right.head
  refine ⟨_, s, .one (.lbl i3), _, Γs, F, .test, fs, _, _, _, _, h', g1, sup_of h' sp2, trivial, hsp, ?_, hR, hM⟩
  have := hat.left.left.right.left.left
  rwa [List.length_append (bs := [Asm.lbl l3]), ← Nat.add_assoc] at this

/-- The body of `for`, its last expression, and the loop again. -/
theorem m_for {e : Option E} {p b : St} {v : Int} (g : Glob C base P cs ρ0) (hc : CallOk C base P Γ0 G (call C cs ρ0 n))
    (he : forCond C (call C cs ρ0 n) ρ e sp M = some (v, M1)) (hv : v ≠ 0) (hm : Match C P ρ0 Γ0 G (.lp ρ e p b sp M) pc s) :
    Gets C base P ρ0 Γ0 G (.st ρ b sp M1) pc s ∧ (SV C base P cs ρ0 Γ0 G n → ∀ o, exec C cs ρ0 n ρ b sp M1 = some (o, M2) → goesOn o = true →
      Gets C base P ρ0 Γ0 G (.st ρ p sp M2) pc s ∧ (exec C cs ρ0 n ρ p sp M2 = some (.norm, M3) → Gets1 C base P ρ0 Γ0 G (.lp ρ e p b sp M3) pc s)) := by
  obtain ⟨Γ, Γs, F, fs, l1, l2, l3, lp, swp, cp, fp, lp', swp', lt, ct, ft, lt', lb, swb, cb, fb, lb', swb', pc0, h1, hp, ht, hb, sp1, sp2, sp3, hsp, h0, hat, rfl, hR, hM⟩ := hm
  have h' := h1.loops (⟨fs, l2, some l1⟩ :: Γ.loops)
  have i1 : P[pc0]? = some (.lbl l1) := hat.left.left.left.left.left.head
  have i3 := hat.left.left.left.right.head
  have i2 := hat.right.tail.head
  have he' : (match (generalizing := false) e with
          | some c => (evalE C (call C cs ρ0 n) ρ c sp M)
          | none => some (1, M)) = some (v, M1) := by
    cases e <;> exact he
  obtain ⟨-, ms1, r1, o1, d1, m1, j1, j2⟩ := for_test g h' hc ht sp2 he' hsp hat.left.left.right hR hM
  have st0 : Go C.w base P (pc0 + ([Asm.lbl l1] ++ cp).length, s) (pc0 + ([Asm.lbl l1] ++ cp ++ [Asm.lbl l3]).length, s) := by
    rw [List.length_append (bs := [Asm.lbl l3])]; exact .one (.lbl i3)
  have st1 : Go C.w base P (pc0 + ([Asm.lbl l1] ++ cp).length, s) (pc0 + ([Asm.lbl l1] ++ cp ++ [Asm.lbl l3] ++ ct).length, ms1) := by
    rw [List.length_append (bs := ct), ← Nat.add_assoc]; exact st0.trans (j2 hv)
  refine ⟨⟨_, ms1, st1, none, _, Γs, F, _, _, _, _, _, _, _, h', hb, sp3, hsp, h0, hat.left.right, r1, m1⟩, ?_⟩
  intro ih o hx ho
  have B := ih b none _ Γs ρ F _ _ _ _ _ _ _ sp M1 o M2 _ ms1 hb sp3 h' hx hsp h0 hat.left.right r1 m1
  have d2 := (exec_dom g.hw g.ft n).1 _ _ _ _ _ _ h1.kfn hx m1
  have m2 := m1.same d2
  have atp : At P (pc0 + 1) cp := hat.left.left.left.left.right
  have fin : ∀ {s'}, Rel C G sp M2 s' → Go C.w base P (pc0 + ([Asm.lbl l1] ++ cp).length, s) (pc0, s') →
      Gets C base P ρ0 Γ0 G (.st ρ p sp M2) (pc0 + ([Asm.lbl l1] ++ cp).length) s ∧ (exec C cs ρ0 n ρ p sp M2 = some (.norm, M3) →
        Gets1 C base P ρ0 Γ0 G (.lp ρ e p b sp M3) (pc0 + ([Asm.lbl l1] ++ cp).length) s) := by
    intro s' r2 st2
    have st3 := st2.trans (.one (.lbl i1))
    refine ⟨⟨_, s', st3, none, _, Γs, F, _, _, _, _, _, _, _, h', hp, sp1, hsp, h0, atp, r2, m2⟩, fun hp3 => ?_⟩
    have d3 := (exec_dom g.hw g.ft n).1 _ _ _ _ _ _ h1.kfn hp3 m2
    obtain ⟨s3, k1, k2, k3⟩ := ih p none _ Γs ρ F _ _ _ _ _ _ _ sp M2 .norm M3 _ s' hp sp1 h' hp3 hsp h0 atp r2 m2
    refine ⟨_, s3, ((go_moves st2).1 (by simp)).post (.trans (.one (.lbl i1)) k2), Γ, Γs, F, fs, l1, l2, l3, _, _, _, _, _, _, _, _, _, _, _, _, _, _, _, _, pc0, h1, hp, ht, hb, sp1, sp2, sp3, hsp, h0, hat, ?_, k3, m2.same d3⟩
    simp; omega
  cases o with
  | brk => cases ho
  | ret v => cases ho
  | cont =>
    obtain ⟨s', k1, k2, k3⟩ := B.cont
    rw [← hsp] at k2
    exact fin k2 (st1.trans (k3 _ i1))
  | norm =>
    obtain ⟨s', k1, k3, k2⟩ := B
    refine fin k2 (st1.trans (k3.trans ?_))
    have j := Go.one (Step.jmp (w := C.w) (base := base.base) (s := s') hat.right.head i1)
    rwa [List.length_append (bs := cb), ← Nat.add_assoc] at j

theorem m_doB {b : St} {e : E} (hm : Match C P ρ0 Γ0 G (.st ρ (.doW b e) sp M) pc s) : Gets C base P ρ0 Γ0 G (.st ρ b sp M) pc s := by
  obtain ⟨lab, Γ, Γs, F, fs, l, sw, c, fs', l', sw', h1, h2, h3, h4, h5, h6, h7, h8⟩ := hm
  simp only [codegen_statement, Res.bind_eq_ok, Res.ok.injEq, Prod.mk.injEq] at h2
  obtain ⟨⟨cb, f1, l1, s1⟩, g1, ⟨ce, f2, l2⟩, g2, rfl, rfl, -⟩ := h2
  simp only [SupS, Bool.and_eq_true] at h3
  have h' := h1.loops (⟨fs, l + 1, some l⟩ :: Γ.loops)
  exact ⟨_, s, .one (.lbl h6.left.left.left.left.left.head), none, _, Γs, F, fs, _, _, _, _, _, _, h', g1, h3.1.1, h4, h5, h6.left.left.left.left.right, h7, h8⟩

/-- The condition of `do`, and the loop again. -/
theorem m_do {b : St} {e : E} {o : Out} (g : Glob C base P cs ρ0) (hc : CallOk C base P Γ0 G (call C cs ρ0 n)) (ih : SV C base P cs ρ0 Γ0 G n)
    (hx : exec C cs ρ0 n ρ b sp M = some (o, M1)) (ho : goesOn o = true) (hm : Match C P ρ0 Γ0 G (.st ρ (.doW b e) sp M) pc s) :
    Gets C base P ρ0 Γ0 G (.rv ρ e sp M1) pc s ∧ (∀ v, evalE C (call C cs ρ0 n) ρ e sp M1 = some (v, M2) → v ≠ 0 →
      Gets1 C base P ρ0 Γ0 G (.st ρ (.doW b e) sp M2) pc s) := by
  obtain ⟨lab, Γ, Γs, F, fs, l, sw, c, fs', l', sw', h1, h2, h3, h4, h5, h6, h7, h8⟩ := hm
  have hg0 := h2
  have hs0 := h3
  have hat0 := h6
  simp only [codegen_statement, Res.bind_eq_ok, Res.ok.injEq, Prod.mk.injEq] at h2
  obtain ⟨⟨cb, f1, l1, s1⟩, g1, ⟨ce, f2, l2⟩, g2, rfl, rfl, -⟩ := h2
  simp only [SupS, Bool.and_eq_true] at h3
  obtain ⟨⟨hs1, hs2⟩, hs3⟩ := h3
  have h' := h1.loops (⟨fs, l + 1, some l⟩ :: Γ.loops)
  have e1 := (fs_stmt g.hw C.T _).1 _ _ _ _ _ _ _ _ g1
  simp only at e1 g2
  subst e1
  have i1 : P[pc]? = some (.lbl l) := h6.left.left.left.left.left.head
  have st0 : Go C.w base P (pc, s) (pc + 1, s) := .one (.lbl i1)
  have B := ih b none _ Γs ρ F _ _ _ _ _ _ _ sp M o M1 _ s g1 hs1 h' hx h4 h5 h6.left.left.left.left.right h7 h8
  have d1 := (exec_dom g.hw g.ft n).1 _ _ _ _ _ _ h1.kfn hx h8
  cases o with
  | cont => exact ((noCont_exec n).1 _ _ _ _ _ hs3 hx).elim
  | brk => cases ho
  | ret v => cases ho
  | norm =>
    obtain ⟨s1, k1, k2, k3⟩ := B
    have at2 : At P (pc + ([Asm.lbl l] ++ cb).length) (ce ++ I [.pop_reg 0, .xor_reg_reg 1 1] ++ jump_cond_reg_reg 0x5 l 0 1) := by
      have := h6.left
      rw [List.append_assoc _ ce, List.append_assoc _ (ce ++ _)] at this
      exact this.right
    have st1 : Go C.w base P (pc, s) (pc + ([Asm.lbl l] ++ cb).length, s1) := by
      rw [List.length_append, ← Nat.add_assoc]
      exact st0.trans k2
    refine ⟨⟨_, s1, st1, _, Γs, F, .test, _, _, _, _, _, h', g2, sup_of h' hs2, trivial, h4, at2.left.left, k3, h8.same d1⟩, fun v he hv => ?_⟩
    obtain ⟨s2, r2, o2, d2, m2, j1, j2⟩ := cond_steps g h' hc g2 hs2 he h4 at2 (.inr rfl) k3 (h8.same d1)
    exact ⟨pc, s2, .pre st1 ((go_moves (j1 (by simp [hv]) _ i1)).1 (by simp)), lab, Γ, Γs, F, _, _, _, _, _, _, _, h1, hg0, hs0, h4, h5, hat0, r2, m2⟩

theorem m_case (g : Glob C base P cs ρ0) {e : E} {b : St} (hm : Match C P ρ0 Γ0 G (.st ρ (.case e b) sp M) pc s) : Gets C base P ρ0 Γ0 G (.st ρ b sp M) pc s := by
  obtain ⟨lab, Γ, Γs, F, fs, l, sw, c, fs', l', sw', h1, h2, h3, h4, h5, h6, h7, h8⟩ := hm
  cases sw with
  | none => simp [codegen_statement] at h2
  | some sw =>
  obtain ⟨nxt, dft⟩ := sw
  simp only [codegen_statement, Res.bind_eq_ok, Res.ok.injEq, Prod.mk.injEq] at h2
  obtain ⟨⟨ce, f1, l1⟩, g1, ⟨c2, f2, l2, s2⟩, g2, rfl, rfl, rfl, rfl⟩ := h2
  have e1 := (fs_all g.hw C.T Γ e).1 _ _ _ _ _ g1
  simp only at g2
  rw [show f1 - 1 = fs by omega] at g2
  simp only [SupS, Bool.and_eq_true] at h3
  have i0 : At P pc (.jmp l :: _) := h6.left.left
  have il := h6.left.right.tail.head
  refine ⟨_, s, ?_, lab, Γ, Γs, F, _, _, _, _, _, _, _, h1, g2, h3.2, h4, h5, h6.right, h7, h8⟩
  have j := Go.head (Step.jmp (w := C.w) (base := base.base) (s := s) i0.head il) (.one (.lbl il))
  simp only [List.length_append, List.length_cons, List.length_nil, ← Nat.add_assoc, Nat.zero_add] at j ⊢
  exact j

theorem m_dflt {b : St} (hm : Match C P ρ0 Γ0 G (.st ρ (.dflt b) sp M) pc s) : Gets C base P ρ0 Γ0 G (.st ρ b sp M) pc s := by
  obtain ⟨lab, Γ, Γs, F, fs, l, sw, c, fs', l', sw', h1, h2, h3, h4, h5, h6, h7, h8⟩ := hm
  match sw, h2 with
  | none, h2 => simp [codegen_statement] at h2
  | some (nxt, some d), h2 => simp [codegen_statement] at h2
  | some (nxt, none), h2 =>
  simp only [codegen_statement, Res.bind_eq_ok, Res.ok.injEq, Prod.mk.injEq] at h2
  obtain ⟨⟨c2, f2, l2, s2⟩, g2, rfl, rfl, rfl, rfl⟩ := h2
  simp only [SupS, Bool.and_eq_true] at h3
  exact ⟨_, s, .one (.lbl h6.left.head), lab, Γ, Γs, F, _, _, _, _, _, _, _, h1, g2, h3.2, h4, h5, h6.right, h7, h8⟩

theorem m_switchE {e : E} {b : St} (hm : Match C P ρ0 Γ0 G (.st ρ (.switch e b) sp M) pc s) : Gets C base P ρ0 Γ0 G (.rv ρ e sp M) pc s := by
  obtain ⟨lab, Γ, Γs, F, fs, l, sw, c, fs', l', sw', h1, h2, h3, h4, h5, h6, h7, h8⟩ := hm
  have hs : Sup C Γs ρ.kind (.low C.w) e = true := by
    cases b with
    | blk b => simp only [SupS, Bool.and_eq_true] at h3; exact h3.1
    | _ => simp [SupS] at h3
  simp only [codegen_statement, Res.bind_eq_ok] at h2
  obtain ⟨⟨ce, f1, l1⟩, g1, ⟨cb, f2, l2, s2⟩, -, h2⟩ := h2
  cases s2 with
  | none => cases h2
  | some s2 =>
  have h' := h1.loops (⟨fs, l, none⟩ :: Γ.loops)
  simp only [Res.ok.injEq, Prod.mk.injEq] at h2
  obtain ⟨rfl, -⟩ := h2
  exact Match.gets ⟨_, Γs, F, .low C.w, fs, _, _, _, _, h', g1, sup_of h' hs, Nat.le_refl _, h4, h6.left.left.left.left.left.left.left, h7, h8⟩

/-- The statements of a `switch`, from the label that is chosen. -/
theorem m_switch {e : E} {b b' : St} {te t : CTy} {v : Int} (g : Glob C base P cs ρ0) (hc : CallOk C base P Γ0 G (call C cs ρ0 n)) (hrm : Room C (sp - C.w))
    (hte : ctype C ρ.kind e = some te) (ht : promote C.w te = some t) (he : evalE C (call C cs ρ0 n) ρ e sp M = some (v, M1))
    (hb : fromLabel (enterCase fun k => (caseConst ρ.kind k).map (conv C t) == some v) b = some b' ∨
      fromLabel (enterCase fun k => (caseConst ρ.kind k).map (conv C t) == some v) b = none ∧ fromLabel enterDflt b = some b')
    (hm : Match C P ρ0 Γ0 G (.st ρ (.switch e (.blk b)) sp M) pc s) : Gets C base P ρ0 Γ0 G (.it ρ b' (sp - C.w) M1) pc s := by
  obtain ⟨lab, Γ, Γs, F, fs, l, sw, c, fs', l', sw', h1, h2, h3, h4, h5, h6, h7, h8⟩ := hm
  simp only [codegen_statement, Res.bind_eq_ok] at h2
  obtain ⟨⟨ce, f1, l1⟩, g1, ⟨cb, f2, l2, s2⟩, ⟨⟨ci, f3, l3, s3⟩, g3, hb2⟩, h2⟩ := h2
  simp only [Res.ok.injEq, Prod.mk.injEq] at hb2
  obtain ⟨rfl, rfl, rfl, rfl⟩ := hb2
  simp only [SupS, Bool.and_eq_true, hte] at h3
  obtain ⟨hs1, hs2⟩ := h3
  have h' := h1.loops (⟨fs, l, none⟩ :: Γ.loops)
  have e1 := (fs_all g.hw C.T _ e).1 _ _ _ _ _ g1
  simp only at g3 h2
  cases s3 with
  | none => cases h2
  | some s3 =>
  obtain ⟨nxt, dft⟩ := s3
  simp only [Res.ok.injEq, Prod.mk.injEq] at h2
  obtain ⟨hcd, rfl, rfl, rfl⟩ := h2
  obtain ⟨dj, hd1, hd2, rfl⟩ : ∃ dj, (dft = none → dj = []) ∧ (∀ d, dft = some d → dj = [Asm.jmp d]) ∧
      c = ce ++ [Asm.jmp (l + 1)] ++ (ci ++ grow_stack C.w (f1 - f3)) ++ [Asm.jmp l3, Asm.lbl nxt] ++ dj ++ [Asm.lbl l3] ++ grow_stack C.w (-1) ++ [Asm.lbl l] := by
    refine ⟨_, ?_, ?_, hcd.symm⟩
    · rintro rfl; rfl
    · rintro d rfl; rfl
  have H := h'.hyp g hc
  have hsup := sup_of h' hs1
  obtain ⟨s1, z, st, ov, tz⟩ := (rv_all H e).1 (.low C.w) fs (l + 2) ce f1 l1 sp M v M1 pc s g1 hsup (by simp [mdOk]) he h4
    h6.left.left.left.left.left.left.left h7 h8
  have hz := topOk_full ov.sgn tz
  have hzw : word C.w s1.mem (sp - C.w) = sgn C.w v := by rw [ov.top, hz]
  obtain ⟨te', hte', hfit⟩ := val_fits H (low_w H) hsup he
  rw [hte] at hte'
  cases hte'
  rw [promote_decay ht] at hfit
  have m1 := h8.same ov.dom
  have m1' : MemOk C (sp - C.w + C.w) M1 := by rw [show sp - (C.w : Int) + C.w = sp by omega]; exact m1
  have m1'' : MemOk C (sp - C.w) M1 := m1.mono (by omega)
  have hsp1 : sp - C.w = F - (fs + 1) * C.w := by rw [Int.add_mul]; omega
  subst e1
  have ij := h6.left.left.left.left.left.left.right.head
  have hatB := h6.left.left.left.left.left.right
  have hatN := h6.left.left.left.left.right
  have go : ∀ i, P[i]? = some (.lbl (l + 1)) → Go C.w base P (pc, s) (i, s1) := fun i hi => st.trans (.one (.jmp ij hi))
  rcases case_items g h' hc ht hfit hrm m1' hsp1 (a := (pc, s)) hzw b _ _ _ _ _ _ _ _ s1 g3 hs2 hatB.left ov.rel (Outside.refl _ _ _ _) go with
    ⟨b2, c', l3', sw3, pc', s2, x1, x2, x3, x4, x5, x6, x7, x8⟩ | ⟨x1, nxt', dft', s2, x2, x3, x4, x5⟩
  · rw [x1] at hb
    rcases hb with hb | ⟨hb, -⟩
    · cases hb
      exact ⟨pc', s2, x8, some te, _, Γs, F, _, _, _, _, _, _, _, h', x2, x3, hsp1, by omega, x4, x6, m1''⟩
    · cases hb
  · rw [x1] at hb
    rcases hb with hb | ⟨-, hb⟩
    · cases hb
    cases x2
    have sn := (x5 _ hatN.tail.head).trans (.one (.lbl hatN.tail.head))
    rcases dflt_items g b _ _ _ _ _ _ _ g3 hs2 hatB.left with ⟨b2, d, c', l3', sw3, i, nxt', y1, y2, y3, y4, y5, y6, y7⟩ | ⟨y1, nxt', y2⟩
    · rw [y1] at hb
      cases hb
      cases y2
      have hdj := hd2 _ rfl
      subst hdj
      have sd := sn.trans (.head (.jmp (by
        have := h6.left.left.left.right.head
        rw [List.length_append (bs := [Asm.jmp l3, Asm.lbl nxt])] at this
        exact this) y5) (.one (.lbl y5)))
      exact ⟨i + 1, s2, sd, some te, _, Γs, F, _, _, _, _, _, _, _, h', y3, y4, hsp1, by omega, y6, x3, m1''⟩
    · rw [y1] at hb; cases hb

theorem m_stmt {a b : St} (hm : Match C P ρ0 Γ0 G (.it ρ (.bstmt a b) sp M) pc s) : Gets C base P ρ0 Γ0 G (.st ρ a sp M) pc s := by
  obtain ⟨lab, Γ, Γs, F, fs, l, sw, c, fs', l', sw', h1, h2, h3, h4, h5, h6, h7, h8⟩ := hm
  simp only [codegen_items, Res.bind_eq_ok, Res.ok.injEq, Prod.mk.injEq] at h2
  obtain ⟨⟨ca, f1, l1, s1⟩, g1, ⟨cb, f2, l2, s2⟩, g2, rfl, rfl, -⟩ := h2
  simp only [SupS, Bool.and_eq_true] at h3
  exact Match.gets ⟨lab, Γ, Γs, F, _, _, _, _, _, _, _, h1, g1, h3.1, h4, h5, h6.left, h7, h8⟩

theorem m_rest (g : Glob C base P cs ρ0) (ih : SV C base P cs ρ0 Γ0 G n) {a b : St} (hx : exec C cs ρ0 n ρ a sp M = some (.norm, M1))
    (hm : Match C P ρ0 Γ0 G (.it ρ (.bstmt a b) sp M) pc s) : Gets C base P ρ0 Γ0 G (.it ρ b sp M1) pc s := by
  obtain ⟨lab, Γ, Γs, F, fs, l, sw, c, fs', l', sw', h1, h2, h3, h4, h5, h6, h7, h8⟩ := hm
  simp only [codegen_items, Res.bind_eq_ok, Res.ok.injEq, Prod.mk.injEq] at h2
  obtain ⟨⟨ca, f1, l1, s1⟩, g1, ⟨cb, f2, l2, s2⟩, g2, rfl, rfl, -⟩ := h2
  have e1 := (fs_stmt g.hw C.T _).1 _ _ _ _ _ _ _ _ g1
  simp only at e1 g2
  subst e1
  simp only [SupS, Bool.and_eq_true] at h3
  obtain ⟨s1, k1, k2, k3⟩ := ih a lab Γ Γs ρ F _ _ _ _ _ _ _ sp M .norm M1 pc s g1 h3.1 h1 hx h4 h5 h6.left h7 h8
  have d1 := (exec_dom g.hw g.ft n).1 _ _ _ _ _ _ h1.kfn hx h8
  exact ⟨_, s1, k2, lab, Γ, Γs, F, _, _, _, _, _, _, _, h1, g2, h3.2, h4, h5, h6.right, k3, h8.same d1⟩

end
end Verif.Reach
