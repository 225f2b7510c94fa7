import Verif.Cg.Stmt2
/-! Correctness of the code of statements: `for` and `do`. -/
namespace Verif.Cg
open Verif Verif.Gen Verif.Gen.Spec Verif.X86 Verif.X86.Spec Spec
section
variable {C : Ctx} {base : Mach} {P : List Asm} {cs : Nat → Option Fun} {ρ0 : Spec.Env} {Γ0 : Env} {G : Int}
variable {F : Int} {rett : CTy} {lps : List Loop}

/-- The code of the condition of `for`. -/
def forTest (w : Nat) (T : Tags) (Γ : Env) (c : Option E) (fs : Int) (l l2 : Nat) : Res (List Asm × Int × Nat) :=
  match c with
  | some c => (codegen_rvalue w T Γ c fs l).bind fun (cc, fs, l) =>
      let fs := fs - 1
      .ok (cc ++ I [.pop_reg 0, .xor_reg_reg 1 1] ++ jump_cond_reg_reg 0x4 l2 0 1, fs, l)
  | none => .ok ([], fs, l)

def supTest (C : Ctx) (Γ : Env) (κ : Nat → Option VK) : Option E → Bool
  | some c => Sup C Γ κ .test c
  | none => true

theorem for_test {n : Nat} {Γ Γs : Env} {ρ : Spec.Env} (g : Glob C base P cs ρ0) (h : FH C ρ0 Γ0 G Γ Γs ρ F)
    (hc : CallOk C base P Γ0 G (call C cs ρ0 n)) {e : Option E} {fs : Int} {l : Nat} {c : List Asm} {fs' : Int} {l' l2 : Nat} {sp : Int} {M M' : Mem} {v : Int}
    {pc : Nat} {s : MS}
    (hg : forTest C.w C.T Γ e fs l l2 = .ok (c, fs', l')) (hs : supTest C Γs ρ.kind e = true)
    (he : (match (generalizing := false) e with
          | some c => (evalE C (call C cs ρ0 n) ρ c sp M)
          | none => some (1, M)) = some (v, M')) (hsp : sp = F - fs * C.w)
    (hat : At P pc c) (hR : Rel C G sp M s) (hM : MemOk C sp M) :
    fs' = fs ∧ ∃ s', Rel C G sp M' s' ∧ Outside C M sp s s' ∧ SameDom M M' ∧ MemOk C sp M' ∧
      (v = 0 → ∀ i, P[i]? = some (.lbl l2) → Go C.w base P (pc, s) (i, s')) ∧
      (v ≠ 0 → Go C.w base P (pc, s) (pc + c.length, s')) := by
  cases e with
  | none =>
    simp only [forTest, Res.ok.injEq, Prod.mk.injEq] at hg
    obtain ⟨rfl, rfl, -⟩ := hg
    simp only [Option.some.injEq, Prod.mk.injEq] at he
    obtain ⟨rfl, rfl⟩ := he
    exact ⟨rfl, s, hR, Outside.refl _ _ _ _, SameDom.refl _, hM, fun h => absurd h (by decide), fun _ => .refl⟩
  | some e =>
    simp only [forTest, Res.bind_eq_ok, Res.ok.injEq, Prod.mk.injEq] at hg
    obtain ⟨⟨ce, f1, l1⟩, h1, rfl, rfl, -⟩ := hg
    have e1 := (fs_all g.hw C.T _ e).1 _ _ _ _ _ h1
    obtain ⟨s', r1, o1, d1, m1, j1, j2⟩ := cond_steps g h hc h1 hs he hsp hat (.inl rfl) hR hM
    refine ⟨by simp only; omega, s', r1, o1, d1, m1, fun hv => j1 (by simpa using hv), fun hv => ?_⟩
    have := j2 (by simpa using hv)
    rwa [show pc + (ce ++ I [.pop_reg 0, .xor_reg_reg 1 1] ++ jump_cond_reg_reg 0x4 l2 0 1).length = pc + ce.length + 4 by
        simp [I, jump_cond_reg_reg]; omega]

variable (C base P cs ρ0 Γ0 G)
/-- The loop of `for`, from the test on. -/
def FVs (n : Nat) (e : Option E) (p b : St) : Prop :=
  ∀ Γ Γs ρ F fs l1 l2 l3 lp swp cp fp lp' swp' lt ct ft lt' lb swb cb fb lb' swb' sp M o M' pc ms,
    codegen_statement C.w C.T { Γ with loops := ⟨fs, l2, some l1⟩ :: Γ.loops } p fs lp swp = .ok (cp, fp, lp', swp') →
    forTest C.w C.T { Γ with loops := ⟨fs, l2, some l1⟩ :: Γ.loops } e fs lt l2 = .ok (ct, ft, lt') →
    codegen_statement C.w C.T { Γ with loops := ⟨fs, l2, some l1⟩ :: Γ.loops } b fs lb swb = .ok (cb, fb, lb', swb') →
    SupS C ρ.rett p none Γs ρ.kind = true → supTest C Γs ρ.kind e = true → SupS C ρ.rett b none Γs ρ.kind = true →
    FH C ρ0 Γ0 G Γ Γs ρ F → exec C cs ρ0 n ρ (.forr .skip e p b) sp M = some (o, M') → sp = F - fs * C.w → 0 ≤ fs →
    At P pc ([.lbl l1] ++ cp ++ [.lbl l3] ++ ct ++ cb ++ [.jmp l1, .lbl l2]) →
    Rel C G sp M ms → MemOk C sp M →
    Done C base P G F ρ.rett Γ.loops (pc + ([Asm.lbl l1] ++ cp).length, ms)
      (pc + ([Asm.lbl l1] ++ cp ++ [Asm.lbl l3] ++ ct ++ cb ++ [Asm.jmp l1, Asm.lbl l2]).length) sp sp M M' o
variable {C base P cs ρ0 Γ0 G}

theorem fv {n : Nat} (g : Glob C base P cs ρ0) (hc : CallOk C base P Γ0 G (call C cs ρ0 n)) (ih : SV C base P cs ρ0 Γ0 G n)
    (e : Option E) (p b : St) (ihf : FVs C base P cs ρ0 Γ0 G n e p b) : FVs C base P cs ρ0 Γ0 G (n + 1) e p b := by
  intro Γ Γs ρ F fs l1 l2 l3 lp swp cp fp lp' swp' lt ct ft lt' lb swb cb fb lb' swb' sp M o M' pc ms hp ht hb sp1 sp2 sp3 h hx hsp h0 hat hR hM
  simp only [exec, Option.bind_eq_some_iff] at hx
  obtain ⟨⟨v, M1⟩, he, hx⟩ := hx
  have h' := h.loops (⟨fs, l2, some l1⟩ :: Γ.loops)
  have i1 : P[pc]? = some (.lbl l1) := hat.left.left.left.left.left.head
  have i3 := hat.left.left.left.right.head
  have i2 := hat.right.tail.head
  obtain ⟨-, ms1, r1, o1, d1, m1, j1, j2⟩ := for_test g h' hc ht sp2 he hsp hat.left.left.right hR hM
  have st0 : Go C.w base P (pc + ([Asm.lbl l1] ++ cp).length, ms) (pc + ([Asm.lbl l1] ++ cp ++ [Asm.lbl l3]).length, ms) := by
    rw [List.length_append (bs := [Asm.lbl l3])]; exact .one (.lbl i3)
  have ex : ∀ {s : MS}, Go C.w base P (pc + ([Asm.lbl l1] ++ cp ++ [Asm.lbl l3] ++ ct ++ cb).length + 1, s)
      (pc + ([Asm.lbl l1] ++ cp ++ [Asm.lbl l3] ++ ct ++ cb ++ [Asm.jmp l1, Asm.lbl l2]).length, s) := by
    intro s
    have j := Go.one (Step.lbl (w := C.w) (base := base.base) (s := s) i2)
    rw [List.length_append (bs := [Asm.jmp l1, Asm.lbl l2])]
    exact j
  simp only at hx
  split at hx
  · rename_i hv
    simp only [Option.some.injEq, Prod.mk.injEq] at hx
    obtain ⟨rfl, rfl⟩ := hx
    exact Done.norm o1 r1 ((st0.trans (j1 hv _ i2)).trans ex)
  · rename_i hv
    simp only [Option.bind_eq_some_iff] at hx
    obtain ⟨⟨ob, M2⟩, hb2, hx⟩ := hx
    have B := ih b none _ Γs ρ F _ _ _ _ _ _ _ sp M1 ob M2 _ ms1 hb sp3 h' hb2 hsp h0 hat.left.right r1 m1
    have d2 := (exec_dom g.hw g.ft n).1 _ _ _ _ _ _ h.kfn hb2 m1
    have st1 : Go C.w base P (pc + ([Asm.lbl l1] ++ cp).length, ms) (pc + ([Asm.lbl l1] ++ cp ++ [Asm.lbl l3] ++ ct).length, ms1) := by
      rw [List.length_append (bs := ct), ← Nat.add_assoc]; exact st0.trans (j2 hv)
    have again : ∀ {s' : MS}, (exec C cs ρ0 n ρ p sp M2).bind (fun
            | (.norm, M) => exec C cs ρ0 n ρ (.forr .skip e p b) sp M
            | _ => none) = some (o, M') → Outside C M1 sp ms1 s' → Rel C G sp M2 s' →
        Go C.w base P (pc + ([Asm.lbl l1] ++ cp).length, ms) (pc, s') → Done C base P G F ρ.rett Γ.loops (pc + ([Asm.lbl l1] ++ cp).length, ms)
        (pc + ([Asm.lbl l1] ++ cp ++ [Asm.lbl l3] ++ ct ++ cb ++ [Asm.jmp l1, Asm.lbl l2]).length) sp sp M M' o := by
      intro s' hx o2 r2 st2
      simp only [Option.bind_eq_some_iff] at hx
      obtain ⟨⟨op, M3⟩, hp3, hx⟩ := hx
      have m2 := m1.same d2
      have d3 := (exec_dom g.hw g.ft n).1 _ _ _ _ _ _ h.kfn hp3 m2
      cases op with
      | norm =>
        obtain ⟨s3, k1, k2, k3⟩ := ih p none _ Γs ρ F _ _ _ _ _ _ _ sp M2 .norm M3 _ s' hp sp1 h' hp3 hsp h0 hat.left.left.left.left.right r2 m2
        have A := ihf Γ Γs ρ F fs l1 l2 l3 lp swp cp fp lp' swp' lt ct ft lt' lb swb cb fb lb' swb' sp M3 o M' pc s3 hp ht hb sp1 sp2 sp3 h hx hsp h0 hat k3 (m2.same d3)
        have o12 := o1.trans d1 o2 (Int.le_refl _) (Int.le_refl _)
        refine A.pre (st2.trans (.head (.lbl i1) ?_)) (o12.trans (d1.trans d2) k1 (Int.le_refl _) (Int.le_refl _)) ((d1.trans d2).trans d3)
        rw [List.length_append, ← Nat.add_assoc]
        exact k2
      | brk => cases hx
      | cont => cases hx
      | ret v => cases hx
    cases ob with
    | brk =>
      simp only [Option.some.injEq, Prod.mk.injEq] at hx
      obtain ⟨rfl, rfl⟩ := hx
      obtain ⟨s', k1, k2, k3⟩ := B.brk
      rw [← hsp] at k2
      exact Done.norm (o1.trans d1 k1 (Int.le_refl _) (Int.le_refl _)) k2 ((st1.trans (k3 _ i2)).trans ex)
    | ret v =>
      simp only [Option.some.injEq, Prod.mk.injEq] at hx
      obtain ⟨rfl, rfl⟩ := hx
      exact Done.pre st1 o1 d1 B.ret
    | cont =>
      obtain ⟨s', k1, k2, k3⟩ := B.cont
      rw [← hsp] at k2
      exact again hx k1 k2 (st1.trans (k3 _ i1))
    | norm =>
      obtain ⟨s', k1, k3, k2⟩ := B
      refine again hx k1 k2 (st1.trans (k3.trans ?_))
      have j := Go.one (Step.jmp (w := C.w) (base := base.base) (s := s') hat.right.head i1)
      rwa [List.length_append (bs := cb), ← Nat.add_assoc] at j

theorem sv_for {n : Nat} (g : Glob C base P cs ρ0) (ih : SV C base P cs ρ0 Γ0 G n)
    (ihf : ∀ e p b, FVs C base P cs ρ0 Γ0 G n e p b) (ihf1 : ∀ e p b, FVs C base P cs ρ0 Γ0 G (n + 1) e p b)
    (i : St) (e : Option E) (p b : St) : SVs C base P cs ρ0 Γ0 G (n + 1) (.forr i e p b) := by
  intro lab Γ Γs ρ F fs l sw c fs' l' sw' sp M o M' pc ms hg hs h hx hsp h0 hat hR hM
  simp only [codegen_statement, Res.bind_eq_ok, Res.ok.injEq, Prod.mk.injEq] at hg
  obtain ⟨⟨ci, f1, l1, s1⟩, h1, ⟨cp, f2, l2, s2⟩, h2, ⟨ct, f3, l3⟩, h3, ⟨cb, f4, l4, s4⟩, h4, rfl, rfl, -⟩ := hg
  have h3' : forTest C.w C.T { Γ with loops := ⟨fs, l + 1, some l⟩ :: Γ.loops } e f2 l2 (l + 1) = .ok (ct, f3, l3) := h3
  simp only [SupS, Bool.and_eq_true] at hs
  obtain ⟨⟨⟨⟨⟨hs1, hs2⟩, hs3⟩, hs4⟩, hs5⟩, hs6⟩ := hs
  have hs5' : supTest C Γs ρ.kind e = true := hs5
  have e1 := (fs_stmt g.hw C.T _).1 _ _ _ _ _ _ _ _ h1
  have e2 := (fs_stmt g.hw C.T _).1 _ _ _ _ _ _ _ _ h2
  simp only at e1 e2 h2 h4
  subst e1; subst e2
  have e3 : f3 = f2 := by
    cases e with
    | none => simp only [forTest, Res.ok.injEq, Prod.mk.injEq] at h3'; exact h3'.2.1.symm
    | some e =>
      simp only [forTest, Res.bind_eq_ok, Res.ok.injEq, Prod.mk.injEq] at h3'
      obtain ⟨⟨ce, g1, _⟩, hh, -, rfl, -⟩ := h3'
      have e1 := (fs_all g.hw C.T _ e).1 _ _ _ _ _ hh
      simp only; omega
  subst e3
  have h' := h.loops (⟨f3, l + 1, some l⟩ :: Γ.loops)
  have ec : ci ++ [Asm.jmp (l + 2), Asm.lbl l] ++ cp ++ [Asm.lbl (l + 2)] ++ ct ++ cb ++ [Asm.jmp l, Asm.lbl (l + 1)] =
      (ci ++ [Asm.jmp (l + 2)]) ++ ([Asm.lbl l] ++ cp ++ [Asm.lbl (l + 2)] ++ ct ++ cb ++ [Asm.jmp l, Asm.lbl (l + 1)]) := by simp
  rw [ec] at hat ⊢
  have i3 := hat.right.left.left.left.right.head
  have j3 := hat.left.right.head
  have fin : ∀ {n' : Nat} {s : MS} {M1 : Mem}, FVs C base P cs ρ0 Γ0 G n' e p b → exec C cs ρ0 n' ρ (.forr .skip e p b) sp M1 = some (o, M') → Rel C G sp M1 s → MemOk C sp M1 →
      Done C base P G F ρ.rett Γ.loops (pc + ci.length, s) (pc + ((ci ++ [Asm.jmp (l + 2)]) ++ ([Asm.lbl l] ++ cp ++ [Asm.lbl (l + 2)] ++ ct ++ cb ++ [Asm.jmp l, Asm.lbl (l + 1)])).length) sp sp M1 M' o := by
    intro n' s M1 hf hx hR hM
    have A := hf Γ Γs ρ F _ l (l + 1) (l + 2) _ _ _ _ _ _ _ _ _ _ _ _ _ _ _ _ sp M1 o M' _ s h2 h3' h4 hs4 hs5' hs6 h hx hsp h0 hat.right hR hM
    rw [List.length_append, ← Nat.add_assoc]
    exact A.pre (.one (.jmp j3 i3)) (Outside.refl _ _ _ _) (SameDom.refl _)
  by_cases hi : i = .skip
  · subst hi
    simp only [codegen_statement, Res.ok.injEq, Prod.mk.injEq] at h1
    obtain ⟨rfl, -⟩ := h1
    exact fin (ihf1 e p b) hx hR hM
  · have hx' : ∃ M1, exec C cs ρ0 n ρ i sp M = some (.norm, M1) ∧ exec C cs ρ0 n ρ (.forr .skip e p b) sp M1 = some (o, M') := by
      cases i with
      | skip => exact absurd rfl hi
      | _ =>
        simp only [exec, Option.bind_eq_some_iff] at hx
        obtain ⟨⟨oi, M1⟩, hi1, hx⟩ := hx
        cases oi with
        | norm => exact ⟨M1, hi1, hx⟩
        | _ => cases hx
    obtain ⟨M1, hi1, hx'⟩ := hx'
    have d1 := (exec_dom g.hw g.ft n).1 _ _ _ _ _ _ h.kfn hi1 hM
    obtain ⟨s1, k1, k2, k3⟩ := ih i none _ Γs ρ F _ _ _ _ _ _ _ sp M .norm M1 pc ms h1 hs3 h' hi1 hsp h0 hat.left.left hR hM
    exact (fin (ihf e p b) hx' k3 (hM.same d1)).pre k2 k1 d1

theorem sv_do {n : Nat} (g : Glob C base P cs ρ0) (hc : CallOk C base P Γ0 G (call C cs ρ0 n)) (ih : SV C base P cs ρ0 Γ0 G n)
    (b : St) (e : E) : SVs C base P cs ρ0 Γ0 G (n + 1) (.doW b e) := by
  intro lab Γ Γs ρ F fs l sw c fs' l' sw' sp M o M' pc ms hg hs h hx hsp h0 hat hR hM
  have hg0 := hg
  have hs0 := hs
  have hat0 := hat
  simp only [codegen_statement, Res.bind_eq_ok, Res.ok.injEq, Prod.mk.injEq] at hg
  obtain ⟨⟨cb, f1, l1, s1⟩, h1, ⟨ce, f2, l2⟩, h2, rfl, rfl, -⟩ := hg
  simp only [exec, Option.bind_eq_some_iff] at hx
  obtain ⟨⟨ob, M1⟩, hb, hx⟩ := hx
  simp only [SupS, Bool.and_eq_true] at hs
  obtain ⟨⟨hs1, hs2⟩, hs3⟩ := hs
  have h' := h.loops (⟨fs, l + 1, some l⟩ :: Γ.loops)
  have e1 := (fs_stmt g.hw C.T _).1 _ _ _ _ _ _ _ _ h1
  simp only at e1 h2
  subst e1
  have i1 : P[pc]? = some (.lbl l) := hat.left.left.left.left.left.head
  have i2 := hat.right.head
  have st0 : Go C.w base P (pc, ms) (pc + 1, ms) := .one (.lbl i1)
  have B := ih b none _ Γs ρ F _ _ _ _ _ _ _ sp M ob M1 _ ms h1 hs1 h' hb hsp h0 hat.left.left.left.left.right hR hM
  have d1 := (exec_dom g.hw g.ft n).1 _ _ _ _ _ _ h.kfn hb hM
  have ex : ∀ {s : MS}, Go C.w base P (pc + ([Asm.lbl l] ++ cb ++ ce ++ I [.pop_reg 0, .xor_reg_reg 1 1] ++ jump_cond_reg_reg 0x5 l 0 1).length, s)
      (pc + ([Asm.lbl l] ++ cb ++ ce ++ I [.pop_reg 0, .xor_reg_reg 1 1] ++ jump_cond_reg_reg 0x5 l 0 1 ++ [Asm.lbl (l + 1)]).length, s) := by
    intro s
    rw [List.length_append (bs := [Asm.lbl (l + 1)])]
    exact .one (.lbl i2)
  cases ob with
  | cont => exact ((noCont_exec n).1 _ _ _ _ _ hs3 hb).elim
  | brk =>
    simp only [Option.some.injEq, Prod.mk.injEq] at hx
    obtain ⟨rfl, rfl⟩ := hx
    obtain ⟨s', k1, k2, k3⟩ := B.brk
    rw [← hsp] at k2
    exact Done.norm k1 k2 ((st0.trans (k3 _ i2)).trans ex)
  | ret v =>
    simp only [Option.some.injEq, Prod.mk.injEq] at hx
    obtain ⟨rfl, rfl⟩ := hx
    exact Done.pre st0 (Outside.refl _ _ _ _) (SameDom.refl _) B.ret
  | norm =>
    simp only [Option.bind_eq_some_iff] at hx
    obtain ⟨⟨v, M2⟩, he, hx⟩ := hx
    obtain ⟨s1, k1, k2, k3⟩ := B
    have at2 : At P (pc + ([Asm.lbl l] ++ cb).length) (ce ++ I [.pop_reg 0, .xor_reg_reg 1 1] ++ jump_cond_reg_reg 0x5 l 0 1) := by
      have := hat.left
      rw [List.append_assoc _ ce, List.append_assoc _ (ce ++ _)] at this
      exact this.right
    obtain ⟨s2, r2, o2, d2, m2, j1, j2⟩ := cond_steps g h' hc h2 hs2 he hsp at2 (.inr rfl) k3 (hM.same d1)
    have st1 : Go C.w base P (pc, ms) (pc + ([Asm.lbl l] ++ cb).length, s1) := by
      rw [List.length_append, ← Nat.add_assoc]
      exact st0.trans k2
    simp only at hx
    split at hx
    · rename_i hv
      simp only [Option.some.injEq, Prod.mk.injEq] at hx
      obtain ⟨rfl, rfl⟩ := hx
      refine Done.norm (k1.trans d1 o2 (Int.le_refl _) (Int.le_refl _)) r2 ((st1.trans ?_).trans ex)
      have := j2 (by simp [hv])
      rwa [show pc + ([Asm.lbl l] ++ cb ++ ce ++ I [.pop_reg 0, .xor_reg_reg 1 1] ++ jump_cond_reg_reg 0x5 l 0 1).length = pc + ([Asm.lbl l] ++ cb).length + ce.length + 4 by
        simp [I, jump_cond_reg_reg]; omega]
    · rename_i hv
      have A := ih (.doW b e) lab Γ Γs ρ F _ _ _ _ _ _ _ sp M2 o M' pc s2 hg0 hs0 h hx hsp h0 hat0 r2 m2
      exact A.pre (st1.trans (j1 (by simp [hv]) _ i1)) (k1.trans d1 o2 (Int.le_refl _) (Int.le_refl _)) (d1.trans d2)

end
end Verif.Cg
