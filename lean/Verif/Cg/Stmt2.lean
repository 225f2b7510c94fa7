import Verif.Cg.Stmt1
/-! Correctness of the code of statements: loops. -/
namespace Verif.Cg
open Verif Verif.Gen Verif.Gen.Spec Verif.X86 Verif.X86.Spec Spec
section
variable {C : Ctx} {base : Mach} {P : List Asm} {cs : Nat → Option Fun} {ρ0 : Spec.Env} {Γ0 : Env} {G : Int}
variable {F : Int} {rett : CTy} {lps : List Loop}

theorem Done.brk {a : Nat × MS} {pcN : Nat} {spN sp : Int} {M M' : Mem} {lp : Loop} (h : Done C base P G F rett (lp :: lps) a pcN spN sp M M' .brk) :
    ∃ s', Outside C M sp a.2 s' ∧ Rel C G (F - lp.fs * C.w) M' s' ∧ ∀ i, P[i]? = some (.lbl lp.brk) → Go C.w base P a (i, s') := by
  obtain ⟨s', h1, lp', h2, h3, h4⟩ := h
  simp only [List.head?_cons, Option.some.injEq] at h2
  subst h2
  exact ⟨s', h1, h3, h4⟩

theorem Done.cont {a : Nat × MS} {pcN : Nat} {spN sp : Int} {M M' : Mem} {fs : Int} {lb lc : Nat}
    (h : Done C base P G F rett (⟨fs, lb, some lc⟩ :: lps) a pcN spN sp M M' .cont) :
    ∃ s', Outside C M sp a.2 s' ∧ Rel C G (F - fs * C.w) M' s' ∧ ∀ i, P[i]? = some (.lbl lc) → Go C.w base P a (i, s') := by
  obtain ⟨s', h1, lp', lc', h2, h3, h4, h5⟩ := h
  simp only [List.find?_cons, Option.isSome_some, Option.some.injEq] at h2
  subst h2
  simp only [Option.some.injEq] at h3
  subst h3
  exact ⟨s', h1, h4, h5⟩

theorem Done.ret {a : Nat × MS} {pcN pcN' : Nat} {spN spN' sp : Int} {M M' : Mem} {lps' : List Loop} {v : Int}
    (h : Done C base P G F rett lps' a pcN spN sp M M' (.ret v)) : Done C base P G F rett lps a pcN' spN' sp M M' (.ret v) := h

/-- Ending at a place where control is. -/
theorem Done.norm {a : Nat × MS} {pcN : Nat} {spN sp : Int} {M M' : Mem} {s' : MS} (h1 : Outside C M sp a.2 s') (h2 : Rel C G spN M' s')
    (h3 : Go C.w base P a (pcN, s')) : Done C base P G F rett lps a pcN spN sp M M' .norm := ⟨s', h1, h3, h2⟩

theorem sv_while {n : Nat} (g : Glob C base P cs ρ0) (hc : CallOk C base P Γ0 G (call C cs ρ0 n)) (ih : SV C base P cs ρ0 Γ0 G n)
    (e : E) (b : St) : SVs C base P cs ρ0 Γ0 G (n + 1) (.whil e b) := by
  intro lab Γ Γs ρ F fs l sw c fs' l' sw' sp M o M' pc ms hg hs h hx hsp h0 hat hR hM
  have hg0 := hg
  have hs0 := hs
  have hat0 := hat
  simp only [codegen_statement, Res.bind_eq_ok, Res.ok.injEq, Prod.mk.injEq] at hg
  obtain ⟨⟨ce, f1, l1⟩, h1, ⟨cb, f2, l2, s2⟩, h2, rfl, rfl, -⟩ := hg
  simp only [exec, Option.bind_eq_some_iff] at hx
  obtain ⟨⟨v, M1⟩, he, hx⟩ := hx
  simp only [SupS, Bool.and_eq_true] at hs
  obtain ⟨hs1, hs2⟩ := hs
  have h' := h.loops (⟨fs, l + 1, some l⟩ :: Γ.loops)
  have e1 := (fs_all g.hw C.T _ e).1 _ _ _ _ _ h1
  simp only at h2 hx
  have hat1 : At P pc (.lbl l :: (ce ++ I [.pop_reg 0, .xor_reg_reg 1 1] ++ jump_cond_reg_reg 0x4 (l + 1) 0 1)) := hat.left.left
  have i1 := hat1.head
  have i2 := hat.right.tail.head
  have st0 : Go C.w base P (pc, ms) (pc + 1, ms) := .one (.lbl i1)
  obtain ⟨ms1, r1, o1, d1, m1, j1, j2⟩ := cond_steps g h' hc h1 hs1 he hsp hat1.tail (.inl rfl) hR hM
  have ex : ∀ {s : MS}, Go C.w base P (pc + ([Asm.lbl l] ++ ce ++ I [.pop_reg 0, .xor_reg_reg 1 1] ++ jump_cond_reg_reg 0x4 (l + 1) 0 1 ++ cb).length + 1, s)
      (pc + ([Asm.lbl l] ++ ce ++ I [.pop_reg 0, .xor_reg_reg 1 1] ++ jump_cond_reg_reg 0x4 (l + 1) 0 1 ++ cb ++ [Asm.jmp l, Asm.lbl (l + 1)]).length, s) := by
    intro s
    have j := Go.one (Step.lbl (w := C.w) (base := base.base) (s := s) i2)
    rw [List.length_append (bs := [Asm.jmp l, .lbl (l + 1)])]
    exact j
  split at hx
  · rename_i hv
    simp only [Option.some.injEq, Prod.mk.injEq] at hx
    obtain ⟨rfl, rfl⟩ := hx
    exact Done.norm o1 r1 ((st0.trans (j1 (by simpa using hv) _ i2)).trans ex)
  · rename_i hv
    have st := j2 (by simpa using hv)
    simp only [Option.bind_eq_some_iff] at hx
    obtain ⟨⟨ob, M2⟩, hb, hx⟩ := hx
    have B := ih b none _ Γs ρ F _ _ _ _ _ _ _ sp M1 ob M2 _ ms1 h2 hs2 h' hb (by rw [e1, hsp]; congr 2; omega) (by omega) hat.left.right r1 m1
    have d2 := (exec_dom g.hw g.ft n).1 _ _ _ _ _ _ h.kfn hb m1
    have st1 : Go C.w base P (pc, ms) (pc + ([Asm.lbl l] ++ ce ++ I [.pop_reg 0, .xor_reg_reg 1 1] ++ jump_cond_reg_reg 0x4 (l + 1) 0 1).length, ms1) := by
      have := st0.trans st
      rwa [show pc + ([Asm.lbl l] ++ ce ++ I [.pop_reg 0, .xor_reg_reg 1 1] ++ jump_cond_reg_reg 0x4 (l + 1) 0 1).length = pc + 1 + ce.length + 4 by
        simp [I, jump_cond_reg_reg]; omega]
    have again : ∀ {s' : MS}, exec C cs ρ0 n ρ (.whil e b) sp M2 = some (o, M') → Outside C M1 sp ms1 s' → Rel C G sp M2 s' →
        Go C.w base P (pc, ms) (pc, s') → Done C base P G F ρ.rett Γ.loops (pc, ms)
        (pc + ([Asm.lbl l] ++ ce ++ I [.pop_reg 0, .xor_reg_reg 1 1] ++ jump_cond_reg_reg 0x4 (l + 1) 0 1 ++ cb ++ [Asm.jmp l, Asm.lbl (l + 1)]).length) sp sp M M' o := by
      intro s' hx o2 r2 st2
      have A := ih (.whil e b) lab Γ Γs ρ F _ _ _ _ _ _ _ sp M2 o M' pc s' hg0 hs0 h hx hsp h0 hat0 r2 (m1.same d2)
      exact A.pre st2 (o1.trans d1 o2 (Int.le_refl _) (Int.le_refl _)) (d1.trans d2)
    cases ob with
    | brk =>
      simp only [Option.some.injEq, Prod.mk.injEq] at hx
      obtain ⟨rfl, rfl⟩ := hx
      obtain ⟨s', k1, k2, k3⟩ := B.brk
      rw [← hsp] at k2
      exact Done.norm (o1.trans d1 k1 (Int.le_refl _) (Int.le_refl _)) k2 ((st1.trans (k3 _ i2)).trans ex)
    | ret v =>
      simp only [Option.some.injEq, Prod.mk.injEq] at hx
      obtain ⟨rfl, rfl⟩ := hx
      exact Done.pre st1 o1 d1 B.ret
    | cont =>
      obtain ⟨s', k1, k2, k3⟩ := B.cont
      rw [← hsp] at k2
      exact again hx k1 k2 (st1.trans (k3 _ i1))
    | norm =>
      obtain ⟨s', k1, k3, k2⟩ := B
      refine again hx k1 k2 (st1.trans (k3.trans ?_))
      have j := Go.one (Step.jmp (w := C.w) (base := base.base) (s := s') hat.right.head i1)
      rwa [List.length_append (bs := cb), ← Nat.add_assoc] at j

end
end Verif.Cg
