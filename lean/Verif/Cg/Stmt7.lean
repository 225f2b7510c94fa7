import Verif.Cg.Stmt6
/-! Correctness of the code of `switch` and of its labels. -/
namespace Verif.Cg
open Verif Verif.Gen Verif.Gen.Spec Verif.X86 Verif.X86.Spec Spec
section
variable {C : Ctx} {base : Mach} {P : List Asm} {cs : Nat → Option Fun} {ρ0 : Spec.Env} {Γ0 : Env} {G : Int}

/-- Control falls into a `case` label. -/
theorem sv_case {n : Nat} (g : Glob C base P cs ρ0) (ih : SV C base P cs ρ0 Γ0 G n) (e : E) (s : St) : SVs C base P cs ρ0 Γ0 G (n + 1) (.case e s) := by
  intro lab Γ Γs ρ F fs l sw c fs' l' sw' sp M o M' pc ms hg hs h hx hsp h0 hat hR hM
  cases sw with
  | none => simp [codegen_statement] at hg
  | some sw =>
  obtain ⟨nxt, dft⟩ := sw
  simp only [codegen_statement, Res.bind_eq_ok, Res.ok.injEq, Prod.mk.injEq] at hg
  obtain ⟨⟨ce, f1, l1⟩, h1, ⟨c2, f2, l2, s2⟩, h2, rfl, rfl, rfl, rfl⟩ := hg
  have e1 := (fs_all g.hw C.T Γ e).1 _ _ _ _ _ h1
  simp only at h2
  rw [show f1 - 1 = fs by omega] at h2
  simp only [SupS, Bool.and_eq_true] at hs
  simp only [exec] at hx
  have B := ih s lab Γ Γs ρ F _ _ _ _ _ _ _ sp M o M' _ ms h2 hs.2 h hx hsp h0 hat.right hR hM
  have i0 : At P pc (.jmp l :: _) := hat.left.left
  have il := hat.left.right.tail.head
  refine Done.pre (a := (pc + ([Asm.jmp l, Asm.lbl nxt] ++ ce ++ I [.pop_reg 1, if C.w = 8 then .mov_reg_mem64 0 4 0 else .mov_reg_mem32 0 4 0] ++ jump_cond_reg_reg 0x4 l 0 1 ++
      [Asm.jmp (l + 1), Asm.lbl l]).length, ms)) ?_ (Outside.refl _ _ _ _) (SameDom.refl _) ?_
  · have j := Go.head (Step.jmp (w := C.w) (base := base.base) (s := ms) i0.head il) (.one (.lbl il))
    simp only [List.length_append, List.length_cons, List.length_nil, ← Nat.add_assoc, Nat.zero_add] at j ⊢
    exact j
  · rw [List.length_append (bs := c2), ← Nat.add_assoc]
    exact B

/-- Control falls into a `default` label. -/
theorem sv_dflt {n : Nat} (ih : SV C base P cs ρ0 Γ0 G n) (s : St) : SVs C base P cs ρ0 Γ0 G (n + 1) (.dflt s) := by
  intro lab Γ Γs ρ F fs l sw c fs' l' sw' sp M o M' pc ms hg hs h hx hsp h0 hat hR hM
  match sw, hg with
  | none, hg => simp [codegen_statement] at hg
  | some (nxt, some d), hg => simp [codegen_statement] at hg
  | some (nxt, none), hg =>
  simp only [codegen_statement, Res.bind_eq_ok, Res.ok.injEq, Prod.mk.injEq] at hg
  obtain ⟨⟨c2, f2, l2, s2⟩, h2, rfl, rfl, rfl, rfl⟩ := hg
  simp only [SupS, Bool.and_eq_true] at hs
  simp only [exec] at hx
  have B := ih s lab Γ Γs ρ F _ _ _ _ _ _ _ sp M o M' _ ms h2 hs.2 h hx hsp h0 hat.right hR hM
  have st : Go C.w base P (pc, ms) (pc + [Asm.lbl l].length, ms) := .one (.lbl hat.left.head)
  have := Done.pre st (Outside.refl _ _ _ _) (SameDom.refl _) B
  rw [List.length_append, ← Nat.add_assoc]
  exact this

theorem promote_decay {w : Nat} {te t : CTy} (h : promote w te = some t) : decay te = te := by
  cases te <;> simp [promote] at h <;> rfl

theorem sv_switch {n : Nat} (g : Glob C base P cs ρ0) (hc : CallOk C base P Γ0 G (call C cs ρ0 n)) (ihi : IV C base P cs ρ0 Γ0 G n) (e : E) (b : St) :
    SVs C base P cs ρ0 Γ0 G (n + 1) (.switch e b) := by
  intro lab Γ Γs ρ F fs l sw c fs' l' sw' sp M o M' pc ms hg hs h hx hsp h0 hat hR hM
  cases b with
  | blk b =>
    simp only [codegen_statement, Res.bind_eq_ok] at hg
    obtain ⟨⟨ce, f1, l1⟩, h1, ⟨cb, f2, l2, s2⟩, ⟨⟨ci, f3, l3, s3⟩, h3, hb2⟩, hg⟩ := hg
    simp only [Res.ok.injEq, Prod.mk.injEq] at hb2
    obtain ⟨rfl, rfl, rfl, rfl⟩ := hb2
    simp only [exec, Option.ite_none_right_eq_some, Option.bind_eq_some_iff] at hx
    obtain ⟨hrm, te, hte, t, ht, ⟨v, M1⟩, he, ⟨ob, M2⟩, hb, hx⟩ := hx
    simp only [SupS, Bool.and_eq_true, hte] at hs
    obtain ⟨hs1, hs2⟩ := hs
    have h' := h.loops (⟨fs, l, none⟩ :: Γ.loops)
    have e1 := (fs_all g.hw C.T _ e).1 _ _ _ _ _ h1
    simp only at h3 hb hg
    cases s3 with
    | none => cases hg
    | some s3 =>
    obtain ⟨nxt, dft⟩ := s3
    simp only [Res.ok.injEq, Prod.mk.injEq] at hg
    obtain ⟨hcd, rfl, rfl, rfl⟩ := hg
    obtain ⟨dj, hd1, hd2, rfl⟩ : ∃ dj, (dft = none → dj = []) ∧ (∀ d, dft = some d → dj = [Asm.jmp d]) ∧
        c = ce ++ [Asm.jmp (l + 1)] ++ (ci ++ grow_stack C.w (f1 - f3)) ++ [Asm.jmp l3, Asm.lbl nxt] ++ dj ++ [Asm.lbl l3] ++ grow_stack C.w (-1) ++ [Asm.lbl l] := by
      refine ⟨_, ?_, ?_, hcd.symm⟩
      · rintro rfl; rfl
      · rintro d rfl; rfl
    have H := h'.hyp g hc
    have hsup : Sup C { Γ with loops := ⟨fs, l, none⟩ :: Γ.loops } ρ.kind (.low C.w) e = true := by
      rw [(Sup_eq h'.ty ρ.kind e).1]; exact hs1
    -- the operand
    obtain ⟨s1, z, st, ov, tz⟩ := (rv_all H e).1 (.low C.w) fs (l + 2) ce f1 l1 sp M v M1 pc ms h1 hsup (by simp [mdOk]) he hsp
      hat.left.left.left.left.left.left.left hR hM
    have hz := topOk_full ov.sgn tz
    have hzw : word C.w s1.mem (sp - C.w) = sgn C.w v := by rw [ov.top, hz]
    obtain ⟨te', hte', hfit⟩ := val_fits H (low_w H) hsup he
    rw [hte] at hte'
    cases hte'
    rw [promote_decay ht] at hfit
    have m1 := hM.same ov.dom
    have m1' : MemOk C (sp - C.w + C.w) M1 := by rw [show sp - (C.w : Int) + C.w = sp by omega]; exact m1
    have m1'' : MemOk C (sp - C.w) M1 := m1.mono (by omega)
    have hsp1 : sp - C.w = F - (fs + 1) * C.w := by rw [Int.add_mul]; omega
    subst e1
    -- the places
    have ij := hat.left.left.left.left.left.left.right.head
    have hatB := hat.left.left.left.left.left.right
    have hatN := hat.left.left.left.left.right
    have hatL := hat.left.left.right
    have hatG := hat.left.right
    have hatE := hat.right
    have i3 := hatL.head
    have go : ∀ i, P[i]? = some (.lbl (l + 1)) → Go C.w base P (pc, ms) (i, s1) := fun i hi => st.trans (.one (.jmp ij hi))
    -- the end
    have fin : ∀ {s' : MS}, Rel C G (sp - C.w) M2 s' → ∀ i, P[i]? = some (.lbl l3) →
        i = (pc + (ce ++ [Asm.jmp (l + 1)] ++ (ci ++ grow_stack C.w (fs + 1 - f3)) ++ [Asm.jmp l3, Asm.lbl nxt] ++
        dj).length) → ∃ s2, Rel C G sp M2 s2 ∧ s2.mem = s'.mem ∧
        Go C.w base P (i, s') (pc + (ce ++ [Asm.jmp (l + 1)] ++ (ci ++ grow_stack C.w (fs + 1 - f3)) ++ [Asm.jmp l3, Asm.lbl nxt] ++
        dj ++ [Asm.lbl l3] ++ grow_stack C.w (-1) ++ [Asm.lbl l]).length, s2) := by
      intro s' r i hi ei
      subst ei
      have a1 : Go C.w base P (_, s') (_, s') := .one (.lbl hi)
      obtain ⟨s2, st2, r2, q1, -⟩ := grow_steps (base := base) hatG r
      rw [show sp - (C.w : Int) - -1 * C.w = sp by rw [Int.neg_mul]; omega] at r2
      have a3 : Go C.w base P (_, s2) (_, s2) := .one (.lbl hatE.head)
      refine ⟨s2, r2, q1, a1.trans ?_⟩
      have := st2.trans (by
        rw [List.length_append (bs := grow_stack C.w (-1)), ← Nat.add_assoc] at a3
        exact a3)
      simp only [List.length_append, List.length_cons, List.length_nil, ← Nat.add_assoc, Nat.zero_add] at this ⊢
      exact this
    -- the statements from a label on
    have run : ∀ b' c' l3' sw3 pc' s2, codegen_items C.w C.T { Γ with loops := ⟨fs, l, none⟩ :: Γ.loops } b' (fs + 1) l3' sw3 = .ok (c', f3, l3, some (nxt, dft)) →
        SupS C ρ.rett b' (some te) Γs ρ.kind = true → At P pc' c' → pc' + c'.length = pc + (ce ++ [Asm.jmp (l + 1)]).length + ci.length →
        Rel C G (sp - C.w) M1 s2 → Outside C M1 (sp - C.w) s1 s2 → Go C.w base P (pc, ms) (pc', s2) →
        execItems C cs ρ0 n ρ b' (sp - C.w) M1 = some (ob, M2) →
        Done C base P G F ρ.rett Γ.loops (pc, ms) (pc + (ce ++ [Asm.jmp (l + 1)] ++ (ci ++ grow_stack C.w (fs + 1 - f3)) ++ [Asm.jmp l3, Asm.lbl nxt] ++
        dj ++ [Asm.lbl l3] ++ grow_stack C.w (-1) ++ [Asm.lbl l]).length) sp sp M M' o := by
      intro b' c' l3' sw3 pc' s2 g1 g2 g3 g4 g5 g6 g7 g8
      have B := ihi b' (some te) _ Γs ρ F _ _ _ _ _ _ _ (sp - C.w) M1 ob M2 pc' s2 g1 g2 h' g8 hsp1 (by omega) g3 g5 m1''
      have d2 := (exec_dom g.hw g.ft n).2.1 _ _ _ _ _ _ h.kfn g8 m1''
      have ou : ∀ {s'}, Outside C M1 (sp - C.w) s2 s' → Outside C M sp ms s' := fun k =>
        (ov.out.trans ov.dom g6 (Int.le_refl _) (by omega)).trans ov.dom k (Int.le_refl _) (by omega)
      cases ob with
      | brk =>
        simp only [Option.some.injEq, Prod.mk.injEq] at hx
        obtain ⟨rfl, rfl⟩ := hx
        obtain ⟨s', k1, k2, k3⟩ := B.brk
        rw [← hsp] at k2
        refine Done.norm (ou k1) k2 (g7.trans ((k3 _ hatE.head).trans ?_))
        have a3 : Go C.w base P (_, s') (_, s') := .one (.lbl hatE.head)
        simp only [List.length_append, List.length_cons, List.length_nil, ← Nat.add_assoc, Nat.zero_add] at a3 ⊢
        exact a3
      | ret v =>
        simp only [Option.some.injEq, Prod.mk.injEq] at hx
        obtain ⟨rfl, rfl⟩ := hx
        obtain ⟨s', k1, k2⟩ := B
        exact ⟨s', ou k1, Fin.pre (a0 := (pc, ms)) g7 k2⟩
      | cont =>
        simp only [Option.some.injEq, Prod.mk.injEq] at hx
        obtain ⟨rfl, rfl⟩ := hx
        obtain ⟨s', k1, lp, lc, k2, k3, k4, k5⟩ := B
        refine ⟨s', ou k1, lp, lc, ?_, k3, k4, fun i hi => g7.trans (k5 i hi)⟩
        simpa using k2
      | norm =>
        simp only [Option.some.injEq, Prod.mk.injEq] at hx
        obtain ⟨rfl, rfl⟩ := hx
        obtain ⟨s', k1, k3, k2⟩ := B
        obtain ⟨s3, st3, r3, q1, -⟩ := grow_steps (base := base) hatB.right k2
        rw [show F - f3 * C.w - (fs + 1 - f3) * C.w = sp - C.w by rw [hsp1, Int.sub_mul (fs + 1)]; omega] at r3
        obtain ⟨s4, r4, q2, st4⟩ := fin r3 _ i3 rfl
        refine Done.norm (s' := s4) (fun x a b => ?_) r4 (g7.trans (k3.trans ?_))
        · rw [q2, q1]; exact ou k1 x a b
        · rw [g4]
          refine st3.trans (.head (.jmp ?_ i3) st4)
          have := hatN.head
          rw [List.length_append (bs := ci ++ _), List.length_append (bs := grow_stack C.w (fs + 1 - f3))] at this
          simpa [grow_stack, I, Nat.add_assoc] using this
    rcases case_items g h' hc ht hfit hrm m1' hsp1 (a := (pc, ms)) hzw b _ _ _ _ _ _ _ _ s1 h3 hs2 hatB.left ov.rel (Outside.refl _ _ _ _) go with
      ⟨b', c', l3', sw3, pc', s2, x1, x2, x3, x4, x5, x6, x7, x8⟩ | ⟨x1, nxt', dft', s2, x2, x3, x4, x5⟩
    · rw [x1] at hb
      exact run b' c' l3' sw3 pc' s2 x2 x3 x4 x5 x6 x7 x8 hb
    · rw [x1] at hb
      cases x2
      have sn := (x5 _ hatN.tail.head).trans (.one (.lbl hatN.tail.head))
      rcases dflt_items g b _ _ _ _ _ _ _ h3 hs2 hatB.left with ⟨b', d, c', l3', sw3, i, nxt', y1, y2, y3, y4, y5, y6, y7⟩ | ⟨y1, nxt', y2⟩
      · rw [y1] at hb
        cases y2
        have hdj := hd2 _ rfl
        subst hdj
        have sd := sn.trans (.head (.jmp (by
          have := hat.left.left.left.right.head
          rw [List.length_append (bs := [Asm.jmp l3, Asm.lbl nxt])] at this
          exact this) y5) (.one (.lbl y5)))
        exact run b' c' l3' sw3 (i + 1) s2 y3 y4 y6 y7 x3 x4 sd hb
      · rw [y1] at hb
        cases y2
        simp only [Option.some.injEq, Prod.mk.injEq] at hb
        obtain ⟨rfl, rfl⟩ := hb
        simp only [Option.some.injEq, Prod.mk.injEq] at hx
        obtain ⟨rfl, rfl⟩ := hx
        obtain ⟨s4, r4, q2, st4⟩ := fin x3 _ i3 rfl
        refine Done.norm (s' := s4) (fun x a b => ?_) r4 (sn.trans ?_)
        · rw [q2]; exact ov.out.trans ov.dom x4 (Int.le_refl _) (by omega) x a b
        · rw [hd1 rfl] at st4 ⊢
          simp only [List.append_nil] at st4 ⊢
          rw [List.length_append (bs := [Asm.jmp l3, Asm.lbl nxt])] at st4
          exact st4
  | _ => simp [SupS] at hs

end
end Verif.Cg
