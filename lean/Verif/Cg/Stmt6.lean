import Verif.Cg.Stmt5
/-! Correctness of the code of `switch`: going to the right label. -/
namespace Verif.Cg
open Verif Verif.Gen Verif.Gen.Spec Verif.X86 Verif.X86.Spec Spec

/-- Statements without a label of the enclosing `switch`. -/
def noLab : St → Bool
  | .case _ _ | .dflt _ => false
  | _ => true

theorem SupS_noLab {C : Ctx} {r : CTy} {s : St} {lab : Option CTy} {Γs : Env} {κ : Nat → Option VK} (h : SupS C r s lab Γs κ = true) (hn : noLab s = true)
    {Γ : Env} {fs : Int} {l : Nat} {sw : Sw} {x : List Asm × Int × Nat × Sw} (hg : codegen_statement C.w C.T Γ s fs l sw = .ok x) : SupS C r s none Γs κ = true := by
  cases s with
  | case _ _ => simp [noLab] at hn
  | dflt _ => simp [noLab] at hn
  | bstmt _ _ => simp [codegen_statement] at hg
  | bdecl _ _ _ _ => simp [codegen_statement] at hg
  | switch e b => cases b <;> simp only [SupS] at h ⊢ <;> exact h
  | ret e => cases e <;> simp only [SupS] at h ⊢ <;> exact h
  | _ => simp only [SupS] at h ⊢ <;> exact h

theorem enter_noLab {f : E → Bool} {s : St} (hn : noLab s = true) : enterCase f s = none ∧ enterDflt s = none := by
  cases s <;> simp [noLab] at hn <;> simp [enterCase, enterDflt]

/-- With a default label, it stays. -/
theorem dft_keep {C : Ctx} {r : CTy} (s : St) :
    (∀ Γ fs l nxt d c fs' l' sw' te Γs κ, codegen_statement C.w C.T Γ s fs l (some (nxt, some d)) = .ok (c, fs', l', sw') → SupS C r s (some te) Γs κ = true →
      enterDflt s = none ∧ ∃ nxt', sw' = some (nxt', some d)) := by
  have nl : ∀ s : St, noLab s = true → ∀ Γ fs l nxt d c fs' l' sw' te Γs κ, codegen_statement C.w C.T Γ s fs l (some (nxt, some d)) = .ok (c, fs', l', sw') → SupS C r s (some te) Γs κ = true →
      enterDflt s = none ∧ ∃ nxt', sw' = some (nxt', some d) := by
    intro s hn Γ fs l nxt d c fs' l' sw' te Γs κ hg hs
    exact ⟨(enter_noLab (f := fun _ => false) hn).2, nxt, (sw_keep s).1 _ _ _ _ _ _ _ _ _ _ hg (SupS_noLab hs hn hg)⟩
  induction s with
  | case e s ih =>
    intro Γ fs l nxt d c fs' l' sw' te Γs κ hg hs
    simp only [codegen_statement, Res.bind_eq_ok, Res.ok.injEq, Prod.mk.injEq] at hg
    obtain ⟨⟨c1, f1, l1⟩, h1, ⟨c2, f2, l2, s2⟩, h2, _, rfl, _, rfl⟩ := hg
    simp only [SupS, Bool.and_eq_true] at hs
    exact ih _ _ _ _ _ _ _ _ _ _ _ _ h2 hs.2
  | dflt s ih =>
    intro Γ fs l nxt d c fs' l' sw' te Γs κ hg hs
    simp [codegen_statement] at hg
  | _ => exact nl _ rfl

theorem At.join {P : List Asm} {pc : Nat} {a b : List Asm} (h : At P pc a) (h' : At P (pc + a.length) b) : At P pc (a ++ b) := by
  intro i hi
  rw [List.length_append] at hi
  by_cases hh : i < a.length
  · rw [h i hh, List.getElem?_append_left hh]
  · rw [List.getElem?_append_right (by omega), ← h' _ (by omega)]
    congr 1; omega

section
variable {C : Ctx} {base : Mach} {P : List Asm} {cs : Nat → Option Fun} {ρ0 : Spec.Env} {Γ0 : Env} {G : Int}

/-- The comparison with the constant of a label. -/
theorem case_cmp {n : Nat} {Γ Γs : Env} {ρ : Spec.Env} {F : Int} (g : Glob C base P cs ρ0) (h : FH C ρ0 Γ0 G Γ Γs ρ F)
    (hc : CallOk C base P Γ0 G (call C cs ρ0 n)) {e : E} {k : Int} (hk : caseConst ρ.kind e = some k) {sp : Int} (hr : Room C sp)
    {fs : Int} {l : Nat} {ce : List Asm} {fs' : Int} {l' : Nat} {M : Mem} {pc : Nat} {s : MS} {t : Nat} {z : Int}
    (hg : codegen_rvalue C.w C.T Γ e fs l = .ok (ce, fs', l')) (hsp : sp = F - fs * C.w)
    (hat : At P pc (ce ++ I [.pop_reg 1, if C.w = 8 then .mov_reg_mem64 0 4 0 else .mov_reg_mem32 0 4 0] ++ jump_cond_reg_reg 0x4 t 0 1))
    (hR : Rel C G sp M s) (hM : MemOk C (sp + C.w) M) (hz : word C.w s.mem sp = z) :
    ∃ s', Rel C G sp M s' ∧ Outside C M sp s s' ∧
      (z = sgn C.w k → ∀ i, P[i]? = some (.lbl t) → Go C.w base P (pc, s) (i, s')) ∧
      (z ≠ sgn C.w k → Go C.w base P (pc, s) (pc + ce.length + 4, s')) := by
  obtain ⟨he, hs, hk1, hk2⟩ := case_const g.hw (cf := call C cs ρ0 n) (Γ := Γ) hk (M := M) hr
  have hM1 : MemOk C sp M := hM.mono (by omega)
  obtain ⟨s1, y, st, o, ty⟩ := (rv_all (h.hyp g hc) e).1 (.low C.w) fs l ce fs' l' sp M k M pc s hg hs (by simp [mdOk]) he hsp hat.left.left hR hM1
  have hy := topOk_full o.sgn ty
  obtain ⟨s2, p1, p2, p3, p4⟩ := sl_pop o.rel sp (r := 1) (by decide) (by decide)
  have p1r := p1.rel
  rw [show sp - (C.w : Int) + C.w = sp by omega] at p1 p1r
  unfold Room at hr
  have hzz : word C.w s2.mem sp = z := by
    rw [p4, o.out.word hM (Int.le_refl _) (by omega) (Int.le_refl _), hz]
  have ez : sgn C.w (rd C.w s2.mem (s2.reg 4) C.w) = z := by
    have : word C.w s2.mem (sgn C.w sp) = z := by rw [word_sgn]; exact hzz
    rw [p1r.sp]; exact this
  have hx : exec1 C.w s2 (Emit.intended C.w (if C.w = 8 then .mov_reg_mem64 0 4 0 else .mov_reg_mem32 0 4 0)) = some (setReg s2 0 z) := by
    rcases g.hw with e | e
    · rw [if_neg (by omega)]
      rw [e] at ez
      simp [Emit.intended, exec1, e, ez]
    · rw [if_pos (by omega)]
      rw [e] at ez
      simp [Emit.intended, exec1, e, ez]
  have szz : sgn C.w z = z := by rw [← hz, sgn_word]
  have a1 := sl_set p1r sp hx (by decide) (by decide) szz
  have sl := p1.trans a1
  have st1 := go_run (base := base) (w := C.w) (es := [.pop_reg 1] ++ [if C.w = 8 then .mov_reg_mem64 0 4 0 else .mov_reg_mem32 0 4 0]) hat.left.right sl.run
  have e0 : (setReg s2 0 z).reg 0 = z := by simp [setReg]
  have e1 : (setReg s2 0 z).reg 1 = sgn C.w k := by simp [setReg, p2, o.top, hy]
  refine ⟨_, sl.rel.cmp ((setReg s2 0 z).reg 0) ((setReg s2 0 z).reg 1), o.out.trans o.dom sl.scr.out (Int.le_refl _) (Int.le_refl _), fun hh i hi => ?_, fun hh => ?_⟩
  · have hj : At P (pc + ce.length + 2) (jump_cond_reg_reg 0x4 t 0 1) := by
      have := hat.right
      rwa [show pc + (ce ++ I [.pop_reg 1, if C.w = 8 then .mov_reg_mem64 0 4 0 else .mov_reg_mem32 0 4 0]).length = pc + ce.length + 2 by simp [I]; omega] at this
    refine st.trans (st1.trans ?_)
    refine .head (.ins hj.head (exec_cmp _ 0 1)) (.one (.jccT hj.tail.head ?_ hi))
    show X86.Spec.cond C.w 4 ((setReg s2 0 z).reg 0) ((setReg s2 0 z).reg 1) = _
    rw [e0, e1]; simp [X86.Spec.cond, hh]
  · have hj : At P (pc + ce.length + 2) (jump_cond_reg_reg 0x4 t 0 1) := by
      have := hat.right
      rwa [show pc + (ce ++ I [.pop_reg 1, if C.w = 8 then .mov_reg_mem64 0 4 0 else .mov_reg_mem32 0 4 0]).length = pc + ce.length + 2 by simp [I]; omega] at this
    refine st.trans (st1.trans ?_)
    refine .head (.ins hj.head (exec_cmp _ 0 1)) (.one (.jccF hj.tail.head ?_))
    show X86.Spec.cond C.w 4 ((setReg s2 0 z).reg 0) ((setReg s2 0 z).reg 1) = _
    rw [e0, e1]; simp [X86.Spec.cond, hh]

/-- Labels of one statement: control that goes to the next `case` label gets to the statement after the right label, or
to the next `case` label after the statement. -/
theorem case_stmt {n : Nat} {Γ Γs : Env} {ρ : Spec.Env} {F : Int} (g : Glob C base P cs ρ0) (h : FH C ρ0 Γ0 G Γ Γs ρ F)
    (hc : CallOk C base P Γ0 G (call C cs ρ0 n)) {te t : CTy} (ht : promote C.w te = some t) {v : Int} (hv : Fits C te v)
    {sp : Int} (hr : Room C sp) {M : Mem} (hM : MemOk C (sp + C.w) M) {fs : Int} (hsp : sp = F - fs * C.w) {a : Nat × MS} {s0 : MS}
    (hz : word C.w s0.mem sp = sgn C.w v) (st : St) :
    ∀ l nxt dft c fs' l' sw' pc s1,
      codegen_statement C.w C.T Γ st fs l (some (nxt, dft)) = .ok (c, fs', l', sw') → SupS C ρ.rett st (some te) Γs ρ.kind = true →
      At P pc c → Rel C G sp M s1 → Outside C M sp s0 s1 → (∀ i, P[i]? = some (.lbl nxt) → Go C.w base P a (i, s1)) →
      (∃ s' c' l2 sw2 pc' s2, enterCase (fun k => (caseConst ρ.kind k).map (conv C t) == some v) st = some s' ∧
        codegen_statement C.w C.T Γ s' fs l2 sw2 = .ok (c', fs', l', sw') ∧ SupS C ρ.rett s' (some te) Γs ρ.kind = true ∧ At P pc' c' ∧
        pc' + c'.length = pc + c.length ∧ Rel C G sp M s2 ∧ Outside C M sp s0 s2 ∧ Go C.w base P a (pc', s2)) ∨
      (enterCase (fun k => (caseConst ρ.kind k).map (conv C t) == some v) st = none ∧ ∃ nxt' dft' s2, sw' = some (nxt', dft') ∧
        Rel C G sp M s2 ∧ Outside C M sp s0 s2 ∧ ∀ i, P[i]? = some (.lbl nxt') → Go C.w base P a (i, s2)) := by
  have nl : ∀ st : St, noLab st = true → ∀ l nxt dft c fs' l' sw' pc s1,
      codegen_statement C.w C.T Γ st fs l (some (nxt, dft)) = .ok (c, fs', l', sw') → SupS C ρ.rett st (some te) Γs ρ.kind = true →
      At P pc c → Rel C G sp M s1 → Outside C M sp s0 s1 → (∀ i, P[i]? = some (.lbl nxt) → Go C.w base P a (i, s1)) →
      (enterCase (fun k => (caseConst ρ.kind k).map (conv C t) == some v) st = none ∧ ∃ nxt' dft' s2, sw' = some (nxt', dft') ∧
        Rel C G sp M s2 ∧ Outside C M sp s0 s2 ∧ ∀ i, P[i]? = some (.lbl nxt') → Go C.w base P a (i, s2)) := by
    intro st hn l nxt dft c fs' l' sw' pc s1 hg hs hat hR ho hgo
    exact ⟨(enter_noLab hn).1, nxt, dft, s1, (sw_keep st).1 _ _ _ _ _ _ _ _ _ _ hg (SupS_noLab hs hn hg), hR, ho, hgo⟩
  induction st with
  | case e s ih =>
    intro l nxt dft c fs' l' sw' pc s1 hg hs hat hR ho hgo
    simp only [codegen_statement, Res.bind_eq_ok, Res.ok.injEq, Prod.mk.injEq] at hg
    obtain ⟨⟨ce, f1, l1⟩, h1, ⟨c2, f2, l2, s2⟩, h2, rfl, rfl, rfl, rfl⟩ := hg
    have e1 := (fs_all g.hw C.T Γ e).1 _ _ _ _ _ h1
    simp only at h2
    rw [show f1 - 1 = fs by omega] at h2
    simp only [SupS, Bool.and_eq_true] at hs
    obtain ⟨hs1, hs2⟩ := hs
    simp only [caseOk, ht] at hs1
    cases hk : caseConst ρ.kind e with
    | none => rw [hk] at hs1; cases hs1
    | some k =>
    rw [hk] at hs1
    simp only [Bool.or_eq_true, decide_eq_true_eq] at hs1
    obtain ⟨_, _, hk1, hk2⟩ := case_const g.hw (cf := call C cs ρ0 n) (Γ := Γ) hk (M := M) hr
    have hat0 : At P pc (.jmp l :: .lbl nxt :: (ce ++ I [.pop_reg 1, if C.w = 8 then .mov_reg_mem64 0 4 0 else .mov_reg_mem32 0 4 0] ++ jump_cond_reg_reg 0x4 l 0 1)) := hat.left.left
    have i0 := hat0.tail.head
    have hz1 : word C.w s1.mem sp = sgn C.w v := by
      unfold Room at hr
      rw [ho.word hM (Int.le_refl _) (by omega) (Int.le_refl _), hz]
    obtain ⟨s3, r3, o3, j1, j2⟩ := case_cmp g h hc hk hr h1 hsp hat0.tail.tail hR hM hz1
    have st0 := (hgo _ i0).trans (.one (.lbl i0))
    have o03 := ho.trans (SameDom.refl _) o3 (Int.le_refl _) (Int.le_refl _)
    have ceq := case_eq g.hw ht hv hk1 hk2 hs1
    have il := hat.left.right.tail.head
    by_cases hm : conv C t k = v
    · left
      refine ⟨s, c2, l1, _, _, s3, ?_, h2, hs2, hat.right, ?_, r3, o03, ?_⟩
      · simp [enterCase, hk, hm]
      · simp only [List.length_append, List.length_cons, List.length_nil, ← Nat.add_assoc, Nat.zero_add]
      · have := (st0.trans (j1 (ceq.2 hm).symm _ il)).trans (.one (.lbl il))
        simp only [List.length_append, List.length_cons, List.length_nil, ← Nat.add_assoc, Nat.zero_add] at this ⊢
        exact this
    · have stn := st0.trans (j2 (fun e => hm (ceq.1 e.symm)))
      have ej := hat.left.right.head
      rw [show pc + ([Asm.jmp l, Asm.lbl nxt] ++ ce ++ I [.pop_reg 1, if C.w = 8 then .mov_reg_mem64 0 4 0 else .mov_reg_mem32 0 4 0] ++ jump_cond_reg_reg 0x4 l 0 1).length = pc + 1 + 1 + ce.length + 4 by
        simp [I, jump_cond_reg_reg]; omega] at ej
      have := ih l1 (l + 1) dft c2 f2 l2 s2 _ s3 h2 hs2 hat.right r3 o03 (fun i hi => stn.trans (.one (.jmp ej hi)))
      have en : enterCase (fun k => (caseConst ρ.kind k).map (conv C t) == some v) (.case e s) =
          enterCase (fun k => (caseConst ρ.kind k).map (conv C t) == some v) s := by
        simp [enterCase, hk, hm]
      rw [en]
      rcases this with ⟨s', c', l3, sw3, pc', s4, x1, x2, x3, x4, x5, x6⟩ | this
      · exact .inl ⟨s', c', l3, sw3, pc', s4, x1, x2, x3, x4, by
          rw [x5]; simp only [List.length_append, ← Nat.add_assoc], x6⟩
      · exact .inr this
  | dflt s ih =>
    intro l nxt dft c fs' l' sw' pc s1 hg hs hat hR ho hgo
    cases dft with
    | some d => simp [codegen_statement] at hg
    | none =>
    simp only [codegen_statement, Res.bind_eq_ok, Res.ok.injEq, Prod.mk.injEq] at hg
    obtain ⟨⟨c2, f2, l2, s2⟩, h2, rfl, rfl, rfl, rfl⟩ := hg
    simp only [SupS, Bool.and_eq_true] at hs
    have := ih (l + 1) nxt (some l) c2 f2 l2 s2 _ s1 h2 hs.2 hat.right hR ho hgo
    rcases this with ⟨s', c', l3, sw3, pc', s4, x1, x2, x3, x4, x5, x6⟩ | this
    · exact .inl ⟨s', c', l3, sw3, pc', s4, x1, x2, x3, x4, by
          rw [x5]; simp only [List.length_append, ← Nat.add_assoc], x6⟩
    · exact .inr this
  | _ => exact fun l nxt dft c fs' l' sw' pc s1 hg hs hat hR ho hgo => .inr (nl _ rfl l nxt dft c fs' l' sw' pc s1 hg hs hat hR ho hgo)

/-- The same for lists of statements. -/
theorem case_items {n : Nat} {Γ Γs : Env} {ρ : Spec.Env} {F : Int} (g : Glob C base P cs ρ0) (h : FH C ρ0 Γ0 G Γ Γs ρ F)
    (hc : CallOk C base P Γ0 G (call C cs ρ0 n)) {te t : CTy} (ht : promote C.w te = some t) {v : Int} (hv : Fits C te v)
    {sp : Int} (hr : Room C sp) {M : Mem} (hM : MemOk C (sp + C.w) M) {fs : Int} (hsp : sp = F - fs * C.w) {a : Nat × MS} {s0 : MS}
    (hz : word C.w s0.mem sp = sgn C.w v) (b : St) :
    ∀ l nxt dft c fs' l' sw' pc s1,
      codegen_items C.w C.T Γ b fs l (some (nxt, dft)) = .ok (c, fs', l', sw') → SupS C ρ.rett b (some te) Γs ρ.kind = true →
      At P pc c → Rel C G sp M s1 → Outside C M sp s0 s1 → (∀ i, P[i]? = some (.lbl nxt) → Go C.w base P a (i, s1)) →
      (∃ b' c' l2 sw2 pc' s2, fromLabel (enterCase (fun k => (caseConst ρ.kind k).map (conv C t) == some v)) b = some b' ∧
        codegen_items C.w C.T Γ b' fs l2 sw2 = .ok (c', fs', l', sw') ∧ SupS C ρ.rett b' (some te) Γs ρ.kind = true ∧ At P pc' c' ∧
        pc' + c'.length = pc + c.length ∧ Rel C G sp M s2 ∧ Outside C M sp s0 s2 ∧ Go C.w base P a (pc', s2)) ∨
      (fromLabel (enterCase (fun k => (caseConst ρ.kind k).map (conv C t) == some v)) b = none ∧ ∃ nxt' dft' s2, sw' = some (nxt', dft') ∧
        Rel C G sp M s2 ∧ Outside C M sp s0 s2 ∧ ∀ i, P[i]? = some (.lbl nxt') → Go C.w base P a (i, s2)) := by
  induction b with
  | bnil =>
    intro l nxt dft c fs' l' sw' pc s1 hg hs hat hR ho hgo
    simp only [codegen_items, Res.ok.injEq, Prod.mk.injEq] at hg
    obtain ⟨rfl, rfl, rfl, rfl⟩ := hg
    exact .inr ⟨by simp [fromLabel], nxt, dft, s1, rfl, hR, ho, hgo⟩
  | bstmt s rest _ ih =>
    intro l nxt dft c fs' l' sw' pc s1 hg hs hat hR ho hgo
    simp only [codegen_items, Res.bind_eq_ok, Res.ok.injEq, Prod.mk.injEq] at hg
    obtain ⟨⟨ca, f1, l1, w1⟩, h1, ⟨cb, f2, l2, w2⟩, h2, rfl, rfl, rfl, rfl⟩ := hg
    have e1 := (fs_stmt g.hw C.T _).1 _ _ _ _ _ _ _ _ h1
    simp only at h2 e1
    simp only [SupS, Bool.and_eq_true] at hs
    rcases case_stmt g h hc ht hv hr hM hsp (a := a) hz s l nxt dft ca f1 l1 w1 pc s1 h1 hs.1 hat.left hR ho hgo with
      ⟨s', c', l3, sw3, pc', s4, x1, x2, x3, x4, x5, x6⟩ | ⟨x1, nxt', dft', s2, rfl, x2, x3, x4⟩
    · refine .inl ⟨.bstmt s' rest, c' ++ cb, l3, sw3, pc', s4, by simp [fromLabel, x1], ?_, by simp [SupS, x3, hs.2], ?_, ?_, x6⟩
      · simp only [codegen_items, x2, h2, Res.bind_ok]
      · exact At.join x4 (by rw [x5]; exact hat.right)
      · simp only [List.length_append]; omega
    · subst e1
      rcases ih _ _ _ _ _ _ _ _ s2 h2 hs.2 hat.right x2 x3 x4 with ⟨s', c', l3, sw3, pc', s4, y1, y2, y3, y4, y5, y6⟩ | ⟨y1, y2⟩
      · exact .inl ⟨s', c', l3, sw3, pc', s4, by simp [fromLabel, x1, y1], y2, y3, y4, by rw [y5, List.length_append]; simp only; omega, y6⟩
      · exact .inr ⟨by simp [fromLabel, x1, y1], y2⟩
  | bdecl x u i rest ih =>
    intro l nxt dft c fs' l' sw' pc s1 hg hs
    simp [SupS] at hs
  | _ => intro l nxt dft c fs' l' sw' pc s1 hg; simp [codegen_items] at hg

/-- The default label of one statement. -/
theorem dflt_stmt {r : CTy} {Γ Γs : Env} {κ : Nat → Option VK} (g : Glob C base P cs ρ0) {te : CTy} {fs : Int} (st : St) :
    ∀ l nxt c fs' l' sw' pc,
      codegen_statement C.w C.T Γ st fs l (some (nxt, none)) = .ok (c, fs', l', sw') → SupS C r st (some te) Γs κ = true → At P pc c →
      (∃ s' d c' l2 sw2 i nxt', enterDflt st = some s' ∧ sw' = some (nxt', some d) ∧
        codegen_statement C.w C.T Γ s' fs l2 sw2 = .ok (c', fs', l', sw') ∧ SupS C r s' (some te) Γs κ = true ∧ P[i]? = some (.lbl d) ∧ At P (i + 1) c' ∧
        i + 1 + c'.length = pc + c.length) ∨
      (enterDflt st = none ∧ ∃ nxt', sw' = some (nxt', none)) := by
  have nl : ∀ st : St, noLab st = true → ∀ l nxt c fs' l' sw' pc,
      codegen_statement C.w C.T Γ st fs l (some (nxt, none)) = .ok (c, fs', l', sw') → SupS C r st (some te) Γs κ = true → At P pc c →
      (enterDflt st = none ∧ ∃ nxt', sw' = some (nxt', none)) := by
    intro st hn l nxt c fs' l' sw' pc hg hs hat
    exact ⟨(enter_noLab (f := fun _ => false) hn).2, nxt, (sw_keep st).1 _ _ _ _ _ _ _ _ _ _ hg (SupS_noLab hs hn hg)⟩
  induction st with
  | case e s ih =>
    intro l nxt c fs' l' sw' pc hg hs hat
    simp only [codegen_statement, Res.bind_eq_ok, Res.ok.injEq, Prod.mk.injEq] at hg
    obtain ⟨⟨ce, f1, l1⟩, h1, ⟨c2, f2, l2, s2⟩, h2, rfl, rfl, rfl, rfl⟩ := hg
    have e1 := (fs_all g.hw C.T Γ e).1 _ _ _ _ _ h1
    simp only at h2
    rw [show f1 - 1 = fs by omega] at h2
    simp only [SupS, Bool.and_eq_true] at hs
    rcases ih _ _ _ _ _ _ _ h2 hs.2 hat.right with ⟨s', d, c', l3, sw3, i, nxt', x1, x2, x3, x4, x5, x6, x7⟩ | x
    · exact .inl ⟨s', d, c', l3, sw3, i, nxt', by simp [enterDflt, x1], x2, x3, x4, x5, x6, by rw [x7]; simp only [List.length_append, ← Nat.add_assoc]⟩
    · exact .inr ⟨by simp [enterDflt, x.1], x.2⟩
  | dflt s ih =>
    intro l nxt c fs' l' sw' pc hg hs hat
    simp only [codegen_statement, Res.bind_eq_ok, Res.ok.injEq, Prod.mk.injEq] at hg
    obtain ⟨⟨c2, f2, l2, s2⟩, h2, rfl, rfl, rfl, rfl⟩ := hg
    simp only [SupS, Bool.and_eq_true] at hs
    obtain ⟨-, nxt', e⟩ := dft_keep s _ _ _ _ _ _ _ _ _ _ _ _ h2 hs.2
    exact .inl ⟨s, l, c2, _, _, pc, nxt', rfl, e, h2, hs.2, hat.left.head, hat.right, by simp only [List.length_append, List.length_cons, List.length_nil, ← Nat.add_assoc, Nat.zero_add]⟩
  | _ => exact fun l nxt c fs' l' sw' pc hg hs hat => .inr (nl _ rfl l nxt c fs' l' sw' pc hg hs hat)

/-- A default label that has been found does not change in the rest of the list. -/
theorem dft_items {r : CTy} {Γ Γs : Env} {κ : Nat → Option VK} {te : CTy} (b : St) :
    ∀ fs l nxt d c fs' l' sw', codegen_items C.w C.T Γ b fs l (some (nxt, some d)) = .ok (c, fs', l', sw') → SupS C r b (some te) Γs κ = true →
      ∃ nxt', sw' = some (nxt', some d) := by
  induction b with
  | bnil =>
    intro fs l nxt d c fs' l' sw' hg hs
    simp only [codegen_items, Res.ok.injEq, Prod.mk.injEq] at hg
    exact ⟨nxt, hg.2.2.2.symm⟩
  | bstmt s rest _ ih =>
    intro fs l nxt d c fs' l' sw' hg hs
    simp only [codegen_items, Res.bind_eq_ok, Res.ok.injEq, Prod.mk.injEq] at hg
    obtain ⟨⟨ca, f1, l1, w1⟩, h1, ⟨cb, f2, l2, w2⟩, h2, rfl, rfl, rfl, rfl⟩ := hg
    simp only [SupS, Bool.and_eq_true] at hs
    obtain ⟨-, nxt', rfl⟩ := dft_keep s _ _ _ _ _ _ _ _ _ _ _ _ h1 hs.1
    exact ih _ _ _ _ _ _ _ _ h2 hs.2
  | bdecl x u i rest ih =>
    intro fs l nxt d c fs' l' sw' hg hs
    simp [SupS] at hs
  | _ => intro fs l nxt d c fs' l' sw' hg; simp [codegen_items] at hg

/-- The default label of a list of statements. -/
theorem dflt_items {r : CTy} {Γ Γs : Env} {κ : Nat → Option VK} (g : Glob C base P cs ρ0) {te : CTy} {fs : Int} (b : St) :
    ∀ l nxt c fs' l' sw' pc,
      codegen_items C.w C.T Γ b fs l (some (nxt, none)) = .ok (c, fs', l', sw') → SupS C r b (some te) Γs κ = true → At P pc c →
      (∃ b' d c' l2 sw2 i nxt', fromLabel enterDflt b = some b' ∧ sw' = some (nxt', some d) ∧
        codegen_items C.w C.T Γ b' fs l2 sw2 = .ok (c', fs', l', sw') ∧ SupS C r b' (some te) Γs κ = true ∧ P[i]? = some (.lbl d) ∧ At P (i + 1) c' ∧
        i + 1 + c'.length = pc + c.length) ∨
      (fromLabel enterDflt b = none ∧ ∃ nxt', sw' = some (nxt', none)) := by
  induction b with
  | bnil =>
    intro l nxt c fs' l' sw' pc hg hs hat
    simp only [codegen_items, Res.ok.injEq, Prod.mk.injEq] at hg
    exact .inr ⟨by simp [fromLabel], nxt, hg.2.2.2.symm⟩
  | bstmt s rest _ ih =>
    intro l nxt c fs' l' sw' pc hg hs hat
    simp only [codegen_items, Res.bind_eq_ok, Res.ok.injEq, Prod.mk.injEq] at hg
    obtain ⟨⟨ca, f1, l1, w1⟩, h1, ⟨cb, f2, l2, w2⟩, h2, rfl, rfl, rfl, rfl⟩ := hg
    have e1 := (fs_stmt g.hw C.T _).1 _ _ _ _ _ _ _ _ h1
    simp only at h2 e1
    simp only [SupS, Bool.and_eq_true] at hs
    rcases dflt_stmt g s _ _ _ _ _ _ _ h1 hs.1 hat.left with ⟨s', d, c', l3, sw3, i, nxt', x1, rfl, x3, x4, x5, x6, x7⟩ | ⟨x1, nxt', rfl⟩
    · obtain ⟨nxt2, e⟩ := dft_items rest _ _ _ _ _ _ _ _ h2 hs.2
      refine .inl ⟨.bstmt s' rest, d, c' ++ cb, l3, sw3, i, nxt2, by simp [fromLabel, x1], e, ?_, by simp [SupS, x4, hs.2], x5, ?_, ?_⟩
      · simp only [codegen_items, x3, h2, Res.bind_ok]
      · exact At.join x6 (by rw [x7]; exact hat.right)
      · simp only [List.length_append]; omega
    · subst e1
      rcases ih _ _ _ _ _ _ _ h2 hs.2 hat.right with ⟨s', d, c', l3, sw3, i, nxt', y1, y2, y3, y4, y5, y6, y7⟩ | ⟨y1, y2⟩
      · exact .inl ⟨s', d, c', l3, sw3, i, nxt', by simp [fromLabel, x1, y1], y2, y3, y4, y5, y6, by rw [y7, List.length_append]; simp only; omega⟩
      · exact .inr ⟨by simp [fromLabel, x1, y1], y2⟩
  | bdecl x u i rest ih =>
    intro l nxt c fs' l' sw' pc hg hs
    simp [SupS] at hs
  | _ => intro l nxt c fs' l' sw' pc hg; simp [codegen_items] at hg

end
end Verif.Cg
