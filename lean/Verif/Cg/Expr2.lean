import Verif.Cg.Expr
/-! Correctness of the code of expressions: unary and binary operators. -/
namespace Verif.Cg
open Verif Verif.Gen Verif.Gen.Spec Verif.X86 Verif.X86.Spec Spec

theorem isBool_val {C : Ctx} {cf : CallF} {ρ : Spec.Env} : ∀ {e : E} {sp : Int} {M M' : Mem} {v : Int},
    isBool e = true → evalE C cf ρ e sp M = some (v, M') → v = 0 ∨ v = 1 := by
  have hb : ∀ b, b2i b = 0 ∨ b2i b = 1 := by intro b; cases b <;> simp [b2i]
  intro e
  induction e with
  | bin op a b _ _ =>
    intro sp M M' v h he
    simp only [evalE, Option.ite_none_right_eq_some, Option.bind_eq_some_iff, Option.some.injEq, Prod.mk.injEq] at he
    obtain ⟨_, ta, _, tb, _, _, _, _, _, v', hv, rfl, _⟩ := he
    simp only [isBool] at h
    unfold binV at hv
    split at hv
    · try rw [if_pos h] at hv
      simp only [Option.bind_eq_some_iff, Option.some.injEq] at hv
      obtain ⟨_, _, rfl⟩ := hv
      exact hb _
    · split at hv <;> first | (simp [Bop.isCmp] at h; done) | skip
      all_goals
        first
        | (split at hv <;> simp at hv
           subst hv; exact hb _)
        | cases hv
  | lnot e _ =>
    intro sp M M' v h he
    simp only [evalE, Option.ite_none_right_eq_some, Option.bind_eq_some_iff, Option.some.injEq, Prod.mk.injEq] at he
    obtain ⟨_, _, _, rfl, _⟩ := he
    exact hb _
  | land a b _ _ =>
    intro sp M M' v h he
    simp only [evalE, Option.ite_none_right_eq_some, Option.bind_eq_some_iff] at he
    obtain ⟨_, _, _, he⟩ := he
    split at he
    · simp at he; exact .inl he.1.symm
    · simp only [Option.bind_eq_some_iff, Option.some.injEq, Prod.mk.injEq] at he
      obtain ⟨_, _, rfl, _⟩ := he
      exact hb _
  | lor a b _ _ =>
    intro sp M M' v h he
    simp only [evalE, Option.ite_none_right_eq_some, Option.bind_eq_some_iff] at he
    obtain ⟨_, _, _, he⟩ := he
    split at he
    · simp at he; exact .inr he.1.symm
    · simp only [Option.bind_eq_some_iff, Option.some.injEq, Prod.mk.injEq] at he
      obtain ⟨_, _, rfl, _⟩ := he
      exact hb _
  | paren e ih =>
    intro sp M M' v h he
    simp only [evalE, Option.ite_none_right_eq_some] at he
    exact ih (by simpa [isBool] using h) he.2
  | _ => intro _ _ _ _ h; simp [isBool] at h

theorem Fits.nonneg {C : Ctx} (hw : C.w = 4 ∨ C.w = 8) {t : CTy} {v : Int} (h : Fits C t v) (hs : isSigned t = false) : 0 ≤ v := by
  have := h.inTy hw
  rw [hs, inTy_unsigned] at this
  exact this.1

section
variable {C : Ctx} {base : Mach} {P : List Asm} {Γ : Env} {ρ : Spec.Env} {F G : Int} {cf : CallF}

theorem nonneg_val (H : Hyp C base P Γ ρ F G cf) : ∀ {e : E} {sp : Int} {M M' : Mem} {v : Int},
    nonneg C ρ.kind e = true → evalE C cf ρ e sp M = some (v, M') → 0 ≤ v := by
  intro e
  induction e with
  | num _ | sizeofT _ =>
    intro sp M M' v h he
    simp only [evalE, Option.ite_none_right_eq_some, Option.some.injEq, Prod.mk.injEq] at he
    omega
  | sizeofE _ _ =>
    intro sp M M' v h he
    simp only [evalE, Option.ite_none_right_eq_some, Option.bind_eq_some_iff, Option.some.injEq, Prod.mk.injEq] at he
    obtain ⟨_, _, _, _, rfl, _⟩ := he
    omega
  | chr _ =>
    intro sp M M' v h he
    simp only [evalE, Option.ite_none_right_eq_some, Option.some.injEq, Prod.mk.injEq] at he
    simp only [nonneg, decide_eq_true_eq] at h
    omega
  | paren e ih =>
    intro sp M M' v h he
    simp only [evalE, Option.ite_none_right_eq_some] at he
    exact ih (by simpa [nonneg] using h) he.2
  | _ =>
    intro sp M M' v h he
    simp only [nonneg, Bool.or_eq_true] at h
    rcases h with h | h
    · have := isBool_val h he; omega
    · obtain ⟨t, h1, h2⟩ := (eval_ty H.hw H.cfok H.ad _).1 _ _ _ _ he
      rw [h1] at h
      simp only [Bool.and_eq_true, Bool.not_eq_true'] at h
      rcases h2 with ⟨rfl, _⟩ | h2
      · simp [isInt] at h
      · have e : decay t = t := by cases t <;> first | rfl | simp [isInt] at h
        rw [e] at h2
        exact h2.nonneg H.hw h.2

theorem sup_notvoid {C : Ctx} {Γ : Env} {κ : Nat → Option VK} {md : Md} (hm : md ≠ .low 0) : ∀ {e : E}, Sup C Γ κ md e = true → voidCall e = true →
    ctype C κ e ≠ some .void := by
  intro e
  induction e with
  | call f args _ =>
    intro h _ hc
    simp only [Sup, Bool.and_eq_true, Bool.or_eq_true, beq_iff_eq, hm, false_or] at h
    rw [hc] at h
    simp at h
  | paren e ih =>
    intro h h1
    simp only [Sup] at h
    exact ih h h1
  | comma a b _ ih =>
    intro h h1 h2
    simp only [Sup, Bool.and_eq_true] at h
    simp only [ctype, Option.bind_eq_some_iff, Option.some.injEq] at h2
    obtain ⟨t, h2, h3⟩ := h2
    refine ih h.2 h1 ?_
    rw [h2]
    cases t <;> simp [decay] at h3
    rfl
  | _ => intro _ h; simp [voidCall] at h

theorem val_fits (H : Hyp C base P Γ ρ F G cf) {md : Md} (hm : md ≠ .low 0) {e : E} {sp : Int} {M M' : Mem} {v : Int}
    (hs : Sup C Γ ρ.kind md e = true) (he : evalE C cf ρ e sp M = some (v, M')) :
    ∃ t, ctype C ρ.kind e = some t ∧ Fits C (decay t) v := by
  obtain ⟨t, h1, h2⟩ := (eval_ty H.hw H.cfok H.ad _).1 _ _ _ _ he
  refine ⟨t, h1, ?_⟩
  rcases h2 with ⟨rfl, h2⟩ | h2
  · exact absurd h1 (sup_notvoid hm hs h2)
  · exact h2

theorem low_w (H : Hyp C base P Γ ρ F G cf) : Md.low C.w ≠ .low 0 := by
  have := H.hw
  intro h
  simp at h
  omega

/-- The operand is held in a full word. -/
theorem full_word (H : Hyp C base P Γ ρ F G cf) {z v : Int} {sp : Int} {M M' : Mem} {s s' : MS} (h : OutV C G sp M M' s s' z)
    (ht : topOk (.low C.w) z v) : OutV C G sp M M' s s' (sgn C.w v) := by
  rw [← topOk_full h.sgn ht]; exact h

theorem elemTy_decay {te t : CTy} (h : decay te = .ptr t) : elemTy te = some t := by
  cases te <;> simp [decay] at h <;> simp [elemTy, h]

theorem elem_ref {w : Nat} {T : Tags} {p t : CTy} (h : elemTy p = some t) (ht : Elem w T t) :
    is_pointer_type p = true ∧ ref_type_width w T p = .ok (sizeof w T t) ∧ dereference_type p = .ok t :=
  let ⟨a, b, c⟩ := ref_width (ptrTo_of h) ht
  ⟨a, c, b⟩

theorem elemOk_notarr {C : Ctx} {t : CTy} (h : elemOk C t = true) : ∀ n t', t ≠ .arr n t' := by
  rintro n t' rfl
  simp [elemOk] at h

theorem rv_deref (H : Hyp C base P Γ ρ F G cf) (e : E) (ih : RV C base P Γ ρ F G cf e) : RV C base P Γ ρ F G cf (.deref e) := by
  intro md fs l c fs' l' sp M v' M' pc s hc hs hm he hsp hat hR hM
  simp only [codegen_rvalue, Res.bind_eq_ok] at hc
  obtain ⟨p, hp, ⟨c1, f1, l1⟩, h1, hc⟩ := hc
  simp only [evalE, Option.ite_none_right_eq_some, Option.bind_eq_some_iff, Option.some.injEq, Prod.mk.injEq] at he
  obtain ⟨hr, t, ht, ⟨a, M1⟩, he, v, hv, rfl, rfl⟩ := he
  unfold Room at hr
  simp only [Sup, Bool.and_eq_true, vt_of hp] at hs
  obtain ⟨hs, hs2⟩ := hs
  simp only [ctype, Option.bind_eq_some_iff] at ht
  obtain ⟨te, hte, ht⟩ := ht
  rw [hte] at hs2
  split at ht <;> simp only [Option.some.injEq, reduceCtorEq] at ht
  subst ht
  rename_i hdec
  simp only [elemTy_decay hdec, Bool.and_eq_true, beq_iff_eq] at hs2
  obtain ⟨a1, a2, a3⟩ := elem_ref hs2.1 (elem_of hs2.2)
  have hvl := rvalue_load H hv (elemOk_notarr hs2.2)
  have hsc := loadT_scalar hvl
  rw [if_neg, if_pos a1] at hc
  · simp only [a2, a3, Res.bind_ok, Res.bind_eq_ok, Res.ok.injEq, Prod.mk.injEq] at hc
    obtain ⟨ld, hld, rfl, -, -⟩ := hc
    obtain ⟨s1, z, st1, o1, t1⟩ := ih _ _ _ _ _ _ _ _ _ _ _ _ h1 hs (Nat.le_refl _) he hsp hat.left hR hM
    have o1 := full_word H o1 t1
    have hM1 := hM.same o1.dom
    obtain ⟨s2, sl, tp⟩ := sl_unop H.hw o1.rel hM1 (by omega) (r0 := 0) (r1 := 0) (by decide) (by decide) (es := ld) (z := sgn C.w v) (by
      intro s1 hr0 h0 _
      rw [o1.top] at h0
      exact ⟨_, sl_load H.hw hr0 hM1 (by decide) (by decide) hld hvl h0, by simp [setReg]⟩)
    refine ⟨s2, _, ?_, o1.sl sl tp, topOk_fits H.hw (loadT_fits H.hw hvl) hm⟩
    rw [List.length_append, I_length, ← Nat.add_assoc]
    exact st1.trans (go_run hat.right sl.run)
  · intro hf
    have e1 := hs2.1
    cases p <;> simp [is_function_type, elemTy] at hf e1
    subst e1
    rename_i t
    cases t <;> simp [scalar, isInt, isPtr] at hf hsc

theorem lv_deref (H : Hyp C base P Γ ρ F G cf) (e : E) (ih : RV C base P Γ ρ F G cf e) : LV C base P Γ ρ F G cf (.deref e) := by
  intro fs l c fs' l' k sp M v' M' pc s hc hs he hsp hat hR hM
  simp only [codegen_lvalue, Res.bind_eq_ok] at hc
  obtain ⟨⟨c1, f1, l1⟩, h1, p, hp, k', hk, hc⟩ := hc
  simp only [evalL, Option.ite_none_right_eq_some, Option.bind_eq_some_iff] at he
  obtain ⟨hr, t, ht, he⟩ := he
  split at hc
  · cases hc
  simp only [Res.ok.injEq, Prod.mk.injEq] at hc
  obtain ⟨rfl, -, -, rfl⟩ := hc
  simp only [SupL, Bool.and_eq_true, vt_of hp] at hs
  obtain ⟨hs, hs2⟩ := hs
  have ht' := ht
  simp only [ctype, Option.bind_eq_some_iff] at ht
  obtain ⟨te, hte, ht⟩ := ht
  rw [hte] at hs2
  split at ht <;> simp only [Option.some.injEq, reduceCtorEq] at ht
  subst ht
  rename_i hdec
  simp only [elemTy_decay hdec, Bool.and_eq_true, beq_iff_eq] at hs2
  obtain ⟨a1, a2, a3⟩ := elem_ref hs2.1 (elem_of hs2.2)
  rw [a2] at hk; cases hk
  refine ⟨⟨_, ht', rfl⟩, ?_⟩
  obtain ⟨s1, z, st1, o1, t1⟩ := ih _ _ _ _ _ _ _ _ _ _ _ _ h1 hs (Nat.le_refl _) he hsp hat hR hM
  exact ⟨s1, st1, full_word H o1 t1⟩

theorem lv_paren (e : E) (ih : LV C base P Γ ρ F G cf e) : LV C base P Γ ρ F G cf (.paren e) := by
  intro fs l c fs' l' k sp M v' M' pc s hc hs he hsp hat hR hM
  simp only [codegen_lvalue, Res.bind_eq_ok, Res.ok.injEq, Prod.mk.injEq] at hc
  simp only [evalL, Option.ite_none_right_eq_some] at he
  simp only [SupL] at hs
  obtain ⟨⟨c1, f1, l1, k1⟩, h1, rfl, -, -, rfl⟩ := hc
  exact ih _ _ _ _ _ _ _ _ _ _ _ _ h1 hs he.2 hsp hat hR hM

theorem chk_emod {C : Ctx} {t : CTy} {r v : Int} (h : chk C t r = some v) {n : Nat} (hn : n ≤ sizeof C.w C.T t) :
    v % (2 ^ (8 * n) : Nat) = r % (2 ^ (8 * n) : Nat) := by
  unfold chk at h
  split at h
  · split at h <;> simp at h
    rw [h]
  · simp at h; subst h
    exact conv_emod C t r hn

theorem chk_word {C : Ctx} {t : CTy} {r v : Int} (h : chk C t r = some v) (hw : wrapOk C t = true) : sgn C.w v = sgn C.w r := by
  unfold chk at h
  split at h
  · split at h <;> simp at h
    rw [h]
  · rename_i hs
    simp only [wrapOk, Bool.or_eq_true, decide_eq_true_eq, hs, Bool.false_eq_true, false_or] at hw
    simp at h; subst h
    exact sgn_conv C hw r

theorem bits_not {w : Nat} (hw : w = 4 ∨ w = 8) (x : Int) : bits w (· ^^^ ·) (sgn w (-1)) x = sgn w (-1 - x) := by
  have h1 : BitVec.ofInt (8 * w) (sgn w (-1)) = BitVec.allOnes (8 * w) := by
    rcases hw with rfl | rfl <;> decide +kernel
  unfold bits
  rw [h1]
  show (BitVec.allOnes (8 * w) ^^^ _).toInt = _
  rw [BitVec.allOnes_xor, BitVec.toInt_not]
  rw [BitVec.toNat_ofInt]
  show sgn w _ = _
  rw [sgn_eq_iff]
  rcases hw with rfl | rfl <;> omega

/-- Code for `-` and `~`. -/
theorem rv_un (H : Hyp C base P Γ ρ F G cf) (e u : E) (f : Int → Int) (g : List Emit)
    (ih : RV C base P Γ ρ F G cf e)
    (hc : ∀ fs l, codegen_rvalue C.w C.T Γ u fs l = (codegen_rvalue C.w C.T Γ e fs l).bind fun (c, fs, l) =>
      .ok (c ++ I ([.pop_reg 1] ++ g ++ [.push_reg 0]), fs - 1 + 1, l))
    (hs : ∀ md, Sup C Γ ρ.kind md u = (match ctype C ρ.kind (.neg e) with
       | some t => scalar C.w t &&
          (if md.le (sizeof C.w C.T t) then Sup C Γ ρ.kind md e else wrapOk C t && Sup C Γ ρ.kind (.low C.w) e)
       | none => false))
    (he : ∀ sp M, evalE C cf ρ u sp M = if Room C sp then
      (ctype C ρ.kind (.neg e)).bind fun t =>
      (evalE C cf ρ e sp M).bind fun (v, M) => (chk C t (f v)).bind fun v => some (v, M)
      else none)
    (hf : ∀ x y : Int, ∀ n : Nat, x % (2 ^ (8 * n) : Nat) = y % (2 ^ (8 * n) : Nat) → f x % (2 ^ (8 * n) : Nat) = f y % (2 ^ (8 * n) : Nat))
    (hg : ∀ (sp : Int) M s1, Rel C G sp M s1 → ∃ s2, SL C G M sp s1 g sp s2 ∧ s2.reg 0 = sgn C.w (f (s1.reg 1))) :
    RV C base P Γ ρ F G cf u := by
  intro md fs l c fs' l' sp M v' M' pc s hc' hs' hm he' hsp hat hR hM
  rw [hc] at hc'
  simp only [Res.bind_eq_ok, Res.ok.injEq, Prod.mk.injEq] at hc'
  obtain ⟨⟨c1, f1, l1⟩, h1, rfl, -, -⟩ := hc'
  simp only [he, Option.ite_none_right_eq_some, Option.bind_eq_some_iff, Option.some.injEq, Prod.mk.injEq] at he'
  obtain ⟨hr, t, ht, ⟨a, M1⟩, he', v, hv, rfl, rfl⟩ := he'
  unfold Room at hr
  rw [hs, ht] at hs'
  simp only [Bool.and_eq_true] at hs'
  have key : ∀ (m : Md), Sup C Γ ρ.kind m e = true → mdOk C m → (∀ z : Int, sgn C.w z = z → topOk m z a → topOk md (sgn C.w (f z)) v) →
      ∃ s' z, Go C.w base P (pc, s) (pc + (c1 ++ I ([.pop_reg 1] ++ g ++ [.push_reg 0])).length, s') ∧ OutV C G sp M M1 s s' z ∧ topOk md z v := by
    intro m hsm hmm hz
    obtain ⟨s1, z, st1, o1, t1⟩ := ih _ _ _ _ _ _ _ _ _ _ _ _ h1 hsm hmm he' hsp hat.left hR hM
    have hM1 := hM.same o1.dom
    obtain ⟨s2, sl, tp⟩ := sl_unop H.hw o1.rel hM1 (by omega) (r0 := 1) (r1 := 0) (by decide) (by decide) (es := g) (z := sgn C.w (f z)) (by
      intro s1 hr0 h0 _
      rw [o1.top] at h0
      rw [← h0]
      exact hg _ _ _ hr0)
    refine ⟨s2, _, ?_, o1.sl sl tp, hz z o1.sgn t1⟩
    rw [List.length_append, I_length, ← Nat.add_assoc]
    exact st1.trans (go_run hat.right sl.run)
  obtain ⟨hsc, hs'⟩ := hs'
  split at hs'
  · rename_i hle
    refine key md hs' hm ?_
    intro z hz htop
    cases md with
    | test => simp [Md.le] at hle
    | low n =>
      simp only [Md.le, decide_eq_true_eq] at hle
      show _ = _
      rw [emod_low hm, chk_emod hv hle]
      exact hf _ _ _ htop
  · simp only [Bool.and_eq_true] at hs'
    refine key (.low C.w) hs'.2 (Nat.le_refl _) ?_
    intro z hz htop
    have e1 := hf _ _ _ htop
    have e2 : sgn C.w (f z) = sgn C.w v := by rw [chk_word hv hs'.1, sgn_eq_iff]; exact e1
    rw [e2]
    exact topOk_fits H.hw ⟨hsc, chk_fits (sizeof_le H.hw C.T hsc).1 hv⟩ hm

theorem emod_neg {n : Nat} {x y : Int} (h : x % (2 ^ (8 * n) : Nat) = y % (2 ^ (8 * n) : Nat)) (c : Int) :
    (c - x) % (2 ^ (8 * n) : Nat) = (c - y) % (2 ^ (8 * n) : Nat) := by
  rw [Int.sub_emod, h, ← Int.sub_emod]

theorem rv_neg (H : Hyp C base P Γ ρ F G cf) (e : E) (ih : RV C base P Γ ρ F G cf e) : RV C base P Γ ρ F G cf (.neg e) := by
  refine rv_un H e (.neg e) (fun v => -v) [.xor_reg_reg 0 0, .sub_reg_reg 0 1] ih ?_ ?_ ?_ ?_ ?_
  · intro fs l; simp only [codegen_rvalue]; rfl
  · intro md; simp only [Sup]; cases ctype C ρ.kind (.neg e) <;> rfl
  · intro sp M; simp only [evalE]
  · intro x y n h
    have := emod_neg h 0
    simpa using this
  · intro sp M s1 hr
    have a1 := sl_set hr sp (exec_xor0 s1 0) (by decide) (by decide) (by simp [sgn])
    have a2 := sl_set a1.rel sp (exec_sub _ 0 1) (by decide) (by decide) (sgn_sgn _ _)
    refine ⟨_, a1.trans a2, ?_⟩
    simp [setReg]

theorem rv_bnot (H : Hyp C base P Γ ρ F G cf) (e : E) (ih : RV C base P Γ ρ F G cf e) : RV C base P Γ ρ F G cf (.bnot e) := by
  refine rv_un H e (.bnot e) (fun v => -1 - v) [.mov_reg_imm 0 (-1), .xor_reg_reg 0 1] ih ?_ ?_ ?_ ?_ ?_
  · intro fs l; simp only [codegen_rvalue]; rfl
  · intro md; simp only [Sup]; cases ctype C ρ.kind (.neg e) <;> rfl
  · intro sp M; simp only [evalE, ctype]
  · intro x y n h
    exact emod_neg h (-1)
  · intro sp M s1 hr
    have a1 := sl_set hr sp (exec_movImm s1 0 (-1)) (by decide) (by decide) (sgn_sgn _ _)
    have a2 := sl_set a1.rel sp (exec_xor _ 0 1) (by decide) (by decide) (by rw [sgn_bits])
    refine ⟨_, a1.trans a2, ?_⟩
    simp only [setReg, if_true]
    exact bits_not H.hw _

/-! Binary operators. -/

theorem Rel.cmp {C : Ctx} {G sp : Int} {M : Mem} {s : MS} (h : Rel C G sp M s) (x y : Int) :
    Rel C G sp M { s with cmpA := x, cmpB := y } := ⟨h.wf, h.sp, h.glo, h.agree, h.io⟩

/-- A comparison and the conditional jump, not taken. -/
theorem jump_no {w : Nat} {base : Mach} {P : List Asm} {pc cc n r1 r2 : Nat} {s : MS} (hat : At P pc (jump_cond_reg_reg cc n r1 r2))
    (hc : X86.Spec.cond w cc (s.reg r1) (s.reg r2) = some false) :
    Go w base P (pc, s) (pc + 2, { s with cmpA := s.reg r1, cmpB := s.reg r2 }) :=
  .head (.ins hat.head (exec_cmp s r1 r2)) (.one (.jccF hat.tail.head hc))

/-- A comparison and the conditional jump, taken. -/
theorem jump_yes {w : Nat} {base : Mach} {P : List Asm} {pc cc n r1 r2 i : Nat} {s : MS} (hat : At P pc (jump_cond_reg_reg cc n r1 r2))
    (hc : X86.Spec.cond w cc (s.reg r1) (s.reg r2) = some true) (hi : P[i]? = some (.lbl n)) :
    Go w base P (pc, s) (i + 1, { s with cmpA := s.reg r1, cmpB := s.reg r2 }) :=
  .head (.ins hat.head (exec_cmp s r1 r2)) (.head (.jccT hat.tail.head hc hi) (.one (.lbl hi)))

theorem jump_lbl {w : Nat} {base : Mach} {P : List Asm} {pc n i : Nat} {s : MS} (h : P[pc]? = some (.jmp n)) (hi : P[i]? = some (.lbl n)) :
    Go w base P (pc, s) (i + 1, s) := .head (.jmp h hi) (.one (.lbl hi))

/-- The code of a binary operator. -/
theorem binop_steps {C : Ctx} (hw : C.w = 4 ∨ C.w = 8) {base : Mach} {P : List Asm} {G sp : Int} {M : Mem} {s : MS} {op : Bop} {pa pb : CTy}
    {l l' pc : Nat} {co : List Asm} {x y z : Int}
    (hc : codegen_binop C.w C.T op pa pb l = .ok (co, l')) (hb : BinRun C.w C.T op pa pb x y z) (hat : At P pc co)
    (h : Rel C G (sp - 2 * C.w) M s) (hM : MemOk C sp M) (hroom : C.lim + 2 * C.w ≤ sp)
    (hx : word C.w s.mem (sp - C.w) = x) (hy : word C.w s.mem (sp - 2 * C.w) = y) :
    ∃ s', Go C.w base P (pc, s) (pc + co.length, s') ∧ Rel C G (sp - C.w) M s' ∧ Scr C sp s.mem s'.mem ∧
      word C.w s'.mem (sp - C.w) = z := by
  obtain ⟨hz, hb⟩ := hb
  unfold codegen_binop at hc
  split at hc
  · rename_i cc hcc
    rw [hcc] at hb
    obtain ⟨b, hb, rfl⟩ := hb
    simp only [Res.ok.injEq, Prod.mk.injEq] at hc
    obtain ⟨rfl, -⟩ := hc
    obtain ⟨s1, p1, p2, p3, p4⟩ := sl_pop h sp (r := 1) (by decide) (by decide)
    obtain ⟨s2, q1, q2, q3, q4⟩ := sl_pop p1.rel sp (r := 0) (by decide) (by decide)
    have pq := p1.trans q1
    have e1 : sp - 2 * C.w + C.w + C.w = sp := by omega
    rw [e1] at pq
    have r0 : s2.reg 0 = x := by
      rw [q2, p4, ← hx]; congr 1; omega
    have r1 : s2.reg 1 = y := by rw [q3 1 (by decide) (by decide), p2, hy]
    rw [← r0, ← r1] at hb
    have a1 : At P pc (I [.pop_reg 1, .pop_reg 0]) := hat.left.left.left.left.left.left
    have a2 : At P (pc + 2) (jump_cond_reg_reg cc l 0 1) := hat.left.left.left.left.left.right
    have a3 : At P (pc + 4) (I [.xor_reg_reg 0 0]) := hat.left.left.left.left.right
    have a4 : At P (pc + 5) [.jmp (l + 1), .lbl l] := hat.left.left.left.right
    have a5 : At P (pc + 7) (I [.mov_reg_imm 0 1]) := hat.left.left.right
    have a6 : At P (pc + 8) [.lbl (l + 1)] := hat.left.right
    have a7 : At P (pc + 9) (I [.push_reg 0]) := hat.right
    have len : ∀ n, pc + 10 = n → pc + (I [.pop_reg 1, .pop_reg 0] ++ jump_cond_reg_reg cc l 0 1 ++ I [.xor_reg_reg 0 0] ++
        [Asm.jmp (l + 1), .lbl l] ++ I [.mov_reg_imm 0 1] ++ [Asm.lbl (l + 1)] ++ I [.push_reg 0]).length = n := by
      intro n hn; simp [I, jump_cond_reg_reg]; omega
    rw [len _ rfl]
    have st1 := go_run (base := base) a1 pq.run
    have fin : ∀ s3, Rel C G sp M s3 → s3.mem = s2.mem → Go C.w base P (pc + 2, s2) (pc + 9, s3) → s3.reg 0 = b2i b →
        ∃ s', Go C.w base P (pc, s) (pc + 10, s') ∧ Rel C G (sp - C.w) M s' ∧ Scr C sp s.mem s'.mem ∧
        word C.w s'.mem (sp - C.w) = b2i b := by
      intro s3 hr hm st hv
      obtain ⟨s4, t1, _, t3, _⟩ := sl_push hw hr hM (Int.le_refl _) (by omega) 0
      refine ⟨s4, (st1.trans st).trans (go_run a7 t1.run), t1.rel, ?_, by rw [t3, hv]⟩
      have ps := pq.scr
      rw [← hm] at ps
      exact ps.trans t1.scr (Int.le_refl _) (Int.le_refl _)
    have hr2 := pq.rel
    cases b with
    | false =>
      have st2 := jump_no (base := base) a2 hb
      have b1 := sl_set (hr2.cmp (s2.reg 0) (s2.reg 1)) sp (exec_xor0 _ 0) (by decide) (by decide) (by simp [sgn])
      refine fin _ b1.rel rfl ((st2.trans (go_run a3 b1.run)).trans (jump_lbl a4.head a6.head)) (by simp [setReg, b2i])
    | true =>
      have st2 := jump_yes (base := base) a2 hb a4.tail.head
      have b1 := sl_set (hr2.cmp (s2.reg 0) (s2.reg 1)) sp (exec_movImm _ 0 1) (by decide) (by decide) (sgn_sgn _ _)
      refine fin _ b1.rel rfl ((st2.trans (go_run a5 b1.run)).trans (.one (.lbl a6.head))) ?_
      simp [setReg, b2i]
      exact sgn_b2i hw true
  · rename_i hcc
    rw [hcc] at hb
    simp only [Res.bind_eq_ok, Res.ok.injEq, Prod.mk.injEq] at hc
    obtain ⟨es, hes, rfl, -⟩ := hc
    obtain ⟨s', sl, tp⟩ := sl_binop hw h hM hroom (es := es) hz (by
      intro s1 w1 e0 e1 _ _
      exact hb es hes s1 w1 (by rw [e0, hx]) (by rw [e1, hy]))
    exact ⟨s', by rw [I_length]; exact go_run hat sl.run, sl.rel, sl.scr, tp⟩

theorem OutV.keep {sp : Int} {M M1 M2 : Mem} {s s1 s2 : MS} {x y : Int} (hM : MemOk C sp M)
    (h1 : OutV C G sp M M1 s s1 x) (h2 : OutV C G (sp - C.w) M1 M2 s1 s2 y) (hroom : C.lim + C.w ≤ sp) : word C.w s2.mem (sp - C.w) = x := by
  rw [h2.out.word (hM.same h1.dom) (Int.le_refl _) (by omega) (by omega), h1.top]

theorem OutV.bin {sp : Int} {M M1 M2 : Mem} {s s1 s2 s3 : MS} {x y z : Int}
    (h1 : OutV C G sp M M1 s s1 x) (h2 : OutV C G (sp - C.w) M1 M2 s1 s2 y) (hR : Rel C G (sp - C.w) M2 s3)
    (hs : Scr C sp s2.mem s3.mem) (ht : word C.w s3.mem (sp - C.w) = z) : OutV C G sp M M2 s s3 z :=
  ⟨hR, (h1.out.trans h1.dom h2.out (Int.le_refl _) (by omega)).trans (h1.dom.trans h2.dom) hs.out (Int.le_refl _) (Int.le_refl _), ht,
    h1.dom.trans h2.dom⟩

theorem len3 (pc : Nat) (a b c : List Asm) : pc + (a ++ b ++ c).length = pc + a.length + b.length + c.length := by
  simp; omega

theorem rv_bin (H : Hyp C base P Γ ρ F G cf) (op : Bop) (a b : E) (iha : RV C base P Γ ρ F G cf a) (ihb : RV C base P Γ ρ F G cf b) :
    RV C base P Γ ρ F G cf (.bin op a b) := by
  intro md fs l c fs' l' sp M v' M' pc s hc hs hm he hsp hat hR hM
  simp only [codegen_rvalue, Res.bind_eq_ok, Res.ok.injEq, Prod.mk.injEq] at hc
  obtain ⟨⟨ca, f1, l1⟩, h1, ⟨cb, f2, l2⟩, h2, pa, hpa, pb, hpb, ⟨co, l3⟩, h3, rfl, -, -⟩ := hc
  have hty := (eval_ty H.hw H.cfok H.ad _).1 _ _ _ _ he
  simp only [evalE, Option.ite_none_right_eq_some, Option.bind_eq_some_iff, Option.some.injEq, Prod.mk.injEq] at he
  obtain ⟨hr, ta, hta, tb, htb, ⟨va, M1⟩, ea, ⟨vb, M2⟩, eb, v, hv, rfl, rfl⟩ := he
  unfold Room at hr
  simp only [Sup, vt_of hpa, vt_of hpb, hta, htb, Bool.or_eq_true] at hs
  have hf1 := (fs_all H.hw C.T Γ a).1 _ _ _ _ _ h1
  have key : ∀ ma mb, Sup C Γ ρ.kind ma a = true → Sup C Γ ρ.kind mb b = true → mdOk C ma → mdOk C mb →
      (∀ x y, sgn C.w x = x → sgn C.w y = y → topOk ma x va → topOk mb y vb → ∃ z, BinRun C.w C.T op pa pb x y z ∧ topOk md z v) →
      ∃ s' z, Go C.w base P (pc, s) (pc + (ca ++ cb ++ co).length, s') ∧ OutV C G sp M M2 s s' z ∧ topOk md z v := by
    intro ma mb sa sb oka okb hz
    obtain ⟨s1, x, st1, o1, t1⟩ := iha _ _ _ _ _ _ _ _ _ _ _ _ h1 sa oka ea hsp hat.left.left hR hM
    have hM1 := hM.same o1.dom
    obtain ⟨s2, y, st2, o2, t2⟩ := ihb _ _ _ _ _ _ _ _ _ _ _ _ h2 sb okb eb
      (by rw [hf1, hsp, Int.add_mul]; omega) hat.left.right o1.rel (hM1.mono (by omega))
    obtain ⟨z, hb, hz⟩ := hz x y o1.sgn o2.sgn t1 t2
    have hR2 : Rel C G (sp - 2 * C.w) M2 s2 := by
      have := o2.rel
      rwa [show sp - (C.w : Int) - C.w = sp - 2 * C.w by omega] at this
    obtain ⟨s3, st3, r3, c3, t3⟩ := binop_steps (base := base) H.hw h3 hb (by
        have := hat.right
        rwa [List.length_append, ← Nat.add_assoc] at this) hR2 (hM1.same o2.dom) (by omega) (o1.keep hM o2 (by omega))
      (by have := o2.top; rwa [show sp - (C.w : Int) - C.w = sp - 2 * C.w by omega] at this)
    refine ⟨s3, z, ?_, o1.bin o2 r3 c3 t3, hz⟩
    rw [len3]
    exact (st1.trans st2).trans st3
  have full : (Sup C Γ ρ.kind (.low C.w) a = true ∧ Sup C Γ ρ.kind (.low C.w) b = true ∧
      binOk C op (decay ta) (decay tb) pa pb (nonneg C ρ.kind a) (nonneg C ρ.kind b) = true) → _ := fun hs => key (.low C.w) (.low C.w) hs.1 hs.2.1 (Nat.le_refl _) (Nat.le_refl _) (by
    intro x y hx hy tx ty
    obtain ⟨ta', e1, fa⟩ := val_fits H (low_w H) hs.1 ea
    obtain ⟨tb', e2, fb⟩ := val_fits H (low_w H) hs.2.1 eb
    rw [hta] at e1; cases e1
    rw [htb] at e2; cases e2
    have hbs := bin_sem H.hw hs.2.2 (fun h => nonneg_val H h ea) (fun h => nonneg_val H h eb) hv fa fb
    rw [topOk_full hx tx, topOk_full hy ty]
    refine ⟨_, hbs, ?_⟩
    obtain ⟨t, h4, h5⟩ := hty
    rcases h5 with ⟨_, h5⟩ | h5
    · simp [voidCall] at h5
    · exact topOk_fits H.hw h5 hm)
  rcases hs with hs | hs
  · cases md with
    | test => cases hs
    | low n =>
      simp only [Bool.and_eq_true] at hs
      obtain ⟨⟨hlo, sa⟩, sb⟩ := hs
      have hn : n ≤ C.w := hm
      refine key _ _ sa sb hm (by split <;> first | exact Nat.le_refl _ | exact hm) ?_
      intro x y hx hy tx ty
      have hi : isInt ta = true ∧ isInt tb = true := by
        simp only [lowOk, Bool.and_eq_true] at hlo; exact ⟨hlo.1.1.1.1.1.1.1, hlo.1.1.1.1.1.1.2⟩
      have d1 : decay ta = ta := by cases ta <;> first | rfl | simp [isInt] at hi
      have d2 : decay tb = tb := by cases tb <;> first | rfl | simp [isInt] at hi
      rw [d1, d2] at hv
      refine bin_low H.hw hlo hv tx ?_
      split at ty
      · rename_i hsh; rw [if_pos hsh]; exact topOk_full hy ty
      · rename_i hsh; rw [if_neg hsh]; exact ty
  · simp only [Bool.and_eq_true] at hs
    exact full ⟨hs.1.1, hs.1.2, hs.2⟩

theorem rv_comma (H : Hyp C base P Γ ρ F G cf) (a b : E) (iha : RV C base P Γ ρ F G cf a) (ihb : RV C base P Γ ρ F G cf b) :
    RV C base P Γ ρ F G cf (.comma a b) := by
  intro md fs l c fs' l' sp M v' M' pc s hc hs hm he hsp hat hR hM
  simp only [codegen_rvalue, Res.bind_eq_ok, Res.ok.injEq, Prod.mk.injEq] at hc
  obtain ⟨⟨ca, f1, l1⟩, h1, ⟨cb, f2, l2⟩, h2, rfl, -, -⟩ := hc
  simp only [evalE, Option.ite_none_right_eq_some, Option.bind_eq_some_iff] at he
  obtain ⟨hr, ⟨va, M1⟩, ea, eb⟩ := he
  unfold Room at hr
  simp only [Sup, Bool.and_eq_true] at hs
  have hf1 := (fs_all H.hw C.T Γ a).1 _ _ _ _ _ h1
  obtain ⟨s1, x, st1, o1, t1⟩ := iha _ _ _ _ _ _ _ _ _ _ _ _ h1 hs.1 (Nat.zero_le _) ea hsp hat.left.left hR hM
  have hM1 := hM.same o1.dom
  obtain ⟨s2, y, st2, o2, t2⟩ := ihb _ _ _ _ _ _ _ _ _ _ _ _ h2 hs.2 hm eb
    (by rw [hf1, hsp, Int.add_mul]; omega) hat.left.right o1.rel (hM1.mono (by omega))
  have hR2 : Rel C G (sp - 2 * C.w) M' s2 := by
    have := o2.rel
    rwa [show sp - (C.w : Int) - C.w = sp - 2 * C.w by omega] at this
  obtain ⟨s3, sl, t3⟩ := sl_binop H.hw hR2 (hM1.same o2.dom) (by omega) (es := [.mov_reg_reg 0 1]) (z := y) o2.sgn (by
    intro s1 w1 e0 e1 _ _
    have e2 : s1.reg 1 = y := by
      have := o2.top
      rw [e1, ← this]; congr 1; omega
    refine ⟨_, run_cons (exec_mov s1 0 1), by simp [setReg, e2], ?_⟩
    exact eff_set w1 (by simp) (w1 1) _)
  refine ⟨s3, y, ?_, o1.bin o2 sl.rel sl.scr t3, t2⟩
  rw [len3, I_length]
  refine (st1.trans st2).trans (go_run ?_ sl.run)
  have := hat.right
  rwa [List.length_append, ← Nat.add_assoc] at this

end
end Verif.Cg
