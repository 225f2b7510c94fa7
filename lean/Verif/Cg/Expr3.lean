import Verif.Cg.Expr2
/-! Correctness of the code of expressions: `!`, `[]`, `.`, `->`. -/
namespace Verif.Cg
open Verif Verif.Gen Verif.Gen.Spec Verif.X86 Verif.X86.Spec Spec

section
variable {C : Ctx} {base : Mach} {P : List Asm} {Γ : Env} {ρ : Spec.Env} {F G : Int} {cf : CallF}

theorem rv_lnot (H : Hyp C base P Γ ρ F G cf) (e : E) (ih : RV C base P Γ ρ F G cf e) : RV C base P Γ ρ F G cf (.lnot e) := by
  intro md fs l c fs' l' sp M v' M' pc s hc hs hm he hsp hat hR hM
  simp only [codegen_rvalue, Res.bind_eq_ok, Res.ok.injEq, Prod.mk.injEq] at hc
  obtain ⟨⟨c1, f1, l1⟩, h1, p, hp, ⟨cb, l2⟩, h2, rfl, -, -⟩ := hc
  simp only [evalE, Option.ite_none_right_eq_some, Option.bind_eq_some_iff, Option.some.injEq, Prod.mk.injEq] at he
  obtain ⟨hr, ⟨a, M1⟩, he, rfl, rfl⟩ := he
  unfold Room at hr
  simp only [Sup] at hs
  have a1 := sl_set hR sp (exec_xor0 s 0) (by decide) (by decide) (by simp [sgn])
  obtain ⟨s1, a2, _, a3, _⟩ := sl_push H.hw a1.rel hM (Int.le_refl _) (by omega) 0
  have a3 : word C.w s1.mem (sp - C.w) = 0 := by rw [a3]; simp [setReg]
  have sl := a1.trans a2
  have o1 : OutV C G sp M M s s1 0 := OutV.new sl a3
  have st1 := go_run (base := base) (w := C.w) (es := [.xor_reg_reg 0 0] ++ [.push_reg 0]) hat.left.left sl.run
  obtain ⟨s2, y, st2, o2, t2⟩ := ih _ _ _ _ _ _ _ _ _ _ _ _ h1 hs trivial he
    (by rw [hsp, Int.add_mul]; omega) hat.left.right a2.rel (hM.mono (by omega))
  have hb : BinRun C.w C.T .eq int_type p 0 y (b2i (decide ((0:Int) = y))) := by
    refine ⟨sgn_b2i H.hw _, ?_⟩
    exact ⟨_, rfl, rfl⟩
  have hR2 : Rel C G (sp - 2 * C.w) M1 s2 := by
    have := o2.rel
    rwa [show sp - (C.w : Int) - C.w = sp - 2 * C.w by omega] at this
  obtain ⟨s3, st3, r3, c3, t3⟩ := binop_steps (base := base) H.hw h2 hb (by
      have := hat.right
      rwa [List.length_append, ← Nat.add_assoc] at this) hR2 (hM.same o2.dom) (by omega) (o1.keep hM o2 (by omega))
    (by have := o2.top; rwa [show sp - (C.w : Int) - C.w = sp - 2 * C.w by omega] at this)
  refine ⟨s3, _, ?_, o1.bin o2 r3 c3 t3, ?_⟩
  · rw [len3]
    exact (st1.trans st2).trans st3
  · have t2' : y = 0 ↔ a = 0 := t2
    have e : b2i (decide ((0:Int) = y)) = b2i (decide (a = 0)) := by
      congr 1
      by_cases h : y = 0
      · have := t2'.1 h; simp [h, this]
      · have : a ≠ 0 := fun e => h (t2'.2 e)
        simp [this, Ne.symm h]
    rw [e]
    have := topOk_fits H.hw (fits_b2i H.hw (decide (a = 0))) hm
    rwa [sgn_b2i H.hw] at this

/-- The memory is still represented after a computation that used one word below the stack pointer. -/
theorem rel_eff {C : Ctx} {sp : Int} {M : Mem} {s s1 s2 : MS} {G : Int} {sp0 : Int} (h : Rel C G sp0 M s) (hM : MemOk C sp M)
    (hroom : C.lim + C.w ≤ sp) (hm : s1.mem = s.mem) (h4 : s1.reg 4 = sgn C.w sp)
    (he : Eff C.w s1 s2 [0, 1, 2] (s1.reg 4 - C.w) C.w) : Rel C (s2.reg 3) sp { M with io := s2.io } s2 := by
  have h0 := hM.lim
  have ht := hM.top
  refine ⟨he.wf, by rw [he.regs 4 (by decide), h4], (he.wf 3).symm, ?_, rfl⟩
  intro a b hab
  have hd := (hM.dom a (by rw [hab]; simp))
  rw [he.mem a, hm]
  · exact h.agree a b hab
  · rw [inR_addr (b := sp - C.w) (by rw [h4, ← uns_sgn, sgn_sub_l, uns_sgn]), inR_iff (by omega) (by omega)]
    omega

theorem MemOk.io {C : Ctx} {sp : Int} {M : Mem} (h : MemOk C sp M) (t : List Event) : MemOk C sp { M with io := t } := ⟨h.lim, h.top, h.dom⟩

theorem loadT_io {C : Ctx} {M : Mem} {a : Int} {t : CTy} (h : List Event) : loadT C { M with io := h } a t = loadT C M a t := by
  unfold loadT
  rw [loadN_congr (M := { M with io := h }) (M' := M) (fun _ _ _ => rfl)]

/-- `binop_index` is `binop_add` followed by a load. -/
theorem index_split {C : Ctx} {ta tb pa pb : CTy} {va vb p : Int} {es : List Emit} {t : CTy}
    (hok : binOk C .add ta tb pa pb false false = true) (hp : isPtr ta || isPtr tb)
    (hv : binV C .add ta tb va vb = some p) (ht : elemTy (if isPtr ta then ta else tb) = some t)
    (hes : binop_index C.w C.T pa pb = .ok es) :
    ∃ core ld, binop_core C.w C.T .add pa pb = .ok core ∧
      load_mem_location C.w 0 0 0 (sizeof C.w C.T t) (is_signed_numeric_type t) = .ok ld ∧ es = core ++ ld ∧ elemOk C t = true := by
  have h1 : (isInt ta && isInt tb) = false := by
    cases ta <;> simp [isPtr, isInt] at hp ⊢
    all_goals cases tb <;> simp [isPtr, isInt] at hp ⊢
  unfold binOk at hok
  unfold binV at hv
  simp only [h1, Bool.false_eq_true, if_false] at hok hv
  cases ta
  case ptr t1 =>
    simp only [isPtr, if_true, elemTy, Option.some.injEq] at ht
    subst ht
    simp only [Bool.and_eq_true, beq_iff_eq, Bool.not_eq_true'] at hok
    obtain ⟨a1, a2, a3⟩ := elem_ref hok.1.1.1 (elem_of hok.1.2)
    simp only [binop_index, binop_core, binop_add, a1, a2, a3, hok.1.1.2, Bool.not_false, Bool.and_self, if_true, Res.bind_ok, Res.bind_eq_ok, Res.ok.injEq] at hes ⊢
    obtain ⟨ld, hld, rfl⟩ := hes
    exact ⟨_, ld, rfl, hld, by simp, hok.1.2⟩
  all_goals
    cases tb <;> simp [isPtr] at hp
    rename_i t2
    simp only [isPtr, Bool.false_eq_true, if_false, elemTy, Option.some.injEq] at ht
    subst ht
    simp only [Bool.and_eq_true, beq_iff_eq, Bool.not_eq_true'] at hok
    obtain ⟨a1, a2, a3⟩ := elem_ref hok.1.1.1 (elem_of hok.1.2)
    simp only [binop_index, binop_core, binop_add, a1, a2, a3, hok.1.1.2, Bool.not_false, Bool.not_true, Bool.and_false, Bool.false_eq_true, Bool.and_self, if_true, if_false, Res.bind_ok, Res.bind_eq_ok, Res.ok.injEq] at hes ⊢
    obtain ⟨ld, hld, rfl⟩ := hes
    exact ⟨_, ld, rfl, hld, by simp, hok.1.2⟩

theorem index_elem {w : Nat} {ta tb : CTy} {t : CTy} (h : (match ta, tb with
      | .ptr t, tb => if isInt tb then some t else none
      | ta, .ptr t => if isInt ta then some t else none
      | _, _ => none) = some t) : elemTy (if isPtr ta then ta else tb) = some t := by
  split at h
  · split at h <;> simp at h
    simp [isPtr, elemTy, h]
  · rename_i hn
    split at h <;> simp at h
    have : isPtr ta = false := by
      cases ta <;> first | rfl | exact absurd rfl (hn _)
    simp [this, elemTy, h]
  · cases h

theorem rv_index (H : Hyp C base P Γ ρ F G cf) (a b : E) (iha : RV C base P Γ ρ F G cf a) (ihb : RV C base P Γ ρ F G cf b) :
    RV C base P Γ ρ F G cf (.index a b) := by
  intro md fs l c fs' l' sp M v' M' pc s hc hs hm he hsp hat hR hM
  simp only [codegen_rvalue, Res.bind_eq_ok, Res.ok.injEq, Prod.mk.injEq] at hc
  obtain ⟨⟨ca, f1, l1⟩, h1, ⟨cb, f2, l2⟩, h2, pa, hpa, pb, hpb, es, h3, rfl, -, -⟩ := hc
  simp only [evalE, Option.ite_none_right_eq_some, Option.bind_eq_some_iff, Option.some.injEq, Prod.mk.injEq] at he
  obtain ⟨hr, t, ht, ta, hta, tb, htb, ⟨va, M1⟩, ea, ⟨vb, M2⟩, eb, p, hp, v, hv, rfl, rfl⟩ := he
  unfold Room at hr
  simp only [Sup, vt_of hpa, vt_of hpb, hta, htb, Bool.and_eq_true] at hs
  obtain ⟨⟨sa, sb⟩, hok, hpt⟩ := hs
  simp only [ctype, hta, htb, Option.bind_some] at ht
  have ht := index_elem (w := C.w) ht
  obtain ⟨core, ld, h4, h5, rfl, hel⟩ := index_split hok hpt hp ht h3
  have hvl := rvalue_load H hv (elemOk_notarr hel)
  have hf1 := (fs_all H.hw C.T Γ a).1 _ _ _ _ _ h1
  obtain ⟨s1, x, st1, o1, t1⟩ := iha _ _ _ _ _ _ _ _ _ _ _ _ h1 sa (Nat.le_refl _) ea hsp hat.left.left hR hM
  have o1 := full_word H o1 t1
  have hM1 := hM.same o1.dom
  obtain ⟨s2, y, st2, o2, t2⟩ := ihb _ _ _ _ _ _ _ _ _ _ _ _ h2 sb (Nat.le_refl _) eb
      (by rw [hf1, hsp, Int.add_mul]; omega) hat.left.right o1.rel (hM1.mono (by omega))
  have o2 := full_word H o2 t2
  have hM2 := hM1.same o2.dom
  have hR2 : Rel C G (sp - 2 * C.w) M2 s2 := by
    have := o2.rel
    rwa [show sp - (C.w : Int) - C.w = sp - 2 * C.w by omega] at this
  have e2 : word C.w s2.mem (sp - 2 * C.w) = sgn C.w vb := by
    have := o2.top; rwa [show sp - (C.w : Int) - C.w = sp - 2 * C.w by omega] at this
  obtain ⟨ta', e3, fa⟩ := val_fits H (low_w H) sa ea
  obtain ⟨tb', e4, fb⟩ := val_fits H (low_w H) sb eb
  rw [hta] at e3; cases e3
  rw [htb] at e4; cases e4
  have hbs := bin_sem H.hw hok (by simp) (by simp) hp fa fb
  obtain ⟨s3, sl, tp⟩ := sl_binop H.hw hR2 hM2 (by omega) (es := core ++ ld) (z := sgn C.w v) (sgn_sgn _ _) (by
    intro s1 w1 e0 e1 em e4
    obtain ⟨s3, r1, r2, r3⟩ := hbs.2 core h4 s1 w1 (by rw [e0, o1.keep hM o2 (by omega)]) (by rw [e1, e2])
    have hr3 := rel_eff hR2 hM2 (by omega) em e4 r3
    have ll := sl_load H.hw hr3 (hM2.io _) (d := 0) (b := 0) (by decide) (by decide) h5 ((loadT_io _).trans hvl) r2 (top := sp)
    exact ⟨_, run_append_some r1 ll.run, by simp [setReg], eff_setReg0 r3 (by simp) (sgn_sgn _ _)⟩)
  refine ⟨s3, _, ?_, o1.bin o2 sl.rel sl.scr tp, topOk_fits H.hw (loadT_fits H.hw hvl) hm⟩
  rw [len3, I_length]
  refine (st1.trans st2).trans (go_run ?_ sl.run)
  have := hat.right
  rwa [List.length_append, ← Nat.add_assoc] at this

theorem lv_index (H : Hyp C base P Γ ρ F G cf) (a b : E) (iha : RV C base P Γ ρ F G cf a) (ihb : RV C base P Γ ρ F G cf b) :
    LV C base P Γ ρ F G cf (.index a b) := by
  intro fs l c fs' l' k sp M v' M' pc s hc hs he hsp hat hR hM
  simp only [codegen_lvalue, Res.bind_eq_ok] at hc
  obtain ⟨pa, hpa, ⟨ca, f1, l1⟩, h1, ⟨cb, f2, l2⟩, h2, pb, hpb, ⟨co, l3⟩, h3, k', hk, hc⟩ := hc
  split at hc
  · cases hc
  simp only [Res.ok.injEq, Prod.mk.injEq] at hc
  obtain ⟨rfl, -, -, rfl⟩ := hc
  simp only [evalL, Option.ite_none_right_eq_some, Option.bind_eq_some_iff, Option.some.injEq, Prod.mk.injEq] at he
  obtain ⟨hr, t, ht, ta, hta, tb, htb, ⟨va, M1⟩, ea, ⟨vb, M2⟩, eb, p, hp, rfl, rfl⟩ := he
  unfold Room at hr
  simp only [SupL, vt_of hpa, vt_of hpb, hta, htb, Bool.and_eq_true] at hs
  obtain ⟨⟨sa, sb⟩, hok, hpt⟩ := hs
  refine ⟨⟨t, ht, ?_⟩, ?_⟩
  · simp only [ctype, hta, htb, Option.bind_some] at ht
    have ht := index_elem (w := C.w) ht
    rw [if_pos hpt] at ht
    have : ∃ t1, decay ta = .ptr t1 := by
      revert hpt; cases decay ta <;> simp [isPtr]
    obtain ⟨t1, e1⟩ := this
    rw [e1] at ht hok
    simp only [elemTy, Option.some.injEq] at ht
    subst ht
    unfold binOk at hok
    simp only [isInt, Bool.false_and, Bool.false_eq_true, if_false, Bool.and_eq_true, beq_iff_eq] at hok
    obtain ⟨_, a2, _⟩ := elem_ref hok.1.1.1 (elem_of hok.1.2)
    rw [a2] at hk
    cases hk
    rfl
  have hf1 := (fs_all H.hw C.T Γ a).1 _ _ _ _ _ h1
  obtain ⟨s1, x, st1, o1, t1⟩ := iha _ _ _ _ _ _ _ _ _ _ _ _ h1 sa (Nat.le_refl _) ea hsp hat.left.left hR hM
  have o1 := full_word H o1 t1
  have hM1 := hM.same o1.dom
  obtain ⟨s2, y, st2, o2, t2⟩ := ihb _ _ _ _ _ _ _ _ _ _ _ _ h2 sb (Nat.le_refl _) eb
      (by rw [hf1, hsp, Int.add_mul]; omega) hat.left.right o1.rel (hM1.mono (by omega))
  have o2 := full_word H o2 t2
  have hM2 := hM1.same o2.dom
  have hR2 : Rel C G (sp - 2 * C.w) M2 s2 := by
    have := o2.rel
    rwa [show sp - (C.w : Int) - C.w = sp - 2 * C.w by omega] at this
  have e2 : word C.w s2.mem (sp - 2 * C.w) = sgn C.w vb := by
    have := o2.top; rwa [show sp - (C.w : Int) - C.w = sp - 2 * C.w by omega] at this
  obtain ⟨ta', e3, fa⟩ := val_fits H (low_w H) sa ea
  obtain ⟨tb', e4, fb⟩ := val_fits H (low_w H) sb eb
  rw [hta] at e3; cases e3
  rw [htb] at e4; cases e4
  have hbs := bin_sem H.hw hok (by simp) (by simp) hp fa fb
  obtain ⟨s3, st3, r3, c3, t3⟩ := binop_steps (base := base) H.hw h3 hbs (by
      have := hat.right
      rwa [List.length_append, ← Nat.add_assoc] at this) hR2 hM2 (by omega) (o1.keep hM o2 (by omega)) e2
  refine ⟨s3, ?_, o1.bin o2 r3 c3 t3⟩
  rw [len3]
  exact (st1.trans st2).trans st3

/-- Addition of the offset of a member. -/
def offs (r : Nat) (off : Option Nat) : List Emit := match off with | some o => [.add_reg_imm r o] | none => []

theorem offs_sim {C : Ctx} {G sp : Int} {M : Mem} {s : MS} {u : Bool} {tag m : Nat} {off : Option Nat} {o : Nat} {p : Int} {r : Nat}
    (hoff : member_off C.T u tag m = .ok off) (ho : offset C (.agg u tag) m = some o) (hu : unionOk C (.agg u tag) m = true)
    (h3 : r ≠ 3) (h4 : r ≠ 4) (hR : Rel C G sp M s) (hp : s.reg r = sgn C.w p) :
    ∃ s2, SL C G M sp s (offs r off) sp s2 ∧ s2.reg r = sgn C.w (p + o) := by
  simp only [offset] at ho
  cases u with
  | true =>
    simp only [unionOk, beq_iff_eq] at hu
    rw [hu] at ho; cases ho
    simp only [member_off, if_true, Res.ok.injEq] at hoff
    subst hoff
    exact ⟨s, SL.nil hR, by simpa using hp⟩
  | false =>
    simp only [member_off, Bool.false_eq_true, if_false, ho, Res.ok.injEq] at hoff
    subst hoff
    have a1 := sl_set hR sp (exec_addImm s r o) h3 h4 (sgn_sgn _ _)
    exact ⟨_, a1, by simp [setReg, hp, sgn_add_l]⟩

/-- The load of a member. -/
theorem member_load (H : Hyp C base P Γ ρ F G cf) {sp : Int} {M : Mem} {s : MS} {t2 : CTy} {ld : List Emit} {p v : Int}
    (hl : (if is_aggregate_type t2 then .ok [] else (type_width C.w C.T t2 false).bind fun k =>
        load_mem_location C.w 1 1 0 k (is_signed_numeric_type t2)) = .ok ld) (hv : rvalue C M p t2 = some v)
    (hR : Rel C G sp M s) (hM : MemOk C sp M) (hp : s.reg 1 = sgn C.w p) :
    ∃ s2, SL C G M sp s ld sp s2 ∧ s2.reg 1 = sgn C.w v := by
  by_cases h : ∃ n t', t2 = .arr n t'
  · obtain ⟨n, t', rfl⟩ := h
    simp [is_aggregate_type] at hl
    simp [rvalue] at hv
    subst hl; subst hv
    exact ⟨s, SL.nil hR, hp⟩
  · have hvl := rvalue_load H hv (fun n t' e => h ⟨n, t', e⟩)
    have hs := loadT_scalar hvl
    have e1 : is_aggregate_type t2 = false := by
      cases t2 <;> first | rfl | (simp [scalar, isInt, isPtr] at hs)
    rw [e1] at hl
    simp only [Bool.false_eq_true, if_false, type_width_scalar C.T hs, Res.bind_ok] at hl
    exact ⟨_, sl_load H.hw hR hM (by decide) (by decide) hl hvl hp, by simp [setReg]⟩

theorem rv_member (H : Hyp C base P Γ ρ F G cf) {md : Md} {sp : Int} {M M1 : Mem} {s s1 : MS} {pc : Nat} {c : List Asm} {u : Bool} {tag m : Nat}
    {off : Option Nat} {o : Nat} {p p' v : Int} {t2 : CTy} {ld : List Emit} (hm : mdOk C md)
    (hr : C.lim + 5 * C.w ≤ sp) (hM : MemOk C sp M) (hp0 : 0 ≤ p' ∧ p' < (2 ^ (8 * C.w) : Nat))
    (hat : At P pc (c ++ I ([.pop_reg 1] ++ offs 1 off ++ ld ++ [.push_reg 1])))
    (st : Go C.w base P (pc, s) (pc + c.length, s1)) (o1 : OutV C G sp M M1 s s1 (sgn C.w p))
    (hoff : member_off C.T u tag m = .ok off) (ho : offset C (.agg u tag) m = some o) (hu : unionOk C (.agg u tag) m = true)
    (hp : p' = p + o)
    (hl : (if is_aggregate_type t2 then .ok [] else (type_width C.w C.T t2 false).bind fun k =>
        load_mem_location C.w 1 1 0 k (is_signed_numeric_type t2)) = .ok ld) (hv : rvalue C M1 p' t2 = some v) :
    ∃ s' z, Go C.w base P (pc, s) (pc + (c ++ I ([.pop_reg 1] ++ offs 1 off ++ ld ++ [.push_reg 1])).length, s') ∧
      OutV C G sp M M1 s s' z ∧ topOk md z v := by
  have hM1 := hM.same o1.dom
  have e : [Emit.pop_reg 1] ++ offs 1 off ++ ld ++ [.push_reg 1] = [.pop_reg 1] ++ (offs 1 off ++ ld) ++ [.push_reg 1] := by simp
  rw [e] at hat ⊢
  obtain ⟨s2, sl, tp⟩ := sl_unop H.hw o1.rel hM1 (by omega) (r0 := 1) (r1 := 1) (by decide) (by decide) (es := offs 1 off ++ ld) (z := sgn C.w v) (by
    intro s1 hr0 h0 _
    rw [o1.top] at h0
    obtain ⟨s2, a1, a2⟩ := offs_sim hoff ho hu (by decide) (by decide) hr0 h0
    rw [← hp] at a2
    obtain ⟨s3, b1, b2⟩ := member_load H hl hv a1.rel hM1 a2
    exact ⟨s3, a1.trans b1, b2⟩)
  refine ⟨s2, _, ?_, o1.sl sl tp, topOk_fits H.hw (rvalue_fits H.hw hv hp0) hm⟩
  rw [List.length_append, I_length, ← Nat.add_assoc]
  exact st.trans (go_run hat.right sl.run)

theorem lv_member (H : Hyp C base P Γ ρ F G cf) {sp : Int} {M M1 : Mem} {s s1 : MS} {pc : Nat} {c : List Asm} {u : Bool} {tag m : Nat}
    {off : Option Nat} {o : Nat} {p : Int} (hr : C.lim + 5 * C.w ≤ sp) (hM : MemOk C sp M)
    (hat : At P pc (c ++ I ([.pop_reg 0] ++ offs 0 off ++ [.push_reg 0])))
    (st : Go C.w base P (pc, s) (pc + c.length, s1)) (o1 : OutV C G sp M M1 s s1 (sgn C.w p))
    (hoff : member_off C.T u tag m = .ok off) (ho : offset C (.agg u tag) m = some o) (hu : unionOk C (.agg u tag) m = true) :
    ∃ s', Go C.w base P (pc, s) (pc + (c ++ I ([.pop_reg 0] ++ offs 0 off ++ [.push_reg 0])).length, s') ∧
      OutV C G sp M M1 s s' (sgn C.w (p + o)) := by
  have hM1 := hM.same o1.dom
  obtain ⟨s2, sl, tp⟩ := sl_unop H.hw o1.rel hM1 (by omega) (r0 := 0) (r1 := 0) (by decide) (by decide) (es := offs 0 off) (z := sgn C.w (p + o)) (by
    intro s1 hr0 h0 _
    rw [o1.top] at h0
    exact offs_sim hoff ho hu (by decide) (by decide) hr0 h0)
  refine ⟨s2, ?_, o1.sl sl tp⟩
  rw [List.length_append, I_length, ← Nat.add_assoc]
  exact st.trans (go_run hat.right sl.run)

theorem member_ok {T : Tags} {tag m : Nat} {t : CTy} (h : member_type T tag m = .ok t) : T.mem tag m = some t := by
  unfold member_type at h
  split at h <;> simp_all

theorem rv_dot (H : Hyp C base P Γ ρ F G cf) (e : E) (m : Nat) (ih : LV C base P Γ ρ F G cf e) : RV C base P Γ ρ F G cf (.dot e m) := by
  intro md fs l c fs' l' sp M v' M' pc s hc hs hm he hsp hat hR hM
  simp only [codegen_rvalue, Res.bind_eq_ok] at hc
  obtain ⟨pt, hp, hc⟩ := hc
  cases pt <;> simp only [Res.bind_eq_ok, Res.ok.injEq, Prod.mk.injEq, reduceCtorEq] at hc
  rename_i u tag
  obtain ⟨t2, ht2, ⟨c1, f1, l1, k1⟩, h1, off, hoff, ld, hld, rfl, -, -⟩ := hc
  simp only [evalE, Option.ite_none_right_eq_some, Option.bind_eq_some_iff, Option.some.injEq, Prod.mk.injEq] at he
  obtain ⟨hr, te, hte, t, ht, o, ho, ⟨p, M1⟩, he, p', hp', v, hv, rfl, rfl⟩ := he
  unfold Room at hr
  simp only [Sup, vt_of hp, hte, Bool.and_eq_true, beq_iff_eq] at hs
  obtain ⟨hs, rfl, hu⟩ := hs
  simp only [ctype, hte, Option.bind_some, member_ok ht2, Option.some.injEq] at ht
  subst ht
  obtain ⟨_, s1, st, o1⟩ := ih _ _ _ _ _ _ _ _ _ _ _ _ h1 hs he hsp hat.left hR hM
  obtain ⟨e1, e2⟩ := chkP_range hp'
  exact rv_member H hm hr hM e2 hat st o1 hoff ho hu e1 hld hv

theorem lv_dot (H : Hyp C base P Γ ρ F G cf) (e : E) (m : Nat) (ih : LV C base P Γ ρ F G cf e) : LV C base P Γ ρ F G cf (.dot e m) := by
  intro fs l c fs' l' k sp M v' M' pc s hc hs he hsp hat hR hM
  simp only [codegen_lvalue, Res.bind_eq_ok] at hc
  obtain ⟨pt, hp, hc⟩ := hc
  cases pt <;> simp only [Res.bind_eq_ok, reduceCtorEq] at hc
  rename_i u tag
  obtain ⟨⟨c1, f1, l1, k1⟩, h1, off, hoff, t2, ht2, k', hk, hc⟩ := hc
  split at hc
  · cases hc
  simp only [Res.ok.injEq, Prod.mk.injEq] at hc
  obtain ⟨rfl, -, -, rfl⟩ := hc
  simp only [evalL, Option.ite_none_right_eq_some, Option.bind_eq_some_iff, Option.some.injEq, Prod.mk.injEq] at he
  obtain ⟨hr, te, hte, t, ht, o, ho, ⟨p, M1⟩, he, p', hp', rfl, rfl⟩ := he
  unfold Room at hr
  simp only [SupL, vt_of hp, hte, Bool.and_eq_true, beq_iff_eq] at hs
  obtain ⟨hs, rfl, hu⟩ := hs
  refine ⟨⟨t, ht, ?_⟩, ?_⟩
  · simp only [ctype, hte, Option.bind_some, member_ok ht2, Option.some.injEq] at ht
    subst ht
    exact type_width_true C.T hk
  obtain ⟨_, s1, st, o1⟩ := ih _ _ _ _ _ _ _ _ _ _ _ _ h1 hs he hsp hat.left hR hM
  rw [(chkP_range hp').1]
  exact lv_member H hr hM hat st o1 hoff ho hu

theorem rv_arrow (H : Hyp C base P Γ ρ F G cf) (e : E) (m : Nat) (ih : RV C base P Γ ρ F G cf e) : RV C base P Γ ρ F G cf (.arrow e m) := by
  intro md fs l c fs' l' sp M v' M' pc s hc hs hm he hsp hat hR hM
  simp only [codegen_rvalue, Res.bind_eq_ok] at hc
  obtain ⟨pt, hp, hc⟩ := hc
  split at hc <;> simp only [Res.bind_eq_ok, Res.ok.injEq, Prod.mk.injEq, reduceCtorEq] at hc
  rename_i u tag
  obtain ⟨t2, ht2, ⟨c1, f1, l1⟩, h1, off, hoff, ld, hld, rfl, -, -⟩ := hc
  simp only [evalE, Option.ite_none_right_eq_some, Option.bind_eq_some_iff, Option.some.injEq, Prod.mk.injEq] at he
  obtain ⟨hr, te, hte, t, ht, o, ho, ⟨p, M1⟩, he, p', hp', v, hv, rfl, rfl⟩ := he
  unfold Room at hr
  simp only [ctype, Option.bind_eq_some_iff] at hte
  obtain ⟨t3, ht3, hte⟩ := hte
  split at hte <;> simp only [Option.some.injEq, reduceCtorEq] at hte
  subst hte
  rename_i t4 hd
  simp only [Sup, vt_of hp, ht3, Bool.and_eq_true, beq_iff_eq, elemTy_decay hd, Option.some.injEq] at hs
  obtain ⟨hs, rfl, hu⟩ := hs
  simp only [ctype, ht3, Option.bind_some, hd, member_ok ht2, Option.some.injEq] at ht
  subst ht
  obtain ⟨s1, z, st, o1, t1⟩ := ih _ _ _ _ _ _ _ _ _ _ _ _ h1 hs (Nat.le_refl _) he hsp hat.left hR hM
  have o1 := full_word H o1 t1
  obtain ⟨e1, e2⟩ := chkP_range hp'
  exact rv_member H hm hr hM e2 hat st o1 hoff ho hu e1 hld hv

theorem lv_arrow (H : Hyp C base P Γ ρ F G cf) (e : E) (m : Nat) (ih : RV C base P Γ ρ F G cf e) : LV C base P Γ ρ F G cf (.arrow e m) := by
  intro fs l c fs' l' k sp M v' M' pc s hc hs he hsp hat hR hM
  simp only [codegen_lvalue, Res.bind_eq_ok] at hc
  obtain ⟨pt, hp, hc⟩ := hc
  split at hc <;> simp only [Res.bind_eq_ok, reduceCtorEq] at hc
  rename_i u tag
  obtain ⟨⟨c1, f1, l1⟩, h1, off, hoff, t2, ht2, k', hk, hc⟩ := hc
  split at hc
  · cases hc
  simp only [Res.ok.injEq, Prod.mk.injEq] at hc
  obtain ⟨rfl, -, -, rfl⟩ := hc
  simp only [evalL, Option.ite_none_right_eq_some, Option.bind_eq_some_iff, Option.some.injEq, Prod.mk.injEq] at he
  obtain ⟨hr, te, hte, t, ht, o, ho, ⟨p, M1⟩, he, p', hp', rfl, rfl⟩ := he
  unfold Room at hr
  simp only [ctype, Option.bind_eq_some_iff] at hte
  obtain ⟨t3, ht3, hte⟩ := hte
  split at hte <;> simp only [Option.some.injEq, reduceCtorEq] at hte
  subst hte
  rename_i t4 hd
  simp only [SupL, vt_of hp, ht3, Bool.and_eq_true, beq_iff_eq, elemTy_decay hd, Option.some.injEq] at hs
  obtain ⟨hs, rfl, hu⟩ := hs
  refine ⟨⟨t, ht, ?_⟩, ?_⟩
  · simp only [ctype, ht3, Option.bind_some, hd, member_ok ht2, Option.some.injEq] at ht
    subst ht
    exact type_width_true C.T hk
  obtain ⟨s1, z, st, o1, t1⟩ := ih _ _ _ _ _ _ _ _ _ _ _ _ h1 hs (Nat.le_refl _) he hsp hat.left hR hM
  have o1 := full_word H o1 t1
  rw [(chkP_range hp').1]
  exact lv_member H hr hM hat st o1 hoff ho hu

end
end Verif.Cg
