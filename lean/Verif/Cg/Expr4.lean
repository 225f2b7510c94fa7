import Verif.Cg.Expr3
/-! Correctness of the code of expressions: assignments and casts. -/
namespace Verif.Cg
open Verif Verif.Gen Verif.Gen.Spec Verif.X86 Verif.X86.Spec Spec

section
variable {C : Ctx} {base : Mach} {P : List Asm} {Γ : Env} {ρ : Spec.Env} {F G : Int} {cf : CallF}

/-- The store at the end of an assignment: value and address are on the stack. -/
theorem store_pop {sp : Int} {M M3 : Mem} {s : MS} {st : List Emit} {p v y : Int} {t : CTy}
    (hR : Rel C G (sp - 2 * C.w) M s) (hM : MemOk C sp M) (hy : word C.w s.mem (sp - 2 * C.w) = y)
    (hp : word C.w s.mem (sp - C.w) = sgn C.w p) (hst : write_mem_location C.w 1 0 0 (sizeof C.w C.T t) = .ok st)
    (hs : storeT C M p t v = some M3) (hv : y % (2 ^ (8 * sizeof C.w C.T t) : Nat) = v % (2 ^ (8 * sizeof C.w C.T t) : Nat)) :
    ∃ s', run C.w s ([.pop_reg 0, .pop_reg 1] ++ st) = some s' ∧ Rel C G sp M3 s' ∧ Outside C M sp s s' ∧ s'.reg 0 = y ∧
      (∀ x, M x = none → s'.mem x = s.mem x) := by
  obtain ⟨s1, p1, p2, p3, p4⟩ := sl_pop hR sp (r := 0) (by decide) (by decide)
  obtain ⟨s2, q1, q2, q3, q4⟩ := sl_pop p1.rel sp (r := 1) (by decide) (by decide)
  have r0 : s2.reg 0 = y := by rw [q3 0 (by decide) (by decide), p2, hy]
  have r1 : s2.reg 1 = sgn C.w p := by rw [q2, p4, ← hp]; congr 1; omega
  have r2 := q1.rel
  rw [show sp - 2 * C.w + C.w + C.w = sp by omega] at r2
  rw [← r0] at hv
  obtain ⟨s3, a1, a2, a3, a4⟩ := sl_store r2 hM hst hs r1 hv
  refine ⟨s3, run_append_some (p1.trans q1).run a1, a2, ?_, by rw [a3, r0], ?_⟩
  · intro x hx _
    rw [a4 x hx, q4, p4]
  · intro x hx
    rw [a4 x hx, q4, p4]

theorem store_tail (H : Hyp C base P Γ ρ F G cf) {sp : Int} {M M3 : Mem} {s : MS} {st : List Emit} {p v y : Int} {t : CTy}
    (hR : Rel C G (sp - 2 * C.w) M s) (hM : MemOk C sp M) (hr : C.lim + C.w ≤ sp) (hy : word C.w s.mem (sp - 2 * C.w) = y)
    (hp : word C.w s.mem (sp - C.w) = sgn C.w p) (hst : write_mem_location C.w 1 0 0 (sizeof C.w C.T t) = .ok st)
    (hs : storeT C M p t v = some M3) (hv : y % (2 ^ (8 * sizeof C.w C.T t) : Nat) = v % (2 ^ (8 * sizeof C.w C.T t) : Nat)) :
    ∃ s', run C.w s ([.pop_reg 0, .pop_reg 1] ++ st ++ [.push_reg 0]) = some s' ∧ OutV C G sp M M3 s s' y := by
  obtain ⟨s1, a1, a2, a3, a4, _⟩ := store_pop hR hM hy hp hst hs hv
  have hd := storeT_dom hs
  obtain ⟨s2, b1, _, b3, _⟩ := sl_push H.hw a2 (hM.same hd) (Int.le_refl _) hr 0
  exact ⟨s2, run_append_some a1 b1.run, b1.rel, a3.trans hd b1.scr.out (Int.le_refl _) (Int.le_refl _), by rw [b3, a4], hd⟩

theorem OutV.trans {sp : Int} {M M1 M2 : Mem} {s s1 s2 : MS} {z : Int} (h0 : Outside C M sp s s1) (hd : SameDom M M1)
    (h : OutV C G sp M1 M2 s1 s2 z) : OutV C G sp M M2 s s2 z :=
  ⟨h.rel, h0.trans hd h.out (Int.le_refl _) (Int.le_refl _), h.top, hd.trans h.dom⟩

theorem rv_assign (H : Hyp C base P Γ ρ F G cf) (a b : E) (iha : LV C base P Γ ρ F G cf a) (ihb : RV C base P Γ ρ F G cf b) :
    RV C base P Γ ρ F G cf (.assign a b) := by
  intro md fs l c fs' l' sp M v' M' pc s hc hs hm he hsp hat hR hM
  simp only [codegen_rvalue, Res.bind_eq_ok] at hc
  obtain ⟨pa, hpa, ⟨ca, f1, l1, k⟩, h1, hc⟩ := hc
  split at hc
  · cases hc
  simp only [Res.bind_eq_ok, Res.ok.injEq, Prod.mk.injEq] at hc
  obtain ⟨⟨cb, f2, l2⟩, h2, st, hst, rfl, -, -⟩ := hc
  simp only [evalE, Option.ite_none_right_eq_some, Option.bind_eq_some_iff, Option.some.injEq, Prod.mk.injEq] at he
  obtain ⟨hr, t, ht, ⟨p, M1⟩, ea, ⟨vb, M2⟩, eb, M3, hst3, rfl, rfl⟩ := he
  unfold Room at hr
  simp only [Sup, Bool.and_eq_true, ht] at hs
  obtain ⟨sa, hs⟩ := hs
  have hsc := storeT_scalar hst3
  have hsz := sizeof_le H.hw C.T hsc
  have hf1 := (fs_all H.hw C.T Γ a).2.1 _ _ _ _ _ _ h1
  obtain ⟨⟨t', ht', hk⟩, s1, st1, o1⟩ := iha _ _ _ _ _ _ _ _ _ _ _ _ h1 sa ea hsp hat.left.left hR hM
  rw [ht] at ht'; cases ht'
  subst hk
  have hM1 := hM.same o1.dom
  have key : ∀ mb, Sup C Γ ρ.kind mb b = true → mdOk C mb → (∀ z, sgn C.w z = z → topOk mb z vb →
      z % (2 ^ (8 * sizeof C.w C.T t) : Nat) = vb % (2 ^ (8 * sizeof C.w C.T t) : Nat) ∧ topOk md z (conv C t vb)) →
      ∃ s' z, Go C.w base P (pc, s) (pc + (ca ++ cb ++ I ([.pop_reg 0, .pop_reg 1] ++ st ++ [.push_reg 0])).length, s') ∧
        OutV C G sp M M3 s s' z ∧ topOk md z (conv C t vb) := by
    intro mb sb okb hz
    obtain ⟨s2, y, st2, o2, t2⟩ := ihb _ _ _ _ _ _ _ _ _ _ _ _ h2 sb okb eb
      (by rw [hf1, hsp, Int.add_mul]; omega) hat.left.right o1.rel (hM1.mono (by omega))
    have hM2 := hM1.same o2.dom
    obtain ⟨z1, z2⟩ := hz y o2.sgn t2
    have hR2 : Rel C G (sp - 2 * C.w) M2 s2 := by
      have := o2.rel
      rwa [show sp - (C.w : Int) - C.w = sp - 2 * C.w by omega] at this
    have e2 : word C.w s2.mem (sp - 2 * C.w) = y := by
      have := o2.top; rwa [show sp - (C.w : Int) - C.w = sp - 2 * C.w by omega] at this
    obtain ⟨s3, r3, o3⟩ := store_tail H hR2 hM2 (by omega) e2 (o1.keep hM o2 (by omega)) hst hst3
      (by rw [z1, conv_emod C t vb (Nat.le_refl _)])
    refine ⟨s3, y, ?_, OutV.trans (o1.out.trans o1.dom o2.out (Int.le_refl _) (by omega)) (o1.dom.trans o2.dom) o3, z2⟩
    rw [len3, I_length]
    refine (st1.trans st2).trans (go_run ?_ r3)
    have := hat.right
    rwa [List.length_append, ← Nat.add_assoc] at this
  cases htb : ctype C ρ.kind b with
  | none => rw [htb] at hs; cases hs
  | some tb =>
    rw [htb] at hs
    simp only at hs
    split at hs
    · rename_i hle
      refine key _ hs hsz.2 ?_
      intro z hz ht
      refine ⟨ht, ?_⟩
      refine topOk_le hle ?_
      show _ = _
      rw [conv_emod C t vb (Nat.le_refl _)]
      exact ht
    · simp only [Bool.and_eq_true] at hs
      refine key _ hs.1 (Nat.le_refl _) ?_
      intro z hz ht
      have e := topOk_full hz ht
      refine ⟨by rw [e]; exact emod_low hsz.2 vb, ?_⟩
      obtain ⟨tb', e1, fb⟩ := val_fits H (low_w H) hs.1 eb
      rw [htb] at e1; cases e1
      rw [e, ← convOk_val H.hw hs.2 fb.1 fb.2]
      exact topOk_fits H.hw (conv_fits H.hw hsc vb) hm

theorem nonneg_lv {κ : Nat → Option VK} : ∀ {a : E} {t : CTy}, SupL C Γ κ a = true → nonneg C κ a = true → ctype C κ a = some t →
    isInt t = true ∧ isSigned t = false := by
  intro a
  induction a with
  | paren e ih =>
    intro t hs hn ht
    exact ih (by simpa [SupL] using hs) (by simpa [nonneg] using hn) (by simpa [ctype] using ht)
  | var _ | deref _ _ | index _ _ _ _ | dot _ _ _ | arrow _ _ _ =>
    intro t hs hn ht
    simp only [nonneg, isBool, ht, Bool.false_or, Bool.and_eq_true, Bool.not_eq_true'] at hn
    exact hn
  | _ => intro t hs; simp [SupL] at hs

/-- The address and the value of the left operand of a compound assignment are pushed. -/
theorem load_head (H : Hyp C base P Γ ρ F G cf) {sp : Int} {M M1 : Mem} {s s1 : MS} {ld : List Emit} {p va : Int} {t : CTy}
    (hr : C.lim + 5 * C.w ≤ sp) (hM : MemOk C sp M) (o1 : OutV C G sp M M1 s s1 (sgn C.w p))
    (hld : load_mem_location C.w 0 1 0 (sizeof C.w C.T t) (is_signed_numeric_type t) = .ok ld)
    (hva : loadT C M1 p t = some va) :
    ∃ s2, run C.w s1 ([.pop_reg 1, .push_reg 1] ++ ld ++ [.push_reg 0]) = some s2 ∧ Rel C G (sp - 2 * C.w) M1 s2 ∧
      Scr C sp s1.mem s2.mem ∧ word C.w s2.mem (sp - C.w) = sgn C.w p ∧ word C.w s2.mem (sp - 2 * C.w) = sgn C.w va := by
  have hM1 := hM.same o1.dom
  have h0 := hM.lim
  have ht := hM.top
  obtain ⟨s2, p1, p2, p3, p4⟩ := sl_pop o1.rel sp (r := 1) (by decide) (by decide)
  have p1r := p1.rel
  rw [show sp - (C.w : Int) + C.w = sp by omega] at p1 p1r
  obtain ⟨s3, q1, q2, q3, q4⟩ := sl_push H.hw p1r hM1 (Int.le_refl _) (by omega) 1
  have r1 : s3.reg 1 = sgn C.w p := by rw [q2 1 (by decide), p2, o1.top]
  have a1 := sl_load H.hw q1.rel hM1 (by decide) (by decide) hld hva r1 (top := sp)
  obtain ⟨s4, b1, b2, b3, b4⟩ := sl_push H.hw a1.rel hM1 (by omega) (by omega) 0
  have sl := ((p1.trans q1).trans a1).trans b1
  refine ⟨s4, sl.run, ?_, sl.scr, ?_, ?_⟩
  · have := b1.rel
    rwa [show sp - (C.w : Int) - C.w = sp - 2 * C.w by omega] at this
  · rw [word_keep b4 (by omega) (by omega) (by omega)]
    show word C.w s3.mem _ = _
    rw [q3, p2, o1.top]
  · rw [show sp - 2 * (C.w : Int) = sp - C.w - C.w by omega, b3]
    simp [setReg]

theorem len5 (pc : Nat) (a b c d e : List Asm) : pc + (a ++ b ++ c ++ d ++ e).length = pc + a.length + b.length + c.length + d.length + e.length := by
  simp; omega

theorem rv_opassign (H : Hyp C base P Γ ρ F G cf) (op : Bop) (a b : E) (iha : LV C base P Γ ρ F G cf a) (ihb : RV C base P Γ ρ F G cf b) :
    RV C base P Γ ρ F G cf (.opassign op a b) := by
  intro md fs l c fs' l' sp M v' M' pc s hc hs hm he hsp hat hR hM
  simp only [codegen_rvalue, Res.bind_eq_ok, Res.ok.injEq, Prod.mk.injEq] at hc
  obtain ⟨⟨ca, f1, l1, k⟩, h1, pa, hpa, ld, hld, ⟨cb, f2, l2⟩, h2, pb, hpb, ⟨co, l3⟩, h3, st, hst, rfl, -, -⟩ := hc
  simp only [evalE, Option.ite_none_right_eq_some, Option.bind_eq_some_iff, Option.some.injEq, Prod.mk.injEq] at he
  obtain ⟨⟨hr, hcmp⟩, t, ht, tb, htb, ⟨p, M1⟩, ea, va, hva, ⟨vb, M2⟩, eb, r, hbv, M3, hst3, rfl, rfl⟩ := he
  unfold Room at hr
  simp only [Sup, Bool.and_eq_true, vt_of hpa, vt_of hpb, ht, htb, beq_iff_eq] at hs
  obtain ⟨sa, rfl, hs⟩ := hs
  have hsc := storeT_scalar hst3
  have hsz := sizeof_le H.hw C.T hsc
  have hf1 := (fs_all H.hw C.T Γ a).2.1 _ _ _ _ _ _ h1
  have h0 := hM.lim
  have htop := hM.top
  obtain ⟨⟨t', ht', hk⟩, s1, st1, o1⟩ := iha _ _ _ _ _ _ _ _ _ _ _ _ h1 sa ea hsp hat.left.left.left.left hR hM
  rw [ht] at ht'; cases ht'
  subst hk
  have hM1 := hM.same o1.dom
  obtain ⟨s2, q1, q2, q3, q4, q5⟩ := load_head H hr hM o1 hld hva
  have st2 := go_run (base := base) hat.left.left.left.right q1
  have key : ∀ mb, Sup C Γ ρ.kind mb b = true → mdOk C mb → (∀ y, sgn C.w y = y → topOk mb y vb →
      ∃ z, BinRun C.w C.T op pa pb (sgn C.w va) y z ∧
      z % (2 ^ (8 * sizeof C.w C.T pa) : Nat) = r % (2 ^ (8 * sizeof C.w C.T pa) : Nat) ∧ topOk md z (conv C pa r)) →
      ∃ s' z, Go C.w base P (pc, s) (pc + (ca ++ I ([.pop_reg 1, .push_reg 1] ++ ld ++ [.push_reg 0]) ++ cb ++ co ++
        I ([.pop_reg 0, .pop_reg 1] ++ st ++ [.push_reg 0])).length, s') ∧
        OutV C G sp M M3 s s' z ∧ topOk md z (conv C pa r) := by
    intro mb sb okb hz
    obtain ⟨s3, y, st3, o3, t3⟩ := ihb _ _ _ _ _ _ _ _ _ _ _ _ h2 sb okb eb
      (by rw [hf1, hsp, Int.add_mul, Int.add_mul]; omega) hat.left.left.right q2 (hM1.mono (by omega))
    have hM2 := hM1.same o3.dom
    obtain ⟨z, hb, z1, z2⟩ := hz y o3.sgn t3
    have k1 : word C.w s3.mem (sp - C.w) = sgn C.w p := by
      rw [o3.out.word hM1 (by omega) (by omega) (by omega), q4]
    have k2 : word C.w s3.mem (sp - C.w - C.w) = sgn C.w va := by
      rw [o3.out.word hM1 (by omega) (by omega) (by omega), ← q5]; congr 1; omega
    have hR3 : Rel C G (sp - C.w - 2 * C.w) M2 s3 := by
      have := o3.rel
      rwa [show sp - 2 * (C.w : Int) - C.w = sp - C.w - 2 * C.w by omega] at this
    have k3 : word C.w s3.mem (sp - C.w - 2 * C.w) = y := by
      have := o3.top; rwa [show sp - 2 * (C.w : Int) - C.w = sp - C.w - 2 * C.w by omega] at this
    obtain ⟨s4, st4, r4, c4, t4⟩ := binop_steps (base := base) H.hw h3 hb hat.left.right hR3 (hM2.mono (by omega)) (by omega) k2 k3
    rw [show sp - (C.w : Int) - C.w = sp - 2 * C.w by omega] at r4 t4
    have k4 : word C.w s4.mem (sp - C.w) = sgn C.w p := by
      rw [c4.word h0 (Int.le_refl _) (by omega) (by omega), k1]
    obtain ⟨s5, r5, o5⟩ := store_tail H r4 hM2 (by omega) t4 k4 hst hst3 (by rw [z1, conv_emod C pa r (Nat.le_refl _)])
    have out : Outside C M sp s s4 :=
      ((o1.out.trans o1.dom q3.out (Int.le_refl _) (Int.le_refl _)).trans o1.dom o3.out (Int.le_refl _) (by omega)).trans (o1.dom.trans o3.dom)
        c4.out (Int.le_refl _) (by omega)
    refine ⟨s5, z, ?_, OutV.trans out (o1.dom.trans o3.dom) o5, z2⟩
    have st5 := go_run (base := base) hat.right r5
    rw [len5, I_length, I_length]
    simp only [List.length_append, I_length, ← Nat.add_assoc] at st2 st3 st4 st5 ⊢
    exact (((st1.trans st2).trans st3).trans st4).trans st5
  have fa := loadT_fits H.hw hva
  have hstored : ∀ z, z = sgn C.w r → z % (2 ^ (8 * sizeof C.w C.T pa) : Nat) = r % (2 ^ (8 * sizeof C.w C.T pa) : Nat) := by
    intro z e; rw [e]; exact emod_low hsz.2 r
  have hlow : ∀ z, md.le (sizeof C.w C.T pa) = true → z % (2 ^ (8 * sizeof C.w C.T pa) : Nat) = r % (2 ^ (8 * sizeof C.w C.T pa) : Nat) →
      topOk md z (conv C pa r) := by
    intro z hle e
    refine topOk_le hle ?_
    show _ = _
    rw [conv_emod C pa r (Nat.le_refl _), e]
  simp only [Bool.or_eq_true, Bool.and_eq_true] at hs
  rcases hs with ⟨⟨hle, hlo⟩, sb⟩ | ⟨⟨sb, hok⟩, hmo⟩
  · refine key _ sb (by split <;> first | exact Nat.le_refl _ | exact hsz.2) ?_
    intro y hy ty
    have hi : isInt tb = true := by
      simp only [lowOk, Bool.and_eq_true] at hlo; exact hlo.1.1.1.1.1.1.2
    have d2 : decay tb = tb := by cases tb <;> first | rfl | simp [isInt] at hi
    rw [d2] at hbv
    obtain ⟨z, hz, hz2⟩ := bin_low H.hw hlo hbv (x := sgn C.w va) (y := y) (emod_low hsz.2 va) (by
      split at ty
      · rename_i hsh; rw [if_pos hsh]; exact topOk_full hy ty
      · rename_i hsh; rw [if_neg hsh]; exact ty)
    exact ⟨z, hz, hz2, hlow z hle hz2⟩
  · refine key _ sb (Nat.le_refl _) ?_
    intro y hy ty
    obtain ⟨tb', e1, fb⟩ := val_fits H (low_w H) sb eb
    rw [htb] at e1; cases e1
    have hbs := bin_sem H.hw hok (fun h => fa.nonneg H.hw (nonneg_lv sa h ht).2) (fun h => nonneg_val H h eb) hbv fa fb
    rw [topOk_full hy ty]
    refine ⟨_, hbs, hstored _ rfl, ?_⟩
    rcases hmo with hle | hcv
    · exact hlow _ hle (hstored _ rfl)
    · obtain ⟨tr, e2, fr⟩ := binV_fits H.hw (fun _ _ => ⟨fa, fb⟩) hbv
      rw [e2] at hcv
      rw [← convOk_val H.hw hcv fr.1 fr.2]
      exact topOk_fits H.hw (conv_fits H.hw hsc r) hm

/-- The operator of `++` and `--`. -/
theorem incdec_run {C : Ctx} (hw : C.w = 4 ∨ C.w = 8) {dec : Bool} {t : CTy} {v r : Int} (hs : scalar C.w t = true) (hf : Fits C t v)
    (hel : incElem C t = true)
    (hv : binV C (if dec then .sub else .add) t (.int false) v 1 = some r) :
    ∃ z, BinRun C.w C.T (incop dec) t int_type (sgn C.w v) (sgn C.w 1) z ∧
      z % (2 ^ (8 * sizeof C.w C.T t) : Nat) = r % (2 ^ (8 * sizeof C.w C.T t) : Nat) ∧
      (incWide C t = true → z = sgn C.w (conv C t r)) := by
  have hsz := sizeof_le hw C.T hs
  have f1 : Fits C (.int false) (1:Int) := fits_int hw (by decide) (by decide)
  have hv' : binV C (incop dec) t (.int false) v 1 = some r := hv
  by_cases hp : ∃ t', t = .ptr t'
  · obtain ⟨t', rfl⟩ := hp
    have hok : binOk C (incop dec) (.ptr t') (.int false) (.ptr t') int_type false false = true := by
      cases dec <;> simp [binOk, incop, isInt, elemTy, is_pointer_type, int_type, scalar, incElem] at hel ⊢ <;> exact hel
    have hb := bin_sem hw hok (by simp) (by simp) hv' hf f1
    exact ⟨_, hb, emod_low hsz.2 r, fun _ => by rw [sgn_conv C (by simp [sizeof])]⟩
  · have hi : isInt t = true := by
      cases t <;> simp [scalar, isInt, isPtr] at hs hp ⊢
    have np : is_pointer_type t = false := by cases t <;> first | rfl | simp [isInt] at hi
    obtain ⟨t', hu⟩ : ∃ t', usual C.w t (.int false) = some t' := by
      cases t <;> simp [isInt] at hi <;> simp [usual, promote]
    have hsh : isShift (incop dec) = false := by cases dec <;> rfl
    have hle : sizeof C.w C.T t ≤ sizeof C.w C.T t' := by
      have e := hu
      cases t <;> simp [isInt] at hi <;> simp [usual, promote] at e <;> (try split at e) <;> simp [common] at e <;> subst e <;>
        simp [sizeof] <;> omega
    have hlo : lowOk C (incop dec) t (.int false) t int_type (sizeof C.w C.T t) = true := by
      simp only [lowOk, hi, hs, np, hsh, hu, Bool.and_eq_true, decide_eq_true_eq, hle]
      cases dec <;> simp [incop, lowOp, isInt, scalar, is_pointer_type, int_type, hle]
    by_cases hwide : incWide C t = true
    · have htt : isSigned t' = isSigned t ∧ sizeof C.w C.T t' = sizeof C.w C.T t ∧ wrapOk C t = true := by
        have e := hu
        cases t <;> simp [isInt] at hi <;> simp [isPtr, incWide] at hwide <;> simp [usual, promote] at e <;> (try split at e) <;> simp [common] at e <;> subst e <;>
          simp [sizeof, isSigned, hwide] <;> omega
      have hok : binOk C (incop dec) t (.int false) t int_type false false = true := by
        have hw' := htt.2.2
        simp only [wrapOk, Bool.or_eq_true, decide_eq_true_eq] at hw'
        have hin : insens (incop dec) = true := by cases dec <;> rfl
        have : arithOk C (incop dec) t' (both_signed t int_type) false false = true := by
          simp only [arithOk, hin, htt.1, htt.2.1]
          rcases hw' with e | e <;> simp [e]
        simp only [binOk, hi, np, hsh, hu, this, hs, Bool.false_eq_true, if_false]
        simp [isInt, is_pointer_type, int_type, scalar]
      have hb := bin_sem hw hok (by simp) (by simp) hv' hf f1
      refine ⟨_, hb, emod_low hsz.2 r, fun _ => ?_⟩
      have hch : ∃ q, chk C t' q = some r := by
        have e := hv'
        unfold binV at e
        rw [if_pos (by rw [hi]; rfl), hsh, hu] at e
        cases dec <;> simp [incop, Bop.isCmp, arith] at e
        · exact ⟨_, e⟩
        · exact ⟨_, e⟩
      obtain ⟨q, hq⟩ := hch
      have hcr : conv C t r = r := by
        have h1 := chk_fits (by have := htt.2.1; omega) hq
        have : ∀ x, conv C t x = conv C t' x := by intro x; simp only [conv, htt.1, htt.2.1]
        rw [this, h1]
      rw [hcr]
    · obtain ⟨z, hz, hz2⟩ := bin_low hw hlo hv' (x := sgn C.w v) (y := sgn C.w 1) (emod_low hsz.2 v) (by
        rw [hsh]; simp only [Bool.false_eq_true, if_false]; exact emod_low hsz.2 1)
      exact ⟨z, hz, hz2, fun h => absurd h hwide⟩

theorem len4 (pc : Nat) (a b c d : List Asm) : pc + (a ++ b ++ c ++ d).length = pc + a.length + b.length + c.length + d.length := by
  simp; omega

theorem rv_incdec (H : Hyp C base P Γ ρ F G cf) (post dec : Bool) (e : E) (ih : LV C base P Γ ρ F G cf e) :
    RV C base P Γ ρ F G cf (.incdec post dec e) := by
  intro md fs l c fs' l' sp M v' M' pc s hc hs hm he hsp hat hR hM
  simp only [codegen_rvalue, Res.bind_eq_ok] at hc
  obtain ⟨⟨ca, f1, l1, k⟩, h1, pa, hpa, ld, hld, ⟨co, l3⟩, h3, st, hst, hc⟩ := hc
  simp only [evalE, Option.ite_none_right_eq_some, Option.bind_eq_some_iff, Option.some.injEq, Prod.mk.injEq] at he
  obtain ⟨hr, t, ht, ⟨p, M1⟩, ea, va, hva, r, hbv, M3, hst3, rfl, rfl⟩ := he
  unfold Room at hr
  simp only [Sup, Bool.and_eq_true, vt_of hpa, ht, beq_iff_eq] at hs
  obtain ⟨sa, ⟨rfl, hel⟩, hmo⟩ := hs
  have hsc := storeT_scalar hst3
  have hsz := sizeof_le H.hw C.T hsc
  have h0 := hM.lim
  have htop := hM.top
  have fa := loadT_fits H.hw hva
  obtain ⟨z, hb, hz1, hz2⟩ := incdec_run H.hw hsc fa hel hbv
  have hat1 : At P pc ca := by
    split at hc <;> simp only [Res.ok.injEq, Prod.mk.injEq] at hc <;> obtain ⟨rfl, -, -⟩ := hc <;> exact hat.left.left.left
  obtain ⟨⟨t', ht', hk⟩, s1, st1, o1⟩ := ih _ _ _ _ _ _ _ _ _ _ _ _ h1 sa ea hsp hat1 hR hM
  rw [ht] at ht'; cases ht'
  subst hk
  have hM1 := hM.same o1.dom
  have hst4 : z % (2 ^ (8 * sizeof C.w C.T pa) : Nat) = conv C pa r % (2 ^ (8 * sizeof C.w C.T pa) : Nat) := by
    rw [hz1, conv_emod C pa r (Nat.le_refl _)]
  cases post with
  | false =>
    simp only [Bool.false_eq_true, if_false, Res.ok.injEq, Prod.mk.injEq] at hc
    obtain ⟨rfl, -, -⟩ := hc
    obtain ⟨s2, q1, q2, q3, q4, q5⟩ := load_head H hr hM o1 hld hva
    obtain ⟨s3, c1, c2, c3⟩ := sl_const H.hw q2 hM1 (by omega) (by omega) 1
    have st2 := go_run (base := base) (es := ([.pop_reg 1, .push_reg 1] ++ ld ++ [.push_reg 0]) ++ [.mov_reg_imm 0 1, .push_reg 0])
      (by have := hat.left.left.right; simpa using this) (run_append_some q1 c1.run)
    have k1 : word C.w s3.mem (sp - C.w) = sgn C.w p := by rw [word_keep c3 (by omega) (by omega) (by omega), q4]
    have k2 : word C.w s3.mem (sp - C.w - C.w) = sgn C.w va := by
      rw [word_keep c3 (by omega) (by omega) (by omega), ← q5]; congr 1; omega
    have hR3 : Rel C G (sp - C.w - 2 * C.w) M1 s3 := by
      have := c1.rel
      rwa [show sp - 2 * (C.w : Int) - C.w = sp - C.w - 2 * C.w by omega] at this
    have k3 : word C.w s3.mem (sp - C.w - 2 * C.w) = sgn C.w 1 := by
      rwa [show sp - 2 * (C.w : Int) - C.w = sp - C.w - 2 * C.w by omega] at c2
    have hat2 : At P (pc + ca.length + ([Emit.pop_reg 1, .push_reg 1] ++ ld ++ [Emit.push_reg 0] ++ [Emit.mov_reg_imm 0 1, .push_reg 0]).length) co := by
      have := hat.left.right
      rw [List.length_append, I_length, ← Nat.add_assoc] at this
      simpa using this
    obtain ⟨s4, st4, r4, c4, t4⟩ := binop_steps (base := base) H.hw h3 hb hat2 hR3 (hM1.mono (by omega)) (by omega) k2 k3
    rw [show sp - (C.w : Int) - C.w = sp - 2 * C.w by omega] at r4 t4
    have k4 : word C.w s4.mem (sp - C.w) = sgn C.w p := by
      rw [c4.word h0 (Int.le_refl _) (by omega) (by omega), k1]
    obtain ⟨s5, r5, o5⟩ := store_tail H r4 hM1 (by omega) t4 k4 hst hst3 hst4
    have out : Outside C M sp s s4 :=
      o1.out.trans o1.dom ((q3.trans c1.scr (Int.le_refl _) (Int.le_refl _)).trans c4 (Int.le_refl _) (by omega)).out (Int.le_refl _) (Int.le_refl _)
    refine ⟨s5, z, ?_, OutV.trans out o1.dom o5, ?_⟩
    · have st5 := go_run (base := base) hat.right r5
      simp only [List.length_append, I_length, List.length_cons, List.length_nil, ← Nat.add_assoc, Nat.add_zero, Nat.zero_add] at st1 st2 st4 st5 ⊢
      exact ((st1.trans st2).trans st4).trans st5
    · simp only [Bool.or_false, Bool.or_eq_true, Bool.false_eq_true, if_false] at hmo ⊢
      rcases hmo with hle | hwd
      · exact topOk_le hle hst4
      · rw [hz2 hwd]
        exact topOk_fits H.hw (conv_fits H.hw hsc r) hm
  | true =>
    simp only [if_true, Res.ok.injEq, Prod.mk.injEq] at hc
    obtain ⟨rfl, -, -⟩ := hc
    obtain ⟨s2, p1, p2, p3, p4⟩ := sl_pop o1.rel sp (r := 1) (by decide) (by decide)
    have p1r := p1.rel
    rw [show sp - (C.w : Int) + C.w = sp by omega] at p1 p1r
    rw [o1.top] at p2
    have a1 := sl_load H.hw p1r hM1 (d := 0) (b := 1) (by decide) (by decide) hld hva p2 (top := sp)
    obtain ⟨s3, b1, b2, b3, b4⟩ := sl_push H.hw a1.rel hM1 (Int.le_refl _) (by omega) 0
    obtain ⟨s4, d1, d2, d3, d4⟩ := sl_push H.hw b1.rel hM1 (by omega) (by omega) 1
    obtain ⟨s5, e1, e2, e3, e4⟩ := sl_push H.hw d1.rel hM1 (by omega) (by omega) 0
    obtain ⟨s6, f1, f2, f3⟩ := sl_const H.hw e1.rel hM1 (by omega) (by omega) 1
    have sl := (((((p1.trans a1).trans b1).trans d1).trans e1).trans f1)
    have w1 : word C.w s6.mem (sp - C.w) = sgn C.w va := by
      rw [word_keep f3 (by omega) (by omega) (by omega), word_keep e4 (by omega) (by omega) (by omega),
        word_keep d4 (by omega) (by omega) (by omega), b3]
      simp [setReg]
    have w2 : word C.w s6.mem (sp - C.w - C.w) = sgn C.w p := by
      rw [word_keep f3 (by omega) (by omega) (by omega), word_keep e4 (by omega) (by omega) (by omega), d3, b2 1 (by decide)]
      simp [setReg, p2]
    have w3 : word C.w s6.mem (sp - C.w - C.w - C.w) = sgn C.w va := by
      rw [word_keep f3 (by omega) (by omega) (by omega), e3, d2 0 (by decide), b2 0 (by decide)]
      simp [setReg]
    have st2 := go_run (base := base) (pc := pc + ca.length) (es := [.pop_reg 1] ++ ld ++ [.push_reg 0] ++ [.push_reg 1] ++ [.push_reg 0] ++ [.mov_reg_imm 0 1, .push_reg 0])
      (by have := hat.left.left.right; simpa using this) sl.run
    have hR3 : Rel C G (sp - 2 * C.w - 2 * C.w) M1 s6 := by
      have := f1.rel
      rwa [show sp - (C.w : Int) - C.w - C.w - C.w = sp - 2 * C.w - 2 * C.w by omega] at this
    have k2 : word C.w s6.mem (sp - 2 * C.w - C.w) = sgn C.w va := by
      rw [← w3]; congr 1; omega
    have k3 : word C.w s6.mem (sp - 2 * C.w - 2 * C.w) = sgn C.w 1 := by
      rw [← f2]; congr 1; omega
    have hat2 : At P (pc + ca.length + ([Emit.pop_reg 1] ++ ld ++ [Emit.push_reg 0] ++ [Emit.push_reg 1] ++ [Emit.push_reg 0] ++ [Emit.mov_reg_imm 0 1, .push_reg 0]).length) co := by
      have := hat.left.right
      rw [List.length_append, I_length, ← Nat.add_assoc] at this
      simpa using this
    obtain ⟨s7, st4, r4, c4, t4⟩ := binop_steps (base := base) H.hw h3 hb hat2 hR3 (hM1.mono (by omega)) (by omega) k2 k3
    have k4 : word C.w s7.mem (sp - C.w - C.w) = sgn C.w p := by
      rw [c4.word h0 (by omega) (by omega) (by omega), w2]
    have k5 : word C.w s7.mem (sp - C.w) = sgn C.w va := by
      rw [c4.word h0 (by omega) (by omega) (by omega), w1]
    have hR7 : Rel C G (sp - C.w - 2 * C.w) M1 s7 := by
      rwa [show sp - 2 * (C.w : Int) - C.w = sp - C.w - 2 * C.w by omega] at r4
    have t4' : word C.w s7.mem (sp - C.w - 2 * C.w) = z := by
      rwa [show sp - 2 * (C.w : Int) - C.w = sp - C.w - 2 * C.w by omega] at t4
    obtain ⟨s8, r8, r9, r10, _, r11⟩ := store_pop hR7 (hM1.mono (by omega)) t4' k4 hst hst3 hst4
    have k6 : word C.w s8.mem (sp - C.w) = sgn C.w va := by
      rw [r10.word hM1 (Int.le_refl _) (by omega) (by omega), k5]
    refine ⟨s8, sgn C.w va, ?_, ⟨r9, ?_, k6, o1.dom.trans (storeT_dom hst3)⟩, ?_⟩
    · have st5 := go_run (base := base) hat.right r8
      simp only [List.length_append, I_length, List.length_cons, List.length_nil, ← Nat.add_assoc, Nat.add_zero, Nat.zero_add] at st1 st2 st4 st5 ⊢
      exact ((st1.trans st2).trans st4).trans st5
    · exact (o1.out.trans o1.dom (sl.scr.trans c4 (Int.le_refl _) (by omega)).out (Int.le_refl _) (Int.le_refl _)).trans o1.dom r10
        (Int.le_refl _) (by omega)
    · simp only [if_true]
      exact topOk_fits H.hw fa hm

/-! Casts. -/

theorem rd_low (w : Nat) (m : Int → Nat) : ∀ (k j : Nat) (a : Int), rd w m a (k + j) % 2 ^ (8 * k) = rd w m a k := by
  intro k
  induction k with
  | zero => intro j a; simp [rd, Nat.mod_one]
  | succ k ih =>
    intro j a
    rw [show k + 1 + j = (k + j) + 1 by omega]
    simp only [rd]
    have h := ih j (a + 1)
    rw [show 8 * (k + 1) = 8 + 8 * k by omega, Nat.pow_add]
    show (_ + 256 * _) % (256 * _) = _
    rw [Nat.mod_mul, Nat.add_mul_mod_self_left, Nat.mod_mod, Nat.add_mul_div_left _ _ (by decide), Nat.div_eq_of_lt (Nat.mod_lt _ (by decide)), Nat.zero_add, h]

theorem word_low {C : Ctx} {m : Int → Nat} {a z : Int} (h : word C.w m a = z) {k : Nat} (hk : k ≤ C.w) :
    (rd C.w m a k : Int) = z % (2 ^ (8 * k) : Nat) := by
  obtain ⟨j, hj⟩ := Nat.exists_eq_add_of_le hk
  have e1 := rd_low C.w m k j a
  rw [← hj] at e1
  have e2 : z % (2 ^ (8 * C.w) : Nat) = (rd C.w m a C.w : Int) := by
    have h1 := rd_lt C.w m C.w a
    rw [← h]
    have := uns_sgn C.w (rd C.w m a C.w : Int)
    unfold uns at this
    unfold word
    rw [this]
    exact Int.emod_eq_of_lt (by omega) (by exact_mod_cast h1)
  have hd := ptwo_dvd (show 8 * k ≤ 8 * C.w by omega)
  rw [← Int.emod_emod_of_dvd z hd, e2, ← e1]
  push_cast; rfl

theorem rv_cast (H : Hyp C base P Γ ρ F G cf) (t : CTy) (e : E) (ih : RV C base P Γ ρ F G cf e) : RV C base P Γ ρ F G cf (.cast t e) := by
  intro md fs l c fs' l' sp M v' M' pc s hc hs hm he hsp hat hR hM
  simp only [codegen_rvalue, Res.bind_eq_ok, Res.ok.injEq, Prod.mk.injEq] at hc
  obtain ⟨⟨c1, f1, l1⟩, h1, pt, hp, k, hk, ke, hke, tr, htr, rfl, -, -⟩ := hc
  simp only [evalE, Option.ite_none_right_eq_some, Option.bind_eq_some_iff, Option.some.injEq, Prod.mk.injEq] at he
  obtain ⟨⟨hr, hsc⟩, ⟨v, M1⟩, he, rfl, rfl⟩ := he
  unfold Room at hr
  have hkt := hk
  rw [type_width_scalar C.T hsc] at hk; cases hk
  have hsz := sizeof_le H.hw C.T hsc
  simp only [Sup, vt_of hp, hkt, hke] at hs
  cases hte : ctype C ρ.kind e with
  | none => rw [hte] at hs; cases hs
  | some te =>
  rw [hte] at hs
  simp only [hke] at hs
  split at hs
  · rename_i hlt
    rw [if_pos hlt] at htr
    simp only [Res.bind_eq_ok, Res.ok.injEq] at htr
    obtain ⟨ld, hld, rfl⟩ := htr
    obtain ⟨s1, z, st1, o1, t1⟩ := ih _ _ _ _ _ _ _ _ _ _ _ _ h1 hs hsz.2 he hsp hat.left hR hM
    have hM1 := hM.same o1.dom
    have lr := load_run H.hw hld s1
    have ev : sgn C.w (objVal C.w s1.mem (s1.reg 4 + 0) (sizeof C.w C.T t) (is_signed_numeric_type t)) = sgn C.w (conv C t v) := by
      have h3 : rd C.w s1.mem (s1.reg 4 + 0) (sizeof C.w C.T t) = (v % (2 ^ (8 * sizeof C.w C.T t) : Nat)).toNat := by
        rw [Int.add_zero, rd_addr C.w s1.mem _ (s1.reg 4) (sp - C.w) (by rw [o1.rel.sp, uns_sgn])]
        have := word_low o1.top hsz.2
        have t1' : z % (2 ^ (8 * sizeof C.w C.T t) : Nat) = v % (2 ^ (8 * sizeof C.w C.T t) : Nat) := t1
        rw [t1'] at this
        omega
      have h4 : ((v % (2 ^ (8 * sizeof C.w C.T t) : Nat)).toNat : Int) = v % (2 ^ (8 * sizeof C.w C.T t) : Nat) :=
        Int.toNat_of_nonneg (Int.emod_nonneg _ (by have := ptwo_pos (8 * sizeof C.w C.T t); omega))
      have h5 := load_val H.hw hsc (C := C) (t := t) (v % (2 ^ (8 * sizeof C.w C.T t) : Nat)).toNat
      have h6 : conv C t ((v % (2 ^ (8 * sizeof C.w C.T t) : Nat)).toNat : Int) = conv C t v := by
        rw [h4]; unfold conv; split
        · rw [Int.emod_bmod]
        · rw [Int.emod_emod]
      rw [h6] at h5
      rw [← h5, objVal, h3]
      split
      · rfl
      · rw [h4, Int.emod_emod]
    rw [ev] at lr
    have a1 : SL C G M1 sp s1 ld (sp - C.w) (setReg s1 0 (sgn C.w (conv C t v))) :=
      ⟨lr, reg_sim o1.rel (by decide) (by decide) (sgn_sgn _ _), Scr.refl _ _ _⟩
    have a2 := sl_grow a1.rel sp (-(-1) * C.w)
    have a2r := a2.rel
    rw [show sp - (C.w : Int) + -(-1) * C.w = sp by omega] at a2 a2r
    obtain ⟨s4, b1, b2, b3, b4⟩ := sl_push H.hw a2r hM1 (Int.le_refl _) (by omega) 0
    have sl := (a1.trans a2).trans b1
    refine ⟨s4, _, ?_, o1.sl sl (by rw [b3]), ?_⟩
    · rw [List.length_append, ← Nat.add_assoc]
      have hat2 := hat.right
      have ei : I ld ++ grow_stack C.w (-1) ++ I [.push_reg 0] = I (ld ++ [.add_reg_imm 4 (-(-1) * C.w)] ++ [.push_reg 0]) := by
        simp [I, grow_stack]
      rw [ei] at hat2 ⊢
      rw [I_length]
      exact st1.trans (go_run hat2 sl.run)
    · simp only [setReg]
      exact topOk_fits H.hw (conv_fits H.hw hsc v) hm
  · rename_i hlt
    rw [if_neg hlt] at htr
    simp only [Res.ok.injEq] at htr
    subst htr
    rw [List.append_nil] at hat ⊢
    split at hs
    · rename_i hle
      obtain ⟨s1, z, st1, o1, t1⟩ := ih _ _ _ _ _ _ _ _ _ _ _ _ h1 hs hm he hsp hat hR hM
      refine ⟨s1, z, st1, o1, ?_⟩
      cases md with
      | test => simp [Md.le] at hle
      | low n =>
        simp only [Md.le, decide_eq_true_eq] at hle
        show _ = _
        rw [conv_emod C t v hle]
        exact t1
    · simp only [Bool.and_eq_true] at hs
      obtain ⟨s1, z, st1, o1, t1⟩ := ih _ _ _ _ _ _ _ _ _ _ _ _ h1 hs.1 (Nat.le_refl _) he hsp hat hR hM
      refine ⟨s1, z, st1, o1, ?_⟩
      obtain ⟨te', e1, fe⟩ := val_fits H (low_w H) hs.1 he
      rw [hte] at e1; cases e1
      rw [topOk_full o1.sgn t1, ← convOk_val H.hw hs.2 fe.1 fe.2]
      exact topOk_fits H.hw (conv_fits H.hw hsc v) hm

end
end Verif.Cg
