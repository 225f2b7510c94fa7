import Verif.Cg.EvalTy
/-! Binary operators: what the code of `codegen_binop` computes represents the result in C. -/
namespace Verif.Cg
open Verif Verif.Gen Verif.Gen.Spec Verif.X86 Verif.X86.Spec Spec

/-- The code of `op` turns the words `x`, `y` into the word `z`. -/
def BinRun (w : Nat) (T : Tags) (op : Bop) (pa pb : CTy) (x y z : Int) : Prop :=
  sgn w z = z ∧
  match cmp_cond (both_signed pa pb) op with
  | some cc => ∃ b, X86.Spec.cond w cc x y = some b ∧ z = b2i b
  | none => ∀ es, binop_core w T op pa pb = .ok es → ∀ s, Wf w s → s.reg 0 = x → s.reg 1 = y →
      ∃ s2, run w s es = some s2 ∧ s2.reg 0 = z ∧ Eff w s s2 [0, 1, 2] (s.reg 4 - w) w

theorem cmp_cond_none {ps : Bool} {op : Bop} (h : op.isCmp = false) : cmp_cond ps op = none := by
  cases op <;> simp [Bop.isCmp] at h <;> rfl

theorem sgn_b2i {w : Nat} (hw : w = 4 ∨ w = 8) (b : Bool) : sgn w (b2i b) = b2i b := by
  cases b <;> rcases hw with rfl | rfl <;> decide

/-- A nonnegative value of an operand is a value of the common type. -/
theorem usual_nonneg {C : Ctx} (hw : C.w = 4 ∨ C.w = 8) {a b t : CTy} (h : usual C.w a b = some t)
    {v u : Int} (hv : Fits C a v) (hu : Fits C b u) : (0 ≤ v → conv C t v = v) ∧ (0 ≤ u → conv C t u = u) := by
  simp only [usual, Option.bind_eq_some_iff, Option.some.injEq] at h
  obtain ⟨a', p1, b', p2, rfl⟩ := h
  have f1 := promote_fits hw p1 hv
  have f2 := promote_fits hw p2 hu
  have hs := common_ty f1.1 f2.1
  have key : ∀ {c : CTy} {x : Int}, Fits C c x → 0 ≤ x → sizeof C.w C.T c ≤ sizeof C.w C.T (common a' b') →
      (isSigned (common a' b') = true → isSigned c = true ∨ sizeof C.w C.T c < sizeof C.w C.T (common a' b')) →
      conv C (common a' b') x = x := by
    intro c x hf h0 hle hsg
    have h1 := (sizeof_le hw C.T hf.1).1
    have hi := hf.inTy hw
    refine conv_id C (by omega) ?_
    cases e1 : isSigned (common a' b') <;> cases e2 : isSigned c <;> rw [e2] at hi
    · exact inTy_mono h1 hi (.inl ⟨rfl, hle⟩)
    · rw [inTy_unsigned]
      refine ⟨h0, ?_⟩
      simp only [InTy, if_true] at hi
      have := pow_le (show 8 * sizeof C.w C.T c - 1 ≤ 8 * sizeof C.w C.T (common a' b') by omega)
      omega
    · refine inTy_mono h1 hi (.inr ⟨rfl, rfl, ?_⟩)
      rcases hsg e1 with h | h
      · rw [e2] at h; cases h
      · exact h
    · exact inTy_mono h1 hi (.inl ⟨rfl, hle⟩)
  have q1 := (promote_int p1).1
  have q2 := (promote_int p2).1
  have r1 : (∃ u, a' = .int u) ∨ (∃ u, a' = .long u) := by
    cases a <;> simp [promote] at p1 <;> subst p1 <;> first | exact .inl ⟨_, rfl⟩ | exact .inr ⟨_, rfl⟩ | (split <;> first | exact .inl ⟨_, rfl⟩ | exact .inr ⟨_, rfl⟩)
  have r2 : (∃ u, b' = .int u) ∨ (∃ u, b' = .long u) := by
    cases b <;> simp [promote] at p2 <;> subst p2 <;> first | exact .inl ⟨_, rfl⟩ | exact .inr ⟨_, rfl⟩ | (split <;> first | exact .inl ⟨_, rfl⟩ | exact .inr ⟨_, rfl⟩)
  constructor
  · intro h0
    refine key f1 h0 ?_ ?_ <;>
      rcases r1 with ⟨u1, rfl⟩ | ⟨u1, rfl⟩ <;> rcases r2 with ⟨u2, rfl⟩ | ⟨u2, rfl⟩ <;> simp [common, sizeof, isSigned]
    all_goals (intros; simp_all)
  · intro h0
    refine key f2 h0 ?_ ?_ <;>
      rcases r1 with ⟨u1, rfl⟩ | ⟨u1, rfl⟩ <;> rcases r2 with ⟨u2, rfl⟩ | ⟨u2, rfl⟩ <;> simp [common, sizeof, isSigned]
    all_goals (intros; simp_all)

theorem arithOk_cmp {C : Ctx} {op : Bop} {t : CTy} {ps na nb : Bool} {a b : Int} (h : arithOk C op t ps na nb = true)
    (hna : na = true → 0 ≤ a) (hnb : nb = true → 0 ≤ b) :
    (isSigned t = true ∧ (insens op = true ∨ ps = true ∨ (0 ≤ a ∧ 0 ≤ b))) ∨
    (isSigned t = false ∧ sizeof C.w C.T t = C.w ∧ (insens op = true ∨ ps = false)) ∨
    (isSigned t = false ∧ sizeof C.w C.T t < C.w ∧ 0 ≤ a ∧ 0 ≤ b) := by
  simp only [arithOk, Bool.or_eq_true, Bool.and_eq_true, Bool.not_eq_true', decide_eq_true_eq] at h
  rcases h with (⟨h1, h2⟩ | ⟨⟨h1, h2⟩, h3⟩) | ⟨⟨⟨⟨h1, h2⟩, h3⟩, h4⟩, h5⟩
  · refine .inl ⟨h1, ?_⟩
    rcases h2 with (h2 | h2) | h2
    · exact .inl h2
    · exact .inr (.inl h2)
    · exact .inr (.inr ⟨hna h2.1, hnb h2.2⟩)
  · exact .inr (.inl ⟨h1, h2, h3⟩)
  · exact .inr (.inr ⟨h1, h2, hna h4, hnb h5⟩)

/-- The operands, converted to the common type, are held in the same words. -/
theorem usual_word {C : Ctx} (hw : C.w = 4 ∨ C.w = 8) {op : Bop} {ta tb t : CTy} {ps na nb : Bool} {a b : Int}
    (hu : usual C.w ta tb = some t) (h : arithOk C op t ps na nb = true)
    (hna : na = true → 0 ≤ a) (hnb : nb = true → 0 ≤ b) (ha : Fits C ta a) (hb : Fits C tb b) :
    sgn C.w (conv C t a) = sgn C.w a ∧ sgn C.w (conv C t b) = sgn C.w b ∧
    (na = true → 0 ≤ conv C t a) ∧ (nb = true → 0 ≤ conv C t b) := by
  have hn := usual_nonneg hw hu ha hb
  refine ⟨?_, ?_, fun e => by rw [hn.1 (hna e)]; exact hna e, fun e => by rw [hn.2 (hnb e)]; exact hnb e⟩
  · rcases arithOk_cmp h hna hnb with ⟨h1, _⟩ | ⟨_, h1, _⟩ | ⟨_, _, h1, h2⟩
    · rw [(usual_signed hw hu h1 ha hb).1]
    · exact sgn_conv C h1 a
    · rw [hn.1 h1]
  · rcases arithOk_cmp h hna hnb with ⟨h1, _⟩ | ⟨_, h1, _⟩ | ⟨_, _, h1, h2⟩
    · rw [(usual_signed hw hu h1 ha hb).2]
    · exact sgn_conv C h1 b
    · rw [hn.2 h2]

theorem isShift_not_cmp {op : Bop} (h : isShift op = true) : op.isCmp = false := by cases op <;> simp_all [isShift, Bop.isCmp]

theorem run_of_wordOp {w : Nat} (hw : w = 4 ∨ w = 8) {T : Tags} {op : Bop} {pa pb : CTy} {x y z : Int} (hop : op.isCmp = false)
    (hpa : is_pointer_type pa = false) (hpb : is_pointer_type pb = false)
    (hz : wordOp w op (both_signed pa pb) x y = some z) (hsz : sgn w z = z) : BinRun w T op pa pb x y z := by
  refine ⟨hsz, ?_⟩
  rw [cmp_cond_none hop]
  intro es he s hwf h0 h1
  subst h0; subst h1
  obtain ⟨s2, h2, h3, _, h5⟩ := core_run hw he hpa hpb hwf hz (s.reg 4 - w)
  exact ⟨s2, h2, h3, h5⟩

theorem elem_of {C : Ctx} {t : CTy} (h : elemOk C t = true) : Elem C.w C.T t := by
  simp only [elemOk, Bool.and_eq_true, decide_eq_true_eq] at h
  refine ⟨?_, ?_, h.1.2, h.2⟩
  · rintro n t' rfl; simp at h
  · rintro u rfl; simpa using h.1.1

theorem ptrTo_of {p t : CTy} (h : elemTy p = some t) : PtrTo p t := by
  cases p <;> simp [elemTy] at h
  · subst h; exact .inl rfl
  · subst h; exact .inr ⟨_, rfl⟩

theorem padd_run {w : Nat} (hw : w = 4 ∨ w = 8) {T : Tags} {p t nt : CTy} (hp : PtrTo p t) (ht : Elem w T t)
    (hnt : is_pointer_type nt = false) {a i x y : Int} (hx : x = sgn w a) (hy : y = sgn w i) :
    BinRun w T .add p nt x y (sgn w (a + i * sizeof w T t)) := by
  obtain ⟨h1, h2, h3⟩ := ref_width hp ht
  refine ⟨sgn_sgn w _, ?_⟩
  show ∀ es, _
  intro es he s hwf e0 e1
  simp only [binop_core, binop_add, h1, hnt, h3, Bool.not_false, Bool.and_self, if_true, Res.bind_ok, Res.ok.injEq] at he
  subst he
  obtain ⟨s2, r2, v2, f2⟩ := mul_run w hw 1 (sizeof w T t) (by decide) ht.2.2.1 s hwf
  refine ⟨_, run_append_some r2 (run_add w 0 1 _), ?_, eff_setReg0 f2 (by simp) (sgn_sgn w _)⟩
  simp only [setReg, if_true]
  rw [v2, f2.regs 0 (by decide), e0, e1, hx, hy, sgn_add_l, sgn_add_r, sgn_mul_l_aux]
where
  sgn_mul_l_aux {w : Nat} {a i k : Int} : sgn w (a + sgn w i * k) = sgn w (a + i * k) := by
    rw [← sgn_add_r, sgn_mul_l, sgn_add_r]

theorem paddc_run {w : Nat} (hw : w = 4 ∨ w = 8) {T : Tags} {p t nt : CTy} (hp : PtrTo p t) (ht : Elem w T t)
    (hnt : is_pointer_type nt = false) {a i x y : Int} (hx : x = sgn w i) (hy : y = sgn w a) :
    BinRun w T .add nt p x y (sgn w (a + i * sizeof w T t)) := by
  obtain ⟨h1, h2, h3⟩ := ref_width hp ht
  refine ⟨sgn_sgn w _, ?_⟩
  show ∀ es, _
  intro es he s hwf e0 e1
  simp only [binop_core, binop_add, h1, hnt, h3, Bool.not_false, Bool.not_true, Bool.and_self, Bool.and_false, Bool.false_eq_true, if_false, if_true, Res.bind_ok, Res.ok.injEq] at he
  subst he
  obtain ⟨s2, r2, v2, f2⟩ := mul_run w hw 0 (sizeof w T t) (by decide) ht.2.2.1 s hwf
  refine ⟨_, run_append_some r2 (run_add w 0 1 _), ?_, eff_setReg0 f2 (by simp) (sgn_sgn w _)⟩
  simp only [setReg, if_true]
  rw [v2, f2.regs 1 (by decide), e0, e1, hx, hy, sgn_add_l, sgn_add_r, Int.add_comm, padd_run.sgn_mul_l_aux]

theorem psub_run {w : Nat} (hw : w = 4 ∨ w = 8) {T : Tags} {p t nt : CTy} (hp : PtrTo p t) (ht : Elem w T t)
    (hnt : is_pointer_type nt = false) {a i x y : Int} (hx : x = sgn w a) (hy : y = sgn w i) :
    BinRun w T .sub p nt x y (sgn w (a - i * sizeof w T t)) := by
  obtain ⟨h1, h2, h3⟩ := ref_width hp ht
  refine ⟨sgn_sgn w _, ?_⟩
  show ∀ es, _
  intro es he s hwf e0 e1
  simp only [binop_core, binop_sub, h1, hnt, h3, Bool.and_false, Bool.false_eq_true, if_false, if_true, Res.bind_ok, Res.ok.injEq] at he
  subst he
  obtain ⟨s2, r2, v2, f2⟩ := mul_run w hw 1 (sizeof w T t) (by decide) ht.2.2.1 s hwf
  refine ⟨_, run_append_some r2 (run_sub w 0 1 _), ?_, eff_setReg0 f2 (by simp) (sgn_sgn w _)⟩
  simp only [setReg, if_true]
  rw [v2, f2.regs 0 (by decide), e0, e1, hx, hy, sgn_sub_l, sgn_sub_r, ← sgn_sub_r, sgn_mul_l, sgn_sub_r]

theorem pdiff_run {w : Nat} (hw : w = 4 ∨ w = 8) {T : Tags} {p q t : CTy} (hp : PtrTo p t)
    (hq : is_pointer_type q = true) (ht : Elem w T t) {a b x y : Int} (hx : x = sgn w a) (hy : y = sgn w b)
    (hpow : is_power_of_2 (sizeof w T t) = true) (hfit : sgn w (a - b) = a - b) :
    BinRun w T .sub p q x y ((a - b) / sizeof w T t) := by
  obtain ⟨h1, h2, h3⟩ := ref_width hp ht
  have hpos : (0:Int) < sizeof w T t := by have := ht.2.2.1; omega
  refine ⟨sgn_ediv hw hfit hpos, ?_⟩
  show ∀ es, _
  intro es he s hwf e0 e1
  simp only [binop_core, binop_sub, h1, hq, h3, Bool.and_self, if_true, Res.bind_ok, Res.ok.injEq] at he
  subst he
  have hd : sgn w (s.reg 0 - s.reg 1) = a - b := by
    rw [e0, e1, hx, hy, sgn_sub_l, sgn_sub_r, hfit]
  obtain ⟨s2, r2, v2, f2⟩ := div_run w hw (sizeof w T t) ht.2.2.1 ht.2.2.2
    (setReg s 0 (sgn w (s.reg 0 - s.reg 1))) (wf_setReg hwf 0 (sgn_sgn w _)) (.inl hpow)
  refine ⟨s2, ?_, ?_, ?_⟩
  · simp only [run, List.map_cons, Emit.intended, execs, exec1, if_true]
    exact r2
  · rw [v2]; simp only [setReg, if_true]; rw [hd]
  · refine ⟨f2.wf, ?_, ?_⟩
    · intro r hr
      simp only [List.mem_cons, List.not_mem_nil, or_false, not_or] at hr
      rw [f2.regs r (by simp [hr])]
      simp [setReg, hr]
    · intro x hx; exact f2.mem x hx

end Verif.Cg
