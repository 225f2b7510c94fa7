import Verif.Cg.BinSem
namespace Verif.Cg
open Verif Verif.Gen Verif.Gen.Spec Verif.X86 Verif.X86.Spec Spec

theorem sgn_half {w : Nat} (hw : w = 4 ∨ w = 8) {a : Int} (h0 : 0 ≤ a) (h : a < (2 ^ (8 * w) : Nat)) :
    sgn w a = if a < (2 ^ (8 * w - 1) : Nat) then a else a - (2 ^ (8 * w) : Nat) := by
  split
  · rename_i h1; exact sgn_id hw (by have := ptwo_pos (8 * w - 1); omega) h1
  · rename_i h1
    have : sgn w a = sgn w (a - (2 ^ (8 * w) : Nat)) := by
      rw [sgn_eq_iff, Int.sub_emod_right]
    rw [this]
    have e : ((2 ^ (8 * w) : Nat) : Int) = 2 * (2 ^ (8 * w - 1) : Nat) := by
      rcases hw with rfl | rfl <;> decide
    exact sgn_id hw (by omega) (by omega)

theorem pcmp_run {w : Nat} (hw : w = 4 ∨ w = 8) {T : Tags} {op : Bop} {pa pb : CTy} {a b : Int}
    (hop : op = .lt ∨ op = .gt ∨ op = .le ∨ op = .ge) (hs : both_signed pa pb = true)
    (ha : 0 ≤ a ∧ a < (2 ^ (8 * w) : Nat)) (hb : 0 ≤ b ∧ b < (2 ^ (8 * w) : Nat))
    (hh : (a < (2 ^ (8 * w - 1) : Nat)) = (b < (2 ^ (8 * w - 1) : Nat))) :
    BinRun w T op pa pb (sgn w a) (sgn w b) (b2i (cmpz op a b)) := by
  refine ⟨sgn_b2i hw _, ?_⟩
  have e : ∀ x y : Int, x - y = sgn w a - sgn w b → True := fun _ _ _ => trivial
  have key : sgn w a - sgn w b = a - b := by
    rw [sgn_half hw ha.1 ha.2, sgn_half hw hb.1 hb.2]
    simp only [hh]
    split <;> omega
  rw [hs]
  rcases hop with rfl | rfl | rfl | rfl <;> simp only [cmp_cond, if_true] <;>
    refine ⟨_, rfl, ?_⟩ <;> simp only [cmpz] <;> congr 1 <;> rw [decide_eq_decide] <;> omega

theorem peq_run {C : Ctx} (hw : C.w = 4 ∨ C.w = 8) {op : Bop} {pa pb : CTy} {a b : Int} (hop : op = .eq ∨ op = .ne) :
    BinRun C.w C.T op pa pb (sgn C.w a) (sgn C.w b)
      (b2i (cmpz op (a % (2 ^ (8 * C.w) : Nat)) (b % (2 ^ (8 * C.w) : Nat)))) := by
  refine ⟨sgn_b2i hw _, ?_⟩
  have hm : ∀ x : Int, InTy C.w false (x % (2 ^ (8 * C.w) : Nat)) := fun x => by
    rw [inTy_unsigned]
    exact ⟨Int.emod_nonneg _ (by have := ptwo_pos (8 * C.w); omega), Int.emod_lt_of_pos _ (ptwo_pos _)⟩
  have hs : ∀ x : Int, sgn C.w (x % (2 ^ (8 * C.w) : Nat)) = sgn C.w x := fun x => by rw [sgn_eq_iff, Int.emod_emod]
  obtain ⟨cc, h1, h2⟩ := cmp_full (C := C) hw (op := op) (by rcases hop with rfl | rfl <;> rfl) (k := C.w) (by omega) (Nat.le_refl _)
    (hm a) (hm b) (ps := both_signed pa pb) (.inr (.inl ⟨rfl, rfl, .inl (by rcases hop with rfl | rfl <;> rfl)⟩))
  rw [hs, hs] at h2
  rw [h1]
  exact ⟨_, h2, rfl⟩

theorem chkP_sgn {C : Ctx} {r v : Int} (h : chkP C r = some v) : v = r := (chkP_range h).1

/-- `a op b` when the operands are held in full words. -/
theorem bin_sem {C : Ctx} (hw : C.w = 4 ∨ C.w = 8) {op : Bop} {ta tb pa pb : CTy} {na nb : Bool} {a b v : Int}
    (hok : binOk C op ta tb pa pb na nb = true) (hna : na = true → 0 ≤ a) (hnb : nb = true → 0 ≤ b)
    (hv : binV C op ta tb a b = some v) (ha : Fits C ta a) (hb : Fits C tb b) :
    BinRun C.w C.T op pa pb (sgn C.w a) (sgn C.w b) (sgn C.w v) := by
  unfold binOk at hok
  unfold binV at hv
  split at hok
  · rename_i hi
    rw [if_pos hi] at hv
    simp only [Bool.and_eq_true, Bool.not_eq_true'] at hok hi
    obtain ⟨⟨⟨⟨q1, q2⟩, q3⟩, q4⟩, hok⟩ := hok
    by_cases hc : op.isCmp = true
    · rw [if_pos hc] at hv
      have hns : isShift op = false := by cases op <;> simp_all [isShift, Bop.isCmp]
      simp only [hns, Bool.false_eq_true, if_false] at hok
      simp only [Option.bind_eq_some_iff, Option.some.injEq] at hv
      obtain ⟨t, hu, rfl⟩ := hv
      rw [hu] at hok
      have hs := (usual_ty hu ha.1 hb.1).1
      have hz := sizeof_le hw C.T hs
      obtain ⟨w1, w2, n1, n2⟩ := usual_word hw hu hok hna hnb ha hb
      obtain ⟨cc, h1, h2⟩ := cmp_full (C := C) hw hc hz.1 hz.2 (conv_range C t hz.1 a) (conv_range C t hz.1 b)
        (ps := both_signed pa pb) (by
          rcases arithOk_cmp hok n1 n2 with h | h | ⟨h1, h2, _⟩
          · exact .inl h
          · exact .inr (.inl h)
          · exact .inr (.inr ⟨h1, h2⟩))
      rw [w1, w2] at h2
      refine ⟨sgn_sgn _ _, ?_⟩
      rw [h1]
      exact ⟨_, h2, sgn_b2i hw _⟩
    · have hc' : op.isCmp = false := by simpa using hc
      rw [if_neg hc] at hv
      by_cases hsh : isShift op = true
      · rw [if_pos hsh] at hv
        simp only [Option.bind_eq_some_iff] at hv
        obtain ⟨t, hp, hv⟩ := hv
        simp only [hsh, if_true, hp] at hok
        have hf := promote_fits hw hp ha
        have hz := sizeof_le hw C.T hf.1
        exact run_of_wordOp hw hc' q1 q2 (arith_full hw hz.1 hz.2 (hf.inTy hw) (.inl hsh) hok hna hnb hv) (sgn_sgn _ _)
      · rw [if_neg hsh] at hv
        simp only [Option.bind_eq_some_iff] at hv
        obtain ⟨t, hu, hv⟩ := hv
        rw [if_neg hsh] at hok
        simp only [hu] at hok
        have hs := (usual_ty hu ha.1 hb.1).1
        have hz := sizeof_le hw C.T hs
        obtain ⟨w1, w2, n1, n2⟩ := usual_word hw hu hok hna hnb ha hb
        have := arith_full hw hz.1 hz.2 (conv_range C t hz.1 a) (.inr (conv_range C t hz.1 b)) hok n1 n2 hv
        rw [w1, w2] at this
        exact run_of_wordOp hw hc' q1 q2 this (sgn_sgn _ _)
  · rename_i hi
    rw [if_neg hi] at hv
    split at hok
    · rename_i t tb'
      simp only [Bool.and_eq_true, Bool.not_eq_true', beq_iff_eq] at hok
      simp only [Option.ite_none_right_eq_some] at hv
      rw [chkP_sgn hv.2]
      exact padd_run hw (ptrTo_of hok.1.1.1) (elem_of hok.1.2) hok.1.1.2 rfl rfl
    · simp only [Bool.and_eq_true, Bool.not_eq_true', beq_iff_eq] at hok
      simp only [Option.ite_none_right_eq_some] at hv
      · rw [chkP_sgn hv.2]
        exact paddc_run hw (ptrTo_of hok.1.1.1) (elem_of hok.1.2) hok.1.1.2 rfl rfl
    · rename_i t t'
      simp only [Bool.and_eq_true, beq_iff_eq] at hok
      simp only [Option.ite_none_right_eq_some, Option.some.injEq] at hv
      obtain ⟨⟨rfl, h0, h1, h2⟩, rfl⟩ := hv
      have := pdiff_run hw (ptrTo_of hok.1.1.1) hok.1.1.2 (elem_of hok.1.2) (a := a) (b := b) rfl rfl hok.2 h2
      have e := this.1
      rw [← e] at this
      exact this
    · simp only [Bool.and_eq_true, Bool.not_eq_true', beq_iff_eq] at hok
      simp only [Option.ite_none_right_eq_some] at hv
      · rw [chkP_sgn hv.2]
        exact psub_run hw (ptrTo_of hok.1.1.1) (elem_of hok.1.2) hok.1.1.2 rfl rfl
    · simp only [Option.ite_none_right_eq_some, Option.some.injEq] at hv
      rw [← hv.2, sgn_b2i hw]; exact peq_run hw (.inl rfl)
    · simp only [Option.ite_none_right_eq_some, Option.some.injEq] at hv
      rw [← hv.2, sgn_b2i hw]; exact peq_run hw (.inr rfl)
    · simp only [Option.ite_none_right_eq_some, Option.some.injEq] at hv
      rw [← hv.2, sgn_b2i hw]
      exact pcmp_run hw (by simp) hok ((fits_ptr hw).1 ha) ((fits_ptr hw).1 hb) hv.1
    · simp only [Option.ite_none_right_eq_some, Option.some.injEq] at hv
      rw [← hv.2, sgn_b2i hw]
      exact pcmp_run hw (by simp) hok ((fits_ptr hw).1 ha) ((fits_ptr hw).1 hb) hv.1
    · simp only [Option.ite_none_right_eq_some, Option.some.injEq] at hv
      rw [← hv.2, sgn_b2i hw]
      exact pcmp_run hw (by simp) hok ((fits_ptr hw).1 ha) ((fits_ptr hw).1 hb) hv.1
    · simp only [Option.ite_none_right_eq_some, Option.some.injEq] at hv
      rw [← hv.2, sgn_b2i hw]
      exact pcmp_run hw (by simp) hok ((fits_ptr hw).1 ha) ((fits_ptr hw).1 hb) hv.1
    · cases hok

/-- `a op b` modulo `2^(8n)`. -/
theorem bin_low {C : Ctx} (hw : C.w = 4 ∨ C.w = 8) {op : Bop} {ta tb pa pb : CTy} {n : Nat} {a b v x y : Int}
    (hok : lowOk C op ta tb pa pb n = true) (hv : binV C op ta tb a b = some v)
    (hx : x % (2 ^ (8 * n) : Nat) = a % (2 ^ (8 * n) : Nat))
    (hy : if isShift op = true then y = sgn C.w b else y % (2 ^ (8 * n) : Nat) = b % (2 ^ (8 * n) : Nat)) :
    ∃ z, BinRun C.w C.T op pa pb x y z ∧ z % (2 ^ (8 * n) : Nat) = v % (2 ^ (8 * n) : Nat) := by
  simp only [lowOk, Bool.and_eq_true, Bool.not_eq_true'] at hok
  obtain ⟨⟨⟨⟨⟨⟨⟨i1, i2⟩, s1⟩, s2⟩, p1⟩, p2⟩, hl⟩, hok⟩ := hok
  have hc : op.isCmp = false := by cases op <;> simp_all [lowOp, Bop.isCmp]
  unfold binV at hv
  rw [if_pos (by simp [i1, i2]), if_neg (by simp [hc])] at hv
  have fin : ∀ z, wordOp C.w op (both_signed pa pb) x y = some z → sgn C.w z = z := by
    intro z hz
    cases op <;> simp [lowOp] at hl <;> simp only [wordOp, Option.some.injEq] at hz <;> rw [← hz]
    case add => rw [sgn_sgn]
    case sub => rw [sgn_sgn]
    case mul => rw [sgn_sgn]
    case shl => rw [sgn_sgn]
    all_goals rw [sgn_bits]
  by_cases hsh : isShift op = true
  · rw [if_pos hsh] at hv hy
    simp only [Option.bind_eq_some_iff] at hv
    obtain ⟨t, hp, hv⟩ := hv
    simp only [hsh, if_true, hp, decide_eq_true_eq] at hok
    have hz := sizeof_le hw C.T (promote_ty hp s1)
    obtain ⟨z, h1, h2⟩ := arith_low (y := y) hw hok hz.2 hl hx (by rw [if_pos hsh]; exact hy) hv (both_signed pa pb)
    exact ⟨z, run_of_wordOp hw hc p1 p2 h1 (fin z h1), h2⟩
  · rw [if_neg hsh] at hv hy
    simp only [Option.bind_eq_some_iff] at hv
    obtain ⟨t, hu, hv⟩ := hv
    rw [if_neg hsh] at hok
    simp only [hu, decide_eq_true_eq] at hok
    have hz := sizeof_le hw C.T (usual_ty hu s1 s2).1
    obtain ⟨z, h1, h2⟩ := arith_low (y := y) hw hok hz.2 hl (hx.trans (conv_emod C t a hok).symm)
      (by rw [if_neg hsh]; exact hy.trans (conv_emod C t b hok).symm) hv (both_signed pa pb)
    exact ⟨z, run_of_wordOp hw hc p1 p2 h1 (fin z h1), h2⟩

end Verif.Cg
