import Verif.Cg.Bits
import Verif.Cg.MemL
/-! The arithmetic operators: what the instructions compute, and that it represents the result in C. -/
namespace Verif.Cg
open Verif Verif.Gen Verif.Gen.Spec Verif.X86 Verif.X86.Spec Spec

/-- What the code of an arithmetic operator computes from two words. -/
def wordOp (w : Nat) (op : Bop) (sg : Bool) (x y : Int) : Option Int :=
  match op with
  | .add => some (sgn w (x + y))
  | .sub => some (sgn w (x - y))
  | .mul => some (sgn w (x * y))
  | .div => if sg then (if y = 0 then none else if sgn w (x.tdiv y) = x.tdiv y then some (x.tdiv y) else none)
      else if uns w y = 0 then none else some (sgn w (uns w x / uns w y))
  | .mod => if sg then (if y = 0 then none else if sgn w (x.tdiv y) = x.tdiv y then some (x.tmod y) else none)
      else if uns w y = 0 then none else some (sgn w (uns w x % uns w y))
  | .band => some (bits w (· &&& ·) x y)
  | .bor => some (bits w (· ||| ·) x y)
  | .bxor => some (bits w (· ^^^ ·) x y)
  | .shl => some (sgn w (x * 2 ^ (y % (8 * w : Nat)).toNat))
  | .shr => if sg then some (x / 2 ^ (y % (8 * w : Nat)).toNat)
      else some (sgn w (uns w x / 2 ^ (y % (8 * w : Nat)).toNat))
  | _ => none

theorem sgn_bits (w : Nat) (f : BitVec (8 * w) → BitVec (8 * w) → BitVec (8 * w)) (x y : Int) :
    sgn w (bits w f x y) = bits w f x y := by
  unfold sgn bits
  rw [BitVec.toInt_eq_toNat_bmod, Int.bmod_bmod]

theorem eff_set {w : Nat} {s : MS} (h : Wf w s) {r : Nat} (hr : r ∈ [0, 1, 2]) {v : Int} (hv : sgn w v = v) (a : Int) :
    Eff w s (setReg s r v) [0, 1, 2] a w :=
  ⟨wf_setReg h r hv, fun x hx => by
    have : x ≠ r := fun e => hx (e ▸ hr)
    simp [setReg, this], fun _ _ => rfl⟩

theorem _root_.Verif.Gen.Eff.trans {w : Nat} {s s' s'' : MS} {ch : List Nat} {a : Int} {k : Nat} (h : Eff w s s' ch a k)
    (h' : Eff w s' s'' ch a k) : Eff w s s'' ch a k :=
  ⟨h'.wf, fun r hr => (h'.regs r hr).trans (h.regs r hr), fun x hx => (h'.mem x hx).trans (h.mem x hx)⟩

theorem run_cons {w : Nat} {e : Emit} {es : List Emit} {s s1 : MS} (h : exec1 w s (e.intended w) = some s1) :
    run w s (e :: es) = run w s1 es := by
  simp only [run, List.map_cons, execs, h]

theorem tmod_le {a b : Int} (ha : 0 ≤ a) : a.tmod b ≤ a := by
  rw [Int.tmod_eq_emod_of_nonneg ha]
  have key : ∀ b : Int, 0 ≤ b → a % b ≤ a := by
    intro b hb
    rw [Int.emod_def]
    have := Int.mul_nonneg hb (Int.ediv_nonneg ha hb)
    omega
  rcases Int.le_total 0 b with hb | hb
  · exact key b hb
  · rw [← Int.emod_neg]; exact key (-b) (by omega)

theorem divS_run {w : Nat} (hw : w = 4 ∨ w = 8) {s : MS} (hwf : Wf w s) (res : Nat) (hres : res = 0 ∨ res = 2)
    (h0 : s.reg 1 ≠ 0) (hq : sgn w ((s.reg 0).tdiv (s.reg 1)) = (s.reg 0).tdiv (s.reg 1)) (a : Int) :
    ∃ s2, run w s (div_code true res) = some s2 ∧
      s2.reg 0 = (if res = 0 then (s.reg 0).tdiv (s.reg 1) else (s.reg 0).tmod (s.reg 1)) ∧ Eff w s s2 [0, 1, 2] a w := by
  have hb := sgn_bounds hw (s.reg 0)
  rw [hwf 0] at hb
  have hn : (if s.reg 0 < 0 then -1 else 0) * 2 ^ (8 * w) + uns w (s.reg 0) = s.reg 0 := by
    unfold uns
    rcases hw with rfl | rfl
    · rw [show ((2:Int) ^ (8 * 4)) = 4294967296 by decide, pow4]; split <;> omega
    · rw [show ((2:Int) ^ (8 * 8)) = 18446744073709551616 by decide, pow8]; split <;> omega
  have hm : sgn w ((s.reg 0).tmod (s.reg 1)) = (s.reg 0).tmod (s.reg 1) := by
    rcases Int.le_total 0 (s.reg 0) with hp | hp
    · have := Int.tmod_nonneg (s.reg 1) hp
      have h2 : (s.reg 0).tmod (s.reg 1) ≤ s.reg 0 := tmod_le hp
      apply sgn_id hw <;> omega
    · have h2 : (-s.reg 0).tmod (s.reg 1) ≤ -s.reg 0 := tmod_le (by omega)
      have e : (s.reg 0).tmod (s.reg 1) = -((-s.reg 0).tmod (s.reg 1)) := by rw [Int.neg_tmod, Int.neg_neg]
      have := Int.tmod_nonneg (s.reg 1) (a := -s.reg 0) (by omega)
      apply sgn_id hw <;> omega
  have e0 : sgn w (if s.reg 0 < 0 then -1 else 0) = if s.reg 0 < 0 then -1 else 0 := by
    apply sgn_id hw <;> split <;> rcases hw with rfl | rfl <;> omega
  let s1 := setReg (setReg s 0 (s.reg 0)) 2 (if s.reg 0 < 0 then -1 else 0)
  have f1 : Eff w s s1 [0, 1, 2] a w :=
    (eff_set (r := 0) hwf (by decide) (hwf 0) a).trans (eff_set (wf_setReg hwf 0 (hwf 0)) (by decide) e0 a)
  let s2 := setReg (setReg s1 0 ((s.reg 0).tdiv (s.reg 1))) 2 ((s.reg 0).tmod (s.reg 1))
  have f2 : Eff w s1 s2 [0, 1, 2] a w :=
    (eff_set (r := 0) f1.wf (by decide) hq a).trans (eff_set (wf_setReg f1.wf 0 hq) (by decide) hm a)
  have hrun : run w s [.mov_reg_reg 0 0, .cdq_cqo, .idiv_reg 1] = some s2 := by
    have x1 : exec1 w s (Emit.intended w (.mov_reg_reg 0 0)) = some (setReg s 0 (s.reg 0)) := by
      simp [Emit.intended, exec1]
    rw [run_cons x1]
    have x2 : exec1 w (setReg s 0 (s.reg 0)) (Emit.intended w .cdq_cqo) = some s1 := by
      simp [Emit.intended, exec1, setReg, s1]
    rw [run_cons x2]
    have x3 : exec1 w s1 (Emit.intended w (.idiv_reg 1)) = some s2 := by
      simp only [Emit.intended, exec1, if_true]
      have e1 : s1.reg 1 = s.reg 1 := by simp [s1, setReg]
      have e2 : s1.reg 2 * 2 ^ (8 * w) + uns w (s1.reg 0) = s.reg 0 := by
        simp [s1, setReg]; simpa using hn
      rw [e1, e2, if_neg h0, if_pos hq]
    rw [run_cons x3]; rfl
  refine ⟨setReg s2 0 (s2.reg res), ?_, ?_, f1.trans (f2.trans (eff_set f2.wf (by decide) (f2.wf res) a))⟩
  · have : div_code true res = [.mov_reg_reg 0 0, .cdq_cqo, .idiv_reg 1] ++ [.mov_reg_reg 0 res] := rfl
    rw [this]
    refine run_append_some hrun ?_
    simp [run, execs, Emit.intended, exec1]
  · rcases hres with rfl | rfl <;> simp [s2, setReg]

theorem divU_run {w : Nat} {s : MS} (hwf : Wf w s) (res : Nat) (hres : res = 0 ∨ res = 2)
    (h0 : uns w (s.reg 1) ≠ 0) (a : Int) :
    ∃ s2, run w s (div_code false res) = some s2 ∧
      s2.reg 0 = sgn w (if res = 0 then uns w (s.reg 0) / uns w (s.reg 1) else uns w (s.reg 0) % uns w (s.reg 1)) ∧
      Eff w s s2 [0, 1, 2] a w := by
  have hz : sgn w 0 = 0 := by rw [sgn]; simp
  have huz : uns w 0 = 0 := by rw [uns]; simp
  have hq : uns w (uns w (s.reg 0) / uns w (s.reg 1)) = uns w (s.reg 0) / uns w (s.reg 1) := by
    apply uns_of_lt
    · exact Int.ediv_nonneg (uns_nonneg _ _) (uns_nonneg _ _)
    · have := Int.ediv_le_self (uns w (s.reg 1)) (uns_nonneg w (s.reg 0))
      have := uns_lt w (s.reg 0)
      omega
  let s1 := setReg (setReg s 0 (s.reg 0)) 2 (sgn w 0)
  have f1 : Eff w s s1 [0, 1, 2] a w :=
    (eff_set (r := 0) hwf (by decide) (hwf 0) a).trans (eff_set (wf_setReg hwf 0 (hwf 0)) (by decide) (sgn_sgn w 0) a)
  let s2 := setReg (setReg s1 0 (sgn w (uns w (s.reg 0) / uns w (s.reg 1)))) 2 (sgn w (uns w (s.reg 0) % uns w (s.reg 1)))
  have f2 : Eff w s1 s2 [0, 1, 2] a w :=
    (eff_set (r := 0) f1.wf (by decide) (sgn_sgn w _) a).trans (eff_set (wf_setReg f1.wf 0 (sgn_sgn w _)) (by decide) (sgn_sgn w _) a)
  have hrun : run w s [.mov_reg_reg 0 0, .mov_reg_imm 2 0, .div_reg 1] = some s2 := by
    have x1 : exec1 w s (Emit.intended w (.mov_reg_reg 0 0)) = some (setReg s 0 (s.reg 0)) := by
      simp [Emit.intended, exec1]
    rw [run_cons x1]
    have x2 : exec1 w (setReg s 0 (s.reg 0)) (Emit.intended w (.mov_reg_imm 2 0)) = some s1 := by
      simp [Emit.intended, exec1, s1]
    rw [run_cons x2]
    have x3 : exec1 w s1 (Emit.intended w (.div_reg 1)) = some s2 := by
      simp only [Emit.intended, exec1, if_true]
      have e1 : s1.reg 1 = s.reg 1 := by simp [s1, setReg]
      have e2 : uns w (s1.reg 2) * 2 ^ (8 * w) + uns w (s1.reg 0) = uns w (s.reg 0) := by
        simp [s1, setReg, hz, huz]
      rw [e1, e2, if_neg h0, if_pos hq]
    rw [run_cons x3]; rfl
  refine ⟨setReg s2 0 (s2.reg res), ?_, ?_, f1.trans (f2.trans (eff_set f2.wf (by decide) (f2.wf res) a))⟩
  · have : div_code false res = [.mov_reg_reg 0 0, .mov_reg_imm 2 0, .div_reg 1] ++ [.mov_reg_reg 0 res] := rfl
    rw [this]
    refine run_append_some hrun ?_
    simp [run, execs, Emit.intended, exec1]
  · rcases hres with rfl | rfl <;> simp [s2, setReg]

/-- The instructions of an arithmetic operator compute `wordOp`. -/
theorem core_run {w : Nat} (hw : w = 4 ∨ w = 8) {T : Tags} {op : Bop} {pa pb : CTy} {es : List Emit}
    (hc : binop_core w T op pa pb = .ok es) (hpa : is_pointer_type pa = false) (hpb : is_pointer_type pb = false)
    {s : MS} (hwf : Wf w s) {z : Int} (hz : wordOp w op (both_signed pa pb) (s.reg 0) (s.reg 1) = some z) (a : Int) :
    ∃ s2, run w s es = some s2 ∧ s2.reg 0 = z ∧ sgn w z = z ∧ Eff w s s2 [0, 1, 2] a w := by
  have simple : ∀ {e : Emit} {v : Int}, exec1 w s (e.intended w) = some (setReg s 0 v) → sgn w v = v →
      ∃ s2, run w s [e] = some s2 ∧ s2.reg 0 = v ∧ sgn w v = v ∧ Eff w s s2 [0, 1, 2] a w := by
    intro e v h hv
    exact ⟨setReg s 0 v, by rw [run_cons h]; rfl, by simp [setReg], hv, eff_set hwf (by decide) hv a⟩
  have shift : ∀ {e : Emit} {v : Int}, (∀ s1 : MS, s1.reg 0 = s.reg 0 → s1.reg 1 = s.reg 1 → exec1 w s1 (e.intended w) = some (setReg s1 0 v)) → sgn w v = v →
      ∃ s2, run w s [.mov_reg_reg 1 1, e] = some s2 ∧ s2.reg 0 = v ∧ sgn w v = v ∧ Eff w s s2 [0, 1, 2] a w := by
    intro e v h hv
    have x1 : exec1 w s (Emit.intended w (.mov_reg_reg 1 1)) = some (setReg s 1 (s.reg 1)) := by
      simp [Emit.intended, exec1]
    have f1 : Eff w s (setReg s 1 (s.reg 1)) [0, 1, 2] a w := eff_set hwf (by decide) (hwf 1) a
    refine ⟨setReg (setReg s 1 (s.reg 1)) 0 v, ?_, by simp [setReg], hv, f1.trans (eff_set f1.wf (by decide) hv a)⟩
    rw [run_cons x1, run_cons (h (setReg s 1 (s.reg 1)) (by simp [setReg]) (by simp [setReg]))]; rfl
  have hpow : ∀ (x : Int) (n : Nat), sgn w x = x → sgn w (x / 2 ^ n) = x / 2 ^ n :=
    fun x n hx => sgn_ediv hw hx (Int.pow_pos (by decide))
  cases op <;> simp only [binop_core, binop_add, binop_sub, hpa, hpb, Bool.false_and, Bool.and_false, Bool.false_eq_true, if_false, Res.bind_ok,
    List.nil_append, Res.ok.injEq, reduceCtorEq] at hc <;> simp only [wordOp, Option.some.injEq, reduceCtorEq] at hz
  case add => subst hc; subst hz; exact simple (by simp [Emit.intended, exec1]) (sgn_sgn w _)
  case sub => subst hc; subst hz; exact simple (by simp [Emit.intended, exec1]) (sgn_sgn w _)
  case mul =>
    split at hc <;> simp at hc
    subst hc; subst hz; exact simple (by simp [Emit.intended, exec1]) (sgn_sgn w _)
  case div =>
    split at hc <;> simp at hc
    subst hc
    cases hs : both_signed pa pb
    · rw [hs] at hz
      simp only [Bool.false_eq_true, if_false] at hz
      split at hz
      · cases hz
      · rename_i h0
        obtain ⟨s2, h1, h2, h3⟩ := divU_run hwf 0 (.inl rfl) h0 a
        simp only [Option.some.injEq] at hz
        refine ⟨s2, h1, ?_, ?_, h3⟩
        · rw [h2, if_pos rfl, hz]
        · rw [← hz, sgn_sgn]
    · rw [hs] at hz
      simp only [if_true] at hz
      split at hz
      · cases hz
      · rename_i h0
        split at hz
        · rename_i hq
          obtain ⟨s2, h1, h2, h3⟩ := divS_run hw hwf 0 (.inl rfl) h0 hq a
          simp only [Option.some.injEq] at hz
          refine ⟨s2, h1, ?_, ?_, h3⟩
          · rw [h2, if_pos rfl, hz]
          · rw [← hz, hq]
        · cases hz
  case mod =>
    split at hc <;> simp at hc
    subst hc
    cases hs : both_signed pa pb
    · rw [hs] at hz
      simp only [Bool.false_eq_true, if_false] at hz
      split at hz
      · cases hz
      · rename_i h0
        obtain ⟨s2, h1, h2, h3⟩ := divU_run hwf 2 (.inr rfl) h0 a
        simp only [Option.some.injEq] at hz
        refine ⟨s2, h1, ?_, ?_, h3⟩
        · rw [h2, if_neg (by decide), hz]
        · rw [← hz, sgn_sgn]
    · rw [hs] at hz
      simp only [if_true] at hz
      split at hz
      · cases hz
      · rename_i h0
        split at hz
        · rename_i hq
          obtain ⟨s2, h1, h2, h3⟩ := divS_run hw hwf 2 (.inr rfl) h0 hq a
          simp only [Option.some.injEq] at hz
          refine ⟨s2, h1, ?_, ?_, h3⟩
          · rw [h2, if_neg (by decide), hz]
          · rw [← hz, ← (show s2.reg 0 = (s.reg 0).tmod (s.reg 1) by rw [h2, if_neg (by decide)])]; exact h3.wf 0
        · cases hz
  case band =>
    split at hc <;> simp at hc
    subst hc; subst hz; exact simple (by simp [Emit.intended, exec1]) (sgn_bits w _ _ _)
  case bor =>
    split at hc <;> simp at hc
    subst hc; subst hz; exact simple (by simp [Emit.intended, exec1]) (sgn_bits w _ _ _)
  case bxor =>
    split at hc <;> simp at hc
    subst hc; subst hz; exact simple (by simp [Emit.intended, exec1]) (sgn_bits w _ _ _)
  case shl =>
    split at hc <;> simp at hc
    subst hc; subst hz
    exact shift (fun s1 e0 e1 => by simp [Emit.intended, exec1, e0, e1]) (sgn_sgn w _)
  case shr =>
    split at hc <;> simp at hc
    subst hc
    cases hs : both_signed pa pb
    · rw [hs] at hz
      simp only [Bool.false_eq_true, if_false, Option.some.injEq] at hz
      subst hz
      exact shift (fun s1 e0 e1 => by simp [Emit.intended, exec1, e0, e1]) (sgn_sgn w _)
    · rw [hs] at hz
      simp only [if_true, Option.some.injEq] at hz
      subst hz
      exact shift (fun s1 e0 e1 => by simp [Emit.intended, exec1, e0, e1]) (hpow _ _ (hwf 0))

end Verif.Cg
