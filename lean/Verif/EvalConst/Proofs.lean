import Verif.EvalConst.Spec
namespace Verif.EvalConst
open Verif Spec

theorem chk_ok {v w : Int} (h : chk v = .ok w) : w = v ∧ inInt v = true := by
  unfold chk at h; split at h
  · injection h with h; exact ⟨h.symm, by assumption⟩
  · cases h

theorem inInt_iff {v : Int} : inInt v = true ↔ -2147483648 ≤ v ∧ v ≤ 2147483647 := by
  simp [inInt]

theorem ofInt64_signExtend {a : Int} (h : inInt a = true) :
    BitVec.ofInt 64 a = (BitVec.ofInt 32 a).signExtend 64 := by
  rw [inInt_iff] at h
  apply BitVec.eq_of_toInt_eq
  rw [BitVec.toInt_signExtend_of_le (by decide), BitVec.toInt_ofInt, BitVec.toInt_ofInt]
  simp only [Int.bmod]
  omega

theorem bits_eq {a b : Int} (ha : inInt a = true) (hb : inInt b = true) :
    bits (· &&& ·) a b = bits64 (· &&& ·) a b ∧ bits (· ||| ·) a b = bits64 (· ||| ·) a b ∧
    bits (· ^^^ ·) a b = bits64 (· ^^^ ·) a b := by
  unfold bits bits64
  rw [ofInt64_signExtend ha, ofInt64_signExtend hb]
  simp only
  rw [← BitVec.signExtend_and, ← BitVec.signExtend_or, ← BitVec.signExtend_xor,
    BitVec.toInt_signExtend_of_le (by decide), BitVec.toInt_signExtend_of_le (by decide),
    BitVec.toInt_signExtend_of_le (by decide)]
  exact ⟨rfl, rfl, rfl⟩

theorem bits_range (f) (a b : Int) : inInt (bits f a b) = true := by
  rw [inInt_iff]
  unfold bits
  generalize f _ _ = x
  have h1 := BitVec.le_toInt x
  have h2 := BitVec.toInt_lt (x := x)
  simp at h1 h2
  omega

theorem b2i_range (b : Bool) : inInt (b2i b) = true := by cases b <;> decide

theorem shr_range {a : Int} (k : Nat) (h : inInt a = true) : inInt (a / 2 ^ k) = true := by
  rw [inInt_iff] at *
  have h2 : (0 : Int) < 2 ^ k := Int.pow_pos (by decide)
  have h3 : (1 : Int) ≤ 2 ^ k := h2
  constructor
  · apply (Int.le_ediv_iff_mul_le h2).mpr
    have : -2147483648 * (2:Int) ^ k ≤ -2147483648 * 1 := by
      apply Int.mul_le_mul_of_nonpos_left (by decide) h3
    omega
  · by_cases ha : 0 ≤ a
    · have := Int.ediv_le_self (2 ^ k) ha; omega
    · have := Int.ediv_neg_of_neg_of_pos (a := a) (b := 2 ^ k) (by omega) h2; omega

theorem evalBin_ok {op : Bin} {a b v : Int} (ha : inInt a = true) (hb : inInt b = true)
    (h : evalBin op a b = .ok v) : Spec.bin op a b = some v ∧ inInt v = true := by
  have hb3 := bits_eq ha hb
  cases op <;> simp only [evalBin] at h
  case add => obtain ⟨rfl, h'⟩ := chk_ok h; exact ⟨rfl, h'⟩
  case sub => obtain ⟨rfl, h'⟩ := chk_ok h; exact ⟨rfl, h'⟩
  case mul => obtain ⟨rfl, h'⟩ := chk_ok h; exact ⟨rfl, h'⟩
  case div =>
    split at h
    · cases h
    · rename_i hz; obtain ⟨rfl, h'⟩ := chk_ok h; exact ⟨by simp [Spec.bin, hz], h'⟩
  case rem =>
    split at h
    · cases h
    · rename_i hz
      obtain ⟨w, h1, h2⟩ := Res.bind_eq_ok.mp h
      injection h2 with h2
      subst h2
      refine ⟨by simp [Spec.bin, hz], ?_⟩
      rw [inInt_iff] at *
      have h3 : (a.tmod b).natAbs = a.natAbs % b.natAbs := Int.natAbs_tmod a b
      have h4 := Nat.mod_lt a.natAbs (y := b.natAbs) (by omega)
      omega
  case and => injection h with h; subst h; exact ⟨by simp [Spec.bin, hb3.1], bits_range _ _ _⟩
  case or => injection h with h; subst h; exact ⟨by simp [Spec.bin, hb3.2.1], bits_range _ _ _⟩
  case xor => injection h with h; subst h; exact ⟨by simp [Spec.bin, hb3.2.2], bits_range _ _ _⟩
  case shl =>
    split at h
    · cases h
    · obtain ⟨rfl, h'⟩ := chk_ok h; exact ⟨by simp only [Spec.bin]; rw [if_neg (by omega)], h'⟩
  case shr =>
    split at h
    · cases h
    · injection h with h; subst h
      exact ⟨by simp only [Spec.bin]; rw [if_neg (by omega)], shr_range _ ha⟩
  all_goals
    injection h with h
    subst h
    refine ⟨?_, b2i_range _⟩
    simp only [Spec.bin, b2i]
  case eq => simp
  case ne => by_cases h : a = b <;> simp [h]
  case le => simp
  case ge => simp
  case lt => simp
  case gt => simp

theorem isBool_val {e : Expr} {v : Int} (h : isBool e = true) (hv : Spec.value e = some v) :
    v = 0 ∨ v = 1 := by
  induction e generalizing v with
  | int s =>
    simp only [Spec.value, Option.some.injEq] at hv
    simp [isBool] at h; omega
  | parens e ih => simp only [isBool, Spec.value] at *; exact ih h hv
  | lnot e =>
    simp only [Spec.value, Option.map_eq_some_iff] at hv
    obtain ⟨w, -, rfl⟩ := hv; split <;> simp
  | land a b =>
    simp only [Spec.value, Option.bind_eq_some_iff] at hv
    obtain ⟨w, -, hv⟩ := hv
    split at hv
    · simp at hv; omega
    · simp only [Option.map_eq_some_iff] at hv; obtain ⟨w, -, rfl⟩ := hv; split <;> simp
  | lor a b =>
    simp only [Spec.value, Option.bind_eq_some_iff] at hv
    obtain ⟨w, -, hv⟩ := hv
    split at hv
    · simp only [Option.map_eq_some_iff] at hv; obtain ⟨w, -, rfl⟩ := hv; split <;> simp
    · simp at hv; omega
  | defined m => simp only [Spec.value, Option.some.injEq] at hv; subst hv; split <;> simp
  | ident n => simp only [Spec.value, Option.some.injEq] at hv; subst hv; simp
  | bin op a b =>
    simp only [Spec.value, Option.bind_eq_some_iff] at hv
    obtain ⟨x, -, y, -, hv⟩ := hv
    cases op <;> simp [isBool] at h <;> simp only [Spec.bin, Option.some.injEq] at hv <;>
      subst hv <;> split <;> simp
  | _ => simp [isBool] at h

/-- Character constants are ints. -/
def chrOk : Expr → Prop
  | .chr v => inInt v = true
  | .parens e | .bnot e | .lnot e | .neg e | .plus e => chrOk e
  | .bin _ a b | .land a b | .lor a b => chrOk a ∧ chrOk b
  | .cond c a b => chrOk c ∧ chrOk a ∧ chrOk b
  | _ => True

theorem eval_spec (e : Expr) (hc : chrOk e) :
    (okV e = true → ∀ v, eval true e = .ok v → Spec.value e = some v ∧ inInt v = true) ∧
    (okB e = true → ∀ v, eval true e = .ok v →
      ∃ w, Spec.value e = some w ∧ (w = 0 ↔ v = 0)) := by
  induction e with
  | int s =>
    refine ⟨fun _ v h => ?_, fun _ v h => ?_⟩
    · simp only [eval] at h; split at h; · cases h
      obtain ⟨rfl, h2⟩ := chk_ok h; exact ⟨rfl, h2⟩
    · simp only [eval] at h; split at h; · cases h
      obtain ⟨rfl, h2⟩ := chk_ok h; exact ⟨_, rfl, Iff.rfl⟩
  | chr c =>
    refine ⟨fun _ v h => ?_, fun _ v h => ?_⟩
    · simp only [eval, Res.ok.injEq] at h; subst h; exact ⟨rfl, hc⟩
    · simp only [eval, Res.ok.injEq] at h; subst h; exact ⟨_, rfl, Iff.rfl⟩
  | parens e ih => simpa only [okV, okB, eval, Spec.value, chrOk] using ih hc
  | plus e ih => simpa only [okV, okB, eval, Spec.value, chrOk] using ih hc
  | bnot e ih =>
    have hv : okV e = true → ∀ v, eval true (.bnot e) = .ok v →
        Spec.value (.bnot e) = some v ∧ inInt v = true := by
      intro ho v h
      simp only [eval] at h
      obtain ⟨w, h1, h2⟩ := Res.bind_eq_ok.mp h
      injection h2 with h2
      obtain ⟨i1, i2⟩ := (ih hc).1 ho w h1
      subst h2
      refine ⟨by simp [Spec.value, i1], ?_⟩
      rw [inInt_iff] at *; omega
    refine ⟨fun ho v h => hv (by simpa [okV] using ho) v h, fun ho v h => ?_⟩
    exact ⟨v, (hv (by simpa [okB] using ho) v h).1, Iff.rfl⟩
  | neg e ih =>
    have hv : okV e = true → ∀ v, eval true (.neg e) = .ok v →
        Spec.value (.neg e) = some v ∧ inInt v = true := by
      intro ho v h
      simp only [eval] at h
      obtain ⟨w, h1, h2⟩ := Res.bind_eq_ok.mp h
      obtain ⟨rfl, h2'⟩ := chk_ok h2
      obtain ⟨i1, i2⟩ := (ih hc).1 ho w h1
      exact ⟨by simp [Spec.value, i1], h2'⟩
    refine ⟨fun ho v h => hv (by simpa [okV] using ho) v h, fun ho v h => ?_⟩
    exact ⟨v, (hv (by simpa [okB] using ho) v h).1, Iff.rfl⟩
  | lnot e ih =>
    have hv : okB e = true → ∀ v, eval true (.lnot e) = .ok v →
        Spec.value (.lnot e) = some v ∧ inInt v = true := by
      intro ho v h
      simp only [eval] at h
      obtain ⟨w, h1, h2⟩ := Res.bind_eq_ok.mp h
      injection h2 with h2
      obtain ⟨u, i1, i2⟩ := (ih hc).2 ho w h1
      subst h2
      refine ⟨?_, b2i_range _⟩
      simp only [Spec.value, i1, Option.map_some, b2i, beq_iff_eq, Option.some.injEq]
      by_cases hw : w = 0
      · simp [hw, i2.mpr hw]
      · have : ¬ u = 0 := fun hu => hw (i2.mp hu)
        simp [hw, this]
    refine ⟨fun ho v h => hv (by simpa [okV] using ho) v h, fun ho v h => ?_⟩
    exact ⟨v, (hv (by simpa [okB] using ho) v h).1, Iff.rfl⟩
  | bin op a b iha ihb =>
    have hv : okV a = true ∧ okV b = true → ∀ v, eval true (.bin op a b) = .ok v →
        Spec.value (.bin op a b) = some v ∧ inInt v = true := by
      intro ho v h
      simp only [eval] at h
      obtain ⟨x, h1, h2⟩ := Res.bind_eq_ok.mp h
      obtain ⟨y, h3, h4⟩ := Res.bind_eq_ok.mp h2
      obtain ⟨i1, i2⟩ := (iha hc.1).1 ho.1 x h1
      obtain ⟨j1, j2⟩ := (ihb hc.2).1 ho.2 y h3
      obtain ⟨k1, k2⟩ := evalBin_ok i2 j2 h4
      exact ⟨by simp [Spec.value, i1, j1, k1], k2⟩
    refine ⟨fun ho v h => hv (by simpa [okV] using ho) v h, fun ho v h => ?_⟩
    exact ⟨v, (hv (by simpa [okB] using ho) v h).1, Iff.rfl⟩
  | land a b iha ihb =>
    constructor
    · intro ho v h
      simp only [okV, Bool.and_eq_true] at ho
      simp only [eval] at h
      obtain ⟨x, h1, h2⟩ := Res.bind_eq_ok.mp h
      obtain ⟨u, i1, i2⟩ := (iha hc.1).2 ho.1.1 x h1
      by_cases hx : x = 0
      · simp only [hx, if_true, Res.ok.injEq] at h2; subst h2
        exact ⟨by simp [Spec.value, i1, i2.mpr hx], by decide⟩
      · rw [if_neg hx] at h2
        have hu : ¬ u = 0 := fun hu => hx (i2.mp hu)
        obtain ⟨j1, j2⟩ := (ihb hc.2).1 ho.1.2 v h2
        refine ⟨?_, j2⟩
        simp only [Spec.value, i1, Option.bind_some, hu, if_false, j1, Option.map_some]
        rcases isBool_val ho.2 j1 with rfl | rfl <;> simp
    · intro ho v h
      simp only [okB, Bool.and_eq_true] at ho
      simp only [eval] at h
      obtain ⟨x, h1, h2⟩ := Res.bind_eq_ok.mp h
      obtain ⟨u, i1, i2⟩ := (iha hc.1).2 ho.1 x h1
      by_cases hx : x = 0
      · simp only [hx, if_true, Res.ok.injEq] at h2; subst h2
        exact ⟨0, by simp [Spec.value, i1, i2.mpr hx], by simp⟩
      · rw [if_neg hx] at h2
        have hu : ¬ u = 0 := fun hu => hx (i2.mp hu)
        obtain ⟨t, j1, j2⟩ := (ihb hc.2).2 ho.2 v h2
        refine ⟨if t = 0 then 0 else 1, by simp [Spec.value, i1, hu, j1], ?_⟩
        rw [← j2]; by_cases ht : t = 0 <;> simp [ht]
  | lor a b iha ihb =>
    constructor
    · intro ho v h
      simp only [okV, Bool.and_eq_true] at ho
      simp only [eval] at h
      obtain ⟨x, h1, h2⟩ := Res.bind_eq_ok.mp h
      obtain ⟨u, i1, i2⟩ := (iha hc.1).2 ho.1.1 x h1
      by_cases hx : x = 0
      · rw [if_neg (by simpa using hx)] at h2
        have hu : u = 0 := i2.mpr hx
        obtain ⟨j1, j2⟩ := (ihb hc.2).1 ho.1.2 v h2
        refine ⟨?_, j2⟩
        simp only [Spec.value, i1, Option.bind_some, hu, if_true, j1, Option.map_some]
        rcases isBool_val ho.2 j1 with rfl | rfl <;> simp
      · rw [if_pos hx] at h2; injection h2 with h2; subst h2
        have hu : ¬ u = 0 := fun hu => hx (i2.mp hu)
        exact ⟨by simp [Spec.value, i1, hu], by decide⟩
    · intro ho v h
      simp only [okB, Bool.and_eq_true] at ho
      simp only [eval] at h
      obtain ⟨x, h1, h2⟩ := Res.bind_eq_ok.mp h
      obtain ⟨u, i1, i2⟩ := (iha hc.1).2 ho.1 x h1
      by_cases hx : x = 0
      · rw [if_neg (by simpa using hx)] at h2
        have hu : u = 0 := i2.mpr hx
        obtain ⟨t, j1, j2⟩ := (ihb hc.2).2 ho.2 v h2
        refine ⟨if t = 0 then 0 else 1, by simp [Spec.value, i1, hu, j1], ?_⟩
        rw [← j2]; by_cases ht : t = 0 <;> simp [ht]
      · rw [if_pos hx] at h2; injection h2 with h2; subst h2
        have hu : ¬ u = 0 := fun hu => hx (i2.mp hu)
        exact ⟨1, by simp [Spec.value, i1, hu], by simp⟩
  | cond c a b ihc iha ihb =>
    constructor
    · intro ho v h
      simp only [okV, Bool.and_eq_true] at ho
      simp only [eval] at h
      obtain ⟨x, h1, h2⟩ := Res.bind_eq_ok.mp h
      obtain ⟨u, i1, i2⟩ := (ihc hc.1).2 ho.1.1 x h1
      by_cases hx : x = 0
      · rw [if_neg (by simpa using hx)] at h2
        obtain ⟨j1, j2⟩ := (ihb hc.2.2).1 ho.2 v h2
        exact ⟨by simp [Spec.value, i1, i2.mpr hx, j1], j2⟩
      · rw [if_pos hx] at h2
        have hu : ¬ u = 0 := fun hu => hx (i2.mp hu)
        obtain ⟨j1, j2⟩ := (iha hc.2.1).1 ho.1.2 v h2
        exact ⟨by simp [Spec.value, i1, hu, j1], j2⟩
    · intro ho v h
      simp only [okB, Bool.and_eq_true] at ho
      simp only [eval] at h
      obtain ⟨x, h1, h2⟩ := Res.bind_eq_ok.mp h
      obtain ⟨u, i1, i2⟩ := (ihc hc.1).2 ho.1.1 x h1
      by_cases hx : x = 0
      · rw [if_neg (by simpa using hx)] at h2
        obtain ⟨t, j1, j2⟩ := (ihb hc.2.2).2 ho.2 v h2
        exact ⟨t, by simp [Spec.value, i1, i2.mpr hx, j1], j2⟩
      · rw [if_pos hx] at h2
        have hu : ¬ u = 0 := fun hu => hx (i2.mp hu)
        obtain ⟨t, j1, j2⟩ := (iha hc.2.1).2 ho.1.2 v h2
        exact ⟨t, by simp [Spec.value, i1, hu, j1], j2⟩
  | defined m =>
    refine ⟨fun _ v h => ?_, fun _ v h => ?_⟩
    · simp only [eval, if_true, Res.ok.injEq] at h; subst h
      exact ⟨by cases m <;> rfl, b2i_range _⟩
    · simp only [eval, if_true, Res.ok.injEq] at h; subst h
      exact ⟨_, rfl, by cases m <;> simp [b2i]⟩
  | ident n =>
    refine ⟨fun _ v h => ?_, fun _ v h => ?_⟩
    · simp only [eval, if_true, Res.ok.injEq] at h; subst h; exact ⟨rfl, by decide⟩
    · simp only [eval, if_true, Res.ok.injEq] at h; subst h; exact ⟨0, rfl, Iff.rfl⟩
  | other => exact ⟨fun _ v h => by simp [eval] at h, fun _ v h => by simp [eval] at h⟩

end Verif.EvalConst
