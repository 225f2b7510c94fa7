import Verif.X86.Machine
/-! Arithmetic of words and memory of the machine specification. -/
namespace Verif.X86.Spec

theorem two_pos (w : Nat) : (0 : Int) < (2 ^ (8 * w) : Nat) := by
  have : (0:Nat) < 2 ^ (8 * w) := Nat.pow_pos (by decide)
  omega

theorem uns_lt (w : Nat) (x : Int) : uns w x < (2 ^ (8 * w) : Nat) := Int.emod_lt_of_pos _ (two_pos w)
theorem uns_nonneg (w : Nat) (x : Int) : 0 ≤ uns w x := Int.emod_nonneg _ (by have := two_pos w; omega)
theorem uns_of_lt {w : Nat} {x : Int} (h0 : 0 ≤ x) (h : x < (2 ^ (8 * w) : Nat)) : uns w x = x :=
  Int.emod_eq_of_lt h0 h
theorem uns_uns (w : Nat) (x : Int) : uns w (uns w x) = uns w x := uns_of_lt (uns_nonneg w x) (uns_lt w x)
theorem uns_add (w : Nat) (x y : Int) : uns w (uns w x + y) = uns w (x + y) := Int.emod_add_emod x _ y
theorem uns_sgn (w : Nat) (x : Int) : uns w (sgn w x) = uns w x := by unfold uns sgn; exact Int.bmod_emod
theorem sgn_uns (w : Nat) (x : Int) : sgn w (uns w x) = sgn w x := by unfold uns sgn; exact Int.emod_bmod x (2 ^ (8 * w))
theorem sgn_sgn (w : Nat) (x : Int) : sgn w (sgn w x) = sgn w x := by unfold sgn; exact Int.bmod_bmod
theorem sgn_add_l (w : Nat) (x y : Int) : sgn w (sgn w x + y) = sgn w (x + y) := by unfold sgn; exact Int.bmod_add_bmod
theorem sgn_add_r (w : Nat) (x y : Int) : sgn w (x + sgn w y) = sgn w (x + y) := by unfold sgn; exact Int.add_bmod_bmod
theorem sgn_sub_l (w : Nat) (x y : Int) : sgn w (sgn w x - y) = sgn w (x - y) := by unfold sgn; exact Int.bmod_sub_bmod
theorem sgn_sub_r (w : Nat) (x y : Int) : sgn w (x - sgn w y) = sgn w (x - y) := by unfold sgn; exact Int.sub_bmod_bmod
theorem sgn_mul_l (w : Nat) (x y : Int) : sgn w (sgn w x * y) = sgn w (x * y) := by unfold sgn; exact Int.bmod_mul_bmod
theorem sgn_mul_r (w : Nat) (x y : Int) : sgn w (x * sgn w y) = sgn w (x * y) := by unfold sgn; exact Int.mul_bmod_bmod
theorem sgn_eq_of_uns {w : Nat} {x y : Int} (h : uns w x = uns w y) : sgn w x = sgn w y := by
  rw [← sgn_uns w x, h, sgn_uns]

theorem pow4 : (2 ^ (8 * 4) : Nat) = 4294967296 := by decide
theorem pow8 : (2 ^ (8 * 8) : Nat) = 18446744073709551616 := by decide

/-- Values that fit in a word are unchanged. -/
theorem sgn_id {w : Nat} (hw : w = 4 ∨ w = 8) {x : Int} (h : -(2 ^ (8 * w - 1) : Nat) ≤ x)
    (h' : x < (2 ^ (8 * w - 1) : Nat)) : sgn w x = x := by
  unfold sgn
  apply Int.bmod_eq_of_le <;> rcases hw with rfl | rfl <;> omega

theorem sgn_bounds {w : Nat} (hw : w = 4 ∨ w = 8) (x : Int) :
    -(2 ^ (8 * w - 1) : Nat) ≤ sgn w x ∧ sgn w x < (2 ^ (8 * w - 1) : Nat) := by
  have h1 := @Int.bmod_lt x (2 ^ (8 * w)) (Nat.pow_pos (by decide))
  have h2 := @Int.le_bmod x (2 ^ (8 * w)) (Nat.pow_pos (by decide))
  unfold sgn
  rcases hw with rfl | rfl <;> omega

/-- `x` is one of the addresses of the `k` bytes at `a`. -/
def InR (w : Nat) (a : Int) (k : Nat) (x : Int) : Prop := ∃ i : Nat, i < k ∧ x = uns w (a + i)

theorem wr_out (w : Nat) : ∀ (k : Nat) (m : Int → Nat) (a v x : Int), ¬ InR w a k x →
    wr w m a v k x = m x := by
  intro k
  induction k with
  | zero => intro m a v x _; rfl
  | succ k ih =>
    intro m a v x h
    rw [wr, ih]
    · rw [if_neg]
      intro e
      exact h ⟨0, by omega, by simpa using e⟩
    · rintro ⟨i, hi, e⟩
      exact h ⟨i + 1, by omega, by rw [e]; congr 1; push_cast; omega⟩

theorem rd_congr (w : Nat) : ∀ (k : Nat) (m m' : Int → Nat) (a : Int),
    (∀ x, InR w a k x → m x = m' x) → rd w m a k = rd w m' a k := by
  intro k
  induction k with
  | zero => intro m m' a _; rfl
  | succ k ih =>
    intro m m' a h
    rw [rd, rd, ih m m' (a + 1)]
    · rw [h (uns w a) ⟨0, by omega, by simp⟩]
    · rintro x ⟨i, hi, e⟩
      exact h x ⟨i + 1, by omega, by rw [e]; congr 1; push_cast; omega⟩

theorem uns_ne {w : Nat} (hw : w = 4 ∨ w = 8) (a : Int) {k : Int} (h0 : 0 < k) (h1 : k ≤ 8) :
    uns w (a + k) ≠ uns w a := by
  unfold uns
  rcases hw with rfl | rfl
  · rw [pow4]; omega
  · rw [pow8]; omega

theorem rd_wr {w : Nat} (hw : w = 4 ∨ w = 8) : ∀ (k : Nat), k ≤ 8 → ∀ (m : Int → Nat) (a v : Int),
    (rd w (wr w m a v k) a k : Int) = v % (2 ^ (8 * k) : Nat) := by
  intro k
  induction k with
  | zero => intro _ m a v; simp [rd]
  | succ k ih =>
    intro hk m a v
    rw [rd, wr, Int.natCast_add, Int.natCast_mul, ih (by omega)]
    rw [wr_out]
    · simp only [if_true]
      rw [Int.natCast_emod]
      have hb : ((v % 256).toNat : Int) = v % 256 := Int.toNat_of_nonneg (Int.emod_nonneg _ (by decide))
      rw [hb]
      have e : ((2 ^ (8 * (k + 1)) : Nat) : Int) = 256 * ((2 ^ (8 * k) : Nat) : Int) := by
        rw [show 8 * (k + 1) = 8 + 8 * k by omega, Nat.pow_add, Int.natCast_mul]; rfl
      rw [e, show ((256 : Nat) : Int) = 256 from rfl]
      generalize ((2 ^ (8 * k) : Nat) : Int) = P
      have h2 := Int.emod_def (v / 256) P
      have h3 := Int.emod_def v (256 * P)
      rw [← Int.ediv_ediv_of_nonneg (by decide : (0:Int) ≤ 256)] at h3
      rw [h2, h3]
      generalize v / 256 / P = c at *
      have : 256 * P * c = 256 * (P * c) := by rw [Int.mul_assoc]
      rw [this]
      generalize P * c = z
      omega
    · rintro ⟨i, hi, e⟩
      refine uns_ne hw a (k := (i + 1 : Nat)) (by omega) (by omega) ?_
      rw [e]; congr 1; push_cast; omega

/-- A word read back. -/
theorem rd_wr_word {w : Nat} (hw : w = 4 ∨ w = 8) (m : Int → Nat) (a v : Int) :
    sgn w (rd w (wr w m a v w) a w) = sgn w v := by
  rw [rd_wr hw w (by omega)]
  exact sgn_uns w v

/-- Reading does not depend on the representative of the address. -/
theorem rd_addr (w : Nat) (m : Int → Nat) : ∀ (k : Nat) (a b : Int), uns w a = uns w b →
    rd w m a k = rd w m b k := by
  intro k
  induction k with
  | zero => intro a b _; rfl
  | succ k ih =>
    intro a b h
    rw [rd, rd, h, ih (a + 1) (b + 1)]
    rw [← uns_add, h, uns_add]

theorem wr_addr (w : Nat) : ∀ (k : Nat) (m : Int → Nat) (a b v : Int), uns w a = uns w b →
    wr w m a v k = wr w m b v k := by
  intro k
  induction k with
  | zero => intro m a b v _; rfl
  | succ k ih =>
    intro m a b v h
    rw [wr, wr, h, ih _ (a + 1) (b + 1)]
    rw [← uns_add, h, uns_add]

theorem inR_addr {w : Nat} {a b : Int} (h : uns w a = uns w b) {k : Nat} {x : Int} :
    InR w a k x ↔ InR w b k x := by
  have e : ∀ i : Nat, uns w (a + i) = uns w (b + i) := fun i => by rw [← uns_add, h, uns_add]
  unfold InR
  constructor
  · rintro ⟨i, hi, rfl⟩; exact ⟨i, hi, e i⟩
  · rintro ⟨i, hi, rfl⟩; exact ⟨i, hi, (e i).symm⟩

end Verif.X86.Spec
