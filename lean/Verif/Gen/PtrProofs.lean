import Verif.Gen.Ptr
import Verif.X86.MachineLemmas
/-! Execution of straight-line emitter sequences; scaling. -/
namespace Verif.Gen
open Verif Verif.X86 Verif.X86.Spec

/-- Execute the instructions the emitters intend. -/
def run (w : Nat) (s : MS) (es : List Emit) : Option MS := execs w s (es.map (Emit.intended w))

theorem execs_append (w : Nat) (a b : List Insn) (s : MS) :
    execs w s (a ++ b) = (execs w s a).bind fun s => execs w s b := by
  induction a generalizing s with
  | nil => rfl
  | cons i a ih =>
    rw [List.cons_append, execs, execs]
    cases exec1 w s i with
    | none => rfl
    | some s' => exact ih s'

theorem run_append (w : Nat) (a b : List Emit) (s : MS) :
    run w s (a ++ b) = (run w s a).bind fun s => run w s b := by
  unfold run; rw [List.map_append, execs_append]

theorem run_append_some {w : Nat} {a b : List Emit} {s s1 s2 : MS} (h1 : run w s a = some s1)
    (h2 : run w s1 b = some s2) : run w s (a ++ b) = some s2 := by
  rw [run_append, h1]; exact h2

theorem run_add (w d r : Nat) (s : MS) :
    run w s [.add_reg_reg d r] = some (setReg s d (sgn w (s.reg d + s.reg r))) := by
  simp [run, Emit.intended, execs, exec1]
theorem run_sub (w d r : Nat) (s : MS) :
    run w s [.sub_reg_reg d r] = some (setReg s d (sgn w (s.reg d - s.reg r))) := by
  simp [run, Emit.intended, execs, exec1]

theorem run_nil (w : Nat) (s : MS) : run w s [] = some s := rfl

/-- Only the registers of `ch` and the `k` bytes at `a` changed, and the registers still hold words. -/
structure Eff (w : Nat) (s s' : MS) (ch : List Nat) (a : Int) (k : Nat) : Prop where
  wf : Wf w s'
  regs : ∀ r, r ∉ ch → s'.reg r = s.reg r
  mem : ∀ x, ¬ InR w a k x → s'.mem x = s.mem x

theorem isPow2 {n : Nat} (h : is_power_of_2 n = true) : ∃ k, n = 2 ^ k := by
  induction n using Nat.strongRecOn with
  | ind n ih =>
    simp only [is_power_of_2, Bool.and_eq_true, decide_eq_true_eq] at h
    obtain ⟨h0, h1⟩ := h
    rcases Nat.mod_two_eq_zero_or_one n with e | e
    · have hm : n = 2 * (n / 2) := by omega
      have h2 : (n / 2 &&& (n / 2 - 1)) = 0 := by
        have := Nat.and_div_two (a := n) (b := n - 1)
        rw [h1] at this
        rw [show (n - 1) / 2 = n / 2 - 1 by omega] at this
        simpa using this.symm
      obtain ⟨k, hk⟩ := ih (n / 2) (by omega) (by simp [is_power_of_2, h2]; omega)
      exact ⟨k + 1, by rw [Nat.pow_succ]; omega⟩
    · have := Nat.and_div_two (a := n) (b := n - 1)
      rw [h1, show (n - 1) / 2 = n / 2 by omega, Nat.and_self] at this
      exact ⟨0, by simp; omega⟩

theorem pow2_is (k : Nat) : is_power_of_2 (2 ^ k) = true := by
  induction k with
  | zero => decide
  | succ k ih =>
    simp only [is_power_of_2, Bool.and_eq_true, decide_eq_true_eq] at ih ⊢
    have hp : 0 < 2 ^ k := Nat.pow_pos (by decide)
    refine ⟨by rw [Nat.pow_succ]; omega, ?_⟩
    have h2 : (2 ^ (k + 1) &&& (2 ^ (k + 1) - 1)) / 2 = 0 := by
      rw [Nat.and_div_two, show 2 ^ (k + 1) / 2 = 2 ^ k by omega,
        show (2 ^ (k + 1) - 1) / 2 = 2 ^ k - 1 by omega]
      exact ih.2
    have h3 : (2 ^ (k + 1) &&& (2 ^ (k + 1) - 1)) % 2 = 0 := by
      rw [Nat.and_mod_two_pow (n := 1)]
      rw [show 2 ^ (k + 1) % 2 ^ 1 = 0 by omega]
      simp
    omega

theorem log_pow2 (k : Nat) : power_of_2_log (2 ^ k) = k := by
  induction k with
  | zero => unfold power_of_2_log; simp
  | succ k ih =>
    have hp : 0 < 2 ^ k := Nat.pow_pos (by decide)
    unfold power_of_2_log
    rw [dif_pos (by omega), show 2 ^ (k + 1) / 2 = 2 ^ k by omega, ih]

theorem wf_setReg {w : Nat} {s : MS} (h : Wf w s) (r : Nat) {v : Int} (hv : sgn w v = v) :
    Wf w (setReg s r v) := by
  intro x
  simp only [setReg]
  split
  · exact hv
  · exact h x

theorem doublings_run (w : Nat) (reg k : Nat) (s : MS) (hwf : Wf w s) :
    ∃ s', run w s (doublings reg (2 ^ k)) = some s' ∧ s'.reg reg = sgn w (s.reg reg * 2 ^ k) ∧
      Wf w s' ∧ s'.mem = s.mem ∧ ∀ r, r ≠ reg → s'.reg r = s.reg r := by
  induction k generalizing s with
  | zero =>
    refine ⟨s, ?_, ?_, hwf, rfl, fun r _ => rfl⟩
    · unfold doublings; simp [run_nil]
    · simp [hwf reg]
  | succ k ih =>
    have hp : 0 < 2 ^ k := Nat.pow_pos (by decide)
    unfold doublings
    rw [dif_pos (by omega), show 2 ^ (k + 1) / 2 = 2 ^ k by omega]
    let s1 := setReg s reg (sgn w (s.reg reg + s.reg reg))
    obtain ⟨s', h1, h2, h3, h4, h5⟩ := ih s1 (wf_setReg hwf reg (sgn_sgn w _))
    refine ⟨s', ?_, ?_, h3, h4, ?_⟩
    · simp only [run, List.map_cons, Emit.intended, execs, exec1, if_true]
      exact h1
    · rw [h2]
      simp only [s1, setReg, if_true]
      rw [sgn_mul_l]
      congr 1
      rw [Int.pow_succ]
      rw [← Int.two_mul, Int.mul_comm 2, Int.mul_assoc, Int.mul_comm 2]
    · intro r hr
      rw [h5 r hr]
      simp [s1, setReg, hr]

/-- The scaling code multiplies its register by the width and disturbs nothing but one word below
the stack pointer. -/
theorem mul_run (w : Nat) (hw : w = 4 ∨ w = 8) (reg width : Nat) (hreg : reg ≠ 4)
    (hw0 : 1 ≤ width) (s : MS) (hwf : Wf w s) :
    ∃ s', run w s (mul_for_pointer_arith reg width) = some s' ∧
      s'.reg reg = sgn w (s.reg reg * width) ∧ Eff w s s' [reg] (s.reg 4 - w) w := by
  unfold mul_for_pointer_arith
  simp only []
  split
  · rename_i h
    subst h
    exact ⟨s, rfl, by simp [hwf reg], hwf, fun _ _ => rfl, fun _ _ => rfl⟩
  split
  · rename_i h
    obtain ⟨k, rfl⟩ := isPow2 h
    obtain ⟨s', h1, h2, h3, h4, h5⟩ := doublings_run w reg k s hwf
    refine ⟨s', h1, ?_, h3, ?_, ?_⟩
    · rw [h2]; push_cast; rfl
    · intro r hr; exact h5 r (by simpa using hr)
    · intro x _; rw [h4]
  · generalize ho : (if reg = 0 then 1 else 0) = o
    have ho4 : o ≠ 4 := by rw [← ho]; split <;> decide
    have hor : o ≠ reg := by rw [← ho]; split <;> omega
    have hrd : sgn w (rd w (wr w s.mem (sgn w (s.reg 4 - w)) (s.reg o) w) (sgn w (s.reg 4 - w)) w) = s.reg o := by
      rw [rd_wr_word hw, hwf o]
    have hsp : sgn w (sgn w (s.reg 4 - w) + w) = s.reg 4 := by
      rw [sgn_add_l, show s.reg 4 - (w:Int) + w = s.reg 4 by omega, hwf 4]
    refine ⟨_, by simp only [run, List.map_cons, List.map_nil, Emit.intended, execs, exec1, if_true]; rfl, ?_, ?_, ?_, ?_⟩
    · simp [setReg, ho4, hor, hor.symm, hreg, hrd, sgn_mul_r]
    · intro r
      simp only [setReg, ho4, hor, hor.symm, hreg, hreg.symm, Ne.symm ho4, if_true, if_false, hrd, hsp, sgn_sgn, sgn_mul_r]
      split
      · exact hwf _
      split
      · exact hwf _
      split
      · exact sgn_sgn w _
      · exact hwf r
    · intro r hr
      simp only [List.mem_singleton] at hr
      simp only [setReg, ho4, hor, hor.symm, hreg, hreg.symm, Ne.symm ho4, if_true, if_false, hrd, hsp]
      split
      · subst_vars; rfl
      split
      · subst_vars; rfl
      simp_all
    · intro x hx
      show (wr w s.mem (sgn w (s.reg 4 - w)) (s.reg o) w) x = _
      apply wr_out
      rw [inR_addr (b := s.reg 4 - w) (uns_sgn w _)]
      exact hx

theorem log_lt {k : Nat} (h : (2:Nat) ^ k < 2147483648) : k < 31 := by
  rcases Nat.lt_or_ge k 31 with h' | h'
  · exact h'
  · have := Nat.pow_le_pow_right (n := 2) (by decide) h'
    omega

theorem ediv_bounds {x B d : Int} (hd : 0 < d) (hB : 0 ≤ B) (h1 : -B ≤ x) (h2 : x < B) :
    -B ≤ x / d ∧ x / d < B := by
  have hm : 0 ≤ B * (d - 1) := Int.mul_nonneg hB (by omega)
  have e : B * d = B * (d - 1) + B := by rw [Int.mul_sub]; omega
  refine ⟨Int.le_ediv_of_mul_le hd ?_, Int.ediv_lt_of_lt_mul hd ?_⟩
  · rw [Int.neg_mul]; omega
  · omega

theorem sgn_ediv {w : Nat} (hw : w = 4 ∨ w = 8) {x d : Int} (hx : sgn w x = x) (hd : 0 < d) :
    sgn w (x / d) = x / d := by
  have hb := sgn_bounds hw x
  rw [hx] at hb
  have := ediv_bounds hd (by omega) hb.1 hb.2
  exact sgn_id hw this.1 this.2

/-- The division code on `reg_X`: exact for a power of two, and for other widths when the register
holds a nonnegative number. -/
theorem div_run (w : Nat) (hw : w = 4 ∨ w = 8) (width : Nat) (hw0 : 1 ≤ width)
    (hwb : width < 2147483648) (s : MS) (hwf : Wf w s)
    (hn : is_power_of_2 width = true ∨ 0 ≤ s.reg 0) :
    ∃ s', run w s (div_for_pointer_arith 0 width) = some s' ∧
      s'.reg 0 = s.reg 0 / width ∧ Eff w s s' [0, 2] (s.reg 4 - w) w := by
  have hrd : sgn w (rd w (wr w s.mem (sgn w (s.reg 4 - w)) (s.reg 1) w) (sgn w (s.reg 4 - w)) w) = s.reg 1 := by
    rw [rd_wr_word hw, hwf 1]
  have hsp : sgn w (sgn w (s.reg 4 - w) + w) = s.reg 4 := by
    rw [sgn_add_l, show s.reg 4 - (w:Int) + w = s.reg 4 by omega, hwf 4]
  have hmem : ∀ x, ¬ InR w (s.reg 4 - w) w x →
      (wr w s.mem (sgn w (s.reg 4 - w)) (s.reg 1) w) x = s.mem x := by
    intro x hx
    apply wr_out
    rw [inR_addr (b := s.reg 4 - w) (uns_sgn w _)]
    exact hx
  have hb := sgn_bounds hw (s.reg 0)
  rw [hwf 0] at hb
  unfold div_for_pointer_arith
  split
  · rename_i h
    subst h
    exact ⟨s, rfl, by simp, hwf, fun _ _ => rfl, fun _ _ => rfl⟩
  split
  · rename_i h
    obtain ⟨k, rfl⟩ := isPow2 h
    have hk := log_lt hwb
    have hcnt : (sgn w (k : Nat) % ((8 * w : Nat) : Int)).toNat = k := by
      rw [sgn_id hw (by omega) (by rcases hw with rfl | rfl <;> omega),
        Int.emod_eq_of_lt (by omega) (by rcases hw with rfl | rfl <;> omega)]
      rfl
    have hcnt' : (sgn w (k : Nat) % (8 * (w : Int))).toNat = k := by simpa using hcnt
    have hq : sgn w (s.reg 0 / 2 ^ k) = s.reg 0 / 2 ^ k := by
      have hp : (0:Int) < 2 ^ k := Int.pow_pos (by decide)
      exact sgn_ediv hw (hwf 0) hp
    rw [log_pow2]
    refine ⟨_, by simp only [run, List.map_cons, List.map_append, List.map_nil, Emit.intended, List.cons_append, List.nil_append, ne_eq, not_true_eq_false, if_false, execs, exec1, if_true]; rfl, ?_, ?_, ?_, ?_⟩
    · simp [setReg, hcnt']
    · intro r
      simp [setReg, hrd, hsp, hcnt']
      split
      · exact hwf _
      split
      · exact hwf _
      split
      · exact hq
      · exact hwf r
    · intro r hr
      simp at hr
      simp [setReg, hrd, hsp, hr]
      split
      · subst_vars; rfl
      split
      · subst_vars; rfl
      simp_all
    · exact hmem
  · rename_i h1 h2
    have hn : 0 ≤ s.reg 0 := hn.resolve_left h2
    have hu : uns w (s.reg 0) = s.reg 0 := uns_of_lt hn (by rcases hw with rfl | rfl <;> omega)
    have hwd : sgn w (width : Int) = width := sgn_id hw (by omega) (by rcases hw with rfl | rfl <;> omega)
    have huw : uns w (width : Int) = width := uns_of_lt (by omega) (by rcases hw with rfl | rfl <;> omega)
    have hd0 : (width : Int) ≠ 0 := by omega
    have hq := sgn_ediv hw (hwf 0) (d := width) (by omega)
    have hq0 : 0 ≤ s.reg 0 / width := Int.ediv_nonneg hn (by omega)
    have huq : uns w (s.reg 0 / width) = s.reg 0 / width := by
      have hb := sgn_bounds hw (s.reg 0 / width)
      rw [hq] at hb
      exact uns_of_lt hq0 (by rcases hw with rfl | rfl <;> omega)
    have hz : uns w (sgn w 0) = 0 := by rw [uns_sgn]; exact uns_of_lt (by omega) (two_pos w)
    refine ⟨_, by
      simp only [run, List.map_cons, List.map_append, List.map_nil, Emit.intended, List.cons_append, List.nil_append, ne_eq, not_true_eq_false, if_false, execs, exec1, if_true, setReg, hwd, huw, hu, hz, Int.zero_mul, Int.zero_add, hd0, huq,
        show ¬ ((1:Nat) = 0) by decide, show ¬ ((1:Nat) = 2) by decide, show ¬ ((2:Nat) = 0) by decide, show ¬ ((0:Nat) = 2) by decide, show ¬ ((0:Nat) = 1) by decide, show ¬ ((0:Nat) = 4) by decide, show ¬ ((1:Nat) = 4) by decide]; rfl, ?_, ?_, ?_, ?_⟩
    · simp [hq]
    · intro r
      simp [hrd, hsp, hq]
      split
      · exact hwf _
      split
      · exact hwf _
      split
      · exact hq
      split
      · exact sgn_sgn w _
      · exact hwf r
    · intro r hr
      simp at hr
      simp [hrd, hsp, hr]
      split
      · subst_vars; rfl
      split
      · subst_vars; rfl
      simp_all
    · exact hmem

/-- The value of an object of `k` bytes at address `a`, read as a signed or unsigned integer. -/
def Spec.objVal (w : Nat) (m : Int → Nat) (a : Int) (k : Nat) (sg : Bool) : Int :=
  if sg then Int.bmod (rd w m a k) (2 ^ (8 * k)) else (rd w m a k : Int)

theorem rd_lt (w : Nat) (m : Int → Nat) : ∀ k a, rd w m a k < 2 ^ (8 * k) := by
  intro k
  induction k with
  | zero => intro a; simp [rd]
  | succ k ih =>
    intro a
    rw [rd, show 8 * (k + 1) = 8 + 8 * k by omega, Nat.pow_add]
    have := ih (a + 1)
    have h256 : m (uns w a) % 256 < 256 := Nat.mod_lt _ (by decide)
    generalize rd w m (a + 1) k = z at *
    generalize 2 ^ (8 * k) = P at *
    omega

/-- A load leaves the word that represents the value of the object. -/
theorem load_run {w : Nat} (hw : w = 4 ∨ w = 8) {d b : Nat} {o : Int} {k : Nat} {sg : Bool}
    {es : List Emit} (h : load_mem_location w d b o k sg = .ok es) (s : MS) :
    run w s es = some (setReg s d (sgn w (Spec.objVal w s.mem (s.reg b + o) k sg))) := by
  have hlt := rd_lt w s.mem k (s.reg b + o)
  have b1 := @Int.bmod_lt (rd w s.mem (s.reg b + o) k) (2 ^ (8 * k)) (Nat.pow_pos (by decide))
  have b2 := @Int.le_bmod (rd w s.mem (s.reg b + o) k) (2 ^ (8 * k)) (Nat.pow_pos (by decide))
  have hs : k < w → sgn w (Int.bmod (rd w s.mem (s.reg b + o) k) (2 ^ (8 * k))) =
        Int.bmod (rd w s.mem (s.reg b + o) k) (2 ^ (8 * k)) := by
    intro hk
    have h2 : (2:Nat) ^ (8 * k) ≤ 2 ^ (8 * w - 1) := Nat.pow_le_pow_right (by decide) (by omega)
    generalize Int.bmod (rd w s.mem (s.reg b + o) k) (2 ^ (8 * k)) = z at *
    generalize 2 ^ (8 * k) = P at *
    apply sgn_id hw <;> omega
  have hu : k < w → sgn w (rd w s.mem (s.reg b + o) k : Int) = rd w s.mem (s.reg b + o) k := by
    intro hk
    have h2 : (2:Nat) ^ (8 * k) ≤ 2 ^ (8 * w - 1) := Nat.pow_le_pow_right (by decide) (by omega)
    apply sgn_id hw <;> omega
  unfold load_mem_location at h
  split at h
  all_goals
    rename_i hsg
    split at h
    · rename_i hk
      subst hk
      simp only [Res.ok.injEq] at h
      subst h
      rcases hw with rfl | rfl
      all_goals first
        | (simp [run, Emit.intended, execs, exec1, Spec.objVal, hsg]
           have := hs (by decide)
           simp at this; rw [this])
        | (simp [run, Emit.intended, execs, exec1, Spec.objVal, hsg]
           rw [hu (by decide)])
    split at h
    · rename_i hk
      subst hk
      simp only [Res.ok.injEq] at h
      subst h
      rcases hw with rfl | rfl
      all_goals first
        | (simp [run, Emit.intended, execs, exec1, Spec.objVal, hsg]
           have := hs (by decide)
           simp at this; rw [this])
        | (simp [run, Emit.intended, execs, exec1, Spec.objVal, hsg]
           rw [hu (by decide)])
    split at h
    · rename_i hk
      subst hk
      rcases hw with rfl | rfl
      all_goals
        simp at h
        subst h
      all_goals first
        | (simp [run, Emit.intended, execs, exec1, Spec.objVal, hsg]
           have := hs (by decide)
           simp at this; rw [this])
        | (simp [run, Emit.intended, execs, exec1, Spec.objVal, hsg]
           done)
        | (simp [run, Emit.intended, execs, exec1, Spec.objVal, hsg, sgn]
           done)
    split at h
    · rename_i hk
      obtain ⟨hk, h8⟩ := hk
      subst hk h8
      simp only [Res.ok.injEq] at h
      subst h
      first
        | (simp [run, Emit.intended, execs, exec1, Spec.objVal, hsg]
           done)
        | (simp [run, Emit.intended, execs, exec1, Spec.objVal, hsg, sgn]
           done)
    · simp at h

end Verif.Gen
