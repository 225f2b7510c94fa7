import Verif.Sys.Proofs4
/-! Registers stay words; the process is deterministic. -/
namespace Verif.Sys
open Verif Verif.X86 Verif.X86.Spec Verif.Cg Verif.Rt Spec

theorem wf_set {w : Nat} {s : MS} (h : Wf w s) (r : Nat) {v : Int} (hv : sgn w v = v) : Wf w (setReg s r v) := Gen.wf_setReg h r hv

theorem wf_abs {w : Nat} (hw : w = 4 ∨ w = 8) {s : MS} (h : Wf w s) (r : Nat) :
    -((2 ^ (8 * w - 1) : Nat) : Int) ≤ s.reg r ∧ s.reg r < (2 ^ (8 * w - 1) : Nat) := by
  rw [← h r]; exact sgn_bounds hw _

theorem bits_wf (w : Nat) (op : BitVec (8 * w) → BitVec (8 * w) → BitVec (8 * w)) (a b : Int) : sgn w (bits w op a b) = bits w op a b := by
  unfold bits sgn
  exact BitVec.toInt_bmod_cancel _

theorem rd_lt (w : Nat) (m : Int → Nat) : ∀ k a, rd w m a k < 2 ^ (8 * k) := by
  intro k
  induction k with
  | zero => intro a; simp [rd]
  | succ k ih =>
    intro a
    have := ih (a + 1)
    have h2 : 2 ^ (8 * (k + 1)) = 256 * 2 ^ (8 * k) := by rw [Nat.mul_add, Nat.pow_add]; omega
    simp only [rd]
    omega

theorem small_le {w k : Nat} (h : k < w) : 2 ^ (8 * k) ≤ 2 ^ (8 * w - 1) := Nat.pow_le_pow_right (by decide) (by omega)

/-- Execution keeps the registers words. -/
theorem exec_wf {w : Nat} (hw : w = 4 ∨ w = 8) {s s' : MS} {i : Insn} (h : Wf w s) (e : exec1 w s i = some s') : Wf w s' := by
  unfold exec1 at e
  split at e
  · split at e
    · rename_i op _ d r _
      cases op with
      | add => cases e; exact wf_set h _ (sgn_sgn ..)
      | sub => cases e; exact wf_set h _ (sgn_sgn ..)
      | or => cases e; exact wf_set h _ (bits_wf ..)
      | and => cases e; exact wf_set h _ (bits_wf ..)
      | xor => cases e; exact wf_set h _ (bits_wf ..)
      | cmp => cases e; exact h
      | mov => cases e; exact wf_set h _ (h _)
    · cases e
  · split at e <;> cases e
    exact wf_set h _ (sgn_sgn ..)
  · split at e <;> cases e
    exact wf_set h _ (sgn_sgn ..)
  · split at e <;> cases e
    exact wf_set h _ (sgn_sgn ..)
  · split at e <;> cases e
    refine wf_set h _ ?_
    split
    · rcases hw with rfl | rfl <;> decide
    · rcases hw with rfl | rfl <;> decide
  · split at e
    · rename_i r _
      simp only at e
      split at e
      · cases e
      · split at e
        · rename_i hd hq
          cases e
          refine wf_set (wf_set h _ hq) _ ?_
          generalize s.reg 2 * 2 ^ (8 * w) + uns w (s.reg 0) = n
          have ⟨b1, b2⟩ := wf_abs hw h r
          have b3 : (n.tmod (s.reg r)).natAbs < (s.reg r).natAbs := by
            rw [Int.natAbs_tmod]; exact Nat.mod_lt _ (by omega)
          exact sgn_id hw (by omega) (by omega)
        · cases e
    · cases e
  · split at e
    · simp only at e
      split at e
      · cases e
      · split at e
        · cases e
          exact wf_set (wf_set h _ (sgn_sgn ..)) _ (sgn_sgn ..)
        · cases e
    · cases e
  · split at e
    · rename_i op _ d _
      cases op <;> cases e
      · exact wf_set h _ (sgn_sgn ..)
      · exact wf_set h _ (sgn_sgn ..)
      · refine wf_set h _ ?_
        have ⟨b1, b2⟩ := wf_abs hw h d
        generalize (s.reg 1 % (8 * w : Nat)).toNat = c
        have hp : (0 : Int) < 2 ^ c := Int.pow_pos (by decide)
        have c1 : s.reg d / 2 ^ c < (2 ^ (8 * w - 1) : Nat) := by
          rcases Int.lt_or_le (s.reg d) 0 with hn | hn
          · have := Int.ediv_neg_of_neg_of_pos hn hp
            omega
          · have := Int.ediv_le_self (2 ^ c) hn
            omega
        have c2 : -((2 ^ (8 * w - 1) : Nat) : Int) ≤ s.reg d / 2 ^ c := by
          rw [Int.le_ediv_iff_mul_le hp]
          have : ((2 ^ (8 * w - 1) : Nat) : Int) ≤ ((2 ^ (8 * w - 1) : Nat) : Int) * 2 ^ c := by
            have := Int.mul_le_mul_of_nonneg_left (c := ((2 ^ (8 * w - 1) : Nat) : Int)) (show (1 : Int) ≤ 2 ^ c by omega) (by omega)
            omega
          rw [Int.neg_mul]
          omega
        exact sgn_id hw c2 c1
    · cases e
  · cases e
    intro r
    exact wf_set h 4 (sgn_sgn ..) r
  · cases e
    exact wf_set (wf_set h _ (sgn_sgn ..)) _ (sgn_sgn ..)
  · split at e <;> cases e
    exact h
  · split at e <;> cases e
    exact wf_set h _ (sgn_sgn ..)
  · split at e
    · rename_i sg msz sz d b o hc
      cases e
      refine wf_set h _ ?_
      have hm := rd_lt w s.mem msz (s.reg b + o)
      have hs := small_le (w := w) (k := msz) (by omega)
      split
      · have h1 := @Int.bmod_lt (rd w s.mem (s.reg b + o) msz) (2 ^ (8 * msz)) (Nat.pow_pos (by decide))
        have h2 := @Int.le_bmod (rd w s.mem (s.reg b + o) msz) (2 ^ (8 * msz)) (Nat.pow_pos (by decide))
        exact sgn_id hw (by omega) (by omega)
      · exact sgn_id hw (by omega) (by omega)
    · cases e
  · cases e

theorem step_wf {w : Nat} (hw : w = 4 ∨ w = 8) {base : Int} {P : List Asm} {a b : Nat × MS} (h : Wf w a.2) (st : Step w base P a b) : Wf w b.2 := by
  cases st with
  | ins _ e => exact exec_wf hw h e
  | lbl _ => exact h
  | jmp _ _ => exact h
  | jccT _ _ _ => exact h
  | jccF _ _ => exact h
  | call _ _ => intro r; exact wf_set h 4 (sgn_sgn ..) r
  | ret _ _ _ => exact wf_set h _ (sgn_sgn ..)

/-- The registers of a running process are words. -/
def CfgWf {W : Type} (w : Nat) : Cfg W → Prop
  | .run _ s _ => Wf w s
  | .done _ _ => True

theorem pstep_wf {W : Type} {os : OS W} {w : Nat} (hw : w = 4 ∨ w = 8) {base : Int} {P : List Asm} {a b : Cfg W} (h : CfgWf w a) (st : PStep os w base P a b) : CfgWf w b := by
  cases st with
  | cpu st => exact step_wf (a := (_, _)) hw h st
  | sys _ _ _ =>
    intro r
    show sgn w (sysReg ..) = sysReg ..
    unfold sysReg
    split
    · exact sgn_sgn ..
    · split
      · exact sgn_sgn ..
      · split
        · exact sgn_sgn ..
        · exact h r
  | exit _ _ _ => trivial

theorem psteps_wf {W : Type} {os : OS W} {w : Nat} (hw : w = 4 ∨ w = 8) {base : Int} {P : List Asm} {a b : Cfg W} (h : CfgWf w a) (st : PSteps os w base P a b) : CfgWf w b := by
  induction st with
  | refl => exact h
  | head s _ ih => exact ih (pstep_wf hw h s)

theorem cstr_unique {w : Nat} {m : Int → Nat} {a : Int} {p q : List Nat} (hp : CStr w m a p) (hq : CStr w m a q) : p = q := by
  have key : ∀ {p q : List Nat}, CStr w m a p → CStr w m a q → p.length ≤ q.length := by
    intro p q ⟨p1, p2, p3⟩ ⟨q1, q2, q3⟩
    rcases Nat.lt_or_ge q.length p.length with hl | hl
    · exfalso
      apply p2
      rw [← p1]
      unfold bytes
      exact List.mem_map.2 ⟨q.length, List.mem_range.2 hl, q3⟩
    · exact hl
  have e := Nat.le_antisymm (key hp hq) (key hq hp)
  rw [← hp.1, ← hq.1, e]

def nrs (w k : Nat) : Int := ([nrRead w, nrWrite w, nrOpen w, nrClose w, nrLseek w, nrUnlink w, nrMmap w][k]?).getD 1000
def form {W : Type} (os : OS W) (w : Nat) (s : MS) (σ : W) (p : List Nat) : Nat → Answer W
  | 0 => (let r := os.read σ (sgn 4 (arg w s 0)) (uns w (arg w s 2)); ⟨r.1, readResult r.2, stored w (arg w s 1) (readBytes r.2)⟩)
  | 1 => (let r := os.serve σ (.write (sgn 4 (arg w s 0)) (bytes w s.mem (arg w s 1) (uns w (arg w s 2)).toNat)); ⟨r.1, r.2, fun _ => none⟩)
  | 2 => (let r := os.serve σ (.open_ p (sgn 4 (arg w s 1)) (sgn 4 (arg w s 2))); ⟨r.1, r.2, fun _ => none⟩)
  | 3 => (let r := os.serve σ (.close (sgn 4 (arg w s 0))); ⟨r.1, r.2, fun _ => none⟩)
  | 4 => (let r := os.serve σ (.lseek (sgn 4 (arg w s 0)) (arg w s 1) (sgn 4 (arg w s 2))); ⟨r.1, r.2, fun _ => none⟩)
  | 5 => (let r := os.serve σ (.unlink p); ⟨r.1, r.2, fun _ => none⟩)
  | _ => (let r := os.serve σ (.alloc (uns w (arg w s 1)))
        ⟨r.1, r.2, if -4096 < r.2 ∧ r.2 < 0 then fun _ => none else zeroed w r.2 (uns w (arg w s 1))⟩)

theorem serves_form {W : Type} {os : OS W} {w : Nat} {s : MS} {σ : W} {A : Answer W} (h : Serves os w s σ A) :
    ∃ k p, k < 7 ∧ s.reg 0 = nrs w k ∧ (k = 2 ∨ k = 5 → CStr w s.mem (arg w s 0) p) ∧ (¬ (k = 2 ∨ k = 5) → p = []) ∧ A = form os w s σ p k := by
  cases h with
  | read e => exact ⟨0, [], by omega, e, by omega, fun _ => rfl, rfl⟩
  | write e => exact ⟨1, [], by omega, e, by omega, fun _ => rfl, rfl⟩
  | open_ e c => exact ⟨2, _, by omega, e, fun _ => c, by omega, rfl⟩
  | close e => exact ⟨3, [], by omega, e, by omega, fun _ => rfl, rfl⟩
  | lseek e => exact ⟨4, [], by omega, e, by omega, fun _ => rfl, rfl⟩
  | unlink e c => exact ⟨5, _, by omega, e, fun _ => c, by omega, rfl⟩
  | mmap e _ _ _ _ _ => exact ⟨6, [], by omega, e, by omega, fun _ => rfl, rfl⟩

theorem nrs_inj {w : Nat} (hw : w = 4 ∨ w = 8) : ∀ i < 7, ∀ j < 7, nrs w i = nrs w j → i = j := by
  rcases hw with rfl | rfl <;> decide

theorem serves_det {W : Type} {os : OS W} {w : Nat} (hw : w = 4 ∨ w = 8) {s : MS} {σ : W} {A B : Answer W} (h1 : Serves os w s σ A) (h2 : Serves os w s σ B) : A = B := by
  obtain ⟨i, p, i7, e, c, n, rfl⟩ := serves_form h1
  obtain ⟨j, q, j7, e', c', n', rfl⟩ := serves_form h2
  have := nrs_inj hw i i7 j j7 (e.symm.trans e')
  subst this
  congr 1
  by_cases hk : i = 2 ∨ i = 5
  · exact cstr_unique (c hk) (c' hk)
  · rw [n hk, n' hk]

theorem serves_exit {W : Type} {os : OS W} {w : Nat} (hw : w = 4 ∨ w = 8) {s : MS} {σ : W} {A : Answer W} (h1 : Serves os w s σ A) : s.reg 0 ≠ nrExit w := by
  obtain ⟨k, p, k7, e, _⟩ := serves_form h1
  have key : ∀ k < 7, nrs w k ≠ nrExit w := by rcases hw with rfl | rfl <;> decide
  rw [e]; exact key k k7

theorem sys_stuck {w : Nat} {base : Int} {P : List Asm} {pc : Nat} {s : MS} {e : Emit} {c : Nat × MS} (h : P[pc]? = some (.ins e)) (hs : isSys w (e.intended w)) :
    ¬ Step w base P (pc, s) c := by
  intro st
  cases st with
  | ins h' x =>
    rw [h] at h'; cases h'
    rcases hs with ⟨rfl, hs⟩ | ⟨rfl, hs⟩ <;> rw [hs] at x <;> cases x
  | lbl h' => rw [h] at h'; cases h'
  | jmp h' _ => rw [h] at h'; cases h'
  | jccT h' _ _ => rw [h] at h'; cases h'
  | jccF h' _ => rw [h] at h'; cases h'
  | call h' _ => rw [h] at h'; cases h'
  | ret h' _ _ => rw [h] at h'; cases h'

/-- One step of a process is determined. -/
theorem pstep_det {W : Type} {os : OS W} {w : Nat} {base : Int} {P : List Asm} (hw : w = 4 ∨ w = 8) (hu : Uniq P) (h0 : 0 ≤ base)
    (hfit : adr w base P P.length < (2 ^ (8 * w - 1) : Nat)) {a b c : Cfg W} (h1 : PStep os w base P a b) (h2 : PStep os w base P a c) : b = c := by
  cases h1 with
  | cpu s1 =>
    cases h2 with
    | cpu s2 => cases step_det hw hu h0 hfit s1 s2; rfl
    | sys g e _ => exact (sys_stuck g e s1).elim
    | exit g e _ => exact (sys_stuck g e s1).elim
  | sys g e S =>
    cases h2 with
    | cpu s2 => exact (sys_stuck g e s2).elim
    | sys g' _ S' => rw [g] at g'; cases g'; cases serves_det hw S S'; rfl
    | exit _ _ x => exact (serves_exit hw S x).elim
  | exit g e x =>
    cases h2 with
    | cpu s2 => exact (sys_stuck g e s2).elim
    | sys _ _ S => exact (serves_exit hw S x).elim
    | exit g' _ _ => rfl

theorem psteps_det {W : Type} {os : OS W} {w : Nat} {base : Int} {P : List Asm} (hw : w = 4 ∨ w = 8) (hu : Uniq P) (h0 : 0 ≤ base)
    (hfit : adr w base P P.length < (2 ^ (8 * w - 1) : Nat)) {a : Cfg W} {n n' : Nat} {σ σ' : W} (h1 : PSteps os w base P a (.done n σ))
    (h2 : PSteps os w base P a (.done n' σ')) : n = n' ∧ σ = σ' := by
  generalize hb : Cfg.done n σ = b at h1
  induction h1 with
  | refl =>
    subst hb
    cases h2 with
    | refl => exact ⟨rfl, rfl⟩
    | head s _ => cases s
  | head s _ ih =>
    cases h2 with
    | refl => cases s
    | head s2 t => exact ih (pstep_det hw hu h0 hfit s s2 ▸ t) hb

/-- The crash code has a system call, so that the processor alone does not get past it. -/
theorem crash_stay {w : Nat} (hw : w = 4 ∨ w = 8) {base : Int} {P : List Asm} {i : Nat} {msg : List Nat} (hat : At P i (I (rt_crash w msg))) (s : MS) (c : Nat × MS)
    (h : Steps w base P (i, s) c) : i ≤ c.1 ∧ c.1 < i + (I (rt_crash w msg)).length := by
  obtain ⟨q, e, hq, hq2, hs⟩ : ∃ q e, q < (I (rt_crash w msg)).length ∧ (I (rt_crash w msg))[q]? = some (.ins e) ∧ isSys w (e.intended w) := by
    have : ∃ e ∈ rt_crash w msg, isSys w (e.intended w) := by
      rcases hw with rfl | rfl
      · exact ⟨.int_i8 0x80, by simp [rt_crash, os_exit, syscall_3], .inl ⟨rfl, rfl⟩⟩
      · exact ⟨.syscall_, by simp [rt_crash, os_exit, syscall_3], .inr ⟨rfl, rfl⟩⟩
    obtain ⟨e, he, hs⟩ := this
    obtain ⟨q, hq, e1⟩ := List.mem_iff_getElem.1 he
    exact ⟨q, e, by rw [I_length]; exact hq, by simp [I, e1, hq], hs⟩
  suffices key : ∀ a : Nat × MS, i ≤ a.1 → a.1 ≤ i + q → Steps w base P a c → i ≤ c.1 ∧ c.1 ≤ i + q by
    have := key (i, s) (by simp) (by simp) h
    omega
  intro a h1 h2 hst
  clear h
  induction hst with
  | refl => exact ⟨h1, h2⟩
  | @head a b _ st _ ih =>
    have hat2 := hat (a.1 - i) (by omega)
    rw [show i + (a.1 - i) = a.1 by omega] at hat2
    rcases Nat.lt_or_ge a.1 (i + q) with hlt | hge
    · have hins : ∃ e, P[a.1]? = some (.ins e) := by
        rw [hat2, List.getElem?_eq_getElem (by omega)]
        exact ⟨(rt_crash w msg)[a.1 - i]'(by rw [I_length] at hq; omega), by simp [I]⟩
      obtain ⟨e', he'⟩ := hins
      obtain ⟨pc, s0⟩ := a
      have hb : b.1 = pc + 1 := by
        cases st with
        | ins _ _ => rfl
        | lbl _ => rfl
        | jmp h' _ => rw [he'] at h'; cases h'
        | jccT h' _ _ => rw [he'] at h'; cases h'
        | jccF h' _ => rfl
        | call h' _ => rw [he'] at h'; cases h'
        | ret h' _ _ => rw [he'] at h'; cases h'
      simp only at h1 hlt
      exact ih (by omega) (by omega)
    · have he : a.1 = i + q := by omega
      have : P[a.1]? = some (.ins e) := by rw [hat2, show a.1 - i = q by omega, hq2]
      exact (sys_stuck (s := a.2) this hs st).elim

end Verif.Sys
