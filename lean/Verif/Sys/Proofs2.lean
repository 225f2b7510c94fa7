import Verif.Sys.Proofs
/-! Proofs for the run-time functions. -/
namespace Verif.Sys
open Verif Verif.X86 Verif.X86.Spec Verif.Cg Verif.Rt Spec

/-- Calling a function, running its body and returning. -/
theorem leaf {W : Type} {os : OS W} {w : Nat} {base : Int} {P : List Asm} {i n k : Nat} {body : List Asm} {s : MS} {σ σ' : W} {sp v : Int} {st : Int → Option Nat}
    (hw : w = 4 ∨ w = 8) (hl : P[i]? = some (.lbl n)) {j : Nat} (hret : P[i + 1 + j]? = some .ret) (hc : Calls w P n k sp s)
    (hst : ∀ x, sp - w ≤ x → x < sp → st x = none)
    (hb : ∀ s0 : MS, s0.reg 4 = sgn w (sp - w) → (∀ r, r ≠ 4 → s0.reg r = s.reg r) → (∀ x, ¬ (sp - w ≤ x ∧ x < sp) → s0.mem x = s.mem x) →
      ∃ s1, PSteps os w base P (.run (i + 1) s0 σ) (.run (i + 1 + j) s1 σ') ∧ s1.reg 4 = s0.reg 4 ∧ s1.reg 3 = s0.reg 3 ∧ s1.reg 0 = sgn w v ∧
        ∀ x, ¬ (sp - 3 * w ≤ x ∧ x < sp - w) → s1.mem x = (st x).getD (s0.mem x)) :
    CallGives os w base P k sp s σ v σ' st := by
  obtain ⟨hk, h4, h3, low, high⟩ := hc
  have wp : 0 < w := by rcases hw with rfl | rfl <;> omega
  let s0 : MS := { setReg s 4 (sgn w (sp - w)) with mem := called w base P k s.mem sp }
  have st1 : Step w base P (k, s) (i, s0) := by
    have : Step w base P (k, s) _ := .call hk hl
    rw [h4, sgn_sub_l] at this
    exact this
  have hm0 : ∀ x, ¬ (sp - w ≤ x ∧ x < sp) → s0.mem x = s.mem x := by
    intro x hx
    show called w base P k s.mem sp x = _
    unfold called
    rw [← wr_addr w w s.mem (sp - w) (sgn w (sp - w)) _ (uns_sgn ..).symm,
      wr_out w w _ _ _ _ (by rw [inR_iff (by omega) (by omega)]; omega)]
  obtain ⟨s1, p, e4, e3, e0, em⟩ := hb s0 rfl (fun r hr => by simp [s0, setReg, hr]) hm0
  have ra : sgn w (rd w s1.mem (s1.reg 4) w) = sgn w (adr w base P (k + 1)) := by
    show cell w s1.mem (s1.reg 4) = _
    rw [e4, show s0.reg 4 = sgn w (sp - w) from rfl, cell_addr (sgn_sgn w (sp - w))]
    have : cell w s1.mem (sp - w) = cell w s0.mem (sp - w) := by
      refine word_congr (by omega) (by omega) ?_
      intro x h1 h2
      rw [em x (by omega), hst x (by omega) (by omega)]; rfl
    rw [this]
    show sgn w (rd w (wr w s.mem (sgn w (sp - w)) (sgn w (adr w base P (k + 1))) w) (sp - w) w) = _
    rw [← wr_addr w w s.mem (sp - w) (sgn w (sp - w)) _ (uns_sgn ..).symm, rd_wr_word hw, sgn_sgn]
  have st3 : Step w base P (i + 1 + j, s1) (k + 1, setReg s1 4 (sgn w (s1.reg 4 + w))) := .ret hret hk ra
  refine ⟨setReg s1 4 (sgn w (s1.reg 4 + w)), ?_, ?_, ?_, ?_, ?_⟩
  · exact .head (.cpu st1) (.head (.cpu (.lbl hl)) (p.trans (.one (.cpu st3))))
  · exact e0
  · show sgn w (s1.reg 4 + w) = _
    rw [e4, show s0.reg 4 = sgn w (sp - w) from rfl, sgn_add_l, h4]; congr 1; omega
  · show s1.reg 3 = s.reg 3
    rw [e3]; rfl
  · intro x hx
    show s1.mem x = _
    rw [em x (by omega), hm0 x (by omega)]

theorem sgn_lt {w : Nat} (hw : w = 4 ∨ w = 8) {x : Int} (h0 : 0 ≤ x) (h1 : x < 1000) : sgn w x = x := by
  rcases hw with rfl | rfl <;> exact sgn_id (by omega) (by omega) (by omega)

/-- An argument word, read after the call instruction. -/
theorem arg_word {w : Nat} {sp : Int} {s s0 : MS} {n k : Nat} {P : List Asm} (hw : w = 4 ∨ w = 8) (hc : Calls w P n k sp s) (h4 : s0.reg 4 = sgn w (sp - w))
    (hm : ∀ x, ¬ (sp - w ≤ x ∧ x < sp) → s0.mem x = s.mem x) (i : Nat) (hi : i < 3) (o : Int) (ho : o = (i + 1) * w) :
    cell w s0.mem (s0.reg 4 + o) = argument w sp s i := by
  have := hc.low; have := hc.high
  have wp : 0 < w := by rcases hw with rfl | rfl <;> omega
  have e : cell w s0.mem (s0.reg 4 + o) = cell w s0.mem (sp + i * w) :=
    cell_addr (by rw [h4, sgn_add_l, ho]; congr 1; rw [Int.add_mul, Int.one_mul]; omega)
  rw [e]
  have hi' : (i : Int) * w ≤ 2 * w := by
    have : i * w ≤ 2 * w := Nat.mul_le_mul_right w (by omega)
    omega
  have hi0 : 0 ≤ (i : Int) * w := Int.mul_nonneg (by omega) (by omega)
  exact word_congr (by omega) (by omega) (fun x h1 h2 => hm x (by omega))

/-- The state after loading three arguments. -/
theorem args3_sim {w : Nat} {base : Int} {P : List Asm} {i n k : Nat} {s s0 : MS} {sp : Int} (hw : w = 4 ∨ w = 8) (hat : At P (i + 1) (I (args3 w)))
    (hc : Calls w P n k sp s) (h4 : s0.reg 4 = sgn w (sp - w)) (hm : ∀ x, ¬ (sp - w ≤ x ∧ x < sp) → s0.mem x = s.mem x) :
    ∃ s1, Steps w base P (i + 1, s0) (i + 1 + 3, s1) ∧ s1.reg 0 = argument w sp s 0 ∧ s1.reg 1 = argument w sp s 1 ∧ s1.reg 2 = argument w sp s 2 ∧
      s1.reg 4 = s0.reg 4 ∧ s1.reg 3 = s0.reg 3 ∧ s1.mem = s0.mem := by
  have hat' : At P (i + 1) [.ins (mov_reg_mem w 0 4 w), .ins (mov_reg_mem w 1 4 (2 * w)), .ins (mov_reg_mem w 2 4 (3 * w))] := hat
  have a1 := hat'.head
  have a2 := hat'.tail.head
  have a3 := hat'.tail.tail.head
  refine ⟨_, .head (.ins a1 (ex_ld hw ..)) (.head (.ins a2 (ex_ld hw ..)) (.head (.ins a3 (ex_ld hw ..)) .refl)), ?_, ?_, ?_, ?_, ?_, ?_⟩
  · exact arg_word hw hc h4 hm 0 (by omega) _ (by simp)
  · exact arg_word hw hc h4 hm 1 (by omega) _ (by simp)
  · exact arg_word hw hc h4 hm 2 (by omega) _ (by simp)
  · rfl
  · rfl
  · rfl

/-- A run-time function that only makes a system call with its three arguments. -/
theorem fn3 {W : Type} {os : OS W} {w : Nat} {base : Int} {P : List Asm} {i n k : Nat} {nr : Int} {s : MS} {σ : W} {sp : Int} {A : Answer W}
    (hw : w = 4 ∨ w = 8) (hnr : 0 ≤ nr ∧ nr < 256) (hat : At P i ([.lbl n] ++ I (args3 w ++ syscall_3 w nr (some 0) (some 1) (some 2)) ++ [.ret]))
    (hc : Calls w P n k sp s)
    (hk : ∀ s1 : MS, s1.reg 0 = nr → arg w s1 0 = argument w sp s 0 → arg w s1 1 = argument w sp s 1 → arg w s1 2 = argument w sp s 2 →
      (∀ x, ¬ (sp - 3 * w ≤ x ∧ x < sp) → s1.mem x = s.mem x) → Serves os w s1 σ A)
    (hst : ∀ x, sp - 3 * w ≤ x → x < sp → A.stores x = none) :
    CallGives os w base P k sp s σ A.result A.world A.stores := by
  have low := hc.low; have high := hc.high
  have wp : 0 < w := by rcases hw with rfl | rfl <;> omega
  have hl := hat.left.left.head
  have hr := hat.right.head
  rw [List.append_assoc] at hat
  have h2 := hat.right.left
  rw [I_append] at h2
  have h3 := h2.left
  have h5 := h2.right
  simp only [List.length_append, List.length_singleton, I_length] at hr h3 h5
  refine leaf (j := (args3 w ++ syscall_3 w nr (some 0) (some 1) (some 2)).length) hw hl (by rw [← hr]; congr 1; simp; omega) hc (fun x h1 h2 => hst x (by omega) h2) ?_ (body := [])
  intro s0 h4 hr0 hm0
  obtain ⟨s1, p1, e0, e1, e2, e4, e3, em⟩ := args3_sim (base := base) hw h3 hc h4 hm0
  obtain ⟨s2, p2, f0, f3, f4, f5, _⟩ := sys3 (os := os) (σ := σ) (base := base) (s := s1) (sp := sp - w) hw hnr (.inr rfl) (.inr rfl) h5 (by rw [e4, h4])
    (by rw [e3, hr0 3 (by omega)]; exact hc.glo) (by omega)
    (fun t t0 t1 t2 t3 tm => hk t t0 (by rw [t1, e0]) (by rw [t2 rfl, e1]) (by rw [t3, e2]) (fun x hx => by rw [tm x (by omega), em, hm0 x (by omega)]))
    (fun x h1 h2 => hst x (by omega) (by omega))
  refine ⟨s2, ?_, by rw [f4, e4], by rw [f3, e3], f0, ?_⟩
  · refine (PSteps.cpus (a := (_, _)) (b := (_, _)) p1).trans ?_
    rw [List.length_append, show i + 1 + ((args3 w).length + (syscall_3 w nr (some 0) (some 1) (some 2)).length) = i + 1 + 3 + (syscall_3 w nr (some 0) (some 1) (some 2)).length by
      simp [args3]; omega]
    exact p2
  · intro x hx
    rw [f5 x (by omega), em]

/-- A run-time function that only makes a system call with its one argument. -/
theorem fn1 {W : Type} {os : OS W} {w : Nat} {base : Int} {P : List Asm} {i q n k : Nat} {nr : Int} {s : MS} {σ : W} {sp : Int} {A : Answer W}
    (hw : w = 4 ∨ w = 8) (hnr : 0 ≤ nr ∧ nr < 256) (hl : P[i]? = some (.lbl n)) (hgo : ∀ s0, PSteps os w base P (.run (i + 1) s0 σ) (.run (i + 1 + q) s0 σ))
    (hat : At P (i + 1 + q) (I (mov_reg_mem w 0 4 w :: syscall_3 w nr (some 0) none none) ++ [.ret]))
    (hc : Calls w P n k sp s)
    (hk : ∀ s1 : MS, s1.reg 0 = nr → arg w s1 0 = argument w sp s 0 →
      (∀ x, ¬ (sp - 3 * w ≤ x ∧ x < sp) → s1.mem x = s.mem x) → Serves os w s1 σ A)
    (hst : ∀ x, sp - 3 * w ≤ x → x < sp → A.stores x = none) :
    CallGives os w base P k sp s σ A.result A.world A.stores := by
  have low := hc.low; have high := hc.high
  have wp : 0 < w := by rcases hw with rfl | rfl <;> omega
  have hr := hat.right.head
  have h2 : At P (i + 1 + q) (.ins (mov_reg_mem w 0 4 w) :: I (syscall_3 w nr (some 0) none none)) := hat.left
  have h3 := h2.head
  have h5 := h2.tail
  rw [I_length] at hr
  refine leaf (j := q + (mov_reg_mem w 0 4 w :: syscall_3 w nr (some 0) none none).length) hw hl (by rw [← hr]; congr 1; omega) hc (fun x h1 h2 => hst x (by omega) h2) ?_ (body := [])
  intro s0 h4 hr0 hm0
  let s1 := setReg s0 0 (cell w s0.mem (s0.reg 4 + w))
  have p1 : Step w base P (i + 1 + q, s0) (i + 1 + q + 1, s1) := .ins h3 (ex_ld hw ..)
  have e0 : s1.reg 0 = argument w sp s 0 := arg_word hw hc h4 hm0 0 (by omega) _ (by simp)
  obtain ⟨s2, p2, f0, f3, f4, f5, _⟩ := sys3 (os := os) (σ := σ) (base := base) (s := s1) (sp := sp - w) hw hnr (.inl rfl) (.inl rfl) h5 h4
    (by rw [show s1.reg 3 = s.reg 3 from hr0 3 (by omega)]; exact hc.glo) (by omega)
    (fun t t0 t1 t2 t3 tm => hk t t0 (by rw [t1, e0]) (fun x hx => by rw [tm x (by omega)]; exact hm0 x (by omega)))
    (fun x h1 h2 => hst x (by omega) (by omega))
  refine ⟨s2, ?_, f4, f3, f0, ?_⟩
  · refine (hgo s0).trans (.head (.cpu p1) ?_)
    rw [List.length_cons, show i + 1 + (q + ((syscall_3 w nr (some 0) none none).length + 1)) = i + 1 + q + 1 + (syscall_3 w nr (some 0) none none).length by omega]
    exact p2
  · intro x hx
    rw [f5 x (by omega)]; rfl

/-! Memory. -/

theorem bytes_congr {w : Nat} {m m' : Int → Nat} {a : Int} {n : Nat} (h : ∀ i : Nat, i < n → m (uns w (a + i)) = m' (uns w (a + i))) :
    bytes w m a n = bytes w m' a n := by
  unfold bytes
  refine List.map_congr_left ?_
  intro i hi
  rw [h i (List.mem_range.1 hi)]

theorem cstr_congr {w : Nat} {m m' : Int → Nat} {a : Int} {p : List Nat} (h : ∀ i : Nat, i ≤ p.length → m (uns w (a + i)) = m' (uns w (a + i))) (hp : CStr w m a p) :
    CStr w m' a p := by
  obtain ⟨h1, h2, h3⟩ := hp
  refine ⟨?_, h2, by rw [← h _ (Nat.le_refl _)]; exact h3⟩
  rw [← bytes_congr (m := m) (fun i hi => h i (by omega))]; exact h1

theorem stored_clear {w : Nat} {sp a n : Int} {l : List Nat} (hc : Clear w sp a n) (hl : (l.length : Int) ≤ n) {x : Int} (h1 : sp - 3 * w ≤ x) (h2 : x < sp) :
    stored w a l x = none := by
  unfold stored
  split
  · rename_i hx
    have hn := uns_nonneg w (x - a)
    rw [List.getElem?_eq_none_iff]
    rcases Nat.lt_or_ge (uns w (x - a)).toNat l.length with hlt | hge
    · exfalso
      refine hc (uns w (x - a)) hn (by omega) ?_
      have : uns w (a + uns w (x - a)) = x := by
        rw [Int.add_comm, uns_add, ← hx]; congr 1; rw [hx]; omega
      rw [this]; exact ⟨h1, h2⟩
    · exact hge
  · rfl

end Verif.Sys
