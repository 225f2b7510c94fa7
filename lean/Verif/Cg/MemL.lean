import Verif.Cg.Val
/-! The relation between the memory of C and the memory of the machine; pushes, pops, loads, stores. -/
namespace Verif.Cg
open Verif Verif.Gen Verif.Gen.Spec Verif.X86 Verif.X86.Spec Spec

/-- The machine state `s` represents the memory `M`, with the stack pointer `sp` and the globals at
`G`; the same has been asked of the system. -/
structure Rel (C : Ctx) (G sp : Int) (M : Mem) (s : MS) : Prop where
  wf : Wf C.w s
  sp : s.reg 4 = sgn C.w sp
  glo : s.reg 3 = sgn C.w G
  agree : ∀ a b, M a = some (some b) → s.mem a % 256 = b
  io : s.io = M.io

/-- The objects lie in the address space, outside the unused part of the stack. -/
structure MemOk (C : Ctx) (sp : Int) (M : Mem) : Prop where
  lim : 0 ≤ C.lim
  top : sp ≤ (2 ^ (8 * C.w) : Nat)
  dom : ∀ a, M a ≠ none → 0 ≤ a ∧ a < (2 ^ (8 * C.w) : Nat) ∧ ¬ (C.lim ≤ a ∧ a < sp)

/-- Bytes that are in no object and above the stack pointer do not change. -/
def Outside (C : Ctx) (M : Mem) (sp : Int) (s s' : MS) : Prop :=
  ∀ x, M x = none → ¬ (C.lim ≤ x ∧ x < sp) → s'.mem x = s.mem x

/-- Only the unused part of the stack changes. -/
def Scr (C : Ctx) (sp : Int) (m m' : Int → Nat) : Prop := ∀ x, ¬ (C.lim ≤ x ∧ x < sp) → m' x = m x

def SameDom (M M' : Mem) : Prop := ∀ a, (M' a).isSome = (M a).isSome

theorem SameDom.refl (M : Mem) : SameDom M M := fun _ => rfl
theorem SameDom.trans {M M' M'' : Mem} (h : SameDom M M') (h' : SameDom M' M'') : SameDom M M'' :=
  fun a => (h' a).trans (h a)
theorem SameDom.none {M M' : Mem} (h : SameDom M M') (a : Int) : M' a = none ↔ M a = none := by
  have := h a
  cases e : M a <;> cases e' : M' a <;> simp_all

theorem MemOk.mono {C : Ctx} {sp sp' : Int} {M : Mem} (h : MemOk C sp M) (hle : sp' ≤ sp) : MemOk C sp' M :=
  ⟨h.lim, by have := h.top; omega, fun a ha => by have := h.dom a ha; omega⟩

theorem MemOk.same {C : Ctx} {sp : Int} {M M' : Mem} (h : MemOk C sp M) (hd : SameDom M M') : MemOk C sp M' :=
  ⟨h.lim, h.top, fun a ha => h.dom a (fun e => ha ((hd.none a).2 e))⟩

theorem Outside.refl (C : Ctx) (M : Mem) (sp : Int) (s : MS) : Outside C M sp s s := fun _ _ _ => rfl

theorem Outside.trans {C : Ctx} {M M' : Mem} {sp sp' sp2 : Int} {s s' s'' : MS} (h : Outside C M sp s s')
    (hd : SameDom M M') (h' : Outside C M' sp' s' s'') (h1 : sp ≤ sp2) (h2 : sp' ≤ sp2) : Outside C M sp2 s s'' := by
  intro x hx hn
  rw [h' x ((hd.none x).2 hx) (by omega), h x hx (by omega)]

theorem Outside.mono {C : Ctx} {M : Mem} {sp sp2 : Int} {s s' : MS} (h : Outside C M sp s s') (h1 : sp ≤ sp2) :
    Outside C M sp2 s s' := fun x hx hn => h x hx (by omega)

theorem Scr.out {C : Ctx} {M : Mem} {sp : Int} {s s' : MS} (h : Scr C sp s.mem s'.mem) : Outside C M sp s s' :=
  fun x _ hn => h x hn

theorem Scr.refl (C : Ctx) (sp : Int) (m : Int → Nat) : Scr C sp m m := fun _ _ => rfl
theorem Scr.trans {C : Ctx} {sp sp' sp2 : Int} {m m' m'' : Int → Nat} (h : Scr C sp m m') (h' : Scr C sp' m' m'')
    (h1 : sp ≤ sp2) (h2 : sp' ≤ sp2) : Scr C sp2 m m'' := by
  intro x hn
  rw [h' x (by omega), h x (by omega)]
theorem Scr.mono {C : Ctx} {sp sp2 : Int} {m m' : Int → Nat} (h : Scr C sp m m') (h1 : sp ≤ sp2) : Scr C sp2 m m' :=
  fun x hn => h x (by omega)

/-- Only unused stack changed: the memory is still represented. -/
theorem Rel.scr {C : Ctx} {G sp top sp' : Int} {M : Mem} {s s' : MS} (h : Rel C G sp M s) (hM : MemOk C top M)
    (hm : Scr C top s.mem s'.mem) (hwf : Wf C.w s') (h4 : s'.reg 4 = sgn C.w sp') (h3 : s'.reg 3 = s.reg 3)
    (hio : s'.io = s.io) : Rel C G sp' M s' :=
  ⟨hwf, h4, by rw [h3, h.glo], fun a b hab => by
    rw [hm a (hM.dom a (by rw [hab]; simp)).2.2]; exact h.agree a b hab, hio.trans h.io⟩

theorem inR_iff {w : Nat} {a : Int} {k : Nat} (h0 : 0 ≤ a) (h1 : a + k ≤ (2 ^ (8 * w) : Nat)) (x : Int) :
    InR w a k x ↔ a ≤ x ∧ x < a + k := by
  constructor
  · rintro ⟨i, hi, rfl⟩
    rw [uns_of_lt (by omega) (by omega)]
    omega
  · rintro ⟨h2, h3⟩
    refine ⟨(x - a).toNat, by omega, ?_⟩
    rw [uns_of_lt (by omega) (by omega)]
    omega

theorem word_congr {w : Nat} {m m' : Int → Nat} {a : Int} (h0 : 0 ≤ a) (h1 : a + w ≤ (2 ^ (8 * w) : Nat))
    (h : ∀ x, a ≤ x → x < a + w → m x = m' x) : word w m a = word w m' a := by
  unfold word
  rw [rd_congr w w m m' a]
  intro x hx
  rw [inR_iff h0 h1] at hx
  exact h x hx.1 hx.2

theorem word_sgn {w : Nat} {m : Int → Nat} (a : Int) : word w m (sgn w a) = word w m a := by
  unfold word; rw [rd_addr w m w (sgn w a) a (uns_sgn w a)]

theorem sgn_word {w : Nat} (m : Int → Nat) (a : Int) : sgn w (word w m a) = word w m a := sgn_sgn w _

/-- Scratch changes below `sp` leave the words above alone. -/
theorem Scr.word {C : Ctx} {sp : Int} {m m' : Int → Nat} (h : Scr C sp m m') {a : Int} (hl : 0 ≤ C.lim) (h0 : sp ≤ a) (h00 : 0 ≤ a)
    (h1 : a + C.w ≤ (2 ^ (8 * C.w) : Nat)) : word C.w m' a = word C.w m a :=
  word_congr (by omega) h1 (fun x h2 _ => h x (by omega))

theorem push_sim {C : Ctx} (hw : C.w = 4 ∨ C.w = 8) {G sp top : Int} {M : Mem} {s : MS} (h : Rel C G sp M s)
    (hM : MemOk C top M) (hle : sp ≤ top) (hroom : C.lim + C.w ≤ sp) (r : Nat) :
    ∃ s', run C.w s [.push_reg r] = some s' ∧ Rel C G (sp - C.w) M s' ∧ (∀ x, x ≠ 4 → s'.reg x = s.reg x) ∧
      word C.w s'.mem (sp - C.w) = s.reg r ∧ (∀ x, ¬ (sp - C.w ≤ x ∧ x < sp) → s'.mem x = s.mem x) := by
  have h0 := hM.lim
  have ht := hM.top
  have e4 : sgn C.w (s.reg 4 - C.w) = sgn C.w (sp - C.w) := by rw [h.sp, sgn_sub_l]
  have em : ∀ x, ¬ (sp - C.w ≤ x ∧ x < sp) → wr C.w s.mem (sgn C.w (s.reg 4 - C.w)) (s.reg r) C.w x = s.mem x := by
    intro x hx
    apply wr_out
    rw [e4, inR_addr (uns_sgn C.w (sp - C.w)), inR_iff (by omega) (by omega)]
    omega
  refine ⟨{ setReg s 4 (sgn C.w (s.reg 4 - C.w)) with mem := wr C.w s.mem (sgn C.w (s.reg 4 - C.w)) (s.reg r) C.w },
    rfl, ?_, ?_, ?_, em⟩
  · refine h.scr (top := sp) (hM.mono hle) (fun x hx => em x (by omega)) (wf_setReg h.wf 4 (sgn_sgn _ _)) ?_ ?_ rfl
    · simp [setReg, e4]
    · simp [setReg]
  · intro x hx; simp [setReg, hx]
  · show word C.w (wr C.w s.mem (sgn C.w (s.reg 4 - C.w)) (s.reg r) C.w) (sp - C.w) = _
    rw [e4, ← word_sgn, word, rd_wr_word hw, h.wf r]

theorem pop_sim {C : Ctx} {G sp : Int} {M : Mem} {s : MS} (h : Rel C G sp M s) {r : Nat} (h3 : r ≠ 3) (h4 : r ≠ 4) :
    ∃ s', run C.w s [.pop_reg r] = some s' ∧ Rel C G (sp + C.w) M s' ∧ s'.reg r = word C.w s.mem sp ∧
      (∀ x, x ≠ 4 → x ≠ r → s'.reg x = s.reg x) ∧ s'.mem = s.mem := by
  refine ⟨setReg (setReg s 4 (sgn C.w (s.reg 4 + C.w))) r (sgn C.w (rd C.w s.mem (s.reg 4) C.w)), rfl, ?_, ?_, ?_, rfl⟩
  · refine ⟨wf_setReg (wf_setReg h.wf 4 (sgn_sgn _ _)) r (sgn_sgn _ _), ?_, ?_, h.agree, h.io⟩
    · simp [setReg, Ne.symm h4, h.sp, sgn_add_l]
    · simp [setReg, Ne.symm h3, h.glo]
  · simp only [setReg, if_true]
    rw [h.sp]
    exact word_sgn sp
  · intro x hx hx'; simp [setReg, hx, hx']

/-- An instruction that only sets a register. -/
theorem reg_sim {C : Ctx} {G sp : Int} {M : Mem} {s : MS} (h : Rel C G sp M s) {r : Nat} (h3 : r ≠ 3) (h4 : r ≠ 4)
    {v : Int} (hv : sgn C.w v = v) : Rel C G sp M (setReg s r v) :=
  ⟨wf_setReg h.wf r hv, by simp [setReg, Ne.symm h4, h.sp], by simp [setReg, Ne.symm h3, h.glo], h.agree, h.io⟩

/-- Loading from an initialised object. -/
theorem loadN_rd {w : Nat} {M : Mem} {m : Int → Nat} (ha : ∀ a b, M a = some (some b) → m a % 256 = b)
    (hd : ∀ a, M a ≠ none → 0 ≤ a ∧ a < (2 ^ (8 * w) : Nat)) :
    ∀ {k : Nat} {a : Int} {n : Nat}, loadN M a k = some n → rd w m a k = n := by
  intro k
  induction k with
  | zero => intro a n h; simp [loadN] at h; simp [rd, h]
  | succ k ih =>
    intro a n h
    simp only [loadN] at h
    cases hb : M a with
    | none => rw [hb] at h; simp at h
    | some o =>
      cases o with
      | none => rw [hb] at h; simp at h
      | some b =>
        rw [hb] at h
        simp only [Option.bind_eq_some_iff] at h
        obtain ⟨n', h1, h2⟩ := h
        have hr := hd a (by rw [hb]; simp)
        rw [rd, ih h1, uns_of_lt hr.1 hr.2, ha a b hb]
        simpa using h2

theorem loadN_lt {M : Mem} : ∀ {k : Nat} {a : Int} {n : Nat},
    (∀ a b, M a = some (some b) → b < 256) → loadN M a k = some n → n < 2 ^ (8 * k) := by
  intro k
  induction k with
  | zero => intro a n _ h; simp [loadN] at h; simp [← h]
  | succ k ih =>
    intro a n hb h
    simp only [loadN] at h
    split at h
    · rename_i b e
      simp only [Option.bind_eq_some_iff] at h
      obtain ⟨n', h1, h2⟩ := h
      have := ih hb h1
      have := hb _ _ e
      rw [show 8 * (k + 1) = 8 + 8 * k by omega, Nat.pow_add]
      simp at h2
      generalize 2 ^ (8 * k) = P at *
      omega
    · cases h

theorem loadN_congr {M M' : Mem} : ∀ {k : Nat} {a : Int}, (∀ x, a ≤ x → x < a + k → M x = M' x) →
    loadN M a k = loadN M' a k := by
  intro k
  induction k with
  | zero => intro a _; rfl
  | succ k ih =>
    intro a h
    rw [loadN, loadN, h a (by omega) (by omega), ih (fun x h1 h2 => h x (by omega) (by push_cast; omega))]

theorem emod_div256 (v P : Int) : v % (256 * P) / 256 = v / 256 % P := by
  have h2 := Int.emod_def (v / 256) P
  have h3 := Int.emod_def v (256 * P)
  rw [← Int.ediv_ediv_of_nonneg (by decide : (0:Int) ≤ 256)] at h3
  rw [h2, h3]
  generalize v / 256 / P = c at *
  rw [Int.mul_assoc]
  generalize P * c = z
  omega

/-- A store changes the initialised bytes in the same way, and no byte outside objects. -/
theorem storeN_wr {w : Nat} : ∀ {k : Nat} {M M' : Mem} {m : Int → Nat} {a v v' : Int},
    (∀ a b, M a = some (some b) → m a % 256 = b) →
    (∀ a, M a ≠ none → 0 ≤ a ∧ a < (2 ^ (8 * w) : Nat)) →
    storeN M a v k = some M' → v' % (2 ^ (8 * k) : Nat) = v % (2 ^ (8 * k) : Nat) →
    (∀ x b, M' x = some (some b) → wr w m a v' k x % 256 = b) ∧
    (∀ x, M x = none → wr w m a v' k x = m x) := by
  intro k
  induction k with
  | zero =>
    intro M M' m a v v' hag hd h _
    simp [storeN] at h
    subst h
    exact ⟨hag, fun _ _ => rfl⟩
  | succ k ih =>
    intro M M' m a v v' hag hd h hv
    simp only [storeN] at h
    split at h
    · rename_i hs
      have hr := hd a (by intro e; rw [e] at hs; cases hs)
      have e0 : v' % 256 = v % 256 ∧ (v' / 256) % (2 ^ (8 * k) : Nat) = (v / 256) % (2 ^ (8 * k) : Nat) := by
        have e : ((2 ^ (8 * (k + 1)) : Nat) : Int) = 256 * ((2 ^ (8 * k) : Nat) : Int) := by
          rw [show 8 * (k + 1) = 8 + 8 * k by omega, Nat.pow_add, Int.natCast_mul]; rfl
        rw [e] at hv
        generalize ((2 ^ (8 * k) : Nat) : Int) = P at hv ⊢
        constructor
        · have := congrArg (· % 256) hv
          simpa only [Int.emod_emod_of_dvd _ (Int.dvd_mul_right 256 P)] using this
        · have := congrArg (· / 256) hv
          simpa only [emod_div256] using this
      rw [wr, uns_of_lt hr.1 hr.2]
      have := ih (m := fun x => if x = a then (v' % 256).toNat else m x) (v' := v' / 256) ?_ ?_ h e0.2
      · refine ⟨this.1, fun x hx => ?_⟩
        have hxa : x ≠ a := by intro e; rw [e] at hx; rw [hx] at hs; cases hs
        rw [this.2 x (by simp [hxa, hx])]
        simp [hxa]
      · intro x b hx
        by_cases hxa : x = a
        · simp [hxa] at hx ⊢
          rw [e0.1, ← hx]
          have := Int.emod_nonneg v (show (256:Int) ≠ 0 by decide)
          have := Int.emod_lt_of_pos v (show (0:Int) < 256 by decide)
          omega
        · simp [hxa] at hx ⊢
          exact hag x b hx
      · intro x hx
        by_cases hxa : x = a
        · rw [hxa]; exact hr
        · simp [hxa] at hx
          exact hd x hx
    · cases h

theorem storeN_dom {M M' : Mem} {a v : Int} {k : Nat} (h : storeN M a v k = some M') : SameDom M M' := by
  induction k generalizing M a v with
  | zero => simp [storeN] at h; subst h; exact SameDom.refl _
  | succ k ih =>
    simp only [storeN] at h
    split at h
    · rename_i hs
      refine SameDom.trans (fun x => ?_) (ih h)
      by_cases hxa : x = a
      · subst hxa; simp [hs]
      · simp [hxa]
    · cases h

theorem storeN_io {M M' : Mem} {a v : Int} {k : Nat} (h : storeN M a v k = some M') : M'.io = M.io := by
  induction k generalizing M a v with
  | zero => simp [storeN] at h; rw [h]
  | succ k ih =>
    simp only [storeN] at h
    split at h
    · have := ih h
      exact this
    · cases h

end Verif.Cg
