import Verif.Cg.BinSem2
/-! Execution of pieces of straight-line code in a state that represents a C memory. -/
namespace Verif.Cg
open Verif Verif.Gen Verif.Gen.Spec Verif.X86 Verif.X86.Spec Spec

/-- The straight-line code `es` leads from `s` to `s'`, where the stack pointer is `sp'`; only the unused
stack below `top` changes. -/
structure SL (C : Ctx) (G : Int) (M : Mem) (top : Int) (s : MS) (es : List Emit) (sp' : Int) (s' : MS) : Prop where
  run : Gen.run C.w s es = some s'
  rel : Rel C G sp' M s'
  scr : Scr C top s.mem s'.mem

theorem SL.trans {C : Ctx} {G : Int} {M : Mem} {top : Int} {s s1 s2 : MS} {a b : List Emit} {sp1 sp2 : Int}
    (h1 : SL C G M top s a sp1 s1) (h2 : SL C G M top s1 b sp2 s2) : SL C G M top s (a ++ b) sp2 s2 :=
  ⟨run_append_some h1.run h2.run, h2.rel, h1.scr.trans h2.scr (Int.le_refl _) (Int.le_refl _)⟩

theorem SL.nil {C : Ctx} {G : Int} {M : Mem} {top sp : Int} {s : MS} (h : Rel C G sp M s) : SL C G M top s [] sp s :=
  ⟨rfl, h, Scr.refl _ _ _⟩

theorem SL.mono {C : Ctx} {G : Int} {M : Mem} {top top' : Int} {s s' : MS} {es : List Emit} {sp : Int}
    (h : SL C G M top s es sp s') (hle : top ≤ top') : SL C G M top' s es sp s' := ⟨h.run, h.rel, h.scr.mono hle⟩

theorem sl_set {C : Ctx} {G sp : Int} {M : Mem} {s : MS} (h : Rel C G sp M s) {e : Emit} {r : Nat} {v : Int} (top : Int)
    (hx : exec1 C.w s (e.intended C.w) = some (setReg s r v)) (h3 : r ≠ 3) (h4 : r ≠ 4) (hv : sgn C.w v = v) :
    SL C G M top s [e] sp (setReg s r v) :=
  ⟨by rw [run_cons hx]; rfl, reg_sim h h3 h4 hv, Scr.refl _ _ _⟩

theorem sl_push {C : Ctx} (hw : C.w = 4 ∨ C.w = 8) {G sp top : Int} {M : Mem} {s : MS} (h : Rel C G sp M s)
    (hM : MemOk C top M) (hle : sp ≤ top) (hroom : C.lim + C.w ≤ sp) (r : Nat) :
    ∃ s', SL C G M top s [.push_reg r] (sp - C.w) s' ∧ (∀ x, x ≠ 4 → s'.reg x = s.reg x) ∧
      word C.w s'.mem (sp - C.w) = s.reg r ∧ (∀ x, ¬ (sp - C.w ≤ x ∧ x < sp) → s'.mem x = s.mem x) := by
  obtain ⟨s', h1, h2, h3, h4, h5⟩ := push_sim hw h hM hle hroom r
  exact ⟨s', ⟨h1, h2, fun x hx => h5 x (by omega)⟩, h3, h4, h5⟩

theorem sl_pop {C : Ctx} {G sp : Int} {M : Mem} {s : MS} (h : Rel C G sp M s) (top : Int) {r : Nat} (h3 : r ≠ 3) (h4 : r ≠ 4) :
    ∃ s', SL C G M top s [.pop_reg r] (sp + C.w) s' ∧ s'.reg r = word C.w s.mem sp ∧
      (∀ x, x ≠ 4 → x ≠ r → s'.reg x = s.reg x) ∧ s'.mem = s.mem := by
  obtain ⟨s', h1, h2, h3, h4, h5⟩ := pop_sim h h3 h4
  exact ⟨s', ⟨h1, h2, fun x _ => by rw [h5]⟩, h3, h4, h5⟩

/-- Word above a push. -/
theorem word_keep {C : Ctx} {m m' : Int → Nat} {lo hi a : Int} (h : ∀ x, ¬ (lo ≤ x ∧ x < hi) → m' x = m x)
    (h0 : 0 ≤ a) (h1 : a + C.w ≤ (2 ^ (8 * C.w) : Nat)) (hd : a + C.w ≤ lo ∨ hi ≤ a) : word C.w m' a = word C.w m a :=
  word_congr h0 h1 (fun x h2 h3 => h x (by omega))

theorem Outside.word {C : Ctx} {M : Mem} {sp top a : Int} {s s' : MS} (h : Outside C M sp s s') (hM : MemOk C top M)
    (h1 : sp ≤ a) (h2 : C.lim ≤ a) (h3 : a + C.w ≤ top) : word C.w s'.mem a = word C.w s.mem a := by
  have h0 := hM.lim
  have ht := hM.top
  refine word_congr (by omega) (by omega) (fun x hx1 hx2 => h x ?_ (by omega))
  cases e : M x with
  | none => rfl
  | some b => have := (hM.dom x (by rw [e]; simp)).2.2; omega

theorem exec_movImm {w : Nat} (s : MS) (r : Nat) (v : Int) :
    exec1 w s (Emit.intended w (.mov_reg_imm r v)) = some (setReg s r (sgn w v)) := by simp [Emit.intended, exec1]
theorem exec_add {w : Nat} (s : MS) (d r : Nat) :
    exec1 w s (Emit.intended w (.add_reg_reg d r)) = some (setReg s d (sgn w (s.reg d + s.reg r))) := by simp [Emit.intended, exec1]
theorem exec_sub {w : Nat} (s : MS) (d r : Nat) :
    exec1 w s (Emit.intended w (.sub_reg_reg d r)) = some (setReg s d (sgn w (s.reg d - s.reg r))) := by simp [Emit.intended, exec1]
theorem exec_addImm {w : Nat} (s : MS) (d : Nat) (v : Int) :
    exec1 w s (Emit.intended w (.add_reg_imm d v)) = some (setReg s d (sgn w (s.reg d + v))) := by simp [Emit.intended, exec1]
theorem exec_mov {w : Nat} (s : MS) (d r : Nat) :
    exec1 w s (Emit.intended w (.mov_reg_reg d r)) = some (setReg s d (s.reg r)) := by simp [Emit.intended, exec1]
theorem exec_xor {w : Nat} (s : MS) (d r : Nat) :
    exec1 w s (Emit.intended w (.xor_reg_reg d r)) = some (setReg s d (bits w (· ^^^ ·) (s.reg d) (s.reg r))) := by
  simp [Emit.intended, exec1]
theorem exec_xor0 {w : Nat} (s : MS) (d : Nat) :
    exec1 w s (Emit.intended w (.xor_reg_reg d d)) = some (setReg s d 0) := by
  simp [Emit.intended, exec1, bits]
theorem exec_cmp {w : Nat} (s : MS) (d r : Nat) :
    exec1 w s (Emit.intended w (.cmp_reg_reg d r)) = some { s with cmpA := s.reg d, cmpB := s.reg r } := by
  simp [Emit.intended, exec1]

/-- `grow_stack`. -/
theorem sl_grow {C : Ctx} {G sp : Int} {M : Mem} {s : MS} (h : Rel C G sp M s) (top : Int) (v : Int) :
    SL C G M top s [.add_reg_imm 4 v] (sp + v) (setReg s 4 (sgn C.w (s.reg 4 + v))) := by
  refine ⟨by rw [run_cons (exec_addImm s 4 v)]; rfl, ⟨wf_setReg h.wf 4 (sgn_sgn _ _), ?_, ?_, h.agree, h.io⟩, Scr.refl _ _ _⟩
  · simp [setReg, h.sp, sgn_add_l]
  · simp [setReg, h.glo]

theorem sl_const {C : Ctx} (hw : C.w = 4 ∨ C.w = 8) {G sp top : Int} {M : Mem} {s : MS} (h : Rel C G sp M s)
    (hM : MemOk C top M) (hle : sp ≤ top) (hroom : C.lim + C.w ≤ sp) (v : Int) :
    ∃ s', SL C G M top s [.mov_reg_imm 0 v, .push_reg 0] (sp - C.w) s' ∧ word C.w s'.mem (sp - C.w) = sgn C.w v ∧
      (∀ x, ¬ (sp - C.w ≤ x ∧ x < sp) → s'.mem x = s.mem x) := by
  have h1 := sl_set h top (exec_movImm s 0 v) (by decide) (by decide) (sgn_sgn _ _)
  obtain ⟨s2, h2, _, h4, h5⟩ := sl_push hw h1.rel hM hle hroom 0
  exact ⟨s2, h1.trans h2, by rw [h4]; simp [setReg], fun x hx => by rw [h5 x hx]; rfl⟩

/-- Address of a variable relative to a register. -/
theorem sl_addr {C : Ctx} {G sp top : Int} {M : Mem} {s : MS} (h : Rel C G sp M s) (off : Int) (r : Nat) (hr : r ≠ 0) {a : Int}
    (ha : s.reg r = sgn C.w a) :
    ∃ s', SL C G M top s [.mov_reg_imm 0 off, .add_reg_reg 0 r] sp s' ∧ s'.reg 0 = sgn C.w (a + off) ∧ s'.mem = s.mem := by
  have h1 := sl_set h top (exec_movImm s 0 off) (by decide) (by decide) (sgn_sgn _ _)
  have h2 := sl_set h1.rel top (exec_add _ 0 r) (by decide) (by decide) (sgn_sgn _ _)
  refine ⟨_, h1.trans h2, ?_, rfl⟩
  simp [setReg, hr, ha, sgn_add_l, sgn_add_r, Int.add_comm]

theorem dom_rng {C : Ctx} {sp : Int} {M : Mem} (h : MemOk C sp M) : ∀ a, M a ≠ none → 0 ≤ a ∧ a < (2 ^ (8 * C.w) : Nat) :=
  fun a ha => ⟨(h.dom a ha).1, (h.dom a ha).2.1⟩

/-- Load of an object. -/
theorem sl_load {C : Ctx} (hw : C.w = 4 ∨ C.w = 8) {G sp top t0 : Int} {M : Mem} {s : MS} (h : Rel C G sp M s) (hM : MemOk C t0 M)
    {d b : Nat} {a v : Int} {t : CTy} {es : List Emit} (hd3 : d ≠ 3) (hd4 : d ≠ 4)
    (he : load_mem_location C.w d b 0 (sizeof C.w C.T t) (is_signed_numeric_type t) = .ok es)
    (hl : loadT C M a t = some v) (hb : s.reg b = sgn C.w a) :
    SL C G M top s es sp (setReg s d (sgn C.w v)) := by
  unfold loadT at hl
  split at hl
  · rename_i hs
    simp only [Option.bind_eq_some_iff, Option.some.injEq] at hl
    obtain ⟨n, hn, rfl⟩ := hl
    have hr : rd C.w s.mem a (sizeof C.w C.T t) = n := loadN_rd h.agree (dom_rng hM) hn
    have := load_run hw he s
    have e : objVal C.w s.mem (s.reg b + 0) (sizeof C.w C.T t) (is_signed_numeric_type t) =
        if is_signed_numeric_type t = true then Int.bmod n (2 ^ (8 * sizeof C.w C.T t)) else (n : Int) % (2 ^ (8 * sizeof C.w C.T t) : Nat) := by
      have hlt := rd_lt C.w s.mem (sizeof C.w C.T t) a
      unfold objVal
      rw [Int.add_zero, rd_addr C.w s.mem _ (s.reg b) a (by rw [hb, uns_sgn]), hr]
      split
      · rfl
      · rw [hr] at hlt
        rw [Int.emod_eq_of_lt (by omega) (by exact_mod_cast hlt)]
    rw [e, load_val hw hs] at this
    exact ⟨this, reg_sim h hd3 hd4 (sgn_sgn _ _), Scr.refl _ _ _⟩
  · cases hl

theorem write_run {w : Nat} {b : Nat} {o : Int} {r k : Nat} {es : List Emit} (h : write_mem_location w b o r k = .ok es) (s : MS) :
    run w s es = some { s with mem := wr w s.mem (s.reg b + o) (s.reg r) k } := by
  unfold write_mem_location at h
  split at h
  · cases h
  · rename_i hk
    split at h
    · rename_i e; subst e; simp only [Res.ok.injEq] at h; subst h; simp [run, execs, Emit.intended, exec1, show 1 ≤ w by omega]
    split at h
    · rename_i e; subst e; simp only [Res.ok.injEq] at h; subst h; simp [run, execs, Emit.intended, exec1, show 2 ≤ w by omega]
    split at h
    · rename_i e; subst e; simp only [Res.ok.injEq] at h; subst h; simp [run, execs, Emit.intended, exec1, show 4 ≤ w by omega]
    split at h
    · rename_i e; subst e; simp only [Res.ok.injEq] at h; subst h; simp [run, execs, Emit.intended, exec1, show 8 ≤ w by omega]
    · cases h

/-- Store to an object. -/
theorem sl_store {C : Ctx} {G sp t0 : Int} {M M' : Mem} {s : MS} (h : Rel C G sp M s) (hM : MemOk C t0 M)
    {b r : Nat} {a v : Int} {t : CTy} {es : List Emit}
    (he : write_mem_location C.w b 0 r (sizeof C.w C.T t) = .ok es)
    (hst : storeT C M a t v = some M') (hb : s.reg b = sgn C.w a)
    (hv : s.reg r % (2 ^ (8 * sizeof C.w C.T t) : Nat) = v % (2 ^ (8 * sizeof C.w C.T t) : Nat)) :
    ∃ s', run C.w s es = some s' ∧ Rel C G sp M' s' ∧ (∀ x, s'.reg x = s.reg x) ∧
      (∀ x, M x = none → s'.mem x = s.mem x) := by
  unfold storeT at hst
  split at hst
  · have := storeN_wr h.agree (dom_rng hM) hst hv
    have ea : wr C.w s.mem (s.reg b + 0) (s.reg r) (sizeof C.w C.T t) = wr C.w s.mem a (s.reg r) (sizeof C.w C.T t) :=
      wr_addr C.w _ _ _ _ _ (by rw [Int.add_zero, hb, uns_sgn])
    refine ⟨_, write_run he s, ⟨h.wf, h.sp, h.glo, ?_, h.io.trans (storeN_io hst).symm⟩, fun _ => rfl, ?_⟩
    · intro x y hx
      show wr _ _ _ _ _ x % 256 = y
      rw [ea]; exact this.1 x y hx
    · intro x hx
      show wr _ _ _ _ _ x = _
      rw [ea]; exact this.2 x hx
  · cases hst

/-- Operator on the top of the stack. -/
theorem sl_unop {C : Ctx} (hw : C.w = 4 ∨ C.w = 8) {G sp : Int} {M : Mem} {s : MS} (h : Rel C G (sp - C.w) M s)
    (hM : MemOk C sp M) (hroom : C.lim + C.w ≤ sp) {r0 r1 : Nat} (h3 : r0 ≠ 3) (h4 : r0 ≠ 4) {es : List Emit} {z : Int}
    (core : ∀ s1, Rel C G sp M s1 → s1.reg r0 = word C.w s.mem (sp - C.w) → s1.mem = s.mem →
      ∃ s2, SL C G M sp s1 es sp s2 ∧ s2.reg r1 = z) :
    ∃ s', SL C G M sp s ([.pop_reg r0] ++ es ++ [.push_reg r1]) (sp - C.w) s' ∧ word C.w s'.mem (sp - C.w) = z := by
  obtain ⟨s1, p1, p2, p3, p4⟩ := sl_pop h sp h3 h4
  have p1r := p1.rel
  rw [show sp - C.w + C.w = sp by omega] at p1 p1r
  obtain ⟨s2, q1, q2⟩ := core s1 p1r p2 p4
  obtain ⟨s3, r1, _, r3, _⟩ := sl_push hw q1.rel hM (Int.le_refl _) hroom r1
  exact ⟨s3, (p1.trans q1).trans r1, by rw [r3, q2]⟩

/-- Binary operator without jumps. -/
theorem sl_binop {C : Ctx} (hw : C.w = 4 ∨ C.w = 8) {G sp : Int} {M : Mem} {s : MS} (h : Rel C G (sp - 2 * C.w) M s)
    (hM : MemOk C sp M) (hroom : C.lim + 2 * C.w ≤ sp) {es : List Emit} {z : Int} (hz : sgn C.w z = z)
    (core : ∀ s1, Wf C.w s1 → s1.reg 0 = word C.w s.mem (sp - C.w) → s1.reg 1 = word C.w s.mem (sp - 2 * C.w) → s1.mem = s.mem →
      s1.reg 4 = sgn C.w sp →
      ∃ s2, run C.w s1 es = some s2 ∧ s2.reg 0 = z ∧ Eff C.w s1 s2 [0, 1, 2] (s1.reg 4 - C.w) C.w) :
    ∃ s', SL C G M sp s (binop es) (sp - C.w) s' ∧ word C.w s'.mem (sp - C.w) = z := by
  have h0 := hM.lim
  have ht := hM.top
  have e4 : sgn C.w (s.reg 4 + C.w) = sgn C.w (sp - C.w) := by
    rw [h.sp, sgn_add_l]; congr 1; omega
  have e5 : sgn C.w (s.reg 4 + 2 * C.w) = sgn C.w sp := by
    rw [h.sp, sgn_add_l]; congr 1; omega
  obtain ⟨s', h1, h2⟩ := binop_run hw h.wf (es := es) hz (by
    intro s1 w1 a0 a1 a2 a3
    refine core s1 w1 ?_ ?_ a2 (by rw [a3, e5])
    · rw [a0, ← word_sgn, e4, word_sgn]
    · rw [a1, h.sp, word_sgn])
  have em : Scr C sp s.mem s'.mem := by
    intro x hx
    refine h2.mem x ?_
    rw [inR_addr (b := sp - C.w) (by rw [← uns_sgn, e4, uns_sgn]), inR_iff (by omega) (by omega)]
    omega
  refine ⟨s', ⟨h1, h.scr hM em h2.wf (by rw [h2.sp, e4]) (h2.regs 3 (by decide)) (run_io h1), em⟩, ?_⟩
  rw [← h2.val, h2.sp, e4, word_sgn]

end Verif.Cg
