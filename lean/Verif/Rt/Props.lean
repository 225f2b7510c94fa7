import Verif.Rt.Model
import Verif.Rt.Spec
import Verif.Cg.Run
/-! C34: `malloc` of compiled programs. -/
namespace Verif.Rt
open Verif Verif.X86 Verif.X86.Spec Verif.Cg

/-- The program contains `malloc` at item `i`; its crash code never leaves its own items and calls nothing. -/
structure HasMalloc (w : Nat) (base : Int) (P : List Asm) (mlbl i : Nat) (crash : List Asm) (l : Nat) : Prop where
  w48 : w = 4 ∨ w = 8
  at' : At P i (malloc w mlbl crash l)
  uniq : Uniq P
  base0 : 0 ≤ base
  fit : adr w base P P.length < (2 ^ (8 * w - 1) : Nat)
  stay : ∀ s c, Steps w base P (i + 8, s) c → i + 8 ≤ c.1 ∧ c.1 < i + 8 + crash.length
  noCall : ∀ n, Asm.call n ∉ crash

theorem Returns.iff {w base P t sp a b r} (hd : ∀ a b c, Step w base P a b → Step w base P a c → b = c)
    (hs : Step w base P a b) (hn : ¬ (a.1 = t ∧ a.2.reg 4 = sp)) : Returns w base P t sp a r ↔ Returns w base P t sp b r := by
  constructor
  · intro h
    cases h with
    | here e => exact absurd ⟨rfl, e⟩ hn
    | step _ s2 r2 => rw [hd _ _ _ hs s2]; exact r2
  · exact fun h => .step hn hs h

/-- The instructions run one after the other; the stack pointer never is `sp`. -/
def Quiet (w : Nat) (sp : Int) : List Emit → MS → MS → Prop
  | [], s, s' => s = s'
  | e :: es, s, s' => s.reg 4 ≠ sp ∧ ∃ s1, exec1 w s (e.intended w) = some s1 ∧ Quiet w sp es s1 s'

theorem Returns.iff_run {w base P t sp r} (hd : ∀ a b c, Step w base P a b → Step w base P a c → b = c) :
    ∀ {es : List Emit} {pc s s'}, At P pc (I es) → Quiet w sp es s s' →
    (Returns w base P t sp (pc, s) r ↔ Returns w base P t sp (pc + es.length, s') r) := by
  intro es
  induction es with
  | nil => intro pc s s' _ h; cases h; exact Iff.rfl
  | cons e es ih =>
    intro pc s s' ha h
    obtain ⟨h1, s1, h2, h3⟩ := h
    have ha' : At P pc (.ins e :: I es) := ha
    rw [Returns.iff hd (.ins ha'.head h2) (fun c => h1 c.2), ih ha'.tail h3, List.length_cons,
      show pc + (es.length + 1) = pc + 1 + es.length by omega]

theorem ex_ld {w : Nat} (hw : w = 4 ∨ w = 8) (s : MS) (d b : Nat) (o : Int) :
    exec1 w s ((mov_reg_mem w d b o).intended w) = some (setReg s d (cell w s.mem (s.reg b + o))) := by
  rcases hw with rfl | rfl <;> rfl
theorem ex_st {w : Nat} (hw : w = 4 ∨ w = 8) (s : MS) (b : Nat) (o : Int) (r : Nat) :
    exec1 w s ((mov_mem_reg w b o r).intended w) = some { s with mem := wr w s.mem (s.reg b + o) (s.reg r) w } := by
  rcases hw with rfl | rfl <;> rfl

theorem cell_addr {w : Nat} {m : Int → Nat} {a b : Int} (h : sgn w a = sgn w b) : cell w m a = cell w m b := by
  unfold cell
  rw [rd_addr w m w a b (by rw [← uns_sgn, h, uns_sgn])]

theorem sgn_add {w : Nat} (x y : Int) : sgn w (sgn w x + y) = sgn w (x + y) := sgn_add_l w x y

theorem ne_sp {w : Nat} (hw : w = 4 ∨ w = 8) (x : Int) : sgn w (x - w) ≠ sgn w x := by
  intro h
  rw [sgn_eq_iff] at h
  rcases hw with rfl | rfl <;> omega

/-- Memory after the call instruction. -/
def called (w : Nat) (base : Int) (P : List Asm) (k : Nat) (m : Int → Nat) (sp : Int) : Int → Nat :=
  wr w m (sgn w (sp - w)) (sgn w (adr w base P (k + 1))) w

/-- The state at the conditional jump of `malloc`. -/
theorem to_jump {w base P mlbl i crash l} (H : HasMalloc w base P mlbl i crash l) {k : Nat} {s : MS} {sp G : Int}
    (hk : P[k]? = some (.call mlbl)) (h4 : s.reg 4 = sgn w sp) (h3 : s.reg 3 = sgn w G) :
    let m := called w base P k s.mem sp
    ∃ s1 : MS, s1.mem = m ∧ s1.reg 4 = sgn w (sp - w) ∧ (∀ x, x ≠ 0 → x ≠ 1 → x ≠ 4 → s1.reg x = s.reg x) ∧
      s1.reg 0 = sgn w (cell w m sp + cell w m (G + w)) ∧ s1.cmpA = s1.reg 0 ∧ s1.cmpB = sgn w (cell w m G + heapSize) ∧
      Steps w base P (k, s) (i + 7, s1) ∧
      (∀ r, Returns w base P (k + 1) (s.reg 4) (k, s) r ↔ Returns w base P (k + 1) (s.reg 4) (i + 7, s1) r) := by
  have hw := H.w48
  have hd : ∀ a b c, Step w base P a b → Step w base P a c → b = c :=
    fun a b c => step_det hw H.uniq H.base0 H.fit
  intro m
  have hat : At P i ([.lbl mlbl] ++ (I [mov_reg_mem w 0 4 w, mov_reg_mem w 1 3 w, .add_reg_reg 0 1, mov_reg_mem w 1 3 0,
      .add_reg_imm 1 RT_HEAP_SIZE, .cmp_reg_reg 0 1] ++ ([Asm.jcc 0xe l] ++ crash ++ [.lbl l] ++
      I [mov_reg_mem w 1 3 w, mov_mem_reg w 3 w 0, .mov_reg_reg 0 1] ++ [.ret]))) := by
    have := H.at'
    simpa [malloc, rt_malloc, jump_cond_reg_reg, I] using this
  have hl := hat.left.head
  have hrun := hat.right.left
  have st1 : Step w base P (k, s) _ := .call hk hl
  rw [h4] at st1 ⊢
  have st2 : Step w base P (i, { setReg s 4 (sgn w (sgn w sp - w)) with
        mem := wr w s.mem (sgn w (sgn w sp - w)) (sgn w (adr w base P (k + 1))) w }) _ := .lbl hl
  simp only [sgn_sub_l] at st1 st2
  have hne := ne_sp hw sp
  let s0 : MS := { setReg s 4 (sgn w (sp - w)) with mem := m }
  let t1 := setReg s0 0 (cell w m (sgn w (sp - w) + w))
  let t2 := setReg t1 1 (cell w m (sgn w G + w))
  let t3 := setReg t2 0 (sgn w (t2.reg 0 + t2.reg 1))
  let t4 := setReg t3 1 (cell w m (sgn w G + 0))
  let t5 := setReg t4 1 (sgn w (t4.reg 1 + RT_HEAP_SIZE))
  let t6 : MS := { t5 with cmpA := t5.reg 0, cmpB := t5.reg 1 }
  have q : Quiet w (sgn w sp) [mov_reg_mem w 0 4 w, mov_reg_mem w 1 3 w, .add_reg_reg 0 1, mov_reg_mem w 1 3 0,
      .add_reg_imm 1 RT_HEAP_SIZE, .cmp_reg_reg 0 1] s0 t6 := by
    refine ⟨hne, t1, by rw [ex_ld hw]; rfl, hne, t2, ?_, hne, t3, ?_, hne, t4, ?_, hne, t5, ?_, hne, t6, ?_, rfl⟩
    · rw [ex_ld hw, show t1.reg 3 = sgn w G from h3]; rfl
    · rcases hw with rfl | rfl <;> rfl
    · rw [ex_ld hw, show t3.reg 3 = sgn w G from h3]; rfl
    · rcases hw with rfl | rfl <;> rfl
    · rcases hw with rfl | rfl <;> rfl
  have e1 : cell w m (sgn w (sp - w) + w) = cell w m sp := cell_addr (by rw [sgn_add_l]; congr 1; omega)
  have e2 : cell w m (sgn w G + w) = cell w m (G + w) := cell_addr (sgn_add_l ..)
  have e3 : cell w m (sgn w G + 0) = cell w m G := cell_addr (by rw [sgn_add_l]; congr 1; omega)
  have run : ∀ {es : List Emit} {s s' : MS}, Quiet w (sgn w sp) es s s' → Gen.run w s es = some s' := by
    intro es
    induction es with
    | nil => intro s s' h; cases h; rfl
    | cons e es ih =>
      intro s s' h
      obtain ⟨_, s1, h2, h3⟩ := h
      have := ih h3
      simp only [Gen.run, List.map_cons, execs, h2] at this ⊢
      exact this
  refine ⟨t6, rfl, rfl, ?_, ?_, rfl, ?_, ?_, ?_⟩
  · intro x h0 h1 h4
    simp [t6, t5, t4, t3, t2, t1, s0, setReg, h0, h1, h4]
  · show sgn w (cell w m (sgn w (sp - w) + w) + cell w m (sgn w G + w)) = _
    rw [e1, e2]
  · show sgn w (cell w m (sgn w G + 0) + RT_HEAP_SIZE) = _
    rw [e3]; rfl
  · exact .head st1 (.head st2 (steps_run hrun (run q)))
  · intro r
    rw [Returns.iff hd st1 (by simp), Returns.iff hd st2 (fun c => hne c.2)]
    exact Returns.iff_run hd hrun q

theorem cell_wr_out {w : Nat} {m : Int → Nat} {a b v : Int} (h0 : 0 ≤ a) (h1 : a + w ≤ (2 ^ (8 * w) : Nat)) (h2 : 0 ≤ b)
    (h3 : b + w ≤ (2 ^ (8 * w) : Nat)) (h : a + w ≤ b ∨ b + w ≤ a) {b' : Int} (hb : sgn w b' = sgn w b) :
    cell w (wr w m b' v w) a = cell w m a := by
  rw [wr_addr w w m b' b v (by rw [← uns_sgn, hb, uns_sgn])]
  exact word_congr h0 h1 (fun x hx hx' => wr_out w w m b v x (by rw [inR_iff h2 h3]; omega))

/-- What one call of `malloc` does. -/
structure Called (w : Nat) (G sp : Int) (s s' : MS) : Prop where
  /-- The block starts at the end of the used part of the heap. -/
  result : s'.reg 0 = cell w s.mem (G + w)
  /-- The used part grows by the size. -/
  grown : cell w s'.mem (G + w) = cell w s.mem (G + w) + cell w s.mem sp
  stack : s'.reg 4 = s.reg 4
  regs : ∀ x, x ≠ 0 → x ≠ 1 → s'.reg x = s.reg x
  /-- No other memory changes, except the place of the return address. -/
  mem : ∀ x, ¬ (G + w ≤ x ∧ x < G + 2 * w) → ¬ (sp - w ≤ x ∧ x < sp) → s'.mem x = s.mem x

/-- A call of `malloc`: `G` is the address of the two words of the run-time system, `sp` the stack pointer, the word at `sp` the size. -/
structure CallOk (w : Nat) (P : List Asm) (mlbl k : Nat) (G sp : Int) (s : MS) : Prop where
  call : P[k]? = some (.call mlbl)
  stack : s.reg 4 = sgn w sp
  glo : s.reg 3 = sgn w G
  gRange : 0 ≤ G ∧ G + 2 * w ≤ (2 ^ (8 * w) : Nat)
  sRange : w ≤ sp ∧ sp + w ≤ (2 ^ (8 * w) : Nat)
  apart : G + 2 * w ≤ sp - w ∨ sp ≤ G
  /-- No overflow in the computation of the ends of the block and of the heap. -/
  noOverflow : -((2 ^ (8 * w - 1) : Nat) : Int) ≤ cell w s.mem (G + w) + cell w s.mem sp ∧
    cell w s.mem (G + w) + cell w s.mem sp < (2 ^ (8 * w - 1) : Nat) ∧ cell w s.mem G + heapSize < (2 ^ (8 * w - 1) : Nat)

theorem cells_called {w base P mlbl k G sp s} (hw : w = 4 ∨ w = 8) (hc : CallOk w P mlbl k G sp s) :
    cell w (called w base P k s.mem sp) sp = cell w s.mem sp ∧ cell w (called w base P k s.mem sp) G = cell w s.mem G ∧
    cell w (called w base P k s.mem sp) (G + w) = cell w s.mem (G + w) := by
  obtain ⟨g0, g1⟩ := hc.gRange
  obtain ⟨p0, p1⟩ := hc.sRange
  have ap := hc.apart
  unfold called
  refine ⟨?_, ?_, ?_⟩ <;>
  · refine cell_wr_out (b := sp - w) (by omega) (by omega) (by omega) (by omega) (by omega) (sgn_sgn ..)

/-- **C34, no room.** A call of `malloc` for which there is not enough room in the heap never returns: the program is left in the crash code. -/
theorem C34_malloc_full {w base P mlbl i crash l} (H : HasMalloc w base P mlbl i crash l) {k : Nat} {G sp : Int} {s : MS}
    (hc : CallOk w P mlbl k G sp s) (hfull : cell w s.mem G + heapSize < cell w s.mem (G + w) + cell w s.mem sp) :
    (∃ s', Steps w base P (k, s) (i + 8, s')) ∧ ∀ r, ¬ Returns w base P (k + 1) (s.reg 4) (k, s) r := by
  have hw := H.w48
  have hd : ∀ a b c, Step w base P a b → Step w base P a c → b = c :=
    fun a b c => step_det hw H.uniq H.base0 H.fit
  obtain ⟨c1, c2, c3⟩ := cells_called (base := base) hw hc
  have hb := hc.noOverflow
  have hG : -((2 ^ (8 * w - 1) : Nat) : Int) ≤ cell w s.mem G := (sgn_bounds hw _).1
  obtain ⟨s1, _, e4, _, e0, eA, eB, st, hi⟩ := to_jump H hc.call hc.stack hc.glo
  rw [c1, c3] at e0; rw [c2] at eB
  have hat : At P i ([.lbl mlbl] ++ (I [mov_reg_mem w 0 4 w, mov_reg_mem w 1 3 w, .add_reg_reg 0 1, mov_reg_mem w 1 3 0,
      .add_reg_imm 1 RT_HEAP_SIZE, .cmp_reg_reg 0 1] ++ ([Asm.jcc 0xe l] ++ (crash ++ ([.lbl l] ++
      I [mov_reg_mem w 1 3 w, mov_mem_reg w 3 w 0, .mov_reg_reg 0 1] ++ [.ret]))))) := by
    have := H.at'
    simpa [malloc, rt_malloc, jump_cond_reg_reg, I] using this
  have hj : P[i + 7]? = some (.jcc 0xe l) := hat.right.right.left.head
  have hcr : At P (i + 8) crash := hat.right.right.right.left
  have stepF : ∀ s1 : MS, s1.reg 0 = sgn w (cell w s.mem sp + cell w s.mem (G + w)) → s1.cmpA = s1.reg 0 →
      s1.cmpB = sgn w (cell w s.mem G + heapSize) → Step w base P (i + 7, s1) (i + 8, s1) := by
    intro s1 h0 hA hB
    refine .jccF hj ?_
    rw [hA, hB, h0, sgn_id hw (by omega) (by omega), sgn_id hw (by unfold heapSize; omega) (by omega)]
    simp [X86.Spec.cond]
    omega
  refine ⟨?_, ?_⟩
  · exact ⟨s1, st.trans (.one (stepF s1 e0 eA eB))⟩
  · intro r hret
    rw [hi, Returns.iff hd (stepF s1 e0 eA eB) (by rw [e4, hc.stack]; exact fun c => ne_sp hw sp c.2)] at hret
    -- it cannot return from the crash code
    have key : ∀ {a r}, Returns w base P (k + 1) (s.reg 4) a r → Steps w base P (i + 8, s1) a → i + 8 ≤ k + 1 ∧ k + 1 < i + 8 + crash.length := by
      intro a r h
      induction h with
      | here _ => intro hs; exact H.stay s1 _ hs
      | step _ s2 _ ih => intro hs; exact ih (hs.trans (.one s2))
    have := key hret .refl
    by_cases hk : k = i + 7
    · have := hc.call; rw [hk, hj] at this; cases this
    · have h2 := hcr (k - (i + 8)) (by omega)
      rw [show i + 8 + (k - (i + 8)) = k by omega, hc.call] at h2
      exact H.noCall mlbl (List.mem_of_getElem? h2.symm)

/-- **C34, room.** A call of `malloc` for which there is enough room returns, with the effect `Called`. -/
theorem C34_malloc_room {w base P mlbl i crash l} (H : HasMalloc w base P mlbl i crash l) {k : Nat} {G sp : Int} {s : MS}
    (hc : CallOk w P mlbl k G sp s) (hroom : cell w s.mem (G + w) + cell w s.mem sp ≤ cell w s.mem G + heapSize) :
    ∃ r, Returns w base P (k + 1) (s.reg 4) (k, s) r ∧ Called w G sp s r := by
  have hw := H.w48
  have hd : ∀ a b c, Step w base P a b → Step w base P a c → b = c :=
    fun a b c => step_det hw H.uniq H.base0 H.fit
  obtain ⟨c1, c2, c3⟩ := cells_called (base := base) hw hc
  have hb := hc.noOverflow
  have hG : -((2 ^ (8 * w - 1) : Nat) : Int) ≤ cell w s.mem G := (sgn_bounds hw _).1
  have hat : At P i ([.lbl mlbl] ++ (I [mov_reg_mem w 0 4 w, mov_reg_mem w 1 3 w, .add_reg_reg 0 1, mov_reg_mem w 1 3 0,
      .add_reg_imm 1 RT_HEAP_SIZE, .cmp_reg_reg 0 1] ++ ([Asm.jcc 0xe l] ++ (crash ++ ([.lbl l] ++
      (I [mov_reg_mem w 1 3 w, mov_mem_reg w 3 w 0, .mov_reg_reg 0 1] ++ [.ret])))))) := by
    have := H.at'
    simpa [malloc, rt_malloc, jump_cond_reg_reg, I] using this
  have hj : P[i + 7]? = some (.jcc 0xe l) := hat.right.right.left.head
  have hl := hat.right.right.right.right.left.head
  have hrun := hat.right.right.right.right.right.left
  have hret := hat.right.right.right.right.right.right.head
  obtain ⟨s1, em, e4, er, e0, eA, eB, st, hi⟩ := to_jump H hc.call hc.stack hc.glo
  rw [c1, c3, sgn_id hw (by omega) (by omega)] at e0
  rw [c2, sgn_id hw (by unfold heapSize; omega) (by omega)] at eB
  generalize hj1 : i + [Asm.lbl mlbl].length + (I [mov_reg_mem w 0 4 w, mov_reg_mem w 1 3 w, Emit.add_reg_reg 0 1, mov_reg_mem w 1 3 0,
      Emit.add_reg_imm 1 RT_HEAP_SIZE, Emit.cmp_reg_reg 0 1]).length + [Asm.jcc 0xe l].length + crash.length = j at hl hrun hret
  have s1g : s1.reg 3 = sgn w G := by rw [er 3 (by omega) (by omega) (by omega), hc.glo]
  have hne := ne_sp hw sp
  let t1 := setReg s1 1 (cell w s1.mem (sgn w G + w))
  let t2 : MS := { t1 with mem := wr w t1.mem (sgn w G + w) (s1.reg 0) w }
  let t3 := setReg t2 0 (t2.reg 1)
  have q : Quiet w (sgn w sp) [mov_reg_mem w 1 3 w, mov_mem_reg w 3 w 0, .mov_reg_reg 0 1] s1 t3 := by
    refine ⟨by rw [e4]; exact hne, t1, by rw [ex_ld hw, s1g], ?_, t2, ?_, ?_, t3, ?_, rfl⟩
    · show s1.reg 4 ≠ _; rw [e4]; exact hne
    · rw [ex_st hw, show t1.reg 3 = sgn w G from s1g]; rfl
    · show s1.reg 4 ≠ _; rw [e4]; exact hne
    · rcases hw with rfl | rfl <;> rfl
  obtain ⟨g0, g1⟩ := hc.gRange
  obtain ⟨p0, p1⟩ := hc.sRange
  have ap := hc.apart
  have gw : sgn w (sgn w G + w) = sgn w (G + w) := sgn_add_l ..
  have stJ : Step w base P (i + 7, s1) (j, s1) := by
    refine .jccT hj ?_ hl
    rw [eA, eB, e0]
    simp [X86.Spec.cond]
    omega
  have stL : Step w base P (j, s1) (j + 1, s1) := .lbl hl
  have t3m : t3.mem = wr w s1.mem (sgn w G + w) (s1.reg 0) w := rfl
  have t34 : t3.reg 4 = sgn w (sp - w) := e4
  have ra : sgn w (rd w t3.mem (t3.reg 4) w) = sgn w (adr w base P (k + 1)) := by
    show cell w t3.mem (t3.reg 4) = _
    rw [t34, cell_addr (sgn_sgn w (sp - w)), t3m, cell_wr_out (b := G + w) (by omega) (by omega) (by omega) (by omega) (by omega) gw, em]
    unfold called cell
    rw [← wr_addr w w s.mem (sp - w) (sgn w (sp - w)) _ (uns_sgn ..).symm, rd_wr_word hw, sgn_sgn]
  have stR : Step w base P (j + 1 + 3, t3) (k + 1, setReg t3 4 (sgn w (t3.reg 4 + w))) := .ret hret hc.call ra
  have e5 : sgn w (t3.reg 4 + w) = s.reg 4 := by rw [t34, sgn_add_l, hc.stack]; congr 1; omega
  have n4 : ∀ {a : Prop} {s' : MS}, s'.reg 4 = sgn w (sp - w) → ¬ (a ∧ s'.reg 4 = s.reg 4) := by
    intro a s' h c
    rw [h, hc.stack] at c; exact hne c.2
  refine ⟨setReg t3 4 (sgn w (t3.reg 4 + w)), ?_, ?_⟩
  · rw [hi, Returns.iff hd stJ (n4 e4), Returns.iff hd stL (n4 e4), hc.stack]
    refine (Returns.iff_run hd hrun q).2 ?_
    refine .step (by rw [← hc.stack]; exact n4 t34) stR (.here ?_)
    rw [← hc.stack]; exact e5
  · have hg : cell w s1.mem (sgn w G + w) = cell w s.mem (G + w) := by rw [cell_addr gw, em, c3]
    refine ⟨hg, ?_, e5, ?_, ?_⟩
    · show cell w t3.mem (G + w) = _
      rw [t3m, wr_addr w w s1.mem (sgn w G + w) (G + w) _ (by rw [← uns_sgn, gw, uns_sgn])]
      unfold cell
      rw [rd_wr_word hw]
      show sgn w (s1.reg 0) = cell w s.mem (G + w) + cell w s.mem sp
      rw [e0, sgn_id hw (by omega) (by omega)]; omega
    · intro x h0 h1
      by_cases h4 : x = 4
      · subst h4; exact e5
      · show (if x = 4 then _ else t3.reg x) = _
        rw [if_neg h4]
        show (if x = 0 then _ else if x = 1 then _ else s1.reg x) = _
        rw [if_neg h0, if_neg h1, er x h0 h1 h4]
    · intro x h1 h2
      show t3.mem x = _
      rw [t3m, wr_addr w w s1.mem (sgn w G + w) (G + w) _ (by rw [← uns_sgn, gw, uns_sgn]),
        wr_out w w _ _ _ _ (by rw [inR_iff (by omega) (by omega)]; omega), em]
      unfold called
      rw [← wr_addr w w s.mem (sp - w) (sgn w (sp - w)) _ (uns_sgn ..).symm,
        wr_out w w _ _ _ _ (by rw [inR_iff (by omega) (by omega)]; omega)]

theorem Returns.det {w base P t sp a r r'} (hd : ∀ a b c, Step w base P a b → Step w base P a c → b = c)
    (h : Returns w base P t sp a r) (h' : Returns w base P t sp a r') : r = r' := by
  induction h with
  | here e =>
    cases h' with
    | here => rfl
    | step n _ _ => exact absurd ⟨rfl, e⟩ n
  | step n s _ ih =>
    cases h' with
    | here e => exact absurd ⟨rfl, e⟩ n
    | step _ s2 r2 => exact ih (by rw [hd _ _ _ s s2]; exact r2)

/-- **C34.** Whatever the program does between its calls of `malloc` (as long as it leaves the two words of the run-time system and the register of
their address alone), all blocks it ever gets lie in the heap and no two of them overlap. -/
theorem C34_malloc_sound_partial {w base P mlbl i crash l} (H : HasMalloc w base P mlbl i crash l) {G h : Int}
    (hG : 0 ≤ G ∧ G + 2 * w ≤ (2 ^ (8 * w) : Nat)) {s : MS} {bs : List (Int × Int)} (hh : Hist w base P mlbl G h s bs) : Sound h bs := by
  have hw := H.w48
  have hd : ∀ a b c, Step w base P a b → Step w base P a c → b = c :=
    fun a b c => step_det hw H.uniq H.base0 H.fit
  suffices s.reg 3 = sgn w G ∧ cell w s.mem G = h ∧ h ≤ cell w s.mem (G + w) ∧ cell w s.mem (G + w) ≤ h + heapSize ∧
      (∀ b ∈ bs, h ≤ b.1 ∧ 0 ≤ b.2 ∧ b.1 + b.2 ≤ cell w s.mem (G + w)) ∧ bs.Pairwise fun a b => a.1 + a.2 ≤ b.1 ∨ b.1 + b.2 ≤ a.1 by
    obtain ⟨_, _, _, h4, h5, h6⟩ := this
    exact ⟨fun b hb => ⟨(h5 b hb).1, (h5 b hb).2.1, by have := (h5 b hb).2.2; omega⟩, h6⟩
  induction hh with
  | start h3 e1 e2 => exact ⟨h3, e1, by omega, by rw [e2]; unfold heapSize; omega, by simp, by simp⟩
  | other _ e3 e1 e2 ih =>
    obtain ⟨i1, i2, i3, i4, i5, i6⟩ := ih
    exact ⟨by rw [e3, i1], by rw [e1, i2], by rw [e2]; exact i3, by rw [e2]; exact i4, by rw [e2]; exact i5, i6⟩
  | @malloc s s' bs k sp _ hk h4 p0 p1 ap n0 n1 hr ih =>
    obtain ⟨i1, i2, i3, i4, i5, i6⟩ := ih
    have hlo : -((2 ^ (8 * w - 1) : Nat) : Int) ≤ cell w s.mem (G + w) := (sgn_bounds hw _).1
    have hc : CallOk w P mlbl k G sp s := ⟨hk, h4, i1, hG, ⟨p0, p1⟩, ap, by omega, by omega, by omega⟩
    by_cases hf : cell w s.mem G + heapSize < cell w s.mem (G + w) + cell w s.mem sp
    · exact absurd hr ((C34_malloc_full H hc hf).2 s')
    · obtain ⟨r, hr', hC⟩ := C34_malloc_room H hc (by omega)
      have := Returns.det hd hr hr'
      subst this
      have hm : cell w s'.mem G = cell w s.mem G := by
        refine word_congr (by omega) (by omega) (fun x h1 h2 => hC.mem x (by omega) (by omega))
      refine ⟨by rw [hC.regs 3 (by omega) (by omega), i1], by rw [hm, i2], by rw [hC.grown]; omega, by rw [hC.grown]; omega, ?_, ?_⟩
      · intro b hb
        rw [hC.grown]
        rcases List.mem_cons.1 hb with rfl | hb
        · exact ⟨by rw [hC.result]; exact i3, n0, by show s'.reg 0 + _ ≤ _; rw [hC.result]; exact Int.le_refl _⟩
        · have := i5 b hb; exact ⟨this.1, this.2.1, by omega⟩
      · refine List.pairwise_cons.2 ⟨?_, i6⟩
        intro b hb
        right
        rw [hC.result]
        exact (i5 b hb).2.2

/-- **C34, free.** `free` returns at once; no memory changes, except the place of the return address: nothing becomes available again. -/
theorem C34_free {w base P flbl i} (hw : w = 4 ∨ w = 8) (hat : At P i (free w flbl)) {k : Nat} {sp : Int} {s : MS}
    (hk : P[k]? = some (.call flbl)) (h4 : s.reg 4 = sgn w sp) (hsp : w ≤ sp ∧ sp ≤ (2 ^ (8 * w) : Nat)) :
    ∃ r, Returns w base P (k + 1) (s.reg 4) (k, s) r ∧ (∀ x, ¬ (sp - w ≤ x ∧ x < sp) → r.mem x = s.mem x) ∧
      ∀ x, x ≠ 0 → r.reg x = s.reg x := by
  have hl := hat.left.left.head
  have hm : P[i + 1]? = some (.ins (mov_reg_mem w 0 4 w)) := hat.left.right.head
  have hr : P[i + 2]? = some .ret := hat.right.head
  have hne := ne_sp hw sp
  let s0 : MS := { setReg s 4 (sgn w (sp - w)) with mem := called w base P k s.mem sp }
  have st1 : Step w base P (k, s) (i, s0) := by
    have : Step w base P (k, s) _ := .call hk hl
    rw [h4, sgn_sub_l] at this
    exact this
  let s1 := setReg s0 0 (cell w s0.mem (s0.reg 4 + w))
  have st3 : Step w base P (i + 1, s0) (i + 2, s1) := .ins hm (ex_ld hw ..)
  have ra : sgn w (rd w s1.mem (s1.reg 4) w) = sgn w (adr w base P (k + 1)) := by
    show sgn w (rd w (wr w s.mem (sgn w (sp - w)) (sgn w (adr w base P (k + 1))) w) (sgn w (sp - w)) w) = _
    rw [rd_wr_word hw, sgn_sgn]
  have e5 : sgn w (s1.reg 4 + w) = s.reg 4 := by
    show sgn w (sgn w (sp - w) + w) = _
    rw [sgn_add_l, h4]; congr 1; omega
  have n4 : ∀ {a : Prop}, ¬ (a ∧ sgn w (sp - w) = s.reg 4) := fun c => hne (by rw [c.2, h4])
  refine ⟨setReg s1 4 (sgn w (s1.reg 4 + w)), .step ?_ st1 (.step (n4 (a := _)) (.lbl hl) (.step (n4 (a := _)) st3 (.step (n4 (a := _)) (.ret hr hk ra) (.here e5)))), ?_, ?_⟩
  · rintro ⟨e, -⟩; simp at e
  · intro x hx
    show called w base P k s.mem sp x = _
    unfold called
    rw [← wr_addr w w s.mem (sp - w) (sgn w (sp - w)) _ (uns_sgn ..).symm,
      wr_out w w _ _ _ _ (by rw [inR_iff (by omega) (by omega)]; omega)]
  · intro x h0
    by_cases h : x = 4
    · subst h; exact e5
    · simp [setReg, s1, s0, h, h0]

/-! ## Examples and counterexamples -/

/-- Calls of `malloc` with the given sizes; the results are left on the stack. Then `malloc` itself. The crash code is a system call,
where the model of the machine ends. -/
def prog (sizes : List Int) : List Asm :=
  sizes.flatMap (fun n => I [.mov_reg_imm 0 n, .push_reg 0] ++ [.call 1] ++ I [.push_reg 0]) ++ [.jmp 3] ++
  malloc 8 1 (I [.int_i8 0x80]) 2 ++ [.lbl 3]

/-- Stack at 2^20, the two words at 2^21 hold 2^24: the heap is empty. -/
def st0 : MS := ⟨fun r => if r = 4 then 1048576 else if r = 3 then 2097152 else 0,
  fun a => if a = 2097152 + 3 ∨ a = 2097152 + 11 then 1 else 0, 0, 0, []⟩

/-- Results of the calls. -/
def results (sizes : List Int) : Option (List Int) :=
  (runTo 8 4096 (prog sizes) ((prog sizes).length - 1) 1000 0 st0).map fun s =>
    (List.range sizes.length).map fun (i : Nat) => cell 8 s.mem (1048576 - 16 * (i : Int) - 16)

example : results [10, 20, 104857570] = some [16777216, 16777226, 16777246] := by decide +kernel
/-- One byte too many. -/
example : results [10, 20, 104857571] = none := by decide +kernel

theorem prog_hasMalloc (sizes : List Int) (h : sizes = [10]) : HasMalloc 8 4096 (prog sizes) 1 5 (I [.int_i8 0x80]) 2 := by
  subst h
  refine ⟨.inr rfl, ?_, ?_, by decide, ?_, ?_, ?_⟩
  · intro i hi
    have : (prog [10])[5 + i]? = ((prog [10]).drop 5)[i]? := by rw [List.getElem?_drop]
    rw [this, show (prog [10]).drop 5 = malloc 8 1 (I [.int_i8 0x80]) 2 ++ [.lbl 3] from rfl, List.getElem?_append_left hi]
  · exact uniqB_ok (by decide +kernel)
  · decide +kernel
  · intro s c hs
    cases hs with
    | refl => exact ⟨by omega, by simp [I]⟩
    | head s1 _ =>
      exfalso
      have e : (prog [10])[13]? = some (.ins (.int_i8 0x80)) := rfl
      cases s1 with
      | ins h x => rw [e] at h; cases h; simp [Emit.intended, exec1] at x
      | _ h => rw [e] at h; cases h
  · intro n; simp [I]

/-- The hypotheses are met. -/
example : CallOk 8 (prog [10]) 1 2 2097152 1048568
    { setReg (setReg st0 0 10) 4 1048568 with mem := wr 8 st0.mem 1048568 10 8 } := by
  refine ⟨rfl, by decide +kernel, by decide +kernel, by decide +kernel, by decide +kernel, by decide +kernel, by decide +kernel⟩

example : Hist 8 4096 (prog [10]) 1 2097152 16777216 st0 [] := .start (by decide +kernel) (by decide +kernel) (by decide +kernel)

/-- **Disagreement with C.** A negative size (a huge one in C) is granted, and gives back memory in use: the third block is the first one. -/
theorem C34_negative_size_false : results [16, -16, 16] = some [16777216, 16777232, 16777216] := by decide +kernel

/-- **Disagreement with C.** So is a size so large that the end of the block is beyond the last address. -/
theorem C34_huge_size_false : results [9223372036854775807, 8] = some [16777216, -9223372036837998593] := by decide +kernel

/-- **Disagreement with C.** Blocks are not aligned. -/
theorem C34_alignment_false : ∃ a, results [1, 8] = some [16777216, a] ∧ a % 8 ≠ 0 := ⟨16777217, by decide +kernel, by decide⟩

/-- **Disagreement with C.** Two blocks of size 0 have the same address. -/
theorem C34_zero_size_false : results [0, 0] = some [16777216, 16777216] := by decide +kernel

end Verif.Rt
