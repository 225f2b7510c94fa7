import Verif.Gen.PtrProofs
/-! # C33: pointer arithmetic scales by the element size

The operands of a binary operator are the two words on top of the stack, the right one on top.
`binop` is the code of `codegen_binop` for a pointer operation; the theorems run the decoded bytes on
the machine specification. -/
namespace Verif.Gen
open Verif Verif.X86 Verif.X86.Spec

namespace Spec
/-- C's `sizeof`; `void` counts as 1 byte (GNU C). -/
def sizeof (w : Nat) (T : Tags) : CTy → Nat
  | .void => 1
  | .char _ => 1
  | .short _ => 2
  | .int _ => 4
  | .long _ => 8
  | .enum => w
  | .ptr _ => w
  | .arr n t => n * sizeof w T t
  | .agg _ tag => T.size tag
  | .fn _ => w
/-- Address of element `i` of an array of elements of size `k` at address `a`. -/
def elem (a : Int) (k : Nat) (i : Int) : Int := a + i * k
/-- The word at address `a`. -/
def word (w : Nat) (m : Int → Nat) (a : Int) : Int := sgn w (rd w m a w)
/-- Element types covered: not an array (see `C33_row_false`), `long` on 64-bit targets only, and of
a size between 1 and `INT_MAX`. -/
def Elem (w : Nat) (T : Tags) (t : CTy) : Prop :=
  (∀ n t', t ≠ .arr n t') ∧ (∀ u, t = .long u → w = 8) ∧ 1 ≤ sizeof w T t ∧ sizeof w T t < 2147483648
/-- `p` is a type whose elements have type `t`. -/
def PtrTo (p t : CTy) : Prop := p = .ptr t ∨ ∃ n, p = .arr n t
end Spec
open Spec

/-- The operand pops and the result push of `codegen_binop` (exe.c:991-1116) around its core. -/
def binop (es : List Emit) : List Emit := [.pop_reg 1, .pop_reg 0] ++ es ++ [.push_reg 0]

theorem ref_width {w : Nat} {T : Tags} {p t : CTy} (hp : PtrTo p t) (ht : Elem w T t) :
    is_pointer_type p = true ∧ dereference_type p = .ok t ∧ ref_type_width w T p = .ok (sizeof w T t) := by
  have : type_width w T t false = .ok (sizeof w T t) := by
    cases t <;> simp only [type_width, sizeof]
    case arr n t' => exact absurd rfl (ht.1 n t')
    case long u => rw [if_pos (ht.2.1 u rfl)]
  rcases hp with rfl | ⟨n, rfl⟩ <;>
    simp [is_pointer_type, dereference_type, ref_type_width, this]

theorem ok_mul {w : Nat} (hw : w = 4 ∨ w = 8) {reg width : Nat} (hr : reg < 8) (hwb : width < 2147483648) :
    ∀ e ∈ mul_for_pointer_arith reg width, e.ok w := by
  have hR : ∀ r, r < 8 → Reg w r := by intro r h; rcases hw with rfl | rfl <;> simp [Reg] <;> omega
  unfold mul_for_pointer_arith
  simp only []
  split
  · simp
  split
  · have : ∀ n, ∀ e ∈ doublings reg n, e.ok w := by
      intro n
      induction n using Nat.strongRecOn with
      | ind n ih =>
        unfold doublings
        split
        · intro e he
          rcases List.mem_cons.1 he with rfl | he
          · exact ⟨hR _ hr, hR _ hr⟩
          · exact ih (n / 2) (by omega) e he
        · simp
    exact this _
  · have ho : (if reg = 0 then 1 else 0) < 8 := by split <;> decide
    generalize (if reg = 0 then 1 else 0) = o at *
    simp [Emit.ok, hR, hr, ho, I32]
    omega

theorem ok_div {w : Nat} (hw : w = 4 ∨ w = 8) {width : Nat} (hwb : width < 2147483648) :
    ∀ e ∈ div_for_pointer_arith 0 width, e.ok w := by
  have hR : ∀ r, r < 8 → Reg w r := by intro r h; rcases hw with rfl | rfl <;> simp [Reg] <;> omega
  unfold div_for_pointer_arith
  split
  · simp
  split
  · rename_i h
    obtain ⟨k, rfl⟩ := isPow2 h
    have := log_lt hwb
    rw [log_pow2]
    simp [Emit.ok, hR, I32]
    omega
  · simp [Emit.ok, hR, I32]
    omega

theorem ok_load {w : Nat} (hw : w = 4 ∨ w = 8) {k : Nat} {sg : Bool} {es : List Emit}
    (h : load_mem_location w 0 0 0 k sg = .ok es) : ∀ e ∈ es, e.ok w := by
  have hR : ∀ r, r < 8 → Reg w r := by intro r h; rcases hw with rfl | rfl <;> simp [Reg] <;> omega
  unfold load_mem_location at h
  rcases hw with rfl | rfl
  all_goals
    repeat' split at h
    all_goals first
      | (simp at h; done)
      | omega
      | (simp only [Res.ok.injEq] at h
         subst h
         simp [Emit.ok, hR, I32])

/-- Effect of a binary operator on the state: the two top words are replaced by one, `v`; nothing
else in memory changes, nor any register but AX, CX, DX and SP. -/
structure Replaces (w : Nat) (s s' : MS) (v : Int) : Prop where
  sp : s'.reg 4 = sgn w (s.reg 4 + w)
  val : word w s'.mem (s'.reg 4) = v
  wf : Wf w s'
  regs : ∀ r, r ∉ [0, 1, 2, 4] → s'.reg r = s.reg r
  mem : ∀ x, ¬ InR w (s.reg 4 + w) w x → s'.mem x = s.mem x

theorem binop_run {w : Nat} (hw : w = 4 ∨ w = 8) {s : MS} (hwf : Wf w s) {es : List Emit} {v : Int}
    (hv : sgn w v = v)
    (core : ∀ s1, Wf w s1 → s1.reg 0 = word w s.mem (s.reg 4 + w) → s1.reg 1 = word w s.mem (s.reg 4) →
      s1.mem = s.mem → s1.reg 4 = sgn w (s.reg 4 + 2 * w) → ∃ s2, run w s1 es = some s2 ∧ s2.reg 0 = v ∧ Eff w s1 s2 [0, 1, 2] (s1.reg 4 - w) w) :
    ∃ s', run w s (binop es) = some s' ∧ Replaces w s s' v := by
  let s1 : MS := setReg (setReg (setReg (setReg s 4 (sgn w (s.reg 4 + w))) 1 (word w s.mem (s.reg 4)))
    4 (sgn w (sgn w (s.reg 4 + w) + w))) 0 (word w s.mem (s.reg 4 + w))
  have hr1 : run w s [.pop_reg 1, .pop_reg 0] = some s1 := by
    simp only [run, List.map_cons, List.map_nil, Emit.intended, execs, exec1]
    have : sgn w (rd w s.mem (sgn w (s.reg 4 + w)) w) = word w s.mem (s.reg 4 + w) := by
      rw [word, rd_addr w s.mem w (sgn w (s.reg 4 + w)) (s.reg 4 + w) (uns_sgn w _)]
    simp [s1, setReg, this, word]
  have hw1 : Wf w s1 := by
    apply wf_setReg (wf_setReg (wf_setReg (wf_setReg hwf _ ?_) _ ?_) _ ?_) <;> exact sgn_sgn w _
  have e4 : s1.reg 4 = sgn w (s.reg 4 + 2 * w) := by
    simp [s1, setReg]; rw [sgn_add_l]; congr 1; omega
  obtain ⟨s2, h2, hv2, e2⟩ := core s1 hw1 (by simp [s1, setReg]) (by simp [s1, setReg]) rfl e4
  have e24 : s2.reg 4 = s1.reg 4 := e2.regs 4 (by decide)
  have ea : sgn w (s2.reg 4 - w) = sgn w (s.reg 4 + w) := by
    rw [e24, e4, sgn_sub_l]; congr 1; omega
  refine ⟨{ setReg s2 4 (sgn w (s2.reg 4 - w)) with
      mem := wr w s2.mem (sgn w (s2.reg 4 - w)) (s2.reg 0) w }, ?_, ?_, ?_, ?_, ?_, ?_⟩
  · unfold binop
    exact run_append_some (run_append_some hr1 h2) rfl
  · simp [setReg, ea]
  · show word w (wr w s2.mem (sgn w (s2.reg 4 - w)) (s2.reg 0) w) (sgn w (s2.reg 4 - w)) = _
    rw [word, rd_wr_word hw, hv2, hv]
  · exact wf_setReg e2.wf _ (sgn_sgn w _)
  · intro r hr
    simp only [List.mem_cons, List.not_mem_nil, or_false, not_or] at hr
    simp only [setReg, hr, if_false]
    rw [e2.regs r (by simp [hr])]
    simp [s1, setReg, hr]
  · intro x hx
    have hx' : ¬ InR w (sgn w (s2.reg 4 - w)) w x := by
      rw [inR_addr (b := s.reg 4 + w) (by rw [ea, uns_sgn])]; exact hx
    have hx2 : ¬ InR w (s1.reg 4 - w) w x := by
      rw [← e24, ← inR_addr (a := sgn w (s2.reg 4 - w)) (uns_sgn w _)]; exact hx'
    show wr w s2.mem (sgn w (s2.reg 4 - w)) (s2.reg 0) w x = _
    rw [wr_out _ _ _ _ _ _ hx', e2.mem x hx2]; rfl

theorem decodes_binop {w : Nat} (hw : w = 4 ∨ w = 8) {es : List Emit} (h : ∀ e ∈ es, e.ok w) :
    Decodes w ((binop es).flatMap (Emit.bytes w)) ((binop es).map (Emit.intended w)) := by
  apply C31_sequence_partial w hw
  intro e he
  simp only [binop, List.mem_append, List.mem_cons, List.not_mem_nil, or_false] at he
  rcases he with ((rfl | rfl) | he) | rfl
  · simp [Emit.ok]
  · simp [Emit.ok]
  · exact h e he
  · simp [Emit.ok]

/-- The operation code `core` computed for the operand types turns, once decoded and run, the two
top words into `v`. -/
def Computes (w : Nat) (core : Res (List Emit)) (s : MS) (v : Int) : Prop :=
  ∃ es is s', core = .ok es ∧ Decodes w ((binop es).flatMap (Emit.bytes w)) is ∧
    execs w s is = some s' ∧ Replaces w s s' v

theorem eff_setReg0 {w : Nat} {s1 s2 : MS} {ch : List Nat} {a : Int} (h : Eff w s1 s2 ch a w)
    (hch : ∀ r ∈ ch, r ∈ [0, 1, 2]) {v : Int} (hv : sgn w v = v) :
    Eff w s1 (setReg s2 0 v) [0, 1, 2] a w :=
  ⟨wf_setReg h.wf 0 hv, fun r hr => by
      have : r ≠ 0 := fun e => hr (by simp [e])
      simp only [setReg, this, if_false]
      exact h.regs r (fun hm => hr (hch r hm)), h.mem⟩

/-- **C33, `p + n`.** With the address of element `i` of an array and an integer `n` on the stack, the
code leaves the address of element `i + n`, whatever the element size. -/
theorem C33_plus_partial (w : Nat) (hw : w = 4 ∨ w = 8) (T : Tags) (p t nt : CTy) (hp : PtrTo p t)
    (ht : Elem w T t) (hnt : is_pointer_type nt = false) (s : MS) (hwf : Wf w s) (a i n : Int)
    (hl : word w s.mem (s.reg 4 + w) = sgn w (elem a (sizeof w T t) i))
    (hr : word w s.mem (s.reg 4) = n) :
    Computes w (binop_add w T p nt) s (sgn w (elem a (sizeof w T t) (i + n))) := by
  obtain ⟨h1, h2, h3⟩ := ref_width hp ht
  have hok := ok_mul hw (reg := 1) (by decide) ht.2.2.2
  obtain ⟨s', hs', hR⟩ := binop_run hw hwf (v := sgn w (elem a (sizeof w T t) (i + n))) (es := mul_for_pointer_arith 1 (sizeof w T t) ++ [.add_reg_reg 0 1]) (sgn_sgn w _) (by
    intro s1 hw1 e0 e1 _ _
    obtain ⟨s2, r2, v2, f2⟩ := mul_run w hw 1 (sizeof w T t) (by decide) ht.2.2.1 s1 hw1
    refine ⟨_, run_append_some r2 (run_add w 0 1 _), ?_, eff_setReg0 f2 (by simp) (sgn_sgn w _)⟩
    simp only [setReg, if_true]
    rw [v2, f2.regs 0 (by decide), e0, e1, hl, hr, sgn_add_l, sgn_add_r]
    congr 1; unfold elem; rw [Int.add_mul]; omega)
  refine ⟨_, _, s', ?_, decodes_binop hw ?_, hs', hR⟩
  · simp [binop_add, h1, hnt, h3]
  · intro e he
    rcases List.mem_append.1 he with he | he
    · exact hok e he
    · simp at he; subst he; rcases hw with rfl | rfl <;> simp [Emit.ok, Reg]

/-- **C33, `n + p`.** -/
theorem C33_plus_comm_partial (w : Nat) (hw : w = 4 ∨ w = 8) (T : Tags) (p t nt : CTy) (hp : PtrTo p t)
    (ht : Elem w T t) (hnt : is_pointer_type nt = false) (s : MS) (hwf : Wf w s) (a i n : Int)
    (hl : word w s.mem (s.reg 4 + w) = n)
    (hr : word w s.mem (s.reg 4) = sgn w (elem a (sizeof w T t) i)) :
    Computes w (binop_add w T nt p) s (sgn w (elem a (sizeof w T t) (i + n))) := by
  obtain ⟨h1, h2, h3⟩ := ref_width hp ht
  have hok := ok_mul hw (reg := 0) (by decide) ht.2.2.2
  obtain ⟨s', hs', hR⟩ := binop_run hw hwf (v := sgn w (elem a (sizeof w T t) (i + n))) (es := mul_for_pointer_arith 0 (sizeof w T t) ++ [.add_reg_reg 0 1]) (sgn_sgn w _) (by
    intro s1 hw1 e0 e1 _ _
    obtain ⟨s2, r2, v2, f2⟩ := mul_run w hw 0 (sizeof w T t) (by decide) ht.2.2.1 s1 hw1
    refine ⟨_, run_append_some r2 (run_add w 0 1 _), ?_, eff_setReg0 f2 (by simp) (sgn_sgn w _)⟩
    simp only [setReg, if_true]
    rw [v2, f2.regs 1 (by decide), e0, e1, hl, hr, sgn_add_l, sgn_add_r]
    congr 1; unfold elem; rw [Int.add_mul]; omega)
  refine ⟨_, _, s', ?_, decodes_binop hw ?_, hs', hR⟩
  · simp [binop_add, h1, hnt, h3]
  · intro e he
    rcases List.mem_append.1 he with he | he
    · exact hok e he
    · simp at he; subst he; rcases hw with rfl | rfl <;> simp [Emit.ok, Reg]

/-- **C33, `p - n`.** -/
theorem C33_minus_partial (w : Nat) (hw : w = 4 ∨ w = 8) (T : Tags) (p t nt : CTy) (hp : PtrTo p t)
    (ht : Elem w T t) (hnt : is_pointer_type nt = false) (s : MS) (hwf : Wf w s) (a i n : Int)
    (hl : word w s.mem (s.reg 4 + w) = sgn w (elem a (sizeof w T t) i))
    (hr : word w s.mem (s.reg 4) = n) :
    Computes w (binop_sub w T p nt) s (sgn w (elem a (sizeof w T t) (i - n))) := by
  obtain ⟨h1, h2, h3⟩ := ref_width hp ht
  have hok := ok_mul hw (reg := 1) (by decide) ht.2.2.2
  obtain ⟨s', hs', hR⟩ := binop_run hw hwf (v := sgn w (elem a (sizeof w T t) (i - n))) (es := mul_for_pointer_arith 1 (sizeof w T t) ++ [.sub_reg_reg 0 1]) (sgn_sgn w _) (by
    intro s1 hw1 e0 e1 _ _
    obtain ⟨s2, r2, v2, f2⟩ := mul_run w hw 1 (sizeof w T t) (by decide) ht.2.2.1 s1 hw1
    refine ⟨_, run_append_some r2 (run_sub w 0 1 _), ?_, eff_setReg0 f2 (by simp) (sgn_sgn w _)⟩
    simp only [setReg, if_true]
    rw [v2, f2.regs 0 (by decide), e0, e1, hl, hr, sgn_sub_l, sgn_sub_r]
    congr 1; unfold elem; rw [Int.sub_mul]; omega)
  refine ⟨_, _, s', ?_, decodes_binop hw ?_, hs', hR⟩
  · simp [binop_sub, h1, hnt, h3]
  · intro e he
    rcases List.mem_append.1 he with he | he
    · exact hok e he
    · simp at he; subst he; rcases hw with rfl | rfl <;> simp [Emit.ok, Reg]

/-- **C33, `p - q`.** With the addresses of elements `i` and `j` of one array (whose extent in bytes
fits a word), the code leaves `i - j`, if the element size is a power of two or `j ≤ i`.  Missing:
negative differences for other sizes, which are wrong (`C33_diff_false`). -/
theorem C33_diff_partial (w : Nat) (hw : w = 4 ∨ w = 8) (T : Tags) (p q t : CTy) (hp : PtrTo p t)
    (hq : PtrTo q t) (ht : Elem w T t) (s : MS) (hwf : Wf w s) (a i j : Int)
    (hl : word w s.mem (s.reg 4 + w) = sgn w (elem a (sizeof w T t) i))
    (hr : word w s.mem (s.reg 4) = sgn w (elem a (sizeof w T t) j))
    (hfit : sgn w ((i - j) * sizeof w T t) = (i - j) * sizeof w T t)
    (hsz : (∃ k, sizeof w T t = 2 ^ k) ∨ j ≤ i) :
    Computes w (binop_sub w T p q) s (i - j) := by
  obtain ⟨h1, h2, h3⟩ := ref_width hp ht
  obtain ⟨h1', _, _⟩ := ref_width hq ht
  have hok := ok_div hw ht.2.2.2
  have hpos : (0:Int) < sizeof w T t := by have := ht.2.2.1; omega
  have hdiv : ((i - j) * sizeof w T t) / sizeof w T t = i - j := Int.mul_ediv_cancel _ (by omega)
  have hv : sgn w (i - j) = i - j := by
    rw [← hdiv]; exact sgn_ediv hw hfit hpos
  obtain ⟨s', hs', hR⟩ := binop_run hw hwf (v := i - j) (es := .sub_reg_reg 0 1 :: div_for_pointer_arith 0 (sizeof w T t)) hv (by
    intro s1 hw1 e0 e1 _ _
    have hd : sgn w (s1.reg 0 - s1.reg 1) = (i - j) * sizeof w T t := by
      rw [e0, e1, hl, hr, sgn_sub_l, sgn_sub_r, ← hfit]; congr 1; unfold elem; rw [Int.sub_mul]; omega
    obtain ⟨s2, r2, v2, f2⟩ := div_run w hw (sizeof w T t) ht.2.2.1 ht.2.2.2
      (setReg s1 0 (sgn w (s1.reg 0 - s1.reg 1))) (wf_setReg hw1 0 (sgn_sgn w _)) (by
        rcases hsz with ⟨k, hk⟩ | hji
        · left; rw [hk]; exact pow2_is k
        · right
          simp only [setReg, if_true]
          rw [hd]
          exact Int.mul_nonneg (by omega) (by omega))
    refine ⟨s2, ?_, ?_, ?_⟩
    · simp only [run, List.map_cons, Emit.intended, execs, exec1, if_true]
      exact r2
    · rw [v2]; simp only [setReg, if_true]; rw [hd, hdiv]
    · refine ⟨f2.wf, ?_, ?_⟩
      · intro r hr
        simp only [List.mem_cons, List.not_mem_nil, or_false, not_or] at hr
        rw [f2.regs r (by simp [hr])]
        simp [setReg, hr]
      · intro x hx; exact f2.mem x hx)
  refine ⟨_, _, s', ?_, decodes_binop hw ?_, hs', hR⟩
  · simp [binop_sub, h1, h1', h3]
  · intro e he
    rcases List.mem_cons.1 he with rfl | he
    · rcases hw with rfl | rfl <;> simp [Emit.ok, Reg]
    · exact hok e he

/-- **C33, `p[n]`.** The code loads element `i + n`, for elements of 1, 2, 4 bytes (and 8 on 64-bit
targets), as the word that represents its value. -/
theorem C33_index_partial (w : Nat) (hw : w = 4 ∨ w = 8) (T : Tags) (p t nt : CTy) (hp : PtrTo p t)
    (ht : Elem w T t) (hnt : is_pointer_type nt = false)
    (hsz : sizeof w T t = 1 ∨ sizeof w T t = 2 ∨ sizeof w T t = 4 ∨ (sizeof w T t = 8 ∧ w = 8))
    (s : MS) (hwf : Wf w s) (a i n : Int)
    (hout : ∀ x, InR w (elem a (sizeof w T t) (i + n)) (sizeof w T t) x → ¬ InR w (s.reg 4 + w) w x)
    (hl : word w s.mem (s.reg 4 + w) = sgn w (elem a (sizeof w T t) i))
    (hr : word w s.mem (s.reg 4) = n) :
    Computes w (binop_index w T p nt) s
      (sgn w (objVal w s.mem (elem a (sizeof w T t) (i + n)) (sizeof w T t) (is_signed_numeric_type t))) := by
  obtain ⟨h1, h2, h3⟩ := ref_width hp ht
  have hok := ok_mul hw (reg := 1) (by decide) ht.2.2.2
  obtain ⟨ld, hld⟩ : ∃ ld, load_mem_location w 0 0 0 (sizeof w T t) (is_signed_numeric_type t) = .ok ld := by
    rcases hw with rfl | rfl <;> rcases hsz with h | h | h | ⟨h, _⟩ <;> simp [load_mem_location, h] <;>
      cases is_signed_numeric_type t <;> simp_all
  obtain ⟨s', hs', hR⟩ := binop_run hw hwf (v := sgn w (objVal w s.mem (elem a (sizeof w T t) (i + n)) (sizeof w T t) (is_signed_numeric_type t)))
    (es := mul_for_pointer_arith 1 (sizeof w T t) ++ [.add_reg_reg 0 1] ++ ld) (sgn_sgn w _) (by
    intro s1 hw1 e0 e1 em e4
    obtain ⟨s2, r2, v2, f2⟩ := mul_run w hw 1 (sizeof w T t) (by decide) ht.2.2.1 s1 hw1
    have r3 := load_run hw hld (setReg s2 0 (sgn w (s2.reg 0 + s2.reg 1)))
    refine ⟨_, run_append_some (run_append_some r2 (run_add w 0 1 _)) r3, ?_, ?_⟩
    · simp only [setReg, if_true, Int.add_zero]
      have ha : sgn w (s2.reg 0 + s2.reg 1) = sgn w (elem a (sizeof w T t) (i + n)) := by
        rw [v2, f2.regs 0 (by decide), e0, e1, hl, hr, sgn_add_l, sgn_add_r]
        congr 1; unfold elem; rw [Int.add_mul]; omega
      have hrd : rd w s2.mem (sgn w (elem a (sizeof w T t) (i + n))) (sizeof w T t) =
          rd w s.mem (elem a (sizeof w T t) (i + n)) (sizeof w T t) := by
        rw [rd_addr w s2.mem (sizeof w T t) _ (elem a (sizeof w T t) (i + n)) (uns_sgn w _)]
        apply rd_congr
        intro x hx
        rw [f2.mem x, em]
        intro hx'
        rw [e4, inR_addr (b := s.reg 4 + w)] at hx'
        · exact hout x hx hx'
        · rw [← uns_sgn, sgn_sub_l, uns_sgn]; congr 1; omega
      rw [ha, objVal, objVal, hrd]
    · exact eff_setReg0 (eff_setReg0 f2 (by simp) (sgn_sgn w _)) (by simp) (sgn_sgn w _))
  refine ⟨_, _, s', ?_, decodes_binop hw ?_, hs', hR⟩
  · simp [binop_index, h1, hnt, h2, h3, hld]
  · intro e he
    rcases List.mem_append.1 he with he | he
    · rcases List.mem_append.1 he with he | he
      · exact hok e he
      · simp at he; subst he; rcases hw with rfl | rfl <;> simp [Emit.ok, Reg]
    · exact ok_load hw hld e he

/-! Where the full property fails. -/

/-- The state with `x` and, on top of it, `y` on the stack (at address 1000). -/
def twoOnStack (x y : Int) : MS :=
  ⟨fun r => if r = 4 then 1000 else 0, wr 4 (wr 4 (fun _ => 0) 1004 x 4) 1000 y 4, 0, 0, []⟩

/-- Elements of 12 bytes: the difference of elements 0 and 1 is not -1. -/
theorem C33_diff_false :
    let T : Tags := ⟨fun _ => 12, fun _ _ => none, fun _ _ => none⟩
    let t := CTy.ptr (.agg false 0)
    let s := twoOnStack 5000 5012
    word 4 s.mem 1004 = elem 5000 12 0 ∧ word 4 s.mem 1000 = elem 5000 12 1 ∧
    ∃ es, binop_sub 4 T t t = .ok es ∧
      (run 4 s (binop es)).map (fun s' => word 4 s'.mem (s'.reg 4)) = some 357913940 := by
  refine ⟨by decide +kernel, by decide +kernel, ?_⟩
  exact ⟨.sub_reg_reg 0 1 :: div_for_pointer_arith 0 12, by rfl, by decide +kernel⟩

/-- `int m[2][3]`: the row `m + 1` is computed `WORD_SIZE` bytes further instead of 12. -/
theorem C33_row_false : ref_type_width 4 ⟨fun _ => 0, fun _ _ => none, fun _ _ => none⟩
    (.arr 2 (.arr 3 (.int false))) = .ok 4 ∧
    sizeof 4 ⟨fun _ => 0, fun _ _ => none, fun _ _ => none⟩ (.arr 3 (.int false)) = 12 := by
  decide +kernel

/-- `div_for_pointer_arith` on `reg_Y` with a size that is not a power of two divides `reg_X`. -/
theorem C33_div_reg_false :
    let s : MS := ⟨fun r => if r = 4 then 1000 else if r = 1 then 24 else 0, fun _ => 0, 0, 0, []⟩
    s.reg 1 = 24 ∧ (run 4 s (div_for_pointer_arith 1 12)).map (fun s' => s'.reg 1) = some 0 := by
  decide +kernel

/-! Non-vacuity: a `struct` of 12 bytes, `p` the address of element 2, `n = -1`, and `int` elements. -/
example : Elem 8 ⟨fun _ => 12, fun _ _ => none, fun _ _ => none⟩ (.agg false 0) ∧
    PtrTo (.arr 7 (.agg false 0)) (.agg false 0) := by
  refine ⟨⟨by simp, by simp, by decide, by decide⟩, .inr ⟨7, rfl⟩⟩
example : word 4 (twoOnStack (elem 5000 12 2) (-1)).mem ((twoOnStack (elem 5000 12 2) (-1)).reg 4 + 4)
      = sgn 4 (elem 5000 12 2) ∧
    word 4 (twoOnStack (elem 5000 12 2) (-1)).mem ((twoOnStack (elem 5000 12 2) (-1)).reg 4) = -1 := by
  decide +kernel
example : Wf 4 (twoOnStack 5024 (-1)) := by
  intro r; by_cases h : r = 4 <;> simp [twoOnStack, h] <;> decide

end Verif.Gen
