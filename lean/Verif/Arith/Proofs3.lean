import Verif.Arith.Proofs2
/-! Helper lemmas for C11, part 3: evaluating the addresses first, in 64 bits, gives the C value. -/
namespace Verif.Arith
open Verif Spec
open Verif.Parse (P Tok E parse)
open Verif.Parse.Spec (isoOps isoLevel isoAssign isoUnary)

/-! ### 32-bit arithmetic inside 64-bit arithmetic -/

theorem wrap_in32 {v : Int} (h : in32 v) : wrap v = v := by
  unfold wrap
  obtain ⟨h1, h2⟩ := h
  rw [Int.bmod_def]
  split <;> omega

theorem chk_some {v w : Int} (h : chk v = some w) : w = v ∧ in32 v := by
  unfold chk at h
  split at h
  · injection h with h; exact ⟨h.symm, ‹_›⟩
  · cases h

theorem ofInt64 {a : Int} (h : in32 a) : BitVec.ofInt 64 a = (BitVec.ofInt 32 a).signExtend 64 := by
  apply BitVec.eq_of_toInt_eq
  rw [BitVec.toInt_signExtend_of_le (by decide), BitVec.toInt_ofInt, BitVec.toInt_ofInt]
  obtain ⟨h1, h2⟩ := h
  rw [Int.bmod_def, Int.bmod_def]
  split <;> split <;> omega

theorem in32_toInt (x : BitVec 32) : in32 x.toInt := by
  have h1 := BitVec.le_toInt x
  have h2 := BitVec.toInt_lt (x := x)
  unfold in32
  simp at h1 h2
  omega

theorem in32_b2i (b : Bool) : in32 (b2i b) := by cases b <;> decide

theorem in32_div_pow {a : Int} (h : in32 a) (n : Nat) : in32 (a / 2 ^ n) := by
  obtain ⟨h1, h2⟩ := h
  have hp : (1 : Int) ≤ 2 ^ n := by
    have := Nat.one_le_two_pow (n := n)
    exact_mod_cast this
  constructor
  · apply Int.le_ediv_of_mul_le (by omega)
    calc (-2147483648 : Int) * 2 ^ n ≤ -2147483648 * 1 := Int.mul_le_mul_of_nonpos_left (by decide) hp
      _ ≤ a := by omega
  · have : a / 2 ^ n ≤ 2147483647 / 2 ^ n := Int.ediv_le_ediv (by omega) h2
    have : (2147483647 : Int) / 2 ^ n ≤ 2147483647 := Int.ediv_le_self _ (by decide)
    omega

theorem in32_tmod {a b : Int} (h : in32 a) : in32 (a.tmod b) := by
  obtain ⟨h1, h2⟩ := h
  by_cases ha : 0 ≤ a
  · have h3 := Int.tmod_nonneg b ha
    have h4 : (a.tmod b) ≤ a := by
      have := Int.natAbs_tmod a b
      have h5 := Nat.mod_le a.natAbs b.natAbs
      omega
    constructor <;> omega
  · have h5 : (a.tmod b).natAbs ≤ a.natAbs := by
      rw [Int.natAbs_tmod]; exact Nat.mod_le _ _
    have h6 : a.tmod b ≤ 0 := by
      have h7 := Int.tmod_nonneg b (a := -a) (by omega)
      rw [Int.neg_tmod] at h7; omega
    constructor <;> omega

theorem op32_in {q x y z} (hx : in32 x) (h : op32 q x y = some z) : in32 z := by
  cases q <;> simp only [op32] at h
  case plus | minus | star => obtain ⟨e, hi⟩ := chk_some h; rw [e]; exact hi
  case amp | bar | caret => injection h with h; rw [← h]; exact in32_toInt _
  case eqeq | ne | lt | gt | le | ge => injection h with h; rw [← h]; exact in32_b2i _
  case slash =>
    split at h
    · cases h
    · obtain ⟨e, hi⟩ := chk_some h; rw [e]; exact hi
  case percent =>
    split at h
    · cases h
    · cases hc : chk (x.tdiv y) with
      | none => rw [hc] at h; cases h
      | some w => rw [hc] at h; injection h with h; rw [← h]; exact in32_tmod hx
  case shl =>
    split at h
    · obtain ⟨e, hi⟩ := chk_some h; rw [e]; exact hi
    · cases h
  case shr =>
    split at h
    · injection h with h; rw [← h]; exact in32_div_pow hx _
    · cases h
  all_goals cases h

theorem op_refines {q x y z} (hx : in32 x) (hy : in32 y) (h : op32 q x y = some z) :
    op64 q x y = some z := by
  cases q <;> simp only [op32] at h <;> simp only [op64] <;> try exact h
  case plus | minus | star => obtain ⟨e, hi⟩ := chk_some h; rw [wrap_in32 hi, e]
  case slash =>
    split at h
    · cases h
    · rename_i hz
      obtain ⟨e, hi⟩ := chk_some h; rw [if_neg hz, wrap_in32 hi, e]
  case percent =>
    split at h
    · cases h
    · rename_i hz
      rw [if_neg hz]
      cases hc : chk (x.tdiv y) with
      | none => rw [hc] at h; cases h
      | some w => rw [hc] at h; exact h
  case amp =>
    rw [ofInt64 hx, ofInt64 hy, ← BitVec.signExtend_and, BitVec.toInt_signExtend_of_le (by decide)]
    exact h
  case bar =>
    rw [ofInt64 hx, ofInt64 hy, ← BitVec.signExtend_or, BitVec.toInt_signExtend_of_le (by decide)]
    exact h
  case caret =>
    rw [ofInt64 hx, ofInt64 hy, ← BitVec.signExtend_xor, BitVec.toInt_signExtend_of_le (by decide)]
    exact h
  case shl =>
    split at h
    · rename_i hc
      obtain ⟨e, hi⟩ := chk_some h
      rw [if_pos (by omega), wrap_in32 hi, e]
    · cases h
  case shr =>
    split at h
    · rw [if_pos (by omega)]; exact h
    · cases h

theorem assign_refines {q old v w} (ho : in32 old) (hv : in32 v)
    (h : assignVal op32 q old v = some w) : assignVal op64 q old v = some w ∧ in32 w := by
  unfold assignVal at *
  split at h
  · rename_i hq
    injection h with h; subst h
    rw [if_pos hq]; exact ⟨rfl, hv⟩
  · rename_i hq
    rw [if_neg hq]
    cases hc : compound q with
    | none => rw [hc] at h; cases h
    | some o =>
      rw [hc] at h
      exact ⟨op_refines ho hv h, op32_in ho h⟩

/-! ### C values are ints -/

theorem InR_set {σ : State} (h : InR σ) (x : LV) {v : Int} (hv : in32 v) : InR (σ.set x v) := by
  cases x with
  | var y =>
    refine ⟨fun z => ?_, h.2⟩
    simp only [State.set]; split
    · exact hv
    · exact h.1 z
  | cell a =>
    refine ⟨h.1, fun z => ?_⟩
    simp only [State.set]; split
    · exact hv
    · exact h.2 z

theorem InR_get {σ : State} (h : InR σ) (x : LV) : in32 (σ.get x) := by
  cases x with
  | var y => exact h.1 y
  | cell a => exact h.2 a

theorem lift_some {α} {o : Option α} {σ r} (h : M.lift o σ = some r) : ∃ a, o = some a ∧ r = (a, σ) := by
  unfold M.lift at h
  cases o with
  | none => cases h
  | some a => simp at h; exact ⟨a, rfl, h.symm⟩

theorem map_some' {α β} {o : Option α} {f : α → β} {r} (h : o.map f = some r) :
    ∃ a, o = some a ∧ r = f a := by
  cases o with
  | none => cases h
  | some a => simp at h; exact ⟨a, rfl, h.symm⟩

theorem evalC_bin {q a b} (h1 : q ≠ .andand) (h2 : q ≠ .oror) :
    evalC (.bin q a b) = (evalC a).bnd fun x => (evalC b).bnd fun y => M.lift (op32 q x y) := by
  cases q <;> first | exact absurd rfl h1 | exact absurd rfl h2 | simp only [evalC]

theorem binSem_strict {q A B} (h1 : q ≠ .andand) (h2 : q ≠ .oror) :
    binSem q A B = A.bnd fun x => B.bnd fun y => M.lift (op64 q x y) := by
  cases q <;> first | exact absurd rfl h1 | exact absurd rfl h2 | rfl

theorem C_range (e : X) :
    (∀ σ v σ', InR σ → evalC e σ = some (v, σ') → in32 v ∧ InR σ') ∧
    (∀ σ x σ', InR σ → lvalC e σ = some (x, σ') → InR σ' ∧ ∀ a, x = .cell a → in32 a) := by
  induction e with
  | int v | hex v =>
    refine ⟨fun σ w σ' hi h => ?_, fun σ x σ' hi h => by simp [lvalC] at h⟩
    simp only [evalC] at h
    obtain ⟨a, h1, h2⟩ := lift_some h
    injection h2 with e1 e2; subst e1 e2
    obtain ⟨e, hh⟩ := chk_some h1
    rw [e]
    exact ⟨hh, hi⟩
  | var x =>
    constructor
    · intro σ w σ' hi h
      simp [evalC] at h
      obtain ⟨rfl, rfl⟩ := h
      exact ⟨hi.1 x, hi⟩
    · intro σ w σ' hi h
      simp [lvalC, M.ret] at h
      obtain ⟨rfl, rfl⟩ := h
      exact ⟨hi, fun a h => by cases h⟩
  | deref e ih =>
    constructor
    · intro σ w σ' hi h
      simp only [evalC] at h
      obtain ⟨a, σ1, h1, h⟩ := bnd_some h
      simp at h
      obtain ⟨rfl, rfl⟩ := h
      have := (ih.1 _ _ _ hi h1).2
      exact ⟨this.2 _, this⟩
    · intro σ w σ' hi h
      simp only [lvalC] at h
      obtain ⟨a, σ1, h1, h⟩ := bnd_some h
      have := ret_some h; injection this with e1 e2; subst e1 e2
      obtain ⟨h3, h4⟩ := ih.1 _ _ _ hi h1
      exact ⟨h4, fun a' h => by injection h with h; subst h; exact h3⟩
  | plus e ih =>
    exact ⟨fun σ w σ' hi h => ih.1 σ w σ' hi (by simpa [evalC] using h), fun σ x σ' hi h => by simp [lvalC] at h⟩
  | parens e ih | cast e ih =>
    exact ⟨fun σ w σ' hi h => ih.1 σ w σ' hi (by simpa [evalC] using h),
      fun σ w σ' hi h => ih.2 σ w σ' hi (by simpa [lvalC] using h)⟩
  | neg e ih =>
    refine ⟨fun σ w σ' hi h => ?_, fun σ x σ' hi h => by simp [lvalC] at h⟩
    simp only [evalC] at h
    obtain ⟨a, σ1, h1, h⟩ := bnd_some h
    obtain ⟨b, h2, h3⟩ := lift_some h
    injection h3 with e1 e2; subst e1 e2
    obtain ⟨rfl, h4⟩ := chk_some h2
    exact ⟨h4, (ih.1 _ _ _ hi h1).2⟩
  | bnot e ih =>
    refine ⟨fun σ w σ' hi h => ?_, fun σ x σ' hi h => by simp [lvalC] at h⟩
    simp only [evalC] at h
    obtain ⟨a, σ1, h1, h⟩ := bnd_some h
    have := ret_some h; injection this with e1 e2; subst e1 e2
    obtain ⟨⟨h3, h4⟩, h5⟩ := ih.1 _ _ _ hi h1
    exact ⟨⟨by omega, by omega⟩, h5⟩
  | lnot e ih =>
    refine ⟨fun σ w σ' hi h => ?_, fun σ x σ' hi h => by simp [lvalC] at h⟩
    simp only [evalC] at h
    obtain ⟨a, σ1, h1, h⟩ := bnd_some h
    have := ret_some h; injection this with e1 e2; subst e1 e2
    exact ⟨in32_b2i _, (ih.1 _ _ _ hi h1).2⟩
  | preinc l ih | predec l ih | postinc l ih | postdec l ih =>
    refine ⟨fun σ w σ' hi h => ?_, fun σ x σ' hi h => by simp [lvalC] at h⟩
    simp only [evalC] at h
    obtain ⟨x, σ1, h1, h⟩ := bnd_some h
    obtain ⟨a, h2, h3⟩ := map_some' h
    injection h3 with e1 e2; subst e1 e2
    obtain ⟨rfl, h4⟩ := chk_some h2
    have hi1 := (ih.2 _ _ _ hi h1).1
    first
      | exact ⟨h4, InR_set hi1 x h4⟩
      | exact ⟨InR_get hi1 x, InR_set hi1 x h4⟩
  | addr l ih =>
    refine ⟨fun σ w σ' hi h => ?_, fun σ x σ' hi h => by simp [lvalC] at h⟩
    simp only [evalC] at h
    obtain ⟨x, σ1, h1, h⟩ := bnd_some h
    obtain ⟨h2, h3⟩ := ih.2 _ _ _ hi h1
    cases x with
    | var y => simp at h
    | cell a =>
      have := ret_some h; injection this with e1 e2; subst e1 e2
      exact ⟨h3 _ rfl, h2⟩
  | bin q a b iha ihb =>
    refine ⟨fun σ w σ' hi h => ?_, fun σ x σ' hi h => by simp [lvalC] at h⟩
    by_cases h1 : q = .andand
    · subst h1
      simp only [evalC] at h
      obtain ⟨x, σ1, h1, h⟩ := bnd_some h
      have hi1 := (iha.1 _ _ _ hi h1).2
      split at h
      · have := ret_some h; injection this with e1 e2; subst e1 e2
        exact ⟨by decide, hi1⟩
      · obtain ⟨y, σ2, h2, h⟩ := bnd_some h
        have := ret_some h; injection this with e1 e2; subst e1 e2
        exact ⟨in32_b2i _, (ihb.1 _ _ _ hi1 h2).2⟩
    · by_cases h2 : q = .oror
      · subst h2
        simp only [evalC] at h
        obtain ⟨x, σ1, h1, h⟩ := bnd_some h
        have hi1 := (iha.1 _ _ _ hi h1).2
        split at h
        · have := ret_some h; injection this with e1 e2; subst e1 e2
          exact ⟨by decide, hi1⟩
        · obtain ⟨y, σ2, h2, h⟩ := bnd_some h
          have := ret_some h; injection this with e1 e2; subst e1 e2
          exact ⟨in32_b2i _, (ihb.1 _ _ _ hi1 h2).2⟩
      · rw [evalC_bin h1 h2] at h
        obtain ⟨x, σ1, h1, h⟩ := bnd_some h
        obtain ⟨y, σ2, h2, h⟩ := bnd_some h
        obtain ⟨z, h3, h4⟩ := lift_some h
        injection h4 with e1 e2; subst e1 e2
        have hi1 := iha.1 _ _ _ hi h1
        exact ⟨op32_in hi1.1 h3, (ihb.1 _ _ _ hi1.2 h2).2⟩
  | comma a b iha ihb =>
    refine ⟨fun σ w σ' hi h => ?_, fun σ x σ' hi h => by simp [lvalC] at h⟩
    simp only [evalC] at h
    obtain ⟨x, σ1, h1, h⟩ := bnd_some h
    exact ihb.1 _ _ _ (iha.1 _ _ _ hi h1).2 h
  | cond c a b ihc iha ihb =>
    refine ⟨fun σ w σ' hi h => ?_, fun σ x σ' hi h => by simp [lvalC] at h⟩
    simp only [evalC] at h
    obtain ⟨x, σ1, h1, h⟩ := bnd_some h
    have hi1 := (ihc.1 _ _ _ hi h1).2
    split at h
    · exact iha.1 _ _ _ hi1 h
    · exact ihb.1 _ _ _ hi1 h
  | assign q l e ihl ihe =>
    refine ⟨fun σ w σ' hi h => ?_, fun σ x σ' hi h => by simp [lvalC] at h⟩
    simp only [evalC] at h
    obtain ⟨x, σ1, h1, h⟩ := bnd_some h
    obtain ⟨v, σ2, h2, h⟩ := bnd_some h
    obtain ⟨a, h3, h4⟩ := map_some' h
    injection h4 with e1 e2; subst e1 e2
    obtain ⟨hv, hi2⟩ := ihe.1 _ _ _ (ihl.2 _ _ _ hi h1).1 h2
    have := (assign_refines (InR_get hi2 x) hv h3).2
    exact ⟨this, InR_set hi2 x this⟩
  | index a b iha ihb =>
    constructor
    · intro σ w σ' hi h
      simp only [evalC] at h
      obtain ⟨x, σ1, h1, h⟩ := bnd_some h
      obtain ⟨y, σ2, h2, h⟩ := bnd_some h
      obtain ⟨p, σ3, h3, h⟩ := bnd_some h
      simp at h
      obtain ⟨rfl, rfl⟩ := h
      obtain ⟨p', h4, h5⟩ := lift_some h3
      injection h5 with e1 e2; subst e1 e2
      have := (ihb.1 _ _ _ (iha.1 _ _ _ hi h1).2 h2).2
      exact ⟨this.2 _, this⟩
    · intro σ w σ' hi h
      simp only [lvalC] at h
      obtain ⟨x, σ1, h1, h⟩ := bnd_some h
      obtain ⟨y, σ2, h2, h⟩ := bnd_some h
      obtain ⟨p, σ3, h3, h⟩ := bnd_some h
      have := ret_some h; injection this with e1 e2; subst e1 e2
      obtain ⟨p', h4, h5⟩ := lift_some h3
      injection h5 with e1 e2; subst e1 e2
      refine ⟨(ihb.1 _ _ _ (iha.1 _ _ _ hi h1).2 h2).2, fun a' ha => ?_⟩
      injection ha with ha; subst ha
      obtain ⟨rfl, h6⟩ := chk_some h4
      exact h6
  | arrow a off iha =>
    constructor
    · intro σ w σ' hi h
      simp only [evalC] at h
      obtain ⟨x, σ1, h1, h⟩ := bnd_some h
      obtain ⟨p, σ3, h3, h⟩ := bnd_some h
      simp at h
      obtain ⟨rfl, rfl⟩ := h
      obtain ⟨p', h4, h5⟩ := lift_some h3
      injection h5 with e1 e2; subst e1 e2
      have := (iha.1 _ _ _ hi h1).2
      exact ⟨this.2 _, this⟩
    · intro σ w σ' hi h
      simp only [lvalC] at h
      obtain ⟨x, σ1, h1, h⟩ := bnd_some h
      obtain ⟨p, σ3, h3, h⟩ := bnd_some h
      have := ret_some h; injection this with e1 e2; subst e1 e2
      obtain ⟨p', h4, h5⟩ := lift_some h3
      injection h5 with e1 e2; subst e1 e2
      refine ⟨(iha.1 _ _ _ hi h1).2, fun a' ha => ?_⟩
      injection ha with ha; subst ha
      obtain ⟨rfl, h6⟩ := chk_some h4
      exact h6

/-! ### Trees: what they read and assign -/

/-- Identifiers of a tree. -/
def ids : E → List Nat
  | .ident n => [n]
  | .parens e => ids e
  | .unary _ e => ids e
  | .preinc e => ids e
  | .predec e => ids e
  | .bin _ a b => ids a ++ ids b
  | .cond c a b => ids c ++ ids a ++ ids b
  | .assign _ a b => ids a ++ ids b
  | .comma a b => ids a ++ ids b
  | _ => []

/-- Identifiers a tree assigns. -/
def asg : E → List Nat
  | .parens e => asg e
  | .unary _ e => asg e
  | .preinc e => ids e
  | .predec e => ids e
  | .bin _ a b => asg a ++ asg b
  | .cond c a b => asg c ++ asg a ++ asg b
  | .assign _ a b => ids a ++ asg b
  | .comma a b => asg a ++ asg b
  | _ => []

theorem get_set_ne {σ : State} {l x : LV} {v : Int} (h : x ≠ l) : (σ.set x v).get l = σ.get l := by
  cases x <;> cases l <;> simp only [State.set, State.get] <;> rw [if_neg]
  all_goals intro he; subst he; exact h rfl

theorem get_set_eq {σ : State} {x : LV} {v : Int} : (σ.set x v).get x = v := by
  cases x <;> simp [State.set, State.get]

theorem state_ext {σ τ : State} (h : ∀ l, σ.get l = τ.get l) : σ = τ := by
  cases σ; cases τ
  congr
  · funext x; exact h (.var x)
  · funext x; exact h (.cell x)

theorem T_frame (Y : E) : ∀ τ v τ', evalSh Y τ = some (v, τ') →
    ∀ l, (∀ n ∈ asg Y, dec n ≠ l) → τ'.get l = τ.get l := by
  induction Y with
  | num v => intro τ w τ' h l _; have := ret_some h; injection this with e1 e2; rw [e2]
  | ident n => intro τ w τ' h l _; simp [evalSh] at h; rw [← h.2]
  | parens e ih => intro τ w τ' h l hl; exact ih τ w τ' (by simpa [evalSh] using h) l (by simpa [asg] using hl)
  | unary q e ih =>
    intro τ w τ' h l hl
    have hl' : ∀ n ∈ asg e, dec n ≠ l := by simpa [asg] using hl
    cases q <;> simp only [evalSh] at h <;> first
      | (cases h; done)
      | exact ih τ w τ' h l hl'
      | (obtain ⟨a, σ1, h1, h⟩ := bnd_some h
         have := ret_some h; injection this with e1 e2; subst e1 e2
         exact ih _ _ _ h1 l hl')
  | preinc e ih | predec e ih =>
    intro τ w τ' h l hl
    cases e <;> simp only [evalSh] at h <;> try (cases h; done)
    injection h with h
    injection h with h1 h2
    rw [← h2]
    exact get_set_ne (hl _ (by simp [asg, ids]))
  | bin q a b iha ihb =>
    intro τ w τ' h l hl
    have hl1 : ∀ n ∈ asg a, dec n ≠ l := fun n hn => hl n (by simp [asg, hn])
    have hl2 : ∀ n ∈ asg b, dec n ≠ l := fun n hn => hl n (by simp [asg, hn])
    simp only [evalSh] at h
    by_cases h1 : q = .andand
    · subst h1
      simp only [binSem] at h
      obtain ⟨x, σ1, h1, h⟩ := bnd_some h
      split at h
      · have := ret_some h; injection this with e1 e2; subst e1 e2
        exact iha _ _ _ h1 l hl1
      · obtain ⟨y, σ2, h2, h⟩ := bnd_some h
        have := ret_some h; injection this with e1 e2; subst e1 e2
        rw [ihb _ _ _ h2 l hl2, iha _ _ _ h1 l hl1]
    · by_cases h2 : q = .oror
      · subst h2
        simp only [binSem] at h
        obtain ⟨x, σ1, h1, h⟩ := bnd_some h
        split at h
        · have := ret_some h; injection this with e1 e2; subst e1 e2
          exact iha _ _ _ h1 l hl1
        · obtain ⟨y, σ2, h2, h⟩ := bnd_some h
          have := ret_some h; injection this with e1 e2; subst e1 e2
          rw [ihb _ _ _ h2 l hl2, iha _ _ _ h1 l hl1]
      · rw [binSem_strict h1 h2] at h
        obtain ⟨x, σ1, h1, h⟩ := bnd_some h
        obtain ⟨y, σ2, h2, h⟩ := bnd_some h
        obtain ⟨z, h3, h4⟩ := lift_some h
        injection h4 with e1 e2; subst e1 e2
        rw [ihb _ _ _ h2 l hl2, iha _ _ _ h1 l hl1]
  | cond c a b ihc iha ihb =>
    intro τ w τ' h l hl
    have hl0 : ∀ n ∈ asg c, dec n ≠ l := fun n hn => hl n (by simp [asg, hn])
    have hl1 : ∀ n ∈ asg a, dec n ≠ l := fun n hn => hl n (by simp [asg, hn])
    have hl2 : ∀ n ∈ asg b, dec n ≠ l := fun n hn => hl n (by simp [asg, hn])
    simp only [evalSh] at h
    obtain ⟨x, σ1, h1, h⟩ := bnd_some h
    split at h
    · rw [iha _ _ _ h l hl1, ihc _ _ _ h1 l hl0]
    · rw [ihb _ _ _ h l hl2, ihc _ _ _ h1 l hl0]
  | assign q a b iha ihb =>
    intro τ w τ' h l hl
    cases a <;> simp only [evalSh] at h <;> try (cases h; done)
    rename_i n
    obtain ⟨v, σ2, h2, h⟩ := bnd_some h
    obtain ⟨a, h3, h4⟩ := map_some' h
    injection h4 with e1 e2; subst e1 e2
    rw [get_set_ne (hl n (by simp [asg, ids])), ihb _ _ _ h2 l (fun n hn => hl n (by simp [asg, hn]))]
  | comma a b iha ihb =>
    intro τ w τ' h l hl
    simp only [evalSh] at h
    obtain ⟨x, σ1, h1, h⟩ := bnd_some h
    rw [ihb _ _ _ h l (fun n hn => hl n (by simp [asg, hn])),
      iha _ _ _ h1 l (fun n hn => hl n (by simp [asg, hn]))]
  | _ => intro τ w τ' h; simp [evalSh] at h

theorem T_pure {Y τ v τ'} (h : evalSh Y τ = some (v, τ')) (hn : asg Y = []) : τ' = τ :=
  state_ext fun l => T_frame Y _ _ _ h l (by rw [hn]; simp)

/-- A tree without assignments depends only on the identifiers in it. -/
theorem T_agree (Y : E) : asg Y = [] → ∀ τ1 τ2 v τ', (∀ n ∈ ids Y, τ1.get (dec n) = τ2.get (dec n)) →
    evalSh Y τ1 = some (v, τ') → evalSh Y τ2 = some (v, τ2) := by
  induction Y with
  | num v => intro _ τ1 τ2 w τ' _ h; have := ret_some h; injection this with e1 e2; subst e1; rfl
  | ident n =>
    intro _ τ1 τ2 w τ' ha h
    simp [evalSh] at h ⊢
    rw [← h.1]; exact (ha n (by simp [ids])).symm
  | parens e ih => intro hn τ1 τ2 w τ' ha h; exact ih (by simpa [asg] using hn) τ1 τ2 w τ' (by simpa [ids] using ha) (by simpa [evalSh] using h)
  | unary q e ih =>
    intro hn τ1 τ2 w τ' ha h
    have ih' := ih (by simpa [asg] using hn) τ1 τ2
    have ha' : ∀ n ∈ ids e, τ1.get (dec n) = τ2.get (dec n) := by simpa [ids] using ha
    cases q <;> simp only [evalSh] at h ⊢ <;> first
      | (cases h; done)
      | exact ih' _ _ ha' h
      | (obtain ⟨a, σ1, h1, h⟩ := bnd_some h
         have := ret_some h; injection this with e1 e2; subst e1 e2
         simp [M.bnd, ih' _ _ ha' h1, M.ret])
  | preinc e ih | predec e ih =>
    intro hn τ1 τ2 w τ' ha h
    cases e <;> simp only [evalSh] at h <;> first | (cases h; done) | (simp [asg, ids] at hn)
  | bin q a b iha ihb =>
    intro hn τ1 τ2 w τ' ha h
    simp only [asg, List.append_eq_nil_iff] at hn
    have ha1 : ∀ n ∈ ids a, τ1.get (dec n) = τ2.get (dec n) := fun n h => ha n (by simp [ids, h])
    have ha2 : ∀ n ∈ ids b, τ1.get (dec n) = τ2.get (dec n) := fun n h => ha n (by simp [ids, h])
    simp only [evalSh] at h ⊢
    by_cases h1 : q = .andand
    · subst h1
      simp only [binSem] at h ⊢
      obtain ⟨x, σ1, h1, hk⟩ := bnd_some h
      clear h
      have := T_pure h1 hn.1; subst this
      have h := hk
      clear hk
      have e1 := iha hn.1 _ τ2 _ _ ha1 h1
      simp only [M.bnd, e1]
      split at h
      · rename_i hx
        have := ret_some h; injection this with e1 e2; subst e1
        rw [if_pos hx]; rfl
      · rename_i hx
        obtain ⟨y, σ2, h2, h⟩ := bnd_some h
        have := ret_some h; injection this with e1 e2; subst e1
        have e3 := ihb hn.2 _ τ2 _ _ ha2 h2
        rw [if_neg hx]
        simp [M.bnd, e3, M.ret]
    · by_cases h2 : q = .oror
      · subst h2
        simp only [binSem] at h ⊢
        obtain ⟨x, σ1, h1, hk⟩ := bnd_some h
        clear h
        have := T_pure h1 hn.1; subst this
        have h := hk
        clear hk
        have e1 := iha hn.1 _ τ2 _ _ ha1 h1
        simp only [M.bnd, e1]
        split at h
        · rename_i hx
          have := ret_some h; injection this with e1 e2; subst e1
          rw [if_pos hx]; rfl
        · rename_i hx
          obtain ⟨y, σ2, h2, h⟩ := bnd_some h
          have := ret_some h; injection this with e1 e2; subst e1
          have e3 := ihb hn.2 _ τ2 _ _ ha2 h2
          rw [if_neg hx]
          simp [M.bnd, e3, M.ret]
      · rw [binSem_strict h1 h2] at h ⊢
        obtain ⟨x, σ1, h1, h⟩ := bnd_some h
        obtain ⟨y, σ2, h2, h⟩ := bnd_some h
        obtain ⟨z, h3, h4⟩ := lift_some h
        injection h4 with e1 e2; subst e1
        have := T_pure h1 hn.1; subst this
        simp [M.bnd, iha hn.1 _ τ2 _ _ ha1 h1, ihb hn.2 _ τ2 _ _ ha2 h2, M.lift, h3]
  | cond c a b ihc iha ihb =>
    intro hn τ1 τ2 w τ' ha h
    simp only [asg, List.append_eq_nil_iff] at hn
    have ha0 : ∀ n ∈ ids c, τ1.get (dec n) = τ2.get (dec n) := fun n h => ha n (by simp [ids, h])
    have ha1 : ∀ n ∈ ids a, τ1.get (dec n) = τ2.get (dec n) := fun n h => ha n (by simp [ids, h])
    have ha2 : ∀ n ∈ ids b, τ1.get (dec n) = τ2.get (dec n) := fun n h => ha n (by simp [ids, h])
    simp only [evalSh] at h ⊢
    obtain ⟨x, σ1, h1, hk⟩ := bnd_some h
    clear h
    have := T_pure h1 hn.1.1; subst this
    have h := hk
    clear hk
    have e1 := ihc hn.1.1 _ τ2 _ _ ha0 h1
    simp only [M.bnd, e1]
    split at h
    · rename_i hx; rw [if_pos hx]; exact iha hn.1.2 _ _ _ _ ha1 h
    · rename_i hx; rw [if_neg hx]; exact ihb hn.2 _ _ _ _ ha2 h
  | assign q a b iha ihb =>
    intro hn τ1 τ2 w τ' ha h
    cases a <;> simp only [evalSh] at h <;> first | (cases h; done) | (simp [asg, ids] at hn)
  | comma a b iha ihb =>
    intro hn τ1 τ2 w τ' ha h
    simp only [asg, List.append_eq_nil_iff] at hn
    simp only [evalSh] at h ⊢
    obtain ⟨x, σ1, h1, hk⟩ := bnd_some h
    clear h
    have := T_pure h1 hn.1; subst this
    have h := hk
    clear hk
    simp only [M.bnd, iha hn.1 _ τ2 _ _ (fun n h => ha n (by simp [ids, h])) h1]
    exact ihb hn.2 _ _ _ _ (fun n h => ha n (by simp [ids, h])) h
  | _ => intro _ τ1 τ2 w τ' _ h; simp [evalSh] at h

end Verif.Arith
