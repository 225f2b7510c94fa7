import Verif.Arith.Proofs4
/-! Helper lemmas for C11, part 5: the main induction. -/
namespace Verif.Arith
open Verif Spec
open Verif.Parse (P Tok E parse)
open Verif.Parse.Spec (isoOps isoLevel isoAssign isoUnary)

/-- A tree that always has a value and changes nothing. -/
def Tot (Y : E) : Prop := ∀ τ, ∃ v, evalSh Y τ = some (v, τ)

theorem Tot.num (v : Int) : Tot (.num v) := fun τ => ⟨v, rfl⟩
theorem Tot.ident (n : Nat) : Tot (.ident n) := fun τ => ⟨_, rfl⟩

theorem Tot.un {Y : E} (h : Tot Y) {q : P} (hq : q = .minus ∨ q = .tilde ∨ q = .excl) :
    Tot (.unary q Y) := by
  intro τ
  obtain ⟨v, hv⟩ := h τ
  rcases hq with rfl | rfl | rfl <;> exact ⟨_, by simp only [evalSh, M.bnd, hv]; rfl⟩

theorem op64_total {q : P} (hl : 1 ≤ isoLevel q) (h1 : q ≠ .andand) (h2 : q ≠ .oror)
    (h : ¬ q ∈ [P.slash, .percent, .shl, .shr]) (a b : Int) : ∃ v, op64 q a b = some v := by
  revert hl h
  cases q <;> simp [op64] at h1 h2 ⊢ <;> decide

theorem Tot.bin {A B : E} (ha : Tot A) (hb : Tot B) {q : P} (hl : 1 ≤ isoLevel q)
    (h : ¬ q ∈ [P.slash, .percent, .shl, .shr]) : Tot (.bin q A B) := by
  intro τ
  obtain ⟨a, ea⟩ := ha τ
  obtain ⟨b, eb⟩ := hb τ
  by_cases h1 : q = .andand
  · subst h1
    by_cases hx : a = 0
    · exact ⟨0, by simp [evalSh, binSem, M.bnd, ea, hx, M.ret]⟩
    · exact ⟨_, by simp only [evalSh, binSem, M.bnd, ea, hx, if_false, eb]; rfl⟩
  · by_cases h2 : q = .oror
    · subst h2
      by_cases hx : a = 0
      · exact ⟨_, by simp only [evalSh, binSem, M.bnd, ea, hx, ne_eq, not_true_eq_false, if_false, eb]; rfl⟩
      · exact ⟨1, by simp [evalSh, binSem, M.bnd, ea, hx, M.ret]⟩
    · obtain ⟨v, hv⟩ := op64_total hl h1 h2 h a b
      exact ⟨v, by simp [evalSh, binSem_strict h1 h2, M.bnd, ea, eb, M.lift, hv]⟩

theorem Tot.comma {A B : E} (ha : Tot A) (hb : Tot B) : Tot (.comma A B) := by
  intro τ
  obtain ⟨a, ea⟩ := ha τ
  obtain ⟨b, eb⟩ := hb τ
  exact ⟨b, by simp [evalSh, M.bnd, ea, eb]⟩

theorem Tot.cond {C A B : E} (hc : Tot C) (ha : Tot A) (hb : Tot B) : Tot (.cond C A B) := by
  intro τ
  obtain ⟨c, ec⟩ := hc τ
  obtain ⟨a, ea⟩ := ha τ
  obtain ⟨b, eb⟩ := hb τ
  by_cases hx : c = 0
  · exact ⟨b, by simp [evalSh, M.bnd, ec, eb, hx]⟩
  · exact ⟨a, by simp [evalSh, M.bnd, ec, ea, hx]⟩

theorem ok_neg {e m} (h : ok (.neg e) m = true) : ∃ m, ok e m = true := by
  simp only [ok, Bool.or_eq_true, Bool.and_eq_true] at h
  rcases h with h | h
  · cases e <;> simp [isInt] at h
    exact ⟨0, rfl⟩
  · exact ⟨0, h.1⟩

/-- An address that cannot fail. -/
theorem total_res (e : X) :
    (∀ m τ, ok e m = true → pureTotal e = true → ∃ Y, res e τ = some (Y, τ) ∧ Tot Y) ∧
    (∀ m τ, ok (.addr e) m = true → pureTotal (.addr e) = true → ∃ Y, resA e τ = some (Y, τ) ∧ Tot Y) := by
  induction e with
  | int v | hex v => exact ⟨fun m τ _ _ => ⟨_, rfl, Tot.num _⟩, fun _ _ h => by simp [ok] at h⟩
  | var x => exact ⟨fun m τ _ _ => ⟨_, rfl, Tot.ident _⟩, fun _ _ h => by simp [ok] at h⟩
  | deref e ih =>
    refine ⟨fun m τ h1 h2 => ?_, fun _ _ h => by simp [ok] at h⟩
    simp only [ok, Bool.and_eq_true] at h1
    obtain ⟨Y, hY, hT⟩ := ih.1 _ τ h1.1 h2
    obtain ⟨v, hv⟩ := hT τ
    exact ⟨_, by simp only [res, M.bnd, hY, hv]; rfl, Tot.ident _⟩
  | plus e ih | parens e ih | cast e ih =>
    refine ⟨fun m τ h1 h2 => ?_, fun _ _ h => by simp [ok] at h⟩
    simpa [res] using ih.1 m τ (by simpa [ok] using h1) (by simpa [pureTotal] using h2)
  | neg e ih =>
    refine ⟨fun m τ h1 h2 => ?_, fun _ _ h => by simp [ok] at h⟩
    obtain ⟨m', h1⟩ := ok_neg h1
    obtain ⟨Y, hY, hT⟩ := ih.1 _ τ h1 h2
    exact ⟨_, by simp only [res, M.bnd, hY]; rfl, hT.un (by simp)⟩
  | bnot e ih | lnot e ih =>
    refine ⟨fun m τ h1 h2 => ?_, fun _ _ h => by simp [ok] at h⟩
    simp only [ok, Bool.and_eq_true] at h1
    obtain ⟨Y, hY, hT⟩ := ih.1 _ τ h1.2 h2
    exact ⟨_, by simp only [res, M.bnd, hY]; rfl, hT.un (by simp)⟩
  | preinc l | predec l | postinc l | postdec l | assign q l e =>
    exact ⟨fun m τ _ h => by simp [pureTotal] at h, fun _ _ h => by simp [ok] at h⟩
  | addr l ih =>
    refine ⟨fun m τ h1 h2 => ?_, fun _ _ h => by simp [ok] at h⟩
    simpa [res] using ih.2 m τ h1 h2
  | bin q a b iha ihb =>
    refine ⟨fun m τ h1 h2 => ?_, fun _ _ h => by simp [ok] at h⟩
    simp only [ok, Bool.and_eq_true, decide_eq_true_eq] at h1
    simp only [pureTotal, Bool.and_eq_true] at h2
    obtain ⟨Y1, e1, t1⟩ := iha.1 _ τ h1.1.1.2 h2.1.2
    obtain ⟨Y2, e2, t2⟩ := ihb.1 _ τ h1.1.2 h2.2
    exact ⟨_, by simp only [res, M.bnd, e1, e2]; rfl, t1.bin t2 h1.1.1.1 (by simpa using h2.1.1)⟩
  | comma a b iha ihb =>
    refine ⟨fun m τ h1 h2 => ?_, fun _ _ h => by simp [ok] at h⟩
    simp only [ok, Bool.and_eq_true] at h1
    simp only [pureTotal, Bool.and_eq_true] at h2
    obtain ⟨Y1, e1, t1⟩ := iha.1 _ τ h1.1 h2.1
    obtain ⟨Y2, e2, t2⟩ := ihb.1 _ τ h1.2 h2.2
    exact ⟨_, by simp only [res, M.bnd, e1, e2]; rfl, t1.comma t2⟩
  | cond c a b ihc iha ihb =>
    refine ⟨fun m τ h1 h2 => ?_, fun _ _ h => by simp [ok] at h⟩
    simp only [ok, Bool.and_eq_true] at h1
    simp only [pureTotal, Bool.and_eq_true] at h2
    obtain ⟨Y0, e0, t0⟩ := ihc.1 _ τ h1.1.1 h2.1.1
    obtain ⟨Y1, e1, t1⟩ := iha.1 _ τ h1.1.2 h2.1.2
    obtain ⟨Y2, e2, t2⟩ := ihb.1 _ τ h1.2 h2.2
    exact ⟨_, by simp only [res, M.bnd, e0, e1, e2]; rfl, t0.cond t1 t2⟩
  | index a b iha ihb =>
    constructor
    · intro m τ h1 h2
      simp only [ok, Bool.and_eq_true] at h1
      simp only [pureTotal, Bool.and_eq_true] at h2
      obtain ⟨Y1, e1, t1⟩ := iha.1 _ τ h1.1 h2.1
      obtain ⟨Y2, e2, t2⟩ := ihb.1 _ τ h1.2 h2.2
      obtain ⟨v, hv⟩ := (t1.bin t2 (q := .plus) (by decide) (by decide)) τ
      exact ⟨_, by simp only [res, M.bnd, e1, e2, hv]; rfl, Tot.ident _⟩
    · intro m τ h1 h2
      simp only [ok, Bool.and_eq_true] at h1
      simp only [pureTotal, Bool.and_eq_true] at h2
      obtain ⟨Y1, e1, t1⟩ := iha.1 _ τ h1.1.1.1.2 h2.1
      obtain ⟨Y2, e2, t2⟩ := ihb.1 _ τ h1.1.1.2 h2.2
      exact ⟨_, by simp only [resA, M.bnd, e1, e2]; rfl, t1.bin t2 (q := .plus) (by decide) (by decide)⟩
  | arrow a off iha =>
    constructor
    · intro m τ h1 h2
      simp only [ok] at h1
      simp only [pureTotal] at h2
      obtain ⟨Y1, e1, t1⟩ := iha.1 _ τ h1 h2
      obtain ⟨v, hv⟩ := (t1.bin (Tot.num off) (q := .plus) (by decide) (by decide)) τ
      exact ⟨_, by simp only [res, M.bnd, e1, hv]; rfl, Tot.ident _⟩
    · intro m τ h1 h2
      simp only [ok, Bool.and_eq_true] at h1
      simp only [pureTotal] at h2
      obtain ⟨Y1, e1, t1⟩ := iha.1 _ τ h1.1.2 h2
      exact ⟨_, by simp only [resA, M.bnd, e1]; rfl, t1.bin (Tot.num off) (q := .plus) (by decide) (by decide)⟩

/-- Expressions all of whose addresses cannot fail. -/
theorem cond_res (e : X) :
    (∀ m τ, ok e m = true → condAddr e = true → ∃ Y, res e τ = some (Y, τ)) ∧
    (∀ τ, okL e = true → condAddr e = true → ∃ x, resL e τ = some (x, τ)) ∧
    (∀ m τ, ok (.addr e) m = true → condAddr (.addr e) = true → ∃ Y, resA e τ = some (Y, τ)) := by
  induction e with
  | int v | hex v => exact ⟨fun m τ _ _ => ⟨_, rfl⟩, fun _ h => by simp [okL] at h, fun _ _ h => by simp [ok] at h⟩
  | var x => exact ⟨fun m τ _ _ => ⟨_, rfl⟩, fun _ _ _ => ⟨_, rfl⟩, fun _ _ h => by simp [ok] at h⟩
  | deref e ih =>
    refine ⟨fun m τ h1 h2 => ?_, fun τ h1 h2 => ?_, fun _ _ h => by simp [ok] at h⟩
    · simp only [ok, Bool.and_eq_true] at h1
      obtain ⟨Y, hY, hT⟩ := (total_res e).1 _ τ h1.1 h2
      obtain ⟨v, hv⟩ := hT τ
      exact ⟨_, by simp only [res, M.bnd, hY, hv]; rfl⟩
    · simp only [okL, Bool.and_eq_true] at h1
      obtain ⟨Y, hY, hT⟩ := (total_res e).1 _ τ h1.1 h2
      obtain ⟨v, hv⟩ := hT τ
      exact ⟨_, by simp only [resL, M.bnd, hY, hv]; rfl⟩
  | plus e ih | parens e ih =>
    refine ⟨fun m τ h1 h2 => ?_, fun _ h => by simp [okL] at h, fun _ _ h => by simp [ok] at h⟩
    simpa [res] using ih.1 m τ (by simpa [ok] using h1) (by simpa [condAddr] using h2)
  | cast e ih =>
    refine ⟨fun m τ h1 h2 => ?_, fun τ h1 h2 => ?_, fun _ _ h => by simp [ok] at h⟩
    · simpa [res] using ih.1 m τ (by simpa [ok] using h1) (by simpa [condAddr] using h2)
    · simpa [resL] using ih.2.1 τ (by simpa [okL] using h1) (by simpa [condAddr] using h2)
  | neg e ih =>
    refine ⟨fun m τ h1 h2 => ?_, fun _ h => by simp [okL] at h, fun _ _ h => by simp [ok] at h⟩
    obtain ⟨m', h1⟩ := ok_neg h1
    obtain ⟨Y, hY⟩ := ih.1 _ τ h1 h2
    exact ⟨_, by simp only [res, M.bnd, hY]; rfl⟩
  | bnot e ih | lnot e ih =>
    refine ⟨fun m τ h1 h2 => ?_, fun _ h => by simp [okL] at h, fun _ _ h => by simp [ok] at h⟩
    simp only [ok, Bool.and_eq_true] at h1
    obtain ⟨Y, hY⟩ := ih.1 _ τ h1.2 h2
    exact ⟨_, by simp only [res, M.bnd, hY]; rfl⟩
  | preinc l ih | predec l ih =>
    refine ⟨fun m τ h1 h2 => ?_, fun _ h => by simp [okL] at h, fun _ _ h => by simp [ok] at h⟩
    obtain ⟨x, hx⟩ := ih.2.1 τ (by simpa [ok] using h1) h2
    exact ⟨_, by simp only [res, M.bnd, hx]; rfl⟩
  | postinc l ih | postdec l ih =>
    refine ⟨fun m τ h1 h2 => ?_, fun _ h => by simp [okL] at h, fun _ _ h => by simp [ok] at h⟩
    simp only [ok, Bool.and_eq_true] at h1
    obtain ⟨x, hx⟩ := ih.2.1 τ h1.1 h2
    exact ⟨_, by simp only [res, M.bnd, hx]; rfl⟩
  | addr l ih =>
    refine ⟨fun m τ h1 h2 => ?_, fun _ h => by simp [okL] at h, fun _ _ h => by simp [ok] at h⟩
    simpa [res] using ih.2.2 m τ h1 h2
  | bin q a b iha ihb | comma a b iha ihb =>
    refine ⟨fun m τ h1 h2 => ?_, fun _ h => by simp [okL] at h, fun _ _ h => by simp [ok] at h⟩
    simp only [ok, Bool.and_eq_true] at h1
    simp only [condAddr, Bool.and_eq_true] at h2
    obtain ⟨Y1, e1⟩ := iha.1 _ τ (by first | exact h1.1.1.2 | exact h1.1) h2.1
    obtain ⟨Y2, e2⟩ := ihb.1 _ τ (by first | exact h1.1.2 | exact h1.2) h2.2
    exact ⟨_, by simp only [res, M.bnd, e1, e2]; rfl⟩
  | cond c a b ihc iha ihb =>
    refine ⟨fun m τ h1 h2 => ?_, fun _ h => by simp [okL] at h, fun _ _ h => by simp [ok] at h⟩
    simp only [ok, Bool.and_eq_true] at h1
    simp only [condAddr, Bool.and_eq_true] at h2
    obtain ⟨Y0, e0⟩ := ihc.1 _ τ h1.1.1 h2.1.1
    obtain ⟨Y1, e1⟩ := iha.1 _ τ h1.1.2 h2.1.2
    obtain ⟨Y2, e2⟩ := ihb.1 _ τ h1.2 h2.2
    exact ⟨_, by simp only [res, M.bnd, e0, e1, e2]; rfl⟩
  | assign q l e ihl ihe =>
    refine ⟨fun m τ h1 h2 => ?_, fun _ h => by simp [okL] at h, fun _ _ h => by simp [ok] at h⟩
    simp only [ok, Bool.and_eq_true] at h1
    simp only [condAddr, Bool.and_eq_true] at h2
    obtain ⟨x, e1⟩ := ihl.2.1 τ h1.1.1.2 h2.1
    obtain ⟨Y2, e2⟩ := ihe.1 _ τ h1.1.2 h2.2
    exact ⟨_, by simp only [res, M.bnd, e1, e2]; rfl⟩
  | index a b iha ihb =>
    refine ⟨fun m τ h1 h2 => ?_, fun τ h1 h2 => ?_, fun m τ h1 h2 => ?_⟩
    · simp only [ok, Bool.and_eq_true] at h1
      simp only [condAddr, Bool.and_eq_true] at h2
      obtain ⟨Y1, e1, t1⟩ := (total_res a).1 _ τ h1.1 h2.1
      obtain ⟨Y2, e2, t2⟩ := (total_res b).1 _ τ h1.2 h2.2
      obtain ⟨v, hv⟩ := (t1.bin t2 (q := .plus) (by decide) (by decide)) τ
      exact ⟨_, by simp only [res, M.bnd, e1, e2, hv]; rfl⟩
    · simp only [okL, Bool.and_eq_true] at h1
      simp only [condAddr, Bool.and_eq_true] at h2
      obtain ⟨Y1, e1, t1⟩ := (total_res a).1 _ τ h1.1.1.1 h2.1
      obtain ⟨Y2, e2, t2⟩ := (total_res b).1 _ τ h1.1.1.2 h2.2
      obtain ⟨v, hv⟩ := (t1.bin t2 (q := .plus) (by decide) (by decide)) τ
      exact ⟨_, by simp only [resL, M.bnd, e1, e2, hv]; rfl⟩
    · simp only [ok, Bool.and_eq_true] at h1
      simp only [condAddr, Bool.and_eq_true] at h2
      obtain ⟨Y1, e1⟩ := iha.1 _ τ h1.1.1.1.2 h2.1
      obtain ⟨Y2, e2⟩ := ihb.1 _ τ h1.1.1.2 h2.2
      exact ⟨_, by simp only [resA, M.bnd, e1, e2]; rfl⟩
  | arrow a off iha =>
    refine ⟨fun m τ h1 h2 => ?_, fun τ h1 h2 => ?_, fun m τ h1 h2 => ?_⟩
    · simp only [ok] at h1
      simp only [condAddr] at h2
      obtain ⟨Y1, e1, t1⟩ := (total_res a).1 _ τ h1 h2
      obtain ⟨v, hv⟩ := (t1.bin (Tot.num off) (q := .plus) (by decide) (by decide)) τ
      exact ⟨_, by simp only [res, M.bnd, e1, hv]; rfl⟩
    · simp only [okL, Bool.and_eq_true] at h1
      simp only [condAddr] at h2
      obtain ⟨Y1, e1, t1⟩ := (total_res a).1 _ τ h1.1 h2
      obtain ⟨v, hv⟩ := (t1.bin (Tot.num off) (q := .plus) (by decide) (by decide)) τ
      exact ⟨_, by simp only [resL, M.bnd, e1, hv]; rfl⟩
    · simp only [ok, Bool.and_eq_true] at h1
      simp only [condAddr] at h2
      obtain ⟨Y1, e1⟩ := iha.1 _ τ h1.1.2 h2
      exact ⟨_, by simp only [resA, M.bnd, e1]; rfl⟩

/-- Two operands whose addresses are resolved first. -/
theorem seq {a b : X} {mb : Nat} {σ x σ1 y σ2 Ya σa Yb σb} (hc : commute a b = true)
    (okb : ok b mb = true) (oa : ord a = true) (ob : ord b = true)
    (ra : res a σ = some (Ya, σa)) (va : evalSh Ya σa = some (x, σ1))
    (rb : res b σ1 = some (Yb, σb)) (vb : evalSh Yb σb = some (y, σ2)) :
    ∃ σA τ, res b σa = some (Yb, σA) ∧ evalSh Ya σA = some (x, τ) ∧ evalSh Yb τ = some (y, σ2) := by
  simp only [commute, Bool.or_eq_true, Bool.and_eq_true] at hc
  rcases hc with hf | ⟨hw, hd⟩
  · obtain ⟨Y, hY⟩ := free_res b mb okb hf
    rw [hY] at rb; injection rb with rb; injection rb with e1 e2; subst e1 e2
    exact ⟨σa, σ1, hY σa, va, vb⟩
  · have fa := (frames a).1 _ _ _ oa ra
    have hp := fa.pure (by simpa using hw)
    have := T_pure va hp
    subst this
    have fb := (frames b).1 _ _ _ ob rb
    refine ⟨σb, σb, rb, ?_, vb⟩
    refine T_agree Ya hp _ _ _ _ ?_ va
    intro n hn
    cases hl : dec n with
    | cell c => exact (fb.cell c).symm
    | var z =>
      refine (fb.var z fun hz => ?_).symm
      have := fa.vars n hn z hl
      simp only [List.all_eq_true, decide_eq_true_eq] at hd
      exact hd z hz this

theorem main_ind (e : X) :
    (∀ m σ v σ', ok e m = true → ord e = true → InR σ → evalC e σ = some (v, σ') →
      ∃ Y σA, res e σ = some (Y, σA) ∧ evalSh Y σA = some (v, σ')) ∧
    (∀ σ x σ', okL e = true → ordL e = true → InR σ → lvalC e σ = some (x, σ') →
      resL e σ = some (x, σ')) ∧
    (∀ m σ p σ', ok (.addr e) m = true → ord (.addr e) = true → InR σ →
      lvalC e σ = some (.cell p, σ') →
      ∃ Y σA, resA e σ = some (Y, σA) ∧ evalSh Y σA = some (p, σ')) := by
  induction e with
  | int v | hex v =>
    refine ⟨fun m σ w σ' _ _ _ h => ?_, fun _ _ _ h => by simp [okL] at h, fun _ _ _ _ h => by simp [ok] at h⟩
    simp only [evalC] at h
    obtain ⟨a, h1, h2⟩ := lift_some h
    injection h2 with e1 e2; subst e1 e2
    obtain ⟨e, _⟩ := chk_some h1
    exact ⟨_, _, rfl, by rw [e]; rfl⟩
  | var x =>
    refine ⟨fun m σ w σ' _ _ _ h => ?_, fun σ y σ' _ _ _ h => ?_, fun _ _ _ _ h => by simp [ok] at h⟩
    · simp [evalC] at h
      obtain ⟨rfl, rfl⟩ := h
      exact ⟨_, _, rfl, by simp [evalSh, dec_enc, State.get]⟩
    · simpa [lvalC, resL] using h
  | deref e ih =>
    refine ⟨fun m σ w σ' h1 h2 hi h => ?_, fun σ y σ' h1 h2 hi h => ?_, fun _ _ _ _ h => by simp [ok] at h⟩
    · simp only [ok, Bool.and_eq_true] at h1
      simp only [ord, Bool.and_eq_true] at h2
      simp only [evalC] at h
      obtain ⟨a, σ1, h3, h⟩ := bnd_some h
      simp at h
      obtain ⟨rfl, rfl⟩ := h
      obtain ⟨Y, σA, hr, hv⟩ := ih.1 _ _ _ _ h1.1 h2.1 hi h3
      exact ⟨_, _, by simp only [res, M.bnd, hr, hv]; rfl, by simp [evalSh, dec_enc, State.get]⟩
    · simp only [okL, Bool.and_eq_true] at h1
      simp only [ordL, Bool.and_eq_true] at h2
      simp only [lvalC] at h
      obtain ⟨a, σ1, h3, h⟩ := bnd_some h
      have := ret_some h; injection this with e1 e2; subst e1 e2
      obtain ⟨Y, σA, hr, hv⟩ := ih.1 _ _ _ _ h1.1 h2.1 hi h3
      simp [resL, M.bnd, hr, hv, M.ret]
  | plus e ih | parens e ih =>
    refine ⟨fun m σ w σ' h1 h2 hi h => ?_, fun _ _ _ h => by simp [okL] at h, fun _ _ _ _ h => by simp [ok] at h⟩
    simpa [res] using ih.1 m σ w σ' (by simpa [ok] using h1) (by simpa [ord] using h2) hi (by simpa [evalC] using h)
  | cast e ih =>
    refine ⟨fun m σ w σ' h1 h2 hi h => ?_, fun σ y σ' h1 h2 hi h => ?_, fun _ _ _ _ h => by simp [ok] at h⟩
    · simpa [res] using ih.1 m σ w σ' (by simpa [ok] using h1) (by simpa [ord] using h2) hi (by simpa [evalC] using h)
    · simpa [resL] using ih.2.1 σ y σ' (by simpa [okL] using h1) (by simpa [ordL] using h2) hi (by simpa [lvalC] using h)
  | neg e ih =>
    refine ⟨fun m σ w σ' h1 h2 hi h => ?_, fun _ _ _ h => by simp [okL] at h, fun _ _ _ _ h => by simp [ok] at h⟩
    obtain ⟨m', h1⟩ := ok_neg h1
    simp only [evalC] at h
    obtain ⟨a, σ1, h3, h⟩ := bnd_some h
    obtain ⟨b, h4, h5⟩ := lift_some h
    injection h5 with e1 e2; subst e1 e2
    obtain ⟨e, h6⟩ := chk_some h4
    obtain ⟨Y, σA, hr, hv⟩ := ih.1 _ _ _ _ h1 (by simpa [ord] using h2) hi h3
    exact ⟨_, _, by simp only [res, M.bnd, hr]; rfl, by simp [evalSh, M.bnd, hv, M.ret, wrap_in32 h6, e]⟩
  | bnot e ih | lnot e ih =>
    refine ⟨fun m σ w σ' h1 h2 hi h => ?_, fun _ _ _ h => by simp [okL] at h, fun _ _ _ _ h => by simp [ok] at h⟩
    simp only [ok, Bool.and_eq_true] at h1
    simp only [evalC] at h
    obtain ⟨a, σ1, h3, h⟩ := bnd_some h
    have := ret_some h; injection this with e1 e2; subst e1 e2
    obtain ⟨Y, σA, hr, hv⟩ := ih.1 _ _ _ _ h1.2 (by simpa [ord] using h2) hi h3
    exact ⟨_, _, by simp only [res, M.bnd, hr]; rfl, by simp [evalSh, M.bnd, hv, M.ret]⟩
  | preinc l ih | predec l ih =>
    refine ⟨fun m σ w σ' h1 h2 hi h => ?_, fun _ _ _ h => by simp [okL] at h, fun _ _ _ _ h => by simp [ok] at h⟩
    simp only [evalC] at h
    obtain ⟨x, σ1, h3, h⟩ := bnd_some h
    obtain ⟨a, h4, h5⟩ := map_some' h
    injection h5 with e1 e2; subst e1 e2
    obtain ⟨e, h6⟩ := chk_some h4
    have hr := ih.2.1 _ _ _ (by simpa [ok] using h1) (by simpa [ord] using h2) hi h3
    exact ⟨_, _, by simp only [res, M.bnd, hr]; rfl,
      by simp [evalSh, M.bnd, M.ret, assignVal, compound, op64, dec_enc, wrap_in32 h6, e]⟩
  | postinc l ih | postdec l ih =>
    refine ⟨fun m σ w σ' h1 h2 hi h => ?_, fun _ _ _ h => by simp [okL] at h, fun _ _ _ _ h => by simp [ok] at h⟩
    simp only [ok, Bool.and_eq_true] at h1
    simp only [evalC] at h
    obtain ⟨x, σ1, h3, h⟩ := bnd_some h
    obtain ⟨a, h4, h5⟩ := map_some' h
    injection h5 with e1 e2; subst e1 e2
    obtain ⟨e, h6⟩ := chk_some h4
    have hi1 := ((C_range l).2 _ _ _ hi h3).1
    have hg := wrap_in32 (InR_get hi1 x)
    have hr := ih.2.1 _ _ _ h1.1 (by simpa [ord] using h2) hi h3
    refine ⟨_, _, by simp only [res, M.bnd, hr]; rfl, ?_⟩
    simp [evalSh, binSem, M.bnd, M.ret, M.lift, assignVal, compound, op64, dec_enc, wrap_in32 h6, e]
    exact hg
  | addr l ih =>
    refine ⟨fun m σ w σ' h1 h2 hi h => ?_, fun _ _ _ h => by simp [okL] at h, fun _ _ _ _ h => by simp [ok] at h⟩
    simp only [evalC] at h
    obtain ⟨x, σ1, h3, h⟩ := bnd_some h
    cases x with
    | var y => simp at h
    | cell a =>
      have := ret_some h; injection this with e1 e2; subst e1 e2
      simpa [res] using ih.2.2 m σ _ _ h1 h2 hi h3
  | bin q a b iha ihb =>
    refine ⟨fun m σ w σ' h1 h2 hi h => ?_, fun _ _ _ h => by simp [okL] at h, fun _ _ _ _ h => by simp [ok] at h⟩
    simp only [ok, Bool.and_eq_true] at h1
    have oka := h1.1.1.2
    have okb := h1.1.2
    obtain ⟨oa, ob⟩ := ord_bin h2
    by_cases hq1 : q = .andand
    · subst hq1
      simp only [ord, Bool.and_eq_true, Bool.or_eq_true] at h2
      obtain ⟨⟨_, hcb⟩, hfw⟩ := h2
      simp only [evalC] at h
      obtain ⟨x, σ1, h3, h⟩ := bnd_some h
      obtain ⟨Ya, σa, ra, va⟩ := iha.1 _ _ _ _ oka oa hi h3
      obtain ⟨Yb, rb⟩ := (cond_res b).1 _ σa okb hcb
      refine ⟨.bin .andand Ya Yb, σa, by simp [res, M.bnd, ra, rb, M.ret], ?_⟩
      simp only [evalSh, binSem, M.bnd, va]
      split at h
      · rename_i hx; rw [if_pos hx]; exact h
      · rename_i hx
        rw [if_neg hx]
        obtain ⟨y, σ2, h4, h⟩ := bnd_some h
        obtain ⟨Yb', σb, rb', vb⟩ := ihb.1 _ _ _ _ okb ob ((C_range a).1 _ _ _ hi h3).2 h4
        obtain ⟨Yb'', rb''⟩ := (cond_res b).1 _ σ1 okb hcb
        rw [rb''] at rb'; injection rb' with e1; injection e1 with e1 e2; subst e1 e2
        have : Yb'' = Yb := by
          rcases hfw with hf | hw
          · obtain ⟨Y, hY⟩ := free_res b _ okb hf
            rw [hY] at rb rb''
            injection rb with rb; injection rb with rb; injection rb'' with rb''; injection rb'' with rb''
            rw [← rb, ← rb'']
          · have hp := ((frames a).1 _ _ _ oa ra).pure (by simpa using hw)
            have := T_pure va hp
            subst this
            rw [rb''] at rb; injection rb with rb; injection rb with rb
        subst this
        simp only [M.bnd, vb]; exact h
    · by_cases hq2 : q = .oror
      · subst hq2
        simp only [ord, Bool.and_eq_true, Bool.or_eq_true] at h2
        obtain ⟨⟨_, hcb⟩, hfw⟩ := h2
        simp only [evalC] at h
        obtain ⟨x, σ1, h3, h⟩ := bnd_some h
        obtain ⟨Ya, σa, ra, va⟩ := iha.1 _ _ _ _ oka oa hi h3
        obtain ⟨Yb, rb⟩ := (cond_res b).1 _ σa okb hcb
        refine ⟨.bin .oror Ya Yb, σa, by simp [res, M.bnd, ra, rb, M.ret], ?_⟩
        simp only [evalSh, binSem, M.bnd, va]
        split at h
        · rename_i hx; rw [if_pos hx]; exact h
        · rename_i hx
          rw [if_neg hx]
          obtain ⟨y, σ2, h4, h⟩ := bnd_some h
          obtain ⟨Yb', σb, rb', vb⟩ := ihb.1 _ _ _ _ okb ob ((C_range a).1 _ _ _ hi h3).2 h4
          obtain ⟨Yb'', rb''⟩ := (cond_res b).1 _ σ1 okb hcb
          rw [rb''] at rb'; injection rb' with e1; injection e1 with e1 e2; subst e1 e2
          have : Yb'' = Yb := by
            rcases hfw with hf | hw
            · obtain ⟨Y, hY⟩ := free_res b _ okb hf
              rw [hY] at rb rb''
              injection rb with rb; injection rb with rb; injection rb'' with rb''; injection rb'' with rb''
              rw [← rb, ← rb'']
            · have hp := ((frames a).1 _ _ _ oa ra).pure (by simpa using hw)
              have := T_pure va hp
              subst this
              rw [rb''] at rb; injection rb with rb; injection rb with rb
          subst this
          simp only [M.bnd, vb]; exact h
      · have hco : commute a b = true := by
          cases q <;> first
            | exact absurd rfl hq1
            | exact absurd rfl hq2
            | (simp only [ord, Bool.and_eq_true] at h2; exact h2.2)
        rw [evalC_bin hq1 hq2] at h
        obtain ⟨x, σ1, h3, h⟩ := bnd_some h
        obtain ⟨y, σ2, h4, h⟩ := bnd_some h
        obtain ⟨z, h5, h6⟩ := lift_some h
        injection h6 with e1 e2; subst e1 e2
        have ca := (C_range a).1 _ _ _ hi h3
        have cb := (C_range b).1 _ _ _ ca.2 h4
        obtain ⟨Ya, σa, ra, va⟩ := iha.1 _ _ _ _ oka oa hi h3
        obtain ⟨Yb, σb, rb, vb⟩ := ihb.1 _ _ _ _ okb ob ca.2 h4
        obtain ⟨σA, τ, g1, g2, g3⟩ := seq hco okb oa ob ra va rb vb
        refine ⟨.bin q Ya Yb, σA, by simp [res, M.bnd, ra, g1, M.ret], ?_⟩
        simp [evalSh, binSem_strict hq1 hq2, M.bnd, g2, g3, M.lift, op_refines ca.1 cb.1 h5]
  | comma a b iha ihb =>
    refine ⟨fun m σ w σ' h1 h2 hi h => ?_, fun _ _ _ h => by simp [okL] at h, fun _ _ _ _ h => by simp [ok] at h⟩
    simp only [ok, Bool.and_eq_true] at h1
    simp only [ord, Bool.and_eq_true] at h2
    obtain ⟨⟨oa, ob⟩, hco⟩ := h2
    simp only [evalC] at h
    obtain ⟨x, σ1, h3, h4⟩ := bnd_some h
    have ca := (C_range a).1 _ _ _ hi h3
    obtain ⟨Ya, σa, ra, va⟩ := iha.1 _ _ _ _ h1.1 oa hi h3
    obtain ⟨Yb, σb, rb, vb⟩ := ihb.1 _ _ _ _ h1.2 ob ca.2 h4
    obtain ⟨σA, τ, g1, g2, g3⟩ := seq hco h1.2 oa ob ra va rb vb
    exact ⟨.comma Ya Yb, σA, by simp [res, M.bnd, ra, g1, M.ret], by simp [evalSh, M.bnd, g2, g3]⟩
  | cond c a b ihc iha ihb =>
    refine ⟨fun m σ w σ' h1 h2 hi h => ?_, fun _ _ _ h => by simp [okL] at h, fun _ _ _ _ h => by simp [ok] at h⟩
    simp only [ok, Bool.and_eq_true] at h1
    obtain ⟨⟨okc, oka⟩, okb⟩ := h1
    simp only [ord, Bool.and_eq_true, Bool.or_eq_true] at h2
    obtain ⟨⟨⟨⟨⟨oc, oa⟩, ob⟩, hca⟩, hcb⟩, hfw⟩ := h2
    simp only [evalC] at h
    obtain ⟨x, σ1, h3, h⟩ := bnd_some h
    have cc := (C_range c).1 _ _ _ hi h3
    obtain ⟨Yc, σc, rc, vc⟩ := ihc.1 _ _ _ _ okc oc hi h3
    obtain ⟨Ya, ra⟩ := (cond_res a).1 _ σc oka hca
    obtain ⟨Yb, rb⟩ := (cond_res b).1 _ σc okb hcb
    refine ⟨.cond Yc Ya Yb, σc, by simp [res, M.bnd, rc, ra, rb, M.ret], ?_⟩
    simp only [evalSh, M.bnd, vc]
    have key : ∀ d md Yd Yd', ok d md = true → (addrFree d = true ∨ (!bWrites c) = true) →
        res d σc = some (Yd, σc) → res d σ1 = some (Yd', σ1) → Yd' = Yd := by
      intro d md Yd Yd' okd hfw rb rb''
      rcases hfw with hf | hw
      · obtain ⟨Y, hY⟩ := free_res d _ okd hf
        rw [hY] at rb rb''
        injection rb with rb; injection rb with rb; injection rb'' with rb''; injection rb'' with rb''
        rw [← rb, ← rb'']
      · have hp := ((frames c).1 _ _ _ oc rc).pure (by simpa using hw)
        have := T_pure vc hp
        subst this
        rw [rb''] at rb; injection rb with rb; injection rb with rb
    split at h
    · rename_i hx
      rw [if_pos hx]
      obtain ⟨Y', σ', r', v'⟩ := iha.1 _ _ _ _ oka oa cc.2 h
      obtain ⟨Y'', r''⟩ := (cond_res a).1 _ σ1 oka hca
      rw [r''] at r'; injection r' with e1; injection e1 with e1 e2; subst e1 e2
      rw [← key a _ _ _ oka (hfw.imp And.left id) ra r'']
      exact v'
    · rename_i hx
      rw [if_neg hx]
      obtain ⟨Y', σ', r', v'⟩ := ihb.1 _ _ _ _ okb ob cc.2 h
      obtain ⟨Y'', r''⟩ := (cond_res b).1 _ σ1 okb hcb
      rw [r''] at r'; injection r' with e1; injection e1 with e1 e2; subst e1 e2
      rw [← key b _ _ _ okb (hfw.imp And.right id) rb r'']
      exact v'
  | assign q l e ihl ihe =>
    refine ⟨fun m σ w σ' h1 h2 hi h => ?_, fun _ _ _ h => by simp [okL] at h, fun _ _ _ _ h => by simp [ok] at h⟩
    simp only [ok, Bool.and_eq_true] at h1
    obtain ⟨⟨⟨_, okl⟩, oke⟩, _⟩ := h1
    simp only [ord, Bool.and_eq_true] at h2
    simp only [evalC] at h
    obtain ⟨x, σ1, h3, h⟩ := bnd_some h
    obtain ⟨v, σ2, h4, h⟩ := bnd_some h
    obtain ⟨a, h5, h6⟩ := map_some' h
    injection h6 with e1 e2; subst e1 e2
    have hi1 := ((C_range l).2 _ _ _ hi h3).1
    have ce := (C_range e).1 _ _ _ hi1 h4
    have rl := ihl.2.1 _ _ _ okl h2.1 hi h3
    obtain ⟨Y, σA, re, ve⟩ := ihe.1 _ _ _ _ oke h2.2 hi1 h4
    refine ⟨_, σA, by simp only [res, M.bnd, rl, re]; rfl, ?_⟩
    simp [evalSh, M.bnd, ve, dec_enc, (assign_refines (InR_get ce.2 x) ce.1 h5).1]
  | index a b iha ihb =>
    refine ⟨fun m σ w σ' h1 h2 hi h => ?_, fun σ w σ' h1 h2 hi h => ?_, fun m σ w σ' h1 h2 hi h => ?_⟩
    · simp only [ok, Bool.and_eq_true] at h1
      simp only [ord, Bool.and_eq_true] at h2
      obtain ⟨⟨⟨⟨oa, ob⟩, hco⟩, _⟩, _⟩ := h2
      simp only [evalC] at h
      obtain ⟨x, σ1, h3, h⟩ := bnd_some h
      obtain ⟨y, σ2, h4, h⟩ := bnd_some h
      obtain ⟨p, σ3, h5, h⟩ := bnd_some h
      simp at h
      obtain ⟨rfl, rfl⟩ := h
      obtain ⟨p', h6, h7⟩ := lift_some h5
      injection h7 with e1 e2; subst e1 e2
      obtain ⟨e, hp⟩ := chk_some h6
      have ca := (C_range a).1 _ _ _ hi h3
      obtain ⟨Ya, σa, ra, va⟩ := iha.1 _ _ _ _ h1.1 oa hi h3
      obtain ⟨Yb, σb, rb, vb⟩ := ihb.1 _ _ _ _ h1.2 ob ca.2 h4
      obtain ⟨σA, τ, g1, g2, g3⟩ := seq hco h1.2 oa ob ra va rb vb
      refine ⟨.ident (enc (.cell p)), σ3, ?_, by simp [evalSh, dec_enc, State.get]⟩
      simp [res, evalSh, binSem, M.bnd, ra, g1, g2, g3, M.lift, M.ret, op64, wrap_in32 hp, e]
    · simp only [okL, Bool.and_eq_true] at h1
      obtain ⟨⟨⟨oka, okb⟩, _⟩, _⟩ := h1
      simp only [ordL, Bool.and_eq_true] at h2
      obtain ⟨⟨⟨⟨oa, ob⟩, hco⟩, _⟩, _⟩ := h2
      simp only [lvalC] at h
      obtain ⟨x, σ1, h3, h⟩ := bnd_some h
      obtain ⟨y, σ2, h4, h⟩ := bnd_some h
      obtain ⟨p, σ3, h5, h⟩ := bnd_some h
      have := ret_some h; injection this with e1 e2; subst e1 e2
      obtain ⟨p', h6, h7⟩ := lift_some h5
      injection h7 with e1 e2; subst e1 e2
      obtain ⟨e, hp⟩ := chk_some h6
      have ca := (C_range a).1 _ _ _ hi h3
      obtain ⟨Ya, σa, ra, va⟩ := iha.1 _ _ _ _ oka oa hi h3
      obtain ⟨Yb, σb, rb, vb⟩ := ihb.1 _ _ _ _ okb ob ca.2 h4
      obtain ⟨σA, τ, g1, g2, g3⟩ := seq hco okb oa ob ra va rb vb
      simp [resL, evalSh, binSem, M.bnd, ra, g1, g2, g3, M.lift, M.ret, op64, wrap_in32 hp, e]
    · simp only [ok, Bool.and_eq_true] at h1
      obtain ⟨⟨⟨⟨_, oka⟩, okb⟩, _⟩, _⟩ := h1
      simp only [ord, Bool.and_eq_true] at h2
      obtain ⟨⟨oa, ob⟩, hco⟩ := h2
      simp only [lvalC] at h
      obtain ⟨x, σ1, h3, h⟩ := bnd_some h
      obtain ⟨y, σ2, h4, h⟩ := bnd_some h
      obtain ⟨p, σ3, h5, h⟩ := bnd_some h
      have := ret_some h; injection this with e1 e2; injection e1 with e1; subst e1 e2
      obtain ⟨p', h6, h7⟩ := lift_some h5
      injection h7 with e1 e2; subst e1 e2
      obtain ⟨e, hp⟩ := chk_some h6
      have ca := (C_range a).1 _ _ _ hi h3
      obtain ⟨Ya, σa, ra, va⟩ := iha.1 _ _ _ _ oka oa hi h3
      obtain ⟨Yb, σb, rb, vb⟩ := ihb.1 _ _ _ _ okb ob ca.2 h4
      obtain ⟨σA, τ, g1, g2, g3⟩ := seq hco okb oa ob ra va rb vb
      exact ⟨_, σA, by simp only [resA, M.bnd, ra, g1]; rfl,
        by simp [evalSh, binSem, M.bnd, g2, g3, M.lift, op64, wrap_in32 hp, e]⟩
  | arrow a off iha =>
    refine ⟨fun m σ w σ' h1 h2 hi h => ?_, fun σ w σ' h1 h2 hi h => ?_, fun m σ w σ' h1 h2 hi h => ?_⟩
    · simp only [ok] at h1
      simp only [ord, Bool.and_eq_true] at h2
      simp only [evalC] at h
      obtain ⟨x, σ1, h3, h⟩ := bnd_some h
      obtain ⟨p, σ3, h5, h⟩ := bnd_some h
      simp at h
      obtain ⟨rfl, rfl⟩ := h
      obtain ⟨p', h6, h7⟩ := lift_some h5
      injection h7 with e1 e2; subst e1 e2
      obtain ⟨e, hp⟩ := chk_some h6
      obtain ⟨Ya, σa, ra, va⟩ := iha.1 _ _ _ _ h1 h2.1 hi h3
      refine ⟨.ident (enc (.cell p)), σ3, ?_, by simp [evalSh, dec_enc, State.get]⟩
      simp [res, evalSh, binSem, M.bnd, ra, va, M.lift, M.ret, op64, wrap_in32 hp, e]
    · simp only [okL, Bool.and_eq_true] at h1
      simp only [ordL, Bool.and_eq_true] at h2
      simp only [lvalC] at h
      obtain ⟨x, σ1, h3, h⟩ := bnd_some h
      obtain ⟨p, σ3, h5, h⟩ := bnd_some h
      have := ret_some h; injection this with e1 e2; subst e1 e2
      obtain ⟨p', h6, h7⟩ := lift_some h5
      injection h7 with e1 e2; subst e1 e2
      obtain ⟨e, hp⟩ := chk_some h6
      obtain ⟨Ya, σa, ra, va⟩ := iha.1 _ _ _ _ h1.1 h2.1 hi h3
      simp [resL, evalSh, binSem, M.bnd, ra, va, M.lift, M.ret, op64, wrap_in32 hp, e]
    · simp only [ok, Bool.and_eq_true] at h1
      simp only [ord] at h2
      simp only [lvalC] at h
      obtain ⟨x, σ1, h3, h⟩ := bnd_some h
      obtain ⟨p, σ3, h5, h⟩ := bnd_some h
      have := ret_some h; injection this with e1 e2; injection e1 with e1; subst e1 e2
      obtain ⟨p', h6, h7⟩ := lift_some h5
      injection h7 with e1 e2; subst e1 e2
      obtain ⟨e, hp⟩ := chk_some h6
      obtain ⟨Ya, σa, ra, va⟩ := iha.1 _ _ _ _ h1.1.2 h2 hi h3
      exact ⟨_, σa, by simp only [resA, M.bnd, ra]; rfl,
        by simp [evalSh, binSem, M.bnd, va, M.ret, M.lift, op64, wrap_in32 hp, e]⟩

end Verif.Arith
