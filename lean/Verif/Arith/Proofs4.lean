import Verif.Arith.Proofs3
/-! Helper lemmas for C11, part 4: what resolving the addresses may change, and when it cannot
fail. -/
namespace Verif.Arith
open Verif Spec
open Verif.Parse (P Tok E parse)
open Verif.Parse.Spec (isoOps isoLevel isoAssign isoUnary)

theorem ord_bin {q a b} (h : ord (.bin q a b) = true) : ord a = true ∧ ord b = true := by
  cases q <;> simp [ord] at h <;> simp [h]

theorem aWr_wr (e : X) : ∀ x, x ∈ aWr e → x ∈ wr e := by
  have aux : ∀ e, (∀ x, x ∈ aWr e → x ∈ wr e) ∧ (∀ x, x ∈ aWr (.addr e) → x ∈ wr e) := by
    intro e
    induction e with
    | index a b iha ihb =>
      refine ⟨fun x h => by simpa [aWr, wr] using h, fun x h => ?_⟩
      simp only [aWr, wr, List.mem_append] at h ⊢
      rcases h with h | h
      · exact Or.inl (iha.1 _ h)
      · exact Or.inr (ihb.1 _ h)
    | arrow a off iha =>
      exact ⟨fun x h => by simpa [aWr, wr] using h, fun x h => iha.1 _ (by simpa [aWr] using h)⟩
    | deref e ih => exact ⟨fun x h => by simpa [aWr, wr] using h, fun x h => by simp [aWr] at h⟩
    | addr l ih => exact ⟨fun x h => by simpa [wr] using ih.2 x h, fun x h => by simp [aWr] at h⟩
    | plus e ih | parens e ih | cast e ih | neg e ih | bnot e ih | lnot e ih =>
      exact ⟨fun x h => by simpa [wr] using ih.1 x (by simpa [aWr] using h), fun x h => by simp [aWr] at h⟩
    | preinc l ih | predec l ih | postinc l ih | postdec l ih =>
      exact ⟨fun x h => by simp [wr, ih.1 x (by simpa [aWr] using h)], fun x h => by simp [aWr] at h⟩
    | bin q a b iha ihb | comma a b iha ihb | assign q a b iha ihb =>
      refine ⟨fun x h => ?_, fun x h => by simp [aWr] at h⟩
      simp only [aWr, wr, List.mem_append] at h ⊢
      rcases h with h | h
      · simp [iha.1 _ h]
      · simp [ihb.1 _ h]
    | cond c a b ihc iha ihb =>
      refine ⟨fun x h => ?_, fun x h => by simp [aWr] at h⟩
      simp only [aWr, wr, List.mem_append] at h ⊢
      rcases h with (h | h) | h
      · simp [ihc.1 _ h]
      · simp [iha.1 _ h]
      · simp [ihb.1 _ h]
    | _ => exact ⟨fun x h => by simp [aWr] at h, fun x h => by simp [aWr] at h⟩
  exact (aux e).1

/-- Facts about resolving an expression. -/
structure Frame (e : X) (σ : State) (Y : E) (σA : State) : Prop where
  vars : ∀ n ∈ ids Y, ∀ x, dec n = .var x → x ∈ bVars e
  pure : bWrites e = false → asg Y = []
  cell : ∀ a, σA.cell a = σ.cell a
  var : ∀ x, x ∉ aWr e → σA.var x = σ.var x
  asg : noCellWr e = true → ∀ n ∈ asg Y, ∃ x, dec n = .var x ∧ x ∈ wr e

structure FrameL (l : X) (σ : State) (x : LV) (σA : State) : Prop where
  vars : ∀ y, x = .var y → y ∈ lVars l
  cell : ∀ a, σA.cell a = σ.cell a
  var : ∀ x, x ∉ aWr l → σA.var x = σ.var x
  free : lFree l = true → ∃ y, x = .var y

/-- Evaluating an address: only variables assigned in it change. -/
theorem addr_frame {e σ Y σ1 a σ2} (hf : Frame e σ Y σ1) (hn : noCellWr e = true)
    (h : evalSh Y σ1 = some (a, σ2)) :
    (∀ b, σ2.cell b = σ.cell b) ∧ ∀ x, x ∉ wr e → σ2.var x = σ.var x := by
  constructor
  · intro b
    rw [← hf.cell b]
    refine T_frame Y _ _ _ h (.cell b) fun n hn' he => ?_
    obtain ⟨x, hx, _⟩ := hf.asg hn n hn'
    rw [hx] at he; cases he
  · intro x hx
    rw [← hf.var x (fun h => hx (aWr_wr e x h))]
    refine T_frame Y _ _ _ h (.var x) fun n hn' he => ?_
    obtain ⟨y, hy, hy'⟩ := hf.asg hn n hn'
    rw [hy] at he; injection he with he; subst he; exact hx hy'

/-- Two expressions resolved one after the other. -/
theorem frame2 {a b : X} {σ Ya σ1 Yb σ2} (ha : Frame a σ Ya σ1) (hb : Frame b σ1 Yb σ2) :
    (∀ x, σ2.cell x = σ.cell x) ∧ ∀ x, x ∉ aWr a ++ aWr b → σ2.var x = σ.var x := by
  constructor
  · intro x; rw [hb.cell, ha.cell]
  · intro x hx
    simp only [List.mem_append, not_or] at hx
    rw [hb.var x hx.2, ha.var x hx.1]

theorem frame_id {e σ} {a : Int} {σ' : State} (hv : bWrites e = false → True)
    (h1 : ∀ b, σ'.cell b = σ.cell b) (h2 : ∀ x, x ∉ aWr e → σ'.var x = σ.var x) :
    Frame e σ (.ident (enc (.cell a))) σ' where
  vars := fun n hn x hx => by
    simp [ids] at hn; subst hn; rw [dec_enc] at hx; cases hx
  pure := fun _ => rfl
  cell := h1
  var := h2
  asg := fun _ n hn => by simp [Arith.asg] at hn

theorem frame_plus {a b : X} {σ Ya σ1 Yb σ2 v σ3} (ha : Frame a σ Ya σ1) (hb : Frame b σ1 Yb σ2)
    (na : noCellWr a = true) (nb : noCellWr b = true)
    (h : evalSh (.bin .plus Ya Yb) σ2 = some (v, σ3)) :
    (∀ x, σ3.cell x = σ.cell x) ∧ ∀ x, x ∉ wr a ++ wr b → σ3.var x = σ.var x := by
  obtain ⟨h1, h2⟩ := frame2 ha hb
  constructor
  · intro c
    rw [← h1 c]
    refine T_frame _ _ _ _ h (.cell c) fun n hn' he => ?_
    simp only [asg, List.mem_append] at hn'
    rcases hn' with hn' | hn'
    · obtain ⟨x, hx, _⟩ := ha.asg na n hn'
      rw [hx] at he; cases he
    · obtain ⟨x, hx, _⟩ := hb.asg nb n hn'
      rw [hx] at he; cases he
  · intro x hx
    simp only [List.mem_append, not_or] at hx
    rw [← h2 x (by
      simp only [List.mem_append, not_or]
      exact ⟨fun h => hx.1 (aWr_wr _ _ h), fun h => hx.2 (aWr_wr _ _ h)⟩)]
    refine T_frame _ _ _ _ h (.var x) fun n hn' he => ?_
    simp only [asg, List.mem_append] at hn'
    rcases hn' with hn' | hn'
    · obtain ⟨y, hy, hy'⟩ := ha.asg na n hn'
      rw [hy] at he; injection he with he; subst he; exact hx.1 hy'
    · obtain ⟨y, hy, hy'⟩ := hb.asg nb n hn'
      rw [hy] at he; injection he with he; subst he; exact hx.2 hy'

theorem frame_num (σ : State) (n : Nat) : Frame (.int n) σ (.num n) σ where
  vars := by simp [ids]
  pure := fun _ => rfl
  cell := fun _ => rfl
  var := fun _ _ => rfl
  asg := by simp [Arith.asg]

/-- The same tree for a node with the same classification. -/
theorem Frame.to {e e' : X} {σ Y σA} (h : Frame e σ Y σA) (h1 : bVars e' = bVars e)
    (h2 : bWrites e' = bWrites e) (h3 : aWr e' = aWr e) (h4 : noCellWr e' = noCellWr e)
    (h5 : wr e' = wr e) : Frame e' σ Y σA where
  vars := by rw [h1]; exact h.vars
  pure := by rw [h2]; exact h.pure
  cell := h.cell
  var := by rw [h3]; exact h.var
  asg := by rw [h4, h5]; exact h.asg

theorem Frame.un {e e' : X} {σ Y σA} (q : P) (h : Frame e σ Y σA) (h1 : bVars e' = bVars e)
    (h2 : bWrites e' = bWrites e) (h3 : aWr e' = aWr e) (h4 : noCellWr e' = noCellWr e)
    (h5 : wr e' = wr e) : Frame e' σ (.unary q Y) σA where
  vars := by rw [h1]; exact h.vars
  pure := by rw [h2]; exact h.pure
  cell := h.cell
  var := by rw [h3]; exact h.var
  asg := by rw [h4, h5]; exact h.asg

theorem frame_incdec {l e : X} {σ x σA} {Y : E} (h : FrameL l σ x σA)
    (hi : ∀ n, n ∈ ids Y → n = enc x) (ha : ∀ n, n ∈ asg Y → n = enc x)
    (h1 : bVars e = lVars l) (h2 : bWrites e = true) (h3 : aWr e = aWr l)
    (h4 : noCellWr e = lFree l) (h5 : wr e = lVars l ++ wr l) : Frame e σ Y σA where
  vars := fun n hn y hy => by
    have := hi n hn; subst this; rw [dec_enc] at hy; rw [h1]; exact h.vars y hy
  pure := fun h => by rw [h2] at h; cases h
  cell := h.cell
  var := by rw [h3]; exact h.var
  asg := fun hn n hn' => by
    rw [h4] at hn
    have := ha n hn'; subst this
    obtain ⟨y, hy⟩ := h.free hn
    rw [dec_enc]
    exact ⟨y, hy, by rw [h5, List.mem_append]; exact Or.inl (h.vars y hy)⟩

theorem frames (e : X) :
    (∀ σ Y σA, ord e = true → res e σ = some (Y, σA) → Frame e σ Y σA) ∧
    (∀ σ x σA, ordL e = true → resL e σ = some (x, σA) → FrameL e σ x σA) ∧
    (∀ σ Y σA, ord (.addr e) = true → resA e σ = some (Y, σA) → Frame (.addr e) σ Y σA) := by
  induction e with
  | int v | hex v =>
    refine ⟨fun σ Y σA _ h => ?_, fun σ x σA h => by simp [ordL] at h, fun σ x σA h => by simp [ord] at h⟩
    simp only [res] at h
    have := ret_some h; injection this with e1 e2; subst e1 e2
    exact (frame_num _ v).to rfl rfl rfl rfl rfl
  | var x =>
    refine ⟨fun σ Y σA _ h => ?_, fun σ y σA _ h => ?_, fun σ x σA h => by simp [ord] at h⟩
    · simp only [res] at h
      have := ret_some h; injection this with e1 e2; subst e1 e2
      exact {
        vars := fun n hn y hy => by
          simp [ids] at hn; subst hn; rw [dec_enc] at hy; injection hy with hy; simp [bVars, hy]
        pure := fun _ => rfl
        cell := fun _ => rfl
        var := fun _ _ => rfl
        asg := by simp [asg] }
    · simp only [resL] at h
      have := ret_some h; injection this with e1 e2; subst e1 e2
      exact {
        vars := fun y hy => by injection hy with hy; simp [lVars, hy]
        cell := fun _ => rfl
        var := fun _ _ => rfl
        free := fun _ => ⟨x, rfl⟩ }
  | deref e ih =>
    refine ⟨fun σ Y σA ho h => ?_, fun σ y σA ho h => ?_, fun σ x σA h => by simp [ord] at h⟩
    · simp [ord] at ho
      simp only [res] at h
      obtain ⟨y, σ1, h1, h⟩ := bnd_some h
      obtain ⟨a, σ2, h2, h⟩ := bnd_some h
      have := ret_some h; injection this with e1 e2; subst e1 e2
      obtain ⟨h3, h4⟩ := addr_frame (ih.1 _ _ _ ho.1 h1) ho.2 h2
      exact frame_id (fun _ => trivial) h3 h4
    · simp [ordL] at ho
      simp only [resL] at h
      obtain ⟨y, σ1, h1, h⟩ := bnd_some h
      obtain ⟨a, σ2, h2, h⟩ := bnd_some h
      have := ret_some h; injection this with e1 e2; subst e1 e2
      obtain ⟨h3, h4⟩ := addr_frame (ih.1 _ _ _ ho.1 h1) ho.2 h2
      exact { vars := fun y hy => by cases hy
              cell := h3
              var := h4
              free := fun h => by simp [lFree] at h }
  | plus e ih | parens e ih =>
    exact ⟨fun σ Y σA ho h => (ih.1 σ Y σA (by simpa [ord] using ho) (by simpa [res] using h)).to rfl rfl rfl rfl rfl,
      fun σ x σA h => by simp [ordL] at h, fun σ x σA h => by simp [ord] at h⟩
  | cast e ih =>
    refine ⟨fun σ Y σA ho h => (ih.1 σ Y σA (by simpa [ord] using ho) (by simpa [res] using h)).to rfl rfl rfl rfl rfl,
      fun σ x σA ho h => ?_, fun σ x σA h => by simp [ord] at h⟩
    have := ih.2.1 σ x σA (by simpa [ordL] using ho) (by simpa [resL] using h)
    exact { vars := this.vars, cell := this.cell, var := this.var,
            free := fun h => this.free (by simpa [lFree] using h) }
  | neg e ih | bnot e ih | lnot e ih =>
    refine ⟨fun σ Y σA ho h => ?_, fun σ x σA h => by simp [ordL] at h, fun σ x σA h => by simp [ord] at h⟩
    simp only [res] at h
    obtain ⟨y, σ1, h1, h⟩ := bnd_some h
    have := ret_some h; injection this with e1 e2; subst e1 e2
    exact (ih.1 σ y _ (by simpa [ord] using ho) h1).un _ rfl rfl rfl rfl rfl
  | preinc l ih | predec l ih | postinc l ih | postdec l ih =>
    refine ⟨fun σ Y σA ho h => ?_, fun σ x σA h => by simp [ordL] at h, fun σ x σA h => by simp [ord] at h⟩
    simp only [res] at h
    obtain ⟨x, σ1, h1, h⟩ := bnd_some h
    have := ret_some h; injection this with e1 e2; subst e1 e2
    refine frame_incdec (ih.2.1 σ x _ (by simpa [ord] using ho) h1) ?_ ?_ rfl rfl rfl rfl rfl
    · intro n; simp [ids]
    · intro n; simp [asg, ids]
  | addr l ih =>
    exact ⟨fun σ Y σA ho h => ih.2.2 σ Y σA ho (by simpa [res] using h),
      fun σ x σA h => by simp [ordL] at h, fun σ x σA h => by simp [ord] at h⟩
  | bin q a b iha ihb =>
    refine ⟨fun σ Y σA ho h => ?_, fun σ x σA h => by simp [ordL] at h, fun σ x σA h => by simp [ord] at h⟩
    obtain ⟨oa, ob⟩ := ord_bin ho
    simp only [res] at h
    obtain ⟨x, σ1, h1, h⟩ := bnd_some h
    obtain ⟨y, σ2, h2, h⟩ := bnd_some h
    have := ret_some h; injection this with e1 e2; subst e1 e2
    have fa := iha.1 _ _ _ oa h1
    have fb := ihb.1 _ _ _ ob h2
    obtain ⟨h3, h4⟩ := frame2 fa fb
    exact {
      vars := fun n hn z hz => by
        simp only [ids, bVars, List.mem_append] at hn ⊢
        exact hn.imp (fun h => fa.vars n h z hz) (fun h => fb.vars n h z hz)
      pure := fun hp => by
        simp [bWrites] at hp; simp [asg, fa.pure hp.1, fb.pure hp.2]
      cell := h3
      var := h4
      asg := fun hn n hn' => by
        simp only [noCellWr, Bool.and_eq_true] at hn
        simp only [asg, List.mem_append] at hn'
        rcases hn' with h | h
        · obtain ⟨z, hz, hz'⟩ := fa.asg hn.1 n h
          exact ⟨z, hz, by simp [wr, hz']⟩
        · obtain ⟨z, hz, hz'⟩ := fb.asg hn.2 n h
          exact ⟨z, hz, by simp [wr, hz']⟩ }
  | comma a b iha ihb =>
    refine ⟨fun σ Y σA ho h => ?_, fun σ x σA h => by simp [ordL] at h, fun σ x σA h => by simp [ord] at h⟩
    simp only [ord, Bool.and_eq_true] at ho
    obtain ⟨⟨oa, ob⟩, _⟩ := ho
    simp only [res] at h
    obtain ⟨x, σ1, h1, h⟩ := bnd_some h
    obtain ⟨y, σ2, h2, h⟩ := bnd_some h
    have := ret_some h; injection this with e1 e2; subst e1 e2
    have fa := iha.1 _ _ _ oa h1
    have fb := ihb.1 _ _ _ ob h2
    obtain ⟨h3, h4⟩ := frame2 fa fb
    exact {
      vars := fun n hn z hz => by
        simp only [ids, bVars, List.mem_append] at hn ⊢
        exact hn.imp (fun h => fa.vars n h z hz) (fun h => fb.vars n h z hz)
      pure := fun hp => by
        simp [bWrites] at hp; simp [asg, fa.pure hp.1, fb.pure hp.2]
      cell := h3
      var := h4
      asg := fun hn n hn' => by
        simp only [noCellWr, Bool.and_eq_true] at hn
        simp only [asg, List.mem_append] at hn'
        rcases hn' with h | h
        · obtain ⟨z, hz, hz'⟩ := fa.asg hn.1 n h
          exact ⟨z, hz, by simp [wr, hz']⟩
        · obtain ⟨z, hz, hz'⟩ := fb.asg hn.2 n h
          exact ⟨z, hz, by simp [wr, hz']⟩ }
  | cond c a b ihc iha ihb =>
    refine ⟨fun σ Y σA ho h => ?_, fun σ x σA h => by simp [ordL] at h, fun σ x σA h => by simp [ord] at h⟩
    simp only [ord, Bool.and_eq_true] at ho
    obtain ⟨⟨⟨⟨⟨oc, oa⟩, ob⟩, _⟩, _⟩, _⟩ := ho
    simp only [res] at h
    obtain ⟨z, σ0, h0, h⟩ := bnd_some h
    obtain ⟨x, σ1, h1, h⟩ := bnd_some h
    obtain ⟨y, σ2, h2, h⟩ := bnd_some h
    have := ret_some h; injection this with e1 e2; subst e1 e2
    have fc := ihc.1 _ _ _ oc h0
    have fa := iha.1 _ _ _ oa h1
    have fb := ihb.1 _ _ _ ob h2
    exact {
      vars := fun n hn z hz => by
        simp only [ids, bVars, List.mem_append] at hn ⊢
        rcases hn with (h | h) | h
        · exact Or.inl (Or.inl (fc.vars n h z hz))
        · exact Or.inl (Or.inr (fa.vars n h z hz))
        · exact Or.inr (fb.vars n h z hz)
      pure := fun hp => by
        simp [bWrites] at hp; simp [asg, fc.pure hp.1.1, fa.pure hp.1.2, fb.pure hp.2]
      cell := fun t => by rw [fb.cell, fa.cell, fc.cell]
      var := fun t ht => by
        simp only [aWr, List.mem_append, not_or] at ht
        rw [fb.var t ht.2, fa.var t ht.1.2, fc.var t ht.1.1]
      asg := fun hn n hn' => by
        simp only [noCellWr, Bool.and_eq_true] at hn
        simp only [asg, List.mem_append] at hn'
        rcases hn' with (h | h) | h
        · obtain ⟨z, hz, hz'⟩ := fc.asg hn.1.1 n h
          exact ⟨z, hz, by simp [wr, hz']⟩
        · obtain ⟨z, hz, hz'⟩ := fa.asg hn.1.2 n h
          exact ⟨z, hz, by simp [wr, hz']⟩
        · obtain ⟨z, hz, hz'⟩ := fb.asg hn.2 n h
          exact ⟨z, hz, by simp [wr, hz']⟩ }
  | assign q l e ihl ihe =>
    refine ⟨fun σ Y σA ho h => ?_, fun σ x σA h => by simp [ordL] at h, fun σ x σA h => by simp [ord] at h⟩
    simp only [ord, Bool.and_eq_true] at ho
    obtain ⟨ol, oe⟩ := ho
    simp only [res] at h
    obtain ⟨x, σ1, h1, h⟩ := bnd_some h
    obtain ⟨y, σ2, h2, h⟩ := bnd_some h
    have := ret_some h; injection this with e1 e2; subst e1 e2
    have fl := ihl.2.1 _ _ _ ol h1
    have fe := ihe.1 _ _ _ oe h2
    exact {
      vars := fun n hn z hz => by
        simp only [ids, bVars, List.mem_append, List.mem_singleton] at hn ⊢
        rcases hn with h | h
        · subst h; rw [dec_enc] at hz; exact Or.inl (fl.vars z hz)
        · exact Or.inr (fe.vars n h z hz)
      pure := fun hp => by simp [bWrites] at hp
      cell := fun t => by rw [fe.cell, fl.cell]
      var := fun t ht => by
        simp only [aWr, List.mem_append, not_or] at ht
        rw [fe.var t ht.2, fl.var t ht.1]
      asg := fun hn n hn' => by
        simp only [noCellWr, Bool.and_eq_true] at hn
        simp only [asg, ids, List.mem_append, List.mem_singleton] at hn'
        rcases hn' with h | h
        · subst h
          obtain ⟨z, hz⟩ := fl.free hn.1
          exact ⟨z, by rw [dec_enc, hz], by simp [wr, fl.vars z hz]⟩
        · obtain ⟨z, hz, hz'⟩ := fe.asg hn.2 n h
          exact ⟨z, hz, by simp [wr, hz']⟩ }
  | index a b iha ihb =>
    refine ⟨fun σ Y σA ho h => ?_, fun σ y σA ho h => ?_, fun σ Y σA ho h => ?_⟩
    · simp only [ord, Bool.and_eq_true] at ho
      obtain ⟨⟨⟨⟨oa, ob⟩, _⟩, na⟩, nb⟩ := ho
      simp only [res] at h
      obtain ⟨x, σ1, h1, h⟩ := bnd_some h
      obtain ⟨y, σ2, h2, h⟩ := bnd_some h
      obtain ⟨p, σ3, h3, h⟩ := bnd_some h
      have := ret_some h; injection this with e1 e2; subst e1 e2
      obtain ⟨h4, h5⟩ := frame_plus (iha.1 _ _ _ oa h1) (ihb.1 _ _ _ ob h2) na nb h3
      exact frame_id (fun _ => trivial) h4 h5
    · simp only [ordL, Bool.and_eq_true] at ho
      obtain ⟨⟨⟨⟨oa, ob⟩, _⟩, na⟩, nb⟩ := ho
      simp only [resL] at h
      obtain ⟨x, σ1, h1, h⟩ := bnd_some h
      obtain ⟨y, σ2, h2, h⟩ := bnd_some h
      obtain ⟨p, σ3, h3, h⟩ := bnd_some h
      have := ret_some h; injection this with e1 e2; subst e1 e2
      obtain ⟨h4, h5⟩ := frame_plus (iha.1 _ _ _ oa h1) (ihb.1 _ _ _ ob h2) na nb h3
      exact { vars := fun y hy => by cases hy
              cell := h4
              var := h5
              free := fun h => by simp [lFree] at h }
    · simp only [ord, Bool.and_eq_true] at ho
      obtain ⟨⟨oa, ob⟩, _⟩ := ho
      simp only [resA] at h
      obtain ⟨x, σ1, h1, h⟩ := bnd_some h
      obtain ⟨y, σ2, h2, h⟩ := bnd_some h
      have := ret_some h; injection this with e1 e2; subst e1 e2
      have fa := iha.1 _ _ _ oa h1
      have fb := ihb.1 _ _ _ ob h2
      obtain ⟨h3, h4⟩ := frame2 fa fb
      exact {
        vars := fun n hn z hz => by
          simp only [ids, bVars, List.mem_append] at hn ⊢
          exact hn.imp (fun h => fa.vars n h z hz) (fun h => fb.vars n h z hz)
        pure := fun hp => by
          simp [bWrites] at hp; simp [asg, fa.pure hp.1, fb.pure hp.2]
        cell := h3
        var := h4
        asg := fun hn n hn' => by
          simp only [noCellWr, Bool.and_eq_true] at hn
          simp only [asg, List.mem_append] at hn'
          rcases hn' with h | h
          · obtain ⟨z, hz, hz'⟩ := fa.asg hn.1 n h
            exact ⟨z, hz, by simp [wr, hz']⟩
          · obtain ⟨z, hz, hz'⟩ := fb.asg hn.2 n h
            exact ⟨z, hz, by simp [wr, hz']⟩ }
  | arrow a off iha =>
    refine ⟨fun σ Y σA ho h => ?_, fun σ y σA ho h => ?_, fun σ Y σA ho h => ?_⟩
    · simp only [ord, Bool.and_eq_true] at ho
      obtain ⟨oa, na⟩ := ho
      simp only [res] at h
      obtain ⟨x, σ1, h1, h⟩ := bnd_some h
      obtain ⟨p, σ3, h3, h⟩ := bnd_some h
      have := ret_some h; injection this with e1 e2; subst e1 e2
      obtain ⟨h4, h5⟩ := frame_plus (iha.1 _ _ _ oa h1) (frame_num _ off) na rfl h3
      exact frame_id (fun _ => trivial) h4 (fun x hx => h5 x (by simpa [wr, aWr] using hx))
    · simp only [ordL, Bool.and_eq_true] at ho
      obtain ⟨oa, na⟩ := ho
      simp only [resL] at h
      obtain ⟨x, σ1, h1, h⟩ := bnd_some h
      obtain ⟨p, σ3, h3, h⟩ := bnd_some h
      have := ret_some h; injection this with e1 e2; subst e1 e2
      obtain ⟨h4, h5⟩ := frame_plus (iha.1 _ _ _ oa h1) (frame_num _ off) na rfl h3
      exact { vars := fun y hy => by cases hy
              cell := h4
              var := fun x hx => h5 x (by simpa [wr, aWr] using hx)
              free := fun h => by simp [lFree] at h }
    · simp only [ord] at ho
      simp only [resA] at h
      obtain ⟨x, σ1, h1, h⟩ := bnd_some h
      have := ret_some h; injection this with e1 e2; subst e1 e2
      have fa := iha.1 _ _ _ ho h1
      exact {
        vars := fun n hn z hz => fa.vars n (by simpa [ids] using hn) z hz
        pure := fun hp => by simp [asg, fa.pure hp]
        cell := fa.cell
        var := fa.var
        asg := fun hn n hn' => fa.asg hn n (by simpa [asg] using hn') }

/-! ### Expressions without addresses -/

theorem free_res (e : X) (m : Nat) (hok : ok e m = true) (hf : addrFree e = true) :
    ∃ Y, ∀ τ, res e τ = some (Y, τ) := by
  have aux : ∀ e, (∀ m, ok e m = true → addrFree e = true → ∃ Y, ∀ τ, res e τ = some (Y, τ)) ∧
      (lFree e = true → ∃ x, ∀ τ, resL e τ = some (x, τ)) ∧
      (∀ m, ok (.addr e) m = true → addrFree (.addr e) = true → ∃ Y, ∀ τ, resA e τ = some (Y, τ)) := by
    intro e
    induction e with
    | int v | hex v => exact ⟨fun _ _ _ => ⟨_, fun τ => rfl⟩, fun h => by simp [lFree] at h, fun _ h => by simp [ok] at h⟩
    | var x => exact ⟨fun _ _ _ => ⟨_, fun τ => rfl⟩, fun _ => ⟨_, fun τ => rfl⟩, fun _ h => by simp [ok] at h⟩
    | deref e => exact ⟨fun _ _ h => by simp [addrFree] at h, fun h => by simp [lFree] at h, fun _ h => by simp [ok] at h⟩
    | index a b iha ihb =>
      refine ⟨fun _ _ h => by simp [addrFree] at h, fun h => by simp [lFree] at h, fun m h1 h2 => ?_⟩
      simp only [ok, Bool.and_eq_true] at h1
      simp only [addrFree, Bool.and_eq_true] at h2
      obtain ⟨Y1, e1⟩ := iha.1 _ h1.1.1.1.2 h2.1
      obtain ⟨Y2, e2⟩ := ihb.1 _ h1.1.1.2 h2.2
      exact ⟨_, fun τ => by simp only [resA, M.bnd, e1, e2]; rfl⟩
    | arrow a off iha =>
      refine ⟨fun _ _ h => by simp [addrFree] at h, fun h => by simp [lFree] at h, fun m h1 h2 => ?_⟩
      simp only [ok, Bool.and_eq_true] at h1
      simp only [addrFree] at h2
      obtain ⟨Y1, e1⟩ := iha.1 _ h1.1.2 h2
      exact ⟨_, fun τ => by simp only [resA, M.bnd, e1]; rfl⟩
    | plus e ih | parens e ih =>
      refine ⟨fun m h1 h2 => ?_, fun h => by simp [lFree] at h, fun _ h => by simp [ok] at h⟩
      simpa [res] using ih.1 m (by simpa [ok] using h1) (by simpa [addrFree] using h2)
    | cast e ih =>
      refine ⟨fun m h1 h2 => ?_, fun h => ?_, fun _ h => by simp [ok] at h⟩
      · simpa [res] using ih.1 m (by simpa [ok] using h1) (by simpa [addrFree] using h2)
      · simpa [resL] using ih.2.1 (by simpa [lFree] using h)
    | neg e ih =>
      refine ⟨fun m h1 h2 => ?_, fun h => by simp [lFree] at h, fun _ h => by simp [ok] at h⟩
      have : ∃ m, ok e m = true := by
        simp only [ok, Bool.or_eq_true, Bool.and_eq_true] at h1
        rcases h1 with h | h
        · cases e <;> simp [isInt] at h
          exact ⟨0, rfl⟩
        · exact ⟨0, h.1⟩
      obtain ⟨m', h1⟩ := this
      obtain ⟨Y, hY⟩ := ih.1 m' h1 (by simpa [addrFree] using h2)
      exact ⟨_, fun τ => by simp only [res, M.bnd, hY]; rfl⟩
    | bnot e ih | lnot e ih =>
      refine ⟨fun m h1 h2 => ?_, fun h => by simp [lFree] at h, fun _ h => by simp [ok] at h⟩
      simp only [ok, Bool.and_eq_true] at h1
      obtain ⟨Y, hY⟩ := ih.1 0 h1.2 (by simpa [addrFree] using h2)
      exact ⟨_, fun τ => by simp only [res, M.bnd, hY]; rfl⟩
    | preinc l ih | predec l ih | postinc l ih | postdec l ih =>
      refine ⟨fun m h1 h2 => ?_, fun h => by simp [lFree] at h, fun _ h => by simp [ok] at h⟩
      obtain ⟨x, hx⟩ := ih.2.1 (by simpa [addrFree] using h2)
      exact ⟨_, fun τ => by simp only [res, M.bnd, hx]; rfl⟩
    | addr l ih =>
      refine ⟨fun m h1 h2 => ?_, fun h => by simp [lFree] at h, fun _ h => by simp [ok] at h⟩
      simpa [res] using ih.2.2 m h1 h2
    | bin q a b iha ihb | comma a b iha ihb =>
      refine ⟨fun m h1 h2 => ?_, fun h => by simp [lFree] at h, fun _ h => by simp [ok] at h⟩
      simp only [addrFree, Bool.and_eq_true] at h2
      simp only [ok, Bool.and_eq_true] at h1
      obtain ⟨Y1, e1⟩ := iha.1 _ (by first | exact h1.1.1.2 | exact h1.1) h2.1
      obtain ⟨Y2, e2⟩ := ihb.1 _ (by first | exact h1.1.2 | exact h1.2) h2.2
      exact ⟨_, fun τ => by simp only [res, M.bnd, e1, e2]; rfl⟩
    | cond c a b ihc iha ihb =>
      refine ⟨fun m h1 h2 => ?_, fun h => by simp [lFree] at h, fun _ h => by simp [ok] at h⟩
      simp only [addrFree, Bool.and_eq_true] at h2
      simp only [ok, Bool.and_eq_true] at h1
      obtain ⟨Y0, e0⟩ := ihc.1 _ h1.1.1 h2.1.1
      obtain ⟨Y1, e1⟩ := iha.1 _ h1.1.2 h2.1.2
      obtain ⟨Y2, e2⟩ := ihb.1 _ h1.2 h2.2
      exact ⟨_, fun τ => by simp only [res, M.bnd, e0, e1, e2]; rfl⟩
    | assign q l e ihl ihe =>
      refine ⟨fun m h1 h2 => ?_, fun h => by simp [lFree] at h, fun _ h => by simp [ok] at h⟩
      simp only [addrFree, Bool.and_eq_true] at h2
      simp only [ok, Bool.and_eq_true] at h1
      obtain ⟨x, e1⟩ := ihl.2.1 h2.1
      obtain ⟨Y2, e2⟩ := ihe.1 _ h1.1.2 h2.2
      exact ⟨_, fun τ => by simp only [res, M.bnd, e1, e2]; rfl⟩
  exact (aux e).1 m hok hf

end Verif.Arith
