import Verif.IfMask.Spec
namespace Verif.IfMask
open Verif Spec

/-- arithmetic after optional reduction of projections -/
local macro "so" : tactic => `(tactic| first | omega | (simp only; omega))

theorem run_append (s : St) (a b : List Ev) :
    run s (a ++ b) = (run s a).bind fun s' => run s' b := by
  induction a generalizing s with
  | nil => simp [run]
  | cons e es ih =>
    simp only [List.cons_append, run]
    cases step s e <;> simp [ih]

/-- States that agree on everything a caller can observe: the live part of the stack included. -/
structure Same (s s' : St) : Prop where
  ix : s'.ix = s.ix
  mask : s'.mask = s.mask
  executed : s'.executed = s.executed
  stack : ∀ x, x < s.ix → s'.stack x = s.stack x

theorem Same.refl (s : St) : Same s s := ⟨rfl, rfl, rfl, fun _ _ => rfl⟩
theorem Same.trans {a b c : St} (h : Same a b) (h' : Same b c) : Same a c :=
  ⟨h'.ix.trans h.ix, h'.mask.trans h.mask, h'.executed.trans h.executed,
   fun x hx => (h'.stack x (by rw [h.ix]; exact hx)).trans (h.stack x hx)⟩

theorem head_step {s : St} {h : Head} (ht : match h with | .ifc c => Cond.Total c | _ => True)
    (hix : s.ix + 1 < IFDEF_DEPTH_MAX) :
    ∃ b, h.holds s.macros = some b ∧
      step s h.ev = .ok { s with stack := upd (upd s.stack s.ix s.mask) (s.ix + 1) s.executed,
                                  ix := s.ix + 2, mask := s.mask && b, executed := s.mask && b } := by
  have h1 : ¬ s.ix ≥ IFDEF_DEPTH_MAX := by omega
  have h2 : ¬ s.ix + 1 ≥ IFDEF_DEPTH_MAX := by omega
  cases h with
  | ifdef n => exact ⟨_, rfl, by simp [Head.ev, step, push, h1, h2]⟩
  | ifndef n => exact ⟨_, rfl, by simp [Head.ev, step, push, h1, h2]⟩
  | ifc c =>
    have := ht s.macros
    cases hc : c s.macros with
    | none => exact absurd hc this
    | some b => exact ⟨b, by simp [Head.holds, hc], by simp [Head.ev, step, push, h1, h2, hc]⟩

mutual
/-- A masked source leaves no trace. -/
theorem src_off (p : Src) (s : St) (ht : p.Total) (hd : s.ix + 2 * p.depth ≤ IFDEF_DEPTH_MAX)
    (hm : s.mask = false) :
    ∃ s', run s p.lines = .ok s' ∧ Same s s' ∧ s'.out = s.out ∧ s'.macros = s.macros := by
  cases p with
  | nil => exact ⟨s, by simp [Src.lines, run], Same.refl s, rfl, rfl⟩
  | tok a r =>
    simp only [Src.Total, Src.depth] at ht hd
    obtain ⟨s', h1, h2⟩ := src_off r s ht hd hm
    exact ⟨s', by simp [Src.lines, run, step, hm, h1], h2⟩
  | define n r =>
    simp only [Src.Total, Src.depth] at ht hd
    obtain ⟨s', h1, h2⟩ := src_off r s ht hd hm
    exact ⟨s', by simp [Src.lines, run, step, hm, h1], h2⟩
  | undef n r =>
    simp only [Src.Total, Src.depth] at ht hd
    obtain ⟨s', h1, h2⟩ := src_off r s ht hd hm
    exact ⟨s', by simp [Src.lines, run, step, hm, h1], h2⟩
  | group h b t r =>
    simp only [Src.Total, Src.depth] at ht hd
    obtain ⟨ht1, ht2, ht3, ht4⟩ := ht
    obtain ⟨c, -, hst⟩ := head_step (s := s) ht1 (by omega)
    simp only [hm, Bool.false_and] at hst
    obtain ⟨s1, hr1, hs1, ho1, hm1⟩ := src_off b { s with stack := upd (upd s.stack s.ix false) (s.ix + 1) s.executed, ix := s.ix + 2, mask := false, executed := false } ht2 (by so) rfl
    have hpm : prevMask s1 = false := by
      have := hs1.stack s.ix (by simp)
      simp only [prevMask, hs1.ix]
      simp [this, upd, hm]
    obtain ⟨s2, hr2, hix2, hmask2, hex2, hst2, ho2, hm2⟩ := tail_off t s1 ht3
      (by rw [hs1.ix]; so) (by rw [hs1.ix]; simp) hpm
    have hsame : Same s s2 := by
      refine ⟨by rw [hix2, hs1.ix]; simp, ?_, ?_, ?_⟩
      · rw [hmask2, hs1.ix, hs1.stack _ (by simp)]; simp [upd, hm]
      · rw [hex2, hs1.ix, hs1.stack _ (by simp)]; simp [upd]
      · intro x hx
        rw [hst2 x (by rw [hs1.ix]; so), hs1.stack x (by so)]
        simp only [upd]
        rw [if_neg (by omega), if_neg (by omega)]
    obtain ⟨s3, hr3, hs3, ho3, hm3⟩ := src_off r s2 ht4 (by rw [hsame.ix]; omega)
      (by rw [hsame.mask]; exact hm)
    refine ⟨s3, ?_, hsame.trans hs3, ?_, ?_⟩
    · simp only [Src.lines, run, hst, Res.bind_ok, run_append, hr1, hr2, hr3]
    · rw [ho3, ho2, ho1]
    · rw [hm3, hm2, hm1]
/-- The rest of a group whose remaining branches are all masked (the enclosing text is masked):
the mask and executed flags are restored from the stack. -/
theorem tail_off (t : Tail) (s : St) (ht : t.Total)
    (hd : s.ix + 2 * t.depth ≤ IFDEF_DEPTH_MAX + 2)
    (hix : 2 ≤ s.ix) (hpm : prevMask s = false) :
    ∃ s', run s t.lines = .ok s' ∧ s'.ix = s.ix - 2 ∧ s'.mask = s.stack (s.ix - 2) ∧
      s'.executed = s.stack (s.ix - 2 + 1) ∧ (∀ x, x < s.ix → s'.stack x = s.stack x) ∧
      s'.out = s.out ∧ s'.macros = s.macros := by
  cases t with
  | endif =>
    refine ⟨{ s with ix := s.ix - 2, mask := s.stack (s.ix - 2), executed := s.stack (s.ix - 2 + 1) },
      ?_, rfl, rfl, rfl, fun _ _ => rfl, rfl, rfl⟩
    have : ¬ s.ix = 0 := by omega
    simp [Tail.lines, run, step, pop, this]
  | elif c b t =>
    simp only [Tail.Total, Tail.depth] at ht hd
    obtain ⟨hc, hb, ht⟩ := ht
    cases hcv : c s.macros with
    | none => exact absurd hcv (hc _)
    | some v =>
      have hst : step s (.elifc c) = .ok { s with mask := false } := by
        simp [step, hcv, elifStep, hpm]
      obtain ⟨s1, hr1, hs1, ho1, hm1⟩ := src_off b { s with mask := false } hb
        (by so) rfl
      have hpm1 : prevMask s1 = false := by
        have h0 : ¬ s.ix = 0 := by omega
        simp only [prevMask, hs1.ix, Bool.or_eq_false_iff] at *
        refine ⟨hpm.1, ?_⟩
        rw [hs1.stack _ (by so)]; exact hpm.2
      obtain ⟨s2, hr2, hix2, hmask2, hex2, hst2, ho2, hm2⟩ := tail_off t s1 ht
        (by rw [hs1.ix]; so) (by rw [hs1.ix]; exact hix) hpm1
      refine ⟨s2, ?_, by rw [hix2, hs1.ix], ?_, ?_, ?_, by rw [ho2, ho1], by rw [hm2, hm1]⟩
      · simp only [Tail.lines, run, hst, Res.bind_ok, run_append, hr1, hr2]
      · rw [hmask2, hs1.ix, hs1.stack _ (by so)]
      · rw [hex2, hs1.ix, hs1.stack _ (by so)]
      · intro x hx; rw [hst2 x (by rw [hs1.ix]; exact hx), hs1.stack x hx]
  | els b =>
    simp only [Tail.Total, Tail.depth] at ht hd
    have hst : step s .elsed = .ok { s with mask := false } := by simp [step, elseStep, hpm]
    obtain ⟨s1, hr1, hs1, ho1, hm1⟩ := src_off b { s with mask := false } ht
      (by so) rfl
    have h0 : ¬ s1.ix = 0 := by rw [hs1.ix]; so
    have hpop : step s1 .endif = .ok { s1 with ix := s1.ix - 2, mask := s1.stack (s1.ix - 2),
                                               executed := s1.stack (s1.ix - 2 + 1) } := by
      simp [step, pop, h0]
    refine ⟨{ s1 with ix := s1.ix - 2, mask := s1.stack (s1.ix - 2), executed := s1.stack (s1.ix - 2 + 1) }, ?_, ?_, ?_, ?_, ?_, ?_, ?_⟩
    · simp only [Tail.lines, run, hst, Res.bind_ok, run_append, hr1, hpop]
    · simp only [hs1.ix]
    · simp only [hs1.ix]; rw [hs1.stack _ (by so)]
    · simp only [hs1.ix]; rw [hs1.stack _ (by so)]
    · intro x hx; simp only; rw [hs1.stack x hx]
    · simp only; rw [ho1]
    · simp only; rw [hm1]
end

/-- The rest of a group of which a branch was already selected. -/
theorem tail_done (t : Tail) (s : St) (ht : t.Total)
    (hd : s.ix + 2 * t.depth ≤ IFDEF_DEPTH_MAX + 2)
    (hix : 2 ≤ s.ix) (hex : s.executed = true) :
    ∃ s', run s t.lines = .ok s' ∧ s'.ix = s.ix - 2 ∧ s'.mask = s.stack (s.ix - 2) ∧
      s'.executed = s.stack (s.ix - 2 + 1) ∧ (∀ x, x < s.ix → s'.stack x = s.stack x) ∧
      s'.out = s.out ∧ s'.macros = s.macros := by
  induction t using Tail.rec (motive_1 := fun _ => True) generalizing s with
  | nil => trivial
  | tok => trivial
  | define => trivial
  | undef => trivial
  | group => trivial
  | endif =>
    refine ⟨{ s with ix := s.ix - 2, mask := s.stack (s.ix - 2), executed := s.stack (s.ix - 2 + 1) },
      ?_, rfl, rfl, rfl, fun _ _ => rfl, rfl, rfl⟩
    have : ¬ s.ix = 0 := by omega
    simp [Tail.lines, run, step, pop, this]
  | elif c b t _ ih =>
    simp only [Tail.Total, Tail.depth] at ht hd
    obtain ⟨hc, hb, ht⟩ := ht
    cases hcv : c s.macros with
    | none => exact absurd hcv (hc _)
    | some v =>
      have hst : step s (.elifc c) = .ok { s with mask := false } := by
        simp [step, hcv, elifStep, hex]
      obtain ⟨s1, hr1, hs1, ho1, hm1⟩ := src_off b { s with mask := false } hb
        (by so) rfl
      obtain ⟨s2, hr2, hix2, hmask2, hex2, hst2, ho2, hm2⟩ := ih s1 ht
        (by rw [hs1.ix]; so) (by rw [hs1.ix]; exact hix) (by rw [hs1.executed]; exact hex)
      refine ⟨s2, ?_, by rw [hix2, hs1.ix], ?_, ?_, ?_, by rw [ho2, ho1], by rw [hm2, hm1]⟩
      · simp only [Tail.lines, run, hst, Res.bind_ok, run_append, hr1, hr2]
      · rw [hmask2, hs1.ix, hs1.stack _ (by so)]
      · rw [hex2, hs1.ix, hs1.stack _ (by so)]
      · intro x hx; rw [hst2 x (by rw [hs1.ix]; exact hx), hs1.stack x hx]
  | els b _ =>
    simp only [Tail.Total, Tail.depth] at ht hd
    have hst : ∃ e, step s .elsed = .ok { s with mask := false, executed := e } := by
      simp only [step, elseStep, hex]
      split
      · exact ⟨true, by simp⟩
      · exact ⟨true, by simp [← hex]⟩
    obtain ⟨e, hst⟩ := hst
    obtain ⟨s1, hr1, hs1, ho1, hm1⟩ := src_off b { s with mask := false, executed := e } ht
      (by so) rfl
    have h0 : ¬ s1.ix = 0 := by rw [hs1.ix]; so
    have hpop : step s1 .endif = .ok { s1 with ix := s1.ix - 2, mask := s1.stack (s1.ix - 2),
                                               executed := s1.stack (s1.ix - 2 + 1) } := by
      simp [step, pop, h0]
    refine ⟨{ s1 with ix := s1.ix - 2, mask := s1.stack (s1.ix - 2), executed := s1.stack (s1.ix - 2 + 1) }, ?_, ?_, ?_, ?_, ?_, ?_, ?_⟩
    · simp only [Tail.lines, run, hst, Res.bind_ok, run_append, hr1, hpop]
    · simp only [hs1.ix]
    · simp only [hs1.ix]; rw [hs1.stack _ (by so)]
    · simp only [hs1.ix]; rw [hs1.stack _ (by so)]
    · intro x hx; simp only; rw [hs1.stack x hx]
    · simp only; rw [ho1]
    · simp only; rw [hm1]

mutual
/-- An unmasked source yields its selected text. -/
theorem src_on (p : Src) (s : St) (ht : p.Total) (hd : s.ix + 2 * p.depth ≤ IFDEF_DEPTH_MAX)
    (hm : s.mask = true) :
    ∃ s', run s p.lines = .ok s' ∧ Same s s' ∧ s'.out = s.out ++ (p.select s.macros).1 ∧
      s'.macros = (p.select s.macros).2 := by
  cases p with
  | nil => exact ⟨s, by simp [Src.lines, run], Same.refl s, by simp [Src.select], rfl⟩
  | tok a r =>
    simp only [Src.Total, Src.depth] at ht hd
    obtain ⟨s', h1, h2, h3, h4⟩ := src_on r { s with out := s.out ++ [a] } ht hd hm
    refine ⟨s', by simp only [Src.lines, run, step]; rw [if_pos hm]; exact h1, ⟨h2.ix, h2.mask, h2.executed, h2.stack⟩, ?_, ?_⟩
    · rw [h3]; simp [Src.select]
    · rw [h4]; simp [Src.select]
  | define n r =>
    simp only [Src.Total, Src.depth] at ht hd
    obtain ⟨s', h1, h2, h3, h4⟩ := src_on r { s with macros := upd s.macros n true } ht hd hm
    refine ⟨s', by simp only [Src.lines, run, step]; rw [if_pos hm]; exact h1, ⟨h2.ix, h2.mask, h2.executed, h2.stack⟩, ?_, ?_⟩
    · rw [h3]; simp [Src.select]
    · rw [h4]; simp [Src.select]
  | undef n r =>
    simp only [Src.Total, Src.depth] at ht hd
    obtain ⟨s', h1, h2, h3, h4⟩ := src_on r { s with macros := upd s.macros n false } ht hd hm
    refine ⟨s', by simp only [Src.lines, run, step]; rw [if_pos hm]; exact h1, ⟨h2.ix, h2.mask, h2.executed, h2.stack⟩, ?_, ?_⟩
    · rw [h3]; simp [Src.select]
    · rw [h4]; simp [Src.select]
  | group h b t r =>
    simp only [Src.Total, Src.depth] at ht hd
    obtain ⟨ht1, ht2, ht3, ht4⟩ := ht
    obtain ⟨c, hc, hst⟩ := head_step (s := s) ht1 (by omega)
    simp only [hm, Bool.true_and] at hst
    -- the group as a whole
    have key : ∃ s2, ((run { s with stack := upd (upd s.stack s.ix true) (s.ix + 1) s.executed, ix := s.ix + 2, mask := c, executed := c } b.lines).bind fun s1 => run s1 t.lines) = .ok s2 ∧ Same s s2 ∧
        s2.out = s.out ++ (if c then b.select s.macros else t.select s.macros).1 ∧
        s2.macros = (if c then b.select s.macros else t.select s.macros).2 := by
      cases c with
      | true =>
        obtain ⟨s1, hr1, hs1, ho1, hm1⟩ := src_on b { s with stack := upd (upd s.stack s.ix true) (s.ix + 1) s.executed, ix := s.ix + 2, mask := true, executed := true } ht2 (by so) rfl
        obtain ⟨s2, hr2, hix2, hmask2, hex2, hst2, ho2, hm2⟩ := tail_done t s1 ht3
          (by rw [hs1.ix]; so) (by rw [hs1.ix]; simp) hs1.executed
        refine ⟨s2, by rw [hr1]; exact hr2, ⟨by rw [hix2, hs1.ix]; simp, ?_, ?_, ?_⟩, ?_, ?_⟩
        · rw [hmask2, hs1.ix, hs1.stack _ (by simp)]; simp [upd, hm]
        · rw [hex2, hs1.ix, hs1.stack _ (by simp)]; simp [upd]
        · intro x hx
          rw [hst2 x (by rw [hs1.ix]; so), hs1.stack x (by so)]
          simp only [upd]
          rw [if_neg (by omega), if_neg (by omega)]
        · rw [ho2, ho1]; simp
        · rw [hm2, hm1]; simp
      | false =>
        obtain ⟨s1, hr1, hs1, ho1, hm1⟩ := src_off b { s with stack := upd (upd s.stack s.ix true) (s.ix + 1) s.executed, ix := s.ix + 2, mask := false, executed := false } ht2 (by so) rfl
        have hpm : prevMask s1 = true := by
          simp only [prevMask, hs1.ix]
          have := hs1.stack s.ix (by simp)
          simp [this, upd]
        obtain ⟨s2, hr2, hix2, hmask2, hex2, hst2, ho2, hm2⟩ := tail_on t s1 ht3
          (by rw [hs1.ix]; so) (by rw [hs1.ix]; simp) hpm hs1.executed
        refine ⟨s2, by rw [hr1]; exact hr2, ⟨by rw [hix2, hs1.ix]; simp, ?_, ?_, ?_⟩, ?_, ?_⟩
        · rw [hmask2, hs1.ix, hs1.stack _ (by simp)]; simp [upd, hm]
        · rw [hex2, hs1.ix, hs1.stack _ (by simp)]; simp [upd]
        · intro x hx
          rw [hst2 x (by rw [hs1.ix]; so), hs1.stack x (by so)]
          simp only [upd]
          rw [if_neg (by omega), if_neg (by omega)]
        · rw [ho2, ho1, hm1]; simp
        · rw [hm2, hm1]; simp
    obtain ⟨s2, hr2, hs2, ho2, hm2⟩ := key
    obtain ⟨s3, hr3, hs3, ho3, hm3⟩ := src_on r s2 ht4 (by rw [hs2.ix]; omega)
      (by rw [hs2.mask]; exact hm)
    refine ⟨s3, ?_, hs2.trans hs3, ?_, ?_⟩
    · simp only [Src.lines, run, hst, Res.bind_ok, run_append]
      rw [← Res.bind_assoc, hr2]; exact hr3
    · rw [ho3, ho2, hm2]; simp only [Src.select, hc]
      cases c <;> simp
    · rw [hm3, hm2]; simp only [Src.select, hc]
      cases c <;> simp
/-- The rest of a group in unmasked text when no branch was selected so far. -/
theorem tail_on (t : Tail) (s : St) (ht : t.Total)
    (hd : s.ix + 2 * t.depth ≤ IFDEF_DEPTH_MAX + 2)
    (hix : 2 ≤ s.ix) (hpm : prevMask s = true) (hex : s.executed = false) :
    ∃ s', run s t.lines = .ok s' ∧ s'.ix = s.ix - 2 ∧ s'.mask = s.stack (s.ix - 2) ∧
      s'.executed = s.stack (s.ix - 2 + 1) ∧ (∀ x, x < s.ix → s'.stack x = s.stack x) ∧
      s'.out = s.out ++ (t.select s.macros).1 ∧ s'.macros = (t.select s.macros).2 := by
  cases t with
  | endif =>
    refine ⟨{ s with ix := s.ix - 2, mask := s.stack (s.ix - 2), executed := s.stack (s.ix - 2 + 1) },
      ?_, rfl, rfl, rfl, fun _ _ => rfl, by simp [Tail.select], rfl⟩
    have : ¬ s.ix = 0 := by omega
    simp [Tail.lines, run, step, pop, this]
  | elif c b t =>
    simp only [Tail.Total, Tail.depth] at ht hd
    obtain ⟨hc, hb, ht⟩ := ht
    cases hcv : c s.macros with
    | none => exact absurd hcv (hc _)
    | some v =>
      have hst : step s (.elifc c) = .ok { s with executed := v, mask := v } := by
        simp [step, hcv, elifStep, hpm, hex]
      cases v with
      | true =>
        obtain ⟨s1, hr1, hs1, ho1, hm1⟩ := src_on b { s with executed := true, mask := true } hb
          (by so) rfl
        obtain ⟨s2, hr2, hix2, hmask2, hex2, hst2, ho2, hm2⟩ := tail_done t s1 ht
          (by rw [hs1.ix]; so) (by rw [hs1.ix]; exact hix) hs1.executed
        refine ⟨s2, ?_, by rw [hix2, hs1.ix], ?_, ?_, ?_, ?_, ?_⟩
        · simp only [Tail.lines, run, hst, Res.bind_ok, run_append, hr1, hr2]
        · rw [hmask2, hs1.ix, hs1.stack _ (by so)]
        · rw [hex2, hs1.ix, hs1.stack _ (by so)]
        · intro x hx; rw [hst2 x (by rw [hs1.ix]; exact hx), hs1.stack x hx]
        · rw [ho2, ho1]; simp [Tail.select, hcv]
        · rw [hm2, hm1]; simp [Tail.select, hcv]
      | false =>
        obtain ⟨s1, hr1, hs1, ho1, hm1⟩ := src_off b { s with executed := false, mask := false } hb
          (by so) rfl
        have hpm1 : prevMask s1 = true := by
          simp only [prevMask, hs1.ix, Bool.or_eq_true] at *
          rcases hpm with h | h
          · exact Or.inl h
          · right; rw [hs1.stack _ (by so)]; exact h
        obtain ⟨s2, hr2, hix2, hmask2, hex2, hst2, ho2, hm2⟩ := tail_on t s1 ht
          (by rw [hs1.ix]; so) (by rw [hs1.ix]; exact hix) hpm1 hs1.executed
        refine ⟨s2, ?_, by rw [hix2, hs1.ix], ?_, ?_, ?_, ?_, ?_⟩
        · simp only [Tail.lines, run, hst, Res.bind_ok, run_append, hr1, hr2]
        · rw [hmask2, hs1.ix, hs1.stack _ (by so)]
        · rw [hex2, hs1.ix, hs1.stack _ (by so)]
        · intro x hx; rw [hst2 x (by rw [hs1.ix]; exact hx), hs1.stack x hx]
        · rw [ho2, ho1, hm1]; simp [Tail.select, hcv]
        · rw [hm2, hm1]; simp [Tail.select, hcv]
  | els b =>
    simp only [Tail.Total, Tail.depth] at ht hd
    have hst : step s .elsed = .ok { s with mask := true, executed := true } := by
      simp [step, elseStep, hpm, hex]
    obtain ⟨s1, hr1, hs1, ho1, hm1⟩ := src_on b { s with mask := true, executed := true } ht
      (by so) rfl
    have h0 : ¬ s1.ix = 0 := by rw [hs1.ix]; so
    have hpop : step s1 .endif = .ok { s1 with ix := s1.ix - 2, mask := s1.stack (s1.ix - 2),
                                               executed := s1.stack (s1.ix - 2 + 1) } := by
      simp [step, pop, h0]
    refine ⟨{ s1 with ix := s1.ix - 2, mask := s1.stack (s1.ix - 2), executed := s1.stack (s1.ix - 2 + 1) }, ?_, ?_, ?_, ?_, ?_, ?_, ?_⟩
    · simp only [Tail.lines, run, hst, Res.bind_ok, run_append, hr1, hpop]
    · simp only [hs1.ix]
    · simp only [hs1.ix]; rw [hs1.stack _ (by so)]
    · simp only [hs1.ix]; rw [hs1.stack _ (by so)]
    · intro x hx; simp only; rw [hs1.stack x hx]
    · simp only [Tail.select]; rw [ho1]
    · simp only [Tail.select]; rw [hm1]
end

/-- The index stays even and within the array: no out-of-bounds access, whatever the events. -/
theorem run_ix (es : List Ev) (s : St) (h : s.ix % 2 = 0) (h2 : s.ix ≤ IFDEF_DEPTH_MAX) :
    (∃ s', run s es = .ok s' ∧ s'.ix % 2 = 0 ∧ s'.ix ≤ IFDEF_DEPTH_MAX) ∨ run s es = .fatal := by
  induction es generalizing s with
  | nil => exact Or.inl ⟨s, rfl, h, h2⟩
  | cons e es ih =>
    have hpush : ∀ b, (∃ s', push s b = .ok s' ∧ s'.ix % 2 = 0 ∧ s'.ix ≤ IFDEF_DEPTH_MAX) ∨
        push s b = .fatal := by
      intro b
      unfold push
      by_cases hx : s.ix ≥ IFDEF_DEPTH_MAX
      · right; simp [hx]
      · left
        have hx' : s.ix < 20 := by simpa [IFDEF_DEPTH_MAX] using hx
        rw [if_neg hx, if_neg (by simp only [IFDEF_DEPTH_MAX]; omega)]
        exact ⟨_, rfl, by so, by simp only [IFDEF_DEPTH_MAX]; omega⟩
    have hst : (∃ s', step s e = .ok s' ∧ s'.ix % 2 = 0 ∧ s'.ix ≤ IFDEF_DEPTH_MAX) ∨
        step s e = .fatal := by
      cases e with
      | tok a => left; simp only [step]; split <;> exact ⟨_, rfl, h, h2⟩
      | define a => left; simp only [step]; split <;> exact ⟨_, rfl, h, h2⟩
      | undef a => left; simp only [step]; split <;> exact ⟨_, rfl, h, h2⟩
      | ifdef n => exact hpush _
      | ifndef n => exact hpush _
      | ifc c => simp only [step]; split; exact Or.inr rfl; exact hpush _
      | elifc c =>
        simp only [step]; split
        · exact Or.inr rfl
        · left; unfold elifStep; split <;> exact ⟨_, rfl, h, h2⟩
      | elsed => left; simp only [step]; unfold elseStep; split <;> exact ⟨_, rfl, h, h2⟩
      | endif =>
        simp only [step, pop]; split
        · exact Or.inr rfl
        · left; exact ⟨_, rfl, by so, by so⟩
    simp only [run]
    rcases hst with ⟨s', hs, h3, h4⟩ | hs
    · rw [hs]; exact ih s' h3 h4
    · right; rw [hs]; rfl

end Verif.IfMask
