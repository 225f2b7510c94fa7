import Verif.Stmt.Proofs2
namespace Verif.Stmt
open Verif
variable {σ : Type}

theorem ite_good {I : Interp σ} {c a b sw env} (ha : P I a) (hb : P I b) (hok : (St.ite c a b).ok = true)
    (hsw : nearSw env = true → sw = true) (ei tail t tail' ls)
    (h : comp_statement (.ite c a b) none ei sw env tail = .ok (t, tail', ls)) :
    Good I (.ite c a b) ei env tail t tail' ls := by
  simp only [comp_statement, withPat] at h
  rw [Res.bind_eq_ok] at h
  obtain ⟨⟨t1, tail1, l1⟩, h1, h⟩ := h
  rw [Res.bind_eq_ok] at h
  obtain ⟨⟨t2, tail2, l2⟩, h2, h⟩ := h
  rw [Res.bind_eq_ok] at h
  obtain ⟨t3, h3, h⟩ := h
  simp only [Res.ok.injEq, Prod.mk.injEq] at h
  obtain ⟨rfl, rfl, rfl⟩ := h
  simp only [St.ok, Bool.and_eq_true] at hok
  have g1 := ((ha hok.1 sw env hsw).1 false tail t1 tail1 l1 h1).1
  have g2 := ((hb hok.2 sw env hsw).1 b.isIte tail1 t2 tail2 l2 h2).1
  have hc : (sw && (t1 != t2)) = false ∧ t3 = (t1 && t2) := by
    rw [if_end] at h3
    split at h3
    · simp at h3
    · rename_i hn
      simp only [Res.ok.injEq] at h3
      exact ⟨by simpa using hn, h3.symm⟩
  obtain ⟨hc, rfl⟩ := hc
  obtain ⟨e1, f1, _⟩ := g1.1, g1.2.1, g1.2.2
  obtain ⟨e2, f2⟩ := g2.1, g2.2.1
  obtain ⟨ba, hla, hwa, ra⟩ := g1.shs
  -- the `else` part
  have hels : ∃ e : Els, elsePart b l2 = e.lines ∧ e.wf = true ∧
      ∀ n x, Rel I env t2 tail1 (cexec I n b x) (selse I n e x) := by
    by_cases hi : b.isIte = true
    · have hne : b.isEmpty = false := by cases b <;> simp_all [St.isIte, St.isEmpty]
      have := g2.2.2
      simp only [hi, Bool.and_self, if_true] at this
      obtain ⟨e, he, hw, hr⟩ := this
      exact ⟨e, by simp [elsePart, hne, hi, he], hw, hr⟩
    · have hi : b.isIte = false := by simpa using hi
      rw [hi] at g2
      obtain ⟨bb, hlb, hwb, rb⟩ := g2.shs
      by_cases hem : b.isEmpty = true
      · refine ⟨.none, by simp [elsePart, hem, Els.lines], rfl, fun n x => ?_⟩
        have : cexec I n b x = some (.norm, x) := by
          unfold St.isEmpty at hem
          split at hem
          · rw [cexec]
          · rw [cexec, cseq]
          · simp at hem
        have hr := rb n x
        rw [this] at hr ⊢
        exact ⟨hr.1, rfl⟩
      · refine ⟨.els (fillS bb), ?_, ?_, fun n x => ?_⟩
        · simp [elsePart, hem, hi, Els.lines, fillS_lines, hlb]
        · simp [Els.wf, fillS_notNil, fillS_wf bb hwb]
        · rw [selse, sseq_fillS]; exact rb n x
  obtain ⟨e, hle, hwe, re⟩ := hels
  refine ⟨by rw [St.ends, e1, e2], ?_, ?_⟩
  · intro ht
    rcases f2 ht with h | ⟨h, h5⟩
    · rcases f1 h with h | ⟨h, h4⟩
      · exact Or.inl h
      · have := hsw (nearSw_of_swflag h)
        subst this
        refine Or.inr ⟨h, ?_⟩
        have : t1 = t2 := by simpa using hc
        simp [h4, ← this]
    · have := hsw (nearSw_of_swflag h)
      subst this
      have : t1 = t2 := by simpa using hc
      exact Or.inr ⟨h, by simp [h5, this]⟩
  have hrel : ∀ n x, Rel I env (t1 && t2) tail (cexec I n (.ite c a b) x)
      ((I.test c x).bind fun (s, v) => if v then sseq I n (fillS ba) s else selse I n e s) := by
    intro n x
    rw [cexec]
    rcases I.test c x with _ | ⟨y, v⟩
    · rfl
    · cases v with
      | true => simp only [Option.bind_some, if_true]; rw [sseq_fillS]; exact Rel.ite' hsw hc (ra n y)
      | false => exact Rel.ite hsw hc f1 (re n y)
  have hwf : (fillS ba).wf = true := fillS_wf ba hwa
  cases ei with
  | true =>
    simp only [St.isIte, Bool.and_self, if_true]
    refine ⟨.elif c (fillS ba) e, ?_, ?_, ?_⟩
    · simp [Els.lines, fillS_lines, hla, hle]
    · simp [Els.wf, fillS_notNil, hwf, hwe]
    · intro n x; rw [selse]; exact hrel n x
  | false =>
    simp only [Bool.false_and, Bool.false_eq_true, if_false]
    refine ⟨.cons (.ite c (fillS ba) e) .nil, ?_, ?_, ?_⟩
    · simp [Shs.lines, Sh.lines, fillS_lines, hla, hle]
    · simp [Shs.wf, Sh.wf, fillS_notNil, hwf, hwe]
    · intro n x; rw [sseq_one, sexec]; exact hrel n x

/-- The loops. -/
theorem loop_good {I : Interp σ} {s b : St} {sw env} (hP : P I b) (hok : b.ok = true)
    (hi : s.isIte = false) (hsw : nearSw env = true → sw = true)
    {c : Option Nat} {colonCond : Bool} {last : List Line} {lastS : Shs} {step : List Nat} {ei tail t tail' ls}
    (hl : last = lastS.lines) (hlw : lastS.wf = true)
    (h : comp_loop c colonCond last step (comp_statement b none false sw (.loop step :: env) tail) = .ok (t, tail', ls))
    (he : s.ends = (colonCond && b.ends))
    (hrel : ∀ tb, tb = b.ends → ∀ bb : Shs,
      (∀ n x, Rel I (.loop step :: env) tb tail (cexec I n b x) (sseq I n bb x)) →
      ∀ n x, Rel I env (colonCond && tb) tail (cexec I n s x) (sseq I n (.cons (.while_ c (fillS ((bb.append lastS).append (simples step)))) .nil) x)) :
    Good I s ei env tail t tail' ls := by
  obtain ⟨always, lb, h1, rfl, rfl⟩ := comp_loop_eq h
  have g := ((hP hok sw (.loop step :: env) (by simp [nearSw])).1 false tail always tail' lb h1).1
  obtain ⟨bb, hlb, hwb, rb⟩ := g.shs
  refine ⟨by rw [he, g.1], ?_, ?_⟩
  · intro ht
    rcases g.2.1 ht with h | ⟨h, _⟩
    · exact Or.inl h
    · simp [switch_tail] at h
  · simp only [hi, Bool.and_false, Bool.false_eq_true, if_false]
    refine ⟨.cons (.while_ c (fillS ((bb.append lastS).append (simples step)))) .nil, ?_, ?_, hrel always g.1 bb rb⟩
    · simp [Shs.lines, Sh.lines, fillS_lines, lines_append, simples_lines, hl, hlb]
    · have := fillS_wf ((bb.append lastS).append (simples step)) (by simp [wf_append, hwb, hlw, simples_wf])
      simp [Shs.wf, Sh.wf, fillS_notNil, this]

theorem append_nil (b : Shs) : b.append .nil = b := by
  match b with
  | .nil => rfl
  | .cons c r => rw [Shs.append, append_nil r]

theorem sseq_step (I : Interp σ) (n : Nat) (b : Shs) (step : List Nat) (x : σ) :
    sseq I n (fillS ((b.append .nil).append (simples step))) x =
      (sseq I n b x).bind fun (o, s) => match o with | .norm => (I.acts step s).map fun s => (.norm, s) | o => some (o, s) := by
  rw [sseq_fillS, append_nil, sseq_append]
  congr 1
  funext ⟨o, s⟩
  cases o <;> simp [sseq_simples]

theorem while_good {I : Interp σ} {c b sw env} (hP : P I b) (hok : (St.while_ c b).ok = true)
    (hsw : nearSw env = true → sw = true) (ei tail t tail' ls)
    (h : comp_statement (.while_ c b) none ei sw env tail = .ok (t, tail', ls)) :
    Good I (.while_ c b) ei env tail t tail' ls := by
  simp only [comp_statement, withPat] at h
  refine loop_good (lastS := .nil) hP (by simpa [St.ok] using hok) rfl hsw rfl rfl h (by simp [St.ends]) ?_
  intro tb _ bb hb n x
  rw [cexec, sseq_one, sexec]
  have := Rel.while (l := []) (test := I.test c) (t := false) (hb n) (by simp) n x
  rw [sloop_congr _ (I.test c) _ _ (sseq_step I n bb []) (fun s => rfl)]
  exact this

theorem for_good {I : Interp σ} {init c step b sw env} (hP : P I b) (hok : (St.for_ init c step b).ok = true)
    (hsw : nearSw env = true → sw = true) (ei tail t tail' ls)
    (h : comp_statement (.for_ init c step b) none ei sw env tail = .ok (t, tail', ls)) :
    Good I (.for_ init c step b) ei env tail t tail' ls := by
  simp only [comp_statement, withPat] at h
  rw [Res.bind_eq_ok] at h
  obtain ⟨⟨t1, tl, l1⟩, h, h2⟩ := h
  simp only [Res.ok.injEq, Prod.mk.injEq] at h2
  obtain ⟨rfl, rfl, rfl⟩ := h2
  simp only [St.ok, Bool.and_eq_true] at hok
  have he : (St.for_ init c step b).ends = (c.isNone && b.ends) := by cases c <;> simp [St.ends]
  have hends : (St.for_ [] c step b).ends = (c.isNone && b.ends) := by cases c <;> simp [St.ends]
  have g : Good I (.for_ [] c step b) ei env tail t1 tl l1 := by
    refine loop_good (lastS := .nil) hP hok.2 rfl hsw rfl rfl h hends ?_
    intro tb htb bb hb n x
    rw [sseq_one]
    unfold sexec cexec
    rw [Interp.acts, Option.bind_some]
    rw [sloop_congr _ _ _ _ (sseq_step I n bb step) (fun s => rfl)]
    refine Rel.while (hb n) ?_ n x
    intro ht
    simp only [Bool.and_eq_true] at ht
    obtain ⟨ht1, ht2⟩ := ht
    cases c with
    | some c => simp at ht1
    | none =>
      refine ⟨by simp, fun s s' => no_brk I n b ?_ s s'⟩
      have h3 := hok.1
      rw [← htb, ht2] at h3
      simpa using h3
  refine ⟨by rw [he, ← hends]; exact g.1, g.2.1, ?_⟩
  have g3 := g.2.2
  simp only [St.isIte, Bool.and_false, Bool.false_eq_true, if_false] at g3 ⊢
  obtain ⟨bb, hl, hw, hr⟩ := g3
  refine ⟨(simples init).append bb, by rw [lines_append, simples_lines, hl], by simp [wf_append, simples_wf, hw], fun n x => ?_⟩
  rw [sseq_append, sseq_simples]
  have e : cexec I n (.for_ init c step b) x = (I.acts init x).bind fun y => cexec I n (.for_ [] c step b) y := by
    unfold cexec
    simp [Interp.acts]
  rw [e]
  cases I.acts init x with
  | none => rfl
  | some y => exact hr n y

theorem do_good {I : Interp σ} {c b sw env} (hP : P I b) (hok : (St.do_ b c).ok = true)
    (hsw : nearSw env = true → sw = true) (ei tail t tail' ls)
    (h : comp_statement (.do_ b c) none ei sw env tail = .ok (t, tail', ls)) :
    Good I (.do_ b c) ei env tail t tail' ls := by
  simp only [comp_statement, withPat] at h
  simp only [St.ok, Bool.and_eq_true] at hok
  refine loop_good (lastS := .cons (.orBreak c) .nil) hP hok.2 rfl hsw rfl rfl h (by simp [St.ends]) ?_
  intro tb _ bb hb n x
  rw [cexec, sseq_one, sexec]
  have := Rel.do (test := I.test c) (hb n) (fun s s' => no_cont I n b (by simpa using hok.1) s s') n x
  rw [sloop_congr _ (fun s => some (s, true)) _ _ (fun s => ?_) (fun s => rfl)]
  · exact this
  · rw [sseq_fillS, simples, append_nil, sseq_append]
    congr 1
    funext ⟨o, s⟩
    cases o <;> simp [sseq_one, sexec]

theorem switch_body_nil {I : Interp σ} : QS I .nil := by
  intro _ _ env f
  refine ⟨?_, ?_⟩
  · intro tail t tail' ls h
    simp only [comp_switch_body, Res.ok.injEq, Prod.mk.injEq] at h
    obtain ⟨rfl, rfl, rfl⟩ := h
    refine ⟨fun h => Or.inl h, .nil, rfl, rfl, ?_, ?_⟩
    · intro n v x h; simp [Sts.any] at h
    · intro n v x _; exact ⟨false, rfl, rfl⟩
  · intro tail' ls t h
    simp only [comp_switch_body, Res.ok.injEq, Prod.mk.injEq] at h
    obtain ⟨rfl, rfl, rfl⟩ := h
    refine ⟨by simp, .nil, .nil, rfl, rfl, rfl, ?_, ?_, ?_⟩
    · intro n x; exact ⟨false, rfl, rfl⟩
    · intro n v x h; simp [Sts.any] at h
    · intro n v x _; exact ⟨false, rfl, rfl⟩

theorem switch_body_cons {I : Interp σ} {s : St} {r : Sts} (hs : P I s) (hr : QS I r) : QS I (.cons s r) := by
  intro hok hdl env f
  simp only [Sts.ok, Bool.and_eq_true] at hok
  obtain ⟨hdl2, hd⟩ := defaultLast_cons hdl
  have hsw : nearSw (.sw f :: env) = true → true = true := fun _ => rfl
  have hP := hs hok.1 true (.sw f :: env) hsw
  obtain ⟨hr1, hr2⟩ := hr hok.2 hdl2 env f
  refine ⟨?_, ?_⟩
  · -- a new group
    intro tail t tail' ls h
    simp only [comp_switch_body, Bool.false_eq_true, if_false, Bool.false_and] at h
    rw [Res.bind_eq_ok] at h
    obtain ⟨⟨t1, tail1, l1⟩, h1, h⟩ := h
    rw [Res.bind_eq_ok] at h
    obtain ⟨⟨t2, tail2, l2⟩, h2, h⟩ := h
    simp only [Res.ok.injEq, Prod.mk.injEq] at h
    obtain ⟨rfl, rfl, rfl⟩ := h
    obtain ⟨hne, l, rfl, g⟩ := hP.2 [] false t1 tail1 l1 h1
    obtain ⟨b, hl, hw, rel⟩ := g.shs
    have htail : tail1 = true → f = true ∧ t1 = true := fun h => by
      have := g.2.1 h
      simpa [switch_tail] using this
    have hpm := fun v => pats_match v s []
    -- the commands of the group and the following groups
    obtain ⟨d, c, hl2, hwd, hwc, hseq, hc1, hc2, htl⟩ :
        ∃ (d : Shs) (c : Cases), l ++ (if t1 then [.dsemi] else []) ++ l2 = (if t1 then b else b.append d).lines ++ .dsemi :: c.lines ∧
          d.wf = true ∧ c.wf = true ∧
          (t1 = false → ∀ n x, ∃ t, Rel I (.sw f :: env) t false (cseq I n r x) (sseq I n d x)) ∧
          (∀ n v x, r.any (St.hasCase v) = true → ∃ t, Rel I (.sw f :: env) t false (cfrom I n (St.hasCase v) r x) (scases I n v c x)) ∧
          (∀ n v x, r.any (St.hasCase v) = false → ∃ t, Rel I (.sw f :: env) t false (cfrom I n St.hasDefault r x) (scases I n v c x)) ∧
          (tail2 = true → f = true) := by
      cases t1 with
      | true =>
        obtain ⟨ht, c, hlc, hwc, hc1, hc2⟩ := hr1 _ _ _ _ h2
        refine ⟨.nil, c, by simp [hl, hlc], rfl, hwc, by simp, hc1, hc2, fun h => ?_⟩
        rcases ht h with h | h
        · exact (htail h).1
        · exact h
      | false =>
        have : tail1 = false := by
          cases tail1 with
          | false => rfl
          | true => simpa using (htail rfl).2
        subst this
        obtain ⟨ht, d, c, hlc, hwd, hwc, hsq, hc1, hc2⟩ := hr2 _ _ _ h2
        exact ⟨d, c, by simp [hl, hlc, lines_append], hwd, hwc, fun _ => hsq, hc1, hc2, ht⟩
    refine ⟨fun h => Or.inr (htl h), .cons (s.pats []) (if t1 then b else b.append d) c, ?_, ?_, ?_, ?_⟩
    · simp only [Cases.lines, List.cons_append]
      exact congrArg _ hl2
    · simp only [Cases.wf, Bool.and_eq_true, hwc, and_true]
      refine ⟨by simpa using hne, ?_⟩
      cases t1 <;> simp [wf_append, hw, hwd]
    all_goals
      intro n v x hv
      have hgroup : ∃ t', Rel I (.sw f :: env) t' false ((cexec I n s x).bind fun (o, s) => match o with | .norm => cseq I n r s | o => some (o, s))
          (sseq I n (if t1 then b else b.append d) x) := by
        obtain ⟨t', h'⟩ := group_rel (r := r) (d := d) (rel n) (fun h => hseq h n) x
        refine ⟨t', ?_⟩
        cases t1 <;> exact h'
      rw [cfrom, scases, hpm v]
      simp only [List.any_nil, Bool.false_or]
    · by_cases hcv : s.hasCase v = true
      · simp only [hcv, if_true, Bool.true_or]; exact hgroup
      · simp only [Sts.any, hcv, Bool.false_or] at hv
        have hdf : s.hasDefault = false := by
          cases hh : s.hasDefault with
          | false => rfl
          | true =>
            have h8 := any_mono (p := St.hasCase v) (q := fun s => s.hasDefault || s.isCase) (fun s h => hasCase_isCase s h) r hv
            rw [hd hh] at h8; simp at h8
        simp only [hcv, hdf, Bool.false_eq_true, if_false, Bool.or_self]
        exact hc1 n v x hv
    · obtain ⟨hcv, hv⟩ := any_false hv
      by_cases hh : s.hasDefault = true
      · simp only [hh, if_true, Bool.or_true]; exact hgroup
      · simp only [hcv, hh, Bool.false_eq_true, if_false, Bool.or_self]
        exact hc2 n v x hv
  · -- inside a group
    intro tail' ls t h
    simp only [comp_switch_body, if_true, Bool.and_false] at h
    rw [Res.bind_eq_ok] at h
    obtain ⟨⟨t1, tail1, l1⟩, h1, h⟩ := h
    rw [Res.bind_eq_ok] at h
    obtain ⟨⟨t2, tail2, l2⟩, h2, h⟩ := h
    simp only [Res.ok.injEq, Prod.mk.injEq] at h
    obtain ⟨rfl, rfl, rfl⟩ := h
    obtain ⟨g, hnc, hnd, _⟩ := hP.1 false false t1 tail1 l1 h1
    obtain ⟨b, hl, hw, rel⟩ := g.shs
    have htail : tail1 = true → f = true ∧ t1 = true := fun h => by
      have := g.2.1 h
      simpa [switch_tail] using this
    obtain ⟨d, c, hl2, hwd, hwc, hseq, hc1, hc2, htl⟩ :
        ∃ (d : Shs) (c : Cases), l1 ++ (if t1 then [.dsemi] else []) ++ l2 = (if t1 then b else b.append d).lines ++ .dsemi :: c.lines ∧
          d.wf = true ∧ c.wf = true ∧
          (t1 = false → ∀ n x, ∃ t, Rel I (.sw f :: env) t false (cseq I n r x) (sseq I n d x)) ∧
          (∀ n v x, r.any (St.hasCase v) = true → ∃ t, Rel I (.sw f :: env) t false (cfrom I n (St.hasCase v) r x) (scases I n v c x)) ∧
          (∀ n v x, r.any (St.hasCase v) = false → ∃ t, Rel I (.sw f :: env) t false (cfrom I n St.hasDefault r x) (scases I n v c x)) ∧
          (tail2 = true → f = true) := by
      cases t1 with
      | true =>
        obtain ⟨ht, c, hlc, hwc, hc1, hc2⟩ := hr1 _ _ _ _ h2
        refine ⟨.nil, c, by simp [hl, hlc], rfl, hwc, by simp, hc1, hc2, fun h => ?_⟩
        rcases ht h with h | h
        · exact (htail h).1
        · exact h
      | false =>
        have : tail1 = false := by
          cases tail1 with
          | false => rfl
          | true => simpa using (htail rfl).2
        subst this
        obtain ⟨ht, d, c, hlc, hwd, hwc, hsq, hc1, hc2⟩ := hr2 _ _ _ h2
        exact ⟨d, c, by simp [hl, hlc, lines_append], hwd, hwc, fun _ => hsq, hc1, hc2, ht⟩
    refine ⟨htl, (if t1 then b else b.append d), c, hl2, ?_, hwc, ?_, ?_, ?_⟩
    · cases t1 <;> simp [wf_append, hw, hwd]
    · intro n x
      rw [cseq]
      obtain ⟨t', h'⟩ := group_rel (r := r) (d := d) (rel n) (fun h => hseq h n) x
      refine ⟨t', ?_⟩
      cases t1 <;> exact h'
    · intro n v x hv
      simp only [Sts.any, hnc v, Bool.false_or] at hv
      rw [cfrom, hnc v]
      exact hc1 n v x hv
    · intro n v x hv
      rw [cfrom, hnd]
      exact hc2 n v x (any_false hv).2

theorem switch_good {I : Interp σ} {e b sw env} (hQ : QS I b) (hok : (St.switch e b).ok = true)
    (ei tail t tail' ls) (h : comp_statement (.switch e b) none ei sw env tail = .ok (t, tail', ls)) :
    Good I (.switch e b) ei env tail t tail' ls := by
  simp only [comp_statement, withPat] at h
  split at h
  · simp at h
  · rw [Res.bind_eq_ok] at h
    obtain ⟨⟨t1, tail1, l1⟩, h1, h⟩ := h
    simp only [Res.ok.injEq, Prod.mk.injEq] at h
    obtain ⟨rfl, rfl, rfl⟩ := h
    simp only [St.ok, Bool.and_eq_true] at hok
    obtain ⟨ht, c, hl, hw, hc1, hc2⟩ := (hQ hok.2 hok.1 env tail).1 _ _ _ _ h1
    refine ⟨rfl, fun h => Or.inl ((ht h).elim id id), ?_⟩
    simp only [St.isIte, Bool.and_false, Bool.false_eq_true, if_false]
    refine ⟨.cons (.case_ e c) .nil, by simp [Shs.lines, Sh.lines, hl], by simp [Shs.wf, Sh.wf, hw], fun n x => ?_⟩
    rw [sseq_one, sexec, cexec]
    rcases I.sel e x with _ | ⟨y, v⟩
    · rfl
    · simp only [Option.bind_some]
      cases hv : b.any (St.hasCase v) with
      | true =>
        simp only [target, hv, if_true]
        obtain ⟨t', h'⟩ := hc1 n v y hv
        exact Rel.switch h'
      | false =>
        simp only [target, hv, Bool.false_eq_true, if_false]
        obtain ⟨t', h'⟩ := hc2 n v y hv
        exact Rel.switch h'

theorem switch1_good {I : Interp σ} {e s sw env} (hP : P I s) (hok : (St.switch1 e s).ok = true)
    (ei tail t tail' ls) (h : comp_statement (.switch1 e s) none ei sw env tail = .ok (t, tail', ls)) :
    Good I (.switch1 e s) ei env tail t tail' ls := by
  simp only [comp_statement, withPat] at h
  split at h
  · rw [Res.bind_eq_ok] at h
    obtain ⟨⟨t1, tail1, l1⟩, h1, h⟩ := h
    simp only [Res.ok.injEq, Prod.mk.injEq] at h
    obtain ⟨rfl, rfl, rfl⟩ := h
    simp only [St.ok] at hok
    obtain ⟨hne, l, rfl, g⟩ := (hP hok true (.sw tail :: env) (fun _ => rfl)).2 _ _ _ _ _ h1
    obtain ⟨b, hl, hw, rel⟩ := g.shs
    refine ⟨rfl, fun h => ?_, ?_⟩
    · have := g.2.1 h
      simp [switch_tail] at this
      exact Or.inl this.1
    · simp only [St.isIte, Bool.and_false, Bool.false_eq_true, if_false]
      refine ⟨.cons (.case_ e (.cons (s.pats []) b .nil)) .nil, by simp [Shs.lines, Sh.lines, Cases.lines, hl], ?_, fun n x => ?_⟩
      · simp [Shs.wf, Sh.wf, Cases.wf, hw, hne]
      rw [sseq_one, sexec, cexec]
      rcases I.sel e x with _ | ⟨y, v⟩
      · rfl
      · simp only [Option.bind_some]
        rw [scases, scases, pats_match]
        have ht : target v (.cons s .nil) s = (s.hasCase v || s.hasDefault) := by
          cases hc : s.hasCase v <;> simp [target, Sts.any, hc]
        rw [ht]
        simp only [List.any_nil, Bool.false_or]
        split
        · exact Rel.switch (rel n y)
        · exact ⟨rfl, rfl⟩
  · simp at h

theorem body_cons {I : Interp σ} {s : St} {r : Sts} (hs : P I s) (hr : Q I r) : Q I (.cons s r) := by
  intro hok sw env hsw start t tail' ls h _
  simp only [Sts.ok, Bool.and_eq_true] at hok
  simp only [comp_body] at h
  rw [Res.bind_eq_ok] at h
  obtain ⟨⟨t1, tail1, l1⟩, h1, h⟩ := h
  have g := ((hs hok.1 sw env hsw).1 _ _ _ _ _ h1).1
  obtain ⟨b, hl, hw, rel⟩ := g.shs
  cases r with
  | nil =>
    simp only [Sts.isNil, if_true] at g rel
    have hres : t = t1 ∧ tail' = tail1 ∧ ls = l1 ∨ t1 = false ∧ t = false ∧ tail' = tail1 ∧ ls = l1 := by
      split at h
      · simp only [Res.ok.injEq, Prod.mk.injEq] at h
        rename_i h5
        exact Or.inl ⟨h.1.symm.trans (show t1 = true from h5).symm, h.2.1.symm, h.2.2.symm⟩
      · rename_i h5
        simp only [comp_body, Res.bind_ok, Res.ok.injEq, Prod.mk.injEq] at h
        exact Or.inr ⟨by simpa using h5, h.1.symm, h.2.1.symm, by simpa using h.2.2.symm⟩
    have hres : t = t1 ∧ tail' = tail1 ∧ ls = l1 := by
      rcases hres with h | ⟨h1, h2, h3⟩
      · exact h
      · exact ⟨by rw [h1, h2], h3⟩
    obtain ⟨rfl, rfl, rfl⟩ := hres
    refine ⟨by simp [Sts.ends, g.1], g.2.1, b, hl, hw, fun n x => ?_⟩
    have e : cseq I n (.cons s .nil) x = cexec I n s x := by
      rw [cseq]
      rcases cexec I n s x with _ | ⟨o, y⟩
      · rfl
      · cases o <;> simp [cseq]
    rw [e]; exact rel n x
  | cons s' r' =>
    simp only [Sts.isNil, Bool.false_eq_true, if_false] at g rel
    have htail : tail1 = true → t1 = true := fun h => by
      rcases g.2.1 h with h | h
      · simp at h
      · exact h.2
    split at h
    · rename_i h5
      have h5 : t1 = true := h5
      simp only [Res.ok.injEq, Prod.mk.injEq] at h
      obtain ⟨rfl, rfl, rfl⟩ := h
      subst h5
      refine ⟨by simp [Sts.ends, ← g.1], fun h => ?_, b, hl, hw, fun n x => ?_⟩
      · rcases g.2.1 h with h | h
        · simp at h
        · exact Or.inr h
      · rw [cseq]; exact Rel.weaken (Rel.stop (rel n x))
    · rename_i h5
      have h5 : t1 = false := by simpa using h5
      subst h5
      rw [Res.bind_eq_ok] at h
      obtain ⟨⟨t2, tail2, l2⟩, h2, h⟩ := h
      simp only [Res.ok.injEq, Prod.mk.injEq] at h
      obtain ⟨rfl, rfl, rfl⟩ := h
      have : tail1 = false := by
        cases tail1 with
        | false => rfl
        | true => simpa using htail rfl
      subst this
      obtain ⟨e2, f2, c, hlc, hwc, rc⟩ := hr hok.2 sw env hsw start t2 tail2 l2 h2 rfl
      refine ⟨?_, f2, b.append c, by rw [lines_append, hl, hlc], by simp [wf_append, hw, hwc], fun n x => ?_⟩
      · rw [Sts.ends, ← g.1, Bool.false_or]; exact e2
      · rw [cseq, sseq_append]
        exact Rel.seq (rel n x) (rc n)

mutual
theorem stmt_sound (I : Interp σ) : (s : St) → P I s
  | .empty => P_of (by simp [St.hasCase]) rfl rfl (by simp [St.pats]) (by simp [comp_statement, withPat]) (by
      intro _ sw env hsw ei tail t tail' ls h
      simp only [comp_statement, withPat, Res.ok.injEq, Prod.mk.injEq] at h
      obtain ⟨rfl, rfl, rfl⟩ := h
      exact Good.simple [] rfl rfl (fun n x => by simp [cexec, Interp.acts]))
  | .act l => P_of (by simp [St.hasCase]) rfl rfl (by simp [St.pats]) (by simp [comp_statement, withPat]) (by
      intro _ sw env hsw ei tail t tail' ls h
      simp only [comp_statement, withPat, Res.ok.injEq, Prod.mk.injEq] at h
      obtain ⟨rfl, rfl, rfl⟩ := h
      exact Good.simple l rfl rfl (fun n x => by simp [cexec]))
  | .ite c a b => P_of (by simp [St.hasCase]) rfl rfl (by simp [St.pats]) (by simp [comp_statement, withPat]) (by
      intro hok sw env hsw
      exact ite_good (stmt_sound I a) (stmt_sound I b) hok hsw)
  | .while_ c b => P_of (by simp [St.hasCase]) rfl rfl (by simp [St.pats]) (by simp [comp_statement, withPat]) (by
      intro hok sw env hsw
      exact while_good (stmt_sound I b) hok hsw)
  | .do_ b c => P_of (by simp [St.hasCase]) rfl rfl (by simp [St.pats]) (by simp [comp_statement, withPat]) (by
      intro hok sw env hsw
      exact do_good (stmt_sound I b) hok hsw)
  | .for_ i c st b => P_of (by simp [St.hasCase]) rfl rfl (by simp [St.pats]) (by simp [comp_statement, withPat]) (by
      intro hok sw env hsw
      exact for_good (stmt_sound I b) hok hsw)
  | .switch e b => P_of (by simp [St.hasCase]) rfl rfl (by simp [St.pats]) (by simp [comp_statement, withPat]) (by
      intro hok sw env hsw
      exact switch_good (switch_sound I b) hok)
  | .switch1 e s => P_of (by simp [St.hasCase]) rfl rfl (by simp [St.pats]) (by simp [comp_statement, withPat]) (by
      intro hok sw env hsw
      exact switch1_good (stmt_sound I s) hok)
  | .break_ => P_of (by simp [St.hasCase]) rfl rfl (by simp [St.pats]) (by simp [comp_statement, withPat]) (by
      intro _ sw env hsw ei tail t tail' ls h
      simp only [comp_statement, withPat] at h
      rw [Res.bind_eq_ok] at h
      obtain ⟨l, h1, h⟩ := h
      simp only [Res.ok.injEq, Prod.mk.injEq] at h
      obtain ⟨rfl, rfl, rfl⟩ := h
      refine ⟨rfl, fun h => Or.inl h, ?_⟩
      simp only [St.isIte, Bool.and_false, Bool.false_eq_true, if_false]
      cases env with
      | nil => simp [comp_break] at h1
      | cons e r =>
        cases e with
        | loop lp =>
          simp only [comp_break, Res.ok.injEq] at h1
          subst h1
          exact ⟨.cons (.brk 1) .nil, rfl, rfl, fun n x => by rw [sseq_one, sexec, cexec]; rfl⟩
        | sw f =>
          simp only [comp_break, Res.ok.injEq] at h1
          subst h1
          exact ⟨.nil, rfl, rfl, fun n x => by rw [sseq, cexec]; exact ⟨rfl, rfl⟩⟩)
  | .continue_ => P_of (by simp [St.hasCase]) rfl rfl (by simp [St.pats]) (by simp [comp_statement, withPat]) (by
      intro _ sw env hsw ei tail t tail' ls h
      simp only [comp_statement, withPat] at h
      rw [Res.bind_eq_ok] at h
      obtain ⟨l, h1, h⟩ := h
      simp only [Res.ok.injEq, Prod.mk.injEq] at h
      obtain ⟨rfl, rfl, rfl⟩ := h
      refine ⟨rfl, fun h => Or.inl h, ?_⟩
      simp only [St.isIte, Bool.and_false, Bool.false_eq_true, if_false]
      rw [comp_continue] at h1
      split at h1
      · simp at h1
      · rename_i lp hl
        simp only [Res.ok.injEq] at h1
        subst h1
        refine ⟨(simples lp).append (.cons .cont .nil), by simp [lines_append, simples_lines, Shs.lines, Sh.lines],
          by simp [wf_append, simples_wf, Shs.wf, Sh.wf], fun n x => ?_⟩
        rw [cexec, sseq_append, sseq_simples]
        simp only [Rel, hl]
        cases I.acts lp x <;> simp [sseq_one, sexec])
  | .ret l => P_of (by simp [St.hasCase]) rfl rfl (by simp [St.pats]) (by simp [comp_statement, withPat]) (by
      intro _ sw env hsw ei tail t tail' ls h
      simp only [comp_statement, withPat, Res.ok.injEq, Prod.mk.injEq] at h
      obtain ⟨rfl, rfl, rfl⟩ := h
      exact comp_return_good l ei env tail)
  | .block b => P_of (by simp [St.hasCase]) rfl rfl (by simp [St.pats]) (by simp [comp_statement, withPat]) (by
      intro hok sw env hsw ei tail t tail' ls h
      simp only [comp_statement, withPat] at h
      split at h
      · rename_i hn
        simp only [Res.ok.injEq, Prod.mk.injEq] at h
        obtain ⟨rfl, rfl, rfl⟩ := h
        cases b with
        | nil => exact Good.simple [] rfl rfl (fun n x => by simp [cexec, cseq, Interp.acts])
        | cons => simp [Sts.isNil] at hn
      · rename_i hn
        have g := seq_sound I b (by simpa [St.ok] using hok) sw env hsw tail t tail' ls h (by simpa using hn)
        refine ⟨by rw [St.ends]; exact g.1, g.2.1, ?_⟩
        simp only [St.isIte, Bool.and_false, Bool.false_eq_true, if_false]
        obtain ⟨c, h1, h2, h3⟩ := g.2.2
        exact ⟨c, h1, h2, fun n x => by rw [cexec]; exact h3 n x⟩)
  | .label s => by intro hok; simp [St.ok] at hok
  | .goto => P_of (by simp [St.hasCase]) rfl rfl (by simp [St.pats]) (by simp [comp_statement]) (by
      intro _ sw env hsw ei tail t tail' ls h
      simp [comp_statement] at h)
  | .case_ v s => by
      intro hok sw env hsw
      refine ⟨?_, ?_⟩
      · intro ei tail t tail' ls h; simp [comp_statement] at h
      · intro ps tail t tail' ls h
        simp only [comp_statement] at h
        obtain ⟨h1, l, h2, g⟩ := (stmt_sound I s (by simpa [St.ok] using hok) sw env hsw).2 _ _ _ _ _ h
        refine ⟨by rw [St.pats]; exact h1, l, by rw [St.pats]; exact h2, by rw [St.ends]; exact g.1, g.2.1, ?_⟩
        obtain ⟨b, h3, h4, h5⟩ := g.shs
        simp only [Bool.false_and, Bool.false_eq_true, if_false]
        exact ⟨b, h3, h4, fun n x => by rw [cexec]; exact h5 n x⟩
  | .default_ s => by
      intro hok sw env hsw
      refine ⟨?_, ?_⟩
      · intro ei tail t tail' ls h; simp [comp_statement] at h
      · intro ps tail t tail' ls h
        simp only [comp_statement] at h
        obtain ⟨h1, l, h2, g⟩ := (stmt_sound I s (by simpa [St.ok] using hok) sw env hsw).2 _ _ _ _ _ h
        refine ⟨by rw [St.pats]; exact h1, l, by rw [St.pats]; exact h2, by rw [St.ends]; exact g.1, g.2.1, ?_⟩
        obtain ⟨b, h3, h4, h5⟩ := g.shs
        simp only [Bool.false_and, Bool.false_eq_true, if_false]
        exact ⟨b, h3, h4, fun n x => by rw [cexec]; exact h5 n x⟩
theorem seq_sound (I : Interp σ) : (b : Sts) → Q I b
  | .nil => by intro _ sw env hsw start t tail' ls h hn; simp [Sts.isNil] at hn
  | .cons s r => body_cons (stmt_sound I s) (seq_sound I r)
theorem switch_sound (I : Interp σ) : (b : Sts) → QS I b
  | .nil => switch_body_nil
  | .cons s r => switch_body_cons (stmt_sound I s) (switch_sound I r)
end

end Verif.Stmt
