import Verif.Stmt.Proofs
namespace Verif.Stmt
open Verif
variable {σ : Type}

/-- Labels of a `case` group. -/
def St.pats : List Pat → St → List Pat
  | ps, .case_ v s => s.pats (ps ++ [.num v])
  | _, .default_ s => s.pats [.star]
  | ps, _ => ps

theorem pats_match (v : Int) : (s : St) → (ps : List Pat) →
    (s.pats ps).any (Pat.matches v) = (ps.any (Pat.matches v) || s.hasCase v || s.hasDefault)
  | .case_ w s, ps => by
    rw [St.pats, pats_match v s]
    simp only [List.any_append, List.any_cons, List.any_nil, Bool.or_false, Pat.matches, St.hasCase, St.hasDefault]
    cases ps.any (Pat.matches v) <;> cases (v == w) <;> simp
  | .default_ s, ps => by
    rw [St.pats, pats_match v s]
    simp [Pat.matches, St.hasDefault]
  | .empty, ps | .act _, ps | .ite _ _ _, ps | .while_ _ _, ps | .do_ _ _, ps | .for_ _ _ _ _, ps
  | .switch _ _, ps | .switch1 _ _, ps | .break_, ps | .continue_, ps | .ret _, ps | .block _, ps
  | .label _, ps | .goto, ps => by simp [St.pats, St.hasCase, St.hasDefault]

/-- What the compilation of a statement achieves. -/
def Good (I : Interp σ) (s : St) (ei : Bool) (env : List Bind) (tail t tail' : Bool) (ls : List Line) : Prop :=
  t = s.ends ∧ (tail' = true → tail = true ∨ (swflag env = true ∧ t = true)) ∧
  if ei && s.isIte then
    ∃ e : Els, ls = e.lines ∧ e.wf = true ∧ ∀ n x, Rel I env t tail (cexec I n s x) (selse I n e x)
  else
    ∃ b : Shs, ls = b.lines ∧ b.wf = true ∧ ∀ n x, Rel I env t tail (cexec I n s x) (sseq I n b x)

def GoodSeq (I : Interp σ) (b : Sts) (env : List Bind) (start t tail' : Bool) (ls : List Line) : Prop :=
  t = b.ends ∧ (tail' = true → start = true ∨ (swflag env = true ∧ t = true)) ∧
    ∃ c : Shs, ls = c.lines ∧ c.wf = true ∧ ∀ n x, Rel I env t start (cseq I n b x) (sseq I n c x)

def P (I : Interp σ) (s : St) : Prop :=
  s.ok = true → ∀ (sw : Bool) (env : List Bind), (nearSw env = true → sw = true) →
  (∀ ei tail t tail' ls, comp_statement s none ei sw env tail = .ok (t, tail', ls) →
    Good I s ei env tail t tail' ls ∧ (∀ v, s.hasCase v = false) ∧ s.hasDefault = false ∧ s.isCase = false) ∧
  (∀ ps tail t tail' ls, comp_statement s (some ps) false sw env tail = .ok (t, tail', ls) →
    s.pats ps ≠ [] ∧ ∃ l, ls = .pat (s.pats ps) :: l ∧ Good I s false env tail t tail' l)

def Q (I : Interp σ) (b : Sts) : Prop :=
  b.ok = true → ∀ (sw : Bool) (env : List Bind), (nearSw env = true → sw = true) →
  ∀ start t tail' ls, comp_body b sw env start false = .ok (t, tail', ls) → b.isNil = false →
    GoodSeq I b env start t tail' ls

/-- Statements without `case` labels: only the first part is needed. -/
theorem P_of {I : Interp σ} {s : St} (h1 : ∀ v, s.hasCase v = false) (h2 : s.hasDefault = false) (h4 : s.isCase = false)
    (hp : ∀ ps, s.pats ps = ps)
    (hw : ∀ ps ei sw env tail, comp_statement s (some ps) ei sw env tail = withPat (some ps) (comp_statement s none ei sw env tail)
      ∨ comp_statement s (some ps) ei sw env tail = .fatal)
    (h3 : s.ok = true → ∀ (sw : Bool) (env : List Bind), (nearSw env = true → sw = true) →
      ∀ ei tail t tail' ls, comp_statement s none ei sw env tail = .ok (t, tail', ls) → Good I s ei env tail t tail' ls) :
    P I s := by
  intro hok sw env hsw
  refine ⟨fun ei tail t tail' ls h => ⟨h3 hok sw env hsw ei tail t tail' ls h, h1, h2, h4⟩, ?_⟩
  intro ps tail t tail' ls h
  rcases hw ps false sw env tail with hw | hw
  · rw [hw] at h
    rw [hp]
    cases ps with
    | nil => simp [withPat] at h
    | cons p r =>
      refine ⟨by simp, ?_⟩
      simp only [withPat] at h
      rw [Res.bind_eq_ok] at h
      obtain ⟨⟨t1, tl, l⟩, h, h5⟩ := h
      simp only [Res.ok.injEq, Prod.mk.injEq] at h5
      obtain ⟨rfl, rfl, rfl⟩ := h5
      exact ⟨l, rfl, h3 hok sw env hsw false tail _ _ _ h⟩
  · rw [hw] at h; simp at h

theorem Good.simple {I : Interp σ} {s : St} {ei env tail} (ls : List Nat) (hi : s.isIte = false) (he : s.ends = false)
    (h : ∀ n x, cexec I n s x = (I.acts ls x).map fun x => (.norm, x)) :
    Good I s ei env tail false tail (ls.map .simple) := by
  refine ⟨he.symm, fun h => Or.inl h, ?_⟩
  simp only [hi, Bool.and_false, Bool.false_eq_true, if_false]
  refine ⟨simples ls, (simples_lines ls).symm, simples_wf ls, fun n x => ?_⟩
  rw [h, sseq_simples]
  exact Rel.norm _

theorem loop_depth_sw (f : Bool) (env : List Bind) : loop_depth (.sw f :: env) = loop_depth env := rfl

/-- `comp_return`. -/
theorem comp_return_good {I : Interp σ} (ls : List Nat) (ei : Bool) (env : List Bind) (tail : Bool) :
    Good I (.ret ls) ei env tail true (comp_return env tail).1 (ls.map .simple ++ (comp_return env tail).2) := by
  have key : ∃ b : Shs, (comp_return env tail).2 = b.lines ∧ b.wf = true ∧
      ((b = .cons .ret .nil) ∨ ((tail = true ∨ swflag env = true) ∧ ∀ n x, sseq I n b x = some (exitO env, x))) := by
    cases env with
    | nil =>
      cases tail with
      | false => exact ⟨.cons .ret .nil, rfl, rfl, Or.inl rfl⟩
      | true => exact ⟨.nil, rfl, rfl, Or.inr ⟨Or.inl rfl, fun n x => rfl⟩⟩
    | cons e r =>
      cases ht : (tail || switch_tail (e :: r)) with
      | false =>
        refine ⟨.cons .ret .nil, ?_, rfl, Or.inl rfl⟩
        simp only [comp_return]
        rw [ht]
        rfl
      | true =>
        have h1 : tail = true ∨ swflag (e :: r) = true := by
          simpa using ht
        by_cases h2 : loop_depth (e :: r) ≥ 2
        · refine ⟨.cons (.brk (loop_depth (e :: r))) .nil, ?_, rfl, Or.inr ⟨h1, fun n x => ?_⟩⟩
          · simp only [comp_return]; rw [ht]; simp [h2, Shs.lines, Sh.lines]
          · have : loop_depth (e :: r) ≠ 0 := by omega
            simp [sseq, sexec, exitO, this]
        · by_cases h3 : loop_depth (e :: r) = 1
          · refine ⟨.cons (.brk 1) .nil, ?_, rfl, Or.inr ⟨h1, fun n x => ?_⟩⟩
            · simp only [comp_return]; rw [ht]; simp [h2, h3, Shs.lines, Sh.lines]
            · simp [sseq, sexec, exitO, h3]
          · refine ⟨.nil, ?_, rfl, Or.inr ⟨h1, fun n x => ?_⟩⟩
            · simp only [comp_return]; rw [ht]; simp [h2, h3, Shs.lines]
            · have : loop_depth (e :: r) = 0 := by omega
              simp [sseq, exitO, this]
  obtain ⟨b, hb, hwf, hs⟩ := key
  refine ⟨rfl, ?_, ?_⟩
  · intro h
    cases env with
    | nil => cases tail <;> simp_all [comp_return, switch_tail]
    | cons e r =>
      cases e with
      | loop l => cases tail <;> simp_all [comp_return, switch_tail]
      | sw f => cases tail <;> cases f <;> simp_all [comp_return, switch_tail]
  · simp only [St.isIte, Bool.and_false, Bool.false_eq_true, if_false]
    refine ⟨(simples ls).append b, by rw [lines_append, simples_lines, hb], by simp [wf_append, simples_wf, hwf], fun n x => ?_⟩
    rw [cexec, sseq_append, sseq_simples]
    cases I.acts ls x with
    | none => rfl
    | some y =>
      rcases hs with hs | ⟨h1, h2⟩
      · subst hs; exact Or.inl rfl
      · simp only [Option.map_some, Option.bind_some]
        rw [h2]
        refine Or.inr ⟨?_, rfl⟩
        exact h1.imp id fun h => ⟨h, fun _ => rfl⟩

/-- Lines of a loop. -/
theorem comp_loop_eq {c colonCond last step body t tail' ls} (h : comp_loop c colonCond last step body = .ok (t, tail', ls)) :
    ∃ always lb, body = .ok (always, tail', lb) ∧ t = (colonCond && always) ∧
      ls = .whileL c :: fill (lb ++ last ++ step.map .simple) ++ [.done] := by
  rw [comp_loop, Res.bind_eq_ok] at h
  obtain ⟨⟨a, tl, lb⟩, h1, h2⟩ := h
  simp only [Res.ok.injEq, Prod.mk.injEq] at h2
  obtain ⟨rfl, rfl, rfl⟩ := h2
  exact ⟨a, lb, h1, rfl, rfl⟩

theorem Good.shs {I : Interp σ} {s env tail t tail' ls} (h : Good I s false env tail t tail' ls) :
    ∃ b : Shs, ls = b.lines ∧ b.wf = true ∧ ∀ n x, Rel I env t tail (cexec I n s x) (sseq I n b x) := by
  have := h.2.2
  simpa using this

/-- A loop command. -/
theorem sloop_congr (test test' : σ → Option (σ × Bool)) (f g : σ → Option (SO × σ)) (h : ∀ s, f s = g s)
    (h' : ∀ s, test s = test' s) (n : Nat) (s : σ) :
    sloop test f n s = sloop test' g n s := by
  have : f = g := funext h
  have h2 : test = test' := funext h'
  rw [this, h2]

theorem sseq_one (I : Interp σ) (n : Nat) (c : Sh) (x : σ) : sseq I n (.cons c .nil) x = sexec I n c x := by
  rw [sseq]
  rcases sexec I n c x with _ | ⟨o, y⟩
  · rfl
  · cases o <;> rfl

/-- A block that is not a block of `{`…`}` of zero statements. -/
theorem comp_body_nil (sw env start) : comp_body .nil sw env start false = .ok (false, false, []) := rfl

/-- The body of a `switch`, between two groups (`inCase = false`). -/
def QS (I : Interp σ) (b : Sts) : Prop :=
  b.ok = true → defaultLast b = true → ∀ (env : List Bind) (f : Bool),
  (∀ tail t tail' ls, comp_switch_body b false (.sw f :: env) tail = .ok (t, tail', ls) →
    (tail' = true → tail = true ∨ f = true) ∧
    ∃ c : Cases, ls = c.lines ∧ c.wf = true ∧
      (∀ n v x, b.any (St.hasCase v) = true → ∃ t, Rel I (.sw f :: env) t false (cfrom I n (St.hasCase v) b x) (scases I n v c x)) ∧
      (∀ n v x, b.any (St.hasCase v) = false → ∃ t, Rel I (.sw f :: env) t false (cfrom I n St.hasDefault b x) (scases I n v c x))) ∧
  (∀ tail' ls t, comp_switch_body b true (.sw f :: env) false = .ok (t, tail', ls) →
    (tail' = true → f = true) ∧
    ∃ (d : Shs) (c : Cases), ls = d.lines ++ .dsemi :: c.lines ∧ d.wf = true ∧ c.wf = true ∧
      (∀ n x, ∃ t, Rel I (.sw f :: env) t false (cseq I n b x) (sseq I n d x)) ∧
      (∀ n v x, b.any (St.hasCase v) = true → ∃ t, Rel I (.sw f :: env) t false (cfrom I n (St.hasCase v) b x) (scases I n v c x)) ∧
      (∀ n v x, b.any (St.hasCase v) = false → ∃ t, Rel I (.sw f :: env) t false (cfrom I n St.hasDefault b x) (scases I n v c x)))

/-- Statement `s` of a group followed by the rest of the group. -/
theorem group_rel {I : Interp σ} {env : List Bind} {n : Nat} {s : St} {r : Sts} {t : Bool} {b : Shs} {d : Shs}
    (h : ∀ x, Rel I env t false (cexec I n s x) (sseq I n b x))
    (hd : t = false → ∀ x, ∃ t, Rel I env t false (cseq I n r x) (sseq I n d x)) (x : σ) :
    ∃ t', Rel I env t' false ((cexec I n s x).bind fun (o, s) => match o with | .norm => cseq I n r s | o => some (o, s))
      (if t then sseq I n b x else sseq I n (b.append d) x) := by
  cases t with
  | true => exact ⟨true, Rel.stop (h x)⟩
  | false =>
    simp only [Bool.false_eq_true, if_false]
    rw [sseq_append]
    have := h x
    cases hc : cexec I n s x with
    | none => rw [hc] at this; exact ⟨true, by simp only [Rel] at this; rw [this]; rfl⟩
    | some q =>
      obtain ⟨o, y⟩ := q
      rw [hc] at this
      cases o with
      | norm =>
        obtain ⟨t', ht⟩ := hd rfl y
        refine ⟨t', ?_⟩
        rw [this.2]
        exact ht
      | brk =>
        refine ⟨true, ?_⟩
        have h2 := Rel.seq (t := true) (tail := false) (f := fun s => none) (g := fun s => none) this (fun s => rfl)
        have h3 := Rel.seq (t := true) (tail := false) (f := fun s => none) (g := fun y => sseq I n d y) this
        cases env with
        | nil => exact this.elim
        | cons e r =>
          cases e with
          | loop l => simp only [Rel] at this; rw [this]; rfl
          | sw f => simp [Rel] at this
      | cont =>
        refine ⟨true, ?_⟩
        simp only [Rel] at this
        simp only [Option.bind_some, Rel]
        cases hl : lookup_loop env with
        | none => rw [hl] at this; exact this.elim
        | some l =>
          rw [hl] at this; dsimp only at this ⊢; rw [this]
          cases I.acts l y <;> rfl
      | ret =>
        refine ⟨true, ?_⟩
        rcases this with this | ⟨h1, h2⟩
        · rw [this]; exact Or.inl rfl
        · rw [h2]
          rcases h1 with h1 | ⟨h1, h3⟩
          · simp at h1
          · have hd : loop_depth env ≠ 0 := fun e => by simpa using h3 e
            refine Or.inr ⟨Or.inr ⟨h1, fun e => absurd e hd⟩, ?_⟩
            simp [exitO, hd]

theorem defaultLast_cons {s : St} {r : Sts} (h : defaultLast (.cons s r) = true) :
    defaultLast r = true ∧ (s.hasDefault = true → r.any (fun s => s.hasDefault || s.isCase) = false) := by
  rw [defaultLast] at h
  simp only [Bool.and_eq_true] at h
  refine ⟨h.2, fun hd => ?_⟩
  have := h.1
  rw [hd] at this
  simpa using this

/-- No label: no `case` and no `default`. -/
theorem hasCase_isCase {v : Int} : (s : St) → s.hasCase v = true → (s.hasDefault || s.isCase) = true
  | .case_ _ _, _ => by simp [St.isCase]
  | .default_ _, _ => by simp [St.hasDefault]
  | .empty, h | .act _, h | .ite _ _ _, h | .while_ _ _, h | .do_ _ _, h | .for_ _ _ _ _, h
  | .switch _ _, h | .switch1 _ _, h | .break_, h | .continue_, h | .ret _, h | .block _, h
  | .label _, h | .goto, h => by simp [St.hasCase] at h

theorem any_mono {p q : St → Bool} (h : ∀ s, p s = true → q s = true) : (b : Sts) → b.any p = true → b.any q = true
  | .nil, hb => by simp [Sts.any] at hb
  | .cons s r, hb => by
    simp only [Sts.any, Bool.or_eq_true] at hb ⊢
    exact hb.imp (h s) (any_mono h r)

theorem any_false {p : St → Bool} {s r} (h : Sts.any p (.cons s r) = false) : p s = false ∧ r.any p = false := by
  simpa [Sts.any] using h

end Verif.Stmt
