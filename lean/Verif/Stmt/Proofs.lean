import Verif.Stmt.Spec
namespace Verif.Stmt
open Verif
variable {σ : Type}

/-! ### Sequences of shell commands -/

def Shs.append : Shs → Shs → Shs
  | .nil, b => b
  | .cons c r, b => .cons c (r.append b)

theorem lines_append (a b : Shs) : (a.append b).lines = a.lines ++ b.lines := by
  match a with
  | .nil => simp [Shs.append, Shs.lines]
  | .cons c r => simp [Shs.append, Shs.lines, lines_append r b]

theorem wf_append (a b : Shs) : (a.append b).wf = (a.wf && b.wf) := by
  match a with
  | .nil => simp [Shs.append, Shs.wf]
  | .cons c r => simp [Shs.append, Shs.wf, wf_append r b, Bool.and_assoc]

theorem sseq_append (I : Interp σ) (n : Nat) (a b : Shs) (s : σ) :
    sseq I n (a.append b) s = (sseq I n a s).bind fun (o, s) =>
      match o with
      | .norm => sseq I n b s
      | o => some (o, s) := by
  match a with
  | .nil => simp [Shs.append, sseq]
  | .cons c r =>
    rw [Shs.append, sseq, sseq]
    rcases sexec I n c s with _ | ⟨o, s'⟩
    · rfl
    · cases o <;> simp [sseq_append I n r b]

def simples : List Nat → Shs
  | [] => .nil
  | a :: r => .cons (.simple a) (simples r)

theorem simples_lines (l : List Nat) : (simples l).lines = l.map .simple := by
  induction l with
  | nil => rfl
  | cons a r ih => simp [simples, Shs.lines, Sh.lines, ih]

theorem simples_wf (l : List Nat) : (simples l).wf = true := by
  induction l with
  | nil => rfl
  | cons a r ih => simp [simples, Shs.wf, Sh.wf, ih]

theorem sseq_simples (I : Interp σ) (n : Nat) (l : List Nat) (s : σ) :
    sseq I n (simples l) s = (I.acts l s).map fun s => (.norm, s) := by
  induction l generalizing s with
  | nil => rfl
  | cons a r ih =>
    rw [simples, sseq, sexec, Interp.acts]
    cases I.act a s with
    | none => rfl
    | some s' => simp [ih]

theorem Sh.active (c : Sh) : any_active c.lines = true := by
  cases c <;> simp [Sh.lines, any_active]

theorem any_active_append (a b : List Line) : any_active (a ++ b) = (any_active a || any_active b) := by
  simp [any_active]

theorem Shs.active (b : Shs) : any_active b.lines = !b.isNil := by
  cases b with
  | nil => rfl
  | cons c r => simp [Shs.lines, any_active_append, Sh.active, Shs.isNil]

/-- The body with the `:` that replaces an empty one. -/
def fillS (b : Shs) : Shs := if b.isNil then .cons .colon .nil else b

theorem fillS_lines (b : Shs) : (fillS b).lines = fill b.lines := by
  rw [fillS, fill, Shs.active]
  cases b <;> simp [Shs.isNil, Shs.lines, Sh.lines]

theorem fillS_wf (b : Shs) (h : b.wf = true) : (fillS b).wf = true := by
  rw [fillS]; split
  · rfl
  · exact h

theorem fillS_notNil (b : Shs) : (fillS b).isNil = false := by
  rw [fillS]; split
  · rfl
  · simp_all

theorem sseq_fillS (I : Interp σ) (n : Nat) (b : Shs) (s : σ) : sseq I n (fillS b) s = sseq I n b s := by
  rw [fillS]; split
  · cases b with
    | nil => simp [sseq, sexec]
    | cons => simp_all [Shs.isNil]
  · rfl

/-! ### The relation between the two executions -/

abbrev swflag := switch_tail

def nearSw : List Bind → Bool
  | .sw _ :: _ => true
  | _ => false

theorem nearSw_of_swflag {env} (h : swflag env = true) : nearSw env = true := by
  cases env with
  | nil => simp [switch_tail] at h
  | cons b r => cases b <;> simp_all [switch_tail, nearSw]

/-- The way out of the function without restoring the variables. -/
def exitO (env : List Bind) : SO := if loop_depth env = 0 then .norm else .brk (loop_depth env)

/-- `t`: the statement always ends; `tail`: it is in tail position. -/
def Rel (I : Interp σ) (env : List Bind) (t tail : Bool) : Option (CO × σ) → Option (SO × σ) → Prop
  | none, r => r = none
  | some (.norm, s), r => t = false ∧ r = some (.norm, s)
  | some (.brk, s), r =>
    match env with
    | [] => False
    | .loop _ :: _ => r = some (.brk 1, s)
    | .sw _ :: _ => t = true ∧ r = some (.norm, s)
  | some (.cont, s), r =>
    match lookup_loop env with
    | none => False
    | some l => r = (I.acts l s).map fun s => (.cont, s)
  | some (.ret, s), r =>
    r = some (.ret, I.restore s) ∨
    ((tail = true ∨ (swflag env = true ∧ (loop_depth env = 0 → t = true))) ∧ r = some (exitO env, s))

theorem Rel.weaken {I : Interp σ} {env t tail a b} (h : Rel I env t false a b) : Rel I env t tail a b := by
  match a with
  | none => exact h
  | some (.norm, s) => exact h
  | some (.brk, s) => exact h
  | some (.cont, s) => exact h
  | some (.ret, s) =>
    rcases h with h | ⟨h, h2⟩
    · exact Or.inl h
    · exact Or.inr ⟨Or.inr (by simpa using h), h2⟩

theorem Rel.seq {I : Interp σ} {env t tail} {a : Option (CO × σ)} {b : Option (SO × σ)} {f : σ → Option (CO × σ)} {g : σ → Option (SO × σ)}
    (h : Rel I env false false a b) (h2 : ∀ s, Rel I env t tail (f s) (g s)) :
    Rel I env t tail (a.bind fun (o, s) => match o with | .norm => f s | o => some (o, s))
      (b.bind fun (o, s) => match o with | .norm => g s | o => some (o, s)) := by
  match a with
  | none => simp only [Rel] at h; subst h; rfl
  | some (.norm, s) => obtain ⟨_, h⟩ := h; subst h; exact h2 s
  | some (.brk, s) =>
    cases env with
    | nil => exact h.elim
    | cons x r =>
      cases x with
      | loop l => simp only [Rel] at h; subst h; rfl
      | sw f => simp [Rel] at h
  | some (.cont, s) =>
    simp only [Rel] at h
    simp only [Option.bind_some, Rel]
    cases hl : lookup_loop env with
    | none => rw [hl] at h; exact h.elim
    | some l =>
      rw [hl] at h; dsimp only at h ⊢; subst h
      cases I.acts l s <;> rfl
  | some (.ret, s) =>
    rcases h with h | ⟨h, h2⟩
    · subst h; exact Or.inl rfl
    · subst h2
      rcases h with h | ⟨h, h3⟩
      · simp at h
      · have hd : loop_depth env ≠ 0 := fun e => by simpa using h3 e
        refine Or.inr ⟨Or.inr ⟨h, fun e => absurd e hd⟩, ?_⟩
        simp [exitO, hd]

/-- A statement that always ends: what follows is not executed. -/
theorem Rel.stop {I : Interp σ} {env tail} {a : Option (CO × σ)} {b : Option (SO × σ)} {f : σ → Option (CO × σ)}
    (h : Rel I env true tail a b) :
    Rel I env true tail (a.bind fun (o, s) => match o with | .norm => f s | o => some (o, s)) b := by
  match a with
  | none => exact h
  | some (.norm, s) => exact absurd h.1 (by simp)
  | some (.brk, s) => exact h
  | some (.cont, s) => exact h
  | some (.ret, s) => exact h

theorem Rel.ite {I : Interp σ} {env t1 t2 tail tail1 sw} {a : Option (CO × σ)} {b : Option (SO × σ)}
    (hsw : nearSw env = true → sw = true) (ht : (sw && (t1 != t2)) = false)
    (h1 : tail1 = true → tail = true ∨ (swflag env = true ∧ t1 = true))
    (h : Rel I env t2 tail1 a b) : Rel I env (t1 && t2) tail a b := by
  have hs : nearSw env = true → t1 = t2 := fun hn => by
    have := hsw hn; subst this; simpa using ht
  match a with
  | none => exact h
  | some (.norm, s) => obtain ⟨h, h2⟩ := h; exact ⟨by simp [h], h2⟩
  | some (.brk, s) =>
    cases env with
    | nil => exact h.elim
    | cons x r =>
      cases x with
      | loop l => exact h
      | sw f =>
        obtain ⟨h, h2⟩ := h
        have := hs rfl
        exact ⟨by simp [h, this], h2⟩
  | some (.cont, s) => exact h
  | some (.ret, s) =>
    rcases h with h | ⟨h, h2⟩
    · exact Or.inl h
    · refine Or.inr ⟨?_, h2⟩
      rcases h with h | ⟨h, h3⟩
      · rcases h1 h with h1 | ⟨h1, h4⟩
        · exact Or.inl h1
        · have := hs (nearSw_of_swflag h1)
          exact Or.inr ⟨h1, fun _ => by simp [h4, ← this]⟩
      · have := hs (nearSw_of_swflag h)
        exact Or.inr ⟨h, fun e => by simp [this, h3 e]⟩

theorem Rel.ite' {I : Interp σ} {env t1 t2 tail sw} {a : Option (CO × σ)} {b : Option (SO × σ)}
    (hsw : nearSw env = true → sw = true) (ht : (sw && (t1 != t2)) = false)
    (h : Rel I env t1 tail a b) : Rel I env (t1 && t2) tail a b := by
  rw [Bool.and_comm]
  exact Rel.ite (t1 := t2) hsw (by cases sw <;> cases t1 <;> cases t2 <;> simp_all) (fun h => Or.inl h) h

theorem Rel.while {I : Interp σ} {env t tb tail} {l : List Nat} {test : σ → Option (σ × Bool)}
    {f : σ → Option (CO × σ)} {g : σ → Option (SO × σ)}
    (hb : ∀ s, Rel I (.loop l :: env) tb tail (f s) (g s))
    (hn : t = true → (∀ s s', test s ≠ some (s', false)) ∧ ∀ s s', f s ≠ some (.brk, s'))
    (n : Nat) (s : σ) :
    Rel I env t tail (cloop test f (I.acts l) n s)
      (sloop test (fun s => (g s).bind fun (o, s) => match o with | .norm => (I.acts l s).map fun s => (.norm, s) | o => some (o, s)) n s) := by
  induction n generalizing s with
  | zero => rfl
  | succ n ih =>
    rw [cloop, sloop]
    cases ht : test s with
    | none => rfl
    | some p =>
      obtain ⟨s1, b⟩ := p
      cases b with
      | false =>
        refine ⟨?_, rfl⟩
        cases t with
        | false => rfl
        | true => exact absurd ht ((hn rfl).1 s s1)
      | true =>
        simp only [Option.bind_some, if_true]
        have := hb s1
        cases hf : f s1 with
        | none => rw [hf] at this; simp only [Rel] at this; rw [this]; rfl
        | some q =>
          obtain ⟨o, s2⟩ := q
          rw [hf] at this
          cases o with
          | norm =>
            obtain ⟨_, this⟩ := this
            rw [this]
            simp only [Option.bind_some]
            cases I.acts l s2 with
            | none => rfl
            | some s3 => exact ih s3
          | brk =>
            simp only [Rel] at this
            rw [this]
            refine ⟨?_, rfl⟩
            cases t with
            | false => rfl
            | true => exact absurd hf ((hn rfl).2 s1 s2)
          | cont =>
            simp only [Rel, lookup_loop] at this
            rw [this]
            simp only [Option.bind_some]
            cases I.acts l s2 with
            | none => rfl
            | some s3 => exact ih s3
          | ret =>
            rcases this with this | ⟨h, this⟩
            · rw [this]; exact Or.inl rfl
            · rw [this]
              simp only [switch_tail] at h
              have h : tail = true := by simpa using h
              simp only [Option.bind_some, exitO, loop_depth]
              refine Or.inr ⟨Or.inl h, ?_⟩
              simp only [exitO, Nat.add_eq_zero_iff, Nat.one_ne_zero, and_false, if_false, Option.bind_some]
              by_cases hd : loop_depth env = 0 <;> simp [hd]

theorem Rel.do {I : Interp σ} {env tb tail} {test : σ → Option (σ × Bool)}
    {f : σ → Option (CO × σ)} {g : σ → Option (SO × σ)}
    (hb : ∀ s, Rel I (.loop [] :: env) tb tail (f s) (g s))
    (hn : ∀ s s', f s ≠ some (.cont, s')) (n : Nat) (s : σ) :
    Rel I env false tail (cdo test f n s)
      (sloop (fun s => some (s, true)) (fun s => (g s).bind fun (o, s) => match o with
        | .norm => (test s).map fun (s, b) => (if b then .norm else .brk 1, s) | o => some (o, s)) n s) := by
  induction n generalizing s with
  | zero => rfl
  | succ n ih =>
    rw [cdo, sloop]
    simp only [Option.bind_some, if_true]
    have := hb s
    cases hf : f s with
    | none => rw [hf] at this; simp only [Rel] at this; rw [this]; rfl
    | some q =>
      obtain ⟨o, s2⟩ := q
      rw [hf] at this
      cases o with
      | norm =>
        obtain ⟨_, this⟩ := this
        rw [this]
        simp only [Option.bind_some]
        cases test s2 with
        | none => rfl
        | some p =>
          obtain ⟨s3, b⟩ := p
          cases b with
          | true => exact ih s3
          | false => exact ⟨rfl, rfl⟩
      | brk =>
        simp only [Rel] at this
        rw [this]
        exact ⟨rfl, rfl⟩
      | cont => exact absurd hf (hn s s2)
      | ret =>
        rcases this with this | ⟨h, this⟩
        · rw [this]; exact Or.inl rfl
        · rw [this]
          simp only [switch_tail] at h
          have h : tail = true := by simpa using h
          simp only [Option.bind_some, exitO, loop_depth]
          refine Or.inr ⟨Or.inl h, ?_⟩
          simp only [exitO, Nat.add_eq_zero_iff, Nat.one_ne_zero, and_false, if_false, Option.bind_some]
          by_cases hd : loop_depth env = 0 <;> simp [hd]

/-- Inside a `switch` to outside. -/
theorem Rel.switch {I : Interp σ} {env t tail} {a : Option (CO × σ)} {b : Option (SO × σ)}
    (h : Rel I (.sw tail :: env) t false a b) : Rel I env false tail (endSwitch a) b := by
  match a with
  | none => exact h
  | some (.norm, s) => exact ⟨rfl, h.2⟩
  | some (.brk, s) => exact ⟨rfl, h.2⟩
  | some (.cont, s) => exact h
  | some (.ret, s) =>
    rcases h with h | ⟨h, h2⟩
    · exact Or.inl h
    · refine Or.inr ⟨Or.inl ?_, h2⟩
      rcases h with h | ⟨h, _⟩
      · simp at h
      · exact h

theorem Rel.norm {I : Interp σ} {env tail} (o : Option σ) :
    Rel I env false tail (o.map fun s => (.norm, s)) (o.map fun s => (.norm, s)) := by
  cases o with
  | none => rfl
  | some s => exact ⟨rfl, rfl⟩

/-! ### `break` and `continue` that do not occur -/

theorem cloop_no (test : σ → Option (σ × Bool)) (f : σ → Option (CO × σ)) (step : σ → Option σ) (n : Nat) (s s' : σ) :
    cloop test f step n s ≠ some (.brk, s') ∧ cloop test f step n s ≠ some (.cont, s') := by
  induction n generalizing s with
  | zero => simp [cloop]
  | succ n ih =>
    rw [cloop]
    rcases test s with _ | ⟨s1, b⟩
    · simp
    · cases b with
      | false => simp
      | true =>
        rcases hf : f s1 with _ | ⟨o, s2⟩
        · simp [hf]
        · cases o <;> simp [hf] <;> (cases step s2 <;> simp [ih])

theorem cdo_no (test : σ → Option (σ × Bool)) (f : σ → Option (CO × σ)) (n : Nat) (s s' : σ) :
    cdo test f n s ≠ some (.brk, s') ∧ cdo test f n s ≠ some (.cont, s') := by
  induction n generalizing s with
  | zero => simp [cdo]
  | succ n ih =>
    rw [cdo]
    rcases f s with _ | ⟨o, s1⟩
    · simp
    · cases o <;> simp <;>
      · rcases test s1 with _ | ⟨s2, b⟩
        · simp
        · cases b <;> simp [ih]

theorem endSwitch_no_brk (a : Option (CO × σ)) (s : σ) : endSwitch a ≠ some (.brk, s) := by
  match a with
  | none => simp [endSwitch]
  | some (o, s') => cases o <;> simp [endSwitch]

theorem endSwitch_cont {a : Option (CO × σ)} {s : σ} (h : endSwitch a = some (.cont, s)) : a = some (.cont, s) := by
  match a with
  | none => simp [endSwitch] at h
  | some (o, s') => cases o <;> simp_all [endSwitch]

mutual
theorem no_brk (I : Interp σ) (n : Nat) (s : St) (h : s.breaks = false) (x y : σ) : cexec I n s x ≠ some (.brk, y) := by
  match s with
  | .empty => simp [cexec]
  | .act ls => rw [cexec]; cases I.acts ls x <;> simp
  | .ite c a b =>
    rw [cexec]
    simp only [St.breaks, Bool.or_eq_false_iff] at h
    rcases I.test c x with _ | ⟨x', v⟩
    · simp
    · cases v
      · exact no_brk I n b h.2 x' y
      · exact no_brk I n a h.1 x' y
  | .while_ c b => rw [cexec]; exact (cloop_no _ _ _ _ _ _).1
  | .do_ b c => rw [cexec]; exact (cdo_no _ _ _ _ _).1
  | .for_ i c st b =>
    unfold cexec
    cases I.acts i x with
    | none => simp
    | some x' => exact (cloop_no _ _ _ _ _ _).1
  | .switch e b =>
    rw [cexec]
    rcases I.sel e x with _ | ⟨x', v⟩
    · simp
    · exact endSwitch_no_brk _ _
  | .switch1 e b =>
    rw [cexec]
    rcases I.sel e x with _ | ⟨x', v⟩
    · simp
    · simp only [Option.bind_some]
      split
      · exact endSwitch_no_brk _ _
      · simp
  | .break_ => simp [St.breaks] at h
  | .continue_ => simp [cexec]
  | .ret ls => rw [cexec]; cases I.acts ls x <;> simp
  | .block b => rw [cexec]; exact no_brk_seq I n b (by simpa [St.breaks] using h) x y
  | .label s => rw [cexec]; exact no_brk I n s (by simpa [St.breaks] using h) x y
  | .goto => simp [cexec]
  | .case_ _ s => rw [cexec]; exact no_brk I n s (by simpa [St.breaks] using h) x y
  | .default_ s => rw [cexec]; exact no_brk I n s (by simpa [St.breaks] using h) x y
theorem no_brk_seq (I : Interp σ) (n : Nat) (b : Sts) (h : b.breaks = false) (x y : σ) : cseq I n b x ≠ some (.brk, y) := by
  match b with
  | .nil => simp [cseq]
  | .cons s r =>
    simp only [Sts.breaks, Bool.or_eq_false_iff] at h
    rw [cseq]
    rcases hs : cexec I n s x with _ | ⟨o, x'⟩
    · simp
    · cases o with
      | norm => simpa using no_brk_seq I n r h.2 x' y
      | brk => exact absurd hs (no_brk I n s h.1 x x')
      | cont => simp
      | ret => simp
end

mutual
theorem no_cont (I : Interp σ) (n : Nat) (s : St) (h : s.conts = false) (x y : σ) : cexec I n s x ≠ some (.cont, y) := by
  match s with
  | .empty => simp [cexec]
  | .act ls => rw [cexec]; cases I.acts ls x <;> simp
  | .ite c a b =>
    rw [cexec]
    simp only [St.conts, Bool.or_eq_false_iff] at h
    rcases I.test c x with _ | ⟨x', v⟩
    · simp
    · cases v
      · exact no_cont I n b h.2 x' y
      · exact no_cont I n a h.1 x' y
  | .while_ c b => rw [cexec]; exact (cloop_no _ _ _ _ _ _).2
  | .do_ b c => rw [cexec]; exact (cdo_no _ _ _ _ _).2
  | .for_ i c st b =>
    unfold cexec
    cases I.acts i x with
    | none => simp
    | some x' => exact (cloop_no _ _ _ _ _ _).2
  | .switch e b =>
    rw [cexec]
    rcases I.sel e x with _ | ⟨x', v⟩
    · simp
    · exact fun hc => no_cont_from I n _ b (by simpa [St.conts] using h) x' y (endSwitch_cont hc)
  | .switch1 e s =>
    rw [cexec]
    rcases I.sel e x with _ | ⟨x', v⟩
    · simp
    · simp only [Option.bind_some]
      split
      · exact fun hc => no_cont I n s (by simpa [St.conts] using h) x' y (endSwitch_cont hc)
      · simp
  | .break_ => simp [cexec]
  | .continue_ => simp [St.conts] at h
  | .ret ls => rw [cexec]; cases I.acts ls x <;> simp
  | .block b => rw [cexec]; exact no_cont_seq I n b (by simpa [St.conts] using h) x y
  | .label s => rw [cexec]; exact no_cont I n s (by simpa [St.conts] using h) x y
  | .goto => simp [cexec]
  | .case_ _ s => rw [cexec]; exact no_cont I n s (by simpa [St.conts] using h) x y
  | .default_ s => rw [cexec]; exact no_cont I n s (by simpa [St.conts] using h) x y
theorem no_cont_seq (I : Interp σ) (n : Nat) (b : Sts) (h : b.conts = false) (x y : σ) : cseq I n b x ≠ some (.cont, y) := by
  match b with
  | .nil => simp [cseq]
  | .cons s r =>
    simp only [Sts.conts, Bool.or_eq_false_iff] at h
    rw [cseq]
    rcases hs : cexec I n s x with _ | ⟨o, x'⟩
    · simp
    · cases o with
      | norm => simpa using no_cont_seq I n r h.2 x' y
      | cont => exact absurd hs (no_cont I n s h.1 x x')
      | brk => simp
      | ret => simp
theorem no_cont_from (I : Interp σ) (n : Nat) (p : St → Bool) (b : Sts) (h : b.conts = false) (x y : σ) : cfrom I n p b x ≠ some (.cont, y) := by
  match b with
  | .nil => simp [cfrom]
  | .cons s r =>
    simp only [Sts.conts, Bool.or_eq_false_iff] at h
    rw [cfrom]
    split
    · rcases hs : cexec I n s x with _ | ⟨o, x'⟩
      · simp
      · cases o with
        | norm => simpa using no_cont_seq I n r h.2 x' y
        | cont => exact absurd hs (no_cont I n s h.1 x x')
        | brk => simp
        | ret => simp
    · exact no_cont_from I n p r h.2 x y
end

end Verif.Stmt
