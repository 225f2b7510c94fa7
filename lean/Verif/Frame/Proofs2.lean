import Verif.Frame.Proofs
namespace Verif.Frame
open Verif Verif.Stmt

/-! ### Statements over related states -/

section param
variable {σ τ : Type} (R : σ → τ → Prop)

/-- Effects with a result over related states. -/
def Sim {ω : Type} (f : σ → Option (ω × σ)) (g : τ → Option (ω × τ)) : Prop :=
  ∀ c s o c', R c s → f c = some (o, c') → ∃ s', g s = some (o, s') ∧ R c' s'

structure SimI (I : Interp σ) (J : Interp τ) : Prop where
  act : ∀ a c s c', R c s → I.act a c = some c' → ∃ s', J.act a s = some s' ∧ R c' s'
  test : ∀ t c s c' b, R c s → I.test t c = some (c', b) → ∃ s', J.test t s = some (s', b) ∧ R c' s'
  sel : ∀ t c s c' v, R c s → I.sel t c = some (c', v) → ∃ s', J.sel t s = some (s', v) ∧ R c' s'

variable {R} {I : Interp σ} {J : Interp τ}

theorem sim_acts (h : SimI R I J) : (ls : List Nat) → (c : σ) → (s : τ) → (c' : σ) → R c s → I.acts ls c = some c' →
    ∃ s', J.acts ls s = some s' ∧ R c' s'
  | [], c, s, c', hr, hc => by
    simp only [Interp.acts, Option.some.injEq] at hc
    subst hc; exact ⟨s, rfl, hr⟩
  | a :: r, c, s, c', hr, hc => by
    simp only [Interp.acts, Option.bind_eq_some_iff] at hc
    obtain ⟨c1, h1, h2⟩ := hc
    obtain ⟨s1, e1, r1⟩ := h.act _ _ _ _ hr h1
    obtain ⟨s2, e2, r2⟩ := sim_acts h r c1 s1 c' r1 h2
    exact ⟨s2, by simp [Interp.acts, e1, e2], r2⟩

/-- Tests over related states. -/
def SimT (f : σ → Option (σ × Bool)) (g : τ → Option (τ × Bool)) : Prop :=
  ∀ c s c' b, R c s → f c = some (c', b) → ∃ s', g s = some (s', b) ∧ R c' s'

theorem sim_loop {t : σ → Option (σ × Bool)} {t' : τ → Option (τ × Bool)} {f : σ → Option (CO × σ)} {g : τ → Option (CO × τ)}
    {st : σ → Option σ} {st' : τ → Option τ} (ht : SimT (R := R) t t') (hb : Sim R f g)
    (hs : ∀ c s c', R c s → st c = some c' → ∃ s', st' s = some s' ∧ R c' s') :
    (n : Nat) → Sim R (cloop t f st n) (cloop t' g st' n)
  | 0, _, _, _, _, _, h => by simp [cloop] at h
  | n + 1, c, s, o, c', hr, h => by
    simp only [cloop, Option.bind_eq_some_iff] at h ⊢
    obtain ⟨⟨c1, b⟩, h1, h⟩ := h
    obtain ⟨s1, e1, r1⟩ := ht _ _ _ _ hr h1
    cases b with
    | false =>
      simp only [Bool.false_eq_true, if_false, Option.some.injEq, Prod.mk.injEq] at h
      obtain ⟨rfl, rfl⟩ := h
      exact ⟨s1, ⟨_, e1, by simp⟩, r1⟩
    | true =>
      simp only [if_true, Option.bind_eq_some_iff] at h
      obtain ⟨⟨o1, c2⟩, h2, h⟩ := h
      obtain ⟨s2, e2, r2⟩ := hb _ _ _ _ r1 h2
      cases o1 with
      | norm | cont =>
        simp only [Option.bind_eq_some_iff] at h
        obtain ⟨c3, h3, h⟩ := h
        obtain ⟨s3, e3, r3⟩ := hs _ _ _ r2 h3
        obtain ⟨s4, e4, r4⟩ := sim_loop ht hb hs n _ _ _ _ r3 h
        exact ⟨s4, ⟨_, e1, by simp [e2, e3, e4]⟩, r4⟩
      | brk | ret =>
        simp only [Option.some.injEq, Prod.mk.injEq] at h
        obtain ⟨rfl, rfl⟩ := h
        exact ⟨s2, ⟨_, e1, by simp [e2]⟩, r2⟩

theorem sim_do {t : σ → Option (σ × Bool)} {t' : τ → Option (τ × Bool)} {f : σ → Option (CO × σ)} {g : τ → Option (CO × τ)}
    (ht : SimT (R := R) t t') (hb : Sim R f g) :
    (n : Nat) → Sim R (cdo t f n) (cdo t' g n)
  | 0, _, _, _, _, _, h => by simp [cdo] at h
  | n + 1, c, s, o, c', hr, h => by
    simp only [cdo, Option.bind_eq_some_iff] at h ⊢
    obtain ⟨⟨o1, c2⟩, h2, h⟩ := h
    obtain ⟨s2, e2, r2⟩ := hb _ _ _ _ hr h2
    cases o1 with
    | norm | cont =>
      simp only [Option.bind_eq_some_iff] at h
      obtain ⟨⟨c1, b⟩, h1, h⟩ := h
      obtain ⟨s1, e1, r1⟩ := ht _ _ _ _ r2 h1
      cases b with
      | false =>
        simp only [Bool.false_eq_true, if_false, Option.some.injEq, Prod.mk.injEq] at h
        obtain ⟨rfl, rfl⟩ := h
        exact ⟨s1, ⟨_, e2, by simp [e1]⟩, r1⟩
      | true =>
        simp only [if_true] at h
        obtain ⟨s4, e4, r4⟩ := sim_do ht hb n _ _ _ _ r1 h
        exact ⟨s4, ⟨_, e2, by simp [e1, e4]⟩, r4⟩
    | brk | ret =>
      simp only [Option.some.injEq, Prod.mk.injEq] at h
      obtain ⟨rfl, rfl⟩ := h
      exact ⟨s2, ⟨_, e2, by simp⟩, r2⟩

theorem sim_map_acts (h : SimI R I J) (o : CO) (ls : List Nat) (c : σ) (s : τ) (o' : CO) (c' : σ) (hr : R c s)
    (hc : (I.acts ls c).map (fun s => (o, s)) = some (o', c')) :
    ∃ s', (J.acts ls s).map (fun s => (o, s)) = some (o', s') ∧ R c' s' := by
  simp only [Option.map_eq_some_iff, Prod.mk.injEq] at hc
  obtain ⟨c1, h1, rfl, rfl⟩ := hc
  obtain ⟨s1, e1, r1⟩ := sim_acts h _ _ _ _ hr h1
  exact ⟨s1, by simp [e1], r1⟩

theorem sim_endSwitch {x : Option (CO × σ)} {y : Option (CO × τ)} {o : CO} {c' : σ}
    (hxy : ∀ o c', x = some (o, c') → ∃ s', y = some (o, s') ∧ R c' s') (h : endSwitch x = some (o, c')) :
    ∃ s', endSwitch y = some (o, s') ∧ R c' s' := by
  cases x with
  | none => simp [endSwitch] at h
  | some p =>
    obtain ⟨o1, c1⟩ := p
    obtain ⟨s', e, r⟩ := hxy o1 c1 rfl
    subst e
    cases o1 <;> simp only [endSwitch, Option.some.injEq, Prod.mk.injEq] at h ⊢ <;> obtain ⟨rfl, rfl⟩ := h <;>
      exact ⟨s', ⟨rfl, rfl⟩, r⟩

mutual
theorem sim_exec (h : SimI R I J) (n : Nat) : (st : St) → Sim R (cexec I n st) (cexec J n st)
  | .empty, c, s, o, c', hr, hc => by
    simp only [cexec, Option.some.injEq, Prod.mk.injEq] at hc ⊢
    obtain ⟨rfl, rfl⟩ := hc; exact ⟨s, ⟨rfl, rfl⟩, hr⟩
  | .act ls, c, s, o, c', hr, hc => by simp only [cexec] at hc ⊢; exact sim_map_acts h _ _ _ _ _ _ hr hc
  | .ite t a b, c, s, o, c', hr, hc => by
    simp only [cexec, Option.bind_eq_some_iff] at hc ⊢
    obtain ⟨⟨c1, v⟩, h1, hc⟩ := hc
    obtain ⟨s1, e1, r1⟩ := h.test _ _ _ _ _ hr h1
    cases v with
    | true =>
      obtain ⟨s2, e2, r2⟩ := sim_exec h n a _ _ _ _ r1 hc
      exact ⟨s2, ⟨_, e1, e2⟩, r2⟩
    | false =>
      obtain ⟨s2, e2, r2⟩ := sim_exec h n b _ _ _ _ r1 hc
      exact ⟨s2, ⟨_, e1, e2⟩, r2⟩
  | .while_ t b, c, s, o, c', hr, hc => by
    simp only [cexec] at hc ⊢
    exact sim_loop (R := R) (h.test t) (sim_exec h n b) (fun c s c' hr hc => by simp only [Option.some.injEq] at hc; subst hc; exact ⟨s, rfl, hr⟩) n _ _ _ _ hr hc
  | .do_ b t, c, s, o, c', hr, hc => by
    simp only [cexec] at hc ⊢
    exact sim_do (h.test t) (sim_exec h n b) n _ _ _ _ hr hc
  | .for_ init t step b, c, s, o, c', hr, hc => by
    simp only [cexec, Option.bind_eq_some_iff] at hc ⊢
    obtain ⟨c1, h1, hc⟩ := hc
    obtain ⟨s1, e1, r1⟩ := sim_acts h _ _ _ _ hr h1
    cases t with
    | some t =>
      obtain ⟨s2, e2, r2⟩ := sim_loop (h.test t) (sim_exec h n b) (fun c s c' hr hc => sim_acts h step c s c' hr hc) n _ _ _ _ r1 hc
      exact ⟨s2, ⟨_, e1, e2⟩, r2⟩
    | none =>
      have ht : SimT (R := R) (fun s : σ => some (s, true)) (fun s : τ => some (s, true)) := by
        intro c s c' b hr hc
        simp only [Option.some.injEq, Prod.mk.injEq] at hc
        obtain ⟨rfl, rfl⟩ := hc; exact ⟨s, rfl, hr⟩
      obtain ⟨s2, e2, r2⟩ := sim_loop ht (sim_exec h n b) (fun c s c' hr hc => sim_acts h step c s c' hr hc) n _ _ _ _ r1 hc
      exact ⟨s2, ⟨_, e1, e2⟩, r2⟩
  | .switch e b, c, s, o, c', hr, hc => by
    simp only [cexec, Option.bind_eq_some_iff] at hc ⊢
    obtain ⟨⟨c1, v⟩, h1, hc⟩ := hc
    obtain ⟨s1, e1, r1⟩ := h.sel _ _ _ _ _ hr h1
    obtain ⟨s2, e2, r2⟩ := sim_endSwitch (fun o c' hx => sim_from h n (target v b) b _ _ _ _ r1 hx) hc
    exact ⟨s2, ⟨_, e1, e2⟩, r2⟩
  | .switch1 e b, c, s, o, c', hr, hc => by
    simp only [cexec, Option.bind_eq_some_iff] at hc ⊢
    obtain ⟨⟨c1, v⟩, h1, hc⟩ := hc
    obtain ⟨s1, e1, r1⟩ := h.sel _ _ _ _ _ hr h1
    by_cases ht : target v (.cons b .nil) b = true
    · simp only [ht, if_true] at hc
      obtain ⟨s2, e2, r2⟩ := sim_endSwitch (fun o c' hx => sim_exec h n b _ _ _ _ r1 hx) hc
      exact ⟨s2, ⟨_, e1, by simp [ht, e2]⟩, r2⟩
    · simp only [ht, Bool.false_eq_true, if_false, Option.some.injEq, Prod.mk.injEq] at hc
      obtain ⟨rfl, rfl⟩ := hc
      exact ⟨s1, ⟨_, e1, by simp [ht]⟩, r1⟩
  | .break_, c, s, o, c', hr, hc => by
    simp only [cexec, Option.some.injEq, Prod.mk.injEq] at hc ⊢
    obtain ⟨rfl, rfl⟩ := hc; exact ⟨s, ⟨rfl, rfl⟩, hr⟩
  | .continue_, c, s, o, c', hr, hc => by
    simp only [cexec, Option.some.injEq, Prod.mk.injEq] at hc ⊢
    obtain ⟨rfl, rfl⟩ := hc; exact ⟨s, ⟨rfl, rfl⟩, hr⟩
  | .ret ls, c, s, o, c', hr, hc => by simp only [cexec] at hc ⊢; exact sim_map_acts h _ _ _ _ _ _ hr hc
  | .block b, c, s, o, c', hr, hc => by simp only [cexec] at hc ⊢; exact sim_seq h n b _ _ _ _ hr hc
  | .label b, c, s, o, c', hr, hc => by simp only [cexec] at hc ⊢; exact sim_exec h n b _ _ _ _ hr hc
  | .goto, c, s, o, c', hr, hc => by simp [cexec] at hc
  | .case_ _ b, c, s, o, c', hr, hc => by simp only [cexec] at hc ⊢; exact sim_exec h n b _ _ _ _ hr hc
  | .default_ b, c, s, o, c', hr, hc => by simp only [cexec] at hc ⊢; exact sim_exec h n b _ _ _ _ hr hc
theorem sim_seq (h : SimI R I J) (n : Nat) : (b : Sts) → Sim R (cseq I n b) (cseq J n b)
  | .nil, c, s, o, c', hr, hc => by
    simp only [cseq, Option.some.injEq, Prod.mk.injEq] at hc ⊢
    obtain ⟨rfl, rfl⟩ := hc; exact ⟨s, ⟨rfl, rfl⟩, hr⟩
  | .cons a r, c, s, o, c', hr, hc => by
    simp only [cseq, Option.bind_eq_some_iff] at hc ⊢
    obtain ⟨⟨o1, c1⟩, h1, hc⟩ := hc
    obtain ⟨s1, e1, r1⟩ := sim_exec h n a _ _ _ _ hr h1
    cases o1 with
    | norm =>
      obtain ⟨s2, e2, r2⟩ := sim_seq h n r _ _ _ _ r1 hc
      exact ⟨s2, ⟨_, e1, e2⟩, r2⟩
    | _ =>
      simp only [Option.some.injEq, Prod.mk.injEq] at hc
      obtain ⟨rfl, rfl⟩ := hc
      exact ⟨s1, ⟨_, e1, rfl⟩, r1⟩
theorem sim_from (h : SimI R I J) (n : Nat) (p : St → Bool) : (b : Sts) → Sim R (cfrom I n p b) (cfrom J n p b)
  | .nil, c, s, o, c', hr, hc => by
    simp only [cfrom, Option.some.injEq, Prod.mk.injEq] at hc ⊢
    obtain ⟨rfl, rfl⟩ := hc; exact ⟨s, ⟨rfl, rfl⟩, hr⟩
  | .cons a r, c, s, o, c', hr, hc => by
    by_cases hp : p a = true
    · simp only [cfrom, hp, if_true, Option.bind_eq_some_iff] at hc ⊢
      obtain ⟨⟨o1, c1⟩, h1, hc⟩ := hc
      obtain ⟨s1, e1, r1⟩ := sim_exec h n a _ _ _ _ hr h1
      cases o1 with
      | norm =>
        obtain ⟨s2, e2, r2⟩ := sim_seq h n r _ _ _ _ r1 hc
        exact ⟨s2, ⟨_, e1, e2⟩, r2⟩
      | _ =>
        simp only [Option.some.injEq, Prod.mk.injEq] at hc
        obtain ⟨rfl, rfl⟩ := hc
        exact ⟨s1, ⟨_, e1, rfl⟩, r1⟩
    · simp only [cfrom, hp, Bool.false_eq_true, if_false] at hc ⊢
      exact sim_from h n p r _ _ _ _ hr hc
end
end param

end Verif.Frame
