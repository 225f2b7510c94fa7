import Verif.Env.Proofs
namespace Verif.Env
open Verif Spec

theorem GloOk.cons {gs G} (h : GloOk gs G) {b : List Int} {k x : Int} {o : Out} (hb0 : b[0]! = k) (hb1 : b[1]! = x)
    (ho : toOut b = some o) (hx : G x = none)
    (hk : (k = VAR_GLOBAL ∧ ∃ a t, o = .global a t) ∨ (k = FUN ∧ ∃ l, o = .fn l) ∨ (k = ENUM_CST ∧ ∃ v, o = .const v)) :
    GloOk (b :: gs) (G.set x o) := by
  have find (p : List Int → Bool) : (b :: gs).find? p = if p b then some b else gs.find? p := by
    rw [List.find?_cons]; split <;> simp_all
  have hv (y : Int) : isVar y b = (decide (k = VAR_GLOBAL) && decide (x = y)) := by
    unfold isVar; rw [hb0, hb1]
    rcases hk with ⟨rfl, _⟩ | ⟨rfl, _⟩ | ⟨rfl, _⟩ <;> simp [VAR_GLOBAL, FUN, ENUM_CST]
  have hf (y : Int) : isKindId FUN y b = (decide (k = FUN) && decide (x = y)) := by
    unfold isKindId; rw [hb0, hb1]
  have he (y : Int) : isKindId ENUM_CST y b = (decide (k = ENUM_CST) && decide (x = y)) := by
    unfold isKindId; rw [hb0, hb1]
  -- nothing was found for `x` before
  have nv : gs.find? (isVar x) = none := by
    cases hc : gs.find? (isVar x) with
    | none => rfl
    | some b => obtain ⟨a, t, _, h2⟩ := h.var x b hc; rw [hx] at h2; cases h2
  have nf : gs.find? (isKindId FUN x) = none := by
    cases hc : gs.find? (isKindId FUN x) with
    | none => rfl
    | some b => obtain ⟨a, _, h2⟩ := h.fn x b hc; rw [hx] at h2; cases h2
  have ne : gs.find? (isKindId ENUM_CST x) = none := by
    cases hc : gs.find? (isKindId ENUM_CST x) with
    | none => rfl
    | some b => obtain ⟨a, _, h2⟩ := h.const x b hc; rw [hx] at h2; cases h2
  constructor
  · intro y c hc
    rw [find, hv] at hc
    by_cases hy : y = x
    · subst hy
      rw [nv] at hc
      split at hc
      · rename_i hkk
        simp only [Option.some.injEq] at hc
        subst hc
        rcases hk with ⟨rfl, a, t, rfl⟩ | ⟨rfl, _⟩ | ⟨rfl, _⟩
        · exact ⟨a, t, ho, by simp [Scope.set]⟩
        · simp [VAR_GLOBAL, FUN] at hkk
        · simp [VAR_GLOBAL, ENUM_CST] at hkk
      · cases hc
    · rw [if_neg (by simp; intro _ h; exact hy h.symm)] at hc
      simpa [Scope.set, hy] using h.var y c hc
  · intro y c hc
    rw [find, hf] at hc
    by_cases hy : y = x
    · subst hy
      rw [nf] at hc
      split at hc
      · rename_i hkk
        simp only [Option.some.injEq] at hc
        subst hc
        rcases hk with ⟨rfl, _⟩ | ⟨rfl, l, rfl⟩ | ⟨rfl, _⟩
        · simp [VAR_GLOBAL, FUN] at hkk
        · exact ⟨l, ho, by simp [Scope.set]⟩
        · simp [FUN, ENUM_CST] at hkk
      · cases hc
    · rw [if_neg (by simp; intro _ h; exact hy h.symm)] at hc
      simpa [Scope.set, hy] using h.fn y c hc
  · intro y c hc
    rw [find, he] at hc
    by_cases hy : y = x
    · subst hy
      rw [ne] at hc
      split at hc
      · rename_i hkk
        simp only [Option.some.injEq] at hc
        subst hc
        rcases hk with ⟨rfl, _⟩ | ⟨rfl, _⟩ | ⟨rfl, v, rfl⟩
        · simp [VAR_GLOBAL, ENUM_CST] at hkk
        · simp [FUN, ENUM_CST] at hkk
        · exact ⟨v, ho, by simp [Scope.set]⟩
      · cases hc
    · rw [if_neg (by simp; intro _ h; exact hy h.symm)] at hc
      simpa [Scope.set, hy] using h.const y c hc
  · intro y h1 h2 h3
    rw [find, hv] at h1
    rw [find, hf] at h2
    rw [find, he] at h3
    by_cases hy : y = x
    · subst hy
      rcases hk with ⟨rfl, _⟩ | ⟨rfl, _⟩ | ⟨rfl, _⟩
      · simp at h1
      · simp at h2
      · simp at h3
    · rw [if_neg (by simp; intro _ h; exact hy h.symm)] at h1 h2 h3
      simpa [Scope.set, hy] using h.nil y h1 h2 h3

/-- No jump target. -/
def J0 : Jumps := ⟨none, none⟩

theorem params_sim {G : Scope} : ∀ (ps : List (Int × Nat × Int)) {e : Env} {ρ : Scope} {pos g : Int},
    R G J0 e ⟨ρ, pos, g⟩ → e.top + 5 * ps.length ≤ HEAP_SIZE →
    match params ρ pos ps with
    | none => add_params e ps = .fatal
    | some ρ' => ∃ e' pos', add_params e ps = .ok e' ∧ R G J0 e' ⟨ρ', pos', g⟩ ∧ Ext e e' (5 * ps.length) ∧
        ∀ x, ρ' x ≠ none → ρ x ≠ none ∨ x ∈ ps.map Prod.fst
  | [], e, ρ, pos, g, r, _ => ⟨e, pos, rfl, r, Ext.refl _ _, fun _ h => .inl h⟩
  | (x, width, ty) :: ps, e, ρ, pos, g, r, ht => by
    obtain ⟨bs, h1, h2, h3⟩ := r.loc
    obtain ⟨gs, h4, h5⟩ := r.glo
    have hl := h1.lt
    obtain ⟨p, hp, hm⟩ := lookup_var_spec h1 x (e.top + 1) (by omega)
    have h2x := h2 x
    simp only [params, add_params, hp, Res.bind_ok]
    simp only [List.length_cons] at ht
    cases hb : bs.find? (isVar x) with
    | some b =>
      rw [hb] at hm h2x
      obtain ⟨o, _, hx⟩ := h2x
      simp only at hx
      simp only [hx, reduceCtorEq, if_false, ne_eq, hm.1, not_false_eq_true, if_true]
    | none =>
      rw [hb] at hm h2x
      simp only at hm h2x
      simp only [h2x, hm, if_true, ne_eq, not_true_eq_false, if_false]
      obtain ⟨h', ha, hh, hc⟩ := alloc_binding (e := e) h1 r.tp [PARAM_LOCAL, x, e.fs, ty] (by simp) (by simp; omega)
      simp only [add_local_param, ha, Res.bind_ok]
      have x1 : Ext e ⟨h', e.top + 5, e.fs - width, e.top, e.globals, e.galloc⟩ 5 :=
        ⟨hh, by simp, by simp, rfl⟩
      have r1 : R G J0 ⟨h', e.top + 5, e.fs - width, e.top, e.globals, e.galloc⟩
          ⟨ρ.set x (.param pos ty), pos - width, g⟩ := by
        refine ⟨⟨_, hc, ?_, h3.skip (by simp [PARAM_LOCAL, VAR_GLOBAL])⟩, ⟨gs, h4.mono hh (by simp), h5⟩,
          by simp [r.fs], r.ga, by simp⟩
        rw [r.fs]
        exact h2.cons (by simp [PARAM_LOCAL, VAR_GLOBAL]) (by simp [toOut, PARAM_LOCAL])
      have ih := params_sim ps r1 (by simp; omega)
      cases hps : params (ρ.set x (.param pos ty)) (pos - width) ps with
      | none => rw [hps] at ih; simpa using ih
      | some ρ' =>
        rw [hps] at ih
        obtain ⟨e', pos', he, hr, hx, hd⟩ := ih
        refine ⟨e', pos', by simpa using he, hr, by have := x1.trans hx; simpa [Nat.mul_add, Nat.add_comm] using this, ?_⟩
        intro y hy
        rcases hd y hy with h | h
        · by_cases hyx : y = x
          · right; simp [hyx]
          · left; simpa [Scope.set, hyx] using h
        · right; simp at h ⊢; exact .inr h

theorem uses_sim {G : Scope} {e : Env} {c : Ctx} (r : R G J0 e c) :
    ∀ (xs : List Int), (∀ x ∈ xs, c.ρ x = none) →
    uses e xs = match Spec.uses G xs with
      | none => .fatal
      | some os => .ok os
  | [], _ => rfl
  | x :: xs, h => by
    have h1 := resolve_spec r x
    have ih := uses_sim r xs (fun y hy => h y (by simp [hy]))
    have hs : uses e (x :: xs) = ((resolve_identifier e x).bind (use_binding e)).bind fun o =>
        (uses e xs).bind fun os => .ok (o :: os) := by
      rw [Res.bind_assoc]; rfl
    rw [hs, h1, ih, h x (by simp)]
    simp only [Spec.uses]
    cases hg : G x with
    | none => rfl
    | some o =>
      simp only [Res.bind_ok]
      cases hu : Spec.uses G xs <;> rfl

/-- `K` and `G` declare the same names as the same kind of entity. -/
structure Same (K G : Scope) : Prop where
  nil : ∀ x, K x = none ↔ G x = none
  glo : ∀ x, (∃ a t, K x = some (.global a t)) ↔ ∃ a t, G x = some (.global a t)
  fn : ∀ x, (∃ l, K x = some (.fn l)) ↔ ∃ l, G x = some (.fn l)

theorem Same.set {K G} (h : Same K G) {x : Int} {o o' : Out}
    (hg : (∃ a t, o = .global a t) ↔ ∃ a t, o' = .global a t) (hf : (∃ l, o = .fn l) ↔ ∃ l, o' = .fn l) :
    Same (K.set x o) (G.set x o') := by
  constructor <;> intro y <;> by_cases hy : y = x
  · simp [Scope.set, hy]
  · simpa [Scope.set, hy] using h.nil y
  · simpa [Scope.set, hy] using hg
  · simpa [Scope.set, hy] using h.glo y
  · simpa [Scope.set, hy] using hf
  · simpa [Scope.set, hy] using h.fn y

theorem Same.setl {K G} (h : Same K G) {x : Int} {o o' : Out} (hx : G x = some o')
    (hg : (∃ a t, o = .global a t) ↔ ∃ a t, o' = .global a t) (hf : (∃ l, o = .fn l) ↔ ∃ l, o' = .fn l) :
    Same (K.set x o) G := by
  have : G = G.set x o' := by funext y; simp only [Scope.set]; split <;> simp_all
  rw [this]
  exact h.set hg hf

/-- New file-scope binding. -/
theorem R.addg {G e c} (r : R G J0 e c) {b : List Int} {k x : Int} {o : Out} (hb0 : b[0]! = k) (hb1 : b[1]! = x)
    (ho : toOut b = some o) (hx : G x = none)
    (hk : (k = VAR_GLOBAL ∧ ∃ a t, o = .global a t) ∨ (k = FUN ∧ ∃ l, o = .fn l) ∨ (k = ENUM_CST ∧ ∃ v, o = .const v))
    (hl : 3 ≤ b.length) (hm : e.top + (b.length + 1) ≤ HEAP_SIZE) :
    ∃ h', alloc_obj e ((e.globals : Int) :: b) = .ok (e.top, { e with heap := h', top := e.top + (b.length + 1) }) ∧
      ∀ galloc, R (G.set x o) J0 ⟨h', e.top + (b.length + 1), e.fs, e.locals, e.top, galloc⟩ ⟨c.ρ, c.d, galloc⟩ := by
  obtain ⟨bs, h1, h2, h3⟩ := r.loc
  obtain ⟨gs, h4, h5⟩ := r.glo
  obtain ⟨h', ha, hh, hc⟩ := alloc_binding (e := e) h4 r.tp b hl hm
  refine ⟨h', ha, fun galloc => ⟨⟨bs, h1.mono hh (by simp), h2, h3⟩, ⟨_, hc, h5.cons hb0 hb1 ho hx hk⟩, r.fs, rfl, by have := r.tp; simp; omega⟩⟩

/-- The model `m` gives the outputs of the specification, or stops. -/
def Fin (spec : Option (List Out)) (m : Res (Env × List Out)) : Prop :=
  match spec with
  | none => m = .fatal
  | some os => ∃ e', m = .ok (e', os)

theorem glos_sim : ∀ (gs : List Glo) {K G : Scope} {e : Env} {c : Ctx} {ps : List Int},
    R G J0 e c → Same K G → (∀ x, c.ρ x ≠ none → x ∈ ps) → OneMeaning K gs → NoStale ps gs → LabelsG gs →
    e.top + cellsG gs ≤ HEAP_SIZE →
    Fin (unit G c.g gs) (glos e gs)
  | [], _, _, e, _, _, _, _, _, _, _, _, _ => ⟨e, rfl⟩
  | .var x size ty init :: r, K, G, e, c, ps, hr, hk, hps, hom, hns, hlb, ht => by
    obtain ⟨ρ0, d0, g0⟩ := c
    have hga : e.galloc = g0 := hr.ga
    subst hga
    obtain ⟨hom1, hom2⟩ := hom
    obtain ⟨hns1, hns2⟩ := hns
    simp only [cellsG] at ht
    obtain ⟨gl, h4, h5⟩ := hr.glo
    have hlt := h4.lt
    obtain ⟨p, hp, hm⟩ := lookup_var_spec h4 x (e.top + 1) (by omega)
    have hini : ∀ y ∈ init, ρ0 y = none := fun y hy => Classical.byContradiction fun h => hns1 y hy (hps y h)
    -- the rest of the work once the new state is known
    have key : ∀ (G' : Scope) (e1 : Env) (g' : Int), R G' J0 e1 ⟨ρ0, d0, g'⟩ → Same (K.set x (.global 0 ty)) G' →
        e1.top + cellsG r ≤ HEAP_SIZE →
        Fin (match Spec.uses G' init, unit G' g' r with
          | some os, some os' => some (os ++ os')
          | _, _ => none)
          (((uses e1 init).bind fun os => Res.ok (e1, os)).bind (fun (e, os) =>
            (glos e r).bind fun (e, os') => .ok (e, os ++ os'))) := by
      intro G' e1 g' r1 s1 t1
      have hu := uses_sim r1 init hini
      have ih := glos_sim r r1 s1 hps hom2 hns2 hlb t1
      rw [hu]
      unfold Fin at ih ⊢
      cases hs : Spec.uses G' init with
      | none => simp
      | some os =>
        simp only [Res.bind_ok]
        cases hs2 : unit G' g' r with
        | none => simp only [hs2] at ih; simp only [ih]; rfl
        | some os' =>
          simp only [hs2] at ih
          obtain ⟨e', he⟩ := ih
          exact ⟨e', by simp only [he, Res.bind_ok]⟩
    cases hb : gl.find? (isVar x) with
    | some b =>
      rw [hb] at hm
      obtain ⟨a, t, ho, hx⟩ := h5.var x b hb
      have := key G e e.galloc hr (hk.setl hx ⟨fun _ => ⟨_, _, rfl⟩, fun _ => ⟨_, _, rfl⟩⟩ (by simp)) (by omega)
      rw [show unit G e.galloc (.var x size ty init :: r) = _ by simp only [unit, hx, reduceCtorEq, if_false]; try rfl]
      rw [show glos e (.var x size ty init :: r) = _ by
        simp only [glos, glo, hp, Res.bind_ok, ne_eq, hm.1, not_false_eq_true, if_true]; try rfl]
      exact this
    | none =>
      rw [hb] at hm
      simp only at hm
      have hx : G x = none := by
        rcases hom1 with h | h
        · exact (hk.nil x).1 h
        · obtain ⟨a, t, h⟩ := (hk.glo x).1 h
          cases hf : gl.find? (isKindId FUN x) with
          | some b => obtain ⟨l, _, h2⟩ := h5.fn x b hf; rw [h] at h2; cases h2
          | none =>
            cases he : gl.find? (isKindId ENUM_CST x) with
            | some b => obtain ⟨l, _, h2⟩ := h5.const x b he; rw [h] at h2; cases h2
            | none => exact h5.nil x hb hf he
      obtain ⟨h', ha, hrr⟩ := hr.addg (x := x) (b := [VAR_GLOBAL, x, e.galloc, ty]) (o := .global e.galloc ty) rfl rfl
        (by simp [toOut, VAR_GLOBAL, PARAM_LOCAL, VAR_LOCAL]) hx (.inl ⟨rfl, _, _, rfl⟩) (by simp) (by simp; omega)
      have := key _ _ _ (hrr (e.galloc + size)) (hk.set ⟨fun _ => ⟨_, _, rfl⟩, fun _ => ⟨_, _, rfl⟩⟩ (by simp)) (by simp; omega)
      rw [show unit G e.galloc (.var x size ty init :: r) = _ by simp only [unit, hx, if_true]; try rfl]
      rw [show glos e (.var x size ty init :: r) = _ by
        simp only [glos, glo, hp, Res.bind_ok, ne_eq, hm, not_true_eq_false, if_false, add_global, Bool.false_eq_true, ha]; try rfl]
      exact this
  | .fn x lbl ty prm body :: r, K, G, e, c, ps, hr, hk, hps, hom, hns, hlb, ht => by
    obtain ⟨ρ0, d0, g0⟩ := c
    have hga : e.galloc = g0 := hr.ga
    subst hga
    obtain ⟨hom1, hom2⟩ := hom
    obtain ⟨hlb1, hlb2⟩ := hlb
    simp only [NoStale] at hns
    simp only [cellsG] at ht
    obtain ⟨gl, h4, h5⟩ := hr.glo
    have hlt := h4.lt
    obtain ⟨p, hp, hm⟩ := lookup_id_spec h4 FUN x (e.top + 1) (by omega)
    have key : ∀ (G' : Scope) (e1 : Env), R G' J0 e1 ⟨ρ0, d0, e.galloc⟩ → Same (K.set x (.fn lbl)) G' →
        e1.top ≤ e.top + 6 →
        Fin (match params (fun _ => none) (-1) prm with
          | none => none
          | some ρ => match Spec.stmts G' ⟨none, none⟩ ⟨ρ, 0, e.galloc⟩ body with
            | none => none
            | some (c, os) => match unit G' c.g r with
              | none => none
              | some os' => some (os ++ os'))
          (((add_params { e1 with fs := -1, locals := 0 } prm).bind fun e =>
            (stmts { e with fs := 0 } body).bind fun (e', os) => .ok ({ e' with fs := 0, locals := e.locals }, os)).bind
            (fun (e, os) => (glos e r).bind fun (e, os') => .ok (e, os ++ os'))) := by
      intro G' e1 r1 s1 t1
      obtain ⟨gl', h4', h5'⟩ := r1.glo
      have r2 : R G' J0 { e1 with fs := -1, locals := 0 } ⟨fun _ => none, -1, e.galloc⟩ :=
        ⟨⟨[], .nil, fun _ => rfl, rfl, rfl⟩, ⟨gl', h4', h5'⟩, rfl, r1.ga, r1.tp⟩
      have hpp := params_sim prm r2 (by simp; omega)
      cases hpar : params (fun _ => none) (-1) prm with
      | none => rw [hpar] at hpp; simp only at hpp; simp only [hpp]; rfl
      | some ρ =>
        rw [hpar] at hpp
        obtain ⟨e2, pos', he2, r3, x3, hdom⟩ := hpp
        have r4 : R G' J0 { e2 with fs := 0 } ⟨ρ, 0, e.galloc⟩ := ⟨r3.loc, r3.glo, rfl, r3.ga, r3.tp⟩
        have := x3.ub
        simp only at this
        have hss := stmts_sim body r4 hlb1 (by simp; omega)
        unfold Sim at hss
        simp only [he2, Res.bind_ok]
        simp only [J0] at hss
        cases hst : Spec.stmts G' ⟨none, none⟩ ⟨ρ, 0, e.galloc⟩ body with
        | none => simp only [hst] at hss; simp only [hss]; rfl
        | some v =>
          obtain ⟨c', os⟩ := v
          simp only [hst] at hss
          obtain ⟨e3, he3, r5, x5⟩ := hss
          have r6 := r4.restore x5 r5.ga
          have := x5.ub
          simp only at this
          have ih := glos_sim r r6 s1 (ps := prm.map Prod.fst)
            (fun y hy => by rcases hdom y hy with h | h; · exact absurd rfl h
                            · exact h) hom2 hns hlb2 (by simp; omega)
          simp only [he3, Res.bind_ok]
          unfold Fin at ih ⊢
          simp only at ih ⊢
          cases hu : unit G' c'.g r with
          | none => simp only [hu] at ih; simp only [ih]; rfl
          | some os' =>
            simp only [hu] at ih
            obtain ⟨e', he⟩ := ih
            exact ⟨e', by simp only [he, Res.bind_ok]⟩
    cases hb : gl.find? (isKindId FUN x) with
    | some b =>
      rw [hb] at hm
      obtain ⟨l, ho, hx⟩ := h5.fn x b hb
      have := key G e hr (hk.setl hx (by simp) ⟨fun _ => ⟨_, rfl⟩, fun _ => ⟨_, rfl⟩⟩) (by omega)
      rw [show unit G e.galloc (.fn x lbl ty prm body :: r) = _ by simp only [unit, hx, reduceCtorEq, if_false]; try rfl]
      rw [show glos e (.fn x lbl ty prm body :: r) = _ by
        simp only [glos, glo, hp, Res.bind_ok, hm.1, if_false]; try rfl]
      exact this
    | none =>
      rw [hb] at hm
      simp only at hm
      have hx : G x = none := by
        rcases hom1 with h | h
        · exact (hk.nil x).1 h
        · obtain ⟨l, h⟩ := (hk.fn x).1 h
          cases hf : gl.find? (isVar x) with
          | some b => obtain ⟨_, _, _, h2⟩ := h5.var x b hf; rw [h] at h2; cases h2
          | none =>
            cases he : gl.find? (isKindId ENUM_CST x) with
            | some b => obtain ⟨l, _, h2⟩ := h5.const x b he; rw [h] at h2; cases h2
            | none => exact h5.nil x hf hb he
      obtain ⟨h', ha, hrr⟩ := hr.addg (x := x) (b := [FUN, x, 0, lbl, ty]) (o := .fn lbl) rfl rfl
        (by simp [toOut]) hx (.inr (.inl ⟨rfl, _, rfl⟩)) (by simp) (by simp; omega)
      have := hrr e.galloc
      have := key _ _ this (hk.set (by simp) ⟨fun _ => ⟨_, rfl⟩, fun _ => ⟨_, rfl⟩⟩) (by simp)
      rw [show unit G e.galloc (.fn x lbl ty prm body :: r) = _ by simp only [unit, hx, if_true]; try rfl]
      rw [show glos e (.fn x lbl ty prm body :: r) = _ by
        simp only [glos, glo, hp, Res.bind_ok, hm, if_true, add_global_fun, ha]; try rfl]
      exact this
  | .enum x v :: r, K, G, e, c, ps, hr, hk, hps, hom, hns, hlb, ht => by
    obtain ⟨ρ0, d0, g0⟩ := c
    have hga : e.galloc = g0 := hr.ga
    subst hga
    obtain ⟨hom1, hom2⟩ := hom
    simp only [cellsG] at ht
    obtain ⟨h', ha, hrr⟩ := hr.addg (x := x) (b := [ENUM_CST, x, v]) (o := .const v) rfl rfl
        (by simp [toOut]) ((hk.nil x).1 hom1) (.inr (.inr ⟨rfl, _, rfl⟩)) (by simp) (by simp; omega)
    have r1 := hrr e.galloc
    have ih := glos_sim r r1 (hk.set (by simp) (by simp)) hps hom2 hns hlb (by simp; omega)
    simp only [unit, glos, glo, add_enum, ha, Res.bind_ok]
    unfold Fin at ih ⊢
    simp only [List.length_cons, List.length_nil] at ih ⊢
    cases hu : unit (G.set x (.const v)) e.galloc r with
    | none => rw [hu] at ih; simp only at ih; rw [ih]; rfl
    | some os' =>
      rw [hu] at ih
      obtain ⟨e', he⟩ := ih
      exact ⟨e', by rw [he]; rfl⟩

/-- **C32 (partial)**: in a translation unit whose file-scope names are used consistently, every identifier
resolves to its innermost enclosing declaration, leaving a block restores the outer meaning, `break`
and `continue` go to the innermost enclosing construct with the stack depth of that construct, and
the compiler stops exactly on undeclared names, duplicate parameters and jumps out of nothing.
Missing: initialisers at file scope that name a parameter of the function before them (`NoStale`,
see `C32_stale_parameter_false`); the heap must not run out. -/
theorem C32_innermost_declaration_partial (heap : Nat → Int) (top : Nat) (gs : List Glo)
    (one : OneMeaning (fun _ => none) gs) (stale : NoStale [] gs) (labels : LabelsG gs) (ht : 0 < top)
    (room : top + cellsG gs ≤ HEAP_SIZE) :
    match unit (fun _ => none) 0 gs with
    | none => glos (start heap top) gs = .fatal
    | some os => ∃ e', glos (start heap top) gs = .ok (e', os) := by
  have r : R (fun _ => none) J0 (start heap top) ⟨fun _ => none, 0, 0⟩ :=
    ⟨⟨[], .nil, fun _ => rfl, rfl, rfl⟩, ⟨[], .nil, ⟨by simp, by simp, by simp, by simp⟩⟩, rfl, rfl, ht⟩
  exact glos_sim gs r ⟨fun _ => Iff.rfl, fun _ => by simp, fun _ => by simp⟩ (by simp) one stale labels room

/-- The same for a whole function body, in any state that represents the scopes: after the body of a
block, names mean what they meant before it. -/
theorem C32_block_restores {G : Scope} {J : Jumps} {e : Env} {c : Ctx} (r : R G J e c) (b : Sts)
    (labels : LabelsS b) (room : e.top + cellsS b ≤ HEAP_SIZE) {e' : Env} {os : List Out}
    (h : stmt e (.block b) = .ok (e', os)) (x : Int) :
    (resolve_identifier e' x).bind (use_binding e') = (resolve_identifier e x).bind (use_binding e) ∧
    e'.fs = e.fs := by
  have hs := stmt_sim (.block b) r (by simpa [Labels] using labels) (by simpa [cells] using room)
  unfold Sim at hs
  simp only [Spec.stmt] at hs
  cases hb : Spec.stmts G J c b with
  | none => rw [hb] at hs; simp only [inner] at hs; rw [h] at hs; cases hs
  | some v =>
    obtain ⟨c', os'⟩ := v
    rw [hb] at hs
    simp only [inner] at hs
    obtain ⟨e'', he, r', _⟩ := hs
    rw [h] at he
    simp only [Res.ok.injEq, Prod.mk.injEq] at he
    obtain ⟨rfl, rfl⟩ := he
    refine ⟨by rw [resolve_spec r' x, resolve_spec r x], ?_⟩
    simp only [stmt] at h
    rw [Res.bind_eq_ok] at h
    obtain ⟨v, _, h⟩ := h
    cases h
    rfl

/-- A list of statements. -/
def ofList : List St → Sts
  | [] => .nil
  | s :: r => .cons s (ofList r)

/-- `enum { E = 7 }; int x; int f(int a, int x) { int b; { int x; use x; while (1) { int b; break; switch
(a) { continue; break; } use b } } use x, b, a, E, f }`. -/
def sample : List Glo :=
  [.enum 105 7, .var 101 8 1 [],
   .fn 100 500 2 [(102, 1, 3), (101, 1, 4)] (ofList
    [.decl 103 1 5,
     .block (ofList [.decl 101 1 6, .use 101,
       .loop 600 601 (ofList [.decl 103 2 7, .brk, .switch 602 603 (ofList [.cont, .decl 101 1 9, .use 101, .brk]), .use 103]),
       .use 101, .use 103]),
     .use 101, .use 103, .use 102, .use 105, .use 100, .static 101 4 8, .use 101]),
   .var 104 8 1 [100, 104]]

example : OneMeaning (fun _ => none) sample ∧ NoStale [] sample ∧ LabelsG sample ∧
    1000 + cellsG sample ≤ HEAP_SIZE := by
  refine ⟨?_, ?_, ?_, by decide +kernel⟩
  · simp [OneMeaning, sample, Scope.set]
  · simp [NoStale, sample]
  · simp [LabelsG, LabelsS, Labels, sample, ofList]

example : unit (fun _ => none) 0 sample = some
    [.var 2 6, .jump (-2) 600, .jump (-3) 601, .var 6 9, .jump (-2) 602, .var 4 7, .var 2 6, .var 1 5,
     .param (-2) 4, .var 1 5, .param (-1) 3, .const 7, .fn 500, .global 8 8, .fn 500, .global 12 1] := by
  decide +kernel

/-- The outputs of a successful run. -/
def outputs : Res (Env × List Out) → Option (List Out)
  | .ok (_, os) => some os
  | _ => none

/-- `int g; int f(int g) { } int *p = &g;`: the initialiser of `p` is resolved to the parameter of `f`,
because the list of locals is not emptied at the end of a function (exe.c:2367-2416). -/
theorem C32_stale_parameter_false :
    let gs : List Glo := [.var 101 8 1 [], .fn 100 500 2 [(101, 1, 4)] .nil, .var 102 8 1 [101]]
    OneMeaning (fun _ => none) gs ∧ LabelsG gs ∧ unit (fun _ => none) 0 gs = some [.global 0 1] ∧
    outputs (glos (start (fun _ => 0) 1000) gs) = some [.param (-1) 4] := by
  refine ⟨?_, ?_, by decide +kernel, by decide +kernel⟩
  · simp [OneMeaning, Scope.set]
  · simp [LabelsG, LabelsS]

end Verif.Env
