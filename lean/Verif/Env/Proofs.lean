import Verif.Env.Spec
namespace Verif.Env
open Verif Spec

/-- The fields from `kind` on of the binding at `p`. -/
def Desc (h : Nat → Int) (p : Nat) (b : List Int) : Prop := ∀ i v, b[i]? = some v → h (p + 1 + i) = v

/-- `p` is the head of a list of bindings stored below `top`. -/
inductive Chain (h : Nat → Int) (top : Nat) : Nat → List (List Int) → Prop
  | nil : Chain h top 0 []
  | cons {p q b bs} : p ≠ 0 → q < p → h p = q → Desc h p b → 3 ≤ b.length → p + 1 + b.length ≤ top →
      Chain h top q bs → Chain h top p (b :: bs)

theorem Chain.mono {h h' : Nat → Int} {top top' p : Nat} {bs} (c : Chain h top p bs)
    (hh : ∀ x, x < top → h' x = h x) (ht : top ≤ top') : Chain h' top' p bs := by
  induction c with
  | nil => exact .nil
  | cons h1 h2 h3 h4 h5 h6 _ ih =>
    refine .cons h1 h2 (by rw [hh _ (by omega)]; exact h3) ?_ h5 (by omega) ih
    intro i v hv
    have : i < _ := (List.getElem?_eq_some_iff.1 hv).1
    rw [hh _ (by omega)]
    exact h4 i v hv

theorem walk_spec {h : Nat → Int} {top : Nat} {P : Nat → Bool} {Q : List Int → Bool}
    (hPQ : ∀ p b, Desc h p b → 3 ≤ b.length → P p = Q b) {p : Nat} {bs} (c : Chain h top p bs) :
    ∀ fuel, p < fuel → ∃ p', walk h P fuel p = .ok p' ∧
      match bs.find? Q with
      | some b => p' ≠ 0 ∧ Desc h p' b ∧ b ∈ bs
      | none => p' = 0 := by
  induction c with
  | nil =>
    intro fuel hf
    cases fuel with
    | zero => omega
    | succ f => exact ⟨0, by simp [walk], rfl⟩
  | @cons p q b bs h1 h2 h3 h4 h5 h6 _ ih =>
    intro fuel hf
    cases fuel with
    | zero => omega
    | succ f =>
      rw [walk, if_neg h1, hPQ p b h4 h5]
      by_cases hq : Q b = true
      · rw [if_pos hq]
        refine ⟨p, rfl, ?_⟩
        rw [List.find?_cons_of_pos hq]
        exact ⟨h1, h4, by simp⟩
      · rw [if_neg hq, List.find?_cons_of_neg hq, h3]
        obtain ⟨p', e, hm⟩ := ih f (by omega)
        refine ⟨p', by simpa using e, ?_⟩
        split <;> rename_i heq <;> rw [heq] at hm
        · exact ⟨hm.1, hm.2.1, by simp [hm.2.2]⟩
        · exact hm

theorem desc0 {h : Nat → Int} {p : Nat} {b : List Int} (d : Desc h p b) (hl : 3 ≤ b.length) :
    h (p + 1) = b[0]! ∧ h (p + 2) = b[1]! ∧ h (p + 3) = b[2]! := by
  match b, hl with
  | a :: b :: c :: _, _ => exact ⟨d 0 a rfl, d 1 b rfl, d 2 c rfl⟩

/-- What a binding denotes. -/
def toOut (b : List Int) : Option Out :=
  match b with
  | [k, _, a, t] => if k = PARAM_LOCAL then some (.param a t) else if k = VAR_LOCAL then some (.var a t)
      else if k = VAR_GLOBAL then some (.global a t) else none
  | [k, _, a] => if k = ENUM_CST then some (.const a) else none
  | [k, _, _, l, _] => if k = FUN then some (.fn l) else none
  | _ => none

def isVar (x : Int) (b : List Int) : Bool := b[0]! ≤ VAR_GLOBAL && b[1]! = x
def isKind (k : Int) (b : List Int) : Bool := b[0]! = k
def isKindId (k x : Int) (b : List Int) : Bool := b[0]! = k && b[1]! = x
def isLS (b : List Int) : Bool := b[0]! = LOOP || b[0]! = SWITCH

theorem lookup_var_spec {h : Nat → Int} {top p : Nat} {bs} (c : Chain h top p bs) (x : Int) (fuel : Nat)
    (hf : p < fuel) : ∃ p', lookup_var h fuel x p = .ok p' ∧
      match bs.find? (isVar x) with
      | some b => p' ≠ 0 ∧ Desc h p' b ∧ b ∈ bs
      | none => p' = 0 := by
  apply walk_spec (Q := isVar x) _ c fuel hf
  intro p b d hl
  obtain ⟨h1, h2, _⟩ := desc0 d hl
  simp [isVar, h1, h2]

theorem lookup_id_spec {h : Nat → Int} {top p : Nat} {bs} (c : Chain h top p bs) (k x : Int) (fuel : Nat)
    (hf : p < fuel) : ∃ p', lookup_binding_ident h fuel k x p = .ok p' ∧
      match bs.find? (isKindId k x) with
      | some b => p' ≠ 0 ∧ Desc h p' b ∧ b ∈ bs
      | none => p' = 0 := by
  apply walk_spec (Q := isKindId k x) _ c fuel hf
  intro p b d hl
  obtain ⟨h1, h2, _⟩ := desc0 d hl
  simp [isKindId, h1, h2]

theorem lookup_last_spec {h : Nat → Int} {top p : Nat} {bs} (c : Chain h top p bs) (k : Int) (fuel : Nat)
    (hf : p < fuel) : ∃ p', lookup_last_binding h fuel k p = .ok p' ∧
      match bs.find? (isKind k) with
      | some b => p' ≠ 0 ∧ Desc h p' b ∧ b ∈ bs
      | none => p' = 0 := by
  apply walk_spec (Q := isKind k) _ c fuel hf
  intro p b d hl
  obtain ⟨h1, h2, _⟩ := desc0 d hl
  simp [isKind, h1]

theorem lookup_ls_spec {h : Nat → Int} {top p : Nat} {bs} (c : Chain h top p bs) (fuel : Nat)
    (hf : p < fuel) : ∃ p', lookup_loop_or_switch h fuel p = .ok p' ∧
      match bs.find? isLS with
      | some b => p' ≠ 0 ∧ Desc h p' b ∧ b ∈ bs
      | none => p' = 0 := by
  apply walk_spec (Q := isLS) _ c fuel hf
  intro p b d hl
  obtain ⟨h1, h2, _⟩ := desc0 d hl
  simp [isLS, h1]

theorem Chain.lt {h : Nat → Int} {top p : Nat} {bs} (c : Chain h top p bs) : p ≤ top := by
  cases c <;> omega

/-- Writing a new binding. -/
theorem alloc_binding {e : Env} {q : Nat} {bs} (c : Chain e.heap e.top q bs) (ht : 0 < e.top)
    (b : List Int) (hb : 3 ≤ b.length) (hm : e.top + (b.length + 1) ≤ HEAP_SIZE) :
    ∃ h', alloc_obj e ((q : Int) :: b) = .ok (e.top, { e with heap := h', top := e.top + (b.length + 1) }) ∧
      (∀ x, x < e.top → h' x = e.heap x) ∧ Chain h' (e.top + (b.length + 1)) e.top (b :: bs) := by
  refine ⟨writeList e.heap e.top ((q : Int) :: b), ?_, fun x hx => writeList_lt _ _ _ hx, ?_⟩
  · unfold alloc_obj
    rw [if_neg (by simp; omega)]
    simp
  · have hq := c.lt
    have hq' : q < e.top ∨ q = e.top := by omega
    have hlt : q < e.top := by cases c <;> omega
    refine .cons (by omega) hlt ?_ ?_ hb (by omega) (c.mono (fun x hx => writeList_lt _ _ _ hx) (by omega))
    · have := writeList_get (m := e.heap) (a := e.top) (vs := (q : Int) :: b) (i := 0) (by simp)
      simpa using this
    · intro i v hv
      obtain ⟨hi, hv⟩ := List.getElem?_eq_some_iff.1 hv
      have := writeList_get (m := e.heap) (a := e.top) (vs := (q : Int) :: b) (i := i + 1) (by simp; omega)
      rw [show e.top + 1 + i = e.top + (i + 1) by omega, this]
      simpa using hv


theorem use_of_desc {e : Env} {p : Nat} {b : List Int} {o : Out} (d : Desc e.heap p b) (h : toOut b = some o) :
    use_binding e p = .ok o := by
  unfold toOut at h
  split at h
  · rename_i k x a t
    have h1 := d 0 _ rfl
    have h3 := d 2 _ rfl
    have h4 := d 3 _ rfl
    simp only [Nat.add_zero, Nat.add_assoc, Nat.reduceAdd] at h1 h3 h4
    unfold use_binding
    simp only [h1, h3, h4]
    split at h
    · rename_i hk; rw [if_pos hk]; simpa using h
    split at h
    · rename_i hk' hk; rw [if_neg hk', if_pos hk]; simpa using h
    split at h
    · rename_i hk'' hk' hk; rw [if_neg hk'', if_neg hk', if_pos hk]; simpa using h
    · simp at h
  · rename_i k x a
    have h1 := d 0 _ rfl
    have h3 := d 2 _ rfl
    simp only [Nat.add_zero, Nat.add_assoc, Nat.reduceAdd] at h1 h3
    split at h
    · rename_i hk
      subst hk
      simp only [Option.some.injEq] at h
      simp [use_binding, h1, h3, ENUM_CST, PARAM_LOCAL, VAR_LOCAL, VAR_GLOBAL, h]
    · simp at h
  · rename_i k x a l t
    have h1 := d 0 _ rfl
    have h4 := d 3 _ rfl
    simp only [Nat.add_zero, Nat.add_assoc, Nat.reduceAdd] at h1 h4
    split at h
    · rename_i hk
      subst hk
      simp only [Option.some.injEq] at h
      simp [use_binding, h1, h4, FUN, ENUM_CST, PARAM_LOCAL, VAR_LOCAL, VAR_GLOBAL, h]
    · simp at h
  · simp at h

/-- The local list `bs` gives the names of `ρ`. -/
def LocOk (bs : List (List Int)) (ρ : Scope) : Prop :=
  ∀ x, match bs.find? (isVar x) with
    | some b => ∃ o, toOut b = some o ∧ ρ x = some o
    | none => ρ x = none

def JumpOk (bs : List (List Int)) (J : Jumps) : Prop :=
  (match bs.find? isLS with
    | some b => ∃ k d l r, b = k :: d :: l :: r ∧ J.brk = some (d, l)
    | none => J.brk = none) ∧
  (match bs.find? (isKind LOOP) with
    | some b => ∃ k d l m, b = [k, d, l, m] ∧ m ≠ 0 ∧ J.cont = some (d, m)
    | none => J.cont = none)

structure GloOk (gs : List (List Int)) (G : Scope) : Prop where
  var : ∀ x b, gs.find? (isVar x) = some b → ∃ a t, toOut b = some (.global a t) ∧ G x = some (.global a t)
  fn : ∀ x b, gs.find? (isKindId FUN x) = some b → ∃ l, toOut b = some (.fn l) ∧ G x = some (.fn l)
  const : ∀ x b, gs.find? (isKindId ENUM_CST x) = some b → ∃ v, toOut b = some (.const v) ∧ G x = some (.const v)
  nil : ∀ x, gs.find? (isVar x) = none → gs.find? (isKindId FUN x) = none →
    gs.find? (isKindId ENUM_CST x) = none → G x = none

/-- The state represents the scopes. -/
structure R (G : Scope) (J : Jumps) (e : Env) (c : Ctx) : Prop where
  loc : ∃ bs, Chain e.heap e.top e.locals bs ∧ LocOk bs c.ρ ∧ JumpOk bs J
  glo : ∃ gs, Chain e.heap e.top e.globals gs ∧ GloOk gs G
  fs : e.fs = c.d
  ga : e.galloc = c.g
  tp : 0 < e.top

/-- Only new cells are written. -/
structure Ext (e e' : Env) (n : Nat) : Prop where
  heap : ∀ x, x < e.top → e'.heap x = e.heap x
  le : e.top ≤ e'.top
  ub : e'.top ≤ e.top + n
  glo : e'.globals = e.globals

theorem Ext.refl (e : Env) (n : Nat) : Ext e e n := ⟨fun _ _ => rfl, Nat.le_refl _, by omega, rfl⟩

theorem Ext.trans {e1 e2 e3 : Env} {n m : Nat} (h : Ext e1 e2 n) (k : Ext e2 e3 m) : Ext e1 e3 (n + m) :=
  ⟨fun x hx => by rw [k.heap x (by have := h.le; omega), h.heap x hx], by have := h.le; have := k.le; omega,
   by have := h.ub; have := k.ub; omega, by rw [k.glo, h.glo]⟩

theorem R.restore {G J e c} (r : R G J e c) {e' : Env} {n : Nat} (x : Ext e e' n) {g : Int}
    (hg : e'.galloc = g) : R G J { e' with fs := e.fs, locals := e.locals } ⟨c.ρ, c.d, g⟩ := by
  obtain ⟨bs, h1, h2, h3⟩ := r.loc
  obtain ⟨gs, h4, h5⟩ := r.glo
  exact ⟨⟨bs, h1.mono x.heap x.le, h2, h3⟩, ⟨gs, by simpa [x.glo] using h4.mono x.heap x.le, h5⟩, r.fs, hg,
    by have := r.tp; have := x.le; simp; omega⟩

theorem LocOk.cons {bs ρ} (h : LocOk bs ρ) {k x a t : Int} {o : Out} (hk : k ≤ VAR_GLOBAL)
    (ho : toOut [k, x, a, t] = some o) : LocOk ([k, x, a, t] :: bs) (ρ.set x o) := by
  intro y
  by_cases hy : y = x
  · subst hy
    rw [List.find?_cons_of_pos (by simp [isVar, hk])]
    exact ⟨o, ho, by simp [Scope.set]⟩
  · rw [List.find?_cons_of_neg (by simp [isVar]; intro _; exact fun h => hy h.symm)]
    have := h y
    simpa [Scope.set, hy] using this

theorem LocOk.skip {bs ρ} (h : LocOk bs ρ) {b : List Int} (hk : VAR_GLOBAL < b[0]!) : LocOk (b :: bs) ρ := by
  intro y
  rw [List.find?_cons_of_neg (by simp only [isVar, Bool.and_eq_true, decide_eq_true_eq]; omega)]
  exact h y

theorem JumpOk.skip {bs J} (h : JumpOk bs J) {b : List Int} (hk : b[0]! ≤ VAR_GLOBAL) : JumpOk (b :: bs) J := by
  unfold VAR_GLOBAL at hk
  have n1 : ¬ isLS b = true := by
    intro h'; simp only [isLS, Bool.or_eq_true, decide_eq_true_eq] at h'; simp only [LOOP, SWITCH] at h'; omega
  have n2 : ¬ isKind LOOP b = true := by
    intro h'; simp only [isKind, decide_eq_true_eq] at h'; simp only [LOOP] at h'; omega
  unfold JumpOk
  rw [List.find?_cons_of_neg n1, List.find?_cons_of_neg n2]
  exact h

theorem JumpOk.loop {bs} (d l m : Int) (hm : m ≠ 0) : JumpOk ([LOOP, d, l, m] :: bs) ⟨some (d, l), some (d, m)⟩ := by
  unfold JumpOk
  rw [List.find?_cons_of_pos (by simp [isLS]), List.find?_cons_of_pos (by simp [isKind])]
  exact ⟨⟨_, _, _, _, rfl, rfl⟩, ⟨_, _, _, _, rfl, hm, rfl⟩⟩

theorem JumpOk.switch {bs J} (h : JumpOk bs J) (d l m z : Int) :
    JumpOk ([SWITCH, d, l, m, z] :: bs) ⟨some (d, l), J.cont⟩ := by
  unfold JumpOk
  rw [List.find?_cons_of_pos (by simp [isLS]), List.find?_cons_of_neg (by simp [isKind, LOOP, SWITCH])]
  exact ⟨⟨_, _, _, _, rfl, rfl⟩, h.2⟩

theorem resolve_spec {G J e c} (r : R G J e c) (x : Int) :
    (resolve_identifier e x).bind (use_binding e) =
      match c.ρ x with
      | some o => .ok o
      | none => match G x with
        | some o => .ok o
        | none => .fatal := by
  obtain ⟨bs, h1, h2, h3⟩ := r.loc
  obtain ⟨gs, h4, h5⟩ := r.glo
  have hl := h1.lt
  have hl' := h4.lt
  unfold resolve_identifier
  obtain ⟨p, hp, hm⟩ := lookup_var_spec h1 x (e.top + 1) (by omega)
  rw [hp, Res.bind_ok]
  have h2x := h2 x
  cases hb : bs.find? (isVar x) with
  | some b =>
    rw [hb] at hm h2x
    obtain ⟨o, ho, hx⟩ := h2x
    simp only [ne_eq, hm.1, not_false_eq_true, if_true, Res.bind_ok, hx]
    exact use_of_desc hm.2.1 ho
  | none =>
    rw [hb] at hm h2x
    simp only at hm h2x
    simp only [hm, ne_eq, not_true_eq_false, if_false, h2x]
    obtain ⟨p, hp, hm⟩ := lookup_var_spec h4 x (e.top + 1) (by omega)
    rw [hp, Res.bind_ok]
    cases hb : gs.find? (isVar x) with
    | some b =>
      rw [hb] at hm
      obtain ⟨a, t, ho, hx⟩ := h5.var x b hb
      simp only [hm.1, not_false_eq_true, if_true, Res.bind_ok, hx]
      exact use_of_desc hm.2.1 ho
    | none =>
    rw [hb] at hm
    simp only at hm
    simp only [hm, not_true_eq_false, if_false]
    obtain ⟨p, hp, hm⟩ := lookup_id_spec h4 FUN x (e.top + 1) (by omega)
    rw [hp, Res.bind_ok]
    cases hb1 : gs.find? (isKindId FUN x) with
    | some b =>
      rw [hb1] at hm
      obtain ⟨l, ho, hx⟩ := h5.fn x b hb1
      simp only [hm.1, not_false_eq_true, if_true, Res.bind_ok, hx]
      exact use_of_desc hm.2.1 ho
    | none =>
    rw [hb1] at hm
    simp only at hm
    simp only [hm, not_true_eq_false, if_false]
    obtain ⟨p, hp, hm⟩ := lookup_id_spec h4 ENUM_CST x (e.top + 1) (by omega)
    rw [hp, Res.bind_ok]
    cases hb2 : gs.find? (isKindId ENUM_CST x) with
    | some b =>
      rw [hb2] at hm
      obtain ⟨l, ho, hx⟩ := h5.const x b hb2
      simp only [hm.1, not_false_eq_true, if_true, Res.bind_ok, hx]
      exact use_of_desc hm.2.1 ho
    | none =>
    rw [hb2] at hm
    simp only at hm
    simp only [hm, not_true_eq_false, if_false, h5.nil x hb hb1 hb2]
    rfl

/-- What is shown of a statement. -/
def Sim (G : Scope) (J : Jumps) (e : Env) (n : Nat) (spec : Option (Ctx × List Out)) (m : Res (Env × List Out)) : Prop :=
  match spec with
  | none => m = .fatal
  | some (c', os) => ∃ e', m = .ok (e', os) ∧ R G J e' c' ∧ Ext e e' n

theorem sim_inner {G J J' e c e1 n k} {spec m} (r : R G J e c) (x : Ext e e1 k)
    (h : Sim G J' e1 n spec m) :
    Sim G J e (k + n) (inner c spec) (m.bind fun (e', os) => .ok ({ e' with fs := e.fs, locals := e.locals }, os)) := by
  unfold Sim at h ⊢
  cases spec with
  | none => simp only at h; subst h; rfl
  | some v =>
    obtain ⟨c', os⟩ := v
    obtain ⟨e', rfl, hr, hx⟩ := h
    refine ⟨_, rfl, r.restore (x.trans hx) hr.ga, ?_⟩
    have := x.trans hx
    exact ⟨this.heap, this.le, this.ub, this.glo⟩

mutual
theorem stmt_sim {G : Scope} : ∀ (s : St) {J e c}, R G J e c → Labels s → e.top + cells s ≤ HEAP_SIZE →
    Sim G J e (cells s) (Spec.stmt G J c s) (stmt e s)
  | .decl x size ty, J, e, c, r, _, ht => by
    obtain ⟨bs, h1, h2, h3⟩ := r.loc
    obtain ⟨gs, h4, h5⟩ := r.glo
    simp only [cells] at ht
    obtain ⟨h', ha, hh, hc⟩ := alloc_binding (e := { e with fs := e.fs + size }) h1 r.tp [VAR_LOCAL, x, e.fs + size, ty] (by simp) (by simpa using ht)
    simp only [Sim, Spec.stmt, stmt, add_local_var, ha, Res.bind_ok]
    refine ⟨_, rfl, ⟨⟨_, hc, ?_, h3.skip (by simp [VAR_LOCAL, VAR_GLOBAL])⟩,
      ⟨gs, h4.mono hh (by simp), h5⟩, by simp [r.fs], r.ga, by have := r.tp; simp⟩,
      ⟨hh, by simp, by simp [cells], rfl⟩⟩
    rw [r.fs]
    exact h2.cons (by simp [VAR_LOCAL, VAR_GLOBAL]) (by simp [toOut, VAR_LOCAL, PARAM_LOCAL])
  | .static x size ty, J, e, c, r, _, ht => by
    obtain ⟨bs, h1, h2, h3⟩ := r.loc
    obtain ⟨gs, h4, h5⟩ := r.glo
    simp only [cells] at ht
    obtain ⟨h', ha, hh, hc⟩ := alloc_binding (e := e) h1 r.tp [VAR_GLOBAL, x, e.galloc, ty] (by simp) (by simpa using ht)
    simp only [Sim, Spec.stmt, stmt, add_global, if_true, ha, Res.bind_ok]
    refine ⟨_, rfl, ⟨⟨_, hc, ?_, h3.skip (by simp [VAR_GLOBAL])⟩,
      ⟨gs, h4.mono hh (by simp), h5⟩, by simp [r.fs], by simp [r.ga], by have := r.tp; simp⟩,
      ⟨hh, by simp, by simp [cells], rfl⟩⟩
    rw [r.ga]
    exact h2.cons (by simp [VAR_GLOBAL]) (by simp [toOut, VAR_LOCAL, PARAM_LOCAL, VAR_GLOBAL])
  | .use x, J, e, c, r, _, ht => by
    have h := resolve_spec r x
    have hs : stmt e (.use x) = ((resolve_identifier e x).bind (use_binding e)).bind fun o => .ok (e, [o]) := by
      rw [Res.bind_assoc]; rfl
    rw [hs, h]
    unfold Sim
    simp only [Spec.stmt]
    cases hx : c.ρ x with
    | some o => exact ⟨e, rfl, r, Ext.refl _ _⟩
    | none =>
      cases hg : G x with
      | some o => exact ⟨e, rfl, r, Ext.refl _ _⟩
      | none => rfl
  | .block b, J, e, c, r, hl, ht => by
    have := sim_inner r (Ext.refl e 0) (stmts_sim b r hl ht)
    rw [Nat.zero_add] at this
    simpa only [Spec.stmt, stmt, cells] using this
  | .loop brk cont b, J, e, c, r, hl, ht => by
    obtain ⟨bs, h1, h2, h3⟩ := r.loc
    obtain ⟨gs, h4, h5⟩ := r.glo
    simp only [cells] at ht
    simp only [Labels] at hl
    obtain ⟨h', ha, hh, hc⟩ := alloc_binding (e := e) h1 r.tp [LOOP, e.fs, brk, cont] (by simp) (by simp; omega)
    simp only [Spec.stmt, stmt, add_enclosing_loop, ha, Res.bind_ok, cells]
    refine sim_inner (k := 5) r (e1 := ⟨h', e.top + 5, e.fs, e.top, e.globals, e.galloc⟩) ⟨hh, by simp, by simp, rfl⟩
      (stmts_sim b ⟨⟨_, hc, h2.skip (by simp [LOOP, VAR_GLOBAL]), ?_⟩,
      ⟨gs, h4.mono hh (by simp), h5⟩, r.fs, r.ga, by have := r.tp; simp⟩ hl.2 (by simp; omega))
    rw [r.fs]
    exact JumpOk.loop _ _ _ hl.1
  | .switch brk next b, J, e, c, r, hl, ht => by
    obtain ⟨bs, h1, h2, h3⟩ := r.loc
    obtain ⟨gs, h4, h5⟩ := r.glo
    simp only [cells] at ht
    simp only [Labels] at hl
    obtain ⟨h', ha, hh, hc⟩ := alloc_binding (e := e) h1 r.tp [SWITCH, e.fs, brk, next, 0] (by simp) (by simp; omega)
    simp only [Spec.stmt, stmt, add_enclosing_switch, ha, Res.bind_ok, cells]
    refine sim_inner (k := 6) r (e1 := ⟨h', e.top + 6, e.fs + 1, e.top, e.globals, e.galloc⟩) ⟨hh, by simp, by simp, rfl⟩
      (stmts_sim b ⟨⟨_, hc, h2.skip (by simp [SWITCH, VAR_GLOBAL]), ?_⟩,
      ⟨gs, h4.mono hh (by simp), h5⟩, by simp [r.fs], r.ga, by have := r.tp; simp⟩ hl (by simp; omega))
    rw [r.fs]
    exact h3.switch _ _ _ _
  | .brk, J, e, c, r, _, ht => by
    obtain ⟨bs, h1, h2, h3, h3'⟩ := r.loc
    have hl := h1.lt
    obtain ⟨p, hp, hm⟩ := lookup_ls_spec h1 (e.top + 1) (by omega)
    simp only [Sim, Spec.stmt, stmt, hp, Res.bind_ok]
    cases hb : bs.find? isLS with
    | none =>
      rw [hb] at hm h3
      simp only at hm h3
      simp only [hm, h3, ne_eq, not_true_eq_false, if_false]
    | some b =>
      rw [hb] at hm h3
      obtain ⟨k, d, l, rr, rfl, h3⟩ := h3
      have d1 := hm.2.1 1 _ rfl
      have d2 := hm.2.1 2 _ rfl
      simp only [Nat.add_assoc, Nat.reduceAdd] at d1 d2
      simp only [hm.1, h3, ne_eq, not_false_eq_true, if_true, d1, d2]
      exact ⟨e, by rw [r.fs], r, Ext.refl _ _⟩
  | .cont, J, e, c, r, _, ht => by
    obtain ⟨bs, h1, h2, h3', h3⟩ := r.loc
    have hl := h1.lt
    obtain ⟨p, hp, hm⟩ := lookup_last_spec h1 LOOP (e.top + 1) (by omega)
    simp only [Sim, Spec.stmt, stmt, hp, Res.bind_ok]
    cases hb : bs.find? (isKind LOOP) with
    | none =>
      rw [hb] at hm h3
      simp only at hm h3
      simp only [hm, h3, ne_eq, not_true_eq_false, false_and, if_false]
    | some b =>
      rw [hb] at hm h3
      obtain ⟨k, d, l, m, rfl, hm0, h3⟩ := h3
      have d1 := hm.2.1 1 _ rfl
      have d2 := hm.2.1 3 _ rfl
      simp only [Nat.add_assoc, Nat.reduceAdd] at d1 d2
      simp only [hm.1, h3, ne_eq, not_false_eq_true, if_true, d1, d2, hm0, and_self]
      exact ⟨e, by rw [r.fs], r, Ext.refl _ _⟩
  | .alloc cs, J, e, c, r, _, ht => by
    simp only [cells] at ht
    simp only [Sim, Spec.stmt, stmt, alloc_obj, if_neg (Nat.not_lt.2 ht), Res.bind_ok]
    have hx : Ext e ⟨writeList e.heap e.top cs, e.top + cs.length, e.fs, e.locals, e.globals, e.galloc⟩ cs.length :=
      ⟨fun x hx => writeList_lt _ _ _ hx, by simp, by simp, rfl⟩
    exact ⟨_, rfl, r.restore hx r.ga, hx⟩
theorem stmts_sim {G : Scope} : ∀ (s : Sts) {J e c}, R G J e c → LabelsS s → e.top + cellsS s ≤ HEAP_SIZE →
    Sim G J e (cellsS s) (Spec.stmts G J c s) (stmts e s)
  | .nil, J, e, c, r, _, _ => ⟨e, rfl, r, Ext.refl _ _⟩
  | .cons s t, J, e, c, r, hl, ht => by
    simp only [cellsS] at ht
    have h1 := stmt_sim s r hl.1 (by omega)
    unfold Sim at h1 ⊢
    simp only [Spec.stmts, stmts, cellsS]
    cases hs : Spec.stmt G J c s with
    | none => rw [hs] at h1; simp only at h1; rw [h1]; rfl
    | some v =>
      rw [hs] at h1
      obtain ⟨c1, os⟩ := v
      obtain ⟨e1, he, r1, x1⟩ := h1
      have h2 := stmts_sim t r1 hl.2 (by have := x1.ub; omega)
      unfold Sim at h2
      simp only [he, Res.bind_ok]
      cases hs2 : Spec.stmts G J c1 t with
      | none => rw [hs2] at h2; simp only at h2; rw [h2]; rfl
      | some v =>
        rw [hs2] at h2
        obtain ⟨c2, os2⟩ := v
        obtain ⟨e2, he2, r2, x2⟩ := h2
        exact ⟨e2, by simp only [he2, Res.bind_ok], r2, x1.trans x2⟩
end

end Verif.Env
