import Verif.Storage.Model
import Verif.Storage.Spec
namespace Verif.Storage
open Verif Verif.Env Verif.Storage.Spec

/-- The object of type `t` at address `a` in a list of objects laid out from `g0`. -/
def At (g0 : Int) (L : List Obj) (a t : Int) : Prop :=
  ∃ pre n post, L = pre ++ (t, n) :: post ∧ a = g0 + bytes pre

theorem At.app {g0 L a t} (h : At g0 L a t) (M : List Obj) : At g0 (L ++ M) a t := by
  obtain ⟨pre, n, post, rfl, rfl⟩ := h
  exact ⟨pre, n, post ++ M, by simp, rfl⟩

theorem bytes_app (L M : List Obj) : bytes (L ++ M) = bytes L + bytes M := by simp [bytes]

/-- A binding for an object refers to one in the list. -/
def Good (g0 : Int) (L : List Obj) (b : List Int) : Prop :=
  b[0]! = VAR_GLOBAL → ∃ x a t, b = [VAR_GLOBAL, x, a, t] ∧ At g0 L a t

theorem Good.app {g0 L b} (h : Good g0 L b) (M : List Obj) : Good g0 (L ++ M) b := by
  intro hb
  obtain ⟨x, a, t, rfl, h2⟩ := h hb
  exact ⟨x, a, t, rfl, h2.app M⟩

theorem chain_len {h : Nat → Int} {top p : Nat} {bs} (c : Chain h top p bs) : ∀ b ∈ bs, 3 ≤ b.length := by
  induction c with
  | nil => simp
  | cons _ _ _ _ h5 _ _ ih => intro b hb; exact (List.mem_cons.1 hb).elim (fun h => h ▸ h5) (ih b)

/-- The two lists of bindings and the next free address, after the objects `L`. -/
structure Inv (g0 : Int) (L : List Obj) (seen : List Int) (e : Env) : Prop where
  loc : ∃ bs, Chain e.heap e.top e.locals bs ∧ ∀ b ∈ bs, Good g0 L b
  glo : ∃ bs, Chain e.heap e.top e.globals bs ∧ (∀ b ∈ bs, Good g0 L b) ∧
    ∀ x, x ∈ seen ↔ ∃ b ∈ bs, isVar x b = true
  ga : e.galloc = g0 + bytes L
  tp : 0 < e.top

/-- The heap in use is not changed, and the list of the file scope. -/
structure Ext (e e' : Env) : Prop where
  hp : ∀ x, x < e.top → e'.heap x = e.heap x
  tp : e.top ≤ e'.top
  gl : e'.globals = e.globals

theorem Ext.refl (e : Env) : Ext e e := ⟨fun _ _ => rfl, Nat.le_refl _, rfl⟩
theorem Ext.trans {a b c} (h : Ext a b) (k : Ext b c) : Ext a c :=
  ⟨fun x hx => by rw [k.hp x (by have := h.tp; omega), h.hp x hx], Nat.le_trans h.tp k.tp, k.gl.trans h.gl⟩

theorem use_good {g0 L} {e : Env} {p : Nat} {b : List Int} (d : Desc e.heap p b) (hl : 3 ≤ b.length)
    (hg : Good g0 L b) {a t : Int} (h : use_binding e p = .ok (.global a t)) : At g0 L a t := by
  obtain ⟨h1, _, _⟩ := desc0 d hl
  by_cases hk : e.heap (p + 1) = VAR_GLOBAL
  · obtain ⟨x, a', t', rfl, h2⟩ := hg (by rw [← h1, hk])
    have h3 := d 2 _ rfl
    have h4 := d 3 _ rfl
    simp only [Nat.add_assoc, Nat.reduceAdd] at h3 h4
    simp [use_binding, hk, VAR_GLOBAL, PARAM_LOCAL, VAR_LOCAL, h3, h4] at h
    rw [← h.1, ← h.2]
    exact h2
  · unfold use_binding at h
    simp only [hk, if_false] at h
    repeat (split at h; · simp at h)
    simp at h

/-- What a lookup finds in a list is in the list. -/
theorem found {e : Env} {bs : List (List Int)} {Q : List Int → Bool} {p : Nat}
    (hm : match bs.find? Q with
      | some b => p ≠ 0 ∧ Desc e.heap p b ∧ b ∈ bs
      | none => p = 0) (hp : p ≠ 0) : ∃ b ∈ bs, Desc e.heap p b := by
  split at hm
  · exact ⟨_, hm.2.2, hm.2.1⟩
  · exact absurd hm hp

theorem resolve_good {g0 L seen} {e : Env} (iv : Inv g0 L seen e) {x : Int} {p : Nat}
    (h : resolve_identifier e x = .ok p) : ∃ b, Desc e.heap p b ∧ 3 ≤ b.length ∧ Good g0 L b := by
  obtain ⟨ls, c1, g1⟩ := iv.loc
  obtain ⟨gs, c2, g2, _⟩ := iv.glo
  have l1 := c1.lt
  have l2 := c2.lt
  obtain ⟨p1, e1, m1⟩ := lookup_var_spec c1 x (e.top + 1) (by omega)
  obtain ⟨p2, e2, m2⟩ := lookup_var_spec c2 x (e.top + 1) (by omega)
  obtain ⟨p3, e3, m3⟩ := lookup_id_spec c2 FUN x (e.top + 1) (by omega)
  obtain ⟨p4, e4, m4⟩ := lookup_id_spec c2 ENUM_CST x (e.top + 1) (by omega)
  simp only [resolve_identifier, e1, e2, e3, e4, Res.bind_ok] at h
  split at h
  · rename_i hp; cases h
    obtain ⟨b, hb, d⟩ := found m1 hp
    exact ⟨b, d, chain_len c1 b hb, g1 b hb⟩
  split at h
  · rename_i hp; cases h
    obtain ⟨b, hb, d⟩ := found m2 hp
    exact ⟨b, d, chain_len c2 b hb, g2 b hb⟩
  split at h
  · rename_i hp; cases h
    obtain ⟨b, hb, d⟩ := found m3 hp
    exact ⟨b, d, chain_len c2 b hb, g2 b hb⟩
  split at h
  · rename_i hp; cases h
    obtain ⟨b, hb, d⟩ := found m4 hp
    exact ⟨b, d, chain_len c2 b hb, g2 b hb⟩
  · cases h

/-- Allocation of any cells. -/
theorem alloc_ext {e e' : Env} {p : Nat} {cells : List Int} (h : alloc_obj e cells = .ok (p, e')) :
    p = e.top ∧ e'.heap = writeList e.heap e.top cells ∧ e'.top = e.top + cells.length ∧ e'.fs = e.fs ∧
    e'.locals = e.locals ∧ e'.globals = e.globals ∧ e'.galloc = e.galloc ∧ e.top + cells.length ≤ HEAP_SIZE := by
  unfold alloc_obj at h
  split at h
  · cases h
  · rename_i hh
    simp only [Res.ok.injEq, Prod.mk.injEq] at h
    obtain ⟨rfl, rfl⟩ := h
    exact ⟨rfl, rfl, rfl, rfl, rfl, rfl, rfl, by omega⟩

theorem Inv.mono {g0 L seen} {e e' : Env} (iv : Inv g0 L seen e) (M : List Obj) (x : Ext e e')
    (hl : e'.locals = e.locals) (hg : e'.galloc = g0 + bytes (L ++ M)) : Inv g0 (L ++ M) seen e' := by
  obtain ⟨ls, c1, g1⟩ := iv.loc
  obtain ⟨gs, c2, g2, s2⟩ := iv.glo
  exact ⟨⟨ls, hl ▸ c1.mono x.hp x.tp, fun b hb => (g1 b hb).app M⟩,
    ⟨gs, x.gl ▸ c2.mono x.hp x.tp, fun b hb => (g2 b hb).app M, s2⟩, hg, by have := iv.tp; have := x.tp; omega⟩

/-- A new binding in the list of the locals. -/
theorem Inv.addl {g0 L seen} {e e1 e' : Env} (iv : Inv g0 L seen e) (M : List Obj) {b : List Int} {p : Nat}
    (h : alloc_obj e ((e.locals : Int) :: b) = .ok (p, e1)) (hl : 3 ≤ b.length) (hb : Good g0 (L ++ M) b)
    (h1 : e'.heap = e1.heap) (h2 : e'.top = e1.top) (h3 : e'.locals = p) (h4 : e'.globals = e1.globals)
    (h5 : e'.galloc = g0 + bytes (L ++ M)) : Inv g0 (L ++ M) seen e' ∧ Ext e e' := by
  obtain ⟨ls, c1, g1⟩ := iv.loc
  obtain ⟨gs, c2, g2, s2⟩ := iv.glo
  obtain ⟨k1, k2, k3, _, _, k6, _, k8⟩ := alloc_ext h
  obtain ⟨h', ha, hh, hc⟩ := alloc_binding c1 iv.tp b hl (by simpa using k8)
  rw [ha] at h
  simp only [Res.ok.injEq, Prod.mk.injEq] at h
  obtain ⟨rfl, rfl⟩ := h
  simp only at *
  have ex : Ext e e' := ⟨fun x hx => by rw [h1]; exact hh x hx, by rw [h2]; omega, h4⟩
  refine ⟨⟨⟨b :: ls, ?_, ?_⟩, ⟨gs, h4 ▸ c2.mono ex.hp ex.tp, fun b hb => (g2 b hb).app M, s2⟩, h5, ?_⟩, ex⟩
  · rw [h1, h2, h3]; exact hc
  · intro c hcm
    rcases List.mem_cons.1 hcm with rfl | hcm
    · exact hb
    · exact (g1 c hcm).app M
  · have := iv.tp; have := ex.tp; omega

/-- A new binding in the list of the file scope. -/
theorem Inv.addg {g0 L seen seen'} {e e1 e' : Env} (iv : Inv g0 L seen e) (M : List Obj) {b : List Int} {p : Nat}
    (h : alloc_obj e ((e.globals : Int) :: b) = .ok (p, e1)) (hl : 3 ≤ b.length) (hb : Good g0 (L ++ M) b)
    (hs : ∀ x, x ∈ seen' ↔ isVar x b = true ∨ x ∈ seen)
    (h1 : e'.heap = e1.heap) (h2 : e'.top = e1.top) (h3 : e'.globals = p) (h4 : e'.locals = e1.locals)
    (h5 : e'.galloc = g0 + bytes (L ++ M)) : Inv g0 (L ++ M) seen' e' := by
  obtain ⟨ls, c1, g1⟩ := iv.loc
  obtain ⟨gs, c2, g2, s2⟩ := iv.glo
  obtain ⟨k1, k2, k3, _, _, k6, _, k8⟩ := alloc_ext h
  obtain ⟨h', ha, hh, hc⟩ := alloc_binding c2 iv.tp b hl (by simpa using k8)
  rw [ha] at h
  simp only [Res.ok.injEq, Prod.mk.injEq] at h
  obtain ⟨rfl, rfl⟩ := h
  simp only at *
  refine ⟨⟨ls, ?_, fun b hb => (g1 b hb).app M⟩, ⟨b :: gs, ?_, ?_, ?_⟩, h5, by rw [h2]; omega⟩
  · rw [h1, h2, h4]; exact c1.mono hh (by omega)
  · rw [h1, h2, h3]; exact hc
  · intro c hcm
    rcases List.mem_cons.1 hcm with rfl | hcm
    · exact hb
    · exact (g2 c hcm).app M
  · intro x
    rw [hs, s2]
    simp

theorem good_other {g0 L} {b : List Int} (h : b[0]! ≠ VAR_GLOBAL) : Good g0 L b := fun h' => absurd h' h

theorem good_new {g0 : Int} {L : List Obj} {x t : Int} {n : Nat} {a : Int} (h : a = g0 + bytes L) :
    Good g0 (L ++ [(t, n)]) [VAR_GLOBAL, x, a, t] := fun _ => ⟨x, a, t, rfl, L, n, [], rfl, h⟩

mutual
theorem stmt_inv {g0 : Int} {seen : List Int} : ∀ (s : St) {L : List Obj} {e e' : Env} {os : List Out},
    Inv g0 L seen e → stmt e s = .ok (e', os) →
    Inv g0 (L ++ objS s) seen e' ∧ Ext e e' ∧ ∀ a t, .global a t ∈ os → At g0 (L ++ objS s) a t
  | .decl x size ty, L, e, e', os, iv, h => by
    simp only [stmt, add_local_var, Res.bind_eq_ok, Prod.exists] at h
    obtain ⟨e1, ⟨p, e2, ha, he⟩, h⟩ := h
    simp only [Res.ok.injEq, Prod.mk.injEq] at h he
    obtain ⟨rfl, rfl⟩ := h
    subst he
    have k := alloc_ext ha
    have iv' : Inv g0 L seen { e with fs := e.fs + size } := ⟨iv.loc, iv.glo, iv.ga, iv.tp⟩
    obtain ⟨i1, i2⟩ := iv'.addl [] (e' := { e2 with locals := p }) ha (by simp) (good_other (by simp [VAR_GLOBAL, VAR_LOCAL])) rfl rfl rfl rfl
      (by simpa [k.2.2.2.2.2.2.1] using iv.ga)
    exact ⟨i1, ⟨i2.hp, i2.tp, i2.gl⟩, by simp⟩
  | .static x size ty, L, e, e', os, iv, h => by
    simp only [stmt, add_global, Res.bind_eq_ok, Prod.exists, if_true] at h
    obtain ⟨e1, ⟨p, e2, ha, he⟩, h⟩ := h
    simp only [Res.ok.injEq, Prod.mk.injEq] at h he
    obtain ⟨rfl, rfl⟩ := h
    subst he
    have k := alloc_ext ha
    obtain ⟨i1, i2⟩ := iv.addl [(ty, size)] (e' := { e2 with galloc := e2.galloc + size, locals := p }) ha (by simp)
      (good_new iv.ga) rfl rfl rfl rfl
      (by simp [k.2.2.2.2.2.2.1, iv.ga, bytes]; omega)
    exact ⟨i1, i2, by simp⟩
  | .use x, L, e, e', os, iv, h => by
    simp only [stmt, Res.bind_eq_ok] at h
    obtain ⟨p, hp, o, ho, h⟩ := h
    simp only [Res.ok.injEq, Prod.mk.injEq] at h
    obtain ⟨rfl, rfl⟩ := h
    obtain ⟨b, d, hl, hg⟩ := resolve_good iv hp
    refine ⟨by simpa [objS] using iv, .refl _, ?_⟩
    intro a t hm
    simp only [List.mem_singleton] at hm
    subst hm
    simpa [objS] using use_good d hl hg ho
  | .block b, L, e, e', os, iv, h => by
    simp only [stmt, Res.bind_eq_ok, Prod.exists] at h
    obtain ⟨e1, os1, hb, h⟩ := h
    simp only [Res.ok.injEq, Prod.mk.injEq] at h
    obtain ⟨rfl, rfl⟩ := h
    obtain ⟨i1, i2, i3⟩ := stmts_inv b iv hb
    have ex : Ext e { e1 with fs := e.fs, locals := e.locals } := ⟨i2.hp, i2.tp, i2.gl⟩
    exact ⟨iv.mono (objL b) ex rfl i1.ga, ex, i3⟩
  | .loop brk cont b, L, e, e', os, iv, h => by
    simp only [stmt, add_enclosing_loop, Res.bind_eq_ok, Prod.exists] at h
    obtain ⟨e1, ⟨p, e2, ha, he⟩, e3, os1, hb, h⟩ := h
    simp only [Res.ok.injEq, Prod.mk.injEq] at h he
    obtain ⟨rfl, rfl⟩ := h
    subst he
    have k := alloc_ext ha
    obtain ⟨j1, j2⟩ := iv.addl [] (e' := { e2 with locals := p }) ha (by simp) (good_other (by simp [VAR_GLOBAL, LOOP])) rfl rfl rfl rfl
      (by simpa [k.2.2.2.2.2.2.1] using iv.ga)
    rw [List.append_nil] at j1
    obtain ⟨i1, i2, i3⟩ := stmts_inv b j1 hb
    have ex : Ext e { e3 with fs := e.fs, locals := e.locals } := by
      have := j2.trans i2
      exact ⟨this.hp, this.tp, this.gl⟩
    exact ⟨iv.mono (objL b) ex rfl i1.ga, ex, i3⟩
  | .switch brk next b, L, e, e', os, iv, h => by
    simp only [stmt, add_enclosing_switch, Res.bind_eq_ok, Prod.exists] at h
    obtain ⟨e1, ⟨p, e2, ha, he⟩, e3, os1, hb, h⟩ := h
    simp only [Res.ok.injEq, Prod.mk.injEq] at h he
    obtain ⟨rfl, rfl⟩ := h
    subst he
    have k := alloc_ext ha
    obtain ⟨j1, j2⟩ := iv.addl [] (e' := { e2 with locals := p, fs := e2.fs + 1 }) ha (by simp) (good_other (by simp [VAR_GLOBAL, SWITCH])) rfl rfl rfl rfl
      (by simpa [k.2.2.2.2.2.2.1] using iv.ga)
    rw [List.append_nil] at j1
    obtain ⟨i1, i2, i3⟩ := stmts_inv b j1 hb
    have ex : Ext e { e3 with fs := e.fs, locals := e.locals } := by
      have := j2.trans i2
      exact ⟨this.hp, this.tp, this.gl⟩
    exact ⟨iv.mono (objL b) ex rfl i1.ga, ex, i3⟩
  | .brk, L, e, e', os, iv, h => by
    simp only [stmt, Res.bind_eq_ok] at h
    obtain ⟨p, hp, h⟩ := h
    split at h
    · simp only [Res.ok.injEq, Prod.mk.injEq] at h
      obtain ⟨rfl, rfl⟩ := h
      exact ⟨by simpa [objS] using iv, .refl _, by simp⟩
    · cases h
  | .cont, L, e, e', os, iv, h => by
    simp only [stmt, Res.bind_eq_ok] at h
    obtain ⟨p, hp, h⟩ := h
    split at h
    · simp only [Res.ok.injEq, Prod.mk.injEq] at h
      obtain ⟨rfl, rfl⟩ := h
      exact ⟨by simpa [objS] using iv, .refl _, by simp⟩
    · cases h
  | .alloc cells, L, e, e', os, iv, h => by
    simp only [stmt, Res.bind_eq_ok, Prod.exists] at h
    obtain ⟨p, e1, ha, h⟩ := h
    simp only [Res.ok.injEq, Prod.mk.injEq] at h
    obtain ⟨rfl, rfl⟩ := h
    obtain ⟨k1, k2, k3, k4, k5, k6, k7, k8⟩ := alloc_ext ha
    have ex : Ext e e1 := ⟨fun x hx => by rw [k2]; exact writeList_lt _ _ _ hx, by omega, k6⟩
    exact ⟨iv.mono [] ex k5 (by simpa [k7] using iv.ga), ex, by simp⟩
theorem stmts_inv {g0 : Int} {seen : List Int} : ∀ (s : Sts) {L : List Obj} {e e' : Env} {os : List Out},
    Inv g0 L seen e → stmts e s = .ok (e', os) →
    Inv g0 (L ++ objL s) seen e' ∧ Ext e e' ∧ ∀ a t, .global a t ∈ os → At g0 (L ++ objL s) a t
  | .nil, L, e, e', os, iv, h => by
    simp only [stmts, Res.ok.injEq, Prod.mk.injEq] at h
    obtain ⟨rfl, rfl⟩ := h
    exact ⟨by simpa [objL] using iv, .refl _, by simp⟩
  | .cons s r, L, e, e', os, iv, h => by
    simp only [stmts, Res.bind_eq_ok, Prod.exists] at h
    obtain ⟨e1, os1, h1, e2, os2, h2, h⟩ := h
    simp only [Res.ok.injEq, Prod.mk.injEq] at h
    obtain ⟨rfl, rfl⟩ := h
    obtain ⟨i1, i2, i3⟩ := stmt_inv s iv h1
    obtain ⟨j1, j2, j3⟩ := stmts_inv r i1 h2
    simp only [List.append_assoc] at j1 j3
    refine ⟨by simpa [objL] using j1, i2.trans j2, ?_⟩
    intro a t hm
    simp only [objL]
    rcases List.mem_append.1 hm with hm | hm
    · have := (i3 a t hm).app (objL r); simpa using this
    · exact j3 a t hm
end

theorem uses_inv {g0 L seen} {e : Env} (iv : Inv g0 L seen e) : ∀ (xs : List Int) {os : List Out},
    uses e xs = .ok os → ∀ a t, .global a t ∈ os → At g0 L a t
  | [], os, h => by simp only [uses, Res.ok.injEq] at h; subst h; simp
  | x :: xs, os, h => by
    simp only [uses, Res.bind_eq_ok] at h
    obtain ⟨p, hp, o, ho, os1, h1, h⟩ := h
    simp only [Res.ok.injEq] at h
    subst h
    obtain ⟨b, d, hl, hg⟩ := resolve_good iv hp
    intro a t hm
    rcases List.mem_cons.1 hm with hm | hm
    · subst hm; exact use_good d hl hg ho
    · exact uses_inv iv xs h1 a t hm

theorem params_inv {g0 L seen} : ∀ (ps : List (Int × Nat × Int)) {e e' : Env},
    Inv g0 L seen e → add_params e ps = .ok e' → Inv g0 L seen e'
  | [], e, e', iv, h => by simp only [add_params, Res.ok.injEq] at h; subst h; exact iv
  | (x, w, ty) :: ps, e, e', iv, h => by
    simp only [add_params, Res.bind_eq_ok] at h
    obtain ⟨p, _, h⟩ := h
    split at h
    · cases h
    · simp only [add_local_param, Res.bind_eq_ok, Prod.exists] at h
      obtain ⟨e1, ⟨q, e2, ha, he⟩, h⟩ := h
      simp only [Res.ok.injEq] at he
      subst he
      have k := alloc_ext ha
      obtain ⟨i1, _⟩ := iv.addl [] (e' := { e2 with locals := q, fs := e2.fs - w }) ha (by simp)
        (good_other (by simp [VAR_GLOBAL, PARAM_LOCAL])) rfl rfl rfl rfl (by simpa [k.2.2.2.2.2.2.1] using iv.ga)
      rw [List.append_nil] at i1
      exact params_inv ps i1 h

theorem glos_inv {g0 : Int} : ∀ (gs : List Glo) {L : List Obj} {seen : List Int} {e e' : Env} {os : List Out},
    Inv g0 L seen e → glos e gs = .ok (e', os) →
    e'.galloc = g0 + bytes (L ++ objects seen gs) ∧ ∀ a t, .global a t ∈ os → At g0 (L ++ objects seen gs) a t
  | [], L, seen, e, e', os, iv, h => by
    simp only [glos, Res.ok.injEq, Prod.mk.injEq] at h
    obtain ⟨rfl, rfl⟩ := h
    exact ⟨by simpa [objects] using iv.ga, by simp⟩
  | .var x size ty init :: r, L, seen, e, e', os, iv, h => by
    simp only [glos, glo, Res.bind_eq_ok, Prod.exists] at h
    obtain ⟨e1, os1, ⟨p, hp, e2, h2, os2, hu, h⟩, e3, os3, h3, hh⟩ := h
    simp only [Res.ok.injEq, Prod.mk.injEq] at h hh
    obtain ⟨rfl, rfl⟩ := h
    obtain ⟨rfl, rfl⟩ := hh
    obtain ⟨gl, c2, g2, s2⟩ := iv.glo
    have l2 := c2.lt
    obtain ⟨p', hp', hm⟩ := lookup_var_spec c2 x (e.top + 1) (by omega)
    rw [hp] at hp'
    simp only [Res.ok.injEq] at hp'
    subst hp'
    simp only [objects]
    by_cases hx : x ∈ seen
    · obtain ⟨b, hb, hv⟩ := (s2 x).1 hx
      have hp0 : p ≠ 0 := by
        cases hf : gl.find? (isVar x) with
        | none => rw [List.find?_eq_none] at hf; exact absurd hv (hf b hb)
        | some _ => rw [hf] at hm; exact hm.1
      rw [if_pos hp0] at h2
      simp only [Res.ok.injEq] at h2
      subst h2
      rw [if_pos hx]
      obtain ⟨j1, j2⟩ := glos_inv r iv h3
      refine ⟨j1, fun a t hmm => ?_⟩
      rcases List.mem_append.1 hmm with hmm | hmm
      · exact (uses_inv iv init hu a t hmm).app _
      · exact j2 a t hmm
    · have hp0 : ¬ p ≠ 0 := by
        intro hp0
        apply hx
        rw [s2]
        cases hf : gl.find? (isVar x) with
        | none => rw [hf] at hm; exact absurd hm hp0
        | some b => exact ⟨b, List.mem_of_find?_eq_some hf, List.find?_some hf⟩
      rw [if_neg hp0] at h2
      simp only [add_global, Res.bind_eq_ok, Prod.exists, Bool.false_eq_true, if_false] at h2
      obtain ⟨q, e4, ha, he⟩ := h2
      simp only [Res.ok.injEq] at he
      subst he
      have k := alloc_ext ha
      have i1 := iv.addg [(ty, size)] (seen' := x :: seen) (e' := { e4 with galloc := e4.galloc + size, globals := q }) ha (by simp)
        (good_new iv.ga) (by intro y; simp [isVar, VAR_GLOBAL, eq_comm]) rfl rfl rfl rfl
        (by simp [k.2.2.2.2.2.2.1, iv.ga, bytes]; omega)
      rw [if_neg hx]
      obtain ⟨j1, j2⟩ := glos_inv r i1 h3
      simp only [List.append_assoc, List.singleton_append] at j1 j2
      refine ⟨j1, fun a t hmm => ?_⟩
      rcases List.mem_append.1 hmm with hmm | hmm
      · have := (uses_inv i1 init hu a t hmm).app (objects (x :: seen) r)
        simpa using this
      · exact j2 a t hmm
  | .fn x lbl ty ps body :: r, L, seen, e, e', os, iv, h => by
    simp only [glos, glo, Res.bind_eq_ok, Prod.exists] at h
    obtain ⟨e1, os1, ⟨p, hp, e2, h2, e3, h3, e4, os4, h4, h⟩, e5, os5, h5, hh⟩ := h
    simp only [Res.ok.injEq, Prod.mk.injEq] at h hh
    obtain ⟨rfl, rfl⟩ := h
    obtain ⟨rfl, rfl⟩ := hh
    have i2 : Inv g0 L seen e2 := by
      split at h2
      · simp only [add_global_fun, Res.bind_eq_ok, Prod.exists] at h2
        obtain ⟨q, e6, ha, he⟩ := h2
        simp only [Res.ok.injEq] at he
        subst he
        have k := alloc_ext ha
        have := iv.addg [] (seen' := seen) (e' := { e6 with globals := q }) ha (by simp)
          (good_other (by simp [VAR_GLOBAL, FUN])) (by intro y; simp [isVar, VAR_GLOBAL, FUN]) rfl rfl rfl rfl
          (by simpa [k.2.2.2.2.2.2.1] using iv.ga)
        simpa using this
      · simp only [Res.ok.injEq] at h2; exact h2 ▸ iv
    have i2' : Inv g0 L seen { e2 with fs := -1, locals := 0 } := ⟨⟨[], .nil, by simp⟩, i2.glo, i2.ga, i2.tp⟩
    have i3 := params_inv ps i2' h3
    have i3' : Inv g0 L seen { e3 with fs := 0 } := ⟨i3.loc, i3.glo, i3.ga, i3.tp⟩
    obtain ⟨i4, x4, o4⟩ := stmts_inv body i3' h4
    have ex : Ext e3 { e4 with fs := 0, locals := e3.locals } := ⟨x4.hp, x4.tp, x4.gl⟩
    have i5 := i3.mono (objL body) ex rfl i4.ga
    obtain ⟨j1, j2⟩ := glos_inv r i5 h5
    simp only [List.append_assoc] at j1 j2
    simp only [objects]
    refine ⟨j1, fun a t hmm => ?_⟩
    rcases List.mem_append.1 hmm with hmm | hmm
    · have := (o4 a t hmm).app (objects seen r)
      simpa using this
    · exact j2 a t hmm
  | .enum x v :: r, L, seen, e, e', os, iv, h => by
    simp only [glos, glo, add_enum, Res.bind_eq_ok, Prod.exists] at h
    obtain ⟨e1, os1, ⟨e2, ⟨q, e6, ha, he⟩, h⟩, e5, os5, h5, hh⟩ := h
    simp only [Res.ok.injEq, Prod.mk.injEq] at h hh he
    obtain ⟨rfl, rfl⟩ := h
    obtain ⟨rfl, rfl⟩ := hh
    subst he
    have k := alloc_ext ha
    have i1 := iv.addg [] (seen' := seen) (e' := { e6 with globals := q }) ha (by simp)
      (good_other (by simp [VAR_GLOBAL, ENUM_CST])) (by intro y; simp [isVar, VAR_GLOBAL, ENUM_CST]) rfl rfl rfl rfl
      (by simpa [k.2.2.2.2.2.2.1] using iv.ga)
    rw [List.append_nil] at i1
    simpa [objects] using glos_inv r i1 h5

theorem builtins_inv {g0 : Int} : ∀ (bs : List (Int × Int × Int)) {L : List Obj} {seen : List Int} {e e' : Env},
    Inv g0 L seen e → builtins e bs = .ok e' → Inv g0 L seen e'
  | [], L, seen, e, e', iv, h => by simp only [builtins, Res.ok.injEq] at h; exact h ▸ iv
  | (x, lbl, ty) :: r, L, seen, e, e', iv, h => by
    simp only [builtins, add_global_fun, Res.bind_eq_ok, Prod.exists] at h
    obtain ⟨e1, ⟨q, e6, ha, he⟩, h⟩ := h
    simp only [Res.ok.injEq] at he
    subst he
    have k := alloc_ext ha
    have i1 := iv.addg [] (seen' := seen) (e' := { e6 with globals := q }) ha (by simp)
      (good_other (by simp [VAR_GLOBAL, FUN])) (by intro y; simp [isVar, VAR_GLOBAL, FUN]) rfl rfl rfl rfl
      (by simpa [k.2.2.2.2.2.2.1] using iv.ga)
    rw [List.append_nil] at i1
    exact builtins_inv r i1 h

end Verif.Storage
