import Verif.ShProg.Proofs1
/-! The calls of a run on a tape; evaluation in C. -/
namespace Verif.ShProg
open Verif Verif.Stmt Verif.Frame Verif.ShProg.Spec
open Verif.Hoist (Expr Args Rv Dest Cmd Machine obind omap)

variable {L : Lang}

/-- A call that was made. -/
structure Entry (L : Lang) where
  f : Nat
  vs : List Int
  g : Glob L.X
  r : Int
  g' : Glob L.X

open Classical in
/-- The first call of the tape. -/
noncomputable def callOf (t : List (Entry L)) (f : Nat) (vs : List Int) (w : CW L.X) : Option (Int × CW L.X) :=
  match t with
  | [] => none
  | en :: _ => if en.f = f ∧ en.vs = vs ∧ en.g = w.g then some (en.r, { w with g := en.g' }) else none

/-- C without calls. -/
abbrev cM0 (L : Lang) : Machine := cM L fun _ _ _ => none

/-- C with the calls of a tape. -/
@[reducible] noncomputable def tM (L : Lang) : Machine where
  W := CW L.X × List (Entry L)
  read x p := (cM0 L).read x p.1
  write x v p := ((cM0 L).write x v p.1, p.2)
  load a p := (cM0 L).load a p.1
  store a v p := ((cM0 L).store a v p.1).map fun w => (w, p.2)
  un := L.un
  bin := L.bin
  call f vs p := (callOf p.2 f vs p.1).map fun (r, w) => (r, (w, p.2.tail))

/-- What is left of a tape. -/
def Rest (t t' : List (Entry L)) : Prop := t' = t ∨ t' = t.tail

theorem tM_get {l : Expr} {p : (tM L).W} {call} : (tM L).get l p = (cM L call).get l p.1 := by
  match l with
  | .var _ => rfl
  | .deref (.lit _) => rfl
  | .lit _ | .tmp _ | .un .. | .paren _ | .cast _ | .bin .. | .comma .. | .assign .. | .opassign .. | .post .. | .call .. | .logic .. | .logic4 .. | .cond .. => rfl
  | .deref (.var _) | .deref (.tmp _) | .deref (.un ..) | .deref (.deref _) | .deref (.paren _) | .deref (.cast _) | .deref (.bin ..) | .deref (.comma ..) | .deref (.assign ..) | .deref (.opassign ..)
  | .deref (.post ..) | .deref (.call ..) | .deref (.logic ..) | .deref (.logic4 ..) | .deref (.cond ..) => rfl

theorem tM_set {l : Expr} {v : Int} {p p' : (tM L).W} {call} (h : (tM L).set l v p = some p') : (cM L call).set l v p.1 = some p'.1 ∧ p'.2 = p.2 := by
  unfold Machine.set at h ⊢
  split at h
  · cases h; exact ⟨rfl, rfl⟩
  · obtain ⟨w, h1, h2⟩ := omap h
    cases h2
    exact ⟨h1, rfl⟩
  · cases h

mutual
theorem erase : ∀ {e : Expr} {p : (tM L).W} {e' : Expr} {p' : (tM L).W}, Hoist.Spec.Step (tM L) e p e' p' → Hoist.Spec.Step (cM L (callOf p.2)) e p.1 e' p'.1 ∧ Rest p.2 p'.2
  | _, _, _, _, .var => ⟨.var, .inl rfl⟩
  | _, _, _, _, .un h => ⟨.un h, .inl rfl⟩
  | _, _, _, _, .unIn h => ⟨.unIn (erase h).1, (erase h).2⟩
  | _, _, _, _, .deref h => ⟨.deref h, .inl rfl⟩
  | _, _, _, _, .derefIn h => ⟨.derefIn (erase h).1, (erase h).2⟩
  | _, _, _, _, .paren => ⟨.paren, .inl rfl⟩
  | _, _, _, _, .parenIn h => ⟨.parenIn (erase h).1, (erase h).2⟩
  | _, _, _, _, .cast => ⟨.cast, .inl rfl⟩
  | _, _, _, _, .castIn h => ⟨.castIn (erase h).1, (erase h).2⟩
  | _, _, _, _, .bin h => ⟨.bin h, .inl rfl⟩
  | _, _, _, _, .binL h => ⟨.binL (erase h).1, (erase h).2⟩
  | _, _, _, _, .binR h => ⟨.binR (erase h).1, (erase h).2⟩
  | _, _, _, _, .comma => ⟨.comma, .inl rfl⟩
  | _, _, _, _, .commaL h => ⟨.commaL (erase h).1, (erase h).2⟩
  | _, _, _, _, .assign h => ⟨.assign (tM_set h).1, .inl (tM_set (call := fun _ _ _ => none) h).2⟩
  | _, _, _, _, .assignL h => ⟨.assignL (erase h).1, (erase h).2⟩
  | _, _, _, _, .assignR h => ⟨.assignR (erase h).1, (erase h).2⟩
  | _, _, _, _, .opassign h1 h2 h3 => ⟨.opassign (tM_get ▸ h1) h2 (tM_set h3).1, .inl (tM_set (call := fun _ _ _ => none) h3).2⟩
  | _, _, _, _, .opassignL h => ⟨.opassignL (erase h).1, (erase h).2⟩
  | _, _, _, _, .opassignR h => ⟨.opassignR (erase h).1, (erase h).2⟩
  | _, _, _, _, .post h1 h2 h3 => ⟨.post (tM_get ▸ h1) h2 (tM_set h3).1, .inl (tM_set (call := fun _ _ _ => none) h3).2⟩
  | _, _, _, _, .postL h => ⟨.postL (erase h).1, (erase h).2⟩
  | _, _, _, _, .call hv h => by
    obtain ⟨⟨r, w⟩, h1, h2⟩ := omap h
    cases h2
    exact ⟨.call hv h1, .inr rfl⟩
  | _, _, _, _, .callIn h => ⟨.callIn (eraseArgs h).1, (eraseArgs h).2⟩
  | _, _, _, _, .logicL h => ⟨.logicL (erase h).1, (erase h).2⟩
  | _, _, _, _, .logicR hx h => ⟨.logicR hx (erase h).1, (erase h).2⟩
  | _, _, _, _, .logicEnd h => ⟨.logicEnd h, .inl rfl⟩
  | _, _, _, _, .logicSkip h => ⟨.logicSkip h, .inl rfl⟩
  | _, _, _, _, .condL h => ⟨.condL (erase h).1, (erase h).2⟩
  | _, _, _, _, .condT h => ⟨.condT h, .inl rfl⟩
  | _, _, _, _, .condF h => ⟨.condF h, .inl rfl⟩
theorem eraseArgs : ∀ {e : Args} {p : (tM L).W} {e' : Args} {p' : (tM L).W}, Hoist.Spec.StepArgs (tM L) e p e' p' → Hoist.Spec.StepArgs (cM L (callOf p.2)) e p.1 e' p'.1 ∧ Rest p.2 p'.2
  | _, _, _, _, .head h => ⟨.head (erase h).1, (erase h).2⟩
  | _, _, _, _, .tail h => ⟨.tail (eraseArgs h).1, (eraseArgs h).2⟩
end

/-- The calls of a tape are allowed. -/
def Good (C : Calls L) (t : List (Entry L)) : Prop := ∀ en ∈ t, C en.f en.vs en.g en.r en.g'

theorem callOf_obeys {C : Calls L} {t : List (Entry L)} (h : Good C t) : Obeys C (callOf t) := by
  intro f vs w r w' hc
  unfold callOf at hc
  split at hc
  · cases hc
  · split at hc
    · rename_i en _ hh
      obtain ⟨rfl, rfl, hg⟩ := hh
      cases hc
      exact ⟨hg ▸ h en (by simp), rfl⟩
    · cases hc

theorem Spec.Steps.trans' {C : Calls L} {a b c : Expr} {u v w : CW L.X} (h : Spec.Steps C a u b v) (h' : Spec.Steps C b v c w) : Spec.Steps C a u c w := by
  induction h with
  | refl => exact h'
  | step s _ ih => exact .step s (ih h')

theorem erase_steps {C : Calls L} {e : Expr} {p : (tM L).W} {e' : Expr} {p' : (tM L).W} (h : Hoist.Spec.Steps (tM L) e p e' p') (ht : Good C p.2) : Spec.Steps C e p.1 e' p'.1 := by
  induction h with
  | refl => exact .refl
  | step s _ ih =>
    obtain ⟨h1, h2⟩ := erase s
    refine .step ⟨_, callOf_obeys ht, h1⟩ (ih ?_)
    rcases h2 with h2 | h2
    · rw [h2]; exact ht
    · rw [h2]; exact fun en hen => ht en (List.mem_of_mem_tail hen)

/-! ## Names -/

theorem gv_inj {i j : Nat} : gv i = gv j ↔ i = j := by simp only [gv, Name.glob.injEq]; omega
theorem mc_inj {i j : Nat} : mc i = mc j ↔ i = j := by simp only [mc, Name.glob.injEq]; omega
theorem gv_ne_mc {i j : Nat} : gv i ≠ mc j := by simp [gv, mc]; omega

/-- Global storage under the name `x`, if any. -/
def gset {X : Type} (x : Name) (v : Int) (g : Glob X) : Glob X := ⟨fun i => if gv i = x then v else g.var i, fun a => if mc a = x then v else g.mem a, g.x⟩

theorem getG_set {X : Type} (S : Sh X) (x : Name) (v : Int) : getG (S.set x v) = gset x v (getG S) := rfl

theorem gset_not {X : Type} {x : Name} (v : Int) (g : Glob X) (h : x.isGlob = false) : gset x v g = g := by
  have h1 : ∀ i, gv i ≠ x := fun i e => by subst e; simp [gv, Name.isGlob] at h
  have h2 : ∀ i, mc i ≠ x := fun i e => by subst e; simp [mc, Name.isGlob] at h
  simp [gset, h1, h2]

theorem gset_none {X : Type} (v : Int) (g : Glob X) : gset (.glob 0) v g = g := by simp [gset, gv, mc]

theorem gset_gv {X : Type} (i : Nat) (v : Int) (g : Glob X) : gset (gv i) v g = { g with var := upd g.var i v } := by
  simp only [gset, gv_inj, gv_ne_mc.symm, if_false, Glob.mk.injEq, and_true]
  funext j; simp [upd]

theorem gset_mc {X : Type} (i : Nat) (v : Int) (g : Glob X) : gset (mc i) v g = { g with mem := upd g.mem i v } := by
  simp only [gset, mc_inj, gv_ne_mc, if_false, Glob.mk.injEq, and_true, true_and]
  funext j; simp [upd]

theorem gset_same {X : Type} {x : Name} (S : Sh X) : gset x (S.s x) (getG S) = getG S := by
  simp only [gset, getG, Glob.mk.injEq, and_true]
  constructor <;> (funext i; split) <;> first | rfl | (rename_i h; rw [← h])

theorem gset_gset {X : Type} (x : Name) (v u : Int) (g : Glob X) : gset x v (gset x u g) = gset x v g := by
  simp only [gset, Glob.mk.injEq, and_true]
  constructor <;> (funext i; split <;> simp_all)

theorem getG_putG {X : Type} (S : Sh X) (g : Glob X) : getG (putG S g) = g := by
  cases g with
  | mk a b c =>
    simp only [getG, putG, gv, mc, Glob.mk.injEq, and_true]
    constructor
    · funext i
      rw [if_neg (by omega), if_pos (by omega)]
      congr 1; omega
    · funext i
      rw [if_neg (by omega), if_neg (by omega)]
      congr 1; omega

theorem putG_other {X : Type} (S : Sh X) (g : Glob X) {y : Name} (h : y.isGlob = false) : (putG S g).s y = S.s y := by
  cases y <;> simp_all [putG, Name.isGlob]

/-! ## The states of a function -/

/-- In an activation with variables `vars`, entered with the store `s0`: the shell state `S` stands for the state `w` of C. -/
structure Ok (vars : List Name) (s0 : Store) (S : Sh L.X) (w : CW L.X) : Prop where
  loc : ∀ i, .loc i ∈ vars → S.s (.loc i) = w.loc i
  glob : getG S = w.g
  others : ∀ y : Name, y.own = true → y ∉ vars → S.s y = s0 y
  sp : S.s .sp = s0 .sp
  stack : ∀ k ≤ s0 .sp, S.s (.stk k) = s0 (.stk k)

theorem nm_cases (x : Nat) : (x % 2 = 0 ∧ nm x = .loc (x / 2)) ∨ (x % 2 = 1 ∧ nm x = gv (x / 2)) := by
  unfold nm
  split
  · exact .inl ⟨by assumption, rfl⟩
  · exact .inr ⟨by omega, rfl⟩

theorem okVar_loc {vars : List Name} {x : Nat} (h : okVar vars x = true) (h0 : x % 2 = 0) : Name.loc (x / 2) ∈ vars := by
  simp only [okVar, Bool.or_eq_true, decide_eq_true_eq, List.contains_iff_mem] at h
  rcases h with h | h
  · omega
  · exact h

theorem Ok.setLoc {vars : List Name} {s0 : Store} {S : Sh L.X} {w : CW L.X} (h : Ok vars s0 S w) {i : Nat} (hi : Name.loc i ∈ vars) (v : Int) :
    Ok vars s0 (S.set (.loc i) v) { w with loc := upd w.loc i v } := by
  refine ⟨?_, ?_, ?_, ?_, ?_⟩
  · intro j hj
    simp only [Sh.set, Frame.set, upd, Name.loc.injEq]
    split
    · rfl
    · exact h.loc j hj
  · rw [getG_set, gset_not _ _ rfl]; exact h.glob
  · intro y hy hn
    have : y ≠ .loc i := fun e => hn (e ▸ hi)
    simp only [Sh.set, Frame.set, this, if_false]
    exact h.others y hy hn
  · simpa [Sh.set, Frame.set] using h.sp
  · intro k hk; simpa [Sh.set, Frame.set] using h.stack k hk

theorem Ok.setGlob {vars : List Name} {s0 : Store} {S : Sh L.X} {w : CW L.X} (h : Ok vars s0 S w) {n : Nat} (v : Int) :
    Ok vars s0 (S.set (.glob n) v) { w with g := gset (.glob n) v w.g } := by
  refine ⟨?_, ?_, ?_, ?_, ?_⟩
  · intro j hj
    simp only [Sh.set, Frame.set, reduceCtorEq, if_false]
    exact h.loc j hj
  · rw [getG_set, h.glob]
  · intro y hy hn
    have : y ≠ .glob n := fun e => by subst e; simp [Name.own] at hy
    simp only [Sh.set, Frame.set, this, if_false]
    exact h.others y hy hn
  · simpa [Sh.set, Frame.set] using h.sp
  · intro k hk; simpa [Sh.set, Frame.set] using h.stack k hk

/-- Assigning to an identifier. -/
theorem Ok.write {vars : List Name} {s0 : Store} {S : Sh L.X} {w : CW L.X} (h : Ok vars s0 S w) {x : Nat} (hx : okVar vars x = true) (v : Int) :
    Ok vars s0 (S.set (nm x) v) (CW.write x v w) := by
  rcases nm_cases x with ⟨h0, e⟩ | ⟨h1, e⟩
  · rw [e]; simp only [CW.write, h0, if_true]; exact h.setLoc (okVar_loc hx h0) v
  · rw [e]; simp only [CW.write, if_neg (show ¬ x % 2 = 0 by omega)]
    have := h.setGlob (n := 2 * (x / 2) + 1) v
    rw [← gset_gv]; exact this

theorem Ok.store {vars : List Name} {s0 : Store} {S : Sh L.X} {w : CW L.X} (h : Ok vars s0 S w) {a : Int} (hv : L.valid a S.x = true) (v : Int) :
    ∃ w', CW.store L a v w = some w' ∧ Ok vars s0 (S.set (mc a.toNat) v) w' := by
  have hx : w.g.x = S.x := by rw [← h.glob]; rfl
  refine ⟨{ w with g := { w.g with mem := upd w.g.mem a.toNat v } }, by rw [CW.store, if_pos (hx ▸ hv)], ?_⟩
  rw [← gset_mc]
  exact h.setGlob (n := 2 * a.toNat + 2) v

theorem Ok.x {vars : List Name} {s0 : Store} {S : Sh L.X} {w : CW L.X} (h : Ok vars s0 S w) : w.g.x = S.x := by rw [← h.glob]; rfl

theorem T_set {X : Type} {S : Sh X} {x : Name} {v : Int} (h : ∀ k, x ≠ .temp k) : (S.set x v).T = S.T := by
  funext k
  simp [Sh.T, Sh.set, Frame.set, (h k).symm]

theorem nm_temp (x k : Nat) : nm x ≠ .temp k := by unfold nm; split <;> simp [gv]

/-- The shell's arithmetic and C's. -/
theorem shRel (L : Lang) (vars : List Name) (s0 : Store) (T : Nat → Int) : MRel (okVar vars) (shM L) (cM0 L) fun S w => Ok vars s0 S w ∧ S.T = T := by
  refine ⟨?_, ?_, ?_, ?_, rfl, rfl⟩
  · rintro x S w ⟨h, _⟩ hx
    show S.s (nm x) = CW.read x w
    rcases nm_cases x with ⟨h0, e⟩ | ⟨h1, e⟩
    · rw [e]; simp only [CW.read, h0, if_true]; exact h.loc _ (okVar_loc hx h0)
    · rw [e]; simp only [CW.read, if_neg (show ¬ x % 2 = 0 by omega)]
      rw [← h.glob]; rfl
  · rintro x v S w ⟨h, ht⟩ hx
    exact ⟨h.write hx v, by rw [← ht]; exact T_set (nm_temp x)⟩
  · rintro a S w ⟨h, _⟩
    show (if L.valid a S.x then some (S.s (mc a.toNat)) else none) = CW.load L a w
    simp only [CW.load]
    rw [h.x]
    split
    · rw [← h.glob]; rfl
    · rfl
  · rintro a v S w S' ⟨h, ht⟩ hs
    change (if L.valid a S.x then some (S.set (mc a.toNat) v) else none) = some S' at hs
    split at hs
    · rename_i hv
      cases hs
      obtain ⟨w', h1, h2⟩ := h.store hv v
      exact ⟨w', h1, h2, by rw [← ht]; exact T_set fun k => by simp [mc]⟩
    · cases hs

theorem tapeRel (L : Lang) (t : List (Entry L)) : MRel (fun _ => true) (cM0 L) (tM L) fun w p => p = (w, t) := by
  refine ⟨?_, ?_, ?_, ?_, rfl, rfl⟩
  · rintro x w p rfl _; rfl
  · rintro x v w p rfl _; rfl
  · rintro a w p rfl; rfl
  · rintro a v w p w' rfl h; exact ⟨(w', t), by show (((cM0 L).store a v w).map fun w => (w, t)) = _; rw [h]; rfl, rfl⟩

theorem scope_true : ∀ (e : Expr) {ok : Nat → Bool}, scope ok e = true → scope (fun _ => true) e = true := by
  intro e
  match e with
  | .lit _ | .tmp _ | .var _ => intro _ _; rfl
  | .un _ e | .deref e | .paren e | .cast e | .post _ e => intro ok h; simp only [scope] at h ⊢; exact scope_true e h
  | .bin _ _ a b | .comma a b | .assign a b | .opassign _ a b | .logic _ a b | .logic4 _ a b _ _ =>
    intro ok h; simp only [scope, Bool.and_eq_true] at h ⊢; exact ⟨scope_true a h.1, scope_true b h.2⟩
  | .cond c a b => intro ok h; simp only [scope, Bool.and_eq_true] at h ⊢; exact ⟨⟨scope_true c h.1.1, scope_true a h.1.2⟩, scope_true b h.2⟩
  | .call .. => intro ok h; simp [scope] at h

/-- `$((e))`. -/
theorem arith_ok {vars : List Name} {s0 : Store} {S S' : Sh L.X} {w : CW L.X} {T : Nat → Int} {e : Expr} {v : Int} (h : Ok vars s0 S w) (ht : S.T = T) (hs : scope (okVar vars) e = true)
    (he : Hoist.arith (shM L) T e S = some (v, S')) :
    ∃ w', Ok vars s0 S' w' ∧ S'.T = T ∧ ∀ t, Hoist.arith (tM L) T e (w, t) = some (v, (w', t)) := by
  obtain ⟨w', h1, h2, h3⟩ := (shRel L vars s0 T).arith hs ⟨h, ht⟩ he
  refine ⟨w', h2, h3, fun t => ?_⟩
  obtain ⟨p, h4, rfl⟩ := (tapeRel L t).arith (scope_true e hs) rfl h1
  exact h4

theorem ariths_ok {vars : List Name} {s0 : Store} {S S' : Sh L.X} {w : CW L.X} {T : Nat → Int} {es : List Expr} {vs : List Int} (h : Ok vars s0 S w) (ht : S.T = T) (hs : es.all (scope (okVar vars)) = true)
    (he : Hoist.ariths (shM L) T es S = some (vs, S')) :
    ∃ w', Ok vars s0 S' w' ∧ S'.T = T ∧ ∀ t, Hoist.ariths (tM L) T es (w, t) = some (vs, (w', t)) := by
  obtain ⟨w', h1, h2, h3⟩ := (shRel L vars s0 T).ariths _ _ _ _ _ hs ⟨h, ht⟩ he
  refine ⟨w', h2, h3, fun t => ?_⟩
  obtain ⟨p, h4, rfl⟩ := (tapeRel L t).ariths _ _ _ _ _ (by
    rw [List.all_eq_true] at hs ⊢; exact fun e he => scope_true e (hs e he)) rfl h1
  exact h4

theorem leaf_ok {vars : List Name} {s0 : Store} {S S' : Sh L.X} {w : CW L.X} {e : Expr} {b : Bool} (h : Ok vars s0 S w) (hs : scope (okVar vars) e = true)
    (he : sleaf e S = some (b, S')) :
    ∃ w', Ok vars s0 S' w' ∧ S'.T = S.T ∧ ∀ t, Hoist.runLeaf (tM L) S.T e (w, t) = some (b, (w', t)) := by
  obtain ⟨w', h1, h2, h3⟩ := (shRel L vars s0 S.T).leaf hs ⟨h, rfl⟩ he
  refine ⟨w', h2, h3, fun t => ?_⟩
  obtain ⟨p, h4, rfl⟩ := (tapeRel L t).leaf (scope_true e hs) rfl h1
  exact h4

end Verif.ShProg
