import Verif.Frame.Proofs2
namespace Verif.Frame
open Verif Verif.Stmt

/-! ### Entry -/

theorem mem_let_params {v : Nat} : (ps : List Nat) → (k i : Nat) → ps.findIdx? (· == v) = some i → (Name.loc v, k + i) ∈ let_params ps k
  | [], _, _, h => by simp at h
  | p :: r, k, i, h => by
    rw [List.findIdx?_cons] at h
    by_cases e : p = v
    · subst e
      simp at h; subst h; simp [let_params]
    · simp only [beq_iff_eq, e, if_false] at h
      cases hr : r.findIdx? (· == v) with
      | none => simp [hr] at h
      | some j =>
        simp only [hr, Option.map_some, Option.some.injEq] at h
        subst h
        have := mem_let_params r (k+1) j hr
        simp only [let_params, List.mem_cons]
        right
        rw [show k + (j + 1) = k + 1 + j by omega]; exact this

theorem let_params_fst : (ps : List Nat) → (k : Nat) → (let_params ps k).map Prod.fst = ps.map .loc
  | [], _ => rfl
  | p :: r, k => by simp [let_params, let_params_fst r]

/-- The names and values pushed and set on entry. -/
def entry (f : Fn) (args : List Int) : List (Name × Int) :=
  (let_params f.params 0).map (fun p => (p.1, args.getD p.2 0)) ++ (save_local_vars f.vars).map fun x => (x, 0)

theorem foldl_lets1 (args : List Int) : (l : List (Name × Nat)) → (s : Store) →
    l.foldl (fun s p => let_ p.1 (args.getD p.2 0) s) s = lets (l.map fun p => (p.1, args.getD p.2 0)) s
  | [], _ => rfl
  | p :: r, s => by simp only [List.foldl_cons, List.map_cons, lets]; exact foldl_lets1 args r _

theorem foldl_lets2 : (l : List Name) → (s : Store) →
    l.foldl (fun s x => let_ x 0 s) s = lets (l.map fun x => (x, 0)) s
  | [], _ => rfl
  | p :: r, s => by simp only [List.foldl_cons, List.map_cons, lets]; exact foldl_lets2 r _

theorem enter_eq (f : Fn) (args : List Int) (s : Store) : enter f args s = lets (entry f args) s := by
  simp only [enter, foldl_lets1, foldl_lets2, entry]
  simp [lets, List.foldl_append]

theorem entry_fst (f : Fn) (args : List Int) : (entry f args).map Prod.fst = pushed f := by
  simp only [entry, pushed, List.map_append, List.map_map]
  congr 1
  · rw [← let_params_fst f.params 0]; apply List.map_congr_left; intro p _; rfl
  · simp [Function.comp_def]

theorem pushed_own {f : Fn} (h : f.wf) {x : Name} (hx : x ∈ pushed f) : x.own = true := by
  obtain ⟨_, others, _, e⟩ := h
  rw [pushed_eq e] at hx
  simp only [List.mem_append, List.mem_map, List.mem_reverse] at hx
  rcases hx with ⟨v, _, rfl⟩ | hx
  · rfl
  · obtain ⟨k, rfl, _⟩ := mem_restore_temps _ hx; rfl

theorem entry_val {f : Fn} (h : f.wf) (args : List Int) (g s : Store) {x : Name} (hx : x ∈ pushed f) :
    lets (entry f args) s x = start f args g x := by
  have hn := pushed_nodup h
  obtain ⟨_, _, _, _, h5⟩ := lets_spec (entry f args) s
    (fun p hp => pushed_own h (by rw [← entry_fst f args]; exact List.mem_map_of_mem hp)) (by rw [entry_fst]; exact hn)
  obtain ⟨_, others, hno, e⟩ := h
  have hpe := pushed_eq e
  -- a name that is not a parameter
  have key : x ∉ f.params.map .loc → lets (entry f args) s x = 0 := by
    intro hnp
    have hm : x ∈ save_local_vars f.vars := by
      simp only [pushed, List.mem_append] at hx
      rcases hx with hx | hx
      · exact absurd hx hnp
      · exact hx
    exact h5 (x, 0) (by simp only [entry, List.mem_append, List.mem_map]; exact Or.inr ⟨x, hm, rfl⟩)
  rw [hpe] at hx
  simp only [List.mem_append, List.mem_map, List.mem_reverse] at hx
  rcases hx with ⟨v, hv, rfl⟩ | hx
  · simp only [start]
    cases hf : f.params.findIdx? (· == v) with
    | some i =>
      exact h5 (.loc v, args.getD i 0) (by
        simp only [entry, List.mem_append, List.mem_map]
        exact Or.inl ⟨(.loc v, 0 + i), mem_let_params _ _ _ hf, by simp⟩)
    | none =>
      refine key fun hm => ?_
      simp only [List.mem_map, Name.loc.injEq, exists_eq_right] at hm
      rw [List.findIdx?_eq_none_iff] at hf
      simpa using hf v hm
  · obtain ⟨k, rfl, _⟩ := mem_restore_temps _ hx
    simp only [start]
    exact key (by simp)

/-! ### Calls -/

/-- Where results may go. -/
def Name.isVar (x : Name) : Bool := x.own || x.isGlob

theorem isVar_ne {x : Name} (h : x.isVar = true) : x ≠ .sp ∧ x ≠ .tmp ∧ ∀ k, x ≠ .stk k := by
  cases x <;> simp_all [Name.isVar, Name.own, Name.isGlob]

theorem owns_iff {f : Fn} (h : f.wf) {x : Name} (ho : x.own = true) : f.owns x = true ↔ x ∈ pushed f := by
  cases x <;> simp_all [Name.own, Fn.owns, restore_eq h]

/-- What a call does. -/
structure Post (G' : Store) (v : Option Int) (ret : Name) (s s' : Store) : Prop where
  globals : ∀ g, .glob g ≠ ret ∨ v = none → s' (.glob g) = G' (.glob g)
  result : ∀ x, v = some x → s' ret = x
  others : ∀ x : Name, x.own = true → x ≠ ret → s' x = s x
  sp : s' .sp = s .sp
  stack : ∀ k ≤ s .sp, s' (.stk k) = s (.stk k)

/-- The shell calls do what the C calls do. -/
def CallOK (cc : Nat → List Int → Store → Option (Store × Option Int))
    (sc : Nat → List Int → Name → Store → Option Store) : Prop :=
  ∀ k args G s ret G' v, ret.isVar = true → (∀ g, s (.glob g) = G (.glob g)) → cc k args G = some (G', v) →
    ∃ s', sc k args ret s = some s' ∧ Post G' v ret s s'

/-- In an activation entered with `s1`. -/
structure InAct (f : Fn) (ret : Name) (s1 : Store) (c : CS) (s : Store) : Prop where
  run : c.rv = none → ∀ x, f.owns x = true → s x = c.env x
  done : ∀ v, c.rv = some v → s ret = v ∧ ∀ x, f.owns x = true → x ≠ ret → s x = c.env x
  others : ∀ x : Name, x.own = true → f.owns x = false → x ≠ ret → s x = s1 x
  sp : s .sp = s1 .sp
  stack : ∀ k ≤ s1 .sp, s (.stk k) = s1 (.stk k)

theorem view_eq {f : Fn} {ret : Name} {s1 : Store} {c : CS} {s : Store} (h : InAct f ret s1 c s) (hr : c.rv = none) :
    view f s = view f c.env := by
  funext x
  simp only [view]
  split
  · rename_i ho; exact h.run hr x ho
  · rfl

theorem put_inact {f : Fn} {ret : Name} {s1 : Store} {c : CS} {s : Store} (h : InAct f ret s1 c s) (hr : c.rv = none)
    (v : Store) : InAct f ret s1 { c with env := view f v } (put f s v) := by
  refine ⟨?_, ?_, ?_, ?_, ?_⟩
  · intro _ x hx; simp [put, view, hx]
  · intro v' hv'; simp [hr] at hv'
  · intro x hx ho hn; simp only [put, ho, Bool.false_eq_true, if_false]; exact h.others x hx ho hn
  · simp only [put, Fn.owns, Bool.false_eq_true, if_false]; exact h.sp
  · intro k hk; simp only [put, Fn.owns, Bool.false_eq_true, if_false]; exact h.stack k hk

theorem sim_act {f : Fn} (hd : f.dsts) {cc sc} (hcall : CallOK cc sc) {ret : Name} (hret : ret.isVar = true) {s1 : Store}
    (a : Nat) (c : CS) (s : Store) (c' : CS) (h : InAct f ret s1 c s) (hc : cact cc f (f.acts a) c = some c') :
    ∃ s', sact sc f ret (f.acts a) s = some s' ∧ InAct f ret s1 c' s' := by
  unfold cact at hc
  cases hrv : c.rv with
  | some v => simp [hrv] at hc
  | none =>
  simp only [hrv, Option.isSome_none, Bool.false_eq_true, if_false] at hc
  have hv := view_eq h hrv
  have hg : ∀ g, s (.glob g) = c.env (.glob g) := fun g => h.run hrv _ rfl
  cases ha : f.acts a with
  | prim g =>
    simp only [ha, Option.some.injEq] at hc
    subst hc
    refine ⟨_, rfl, ?_⟩
    rw [hv]
    have := put_inact h hrv (g (view f c.env))
    simpa [hrv] using this
  | call k dst args =>
    simp only [ha, Option.bind_eq_some_iff] at hc
    obtain ⟨⟨G', v⟩, h1, hc⟩ := hc
    have ho : f.owns (dst (view f c.env)) = true := hd a k dst args ha _
    have hdv : (dst (view f c.env)).isVar = true := by
      revert ho; cases dst (view f c.env) <;> simp [Fn.owns, Name.isVar, Name.own, Name.isGlob]
    obtain ⟨s', e, post⟩ := hcall k _ _ s (dst (view f c.env)) G' v hdv hg h1
    refine ⟨s', by simp only [sact, hv]; exact e, ?_⟩
    have fr : ∀ x : Name, x.own = true → f.owns x = false → x ≠ ret → s' x = s1 x := by
      intro x hx hnx hr
      rw [post.others x hx (by rintro rfl; simp [ho] at hnx), h.others x hx hnx hr]
    have fsp : s' .sp = s1 .sp := by rw [post.sp, h.sp]
    have fst : ∀ k ≤ s1 .sp, s' (.stk k) = s1 (.stk k) := by
      intro k hk; rw [post.stack k (by rw [h.sp]; exact hk), h.stack k hk]
    cases v with
    | some v =>
      simp only [Option.some.injEq] at hc
      subst hc
      refine ⟨fun _ x hx => ?_, fun v' hv' => by simp [hrv] at hv', fr, fsp, fst⟩
      show s' x = set (withGlobals c.env G') (dst (view f c.env)) v x
      by_cases hxd : x = dst (view f c.env)
      · subst hxd; rw [set_same]; exact post.result v rfl
      · rw [set_other _ _ hxd]
        cases x with
        | glob g => exact post.globals g (Or.inl hxd)
        | loc n => simp only [withGlobals]; rw [post.others _ rfl hxd]; exact h.run hrv _ hx
        | temp n => simp only [withGlobals]; rw [post.others _ rfl hxd]; exact h.run hrv _ hx
        | stk k => simp [Fn.owns] at hx
        | sp => simp [Fn.owns] at hx
        | tmp => simp [Fn.owns] at hx
    | none =>
      simp only [Option.ite_none_right_eq_some, Option.some.injEq] at hc
      obtain ⟨hd0, rfl⟩ := hc
      refine ⟨fun _ x hx => ?_, fun v' hv' => by simp [hrv] at hv', fr, fsp, fst⟩
      cases x with
      | glob g => exact post.globals g (Or.inr rfl)
      | loc n => simp only [withGlobals]; rw [post.others _ rfl (by rw [hd0]; simp)]; exact h.run hrv _ hx
      | temp n => simp only [withGlobals]; rw [post.others _ rfl (by rw [hd0]; simp)]; exact h.run hrv _ hx
      | stk k => simp [Fn.owns] at hx
      | sp => simp [Fn.owns] at hx
      | tmp => simp [Fn.owns] at hx
  | ret e =>
    simp only [ha, Option.some.injEq] at hc
    subst hc
    obtain ⟨n1, n2, n3⟩ := isVar_ne hret
    refine ⟨_, rfl, fun h' => by simp at h', fun v' hv' => ?_, fun x hx hnx hr => ?_, ?_, fun k hk => ?_⟩
    · simp only [Option.some.injEq] at hv'
      refine ⟨by rw [set_same, hv, hv'], fun x hx hxr => ?_⟩
      rw [set_other _ _ hxr]; exact h.run hrv x hx
    · rw [set_other _ _ hr]; exact h.others x hx hnx hr
    · rw [set_other _ _ n1.symm]; exact h.sp
    · rw [set_other _ _ (n3 k).symm]; exact h.stack k hk
  | retcall k args =>
    simp only [ha, Option.bind_eq_some_iff] at hc
    obtain ⟨⟨G', v⟩, h1, hc⟩ := hc
    obtain ⟨s', e, post⟩ := hcall k _ _ s ret G' v hret hg h1
    cases v with
    | none => simp at hc
    | some v =>
      simp only [Option.some.injEq] at hc
      subst hc
      refine ⟨s', by simp only [sact, hv]; exact e, fun h' => by simp at h', fun v' hv' => ?_, fun x hx hnx hr => ?_, ?_, fun k hk => ?_⟩
      · simp only [Option.some.injEq] at hv'
        refine ⟨by rw [post.result v rfl, hv'], fun x hx hxr => ?_⟩
        cases x with
        | glob g => exact post.globals g (Or.inl hxr)
        | loc n => simp only [withGlobals]; rw [post.others _ rfl hxr]; exact h.run hrv _ hx
        | temp n => simp only [withGlobals]; rw [post.others _ rfl hxr]; exact h.run hrv _ hx
        | stk k => simp [Fn.owns] at hx
        | sp => simp [Fn.owns] at hx
        | tmp => simp [Fn.owns] at hx
      · rw [post.others x hx hr, h.others x hx hnx hr]
      · rw [post.sp, h.sp]
      · rw [post.stack k (by rw [h.sp]; exact hk), h.stack k hk]

theorem sim_cacts {f : Fn} (hd : f.dsts) {cc sc} (hcall : CallOK cc sc) {ret : Name} (hret : ret.isVar = true) {s1 : Store} :
    (l : List Nat) → (c : CS) → (s : Store) → (c' : CS) → InAct f ret s1 c s → cacts cc f l c = some c' →
    ∃ s', sacts sc f ret l s = some s' ∧ InAct f ret s1 c' s'
  | [], c, s, c', h, hc => by
    simp only [cacts, Option.some.injEq] at hc
    subst hc; exact ⟨s, rfl, h⟩
  | a :: r, c, s, c', h, hc => by
    simp only [cacts, Option.bind_eq_some_iff] at hc
    obtain ⟨c1, h1, h2⟩ := hc
    obtain ⟨s1', e1, r1⟩ := sim_act hd hcall hret a c s c1 h h1
    obtain ⟨s2, e2, r2⟩ := sim_cacts hd hcall hret r c1 s1' c' r1 h2
    exact ⟨s2, by simp [sacts, e1, e2], r2⟩

theorem sim_test {f : Fn} (hd : f.dsts) {cc sc} (hcall : CallOK cc sc) {ret : Name} (hret : ret.isVar = true) {s1 : Store}
    (t : Test) (c : CS) (s : Store) (c' : CS) (v : Int) (h : InAct f ret s1 c s) (hc : ctest cc f t c = some (c', v)) :
    ∃ s', stest sc f ret t s = some (s', v) ∧ InAct f ret s1 c' s' := by
  simp only [ctest, Option.bind_eq_some_iff] at hc
  obtain ⟨c1, h1, hc⟩ := hc
  obtain ⟨s2, e1, r1⟩ := sim_cacts hd hcall hret t.pre c s c1 h h1
  cases hrv : c1.rv with
  | some v => simp [hrv] at hc
  | none =>
    simp only [hrv, Option.isSome_none, Bool.false_eq_true, if_false, Option.some.injEq, Prod.mk.injEq] at hc
    obtain ⟨rfl, rfl⟩ := hc
    have hv := view_eq r1 hrv
    refine ⟨put f s2 (t.fn (view f c1.env)).1, ?_, ?_⟩
    · simp [stest, e1, hv]
    · have := put_inact r1 hrv (t.fn (view f c1.env)).1
      simpa [hrv] using this

theorem sim_interp {f : Fn} (hd : f.dsts) {cc sc} (hcall : CallOK cc sc) {ret : Name} (hret : ret.isVar = true) (s1 : Store)
    (args : List Int) : SimI (InAct f ret s1) (cI cc f) (shI sc f args ret) := by
  refine ⟨fun a c s c' h hc => sim_act hd hcall hret a c s c' h hc, ?_, ?_⟩
  · intro t c s c' b h hc
    simp only [cI, Option.map_eq_some_iff] at hc
    obtain ⟨⟨c1, v⟩, h1, h2⟩ := hc
    simp only [Prod.mk.injEq] at h2
    obtain ⟨rfl, rfl⟩ := h2
    obtain ⟨s', e, r⟩ := sim_test hd hcall hret _ _ _ _ _ h h1
    exact ⟨s', by simp [shI, e], r⟩
  · intro t c s c' v h hc
    obtain ⟨s', e, r⟩ := sim_test hd hcall hret _ _ _ _ _ h hc
    exact ⟨s', e, r⟩

theorem no_locals {f : Fn} (hw : f.wf) (h : f.locals = false) : pushed f = [] := by
  have : restore_local_vars f.vars = [] := by
    simp only [Fn.locals, Bool.or_eq_false_iff, Bool.not_eq_false', List.isEmpty_iff] at h
    exact h.2
  rw [restore_eq hw] at this
  simpa using this

theorem endlet_own {f : Fn} (hw : f.wf) (ret : Name) (hret : ret.isVar = true) (b : Int) (s t : Store)
    (hsp : t .sp = b + (pushed f).length) (hc : Cells t b (pushed f) s) :
    endlet ret (restore_local_vars f.vars) t .sp = b ∧
    (∀ x ∈ pushed f, x ≠ ret → endlet ret (restore_local_vars f.vars) t x = s x) ∧
    (∀ x, x ∉ pushed f → x ≠ ret → x ≠ .sp → x ≠ .tmp → endlet ret (restore_local_vars f.vars) t x = t x) ∧
    endlet ret (restore_local_vars f.vars) t ret = t ret := by
  obtain ⟨n1, n2, n3⟩ := isVar_ne hret
  have ho : ∀ x ∈ pushed f, x.own = true := fun x hx => pushed_own hw hx
  have hc' : Cells (set t .tmp (t ret)) b (pushed f) s :=
    cells_mono _ _ _ _ (fun k _ _ => set_other _ _ (by simp)) (fun _ _ => rfl) hc
  obtain ⟨h1, h2, h3⟩ := pops_spec (pushed f) b s (set t .tmp (t ret)) ho (by rw [set_other _ _ (by simp), hsp]) hc'
  simp only [endlet, restore_eq hw]
  refine ⟨by rw [set_other _ _ n1.symm, h1], fun x hx hr => by rw [set_other _ _ hr, h2 x hx],
    fun x hx hr hs ht => by rw [set_other _ _ hr, h3 x hx hs, set_other _ _ ht], ?_⟩
  rw [set_same, h3 _ (fun hm => absurd (ho _ hm) (by simp [Name.own])) (by simp), set_same]

theorem call_ok {prog : Nat → Option Fn} (hp : ∀ k f, prog k = some f → f.wf ∧ f.dsts ∧ f.compiled) (n : Nat) :
    (d : Nat) → CallOK (ccall prog n d) (scall prog n d)
  | 0 => by intro k args G s ret G' v _ _ h; simp [ccall] at h
  | d + 1 => by
    intro k args G s ret G' v hret hG h
    have ih := call_ok hp n d
    simp only [ccall] at h
    cases hf : prog k with
    | none => simp [hf] at h
    | some f =>
    simp only [hf, Option.map_eq_some_iff] at h
    obtain ⟨⟨o, c⟩, hx, h⟩ := h
    simp only [Prod.mk.injEq] at h
    obtain ⟨rfl, rfl⟩ := h
    obtain ⟨hw, hd, hok, hcomp⟩ := hp k f hf
    obtain ⟨n1, n2, n3⟩ := isVar_ne hret
    -- the code is what C13 describes
    obtain ⟨code, e1, _, _, hfun⟩ := C13_function_partial f.locals [] f.body _ hok hcomp
    have := C13_lines_unique _ _ _ _ e1
    subst this
    have hf2 := hfun Store (shI (scall prog n d) f args ret) (by
      intro hl; simp [shI, hl]) n s
    simp only [scall, hf, hf2, cfun, Interp.acts, Option.bind_some]
    -- on entry
    have hn := pushed_nodup hw
    obtain ⟨l1, l2, l3, l4, l5⟩ := lets_spec (entry f args) s
      (fun p hp => pushed_own hw (by rw [← entry_fst f args]; exact List.mem_map_of_mem hp)) (by rw [entry_fst]; exact hn)
    rw [entry_fst] at l3 l4
    have hlen : (entry f args).length = (pushed f).length := by rw [← entry_fst f args]; simp
    have hs1 : (shI (scall prog n d) f args ret).save s = lets (entry f args) s := by
      simp only [shI]
      cases hl : f.locals with
      | true => simp [enter_eq]
      | false =>
        have := no_locals hw hl
        have he : entry f args = [] := List.eq_nil_of_length_eq_zero (by rw [hlen, this]; rfl)
        simp [he, lets]
    rw [hs1]
    have init : InAct f ret (lets (entry f args) s) ⟨start f args G, none⟩ (lets (entry f args) s) := by
      refine ⟨fun _ x hx => ?_, fun v hv => by simp at hv, fun _ _ _ _ => rfl, rfl, fun _ _ => rfl⟩
      cases x with
      | glob g =>
        rw [l4 _ (fun hm => absurd (pushed_own hw hm) (by simp [Name.own])) (by simp) (by simp)]
        exact hG g
      | loc n => exact entry_val hw args G s ((owns_iff hw rfl).1 hx)
      | temp n => exact entry_val hw args G s ((owns_iff hw rfl).1 hx)
      | stk k => simp [Fn.owns] at hx
      | sp => simp [Fn.owns] at hx
      | tmp => simp [Fn.owns] at hx
    obtain ⟨s2, e2, r2⟩ := sim_exec (sim_interp hd ih hret _ args) n f.body _ _ _ _ init hx
    rw [e2]
    refine ⟨_, rfl, ?_⟩
    -- values seen at the end of the body
    have eg : ∀ g, .glob g ≠ ret ∨ c.rv = none → s2 (.glob g) = c.env (.glob g) := by
      intro g hg
      cases hrv : c.rv with
      | none => exact r2.run hrv _ rfl
      | some v => exact (r2.done v hrv).2 _ rfl (by rcases hg with hg | hg; exact hg; simp [hrv] at hg)
    cases hl : f.locals with
    | false =>
      have hnil := no_locals hw hl
      have he : entry f args = [] := List.eq_nil_of_length_eq_zero (by rw [hlen, hnil]; rfl)
      simp only [shI, hl, Bool.false_eq_true, if_false, id_eq]
      rw [he] at r2
      simp only [lets, List.foldl_nil] at r2
      refine ⟨eg, fun x hx => (r2.done x hx).1, fun x hx hr => ?_, r2.sp, r2.stack⟩
      refine r2.others x hx ?_ hr
      cases ho : f.owns x with
      | false => rfl
      | true => rw [owns_iff hw hx, hnil] at ho; simp at ho
    | true =>
      simp only [shI, hl, if_true]
      obtain ⟨p1, p2, p3, p4⟩ := endlet_own hw ret hret (s .sp) s s2 (by rw [r2.sp, l1, hlen])
        (cells_mono _ _ _ _ (fun k hk1 hk2 => r2.stack k (by rw [l1, hlen]; exact hk2)) (fun _ _ => rfl) l3)
      refine ⟨fun g hg => ?_, fun x hx => ?_, fun x hx hr => ?_, p1, fun k hk => ?_⟩
      · by_cases hgr : Name.glob g = ret
        · rw [hgr, p4, ← hgr]; exact eg g hg
        · rw [p3 _ (fun hm => absurd (pushed_own hw hm) (by simp [Name.own])) hgr (by simp) (by simp)]
          exact eg g hg
      · rw [p4]; exact (r2.done x hx).1
      · by_cases hm : x ∈ pushed f
        · exact p2 x hm hr
        · rw [p3 x hm hr (own_ne_sp hx) (own_ne_tmp hx), r2.others x hx _ hr, l4 x hm (own_ne_stk hx) (own_ne_sp hx)]
          cases ho : f.owns x with
          | false => rfl
          | true => exact absurd ((owns_iff hw hx).1 ho) hm
      · rw [p3 _ (fun hm => absurd (pushed_own hw hm) (by simp [Name.own])) (n3 k).symm (by simp) (by simp),
          r2.stack k (by rw [l1]; omega), l2 k hk]

end Verif.Frame
