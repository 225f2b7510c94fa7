import Verif.Frame.SetModel
import Verif.Frame.Proofs3
namespace Verif.Frame
open Verif Verif.Stmt

theorem set_env_eq : (l : List (Nat × Bool)) → (res : List Name) → set_env l res = (l.map fun p => Name.loc p.1).reverse ++ res
  | [], _ => rfl
  | (x, _) :: r, res => by simp [set_env, set_env_eq r]

theorem set_temps_mem (n : Nat) : (c : Nat) → (res : List Name) → set_temps n c res = res ++ set_temps n c []
  | 0, res => by simp [set_temps]
  | c + 1, res => by
    simp only [set_temps, List.nil_append]
    rw [set_temps_mem n c (res ++ _), set_temps_mem n c [_]]
    simp

/-- Number the elements of a list from `k`. -/
def number (k : Nat) : List Name → List (Name × Nat)
  | [] => []
  | x :: r => (x, k) :: number (k + 1) r

theorem number_append : (k : Nat) → (a b : List Name) → number k (a ++ b) = number k a ++ number (k + a.length) b
  | _, [], _ => by simp [number]
  | k, x :: r, b => by simp [number, number_append (k+1) r b]; congr 1; omega

theorem unset_env_eq (pc size : Nat) : (l : List (Nat × Bool)) → (pos : Nat) → (res : List (Name × Nat)) → pos + l.length = size →
    unset_env pc size l pos res = number (pc + 1) ((l.map fun p => Name.loc p.1).reverse) ++ res
  | [], pos, res, _ => by simp [unset_env, number]
  | (x, b) :: r, pos, res, h => by
    simp only [List.length_cons] at h
    simp only [unset_env]
    rw [unset_env_eq pc size r (pos+1) _ (by omega)]
    simp only [List.map_cons, List.reverse_cons, number_append, number, List.length_reverse, List.length_map, List.append_assoc,
      List.cons_append, List.nil_append]
    congr 3
    congr 1; omega

theorem unset_temps_eq (pc n : Nat) : (c pos : Nat) → (res : List (Name × Nat)) →
    unset_temps pc n c pos res = res ++ number (pc + pos + 1) (set_temps n c [])
  | 0, pos, res => by simp [unset_temps, set_temps, number]
  | c + 1, pos, res => by
    simp only [unset_temps, set_temps, List.nil_append]
    rw [unset_temps_eq pc n c (pos+1), set_temps_mem n c [_], number_append]
    simp [number, show pc + (pos + 1) = pc + pos + 1 by omega]

theorem restore_with_set_eq (f : Vars) (pc : Nat) : restore_with_set f pc = number (pc + 1) (save_with_set f) := by
  simp only [restore_with_set, save_with_set]
  rw [set_temps_mem, set_env_eq, unset_temps_eq, unset_env_eq pc _ _ 0 _ (by simp), number_append]
  simp [show pc + f.locals_fun.length + 1 = pc + 1 + f.locals_fun.length by omega]

theorem set_temps_mem_iff (n : Nat) (x : Name) : (c : Nat) → c ≤ n → (x ∈ set_temps n c [] ↔ ∃ k, x = .temp k ∧ n - c < k ∧ k ≤ n)
  | 0, _ => by simp [set_temps]; try (intro k _ h; omega)
  | c + 1, h => by
    simp only [set_temps, List.nil_append]
    rw [set_temps_mem, List.mem_append, set_temps_mem_iff n x c (by omega)]
    constructor
    · rintro (hx | ⟨k, rfl, h1, h2⟩)
      · simp at hx; exact ⟨_, hx, by omega, by omega⟩
      · exact ⟨k, rfl, by omega, h2⟩
    · rintro ⟨k, rfl, h1, h2⟩
      by_cases hk : k = n - (c + 1) + 1
      · left; simp [hk]
      · right; exact ⟨k, rfl, by omega, h2⟩

theorem restore_temps_mem_iff (x : Name) : (n : Nat) → (x ∈ restore_temps n ↔ ∃ k, x = .temp k ∧ 0 < k ∧ k ≤ n)
  | 0 => by simp [restore_temps]; try (intro k _ h; omega)
  | n + 1 => by
    simp only [restore_temps, List.mem_cons, restore_temps_mem_iff x n]
    constructor
    · rintro (rfl | ⟨k, rfl, h1, h2⟩)
      · exact ⟨_, rfl, by omega, by omega⟩
      · exact ⟨k, rfl, h1, by omega⟩
    · rintro ⟨k, rfl, h1, h2⟩
      by_cases hk : k = n + 1
      · left; rw [hk]
      · right; exact ⟨k, rfl, h1, by omega⟩

/-- The same variables are saved in both ways. -/
theorem mem_save_with_set (f : Vars) (x : Name) : x ∈ save_with_set f ↔ x ∈ restore_local_vars f := by
  simp only [save_with_set, restore_local_vars]
  rw [set_temps_mem, set_env_eq, List.append_nil, List.mem_append, List.mem_append, set_temps_mem_iff f.temps x f.temps (Nat.le_refl _), restore_temps_mem_iff]
  simp only [List.mem_reverse, Nat.sub_self]
  exact Or.comm

theorem fold_number (pos : List Int) (v : Name → Int) : (xs : List Name) → (k : Nat) → (s : Store) →
    (∀ i (h : i < xs.length), dollar pos (k + i) = v xs[i]) →
    (∀ x ∈ xs, ((number k xs).foldl (fun s p => set s p.1 (dollar pos p.2)) s) x = v x) ∧
    ∀ x, x ∉ xs → ((number k xs).foldl (fun s p => set s p.1 (dollar pos p.2)) s) x = s x
  | [], _, _, _ => by simp [number]
  | y :: r, k, s, h => by
    have hy : dollar pos k = v y := h 0 (by simp)
    obtain ⟨h1, h2⟩ := fold_number pos v r (k+1) (set s y (dollar pos k)) (by
      intro i hi
      have := h (i+1) (by simp; omega)
      rw [show k + 1 + i = k + (i + 1) by omega, this]; rfl)
    simp only [number, List.foldl_cons]
    refine ⟨fun x hx => ?_, fun x hx => ?_⟩
    · by_cases hm : x ∈ r
      · exact h1 x hm
      · have : x = y := by simpa [hm] using hx
        subst this
        rw [h2 x hm, set_same, hy]
    · simp only [List.mem_cons, not_or] at hx
      rw [h2 x hx.2, set_other _ _ hx.1]

/-- Restoring gives back the values that were saved. -/
theorem restore_set_spec (f : Fn) (args : List Int) (ret : Name) (hret : ret.isVar = true) (s t : Store)
    (ha : args.length = f.params.length) :
    (∀ x ∈ save_with_set f.vars, x ≠ ret → restore_set f (positions f args s) ret t x = s x) ∧
    (∀ x, x ∉ save_with_set f.vars → x ≠ ret → x ≠ .tmp → restore_set f (positions f args s) ret t x = t x) ∧
    restore_set f (positions f args s) ret t ret = t ret := by
  simp only [restore_set, restore_with_set_eq]
  obtain ⟨h1, h2⟩ := fold_number (positions f args s) s (save_with_set f.vars) (1 + f.params.length + 1) (set t .tmp (t ret)) (by
    intro i hi
    simp only [dollar, positions]
    rw [show 1 + f.params.length + 1 + i - 2 = args.length + i by omega]
    simp [List.getD, hi])
  have htmp : Name.tmp ∉ save_with_set f.vars := by
    rw [mem_save_with_set, restore_local_vars, List.mem_append, restore_temps_mem_iff]
    simp
  refine ⟨fun x hx hr => by rw [set_other _ _ hr]; exact h1 x hx,
    fun x hx hr ht => by rw [set_other _ _ hr, h2 x hx, set_other _ _ ht], ?_⟩
  rw [set_same, h2 _ htmp, set_same]

/-! ### Calls -/

/-- Calls pass as many arguments as the function has parameters. -/
def Fn.arity (prog : Nat → Option Fn) (f : Fn) : Prop :=
  (∀ a k dst args g, f.acts a = .call k dst args → prog k = some g → ∀ v, (args v).length = g.params.length) ∧
  ∀ a k args g, f.acts a = .retcall k args → prog k = some g → ∀ v, (args v).length = g.params.length

/-- Callers' variables are kept. -/
def Keeps (prog : Nat → Option Fn) (sc : Nat → List Int → Name → Store → Option Store) : Prop :=
  ∀ k args ret s s', ret.isVar = true → (∀ f, prog k = some f → args.length = f.params.length) → sc k args ret s = some s' →
    ∀ x : Name, x.own = true → x ≠ ret → s' x = s x

/-- Variables of other functions are those of the entry. -/
def Kept (f : Fn) (ret : Name) (s1 : Store) (c s : Store) : Prop :=
  c = s ∧ ∀ x : Name, x.own = true → f.owns x = false → x ≠ ret → s x = s1 x

theorem keep_act {prog : Nat → Option Fn} {f : Fn} (hd : f.dsts) (har : f.arity prog) {sc} (hk : Keeps prog sc) {ret : Name} (hret : ret.isVar = true)
    {s1 : Store} (a : Nat) (s s' : Store) (h : Kept f ret s1 s s) (hc : sact sc f ret (f.acts a) s = some s') : Kept f ret s1 s' s' := by
  refine ⟨rfl, fun x hx ho hr => ?_⟩
  rw [← h.2 x hx ho hr]
  cases ha : f.acts a with
  | prim g =>
    simp only [ha, sact, Option.some.injEq] at hc
    subst hc; simp [put, ho]
  | call k dst args =>
    simp only [ha, sact] at hc
    have hod := hd a k dst args ha (view f s)
    refine hk k _ _ s s' ?_ (fun g hg => har.1 a k dst args g ha hg _) hc x hx (by rintro rfl; simp [hod] at ho)
    revert hod; cases dst (view f s) <;> simp [Fn.owns, Name.isVar, Name.own, Name.isGlob]
  | ret e =>
    simp only [ha, sact, Option.some.injEq] at hc
    subst hc; exact set_other _ _ hr
  | retcall k args =>
    simp only [ha, sact] at hc
    exact hk k _ _ s s' hret (fun g hg => har.2 a k args g ha hg _) hc x hx hr

theorem keep_acts {prog : Nat → Option Fn} {f : Fn} (hd : f.dsts) (har : f.arity prog) {sc} (hk : Keeps prog sc) {ret : Name} (hret : ret.isVar = true)
    {s1 : Store} : (l : List Nat) → (s s' : Store) → Kept f ret s1 s s → sacts sc f ret l s = some s' → Kept f ret s1 s' s'
  | [], s, s', h, hc => by
    simp only [sacts, Option.some.injEq] at hc
    subst hc; exact h
  | a :: r, s, s', h, hc => by
    simp only [sacts, Option.bind_eq_some_iff] at hc
    obtain ⟨c1, h1, h2⟩ := hc
    exact keep_acts hd har hk hret r c1 s' (keep_act hd har hk hret a s c1 h h1) h2

theorem keep_test {prog : Nat → Option Fn} {f : Fn} (hd : f.dsts) (har : f.arity prog) {sc} (hk : Keeps prog sc) {ret : Name} (hret : ret.isVar = true)
    {s1 : Store} (t : Test) (s s' : Store) (v : Int) (h : Kept f ret s1 s s) (hc : stest sc f ret t s = some (s', v)) : Kept f ret s1 s' s' := by
  simp only [stest, Option.map_eq_some_iff, Prod.mk.injEq] at hc
  obtain ⟨c1, h1, rfl, _⟩ := hc
  have := keep_acts hd har hk hret t.pre s c1 h h1
  refine ⟨rfl, fun x hx ho hr => ?_⟩
  rw [← this.2 x hx ho hr]
  simp [put, ho]

theorem keep_interp {prog : Nat → Option Fn} {f : Fn} (hd : f.dsts) (har : f.arity prog) {sc} (hk : Keeps prog sc) {ret : Name} (hret : ret.isVar = true)
    (s1 : Store) (pos : List Int) : SimI (Kept f ret s1) (shI2 sc f pos ret) (shI2 sc f pos ret) := by
  refine ⟨?_, ?_, ?_⟩
  · rintro a c s c' ⟨rfl, h⟩ hc
    exact ⟨c', hc, keep_act hd har hk hret a _ _ ⟨rfl, h⟩ hc⟩
  · rintro t c s c' b ⟨rfl, h⟩ hc
    refine ⟨c', hc, ?_⟩
    simp only [shI2, shI, Option.map_eq_some_iff, Prod.mk.injEq] at hc
    obtain ⟨⟨c1, v⟩, h1, rfl, _⟩ := hc
    exact keep_test hd har hk hret _ _ _ _ ⟨rfl, h⟩ h1
  · rintro t c s c' v ⟨rfl, h⟩ hc
    exact ⟨c', hc, keep_test hd har hk hret _ _ _ _ ⟨rfl, h⟩ hc⟩

theorem init_params_other (f : Fn) (pos : List Int) (x : Name) (hx : x ∉ f.params.map .loc) (s : Store) : init_params f pos s x = s x := by
  simp only [init_params]
  rw [← let_params_fst f.params 2] at hx
  generalize let_params f.params 2 = l at hx
  induction l generalizing s with
  | nil => rfl
  | cons p r ih =>
    simp only [List.map_cons, List.mem_cons, not_or] at hx
    simp only [List.foldl_cons]
    rw [ih _ hx.2, set_other _ _ hx.1]

theorem keeps {prog : Nat → Option Fn} (hp : ∀ k f, prog k = some f → f.wf ∧ f.dsts ∧ f.compiled ∧ f.arity prog) (n : Nat) :
    (d : Nat) → Keeps prog (scall2 prog n d)
  | 0 => by intro k args ret s s' _ _ h; simp [scall2] at h
  | d + 1 => by
    intro k args ret s s' hret har h x hx hr
    have ih := keeps hp n d
    simp only [scall2] at h
    cases hf : prog k with
    | none => simp [hf] at h
    | some f =>
    simp only [hf] at h
    obtain ⟨hw, hd, ⟨hok, hcomp⟩, ha⟩ := hp k f hf
    obtain ⟨code, e1, _, _, hfun⟩ := C13_function_partial f.locals [] f.body _ hok hcomp
    have := C13_lines_unique _ _ _ _ e1
    subst this
    have hf2 := hfun Store (shI2 (scall2 prog n d) f (positions f args s) ret) (by intro hl; simp [shI2, hl]) n s
    rw [hf2] at h
    simp only [cfun, Interp.acts, Option.bind_some, Option.map_eq_some_iff] at h
    obtain ⟨⟨o, s2⟩, h1, rfl⟩ := h
    -- parameters are among the saved variables
    have hsub : ∀ y, y ∈ f.params.map Name.loc → y ∈ save_with_set f.vars := by
      intro y hy
      rw [mem_save_with_set, restore_eq hw, List.mem_reverse]
      simp only [pushed, List.mem_append]; exact Or.inl hy
    obtain ⟨s3, e3, hk⟩ := sim_exec (keep_interp hd ha ih hret _ (positions f args s)) n f.body _ _ _ _ ⟨rfl, fun _ _ _ _ => rfl⟩ h1
    obtain ⟨rfl, hk⟩ := hk
    have hown : x ∉ save_with_set f.vars → f.owns x = false := by
      intro hm
      rw [mem_save_with_set] at hm
      cases x <;> simp_all [Name.own, Fn.owns]
    cases hl : f.locals with
    | false =>
      simp only [shI2, hl, Bool.false_eq_true, if_false, id_eq] at hk ⊢
      refine hk x hx (hown fun hm => ?_) hr
      rw [mem_save_with_set, restore_eq hw, no_locals hw hl] at hm
      simp at hm
    | true =>
      simp only [shI2, hl, if_true] at hk ⊢
      obtain ⟨r1, r2, r3⟩ := restore_set_spec f args ret hret s s2 (har f hf)
      by_cases hm : x ∈ save_with_set f.vars
      · exact r1 x hm hr
      · rw [r2 x hm hr (own_ne_tmp hx), hk x hx (hown hm) hr]
        exact init_params_other f _ x (fun h => hm (hsub x h)) s

end Verif.Frame
