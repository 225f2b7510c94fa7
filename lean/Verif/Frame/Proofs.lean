import Verif.Frame.Spec
import Verif.Stmt.Props
namespace Verif.Frame
open Verif Verif.Stmt

/-- Local variables, parameters and temporaries. -/
def Name.own : Name → Bool
  | .loc _ | .temp _ => true
  | _ => false

def Name.isGlob : Name → Bool
  | .glob _ => true
  | _ => false

theorem set_same (s : Store) (x : Name) (v : Int) : set s x v x = v := by simp [set]
theorem set_other (s : Store) {x y : Name} (v : Int) (h : y ≠ x) : set s x v y = s y := by simp [set, h]

theorem own_ne_stk {x : Name} (h : x.own = true) (k : Int) : x ≠ .stk k := by rintro rfl; simp [Name.own] at h
theorem own_ne_sp {x : Name} (h : x.own = true) : x ≠ .sp := by rintro rfl; simp [Name.own] at h
theorem own_ne_tmp {x : Name} (h : x.own = true) : x ≠ .tmp := by rintro rfl; simp [Name.own] at h

theorem let_x (x : Name) (v : Int) (s : Store) : let_ x v s x = v := by simp [let_, set]
theorem let_sp {x : Name} (v : Int) (s : Store) (h : x.own = true) : let_ x v s .sp = s .sp + 1 := by
  simp [let_, set, (own_ne_sp h).symm]
theorem let_stk {x : Name} (v : Int) (s : Store) (h : x.own = true) : let_ x v s (.stk (s .sp + 1)) = s x := by
  simp [let_, set, (own_ne_stk h _).symm, own_ne_sp h]
theorem let_stk_le {x : Name} (v : Int) (s : Store) (h : x.own = true) {k : Int} (hk : k ≤ s .sp) :
    let_ x v s (.stk k) = s (.stk k) := by
  simp only [let_, set]
  rw [if_neg (own_ne_stk h k).symm, if_neg, if_neg (by simp)]
  simp only [if_pos, Name.stk.injEq]
  omega
theorem let_other {x y : Name} (v : Int) (s : Store) (h : y ≠ x) (hy : ∀ k, y ≠ .stk k) (hs : y ≠ .sp) :
    let_ x v s y = s y := by simp [let_, set, h, hy, hs]

def lets (ps : List (Name × Int)) (s : Store) : Store := ps.foldl (fun s p => let_ p.1 p.2 s) s

/-- The cells above `b` hold the values of `xs` in `s`. -/
def Cells (t : Store) (b : Int) : List Name → Store → Prop
  | [], _ => True
  | x :: r, s => t (.stk (b + 1)) = s x ∧ Cells t (b + 1) r s

theorem cells_mono {t t' : Store} : (xs : List Name) → (b : Int) → (s s' : Store) → (∀ k, b < k → k ≤ b + xs.length → t' (.stk k) = t (.stk k)) →
    (∀ x ∈ xs, s' x = s x) → Cells t b xs s → Cells t' b xs s'
  | [], _, _, _, _, _, _ => trivial
  | x :: r, b, s, s', h, hs, hc => by
    refine ⟨?_, cells_mono r (b+1) s s' (fun k hk hk' => h k (by omega) (by simp; omega)) (fun y hy => hs y (by simp [hy])) hc.2⟩
    rw [h (b+1) (by omega) (by simp; omega), hs x (by simp), hc.1]

theorem lets_spec : (ps : List (Name × Int)) → (s : Store) → (∀ p ∈ ps, p.1.own = true) → (ps.map Prod.fst).Nodup →
    lets ps s .sp = s .sp + ps.length ∧
    (∀ k ≤ s .sp, lets ps s (.stk k) = s (.stk k)) ∧
    Cells (lets ps s) (s .sp) (ps.map Prod.fst) s ∧
    (∀ y, y ∉ ps.map Prod.fst → (∀ k, y ≠ .stk k) → y ≠ .sp → lets ps s y = s y) ∧
    (∀ p ∈ ps, lets ps s p.1 = p.2)
  | [], s, _, _ => by simp [lets, Cells]
  | (x, v) :: r, s, ho, hn => by
    have hx : x.own = true := ho (x, v) (by simp)
    simp only [List.map_cons, List.nodup_cons] at hn
    obtain ⟨h1, h2, h3, h4, h5⟩ := lets_spec r (let_ x v s) (fun p hp => ho p (by simp [hp])) hn.2
    have e : lets ((x, v) :: r) s = lets r (let_ x v s) := rfl
    rw [e]
    have hsp := let_sp v s hx
    refine ⟨?_, ?_, ⟨?_, ?_⟩, ?_, ?_⟩
    · rw [h1, hsp]; simp; omega
    · intro k hk
      rw [h2 k (by rw [hsp]; omega), let_stk_le v s hx hk]
    · rw [h2 _ (by rw [hsp]; omega), let_stk v s hx]
    · rw [hsp] at h3
      refine cells_mono _ _ _ _ (fun _ _ _ => rfl) ?_ h3
      intro y hy
      have hyo : y.own = true := by
        simp only [List.mem_map] at hy
        obtain ⟨p, hp, rfl⟩ := hy
        exact ho p (by simp [hp])
      rw [let_other v s (by rintro rfl; exact hn.1 hy) (own_ne_stk hyo) (own_ne_sp hyo)]
    · intro y hy hk hs
      simp only [List.map_cons, List.mem_cons, not_or] at hy
      rw [h4 y hy.2 hk hs, let_other v s hy.1 hk hs]
    · intro p hp
      simp only [List.mem_cons] at hp
      rcases hp with rfl | hp
      · rw [h4 x hn.1 (own_ne_stk hx) (own_ne_sp hx), let_x]
      · exact h5 p hp

theorem pops_append : (xs ys : List Name) → (s : Store) → pops (xs ++ ys) s = pops ys (pops xs s)
  | [], _, _ => rfl
  | x :: r, ys, s => by simp only [List.cons_append, pops]; exact pops_append r ys _

theorem pops_spec : (xs : List Name) → (b : Int) → (s t : Store) → (∀ x ∈ xs, x.own = true) → t .sp = b + xs.length →
    Cells t b xs s →
    pops xs.reverse t .sp = b ∧ (∀ x ∈ xs, pops xs.reverse t x = s x) ∧
    (∀ x, x ∉ xs → x ≠ .sp → pops xs.reverse t x = t x)
  | [], b, s, t, _, h, _ => by simp [pops] at h ⊢; exact h
  | x :: r, b, s, t, ho, h, hc => by
    have hx : x.own = true := ho x (by simp)
    obtain ⟨h1, h2, h3⟩ := pops_spec r (b+1) s t (fun y hy => ho y (by simp [hy])) (by rw [h]; simp; omega) hc.2
    rw [List.reverse_cons, pops_append]
    simp only [pops]
    have hstk : pops r.reverse t (.stk (b+1)) = s x := by
      rw [h3 _ _ (by simp), hc.1]
      intro hm; have := ho _ (List.mem_cons_of_mem _ hm); simp [Name.own] at this
    refine ⟨?_, ?_, ?_⟩
    · rw [set_other _ _ (own_ne_sp hx).symm, set_same, h1]; omega
    · intro y hy
      by_cases hyx : y = x
      · subst hyx
        rw [set_same, set_same, set_other _ _ (by simp), h1]
        rw [show b + 1 - 1 + 1 = b + 1 by omega, hstk]
      · have hyr : y ∈ r := by simpa [hyx] using hy
        rw [set_other _ _ hyx, set_other _ _ (own_ne_sp (ho y hy)), h2 y hyr]
    · intro y hy hs
      simp only [List.mem_cons, not_or] at hy
      rw [set_other _ _ hy.1, set_other _ _ hs, h3 y hy.2 hs]

/-! ### The variable lists -/

theorem save_temps_eq : (n : Nat) → (res : List Name) → save_temps n res = (restore_temps n).reverse ++ res
  | 0, res => by simp [save_temps, restore_temps]
  | n + 1, res => by simp [save_temps, restore_temps, save_temps_eq n]

theorem save_env_append : (l m : List (Nat × Bool)) → (res : List Name) → save_env (l ++ m) res = save_env m (save_env l res)
  | [], _, _ => rfl
  | (x, p) :: r, m, res => by simp only [List.cons_append, save_env]; exact save_env_append r m _

theorem save_env_false : (l : List Nat) → (res : List Name) →
    save_env (l.map fun x => (x, false)).reverse res = l.map .loc ++ res
  | [], _ => rfl
  | x :: r, res => by
    simp only [List.map_cons, List.reverse_cons, save_env_append, save_env_false r res]
    simp [save_env]

theorem save_env_true : (l : List Nat) → (res : List Name) → save_env (l.map fun x => (x, true)) res = res
  | [], _ => rfl
  | x :: r, res => by simp [save_env, save_env_true r res]

theorem mem_restore_temps {x : Name} : (n : Nat) → x ∈ restore_temps n → ∃ k, x = .temp k ∧ k ≤ n
  | 0, h => by simp [restore_temps] at h
  | n + 1, h => by
    simp only [restore_temps, List.mem_cons] at h
    rcases h with rfl | h
    · exact ⟨_, rfl, Nat.le_refl _⟩
    · obtain ⟨k, e, hk⟩ := mem_restore_temps n h
      exact ⟨k, e, by omega⟩

theorem restore_temps_nodup : (n : Nat) → (restore_temps n).Nodup
  | 0 => by simp [restore_temps]
  | n + 1 => by
    simp only [restore_temps, List.nodup_cons]
    refine ⟨fun h => ?_, restore_temps_nodup n⟩
    obtain ⟨k, e, hk⟩ := mem_restore_temps n h
    injection e with e; omega

/-- The names pushed on entry, in order. -/
def pushed (f : Fn) : List Name := f.params.map .loc ++ save_local_vars f.vars

theorem pushed_eq {f : Fn} {others : List Nat}
    (e : f.vars.locals_fun = (others.map fun x => (x, false)).reverse ++ (f.params.map fun x => (x, true)).reverse) :
    pushed f = (f.params ++ others).map .loc ++ (restore_temps f.vars.temps).reverse := by
  simp only [pushed, save_local_vars, e]
  rw [save_env_append, save_env_false, ← List.map_reverse, save_env_true, save_temps_eq]
  simp

theorem restore_eq {f : Fn} (h : f.wf) : restore_local_vars f.vars = (pushed f).reverse := by
  obtain ⟨_, others, _, e⟩ := h
  rw [pushed_eq e]
  simp only [restore_local_vars, e]
  simp only [List.map_append, List.map_reverse, List.map_map, List.reverse_append, List.reverse_reverse, List.append_assoc]
  rfl

theorem pushed_nodup {f : Fn} (h : f.wf) : (pushed f).Nodup := by
  obtain ⟨_, others, hn, e⟩ := h
  rw [pushed_eq e, List.nodup_append]
  refine ⟨?_, ?_, ?_⟩
  · unfold List.Nodup at hn ⊢
    rw [List.pairwise_map]
    exact hn.imp fun {a b} h h' => by injection h' with h'; exact h h'
  · have := restore_temps_nodup f.vars.temps
    unfold List.Nodup at this ⊢
    rw [List.pairwise_reverse]
    exact this.imp fun {a b} h => h.symm
  · intro a ha b hb
    simp only [List.mem_map] at ha
    obtain ⟨v, _, rfl⟩ := ha
    obtain ⟨k, rfl, _⟩ := mem_restore_temps _ (List.mem_reverse.1 hb)
    simp

end Verif.Frame
