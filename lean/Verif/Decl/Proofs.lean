import Verif.Decl.Spec
/-! Lemmas on nodes for the parser of declarations. -/
namespace Verif.Decl
open Verif Verif.Decl.Spec

/-! ## Runs -/

/-- The result of every sufficiently long run. -/
def Ev {α : Type} (f : Nat → Res α) (r : Res α) : Prop := ∃ N, ∀ n, N ≤ n → f n = r

theorem Ev.step {α : Type} {f g : Nat → Res α} {r : Res α} (h : ∀ n, f (n + 1) = g n) (hg : Ev g r) : Ev f r := by
  obtain ⟨N, hN⟩ := hg
  refine ⟨N + 1, fun n hn => ?_⟩
  obtain ⟨m, rfl⟩ : ∃ m, n = m + 1 := ⟨n - 1, by omega⟩
  rw [h, hN m (by omega)]

theorem Ev.const {α : Type} {f : Nat → Res α} {r : Res α} (h : ∀ n, f (n + 1) = r) : Ev f r := Ev.step h ⟨0, fun _ _ => rfl⟩

theorem Ev.pure {α : Type} {r : Res α} : Ev (fun _ => r) r := ⟨0, fun _ _ => rfl⟩

theorem Ev.bind {α β : Type} {f : Nat → Res α} {g : Nat → α → Res β} {a : α} {r : Res β} (hf : Ev f (.ok a)) (hg : Ev (fun n => g n a) r) : Ev (fun n => (f n).bind (g n)) r := by
  obtain ⟨N, hN⟩ := hf
  obtain ⟨M, hM⟩ := hg
  refine ⟨max N M, fun n hn => ?_⟩
  show (f n).bind (g n) = r
  rw [hN n (by omega), Res.bind_ok]
  exact hM n (by omega)

theorem Ev.congr {α : Type} {f g : Nat → Res α} {r : Res α} (hg : Ev g r) (h : ∀ n, f n = g n) : Ev f r := by
  obtain ⟨N, hN⟩ := hg
  exact ⟨N, fun n hn => by rw [h, hN n hn]⟩

/-! ## Nodes -/

/-- The old nodes are still there. -/
def Ext (h h' : List Node) : Prop := h.length ≤ h'.length ∧ ∀ i, i < h.length → h'[i]? = h[i]?

theorem Ext.refl (h : List Node) : Ext h h := ⟨Nat.le_refl _, fun _ _ => rfl⟩
theorem Ext.trans {a b c : List Node} (h : Ext a b) (h' : Ext b c) : Ext a c :=
  ⟨Nat.le_trans h.1 h'.1, fun i hi => by rw [h'.2 i (Nat.lt_of_lt_of_le hi h.1), h.2 i hi]⟩
theorem Ext.append (h l : List Node) : Ext h (h ++ l) := ⟨by simp, fun i hi => List.getElem?_append_left hi⟩

theorem get_last (h : List Node) (nd : Node) : (h ++ [nd])[h.length]? = some nd := by simp

theorem get_lt {h : List Node} {i : Nat} {nd : Node} (e : h[i]? = some nd) : i < h.length := (List.getElem?_eq_some_iff.1 e).1

/-- From one heap to another. -/
def Moves (h h' : List Node) (Q Q' : Nat → Prop) : Prop := ∀ i, i < h.length → Q i → Q' i ∧ h'[i]? = h[i]?

mutual
theorem repN_move {h h' : List Node} {Q Q' : Nat → Prop} (m : Moves h h' Q Q') : ∀ {nd t}, RepN h Q nd t → RepN h' Q' nd t
  | _, _, .base => .base
  | _, _, .ptr r => .ptr (rep_move m r)
  | _, _, .arr r => .arr (rep_move m r)
  | _, _, .fn r l => .fn (rep_move m r) (repL_move m l)
  | _, _, .su l => .su (repL_move m l)
  | _, _, .enum => .enum
theorem rep_move {h h' : List Node} {Q Q' : Nat → Prop} (m : Moves h h' Q Q') : ∀ {i t}, Rep h Q i t → Rep h' Q' i t
  | i, _, .mk q e r => .mk (m i (get_lt e) q).1 ((m i (get_lt e) q).2.trans e) (repN_move m r)
theorem repL_move {h h' : List Node} {Q Q' : Nat → Prop} (m : Moves h h' Q Q') : ∀ {l t}, RepL h Q l t → RepL h' Q' l t
  | _, _, .nil => .nil
  | _, _, .cons (d := d) q e r l => .cons (m d (get_lt e) q).1 ((m d (get_lt e) q).2.trans e) (rep_move m r) (repL_move m l)
end

theorem moves_ext {h h' : List Node} {Q Q' : Nat → Prop} (e : Ext h h') (hq : ∀ i, i < h.length → Q i → Q' i) : Moves h h' Q Q' := fun i hi q => ⟨hq i hi q, e.2 i hi⟩

theorem repL_append {h : List Node} {Q : Nat → Prop} : ∀ {a b : List Nat} {A B : Ps}, RepL h Q a A → RepL h Q b B → RepL h Q (a ++ b) (A.append B)
  | _, _, _, _, .nil, hb => hb
  | _, _, _, _, .cons q e r l, hb => .cons q e r (repL_append l hb)

/-- Below `lo`, or from `L` on. -/
def Out2 (lo L : Nat) : Nat → Prop := fun i => i < lo ∨ L ≤ i

theorem out2_mono {lo L L' i : Nat} (h : L' ≤ L) (q : Out2 lo L i) : Out2 lo L' i := q.imp id fun h' => Nat.le_trans h h'

/-! ## A type with a hole -/

/-- The constructor of a node with an inner type. -/
inductive Wr (h : List Node) (Q : Nat → Prop) : Node → (Ty → Ty) → Prop
  | ptr {q i} : Wr h Q (.ptr q i) (.ptr q)
  | arr {i n} : Wr h Q (.arr i n) (fun t => .arr t n)
  | fn {i ps va Ps} : RepL h Q ps Ps → Wr h Q (.fn i ps va) (fun t => .fn t Ps va)

/-- From the inner type of the node `a` to the inner type of the node `b`. The nodes before `b` satisfy `Q`. -/
inductive Ctx (h : List Node) (Q : Nat → Prop) (b : Nat) : Nat → (Ty → Ty) → Prop
  | here : Ctx h Q b b (fun t => t)
  | step {a nd m nm W C} : Q a → h[a]? = some nd → innerOf nd = .ok m → h[m]? = some nm → Wr h Q nm W → Ctx h Q b m C → Ctx h Q b a (fun t => W (C t))

theorem wr_move {h h' : List Node} {Q Q' : Nat → Prop} (m : Moves h h' Q Q') {nd : Node} {W : Ty → Ty} (w : Wr h Q nd W) : Wr h' Q' nd W := by
  cases w with
  | ptr => exact .ptr
  | arr => exact .arr
  | fn l => exact .fn (repL_move m l)

theorem wr_inner {h : List Node} {Q : Nat → Prop} {nd : Node} {W : Ty → Ty} (w : Wr h Q nd W) : ∃ i, innerOf nd = .ok i := by
  cases w <;> exact ⟨_, rfl⟩

theorem wr_set {h : List Node} {Q : Nat → Prop} {nd : Node} {W : Ty → Ty} (w : Wr h Q nd W) (j : Nat) : Wr h Q (setInner j nd) W := by
  cases w with
  | ptr => exact .ptr
  | arr => exact .arr
  | fn l => exact .fn l

theorem wr_rep {h : List Node} {Q : Nat → Prop} {nd : Node} {W : Ty → Ty} (w : Wr h Q nd W) {i : Nat} {t : Ty} (hi : innerOf nd = .ok i) (r : Rep h Q i t) : RepN h Q nd (W t) := by
  cases w with
  | ptr => cases hi; exact .ptr r
  | arr => cases hi; exact .arr r
  | fn l => cases hi; exact .fn r l

theorem innerOf_set {nd : Node} {i : Nat} (h : innerOf nd = .ok i) (j : Nat) : innerOf (setInner j nd) = .ok j := by
  cases nd <;> first | rfl | cases h

/-- Filling the hole. -/
theorem ctx_rep {h : List Node} {Q : Nat → Prop} {b : Nat} {bn : Node} {p : Nat} {t : Ty} (hb : h[b]? = some bn) (hp : innerOf bn = .ok p) (r : Rep h Q p t) (qb : Q b) :
    ∀ {a C}, Ctx h Q b a C → ∃ na i, h[a]? = some na ∧ innerOf na = .ok i ∧ Rep h Q i (C t) ∧ Q a
  | _, _, .here => ⟨bn, p, hb, hp, r, qb⟩
  | _, _, .step qa e1 e2 e3 w c => by
    obtain ⟨na, i, h1, h2, h3, h4⟩ := ctx_rep hb hp r qb c
    rw [e3] at h1
    cases h1
    exact ⟨_, _, e1, e2, .mk h4 e3 (wr_rep w h2 h3), qa⟩

/-- Moving to another heap, where `b` is unchanged too. -/
theorem ctx_move {h h' : List Node} {Q Q' : Nat → Prop} {b : Nat} (m : Moves h h' Q Q') (mb : h'[b]? = h[b]?) : ∀ {a C}, Ctx h Q b a C → Ctx h' Q' b a C
  | _, _, .here => .here
  | _, _, .step (a := a) (m := k) qa e1 e2 e3 w c => by
    have hk : h'[k]? = h[k]? := by
      cases c with
      | here => exact mb
      | step qm _ _ _ _ _ => exact (m k (get_lt e3) qm).2
    exact .step (m a (get_lt e1) qa).1 ((m a (get_lt e1) qa).2.trans e1) e2 (hk.trans e3) (wr_move m w) (ctx_move m mb c)

/-- One more constructor below `b`: `b`'s inner type becomes the new node. -/
theorem ctx_wrap {h h' : List Node} {Q Q' : Nat → Prop} {b c : Nat} {bn nd : Node} {p : Nat} {W : Ty → Ty} (m : Moves h h' Q Q') (hb : h[b]? = some bn) (hp : innerOf bn = .ok p)
    (hb' : h'[b]? = some (setInner c bn)) (hc : h'[c]? = some nd) (w : Wr h' Q' nd W) (qb : Q' b) : ∀ {a C}, Ctx h Q b a C → Ctx h' Q' c a (fun t => C (W t))
  | _, _, .here => .step qb hb' (innerOf_set hp c) hc w .here
  | _, _, .step (a := a) (m := k) (nm := nm) (W := W0) qa e1 e2 e3 w' x => by
    have hk : ∃ nm', h'[k]? = some nm' ∧ Wr h' Q' nm' W0 := by
      cases x with
      | here =>
        rw [hb] at e3; cases e3
        exact ⟨_, hb', wr_set (wr_move m w') c⟩
      | step qm _ _ _ _ _ => exact ⟨_, (m k (get_lt e3) qm).2.trans e3, wr_move m w'⟩
    obtain ⟨nm', h1, h2⟩ := hk
    exact .step (m a (get_lt e1) qa).1 ((m a (get_lt e1) qa).2.trans e1) e2 h1 h2 (ctx_wrap m hb hp hb' hc w qb x)

/-- One more constructor below `b`, that is already there. -/
theorem ctx_snoc {h : List Node} {Q Q' : Nat → Prop} {b c : Nat} {bn nd : Node} {W : Ty → Ty} (m : ∀ i, i < h.length → Q i → Q' i) (hb : h[b]? = some bn) (hp : innerOf bn = .ok c)
    (hc : h[c]? = some nd) (w : Wr h Q' nd W) (qb : Q' b) : ∀ {a C}, Ctx h Q b a C → Ctx h Q' c a (fun t => C (W t))
  | _, _, .here => .step qb hb hp hc w .here
  | _, _, .step qa e1 e2 e3 w' x =>
    .step (m _ (get_lt e1) qa) e1 e2 e3 (wr_move (fun i hi q => ⟨m i hi q, rfl⟩) w') (ctx_snoc m hb hp hc w qb x)

end Verif.Decl
