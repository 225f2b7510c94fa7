import Verif.ShProg.Spec
import Verif.ShProg.Scope2
import Verif.Hoist.Props
import Verif.Frame.Props
import Verif.Stmt.Props
/-! Machines that correspond: arithmetic. -/
namespace Verif.ShProg
open Verif Verif.Stmt Verif.Frame Verif.ShProg.Spec
open Verif.Hoist (Expr Args Rv Dest Cmd Machine obind omap)

/-- Two machines that do the same for the identifiers `ok`. -/
structure MRel (ok : Nat → Bool) (M M' : Machine) (Q : M.W → M'.W → Prop) : Prop where
  read : ∀ x w u, Q w u → ok x = true → M.read x w = M'.read x u
  write : ∀ x v w u, Q w u → ok x = true → Q (M.write x v w) (M'.write x v u)
  load : ∀ a w u, Q w u → M.load a w = M'.load a u
  store : ∀ a v w u w', Q w u → M.store a v w = some w' → ∃ u', M'.store a v u = some u' ∧ Q w' u'
  un : M.un = M'.un
  bin : M.bin = M'.bin

variable {ok : Nat → Bool} {M M' : Machine} {Q : M.W → M'.W → Prop}

theorem MRel.get (h : MRel ok M M' Q) {l : Expr} {w : M.W} {u : M'.W} (hq : Q w u) (hs : scope ok l = true) : M.get l w = M'.get l u := by
  unfold Machine.get
  split
  · rw [h.read _ _ _ hq (by simpa [scope] using hs)]
  · rw [h.load _ _ _ hq]
  · rfl

theorem MRel.set (h : MRel ok M M' Q) {l : Expr} {v : Int} {w w' : M.W} {u : M'.W} (hq : Q w u) (hs : scope ok l = true) (he : M.set l v w = some w') :
    ∃ u', M'.set l v u = some u' ∧ Q w' u' := by
  unfold Machine.set at he ⊢
  split at he
  · cases he; exact ⟨_, rfl, h.write _ _ _ _ hq (by simpa [scope] using hs)⟩
  · exact h.store _ _ _ _ _ hq he
  · cases he

theorem MRel.ev (h : MRel ok M M' Q) : ∀ (e : Expr) (w : M.W) (u : M'.W) (v : Int) (w' : M.W), scope ok e = true → Q w u → Hoist.ev M e w = some (v, w') →
    ∃ u', Hoist.ev M' e u = some (v, u') ∧ Q w' u' := by
  intro e
  match e with
  | .lit v => intro w u v' w' _ hq he; simp only [Hoist.ev, Option.some.injEq, Prod.mk.injEq] at he ⊢; obtain ⟨rfl, rfl⟩ := he; exact ⟨u, ⟨rfl, rfl⟩, hq⟩
  | .var x =>
    intro w u v' w' hs hq he; simp only [Hoist.ev, Option.some.injEq, Prod.mk.injEq] at he ⊢; obtain ⟨rfl, rfl⟩ := he
    exact ⟨u, ⟨(h.read _ _ _ hq (by simpa [scope] using hs)).symm, rfl⟩, hq⟩
  | .un o e =>
    intro w u v' w' hs hq he; simp only [Hoist.ev] at he ⊢; simp only [scope] at hs
    obtain ⟨⟨x, w1⟩, h1, h2⟩ := obind he
    obtain ⟨r, h3, h4⟩ := omap h2
    cases h4
    obtain ⟨u1, e1, q1⟩ := h.ev e _ _ _ _ hs hq h1
    exact ⟨u1, by simp [e1, ← h.un, h3], q1⟩
  | .deref e =>
    intro w u v' w' hs hq he; simp only [Hoist.ev] at he ⊢; simp only [scope] at hs
    obtain ⟨⟨x, w1⟩, h1, h2⟩ := obind he
    obtain ⟨r, h3, h4⟩ := omap h2
    cases h4
    obtain ⟨u1, e1, q1⟩ := h.ev e _ _ _ _ hs hq h1
    exact ⟨u1, by simp [e1, ← h.load _ _ _ q1, h3], q1⟩
  | .paren e => intro w u v' w' hs hq he; simp only [Hoist.ev] at he ⊢; simp only [scope] at hs; exact h.ev e _ _ _ _ hs hq he
  | .cast e => intro w u v' w' hs hq he; simp only [Hoist.ev] at he ⊢; simp only [scope] at hs; exact h.ev e _ _ _ _ hs hq he
  | .bin c o a b =>
    intro w u v' w' hs hq he; simp only [Hoist.ev] at he ⊢; simp only [scope, Bool.and_eq_true] at hs
    obtain ⟨⟨x, w1⟩, h1, h2⟩ := obind he
    obtain ⟨⟨y, w2⟩, h3, h4⟩ := obind h2
    obtain ⟨r, h5, h6⟩ := omap h4
    cases h6
    obtain ⟨u1, e1, q1⟩ := h.ev a _ _ _ _ hs.1 hq h1
    obtain ⟨u2, e2, q2⟩ := h.ev b _ _ _ _ hs.2 q1 h3
    exact ⟨u2, by simp [e1, e2, ← h.bin, h5], q2⟩
  | .comma a b =>
    intro w u v' w' hs hq he; simp only [Hoist.ev] at he ⊢; simp only [scope, Bool.and_eq_true] at hs
    obtain ⟨⟨x, w1⟩, h1, h2⟩ := obind he
    obtain ⟨u1, e1, q1⟩ := h.ev a _ _ _ _ hs.1 hq h1
    obtain ⟨u2, e2, q2⟩ := h.ev b _ _ _ _ hs.2 q1 h2
    exact ⟨u2, by simp [e1, e2], q2⟩
  | .assign l r =>
    intro w u v' w' hs hq he; simp only [Hoist.ev] at he ⊢; simp only [scope, Bool.and_eq_true] at hs
    obtain ⟨⟨x, w1⟩, h1, h2⟩ := obind he
    obtain ⟨w2, h3, h4⟩ := omap h2
    cases h4
    obtain ⟨u1, e1, q1⟩ := h.ev r _ _ _ _ hs.2 hq h1
    obtain ⟨u2, e2, q2⟩ := h.set q1 hs.1 h3
    exact ⟨u2, by simp [e1, e2], q2⟩
  | .opassign o l r =>
    intro w u v' w' hs hq he; simp only [Hoist.ev] at he ⊢; simp only [scope, Bool.and_eq_true] at hs
    obtain ⟨⟨x, w1⟩, h1, h2⟩ := obind he
    obtain ⟨y, h3, h4⟩ := obind h2
    obtain ⟨z, h5, h6⟩ := obind h4
    obtain ⟨w2, h7, h8⟩ := omap h6
    cases h8
    obtain ⟨u1, e1, q1⟩ := h.ev r _ _ _ _ hs.2 hq h1
    obtain ⟨u2, e2, q2⟩ := h.set q1 hs.1 h7
    exact ⟨u2, by simp [e1, ← h.get q1 hs.1, h3, ← h.bin, h5, e2], q2⟩
  | .post o l =>
    intro w u v' w' hs hq he; simp only [Hoist.ev] at he ⊢; simp only [scope] at hs
    obtain ⟨y, h3, h4⟩ := obind he
    obtain ⟨z, h5, h6⟩ := obind h4
    obtain ⟨w2, h7, h8⟩ := omap h6
    cases h8
    obtain ⟨u2, e2, q2⟩ := h.set hq hs h7
    exact ⟨u2, by simp [← h.get hq hs, h3, ← h.bin, h5, e2], q2⟩
  | .logic i a b =>
    intro w u v' w' hs hq he; simp only [Hoist.ev] at he ⊢; simp only [scope, Bool.and_eq_true] at hs
    obtain ⟨⟨x, w1⟩, h1, h2⟩ := obind he
    obtain ⟨u1, e1, q1⟩ := h.ev a _ _ _ _ hs.1 hq h1
    simp only [e1, Option.bind_some]
    simp only at h2
    split at h2
    · rename_i hc
      obtain ⟨⟨y, w2⟩, h3, h4⟩ := omap h2
      cases h4
      obtain ⟨u2, e2, q2⟩ := h.ev b _ _ _ _ hs.2 q1 h3
      exact ⟨u2, by rw [if_pos hc, e2]; rfl, q2⟩
    · rename_i hc
      simp only [Option.some.injEq, Prod.mk.injEq] at h2
      obtain ⟨rfl, rfl⟩ := h2
      exact ⟨u1, by rw [if_neg hc], q1⟩
  | .cond c a b =>
    intro w u v' w' hs hq he; simp only [Hoist.ev] at he ⊢; simp only [scope, Bool.and_eq_true] at hs
    obtain ⟨⟨x, w1⟩, h1, h2⟩ := obind he
    obtain ⟨u1, e1, q1⟩ := h.ev c _ _ _ _ hs.1.1 hq h1
    simp only [e1, Option.bind_some]
    simp only at h2
    split at h2
    · rename_i hc
      obtain ⟨u2, e2, q2⟩ := h.ev a _ _ _ _ hs.1.2 q1 h2
      exact ⟨u2, by rw [if_pos hc, e2], q2⟩
    · rename_i hc
      obtain ⟨u2, e2, q2⟩ := h.ev b _ _ _ _ hs.2 q1 h2
      exact ⟨u2, by rw [if_neg hc, e2], q2⟩
  | .tmp _ | .call .. | .logic4 .. => intro w u v' w' hs hq he; simp [Hoist.ev] at he

theorem MRel.expand (h : MRel ok M M' Q) (T : Nat → Int) : ∀ (e : Expr) (w : M.W) (u : M'.W) (e' : Expr) (w' : M.W), scope ok e = true → Q w u → Hoist.expand M T e w = some (e', w') →
    (∃ u', Hoist.expand M' T e u = some (e', u') ∧ Q w' u') ∧ scope ok e' = true := by
  intro e
  match e with
  | .lit v => intro w u v' w' _ hq he; simp only [Hoist.expand, Option.some.injEq, Prod.mk.injEq] at he ⊢; obtain ⟨rfl, rfl⟩ := he; exact ⟨⟨u, ⟨rfl, rfl⟩, hq⟩, rfl⟩
  | .var x => intro w u v' w' hs hq he; simp only [Hoist.expand, Option.some.injEq, Prod.mk.injEq] at he ⊢; obtain ⟨rfl, rfl⟩ := he; exact ⟨⟨u, ⟨rfl, rfl⟩, hq⟩, hs⟩
  | .tmp x => intro w u v' w' hs hq he; simp only [Hoist.expand, Option.some.injEq, Prod.mk.injEq] at he ⊢; obtain ⟨rfl, rfl⟩ := he; exact ⟨⟨u, ⟨rfl, rfl⟩, hq⟩, rfl⟩
  | .un o e =>
    intro w u v' w' hs hq he; simp only [Hoist.expand] at he ⊢; simp only [scope] at hs
    obtain ⟨⟨x, w1⟩, h1, h2⟩ := omap he
    cases h2
    obtain ⟨⟨u1, e1, q1⟩, s1⟩ := h.expand T e _ _ _ _ hs hq h1
    exact ⟨⟨u1, by simp [e1], q1⟩, by simpa [scope] using s1⟩
  | .paren e =>
    intro w u v' w' hs hq he; simp only [Hoist.expand] at he ⊢; simp only [scope] at hs
    obtain ⟨⟨x, w1⟩, h1, h2⟩ := omap he
    cases h2
    obtain ⟨⟨u1, e1, q1⟩, s1⟩ := h.expand T e _ _ _ _ hs hq h1
    exact ⟨⟨u1, by simp [e1], q1⟩, by simpa [scope] using s1⟩
  | .cast e =>
    intro w u v' w' hs hq he; simp only [Hoist.expand] at he ⊢; simp only [scope] at hs
    obtain ⟨⟨x, w1⟩, h1, h2⟩ := omap he
    cases h2
    obtain ⟨⟨u1, e1, q1⟩, s1⟩ := h.expand T e _ _ _ _ hs hq h1
    exact ⟨⟨u1, by simp [e1], q1⟩, by simpa [scope] using s1⟩
  | .post o e =>
    intro w u v' w' hs hq he; simp only [Hoist.expand] at he ⊢; simp only [scope] at hs
    obtain ⟨⟨x, w1⟩, h1, h2⟩ := omap he
    cases h2
    obtain ⟨⟨u1, e1, q1⟩, s1⟩ := h.expand T e _ _ _ _ hs hq h1
    exact ⟨⟨u1, by simp [e1], q1⟩, by simpa [scope] using s1⟩
  | .deref e =>
    intro w u v' w' hs hq he; simp only [Hoist.expand] at he ⊢; simp only [scope] at hs
    obtain ⟨⟨x, w1⟩, h1, h2⟩ := obind he
    obtain ⟨⟨a, w2⟩, h3, h4⟩ := omap h2
    cases h4
    obtain ⟨⟨u1, e1, q1⟩, s1⟩ := h.expand T e _ _ _ _ hs hq h1
    obtain ⟨u2, e2, q2⟩ := h.ev x _ _ _ _ s1 q1 h3
    exact ⟨⟨u2, by simp [e1, e2], q2⟩, by simp [scope]⟩
  | .bin c o a b =>
    intro w u v' w' hs hq he; simp only [Hoist.expand] at he ⊢; simp only [scope, Bool.and_eq_true] at hs
    obtain ⟨⟨x, w1⟩, h1, h2⟩ := obind he
    obtain ⟨⟨y, w2⟩, h3, h4⟩ := omap h2
    cases h4
    obtain ⟨⟨u1, e1, q1⟩, s1⟩ := h.expand T a _ _ _ _ hs.1 hq h1
    obtain ⟨⟨u2, e2, q2⟩, s2⟩ := h.expand T b _ _ _ _ hs.2 q1 h3
    exact ⟨⟨u2, by simp [e1, e2], q2⟩, by simp [scope, s1, s2]⟩
  | .comma a b =>
    intro w u v' w' hs hq he; simp only [Hoist.expand] at he ⊢; simp only [scope, Bool.and_eq_true] at hs
    obtain ⟨⟨x, w1⟩, h1, h2⟩ := obind he
    obtain ⟨⟨y, w2⟩, h3, h4⟩ := omap h2
    cases h4
    obtain ⟨⟨u1, e1, q1⟩, s1⟩ := h.expand T a _ _ _ _ hs.1 hq h1
    obtain ⟨⟨u2, e2, q2⟩, s2⟩ := h.expand T b _ _ _ _ hs.2 q1 h3
    exact ⟨⟨u2, by simp [e1, e2], q2⟩, by simp [scope, s1, s2]⟩
  | .assign a b =>
    intro w u v' w' hs hq he; simp only [Hoist.expand] at he ⊢; simp only [scope, Bool.and_eq_true] at hs
    obtain ⟨⟨x, w1⟩, h1, h2⟩ := obind he
    obtain ⟨⟨y, w2⟩, h3, h4⟩ := omap h2
    cases h4
    obtain ⟨⟨u1, e1, q1⟩, s1⟩ := h.expand T a _ _ _ _ hs.1 hq h1
    obtain ⟨⟨u2, e2, q2⟩, s2⟩ := h.expand T b _ _ _ _ hs.2 q1 h3
    exact ⟨⟨u2, by simp [e1, e2], q2⟩, by simp [scope, s1, s2]⟩
  | .opassign o a b =>
    intro w u v' w' hs hq he; simp only [Hoist.expand] at he ⊢; simp only [scope, Bool.and_eq_true] at hs
    obtain ⟨⟨x, w1⟩, h1, h2⟩ := obind he
    obtain ⟨⟨y, w2⟩, h3, h4⟩ := omap h2
    cases h4
    obtain ⟨⟨u1, e1, q1⟩, s1⟩ := h.expand T a _ _ _ _ hs.1 hq h1
    obtain ⟨⟨u2, e2, q2⟩, s2⟩ := h.expand T b _ _ _ _ hs.2 q1 h3
    exact ⟨⟨u2, by simp [e1, e2], q2⟩, by simp [scope, s1, s2]⟩
  | .logic4 i a b _ _ =>
    intro w u v' w' hs hq he; simp only [Hoist.expand] at he ⊢; simp only [scope, Bool.and_eq_true] at hs
    obtain ⟨⟨x, w1⟩, h1, h2⟩ := obind he
    obtain ⟨⟨y, w2⟩, h3, h4⟩ := omap h2
    cases h4
    obtain ⟨⟨u1, e1, q1⟩, s1⟩ := h.expand T a _ _ _ _ hs.1 hq h1
    obtain ⟨⟨u2, e2, q2⟩, s2⟩ := h.expand T b _ _ _ _ hs.2 q1 h3
    exact ⟨⟨u2, by simp [e1, e2], q2⟩, by simp [scope, s1, s2]⟩
  | .cond c a b =>
    intro w u v' w' hs hq he; simp only [Hoist.expand] at he ⊢; simp only [scope, Bool.and_eq_true] at hs
    obtain ⟨⟨x, w1⟩, h1, h2⟩ := obind he
    obtain ⟨⟨y, w2⟩, h3, h4⟩ := obind h2
    obtain ⟨⟨z, w3⟩, h5, h6⟩ := omap h4
    cases h6
    obtain ⟨⟨u1, e1, q1⟩, s1⟩ := h.expand T c _ _ _ _ hs.1.1 hq h1
    obtain ⟨⟨u2, e2, q2⟩, s2⟩ := h.expand T a _ _ _ _ hs.1.2 q1 h3
    obtain ⟨⟨u3, e3, q3⟩, s3⟩ := h.expand T b _ _ _ _ hs.2 q2 h5
    exact ⟨⟨u3, by simp [e1, e2, e3], q3⟩, by simp [scope, s1, s2, s3]⟩
  | .call .. | .logic .. => intro w u v' w' hs hq he; simp [Hoist.expand] at he

theorem MRel.arith (h : MRel ok M M' Q) {T : Nat → Int} {e : Expr} {w : M.W} {u : M'.W} {v : Int} {w' : M.W} (hs : scope ok e = true) (hq : Q w u) (he : Hoist.arith M T e w = some (v, w')) :
    ∃ u', Hoist.arith M' T e u = some (v, u') ∧ Q w' u' := by
  rw [Hoist.arith] at he
  obtain ⟨⟨x, w1⟩, h1, h2⟩ := obind he
  obtain ⟨⟨u1, e1, q1⟩, s1⟩ := h.expand T e _ _ _ _ hs hq h1
  obtain ⟨u2, e2, q2⟩ := h.ev x _ _ _ _ s1 q1 h2
  exact ⟨u2, by simp [Hoist.arith, e1, e2], q2⟩

theorem MRel.ariths (h : MRel ok M M' Q) {T : Nat → Int} : ∀ (es : List Expr) (w : M.W) (u : M'.W) (vs : List Int) (w' : M.W), es.all (scope ok) = true → Q w u → Hoist.ariths M T es w = some (vs, w') →
    ∃ u', Hoist.ariths M' T es u = some (vs, u') ∧ Q w' u' := by
  intro es
  induction es with
  | nil => intro w u vs w' _ hq he; simp only [Hoist.ariths, Option.some.injEq, Prod.mk.injEq] at he ⊢; obtain ⟨rfl, rfl⟩ := he; exact ⟨u, ⟨rfl, rfl⟩, hq⟩
  | cons e r ih =>
    intro w u vs w' hs hq he
    simp only [List.all_cons, Bool.and_eq_true] at hs
    simp only [Hoist.ariths] at he ⊢
    obtain ⟨⟨x, w1⟩, h1, h2⟩ := obind he
    obtain ⟨⟨y, w2⟩, h3, h4⟩ := omap h2
    cases h4
    obtain ⟨u1, e1, q1⟩ := h.arith hs.1 hq h1
    obtain ⟨u2, e2, q2⟩ := ih _ _ _ _ hs.2 q1 h3
    exact ⟨u2, by simp [e1, e2], q2⟩

theorem MRel.leaf (h : MRel ok M M' Q) {T : Nat → Int} {e : Expr} {w : M.W} {u : M'.W} {b : Bool} {w' : M.W} (hs : scope ok e = true) (hq : Q w u) (he : Hoist.runLeaf M T e w = some (b, w')) :
    ∃ u', Hoist.runLeaf M' T e u = some (b, u') ∧ Q w' u' := by
  unfold Hoist.runLeaf at he ⊢
  split at he
  · rename_i o a c
    simp only [scope, Bool.and_eq_true] at hs
    obtain ⟨⟨x, w1⟩, h1, h2⟩ := obind he
    obtain ⟨⟨y, w2⟩, h3, h4⟩ := obind h2
    obtain ⟨r, h5, h6⟩ := omap h4
    cases h6
    obtain ⟨u1, e1, q1⟩ := h.arith hs.1 hq h1
    obtain ⟨u2, e2, q2⟩ := h.arith hs.2 q1 h3
    exact ⟨u2, by simp [e1, e2, ← h.bin, h5], q2⟩
  · obtain ⟨⟨x, w1⟩, h1, h2⟩ := omap he
    cases h2
    obtain ⟨u1, e1, q1⟩ := h.arith hs hq h1
    exact ⟨u1, by simp [e1], q1⟩

end Verif.ShProg
