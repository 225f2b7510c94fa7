import Verif.Ast.Proofs
/-! # C02 — AST nodes are fresh and stable -/
namespace Verif.Ast
open Verif

/-- **C02.**  After any legal history of node constructions, updates and clonings that does not
end in the reported "heap overflow" error, the node store reads as the list of independent records
of the specification: the same number of nodes, and for each node the operator, the number of
children and every slot are those of its record. -/
theorem C02_ast_store (os : List Op) (hl : Spec.LegalRun [] os) (w : World)
    (hr : run World.init os = .ok w) :
    w.nodes.length = (Spec.run [] os).length ∧
    ∀ (n : Nat) (x : Spec.Node) (a : Nat), (Spec.run [] os)[n]? = some x → w.nodes[n]? = some a →
      getOp w.st a = x.op ∧ getNbChildren w.st a = x.nb ∧
      ∀ i v, x.slots[i]? = some v → getChild w.st a i = v := by
  have h := run_rel (.nil _) (by simp [World.init, init]) hl hr
  refine ⟨h.length, ?_⟩
  intro n x a hx ha
  obtain ⟨a', ha', h1, -⟩ := h.get hx
  rw [ha] at ha'; injection ha' with ha'; subst ha'
  have hrd := h1.rd
  have h0 := h1.op0; have h2 := h1.op1
  simp only [readList, cells, List.cons.injEq] at hrd
  refine ⟨by simp only [getOp, hrd.1]; omega, by simp only [getNbChildren, hrd.1]; omega, ?_⟩
  intro i v hi
  have := hrd.2
  rw [← this] at hi
  obtain ⟨hlt, he⟩ := List.getElem?_eq_some_iff.mp hi
  rw [readList_getElem] at he
  rw [← he, getChild]; congr 1; omega

/-- **C02, the value of a node.** What `get_val` returns for a node is the first thing stored in it. -/
theorem C02_ast_val (os : List Op) (hl : Spec.LegalRun [] os) (w : World) (hr : run World.init os = .ok w) (n : Nat) (x : Spec.Node) (a : Nat)
    (hx : (Spec.run [] os)[n]? = some x) (ha : w.nodes[n]? = some a) (v : Int) (hv : x.slots[0]? = some v) : getVal w.st a = v :=
  ((C02_ast_store os hl w hr).2 n x a hx ha).2.2 0 v hv

/-- **C02, disjointness.**  Two different nodes never share a cell: node `i` occupies
`[a, a + 1 + slots)` and these intervals are pairwise disjoint and inside the heap. -/
theorem C02_ast_disjoint (os : List Op) (hl : Spec.LegalRun [] os) (w : World)
    (hr : run World.init os = .ok w) (i j : Nat) (hij : i ≠ j) (x y : Spec.Node) (a b : Nat)
    (hx : (Spec.run [] os)[i]? = some x) (hy : (Spec.run [] os)[j]? = some y)
    (ha : w.nodes[i]? = some a) (hb : w.nodes[j]? = some b) (k l : Nat)
    (hk : k < 1 + x.slots.length) (hl' : l < 1 + y.slots.length) : a + k ≠ b + l := by
  have h := run_rel (.nil _) (by simp [World.init, init]) hl hr
  rcases Nat.lt_or_gt_of_ne hij with hlt | hgt
  · have := h.pairwise i j x y a b hx hy ha hb hlt; omega
  · have := h.pairwise j i y x b a hy hx hb ha hgt; omega

/-- **C02, exhaustion.**  Running out of node memory is always the reported fatal error. -/
theorem C02_ast_no_silent_overflow (os : List Op) :
    (∃ w, run World.init os = .ok w) ∨ run World.init os = .fatal := by
  have := run_ne_ub World.init os
  cases h : run World.init os with
  | ok w => exact .inl ⟨w, rfl⟩
  | fatal => exact .inr rfl
  | ub => exact absurd h this.1
  | diverge => exact absurd h this.2

theorem allocObj_le {s s' : St} {n a : Nat} (h : allocObj s n = .ok (a, s')) :
    s'.alloc ≤ HEAP_SIZE := by
  unfold allocObj at h
  split at h
  · cases h
  · injection h with h; injection h with _ h; subst h; simp only; omega

theorem cloneLoop_alloc (s : St) (d sr i k : Nat) : (cloneLoop s d sr i k).alloc = s.alloc := by
  induction k generalizing s i with
  | zero => rfl
  | succ k ih => simp only [cloneLoop, ih, setChild]

theorem step_alloc_le {w w' : World} {o : Op} (h0 : w.st.alloc ≤ HEAP_SIZE)
    (h : step w o = .ok w') : w'.st.alloc ≤ HEAP_SIZE := by
  have push_le : ∀ {r : Res (Nat × St)}, (∀ a s, r = .ok (a, s) → s.alloc ≤ HEAP_SIZE) →
      w.push r = .ok w' → w'.st.alloc ≤ HEAP_SIZE := by
    intro r hr hp
    obtain ⟨⟨a, s⟩, h1, h2⟩ := Res.bind_eq_ok.mp hp
    injection h2 with h2; subst h2
    exact hr a s h1
  cases o with
  | new0 op v =>
    refine push_le ?_ h
    intro a s hs
    obtain ⟨⟨b, t⟩, h1, h2⟩ := Res.bind_eq_ok.mp hs
    injection h2 with h2; injection h2 with _ h2; subst h2
    have hle := allocObj_le h1; exact hle
  | new1 op v =>
    refine push_le ?_ h
    intro a s hs
    obtain ⟨⟨b, t⟩, h1, h2⟩ := Res.bind_eq_ok.mp hs
    injection h2 with h2; injection h2 with _ h2; subst h2
    have hle := allocObj_le h1; exact hle
  | new2 op v x =>
    refine push_le ?_ h
    intro a s hs
    obtain ⟨⟨b, t⟩, h1, h2⟩ := Res.bind_eq_ok.mp hs
    injection h2 with h2; injection h2 with _ h2; subst h2
    have hle := allocObj_le h1; exact hle
  | new3 op v x y =>
    refine push_le ?_ h
    intro a s hs
    obtain ⟨⟨b, t⟩, h1, h2⟩ := Res.bind_eq_ok.mp hs
    injection h2 with h2; injection h2 with _ h2; subst h2
    have hle := allocObj_le h1; exact hle
  | new4 op v x y z =>
    refine push_le ?_ h
    intro a s hs
    obtain ⟨⟨b, t⟩, h1, h2⟩ := Res.bind_eq_ok.mp hs
    injection h2 with h2; injection h2 with _ h2; subst h2
    have hle := allocObj_le h1; exact hle
  | set n i v =>
    simp only [step] at h
    split at h <;> (injection h with h; subst h; exact h0)
  | clone n =>
    simp only [step] at h
    split at h
    · refine push_le ?_ h
      intro a s hs
      obtain ⟨⟨b, t⟩, h1, h2⟩ := Res.bind_eq_ok.mp hs
      injection h2 with h2; injection h2 with _ h2; subst h2
      rw [cloneLoop_alloc]
      have hle := allocObj_le h1; exact hle
    · injection h with h; subst h; exact h0

theorem run_alloc_le {w w' : World} {os : List Op} (h0 : w.st.alloc ≤ HEAP_SIZE)
    (h : run w os = .ok w') : w'.st.alloc ≤ HEAP_SIZE := by
  induction os generalizing w with
  | nil => injection h with h; subst h; exact h0
  | cons o os ih =>
    obtain ⟨w1, h1, h2⟩ := Res.bind_eq_ok.mp h
    exact ih (step_alloc_le h0 h1) h2

/-- **C02, bounds.**  As long as no "heap overflow" was reported, every cell of every node lies
inside the heap array: overflow is never silent. -/
theorem C02_ast_in_heap (os : List Op) (hl : Spec.LegalRun [] os) (w : World)
    (hr : run World.init os = .ok w) (n : Nat) (x : Spec.Node) (a : Nat)
    (hx : (Spec.run [] os)[n]? = some x) (ha : w.nodes[n]? = some a) :
    a + x.slots.length < 2000000 := by
  have h := run_rel (.nil _) (by simp [World.init, init]) hl hr
  obtain ⟨a', ha', h1, -⟩ := h.get hx
  rw [ha] at ha'; injection ha' with ha'; subst ha'
  have := h1.hi
  have := run_alloc_le (by simp [World.init, init, HEAP_SIZE]) hr
  simp only [HEAP_SIZE] at this
  omega

/-- Non-vacuity: a legal history with all operations. -/
def demo : List Op :=
  [.new0 401 (-5), .new2 43 1009 1009, .clone 1, .set 2 1 77, .new4 300 1 2 3 4, .new1 42 1, .new3 5 1 2 3]
example : Spec.LegalRun [] demo := by
  simp only [demo, Spec.LegalRun, Spec.Legal, Spec.step]
  refine ⟨by omega, by omega, by simp, ⟨_, rfl, by decide⟩, by omega, by omega, by omega, trivial⟩
example : (match run World.init demo with
    | .ok w => w.nodes.map (fun a => (getOp w.st a, getNbChildren w.st a, getChild w.st a 0))
    | _ => []) =
    [(401, 0, -5), (43, 2, 1009), (43, 2, 1009), (300, 4, 1), (42, 1, 1), (5, 3, 1)] := by
  decide +kernel

end Verif.Ast
