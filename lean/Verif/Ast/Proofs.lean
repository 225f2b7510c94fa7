import Verif.Ast.Spec
namespace Verif.Ast
open Verif

/-- Cells of a node record. -/
def cells (x : Spec.Node) : List Int := (x.op + 1024 * (x.nb : Int)) :: x.slots

structure Rel1 (s : St) (a : Nat) (x : Spec.Node) : Prop where
  rd : readList s.heap a (x.slots.length + 1) = cells x
  hi : a + x.slots.length + 1 ≤ s.alloc
  len : x.slots.length = if x.nb = 0 then 1 else x.nb
  op0 : 0 ≤ x.op
  op1 : x.op < 1024

/-- Concrete addresses vs abstract nodes, in order, separated. -/
inductive Rel (s : St) : Nat → List Nat → List Spec.Node → Prop
  | nil (lo) : Rel s lo [] []
  | cons (lo a as x xs) : lo ≤ a → Rel1 s a x → Rel s (a + x.slots.length + 1) as xs →
      Rel s lo (a :: as) (x :: xs)

theorem Rel.length {s lo as xs} (h : Rel s lo as xs) : as.length = xs.length := by
  induction h with
  | nil => rfl
  | cons _ _ _ _ _ _ _ _ ih => simp [ih]

theorem Rel.mono {s s' lo as xs} (h : Rel s lo as xs)
    (heq : ∀ a, lo ≤ a → a < s.alloc → s'.heap a = s.heap a) (ha : s.alloc ≤ s'.alloc) :
    Rel s' lo as xs := by
  induction h with
  | nil => exact .nil _
  | cons lo a as x xs hlo h1 _ ih =>
    refine .cons _ _ _ _ _ hlo ?_ (ih (fun b hb => heq b (by omega)))
    refine { rd := ?_, hi := by have := h1.hi; omega, len := h1.len, op0 := h1.op0, op1 := h1.op1 }
    rw [← h1.rd]
    apply readList_congr
    intro y hy1 hy2
    exact heq y (by omega) (by have := h1.hi; omega)

theorem Rel.snoc {s lo as xs a x} (h : Rel s lo as xs) (hlo : lo ≤ a) (h1 : Rel1 s a x)
    (hb : ∀ b y, (b, y) ∈ as.zip xs → b + y.slots.length + 1 ≤ a) :
    Rel s lo (as ++ [a]) (xs ++ [x]) := by
  induction h with
  | nil => exact .cons _ _ _ _ _ hlo h1 (.nil _)
  | cons lo b as y ys hl h2 _ ih =>
    refine .cons _ _ _ _ _ hl h2 (ih (hb b y (by simp)) ?_)
    intro c z hz; exact hb c z (by simp [hz])

theorem Rel.hi {s lo as xs} (h : Rel s lo as xs) :
    ∀ b y, (b, y) ∈ as.zip xs → b + y.slots.length + 1 ≤ s.alloc := by
  induction h with
  | nil => simp
  | cons lo a as x xs _ h1 _ ih =>
    intro b y hy
    simp only [List.zip_cons_cons, List.mem_cons, Prod.mk.injEq] at hy
    rcases hy with ⟨rfl, rfl⟩ | hy
    · exact h1.hi
    · exact ih b y hy

theorem Rel.get {s lo as xs} (h : Rel s lo as xs) {n : Nat} {x : Spec.Node} (hx : xs[n]? = some x) :
    ∃ a, as[n]? = some a ∧ Rel1 s a x ∧ lo ≤ a := by
  induction h generalizing n with
  | nil => simp at hx
  | cons lo a as y ys hlo h1 _ ih =>
    cases n with
    | zero => simp at hx; subst hx; exact ⟨a, by simp, h1, hlo⟩
    | succ n =>
      obtain ⟨b, hb, hr, hl⟩ := ih (by simpa using hx)
      exact ⟨b, by simpa using hb, hr, by omega⟩

theorem readList_upd_out {m : Nat → Int} {a n p : Nat} {v : Int} (h : p < a ∨ a + n ≤ p) :
    readList (upd m p v) a n = readList m a n := by
  apply readList_congr
  intro x h1 h2
  exact upd_other _ _ (by omega)

theorem readList_set {m : Nat → Int} {a n i : Nat} {v : Int} :
    readList (upd m (a + i) v) a n = (readList m a n).set i v := by
  induction n generalizing a i with
  | zero => simp [readList]
  | succ n ih =>
    cases i with
    | zero =>
      simp only [readList, List.set_cons_zero, Nat.add_zero, upd_same]
      rw [readList_upd_out (by omega)]
    | succ i =>
      simp only [readList, List.set_cons_succ]
      rw [upd_other _ _ (by omega), show a + (i + 1) = a + 1 + i by omega, ih]

theorem Rel.set {s lo as xs} (h : Rel s lo as xs) {n i : Nat} {a : Nat} {x : Spec.Node} {v : Int}
    (ha : as[n]? = some a) (hx : xs[n]? = some x) (hi : i < x.slots.length) :
    Rel (setChild s a i v) lo as (xs.modify n (fun x => { x with slots := x.slots.set i v })) := by
  induction h generalizing n with
  | nil => simp at ha
  | cons lo b as y ys hlo h1 hrest ih =>
    cases n with
    | zero =>
      simp only [List.getElem?_cons_zero, Option.some.injEq] at ha hx
      subst ha; subst hx
      simp only [List.modify_zero_cons]
      refine .cons _ _ _ _ _ hlo ?_ ?_
      · refine { rd := ?_, hi := ?_, len := ?_, op0 := h1.op0, op1 := h1.op1 }
        · simp only [setChild, List.length_set, Nat.add_assoc]
          rw [readList_set, h1.rd]; simp [cells]
        · simpa [setChild] using h1.hi
        · simpa using h1.len
      · simp only [List.length_set]
        refine hrest.mono ?_ (Nat.le_refl _)
        intro c hc _
        exact upd_other _ _ (by omega)
    | succ n =>
      simp only [List.getElem?_cons_succ] at ha hx
      simp only [List.modify_succ_cons]
      obtain ⟨a', ha', hra, hla⟩ := hrest.get hx
      rw [ha] at ha'; injection ha' with ha'; subst ha'
      refine .cons _ _ _ _ _ hlo ?_ (ih ha hx)
      refine { rd := ?_, hi := h1.hi, len := h1.len, op0 := h1.op0, op1 := h1.op1 }
      rw [← h1.rd]
      exact readList_upd_out (by omega)

theorem cloneLoop_spec (s : St) (dst src i k : Nat) (hd : src + i + k < dst) :
    (cloneLoop s dst src i k).alloc = s.alloc ∧
    (∀ x, x < dst + i + 1 → (cloneLoop s dst src i k).heap x = s.heap x) ∧
    readList (cloneLoop s dst src i k).heap (dst + i + 1) k = readList s.heap (src + i + 1) k := by
  induction k generalizing s i with
  | zero => simp [cloneLoop, readList]
  | succ k ih =>
    obtain ⟨h1, h2, h3⟩ := ih (setChild s dst i (getChild s src i)) (i + 1) (by omega)
    refine ⟨by simpa [cloneLoop, setChild] using h1, ?_, ?_⟩
    · intro x hx
      simp only [cloneLoop]
      rw [h2 x (by omega)]
      exact upd_other _ _ (by omega)
    · simp only [cloneLoop, readList]
      congr 1
      · rw [h2 _ (by omega)]; simp [setChild, getChild, upd]
      · rw [show dst + i + 1 + 1 = dst + (i + 1) + 1 by omega, h3,
          show src + i + 1 + 1 = src + (i + 1) + 1 by omega]
        apply readList_congr
        intro x hx1 hx2
        exact upd_other _ _ (by omega)

theorem push_rel {w : World} {xs : List Spec.Node} (h : Rel w.st 1009 w.nodes xs)
    (hlo : 1009 ≤ w.st.alloc)
    {x : Spec.Node} {s' : St} {a : Nat}
    (ha : a = w.st.alloc) (hal : s'.alloc = w.st.alloc + x.slots.length + 1)
    (hold : ∀ y, y < w.st.alloc → s'.heap y = w.st.heap y)
    (hrd : readList s'.heap a (x.slots.length + 1) = cells x)
    (hlen : x.slots.length = if x.nb = 0 then 1 else x.nb) (h0 : 0 ≤ x.op) (h1 : x.op < 1024) :
    Rel s' 1009 (w.nodes ++ [a]) (xs ++ [x]) := by
  subst ha
  refine (h.mono (fun y _ hy => hold y hy) (by omega)).snoc hlo ⟨hrd, by omega, hlen, h0, h1⟩ ?_
  exact h.hi

theorem step_rel {w w' : World} {xs : List Spec.Node} {o : Op} (h : Rel w.st 1009 w.nodes xs)
    (hlo : 1009 ≤ w.st.alloc) (hl : Spec.Legal xs o) (hs : step w o = .ok w') :
    Rel w'.st 1009 w'.nodes (Spec.step xs o) ∧ 1009 ≤ w'.st.alloc := by
  cases o with
  | new0 op v =>
    simp only [step, World.push, newAst0, allocObj] at hs
    split at hs
    · cases hs
    · simp only [Res.bind_ok, Res.ok.injEq] at hs; subst hs
      refine ⟨push_rel h hlo (x := ⟨op, 0, [v]⟩) rfl rfl ?_ ?_ (by simp) hl.1 hl.2,
        by simp only [setVal]; omega⟩
      · intro y hy; simp only [setVal, upd]; repeat rw [if_neg (by omega)]
      · simp [readList, setVal, upd, cells]
  | new1 op c0 =>
    simp only [step, World.push, newAst1, allocObj] at hs
    split at hs
    · cases hs
    · simp only [Res.bind_ok, Res.ok.injEq] at hs; subst hs
      refine ⟨push_rel h hlo (x := ⟨op, 1, [c0]⟩) rfl rfl ?_ ?_ (by simp) hl.1 hl.2,
        by simp only [setChild]; omega⟩
      · intro y hy; simp only [setChild, upd]; repeat rw [if_neg (by omega)]
      · simp [readList, setChild, upd, cells]
  | new2 op c0 c1 =>
    simp only [step, World.push, newAst2, allocObj] at hs
    split at hs
    · cases hs
    · simp only [Res.bind_ok, Res.ok.injEq] at hs; subst hs
      refine ⟨push_rel h hlo (x := ⟨op, 2, [c0, c1]⟩) rfl rfl ?_ ?_ (by simp) hl.1 hl.2,
        by simp only [setChild]; omega⟩
      · intro y hy; simp only [setChild, upd]; repeat rw [if_neg (by omega)]
      · simp [readList, setChild, upd, cells, Nat.add_assoc]
  | new3 op c0 c1 c2 =>
    simp only [step, World.push, newAst3, allocObj] at hs
    split at hs
    · cases hs
    · simp only [Res.bind_ok, Res.ok.injEq] at hs; subst hs
      refine ⟨push_rel h hlo (x := ⟨op, 3, [c0, c1, c2]⟩) rfl rfl ?_ ?_ (by simp) hl.1 hl.2,
        by simp only [setChild]; omega⟩
      · intro y hy; simp only [setChild, upd]; repeat rw [if_neg (by omega)]
      · simp [readList, setChild, upd, cells, Nat.add_assoc]
  | new4 op c0 c1 c2 c3 =>
    simp only [step, World.push, newAst4, allocObj] at hs
    split at hs
    · cases hs
    · simp only [Res.bind_ok, Res.ok.injEq] at hs; subst hs
      refine ⟨push_rel h hlo (x := ⟨op, 4, [c0, c1, c2, c3]⟩) rfl rfl ?_ ?_ (by simp) hl.1 hl.2,
        by simp only [setChild]; omega⟩
      · intro y hy; simp only [setChild, upd]; repeat rw [if_neg (by omega)]
      · simp [readList, setChild, upd, cells, Nat.add_assoc]
  | set n i v =>
    obtain ⟨x, hx, hi⟩ := hl
    obtain ⟨a, ha, -, -⟩ := h.get hx
    simp only [step, ha, Res.ok.injEq] at hs
    subst hs
    exact ⟨h.set ha hx hi, hlo⟩
  | clone n =>
    simp only [Spec.Legal] at hl
    have hx : xs[n]? = some xs[n] := List.getElem?_eq_getElem hl
    obtain ⟨a, ha, hr, hal⟩ := h.get hx
    generalize xs[n] = x at *
    simp only [step, ha, World.push, cloneAst] at hs
    have hnb : getNbChildren w.st a = (x.nb : Int) := by
      have := hr.rd
      simp only [readList, cells, List.cons.injEq] at this
      have h0 := hr.op0; have h1 := hr.op1
      simp only [getNbChildren, this.1]; omega
    have hn : (if (getNbChildren w.st a).toNat = 0 then 1 else (getNbChildren w.st a).toNat)
        = x.slots.length := by rw [hnb, hr.len]; simp
    rw [hn] at hs
    simp only [allocObj] at hs
    split at hs
    · cases hs
    · simp only [Res.bind_ok, Res.ok.injEq] at hs; subst hs
      have hhi := hr.hi
      obtain ⟨c1, c2, c3⟩ := cloneLoop_spec
        { heap := upd w.st.heap w.st.alloc (w.st.heap a), alloc := w.st.alloc + (x.slots.length + 1) }
        w.st.alloc a 0 x.slots.length (by omega)
      simp only [Spec.step, hx]
      refine ⟨push_rel h hlo rfl (by rw [c1]; simp only; omega) ?_ ?_ hr.len hr.op0 hr.op1,
        by rw [c1]; simp only; omega⟩
      · intro y hy
        rw [c2 y (by omega)]
        exact upd_other _ _ (by omega)
      · simp only [Nat.add_zero] at c3
        rw [← hr.rd, readList, readList, c3, c2 _ (by omega)]
        simp only [upd_same]
        congr 1
        exact readList_upd_out (by omega)

theorem run_rel {w w' : World} {xs : List Spec.Node} {os : List Op} (h : Rel w.st 1009 w.nodes xs)
    (hlo : 1009 ≤ w.st.alloc) (hl : Spec.LegalRun xs os) (hs : run w os = .ok w') :
    Rel w'.st 1009 w'.nodes (Spec.run xs os) := by
  induction os generalizing w xs with
  | nil => simp only [run, Res.ok.injEq] at hs; subst hs; exact h
  | cons o os ih =>
    simp only [run] at hs
    obtain ⟨w1, h1, h2⟩ := Res.bind_eq_ok.mp hs
    obtain ⟨r1, r2⟩ := step_rel h hlo hl.1 h1
    exact ih r1 r2 hl.2 h2

theorem Rel.pairwise {s lo as xs} (h : Rel s lo as xs) :
    ∀ (i j : Nat) (x y : Spec.Node) (a b : Nat), xs[i]? = some x → xs[j]? = some y →
      as[i]? = some a → as[j]? = some b → i < j → a + x.slots.length + 1 ≤ b := by
  induction h with
  | nil => intro i j x y a b hx; simp at hx
  | cons lo c as z zs hlo h1 hrest ih =>
    intro i j x y a b hx hy ha hb hij
    cases j with
    | zero => omega
    | succ j =>
      simp only [List.getElem?_cons_succ] at hy hb
      cases i with
      | zero =>
        simp only [List.getElem?_cons_zero, Option.some.injEq] at hx ha
        subst hx; subst ha
        obtain ⟨b', hb', _, hl⟩ := hrest.get hy
        rw [hb] at hb'; injection hb' with hb'; subst hb'
        exact hl
      | succ i =>
        simp only [List.getElem?_cons_succ] at hx ha
        exact ih i j x y a b hx hy ha hb (by omega)

theorem run_ne_ub (w : World) (os : List Op) : run w os ≠ .ub ∧ run w os ≠ .diverge := by
  induction os generalizing w with
  | nil => simp [run]
  | cons o os ih =>
    have hst : (∃ w', step w o = .ok w') ∨ step w o = .fatal := by
      cases o <;> simp only [step, World.push, newAst0, newAst1, newAst2, newAst3, newAst4, allocObj]
      all_goals first
        | (split <;> simp)
        | skip
      split
      · simp only [cloneAst, allocObj]
        generalize (if (getNbChildren _ _).toNat = 0 then 1 else _ : Nat) = k
        split <;> simp
      · simp
    simp only [run]
    rcases hst with ⟨w', hw⟩ | hw
    · rw [hw]; exact ih w'
    · rw [hw]; simp

end Verif.Ast
