import Verif.Goto.Spec
/-! # C60: `goto` goes to the label of its name in its function -/
namespace Verif.Goto
open Verif Verif.Code Verif.Goto.Spec

/-- The operations of an event, with the labels `num`. -/
def opOf (num : Nat → Nat) : Ev → List Op
  | .emit b => [.emit b]
  | .use l => [.use l]
  | .defl l => [.defl l]
  | .setfs v => [.setfs v]
  | .alloc _ => []
  | .goto x => [.goto (num x)]
  | .label x => [.defg (num x)]

/-- The labels of the bindings are different and have been allocated. -/
structure Ok (a : Nat) (t : T) : Prop where
  lt : ∀ x l, lookup t.env x = some l → a ≤ l ∧ l < t.next
  inj : ∀ x y l, lookup t.env x = some l → lookup t.env y = some l → x = y
  le : a ≤ t.next

theorem labelOf_ok {a : Nat} {t : T} (h : Ok a t) (x : Nat) : Ok a (labelOf x t).2 ∧ t.next ≤ (labelOf x t).2.next ∧ lookup (labelOf x t).2.env x = some (labelOf x t).1 ∧ ∀ y l, lookup t.env y = some l → lookup (labelOf x t).2.env y = some l := by
  unfold labelOf
  split
  · rename_i l e
    exact ⟨h, Nat.le_refl _, e, fun _ _ h => h⟩
  · rename_i e
    have hy : ∀ y l, lookup ((x, t.next) :: t.env) y = some l → (y = x ∧ l = t.next) ∨ (y ≠ x ∧ lookup t.env y = some l) := by
      intro y l hl
      rw [lookup] at hl
      by_cases hxy : x = y
      · rw [if_pos hxy] at hl; injection hl with hl; exact .inl ⟨hxy.symm, hl.symm⟩
      · rw [if_neg hxy] at hl; exact .inr ⟨Ne.symm hxy, hl⟩
    refine ⟨⟨?_, ?_, ?_⟩, ?_, ?_, ?_⟩
    · intro y l hl
      have := h.le
      rcases hy y l hl with ⟨-, rfl⟩ | ⟨-, hl⟩
      · dsimp only; omega
      · have := h.lt y l hl
        dsimp only; omega
    · intro y z l h1 h2
      rcases hy y l h1 with ⟨rfl, rfl⟩ | ⟨-, h1⟩ <;> rcases hy z _ h2 with ⟨h3, h4⟩ | ⟨-, h2⟩
      · exact h3.symm
      · have := (h.lt z _ h2).2; omega
      · have := (h.lt y l h1).2; omega
      · exact h.inj y z l h1 h2
    · have := h.le; dsimp only; omega
    · dsimp only; omega
    · simp [lookup]
    · intro y l hl
      rw [lookup, if_neg]
      · exact hl
      · rintro rfl; rw [e] at hl; cases hl

theorem step_ok {a : Nat} {t : T} (h : Ok a t) (e : Ev) : Ok a (step e t).2 ∧ t.next ≤ (step e t).2.next ∧ (∀ y l, lookup t.env y = some l → lookup (step e t).2.env y = some l) ∧
    (∀ x, e = .goto x ∨ e = .label x → ∃ l, lookup (step e t).2.env x = some l) ∧
    ∀ num : Nat → Nat, (∀ y l, lookup (step e t).2.env y = some l → num y = l) → (step e t).1 = opOf num e := by
  cases e with
  | emit b => exact ⟨h, Nat.le_refl _, fun _ _ h => h, by simp, fun _ _ => rfl⟩
  | use b => exact ⟨h, Nat.le_refl _, fun _ _ h => h, by simp, fun _ _ => rfl⟩
  | defl b => exact ⟨h, Nat.le_refl _, fun _ _ h => h, by simp, fun _ _ => rfl⟩
  | setfs b => exact ⟨h, Nat.le_refl _, fun _ _ h => h, by simp, fun _ _ => rfl⟩
  | alloc n =>
    refine ⟨⟨fun x l hl => ?_, h.inj, ?_⟩, ?_, fun _ _ h => h, by simp, fun _ _ => rfl⟩
    · have := h.lt x l hl
      simp only [step]; omega
    · have := h.le
      simp only [step]; omega
    · simp only [step]; omega
  | goto x =>
    obtain ⟨h1, h2, h3, h4⟩ := labelOf_ok h x
    refine ⟨h1, h2, h4, ?_, fun num hn => ?_⟩
    · rintro y (e | e) <;> cases e
      exact ⟨_, h3⟩
    · rw [opOf, hn x _ h3]; rfl
  | label x =>
    obtain ⟨h1, h2, h3, h4⟩ := labelOf_ok h x
    refine ⟨h1, h2, h4, ?_, fun num hn => ?_⟩
    · rintro y (e | e) <;> cases e
      exact ⟨_, h3⟩
    · rw [opOf, hn x _ h3]; rfl

theorem steps_ok {a : Nat} : ∀ (es : List Ev) {t : T}, Ok a t → Ok a (steps es t).2 ∧ t.next ≤ (steps es t).2.next ∧ (∀ y l, lookup t.env y = some l → lookup (steps es t).2.env y = some l) ∧
    (∀ x, (.goto x ∈ es ∨ .label x ∈ es) → ∃ l, lookup (steps es t).2.env x = some l) ∧
    ∀ num : Nat → Nat, (∀ y l, lookup (steps es t).2.env y = some l → num y = l) → (steps es t).1 = es.flatMap (opOf num)
  | [], t, h => ⟨h, Nat.le_refl _, fun _ _ h => h, by simp, fun _ _ => rfl⟩
  | e :: es, t, h => by
    obtain ⟨a1, a2, a3, a4, a5⟩ := step_ok h e
    obtain ⟨b1, b2, b3, b4, b5⟩ := steps_ok es a1
    have e1 : (steps (e :: es) t).2 = (steps es (step e t).2).2 := rfl
    have e2 : (steps (e :: es) t).1 = (step e t).1 ++ (steps es (step e t).2).1 := rfl
    rw [e1, e2]
    refine ⟨b1, Nat.le_trans a2 b2, fun y l hl => b3 y l (a3 y l hl), fun x hx => ?_, fun num hn => ?_⟩
    · by_cases hc : .goto x ∈ es ∨ .label x ∈ es
      · exact b4 x hc
      · obtain ⟨l, hl⟩ := a4 x (by
          rcases hx with hx | hx <;> rcases List.mem_cons.1 hx with hx | hx
          · exact .inl hx.symm
          · exact absurd (.inl hx) hc
          · exact .inr hx.symm
          · exact absurd (.inr hx) hc)
        exact ⟨l, b3 x l hl⟩
    · rw [List.flatMap_cons, b5 num hn, a5 num fun y l hl => hn y l (b3 y l hl)]

/-- A function: there are labels, new ones, different for different names, with which its operations are made. -/
theorem function_ok (f : List Ev) (n : Nat) : ∃ num : Nat → Nat, ∃ m, n ≤ m ∧ function f ⟨[], n⟩ = (f.flatMap (opOf num), ⟨[], m⟩) ∧
    (∀ x, (.goto x ∈ f ∨ .label x ∈ f) → n ≤ num x ∧ num x < m) ∧ ∀ x y, (.goto x ∈ f ∨ .label x ∈ f) → (.goto y ∈ f ∨ .label y ∈ f) → num x = num y → x = y := by
  have h0 : Ok n ⟨[], n⟩ := ⟨by simp [lookup], by simp [lookup], Nat.le_refl _⟩
  obtain ⟨a1, a2, -, a4, a5⟩ := steps_ok f h0
  have hnum : ∀ y l, lookup (steps f ⟨[], n⟩).2.env y = some l → ((lookup (steps f ⟨[], n⟩).2.env y).getD 0) = l := by
    intro y l hl; rw [hl]; rfl
  refine ⟨fun x => (lookup (steps f ⟨[], n⟩).2.env x).getD 0, (steps f ⟨[], n⟩).2.next, a2, ?_, ?_, ?_⟩
  · rw [← a5 _ hnum]; rfl
  · intro x hx
    obtain ⟨l, hl⟩ := a4 x hx
    dsimp only
    rw [hnum x l hl]
    exact a1.lt x l hl
  · intro x y hx hy e
    obtain ⟨l, hl⟩ := a4 x hx
    obtain ⟨k, hk⟩ := a4 y hy
    dsimp only at e
    rw [hnum x l hl, hnum y k hk] at e
    subst e
    exact a1.inj x y l hl hk

/-- Operations with named labels only in this range. -/
def Within (a b : Nat) (os : List Op) : Prop := ∀ l, (.goto l ∈ os ∨ .defg l ∈ os) → a ≤ l ∧ l < b

theorem mem_opOf {num : Nat → Nat} {f : List Ev} {l : Nat} : (.goto l ∈ f.flatMap (opOf num) ↔ ∃ x, .goto x ∈ f ∧ num x = l) ∧ (.defg l ∈ f.flatMap (opOf num) ↔ ∃ x, .label x ∈ f ∧ num x = l) := by
  constructor <;> (
    rw [List.mem_flatMap]
    constructor
    · rintro ⟨e, he, h⟩
      cases e <;> simp [opOf] at h
      exact ⟨_, he, h.symm⟩
    · rintro ⟨x, hx, rfl⟩
      exact ⟨_, hx, by simp [opOf]⟩)

theorem functions_ok : ∀ (fs : List (List Ev)) (n : Nat), ∃ m, n ≤ m ∧ (functions fs ⟨[], n⟩).2 = ⟨[], m⟩ ∧ Within n m (functions fs ⟨[], n⟩).1
  | [], n => ⟨n, Nat.le_refl _, rfl, by simp [functions, Within]⟩
  | f :: fs, n => by
    obtain ⟨num, m, h1, h2, h3, -⟩ := function_ok f n
    obtain ⟨k, k1, k2, k3⟩ := functions_ok fs m
    refine ⟨k, by omega, ?_, ?_⟩
    · simp only [functions, h2]; exact k2
    · simp only [functions, h2]
      intro l hl
      simp only [List.mem_append] at hl
      have hf : (.goto l ∈ f.flatMap (opOf num) ∨ .defg l ∈ f.flatMap (opOf num)) → n ≤ l ∧ l < k := by
        rintro (h | h)
        · obtain ⟨x, hx, rfl⟩ := mem_opOf.1.1 h
          have := h3 x (.inl hx); omega
        · obtain ⟨x, hx, rfl⟩ := mem_opOf.2.1 h
          have := h3 x (.inr hx); omega
      have hr := k3 l
      rcases hl with (h | h) | (h | h)
      · exact hf (.inl h)
      · have := hr (.inl h); omega
      · exact hf (.inr h)
      · have := hr (.inr h); omega

theorem functions_append : ∀ (A B : List (List Ev)) (t : T), functions (A ++ B) t = ((functions A t).1 ++ (functions B (functions A t).2).1, (functions B (functions A t).2).2)
  | [], _, _ => rfl
  | f :: A, B, t => by simp only [List.cons_append, functions, functions_append A B, List.append_assoc]

/-- One function of a program: the operations before it, its own, those behind it. -/
theorem split_ok (n : Nat) (A : List (List Ev)) (f : List Ev) (B : List (List Ev)) : ∃ (num : Nat → Nat) (a b : Nat) (before after : List Op), ops n (A ++ f :: B) = before ++ f.flatMap (opOf num) ++ after ∧ before = ops n A ∧
    (∀ x, (.goto x ∈ f ∨ .label x ∈ f) → a ≤ num x ∧ num x < b) ∧ (∀ x y, (.goto x ∈ f ∨ .label x ∈ f) → (.goto y ∈ f ∨ .label y ∈ f) → num x = num y → x = y) ∧
    (∀ l, (.goto l ∈ before ++ after ∨ .defg l ∈ before ++ after) → l < a ∨ b ≤ l) := by
  obtain ⟨a, -, h2, h3⟩ := functions_ok A n
  obtain ⟨num, b, k1, k2, k3, k4⟩ := function_ok f a
  obtain ⟨m, -, -, m3⟩ := functions_ok B b
  refine ⟨num, a, b, _, (functions B ⟨[], b⟩).1, ?_, rfl, k3, k4, ?_⟩
  · simp only [ops, functions_append, h2, functions, k2, List.append_assoc]
  · intro l hl
    simp only [List.mem_append] at hl
    rcases hl with (h | h) | (h | h)
    · exact .inl (h3 l (.inl h)).2
    · exact .inr (m3 l (.inl h)).1
    · exact .inl (h3 l (.inr h)).2
    · exact .inr (m3 l (.inr h)).1

theorem size_opOf (w : Nat) (num : Nat → Nat) : ∀ es : List Ev, Code.Spec.size w (es.flatMap (opOf num)) = pos w es
  | [] => rfl
  | e :: es => by
    rw [List.flatMap_cons, size_append, size_opOf w num es]
    cases e <;> simp [opOf, Code.Spec.size, Code.Spec.size1, pos, bytes]

theorem size_functions (w : Nat) : ∀ (fs : List (List Ev)) (n : Nat), Code.Spec.size w (ops n fs) = pos w fs.flatten
  | [], _ => rfl
  | f :: fs, n => by
    obtain ⟨num, m, -, h2, -⟩ := function_ok f n
    have := size_functions w fs m
    simp only [ops] at this
    simp only [ops, functions, h2, size_append, this, size_opOf]
    simp [pos]

theorem fsAt_append : ∀ (a b : List Op) (v : Int), Code.Spec.fsAt v (a ++ b) = Code.Spec.fsAt (Code.Spec.fsAt v a) b
  | [], _, _ => rfl
  | o :: a, b, v => by cases o <;> simp only [List.cons_append, Code.Spec.fsAt, fsAt_append a b]

/-- `frame` from another start. -/
def frameFrom (v : Int) (es : List Ev) : Int := es.foldl (fun v e => match e with | .setfs v' => v' | _ => v) v

theorem fsAt_opOf (num : Nat → Nat) : ∀ (es : List Ev) (v : Int), Code.Spec.fsAt v (es.flatMap (opOf num)) = frameFrom v es
  | [], _ => rfl
  | e :: es, v => by
    rw [List.flatMap_cons, fsAt_append, fsAt_opOf num es]
    cases e <;> rfl

theorem fsAt_functions : ∀ (fs : List (List Ev)) (n : Nat) (v : Int), Code.Spec.fsAt v (ops n fs) = frameFrom v fs.flatten
  | [], _, _ => rfl
  | f :: fs, n, v => by
    obtain ⟨num, m, -, h2, -⟩ := function_ok f n
    have := fsAt_functions fs m
    simp only [ops] at this
    simp only [ops, functions, h2, fsAt_append, this, fsAt_opOf]
    simp [frameFrom]

/-- The program starts with a byte of code (pnut's first one is a jump, exe.c:1735). -/
theorem defsPositive {w n : Nat} {b : Int} {f : List Ev} {fs : List (List Ev)} : Code.Spec.DefsPositive w (ops n ((.emit b :: f) :: fs)) := by
  have : ops n ((.emit b :: f) :: fs) = .emit b :: (ops n ((.emit b :: f) :: fs)).tail := by
    obtain ⟨num, m, -, h2, -⟩ := function_ok (.emit b :: f) n
    simp [ops, functions, h2, opOf]
  rw [this]
  exact C28_first_byte w b _

/-- **C60.** In the code of a program, at the place of every `goto x` there are an adjustment of the stack pointer from the frame size there to the frame size at the label, and a jump to the place of the label `x` of the same function, whether it stands before or behind,
whatever labels (of the same name too) other functions have and whatever else the compiler does. -/
theorem C60_goto {w n : Nat} {b : Int} {g : List Ev} {gs : List (List Ev)} {s : S} (hr : compile w n ((.emit b :: g) :: gs) = .ok s) {A B : List (List Ev)} {f : List Ev} (hf : (.emit b :: g) :: gs = A ++ f :: B) {x : Nat} {pre post pre' post' : List Ev}
    (hg : f = pre ++ .goto x :: post) (hl : f = pre' ++ .label x :: post') :
    Holds s (pos w (A.flatten ++ pre)) (X86.add_reg_imm w 4 ((frame (A.flatten ++ pre) - frame (A.flatten ++ pre')) * w) ++
      X86.jump_rel ((pos w (A.flatten ++ pre') : Int) - (pos w (A.flatten ++ pre ++ [.goto x]) : Nat))) := by
  have hp := defsPositive (w := w) (n := n) (b := b) (f := g) (fs := gs)
  unfold compile at hr
  rw [hf] at hr hp
  obtain ⟨num, lo, hi, before, after, e, eb, -, -, -⟩ := split_ok n A f B
  have h := C28_goto w _ _ s hp hr (num x) (before ++ pre.flatMap (opOf num)) (post.flatMap (opOf num) ++ after) (before ++ pre'.flatMap (opOf num)) (post'.flatMap (opOf num) ++ after)
    (by rw [e, hg]; simp [opOf]) (by rw [e, hl]; simp [opOf])
  have hs : ∀ es : List Ev, Code.Spec.size w (before ++ es.flatMap (opOf num)) = pos w (A.flatten ++ es) := by
    intro es
    rw [size_append, eb, size_functions, size_opOf]
    simp [pos]
  have hf : ∀ es : List Ev, Code.Spec.fsAt 0 (before ++ es.flatMap (opOf num)) = frame (A.flatten ++ es) := by
    intro es
    rw [fsAt_append, eb, fsAt_functions, fsAt_opOf]
    simp only [frame, frameFrom, List.foldl_append]
    rfl
  have h3 : pos w (A.flatten ++ pre ++ [.goto x]) = pos w (A.flatten ++ pre) + Code.Spec.size1 w (.goto (num x)) := by
    simp [pos, bytes, Code.Spec.size1]; omega
  rw [hs, hs, hf, hf] at h
  rw [h3]
  exact h

theorem run_append {w : Nat} {k : Nat → Kind} : ∀ {a b : List Op} {s s' : S}, run w k (a ++ b) s = .ok s' → ∃ s1, run w k a s = .ok s1 ∧ run w k b s1 = .ok s'
  | [], b, s, s', h => ⟨s, rfl, h⟩
  | o :: a, b, s, s', h => by
    rw [List.cons_append, run] at h
    cases ho : o.run w k s with
    | ok s2 =>
      rw [ho, Res.bind_ok] at h
      obtain ⟨s1, h1, h2⟩ := run_append h
      exact ⟨s1, by rw [run, ho, Res.bind_ok]; exact h1, h2⟩
    | _ => rw [ho] at h; cases h

/-- **C60, labels that are defined twice.** A function with two labels of the same name is refused. -/
theorem C60_duplicate {w n : Nat} {b : Int} {g : List Ev} {gs : List (List Ev)} {A B : List (List Ev)} {f : List Ev} (hf : (.emit b :: g) :: gs = A ++ f :: B) {x : Nat} {pre mid post : List Ev} (hx : f = pre ++ .label x :: mid ++ .label x :: post) (s : S) :
    compile w n ((.emit b :: g) :: gs) ≠ .ok s := by
  intro hr
  have hp := defsPositive (w := w) (n := n) (b := b) (f := g) (fs := gs)
  unfold compile at hr
  rw [hf] at hr hp
  obtain ⟨num, lo, hi, before, after, e, -, -, -, -⟩ := split_ok n A f B
  generalize kind (ops n (A ++ f :: B)) = k at hr
  have e2 : ops n (A ++ f :: B) = (before ++ pre.flatMap (opOf num) ++ .defg (num x) :: mid.flatMap (opOf num)) ++ .defg (num x) :: (post.flatMap (opOf num) ++ after) := by
    rw [e, hx]; simp [opOf]
  rw [e2] at hr hp
  obtain ⟨s1, h1, h2⟩ := run_append hr
  have hp1 : Code.Spec.DefsPositive w (before ++ pre.flatMap (opOf num) ++ .defg (num x) :: mid.flatMap (opOf num)) := by
    intro p o q l e3 ho
    exact hp p o (q ++ .defg (num x) :: (post.flatMap (opOf num) ++ after)) l (by rw [e3]; simp) ho
  have iv := run_inv' hp1 h1
  have hd := items_split w (before ++ pre.flatMap (opOf num)) (.defg (num x)) (mid.flatMap (opOf num))
  have ha := (iv.defd (num x) _ hd (by simp [isDef])).1
  have hpos := hp1 _ _ _ (num x) rfl (.inr rfl)
  rw [run] at h2
  have : Op.run w k (.defg (num x)) s1 = .fatal := by
    simp only [Op.run, def_goto_label]
    split
    · rfl
    · rw [if_pos (by dsimp only at ha; omega)]
  rw [this] at h2
  cases h2

/-- **C60, labels that are missing.** In `SAFE_MODE` the final check passes if and only if every `goto` has a label of its name in its function. -/
theorem C60_undefined_detected {w n : Nat} {b : Int} {g : List Ev} {gs : List (List Ev)} {s : S} (hr : compile w n ((.emit b :: g) :: gs) = .ok s) :
    assert_all_labels_defined (labels (ops n ((.emit b :: g) :: gs))) s = true ↔ ∀ f ∈ (.emit b :: g) :: gs, ∀ x, .goto x ∈ f → .label x ∈ f := by
  have hp := defsPositive (w := w) (n := n) (b := b) (f := g) (fs := gs)
  have hr' := hr
  unfold compile at hr
  generalize (.emit b :: g) :: gs = fs at hr hp hr'
  have iv := run_inv' hp hr
  have hk : ∀ l, (.defl l ∈ ops n fs ∨ .use l ∈ ops n fs) → kind (ops n fs) l = .generic := by
    intro l hl
    rcases hl with hl | hl <;> obtain ⟨p, q, e⟩ := List.append_of_mem hl
    · have hi := items_split w p (.defl l) q
      rw [← e] at hi
      exact (iv.kdef _ hi).1 l rfl
    · have hi := items_split w p (.use l) q
      rw [← e] at hi
      exact (iv.kuse _ hi).1 l rfl
  have hkg : ∀ l, (.goto l ∈ ops n fs ∨ .defg l ∈ ops n fs) → kind (ops n fs) l = .goto := by
    intro l hl
    unfold kind
    rw [if_pos]
    rw [List.any_eq_true]
    rcases hl with hl | hl
    · exact ⟨_, hl, by simp⟩
    · exact ⟨_, hl, by simp⟩
  rw [C28_undefined_detected w _ _ s hp hr]
  have hm : ∀ l, l ∈ labels (ops n fs) ↔ (.goto l ∈ ops n fs ∨ .defg l ∈ ops n fs) := by
    intro l
    unfold labels
    rw [List.mem_filterMap]
    constructor
    · rintro ⟨o, ho, e⟩
      cases o <;> simp at e
      · subst e; exact .inl ho
      · subst e; exact .inr ho
    · rintro (h | h)
      · exact ⟨_, h, rfl⟩
      · exact ⟨_, h, rfl⟩
  constructor
  · intro h f hf x hx
    obtain ⟨A, B, rfl⟩ := List.append_of_mem hf
    obtain ⟨num, lo, hi, before, after, e, -, h3, h4, h5⟩ := split_ok n A f B
    have hg : .goto (num x) ∈ ops n (A ++ f :: B) := by
      rw [e]; simp only [List.mem_append]; exact .inl (.inr (mem_opOf.1.2 ⟨x, hx, rfl⟩))
    rcases h (num x) ((hm _).2 (.inl hg)) (.inr hg) with hd | hd
    · have h1 := hk _ (.inl hd)
      rw [hkg _ (.inl hg)] at h1
      cases h1
    · rw [e] at hd
      simp only [List.mem_append] at hd
      have hr := h3 x (.inl hx)
      rcases hd with (hd | hd) | hd
      · have := h5 (num x) (.inr (by simp [hd])); omega
      · obtain ⟨y, hy, ey⟩ := mem_opOf.2.1 hd
        rw [h4 x y (.inl hx) (.inr hy) ey.symm]
        exact hy
      · have := h5 (num x) (.inr (by simp [hd])); omega
  · intro h l hl hu
    have hu' : .goto l ∈ ops n fs := by
      rcases hu with hu | hu
      · have h1 := hk _ (.inr hu)
        rw [hkg _ ((hm _).1 hl)] at h1
        cases h1
      · exact hu
    right
    have key : ∀ (fs : List (List Ev)) (n : Nat), (∀ f ∈ fs, ∀ x, .goto x ∈ f → .label x ∈ f) → .goto l ∈ ops n fs → .defg l ∈ ops n fs := by
      intro fs
      induction fs with
      | nil => intro n _ h; simp [ops, functions] at h
      | cons f fs ih =>
        intro n h hg
        obtain ⟨num, m, -, h2, -⟩ := function_ok f n
        simp only [ops, functions, h2, List.mem_append] at hg ⊢
        rcases hg with hg | hg
        · obtain ⟨x, hx, e⟩ := mem_opOf.1.1 hg
          exact .inl (mem_opOf.2.2 ⟨x, h f (by simp) x hx, e⟩)
        · exact .inr (ih m (fun f' hf' => h f' (by simp [hf'])) hg)
    exact key fs n h hu'

/-- **C60, labels that are missing: false without `SAFE_MODE`.** `goto x;` without a label `x` is compiled, for every name. -/
theorem C60_undefined_false (n x : Nat) : ∃ s, compile 8 n [[.emit 0xe9, .goto x]] = .ok s := by
  have e : ops n [[.emit 0xe9, .goto x]] = [.emit 0xe9, .goto n] := by simp [ops, functions, function, steps, step, labelOf, lookup]
  have hk : kind [.emit 0xe9, .goto n] n = .goto := by simp [kind]
  rw [compile, e]
  simp only [run, Op.run, jump_to_goto_label, hk]
  exact ⟨_, rfl⟩

/-- Two functions with the label 7 (one used before it is defined, the other behind), frames of different size. -/
def demo : List (List Ev) := [[.emit 0x90, .setfs 3, .goto 7, .setfs 1, .label 7, .emit 0x91], [.setfs 0, .label 7, .emit 0x92, .setfs 2, .goto 7]]

example : ∃ s, compile 4 100 demo = .ok s ∧ assert_all_labels_defined (labels (ops 100 demo)) s = true ∧ Holds s 14 (X86.add_reg_imm 4 4 8 ++ X86.jump_rel (-12)) := by
  have h : ∃ s, compile 4 100 demo = .ok s := ⟨_, rfl⟩
  obtain ⟨s, hs⟩ := h
  refine ⟨s, hs, ?_, ?_⟩
  · refine (C60_undefined_detected hs).2 ?_
    intro f hf x hx
    simp only [List.mem_cons, List.not_mem_nil, or_false] at hf
    rcases hf with rfl | rfl <;> simp at hx ⊢ <;> exact hx
  · exact C60_goto hs (A := [[.emit 0x90, .setfs 3, .goto 7, .setfs 1, .label 7, .emit 0x91]]) (B := []) rfl (pre := [.setfs 0, .label 7, .emit 0x92, .setfs 2]) (post := []) (pre' := [.setfs 0]) rfl rfl

end Verif.Goto
