import Verif.StInit.Model

/-! # C62: static variables get their initial value once, before `main`

Specification: `inits`, the codes of all initial values in the order of the text; the runs of the machine are those of C44 (`PSteps`). -/
namespace Verif.StInit
open Verif Verif.X86 Verif.X86.Spec Verif.Cg Verif.Rt Verif.Sys Verif.Sys.Spec

/-- The codes of the initial values, in the order of the text. -/
def inits : List Item → List (List Asm)
  | [] => []
  | .code _ :: r => inits r
  | .var _ c :: r | .static _ _ c :: r => c :: inits r

/-- The parts as declarations of `Sys`. -/
def toDecls : List Item → List Decl
  | [] => []
  | .code c :: r => .code c :: toDecls r
  | .var l c :: r => .init l c :: toDecls r
  | .static skip l c :: r => .code [.jmp skip] :: .init l c :: .code [.lbl skip] :: toDecls r

theorem gen_eq : ∀ (n : Nat) (is : List Item), gen n is = genDecls n (toDecls is)
  | _, [] => rfl
  | n, .code c :: r => by simp [gen, toDecls, genDecls, gen_eq n r]
  | n, .var l c :: r => by simp [gen, toDecls, genDecls, gen_eq l r]
  | n, .static s l c :: r => by simp [gen, toDecls, genDecls, gen_eq l r]

theorem inits_eq : ∀ (is : List Item), inits is = initsOf (toDecls is)
  | [] => rfl
  | .code c :: r => by simp [inits, toDecls, initsOf, inits_eq r]
  | .var l c :: r => by simp [inits, toDecls, initsOf, inits_eq r]
  | .static s l c :: r => by simp [inits, toDecls, initsOf, inits_eq r]

theorem gen_append : ∀ (a b : List Item) (n : Nat),
    gen n (a ++ b) = ((gen n a).1 ++ (gen (gen n a).2 b).1, (gen (gen n a).2 b).2)
  | [], b, n => by simp [gen]
  | .code c :: r, b, n => by simp [gen, gen_append r b n]
  | .var l c :: r, b, n => by simp [gen, gen_append r b l]
  | .static s l c :: r, b, n => by simp [gen, gen_append r b l]

theorem step_jmp {W : Type} {os : OS W} {w : Nat} {base : Int} {P : List Asm} (hu : Uniq P) {pc i n : Nat} {s : MS} {σ : W} {x : Cfg W}
    (h : P[pc]? = some (.jmp n)) (h' : P[i]? = some (.lbl n)) : PStep os w base P (.run pc s σ) x ↔ x = .run i s σ := by
  constructor
  · intro hx
    cases hx with
    | cpu hx =>
      cases hx with
      | jmp k k' => rw [h] at k; cases k; rw [hu _ _ _ k' h']
      | ins k _ | lbl k | jccT k _ _ | jccF k _ | call k _ | ret k _ _ => rw [h] at k; cases k
    | sys k | exit k => rw [h] at k; cases k
  · rintro rfl
    exact .cpu (.jmp h h')

theorem step_lbl {W : Type} {os : OS W} {w : Nat} {base : Int} {P : List Asm} {pc n : Nat} {s : MS} {σ : W} {x : Cfg W}
    (h : P[pc]? = some (.lbl n)) : PStep os w base P (.run pc s σ) x ↔ x = .run (pc + 1) s σ := by
  constructor
  · intro hx
    cases hx with
    | cpu hx =>
      cases hx with
      | lbl _ => rfl
      | ins k _ | jmp k _ | jccT k _ _ | jccF k _ | call k _ | ret k _ _ => cases h.symm.trans k
    | sys k | exit k => rw [h] at k; cases k
  · rintro rfl
    exact .cpu (.lbl h)

/-- `P` is the code of the program with these parts. -/
structure Program (w : Nat) (L : Labels) (P : List Asm) (ga : Int) (mr : Bool) (is : List Item) : Prop where
  w48 : w = 4 ∨ w = 8
  code : P = whole w L ga mr is
  /-- The last label of the chain of initialisations (exe.c:2558). -/
  init_next : L.init_next = (gen L.init_start is).2

theorem Program.compiled {w L P ga mr is} (h : Program w L P ga mr is) : Compiled w L P ga mr (toDecls is) :=
  ⟨h.w48, by rw [h.code, whole, program, gen_eq], by rw [h.init_next, gen_eq]⟩

section
variable {W : Type} {os : OS W} {w : Nat} {L : Labels} {base : Int} {P : List Asm} {ga : Int} {mr : Bool} {is : List Item} (h : Program w L P ga mr is)
include h

/-- **C62, before `main`.** The process, from its start, runs all initialisations, of the variables of the file scope and of the static variables in functions, in the
order of the text and each once, and then comes to the call of `main`. -/
theorem C62_before_main {s : MS} {σ σ1 : W} {sp G H : Int} {Ready : MS → W → Prop} (hga : 2 * w ≤ ga ∧ ga < 2147483648)
    (hs : Started w sp s) (hg : Given os w sp ga σ G H σ1)
    (hinit : RunsAll os w base P (inits is) (AtInit w sp ga G H s.mem σ1) (AtMain w sp G Ready)) :
    ∃ j s' σ', At P j (mainCode w L mr) ∧ PSteps os w base P (.run 0 s σ) (.run j s' σ') ∧ AtMain w sp G Ready s' σ' := by
  have hc := h.compiled
  obtain ⟨j, hj⟩ := hc.main
  have hj0 : P[j]? = some (.lbl (genDecls L.init_start (toDecls is)).2) := by
    rw [← hc.init_next]
    have hj := hj
    unfold mainCode at hj
    simp only [List.append_assoc] at hj
    exact hj.head
  have hds : At P 1 (genDecls L.init_start (toDecls is)).1 := by
    have := at_self P
    rw [hc.code] at this ⊢
    unfold program at this ⊢
    exact this.right.left
  obtain ⟨i0, hi0, run⟩ := chain_sim (os := os) (base := base) (toDecls is) L.init_start 1 hds hj0
  obtain ⟨s1, p1, e3, e4, ef⟩ := C44_startup (os := os) (base := base) hc hi0 hga hs hg
  have w1 : Wf w s1 := psteps_wf hc.w48 (a := .run 0 s σ) hs.words p1
  rw [inits_eq] at hinit
  obtain ⟨s2, σ2, q2, f⟩ := run hinit s1 σ1 ⟨rfl, w1, e3, e4.trans hs.stack, ef⟩
  exact ⟨j, s2, σ2, hj, p1.trans q2, f⟩

/-- Where the code of a static declaration is. -/
theorem Program.at_static {a b : List Item} {skip l : Nat} {c : List Asm} (hi : is = a ++ .static skip l c :: b) :
    At P (1 + (gen L.init_start a).1.length)
      ([.jmp skip] ++ ([.lbl (gen L.init_start a).2] ++ (c ++ ([.jmp l] ++ ([.lbl skip] ++ (gen l b).1))))) := by
  have := at_self P
  rw [h.code] at this ⊢
  unfold whole at this ⊢
  have := this.right.left
  rw [hi, gen_append] at this ⊢
  have := this.right
  simpa [gen] using this

/-- **C62, in the function.** Whenever the control comes to the declaration of a static variable with an initial value, whatever the state, it goes, and can only go, to
what follows the declaration, with nothing changed. -/
theorem C62_declaration_skipped (hu : Uniq P) {a b : List Item} {skip l : Nat} {c : List Asm} (hi : is = a ++ .static skip l c :: b)
    (s : MS) (σ : W) :
    ∃ q, (∀ x, PStep os w base P (.run (1 + (gen L.init_start a).1.length) s σ) x ↔ x = .run q s σ) ∧
      (∀ x, PStep os w base P (.run q s σ) x ↔ x = .run (1 + (gen L.init_start (a ++ [.static skip l c])).1.length) s σ) := by
  have hat := h.at_static hi
  have e1 := hat.head
  have e2 := hat.right.right.right.right.head
  refine ⟨_, fun x => step_jmp hu e1 e2, fun x => ?_⟩
  rw [step_lbl e2, gen_append]
  simp only [gen, List.length_append, List.length_cons, List.length_nil, List.append_nil]
  rw [show 1 + (gen L.init_start a).1.length + (0 + 1) + (0 + 1) + c.length + (0 + 1) + 1 =
    1 + ((gen L.init_start a).1.length + (0 + 1 + (0 + 1 + (c.length + (0 + 1 + (0 + 1)))))) by omega]

/-- **C62, no other way in.** The code of the initial value of a static variable is entered only by a jump to its label in the chain of initialisations, never from the
code of the function before it. -/
theorem C62_entry {a b : List Item} {skip l : Nat} {c : List Asm} (hi : is = a ++ .static skip l c :: b)
    {i : Nat} {s s' : MS} {σ σ' : W}
    (hx : PStep os w base P (.run i s σ) (.run (1 + (gen L.init_start a).1.length + 1) s' σ')) :
    P[i]? = some (.jmp (gen L.init_start a).2) ∨ (∃ cc, P[i]? = some (.jcc cc (gen L.init_start a).2)) ∨
      P[i]? = some (.call (gen L.init_start a).2) := by
  have hat := h.at_static hi
  have e1 := hat.head
  have e2 : P[1 + (gen L.init_start a).1.length + 1]? = some (.lbl (gen L.init_start a).2) := hat.right.head
  have no : ∀ {k : Nat}, k + 1 = 1 + (gen L.init_start a).1.length + 1 → P[k]? = some (.jmp skip) := by
    intro k hk
    rw [show k = 1 + (gen L.init_start a).1.length by omega]
    exact e1
  generalize hq : 1 + (gen L.init_start a).1.length + 1 = q at hx e2 no
  cases hx with
  | cpu hx =>
    cases hx with
    | ins k _ => rw [no rfl] at k; cases k
    | lbl k => rw [no rfl] at k; cases k
    | jmp k k' => rw [e2] at k'; cases k'; exact .inl k
    | jccT k _ k' => rw [e2] at k'; cases k'; exact .inr (.inl ⟨_, k⟩)
    | jccF k _ => rw [no rfl] at k; cases k
    | call k k' => rw [e2] at k'; cases k'; exact .inr (.inr k)
    | ret _ k _ => rw [no rfl] at k; cases k
  | sys k => rw [no rfl] at k; cases k
end
end Verif.StInit
