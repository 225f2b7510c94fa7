import Verif.Cg.ProgSpec
/-! The bound on the depth of an execution does not change its result. -/
namespace Verif.Cg.Spec
open Verif Verif.Gen Verif.Gen.Spec

structure OLe {α : Type} (a b : Option α) : Prop where
  le : ∀ r, a = some r → b = some r

theorem OLe.rfl {α : Type} {a : Option α} : OLe a a := ⟨fun _ h => h⟩
theorem OLe.none {α : Type} {b : Option α} : OLe none b := ⟨fun _ h => by cases h⟩
theorem OLe.bind {α β : Type} {a b : Option α} {f g : α → Option β} (h : OLe a b) (h' : ∀ x, OLe (f x) (g x)) :
    OLe (a.bind f) (b.bind g) := by
  constructor
  intro r hr
  rw [Option.bind_eq_some_iff] at hr ⊢
  obtain ⟨x, h1, h2⟩ := hr
  exact ⟨x, h.le x h1, (h' x).le r h2⟩
theorem OLe.ite {α : Type} {c : Prop} [Decidable c] {a b a' b' : Option α} (h : OLe a b) (h' : OLe a' b') :
    OLe (if c then a else a') (if c then b else b') := by
  split <;> assumption

/-- More calls are defined. -/
def CLe (cf cf' : CallF) : Prop := ∀ f vs sp M, OLe (cf f vs sp M) (cf' f vs sp M)

macro "ole" h:ident : tactic => `(tactic| (
    refine ⟨?_, ?_, ?_⟩ <;> intro sp M <;> simp only [evalE, evalL, evalA]
    all_goals repeat' (first | exact OLe.rfl | exact OLe.none | apply_assumption | apply $h | apply OLe.ite | apply OLe.bind | intro _)))

theorem eval_mono {C : Ctx} {cf cf' : CallF} (h : CLe cf cf') (ρ : Env) (e : E) :
    (∀ sp M, OLe (evalE C cf ρ e sp M) (evalE C cf' ρ e sp M)) ∧
    (∀ sp M, OLe (evalL C cf ρ e sp M) (evalL C cf' ρ e sp M)) ∧
    (∀ sp M, OLe (evalA C cf ρ e sp M) (evalA C cf' ρ e sp M)) := by
  induction e with
  | num | chr | str | var | sizeofT | sizeofE | anil => ole h
  | deref e i | addr e i | neg e i | bnot e i | lnot e i | plus e i | paren e i | incdec p d e i | cast t e i | dot e m i | arrow e m i
  | call f e i => 
    obtain ⟨i1, i2, i3⟩ := i
    ole h
  | bin op a b i j | comma a b i j | index a b i j | assign a b i j | opassign op a b i j | land a b i j | lor a b i j | acons a b i j =>
    obtain ⟨i1, i2, i3⟩ := i
    obtain ⟨j1, j2, j3⟩ := j
    ole h
  | cond c a b i j k =>
    obtain ⟨i1, i2, i3⟩ := i
    obtain ⟨j1, j2, j3⟩ := j
    obtain ⟨k1, k2, k3⟩ := k
    ole h

macro "oles" i1:ident i2:ident h:ident : tactic => `(tactic|
    repeat' (first | with_reducible exact OLe.rfl | with_reducible exact OLe.none | with_reducible exact $i1 _ _ _ _ | with_reducible exact $i2 _ _ _ _ | with_reducible exact (eval_mono $h _ _).1 _ _ |
      with_reducible refine OLe.ite ?_ ?_ | with_reducible refine OLe.bind ?_ (fun _ => ?_) | split))

section
variable (C : Ctx) (cs : Nat → Option Fun) (ρ0 : Env)

theorem exec_mono : ∀ n m, n ≤ m →
    (∀ ρ s sp M, OLe (exec C cs ρ0 n ρ s sp M) (exec C cs ρ0 m ρ s sp M)) ∧
    (∀ ρ s sp M, OLe (execItems C cs ρ0 n ρ s sp M) (execItems C cs ρ0 m ρ s sp M)) ∧
    CLe (call C cs ρ0 n) (call C cs ρ0 m) := by
  intro n
  induction n with
  | zero => exact fun _ _ => ⟨fun _ _ _ _ => by simp only [exec]; exact .none, fun _ _ _ _ => by simp only [execItems]; exact .none,
      fun _ _ _ _ => by simp only [call]; exact .none⟩
  | succ n ih =>
    intro m hm
    cases m with
    | zero => omega
    | succ m =>
    obtain ⟨i1, i2, i3⟩ := ih m (by omega)
    refine ⟨?_, ?_, ?_⟩
    · intro ρ s sp M
      cases s with
      | forr i c p b => 
        by_cases hi : i = .skip
        · subst hi
          simp only [exec]
          cases c <;> simp only
          · oles i1 i2 i3
          · oles i1 i2 i3
        · rw [exec, exec]
          · oles i1 i2 i3
          · exact hi
          · exact hi
      | switch e b =>
        cases b with
        | blk b =>
          simp only [exec]
          oles i1 i2 i3
        | _ => simp only [exec]; exact .none
      | ret e => cases e <;> simp only [exec] <;> oles i1 i2 i3
      | _ => simp only [exec]; oles i1 i2 i3
    · intro ρ s sp M
      cases s with
      | bdecl x t i r => cases i <;> simp only [execItems] <;> oles i1 i2 i3
      | _ => simp only [execItems]; oles i1 i2 i3
    · intro f vs sp M
      simp only [call]
      oles i1 i2 i3

theorem call_mono {n m : Nat} (h : n ≤ m) : CLe (call C cs ρ0 n) (call C cs ρ0 m) := (exec_mono C cs ρ0 n m h).2.2
end

/-- The result of a call does not depend on the bound. -/
theorem Program.calls_fun {p : Program} {C : Ctx} {G : Int} {f : Nat} {vs : List Int} {sp : Int} {M : Mem} {v v' : Int} {M1 M2 : Mem}
    (h : p.calls C G f vs sp M v M1) (h' : p.calls C G f vs sp M v' M2) : v = v' ∧ M1 = M2 := by
  obtain ⟨n, h⟩ := h
  obtain ⟨m, h'⟩ := h'
  have a := (call_mono C p.fn (p.env G) (Nat.le_max_left n m) f vs sp M).le _ h
  have b := (call_mono C p.fn (p.env G) (Nat.le_max_right n m) f vs sp M).le _ h'
  rw [a] at b
  cases b
  exact ⟨rfl, rfl⟩

end Verif.Cg.Spec
