import Verif.Storage.Proofs
import Mathlib.Algebra.BigOperators.Ring.List
import Mathlib.Tactic.Ring
namespace Verif.Storage
open Verif Verif.Env Verif.Storage.Spec

theorem begin_inv {w : Nat} {heap : Nat → Int} {top : Nat} (ht : 0 < top) :
    Inv (2 * w) [] [] { start heap top with galloc := 2 * w } :=
  ⟨⟨[], .nil, by simp⟩, ⟨[], .nil, by simp, by simp⟩, by simp [bytes], ht⟩

/-- **C61**: whenever the compilation of a program succeeds, every use of an object with static storage
duration, at file scope or declared `static` in any block of any function, refers to one of the
objects of the program, at the address behind the two words of the run-time library and all objects
before it; the memory that the program asks for at its start is the two words and all objects. -/
theorem C61_static_storage (w : Nat) (heap : Nat → Int) (top : Nat) (bs : List (Int × Int × Int)) (gs : List Glo)
    (ht : 0 < top) {size : Int} {os : List Out} (h : compile w heap top bs gs = .ok (size, os)) :
    size = 2 * w + bytes (objects [] gs) ∧
    ∀ a t : Int, .global a t ∈ os →
      ∃ pre n post, objects [] gs = pre ++ (t, n) :: post ∧ a = 2 * w + bytes pre := by
  simp only [compile, codegen_begin, Res.bind_eq_ok, Prod.exists] at h
  obtain ⟨e, he, e', os', hg, h⟩ := h
  simp only [Res.ok.injEq, Prod.mk.injEq] at h
  obtain ⟨rfl, rfl⟩ := h
  obtain ⟨h1, h2⟩ := glos_inv gs (builtins_inv bs (begin_inv ht) he) hg
  exact ⟨by simpa using h1, fun a t hm => by simpa [At] using h2 a t hm⟩

/-- Two positions in a list of objects. -/
theorem pos_split {L : List Obj} {p q p' q' : List Obj} {o o' : Obj} (h : L = p ++ o :: q) (h' : L = p' ++ o' :: q') :
    (p = p' ∧ o = o' ∧ q = q') ∨ bytes p + o.2 ≤ bytes p' ∨ bytes p' + o'.2 ≤ bytes p := by
  rw [h] at h'
  rcases List.append_eq_append_iff.1 h' with ⟨m, hm1, hm2⟩ | ⟨m, hm1, hm2⟩
  · cases m with
    | nil => simp at hm1 hm2; exact .inl ⟨hm1.symm, hm2.1, hm2.2⟩
    | cons a m =>
      simp only [List.cons_append, List.cons.injEq] at hm2
      obtain ⟨rfl, _⟩ := hm2
      right; left
      rw [hm1]; simp [bytes]
  · cases m with
    | nil => simp at hm1 hm2; exact .inl ⟨hm1, hm2.1.symm, hm2.2.symm⟩
    | cons a m =>
      simp only [List.cons_append, List.cons.injEq] at hm2
      obtain ⟨rfl, _⟩ := hm2
      right; right
      rw [hm1]; simp [bytes]

/-- The position of an object with its own type node. -/
theorem pos_uniq {t : Int} {n n' : Nat} : ∀ {p p' L q q' : List Obj}, (L.map Prod.fst).Nodup →
    L = p ++ (t, n) :: q → L = p' ++ (t, n') :: q' → p = p'
  | [], [], _, _, _, _, _, _ => rfl
  | [], o :: p', _, _, _, hn, h, h' => by
    subst h
    simp only [List.nil_append, List.cons_append, List.cons.injEq] at h'
    obtain ⟨rfl, rfl⟩ := h'
    simp at hn
  | o :: p, [], _, _, _, hn, h, h' => by
    subst h'
    simp only [List.nil_append, List.cons_append, List.cons.injEq] at h
    obtain ⟨rfl, rfl⟩ := h
    simp at hn
  | o :: p, o' :: p', L, q, q', hn, h, h' => by
    subst h
    simp only [List.cons_append, List.cons.injEq] at h'
    obtain ⟨rfl, h'⟩ := h'
    simp only [List.cons_append, List.map_cons, List.nodup_cons] at hn
    rw [pos_uniq hn.2 rfl h']

/-- **C61**, what it means for the running program: with a type node for every declaration, two uses of the
same declaration refer to the same address, uses of different declarations refer to ranges of bytes
without a common byte, none touches the two words of the run-time library, all lie in the memory asked
for, and if the sizes are multiples of the word size (they are rounded by `type_width`) all addresses are. -/
theorem C61_disjoint (w : Nat) (heap : Nat → Int) (top : Nat) (bs : List (Int × Int × Int)) (gs : List Glo)
    (ht : 0 < top) {size : Int} {os : List Out} (h : compile w heap top bs gs = .ok (size, os))
    (own : ((objects [] gs).map Prod.fst).Nodup) :
    (∀ a t : Int, .global a t ∈ os → ∃ n, (t, n) ∈ objects [] gs ∧ 2 * (w : Int) ≤ a ∧ a + n ≤ size ∧
      ((∀ o ∈ objects [] gs, w ∣ o.2) → (w : Int) ∣ a)) ∧
    ∀ (a t a' t' : Int) (n n' : Nat), .global a t ∈ os → .global a' t' ∈ os → (t, n) ∈ objects [] gs → (t', n') ∈ objects [] gs →
      if t = t' then a = a' else a + n ≤ a' ∨ a' + n' ≤ a := by
  obtain ⟨h1, h2⟩ := C61_static_storage w heap top bs gs ht h
  have uniq : ∀ {t n n'}, (t, n) ∈ objects [] gs → (t, n') ∈ objects [] gs → n = n' := by
    intro t n n' hn hn'
    obtain ⟨p, q, e⟩ := List.append_of_mem hn
    obtain ⟨p', q', e'⟩ := List.append_of_mem hn'
    obtain rfl := pos_uniq own e e'
    rw [e] at e'
    simp only [List.append_cancel_left_eq, List.cons.injEq, Prod.mk.injEq] at e'
    exact e'.1.2
  refine ⟨?_, ?_⟩
  · intro a t hm
    obtain ⟨pre, n, post, e, rfl⟩ := h2 a t hm
    refine ⟨n, by simp [e], by omega, ?_, ?_⟩
    · rw [h1, e]; simp [bytes]; omega
    · intro hd
      have : w ∣ bytes pre := by
        unfold bytes
        apply List.dvd_sum
        intro x hx
        obtain ⟨o, ho, rfl⟩ := List.mem_map.1 hx
        exact hd o (by rw [e]; simp [ho])
      obtain ⟨k, hk⟩ := this
      exact ⟨2 + k, by rw [hk]; push_cast; ring⟩
  · intro a t a' t' n n' hm hm' hn hn'
    obtain ⟨pre, m, post, e, rfl⟩ := h2 a t hm
    obtain ⟨pre', m', post', e', rfl⟩ := h2 a' t' hm'
    obtain rfl := uniq hn (show (t, m) ∈ _ by rw [e]; simp)
    obtain rfl := uniq hn' (show (t', m') ∈ _ by rw [e']; simp)
    have hs := pos_split e e'
    split
    · rename_i htt
      subst htt
      rw [pos_uniq own e e']
    · rename_i htt
      rcases hs with ⟨_, ho, _⟩ | hs | hs
      · exact absurd (congrArg Prod.fst ho) htt
      · left; simp only at hs; omega
      · right; simp only at hs; omega

/-- `int a[2]; int f(int a) { static int n; { static int n; n; } n; a; } int a[2]; static int b; int *p = &a + b;` on a
64-bit machine, with two built-in functions. -/
def sample : List Glo :=
  [.var 101 16 1 [],
   .fn 100 500 2 [(103, 1, 3)] (.cons (.static 102 8 4) (.cons (.block (.cons (.static 102 8 5) (.cons (.use 102) .nil)))
     (.cons (.use 102) (.cons (.use 103) .nil)))),
   .var 101 16 6 [], .var 104 8 7 [], .var 105 8 8 [101, 104]]

example : compile 8 (fun _ => 0) 1000 [(90, 400, 0), (91, 401, 0)] sample =
    .ok (64, [.global 40 5, .global 32 4, .param (-1) 3, .global 16 1, .global 48 7]) := by decide +kernel
example : objects [] sample = [(1, 16), (4, 8), (5, 8), (7, 8), (8, 8)] ∧
    ((objects [] sample).map Prod.fst).Nodup ∧ ∀ o ∈ objects [] sample, 8 ∣ o.2 := by decide +kernel

end Verif.Storage
