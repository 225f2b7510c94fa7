import Verif.ArrLen.Spec
/-! # C57: an array declared without a size gets the size of its initializer -/
namespace Verif.ArrLen
open Verif Verif.ArrLen.Spec

theorem declare_ok {h : Nodes} {t : Nat} {i : Option Ini} {k : Option Nat} (hh : Has (h t) i k) : ∃ h', declare h t i = .ok (k, h') ∧ h' t = k ∧ (∀ u, u ≠ t → h' u = h u) ∧ (h t ≠ some 0 → h' = h) := by
  generalize e : h t = n at hh
  cases hh with
  | other =>
    refine ⟨h, ?_, e, fun _ _ => rfl, fun _ => rfl⟩
    cases i <;> simp [declare, infer_array_length, e, Res.bind, fits]
  | @arr n _ k he =>
    cases he with
    | sized hn => exact ⟨h, by cases n with | zero => omega | succ n => simp [declare, infer_array_length, e, Res.bind, fits], e, fun _ _ => rfl, fun _ => rfl⟩
    | sizedList hn hl => exact ⟨h, by cases n with | zero => omega | succ n => simp [declare, infer_array_length, e, Res.bind, fits, hl], e, fun _ _ => rfl, fun _ => rfl⟩
    | sizedStr hn hl => exact ⟨h, by cases n with | zero => omega | succ n => simp [declare, infer_array_length, e, Res.bind, fits, hl], e, fun _ _ => rfl, fun _ => rfl⟩
    | @list is hn => exact ⟨upd h t (some is.length), by simp [declare, infer_array_length, e, initializer_size, Res.bind, fits, upd], by simp [upd], fun u hu => by simp [upd, hu], fun hc => absurd rfl hc⟩
    | @str bs => exact ⟨upd h t (some (bs.length + 1)), by simp [declare, infer_array_length, e, initializer_size, Res.bind, fits, upd], by simp [upd], fun u hu => by simp [upd, hu], fun hc => absurd rfl hc⟩

theorem declareAll_ok : ∀ {ds : List (Nat × Option Ini)} {ks : List (Option Nat)} {h : Nodes}, All h ds ks → Unshared h ds →
    ∃ h', declareAll h ds = .ok (ks, h') ∧ (∀ u, (h u = some 0 → ∀ d ∈ ds, d.1 ≠ u) → h' u = h u) ∧ ∀ (j t : Nat) (i : Option Ini) (k : Option Nat), ds[j]? = some (t, i) → ks[j]? = some k → h' t = k
  | [], ks, h, a, _ => by
    cases a
    exact ⟨h, rfl, fun _ _ => rfl, by simp⟩
  | (t, i) :: r, ks, h, a, hu => by
    cases a with
    | @cons _ _ _ k ks hk hr =>
      obtain ⟨h1, e1, p1, q1, r1⟩ := declare_ok hk
      have hu' := List.pairwise_cons.1 hu
      have same : ∀ d ∈ r, h1 d.1 = h d.1 := by
        intro d hd
        by_cases h0 : h t = some 0
        · exact q1 _ (Ne.symm (hu'.1 d hd h0))
        · rw [r1 h0]
      have hr' : All h1 r ks := by
        clear e1 hu hk
        revert hu' same
        induction hr with
        | nil => exact fun _ _ => .nil
        | @cons t' i' r' k' ks' hk' hr' ih =>
          intro hu' same
          refine .cons ?_ (ih ⟨fun d hd => hu'.1 d (List.mem_cons_of_mem _ hd), (List.pairwise_cons.1 hu'.2).2⟩ fun d hd => same d (List.mem_cons_of_mem _ hd))
          rw [same (t', i') (by simp)]
          exact hk'
      have hu1 : Unshared h1 r := by
        refine List.Pairwise.imp_of_mem (R := fun a b => h a.1 = some 0 → a.1 ≠ b.1) ?_ hu'.2
        intro a b ha _ hab h0
        exact hab (by rw [← same a ha]; exact h0)
      obtain ⟨h2, e2, p2, q2⟩ := declareAll_ok hr' hu1
      refine ⟨h2, by rw [declareAll, e1, Res.bind_ok]; dsimp only; rw [e2]; rfl, fun u hn => ?_, ?_⟩
      · have h1u : h1 u = h u := by
          by_cases hut : u = t
          · subst hut
            by_cases h0 : h u = some 0
            · exact absurd rfl (hn h0 (u, i) (by simp))
            · rw [r1 h0]
          · exact q1 u hut
        rw [p2 u (fun h0 d hd => hn (by rw [← h1u]; exact h0) d (List.mem_cons_of_mem _ hd)), h1u]
      · intro j t' i' k' hd hk'
        cases j with
        | succ j => exact q2 j t' i' k' (by simpa using hd) (by simpa using hk')
        | zero =>
          simp at hd hk'
          obtain ⟨rfl, rfl⟩ := hd
          subst hk'
          rw [← p1]
          refine p2 t fun h0 d hd => ?_
          by_cases hz : h t = some 0
          · exact Ne.symm (hu'.1 d hd hz)
          · rw [r1 hz] at h0; exact absurd h0 hz

/-- **C57, the native compilers (partial).** In a sequence of declarations of any length, each array has the number of elements of its declaration or, if it has none, of its initializer (the null byte of a string counts): when it is given room, and after all the declarations, when
`sizeof` asks for it.  Missing: array types without a length that are used twice (`C57_typedef_false`), strings in braces (`C57_braced_string_false`), declarations that are completed later (`C57_incomplete_false`), elided braces. -/
theorem C57_native_partial {h : Nodes} {ds : List (Nat × Option Ini)} {ks : List (Option Nat)} (a : All h ds ks) (u : Unshared h ds) :
    ∃ h', declareAll h ds = .ok (ks, h') ∧ ∀ (j t : Nat) (i : Option Ini) (k : Option Nat), ds[j]? = some (t, i) → ks[j]? = some k → h' t = k := by
  obtain ⟨h', e, -, q⟩ := declareAll_ok a u
  exact ⟨h', e, q⟩

/-- **C57, too many elements.** A list or a string that is longer than the declared length is refused. -/
theorem C57_too_many {h : Nodes} {t n : Nat} (hn : 0 < n) (ht : h t = some n) : (∀ is : List Ini, n < is.length → declare h t (some (.list is)) = .fatal) ∧ (∀ bs : List Nat, n < bs.length → declare h t (some (.str bs)) = .fatal) := by
  cases n with
  | zero => omega
  | succ n =>
    refine ⟨fun is hl => ?_, fun bs hl => ?_⟩ <;> simp [declare, infer_array_length, ht, Res.bind, fits] <;> omega

/-- **C57, typedef names: false.** `typedef int A[]; A a = {…}, b = {…};` (the example of C99 6.7.8, paragraph 25): the length of `a` is stored in the type that `b` has too.  `b` gets as many elements as `a`, however many it has itself; when it has more, it is refused. -/
theorem C57_typedef_false (h : Nodes) (t : Nat) (ht : h t = some 0) (is js : List Ini) (hi : is ≠ []) :
    (js.length ≤ is.length → ∃ h', declareAll h [(t, some (.list is)), (t, some (.list js))] = .ok ([some is.length, some is.length], h')) ∧
    (is.length < js.length → declareAll h [(t, some (.list is)), (t, some (.list js))] = .fatal) := by
  have h1 : declare h t (some (.list is)) = .ok (some is.length, upd h t (some is.length)) := by simp [declare, infer_array_length, ht, initializer_size, Res.bind, fits, upd]
  have hl : is.length ≠ 0 := fun e => hi (List.length_eq_zero_iff.1 e)
  obtain ⟨n, hn⟩ := Nat.exists_eq_succ_of_ne_zero hl
  refine ⟨fun hj => ⟨upd h t (some is.length), ?_⟩, fun hj => ?_⟩
  · rw [hn] at hj
    have h2 : declare (upd h t (some is.length)) t (some (.list js)) = .ok (some is.length, upd h t (some is.length)) := by simp [declare, infer_array_length, Res.bind, fits, upd, hn]; omega
    simp [declareAll, h1, h2, Res.bind]
  · rw [hn] at hj
    have h2 : declare (upd h t (some is.length)) t (some (.list js)) = .fatal := by simp [declare, infer_array_length, Res.bind, fits, upd, hn]; omega
    simp [declareAll, h1, h2, Res.bind]

/-- **C57, a string in braces: false.** `char s[] = {"…"};` has one element (of C's `length + 1`), whatever the string (and is then refused where the element is stored, since a string is no `char`). -/
theorem C57_braced_string_false (h : Nodes) (t : Nat) (ht : h t = some 0) (bs : List Nat) : ∃ h', declare h t (some (.list [.str bs])) = .ok (some 1, h') :=
  ⟨upd h t (some 1), by simp [declare, infer_array_length, ht, initializer_size, Res.bind, fits, upd]⟩

/-- **C57, incomplete arrays: false.** `extern int a[];` is refused by the native compilers. -/
theorem C57_incomplete_false (h : Nodes) (t : Nat) (ht : h t = some 0) : declare h t none = .fatal := by
  simp [declare, infer_array_length, ht, Res.bind]

/-- **C57, the shell compiler (partial).** An array has the number of elements of its declaration or, if it has none, of its initializer; nothing is stored in the type, so the declarations do not depend on one another.  Missing: a string whose null byte does not fit is refused
(`C57_sh_exact_false`). -/
theorem C57_sh_partial {n k : Nat} {i : Option Ini} (h : Elements n i k) (hs : ∀ bs, i = some (.str bs) → n ≠ bs.length ∨ n = 0) : shLen n i = .ok k := by
  cases h with
  | sized hn => rw [shLen, if_neg (by omega)]
  | sizedList hn hl => rw [shLen, if_neg (by omega), if_neg (by omega)]
  | @sizedStr _ bs hn hl =>
    have := hs bs rfl
    rw [shLen, if_neg (by omega), if_pos (by omega)]
  | @list is hn => simp [shLen, hn]
  | str => simp [shLen]

/-- **C57**: `char s[3] = "abc";` is C, the shell compiler refuses it, for every string. -/
theorem C57_sh_exact_false (bs : List Nat) (h : bs ≠ []) : Elements bs.length (some (.str bs)) bs.length ∧ shLen bs.length (some (.str bs)) = .fatal := by
  have : 0 < bs.length := List.length_pos_iff.2 h
  exact ⟨.sizedStr this (Nat.le_refl _), by simp [shLen, h]⟩

/-- `int a[] = {1, 2, 3}, x, b[5] = {1}; char s[] = "ab";` -/
example : ∃ h', declareAll (fun t => if t = 1 then none else if t = 2 then some 5 else some 0) [(0, some (.list [.expr, .expr, .expr])), (1, none), (2, some (.list [.expr])), (3, some (.str [97, 98]))] =
    .ok ([some 3, none, some 5, some 3], h') ∧ h' 0 = some 3 := by
  obtain ⟨h', e, q⟩ := C57_native_partial (h := fun t => if t = 1 then none else if t = 2 then some 5 else some 0)
    (ds := [(0, some (.list [.expr, .expr, .expr])), (1, none), (2, some (.list [.expr])), (3, some (.str [97, 98]))])
    (.cons (.arr (.list (by simp))) (.cons .other (.cons (.arr (.sizedList (by decide) (by decide))) (.cons (.arr .str) .nil)))) (by simp [Unshared])
  exact ⟨h', e, q 0 _ _ _ rfl rfl⟩

example : shLen 0 (some (.list [.expr, .expr])) = .ok 2 := C57_sh_partial (.list (by simp)) (by intro bs h; cases h)

end Verif.ArrLen
