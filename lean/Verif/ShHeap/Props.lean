import Verif.ShHeap.Proofs
/-! C15: run-time allocations never overlap. -/
namespace Verif.ShHeap
open Verif Verif.ShStr Verif.ShStr.Spec

theorem reach_inv {c ord s L F} (h : Reach c ord s L F) : Inv c s L F := by
  induction h with
  | start => exact Inv.start c
  | act a _ hal hs ih => exact (step_inv ih a hal hs).1

/-- **C15, disjointness.** In every reachable state of a script, for every configuration of the
runtime and every history of allocations, string and array definitions, `argv` setup, stores and
`free`s: no two objects created so far (freed ones included) share a cell, none contains the cell 0,
and no object has the address `NULL`. With `free` enabled, addresses are also pairwise different even for objects of size 0. -/
theorem C15_disjoint {c ord s L F} (h : Reach c ord s L F) :
    L.Pairwise Apart ∧ (∀ o ∈ L, ¬ o.has 0 ∧ o.base ≠ 0) ∧
    (c.hdr = true → L.Pairwise fun o p => o.base ≠ p.base) := by
  have I := reach_inv h
  have hp := c.h_pos
  refine ⟨?_, ?_, ?_⟩
  · refine I.sep.imp ?_
    intro o p hs a ⟨⟨h1, h2⟩, h3, h4⟩
    unfold Sep at hs
    omega
  · intro o ho
    have := I.lo o ho
    refine ⟨fun hh => ?_, by omega⟩
    have := hh.1
    omega
  · intro hc
    have hh := Cfg.h_hdr hc
    have := I.sep
    rw [List.pairwise_iff_forall_sublist] at this ⊢
    intro o p hsub
    have hs := this hsub
    have ho : o ∈ L := hsub.subset (by simp)
    have hq : p ∈ L := hsub.subset (by simp)
    have := I.size o ho
    have := I.size p hq
    unfold Sep at hs
    omega

/-- **C15, separation.** No action changes a cell of an existing object, except the cell a store or a
result is directed to and the cells of the object being freed. -/
theorem C15_frame {c ord s L F s'} (h : Reach c ord s L F) (a : Act) (hal : Allowed ord L F a)
    (hs : step c ord s a = .ok s') {o : Obj} (ho : o ∈ L) {x : Int} (hx : o.has x)
    (ht : ¬ Touches L a x) : s'.cell x = s.cell x :=
  (step_inv (reach_inv h) a hal hs).2 o ho x hx ht

/-- **C15, `free`.** Freeing an object leaves every cell of every other object alone, so a live object
never loses its contents. -/
theorem C15_free {c ord s L F} (h : Reach c ord s L F) {o : Obj} (ho : o ∈ L) (hF : o.base ∉ F)
    (v : Nat) : ∃ s', step c ord s (.free (.var v) o.base) = .ok s' ∧
      ∀ p ∈ L, p ≠ o → ∀ x, p.has x → s'.cell x = s.cell x := by
  have I := reach_inv h
  obtain ⟨s', e, -, -, -, fr, -⟩ := free_inv (d := .var v) I ho rfl (fun _ => hF) trivial
  exact ⟨s', e, fun p hp hne x hx => fr p hp hne x hx (by simp)⟩

/-- **C15, no action gets stuck.** Allowed actions run to completion (string constants must hold valid
escapes, which C09 shows of everything the compiler emits; array definitions need
`RT_NO_INIT_GLOBALS`, see `C15_defarr_false`). -/
theorem C15_progress {c ord s L F} (h : Reach c ord s L F) (a : Act) (hal : Allowed ord L F a)
    (hesc : ∀ v str sz, a = .defstr v str sz → ∃ vs, unpackShort ord str = .ok vs)
    (harr : c.noInit = true) : ∃ s', step c ord s a = .ok s' := by
  have I := reach_inv h
  cases a with
  | malloc d n => exact ⟨_, rfl⟩
  | free d p =>
    obtain ⟨hd, ⟨o, ho, hb⟩, hF⟩ := hal
    obtain ⟨s', e, -⟩ := free_spec (d := d) I ho hb (fun _ => hF)
    exact ⟨s', e⟩
  | defarr v len elems =>
    simp only [step, defarr, harr]
    rw [if_pos trivial]
    split
    · rw [initMem_got]; exact ⟨_, rfl⟩
    · exact ⟨_, rfl⟩
  | defstr v str sz =>
    obtain ⟨vs, hv⟩ := hesc v str sz rfl
    simp only [step, defstr]
    have he : expand false (s.var v) = .ok ((s.var v).getD 0) := by cases s.var v <;> rfl
    rw [he]
    simp only [Res.bind_ok]
    split
    · obtain ⟨s1, e1⟩ := unpackEsc_total c ord s str sz hv
      obtain ⟨ws, -, g, -, -⟩ := got_unpackEsc e1
      have hd := g.dst
      simp only [S.get] at hd
      rw [e1]
      simp only [Res.bind_ok, hd, expand]
      exact ⟨_, rfl⟩
    · exact ⟨_, rfl⟩
  | unpack d str =>
    obtain ⟨s1, e1, -⟩ := got_unpackString c ord s d str (I.dst_lt hal)
    exact ⟨s1, e1⟩
  | argv args =>
    obtain ⟨s1, s2, e, -⟩ := makeArgv_ok c ord args I
    exact ⟨s2, e⟩
  | store a x => exact ⟨_, rfl⟩
  | setVar i x => exact ⟨_, rfl⟩

theorem valsAt_str {c : Cfg} {ord : Nat → Int} (ho : OrdOk ord) {s : S} {b : Int} {str : List Nat}
    (hc : ∀ ch ∈ str, 1 ≤ ch ∧ ch < 256) (h : ValsAt s b (strVals c ord str)) : StrAt s b str := by
  rw [strVals_ok ho hc] at h
  obtain ⟨h1, h2⟩ := h
  refine ⟨?_, by simpa using h2⟩
  intro i hi
  have := h1 i (by simpa using hi)
  simpa using this

/-- **C15, `argv`.** After `make_argv`, `argv[i]` is the address of a C string holding the `i`-th
argument of the script, whatever was allocated before. -/
theorem C15_argv {c ord s L F} (ho : OrdOk ord) (h : Reach c ord s L F) (args : List (List Nat))
    (hc : ∀ a ∈ args, ∀ ch ∈ a, 1 ≤ ch ∧ ch < 256) :
    ∃ s' argv, step c ord s (.argv args) = .ok s' ∧ s'.var argvVar = some argv ∧
      ArgvAt s' argv args := by
  obtain ⟨s1, s2, e, -, -, -, hv, -, -, -, hb⟩ := makeArgv_ok c ord args (reach_inv h)
  refine ⟨s2, _, e, hv, ?_⟩
  intro i hi
  obtain ⟨b, h1, h2⟩ := hb i hi
  exact ⟨b, h1, valsAt_str ho (hc _ (List.getElem_mem hi)) h2⟩

/-- **C15, strings.** `unpack_string` puts the characters and a terminating 0 in the new object. -/
theorem C15_unpack {c ord s L F} (ho : OrdOk ord) (h : Reach c ord s L F) (v : Nat) (str : List Nat)
    (hc : ∀ ch ∈ str, 1 ≤ ch ∧ ch < 256) :
    ∃ s' b, step c ord s (.unpack (.var v) str) = .ok s' ∧ s'.var v = some b ∧ StrAt s' b str := by
  obtain ⟨s1, e1, g, h1, h2⟩ := got_unpackString c ord s (.var v) str (by simp)
  refine ⟨s1, _, e1, g.dst, valsAt_str (c := c) ho hc ⟨?_, ?_⟩⟩
  · intro i hi
    exact h1 i (by rw [strVals_length] at hi; exact hi)
  · rw [strVals_length]; exact h2

/-- **C15, initialised arrays.** The elements, then zeros up to the length. -/
theorem C15_array {c ord s} (hn : c.noInit = true) (v : Nat) (len : Int) (elems : List Int)
    (he : elems ≠ []) :
    ∃ s' b, step c ord s (.defarr v len elems) = .ok s' ∧ s'.var v = some b ∧
      (∀ i (h : i < elems.length), s'.cell (b + i) = some elems[i]) ∧
      (∀ i : Nat, elems.length ≤ i → (i : Int) < len → s'.cell (b + i) = some 0) := by
  have : ∃ s', step c ord s (.defarr v len elems) = .ok s' := by
    simp only [step, defarr, hn]
    rw [if_pos trivial, if_pos (List.length_pos_iff.mpr he), initMem_got]
    exact ⟨_, rfl⟩
  obtain ⟨s', e⟩ := this
  obtain ⟨g, hv⟩ := got_defarr e
  exact ⟨s', _, e, g.dst, (hv he).1, (hv he).2⟩

/-- **C15, declarations.** Every array declaration the compiler accepts becomes an allowed action: the
initialiser fits in the size asked for. -/
theorem C15_decl {ord : Nat → Int} (ho : OrdOk ord) (esc : List Nat → List Nat)
    (hesc : ∀ bs : List Nat, (∀ b ∈ bs, b < 256) → dquoted (escapeString false bs ++ [34]) = some (esc bs, []))
    (v arrLen : Nat) (init : Init) (hb : ∀ bs, init = .str bs → ∀ b ∈ bs, b < 256) (a : Act)
    (h : compArray v arrLen esc init = .ok a) (L : List Obj) (F : List Int) : Allowed ord L F a := by
  cases init with
  | none =>
    simp only [compArray] at h
    split at h <;> cases h
    simp [Allowed]
  | list elems =>
    simp only [compArray] at h
    split at h
    · split at h <;> cases h
      simp [Allowed]
    · split at h <;> cases h
      simp only [Allowed]; omega
  | str bs =>
    simp only [compArray] at h
    have hb := hb bs rfl
    obtain ⟨w, h1, h2, -⟩ := string_trip ho bs hb
    have hw : w = esc bs := by
      have := h1 []
      rw [hesc bs hb] at this
      simp at this
      exact this.symm
    subst hw
    split at h
    · cases h
    · cases h
      intro n hn
      refine ⟨_, h2, ?_⟩
      simp only [List.length_map]
      cases hn
      split <;> omega

/-- **C15, `char` arrays.** A `char` array the compiler accepts with a string initialiser holds, in its
own object, the bytes of the string and zeros up to the declared length, at least one of them. -/
theorem C15_char_array {c : Cfg} {ord : Nat → Int} (ho : OrdOk ord) (esc : List Nat → List Nat)
    (hesc : ∀ bs : List Nat, (∀ b ∈ bs, b < 256) → dquoted (escapeString false bs ++ [34]) = some (esc bs, []))
    (v arrLen : Nat) (bs : List Nat) (hb : ∀ b ∈ bs, b < 256) (a : Act)
    (h : compArray v arrLen esc (.str bs) = .ok a) (s : S) (hv : (s.var v).getD 0 = 0) :
    ∃ s' o, step c ord s a = .ok s' ∧ created s s' a = [o] ∧ s'.var v = some o.base ∧
      (arrLen ≠ 0 → o.size = arrLen) ∧ (bs.length : Int) < o.size ∧
      (∀ i (h : i < bs.length), s'.cell (o.base + i) = some (bs[i] : Int)) ∧
      (∀ i : Nat, bs.length ≤ i → (i : Int) < o.size → s'.cell (o.base + i) = some 0) := by
  simp only [compArray] at h
  obtain ⟨w, h1, h2, -⟩ := string_trip ho bs hb
  have hw : w = esc bs := by
    have := h1 []
    rw [hesc bs hb] at this
    simp at this
    exact this.symm
  subst hw
  split at h
  · cases h
  · rename_i hlen
    cases h
    have : ∃ s', step c ord s (.defstr v (esc bs) (some ((if arrLen ≠ 0 then arrLen else bs.length + 1 : Nat) : Int))) = .ok s' := by
      simp only [step, defstr]
      have he : expand false (s.var v) = .ok ((s.var v).getD 0) := by cases s.var v <;> rfl
      rw [he]
      simp only [Res.bind_ok]
      rw [if_pos hv]
      obtain ⟨s1, e1⟩ := unpackEsc_total c ord s (esc bs) (some ((if arrLen ≠ 0 then arrLen else bs.length + 1 : Nat) : Int)) h2
      obtain ⟨ws, -, g, -, -⟩ := got_unpackEsc e1
      have hd := g.dst
      simp only [S.get] at hd
      rw [e1]
      simp only [Res.bind_ok, hd, expand]
      exact ⟨_, rfl⟩
    obtain ⟨s', e⟩ := this
    rcases got_defstr e with ⟨h0, -⟩ | ⟨h0, vs, hvs, ⟨g1, -⟩, g2, g3⟩
    · exact absurd hv h0
    · rw [h2] at hvs
      cases hvs
      refine ⟨s', ⟨s.alloc + c.h, ((if arrLen ≠ 0 then arrLen else bs.length + 1 : Nat) : Int)⟩, e, ?_, g1, ?_, ?_, ?_, ?_⟩
      · simp only [created, if_pos hv, g1, Option.getD_some]
      · intro hne; simp [hne]
      · simp only; split <;> omega
      · intro i hi
        have := g2 i (by simpa using hi)
        simpa using this
      · intro i hi hi2
        exact g3 i (by simpa using hi) hi2

/-! ### What fails -/

/-- The array definitions of a compiler built without `RT_NO_INIT_GLOBALS` call a command that does
not exist (`initialize_memory`), so every script with a global array stops there. -/
theorem C15_defarr_false (c : Cfg) (hn : c.noInit = false) (ord : Nat → Int) (s : S) (v : Nat)
    (len : Int) (elems : List Int) : step c ord s (.defarr v len elems) = .fatal := by
  simp [step, defarr, hn]

/-- A negative size is accepted and makes later objects overlap earlier ones. -/
theorem C15_negative_false : ∃ (s : S),
    (∃ s1 s2, step ⟨true, true, false, false, true⟩ (fun c => c) start (.malloc (.var 2) 5) = .ok s1 ∧
      step ⟨true, true, false, false, true⟩ (fun c => c) s1 (.malloc (.var 3) (-4)) = .ok s2 ∧
      step ⟨true, true, false, false, true⟩ (fun c => c) s2 (.malloc (.var 4) 2) = .ok s) ∧
    ¬ Apart ⟨(s.var 2).getD 0, 5⟩ ⟨(s.var 4).getD 0, 2⟩ := by
  refine ⟨_, ⟨_, _, rfl, rfl, rfl⟩, ?_⟩
  intro h
  refine h 5 ?_
  simp [malloc, S.put, start, upd, Obj.has]

/-- Without the size headers two objects of size 0 get the same address. -/
theorem C15_zero_false : ∃ (s : S),
    (∃ s1, step ⟨false, true, false, false, true⟩ (fun c => c) start (.malloc (.var 2) 0) = .ok s1 ∧
      step ⟨false, true, false, false, true⟩ (fun c => c) s1 (.malloc (.var 3) 0) = .ok s) ∧
    s.var 2 = s.var 3 ∧ s.var 2 = some 1 := by
  exact ⟨_, ⟨_, rfl, rfl⟩, by simp [malloc, S.put, start, upd], by simp [malloc, S.put, start, upd]⟩

/-! ### Non-vacuity -/

/-- A history with `malloc`, a string constant, an array, `argv`, a store and a `free`. -/
example : ∃ s L F, Reach ⟨true, true, true, false, true⟩ (fun c => (c : Int)) s L F ∧ L.length = 6 ∧
    F = [2] ∧ s.cell 3 = some 77 ∧ s.cell 2 = none ∧ s.cell 7 = some 10 := by
  let c : Cfg := ⟨true, true, true, false, true⟩
  refine ⟨_, _, _, .act (.argv [[97], [98, 99]]) (.act (.defarr 11 3 [1, 2]) (.act (.free (.var 12) 2)
    (.act (.defstr 13 [97, 98, 92, 110] none) (.act (.store 3 77) (.act (.malloc (.var 10) 2) .start
      ?_ rfl) ?_ rfl) ?_ rfl) ?_ rfl) ?_ rfl) ?_ rfl, ?_⟩
  · exact ⟨trivial, by omega⟩
  · exact ⟨_, List.mem_singleton.mpr rfl, by decide +kernel, by decide +kernel⟩
  · intro n hn; cases hn
  · exact ⟨trivial, ⟨_, List.mem_cons_of_mem _ (List.mem_singleton.mpr rfl), by decide +kernel⟩, by simp [freed]⟩
  · show (2 : Int) ≤ 3; omega
  · trivial
  · decide +kernel

end Verif.ShHeap
