import Verif.Intern.Proofs
/-! # C01 — identifiers and strings are interned faithfully

Specification (independent of the table's layout): a history interns a sequence of spellings,
possibly interleaved with other heap activity.  The `i`-th returned handle stands for the `i`-th
spelling. -/
namespace Verif.Intern
open Verif

/-- **C01 (partial).**  In every history without NUL bytes inside spellings:
one handle is returned per spelling; at the end of the history (hence at any later moment) each
handle still reads back as its spelling; equal handles imply equal spellings; and equal spellings
read by the same path, or consisting of 7-bit characters, get equal handles.
Missing with respect to the full statement: spellings with embedded NUL (see `C01_nul_false`) and
the same 8-bit spelling built by two different paths (see `C01_signed_false`). -/
theorem C01_intern_partial (ops : List Op) (hn : ∀ o ∈ ops, o.NulFree) (w : World)
    (hr : run World.init ops = .ok w) :
    w.handles.length = (spellings ops).length ∧
    (∀ (i : Nat) (h1 : i < w.handles.length) (h2 : i < (spellings ops).length),
      spelling w.st w.handles[i] = (spellings ops)[i].2) ∧
    (∀ (i j : Nat) (hi : i < w.handles.length) (hj : j < w.handles.length)
      (hi' : i < (spellings ops).length) (hj' : j < (spellings ops).length),
      (w.handles[i] = w.handles[j] → (spellings ops)[i].2 = (spellings ops)[j].2) ∧
      ((spellings ops)[i].2 = (spellings ops)[j].2 →
        ((spellings ops)[i].1 = (spellings ops)[j].1 ∨ ∀ b ∈ (spellings ops)[i].2, b < 128) →
        w.handles[i] = w.handles[j])) := by
  obtain ⟨T, hI, -, hs, hh, hf⟩ := run_inv inv_init hn hr
  simp only [World.init, List.nil_append] at hh
  subst hh
  have hget : ∀ (i : Nat) (h1 : i < w.handles.length) (h2 : i < (spellings ops).length),
      ∃ e ∈ T, e.h = w.handles[i] ∧ e.bs = (spellings ops)[i].2 ∧
        e.b = hashOf (spellings ops)[i].1 (spellings ops)[i].2 := by
    intro i h1 h2
    exact List.Forall₂.get hf h1 h2
  refine ⟨hf.length_eq, ?_, ?_⟩
  · intro i h1 h2
    obtain ⟨e, he, e1, e2, -⟩ := hget i h1 h2
    rw [← e1, inv_spelling hI he, e2]
  · intro i j hi hj hi' hj'
    obtain ⟨e, he, e1, e2, e3⟩ := hget i hi hi'
    obtain ⟨f, hf', f1, f2, f3⟩ := hget j hj hj'
    constructor
    · intro h
      rw [← e1, ← f1] at h
      rw [← e2, ← f2]
      exact ((inv_handle_eq hI he hf').mp h).1
    · intro h hsg
      rw [← e1, ← f1]
      apply (inv_handle_eq hI he hf').mpr
      refine ⟨by rw [e2, f2, h], ?_⟩
      rw [e3, f3, h]
      rcases hsg with hsg | hsg
      · rw [hsg]
      · exact hashOf_ascii _ _ _ (by rw [← h]; exact hsg)

/-- **C01, stability.**  A handle obtained at any point of a history keeps its spelling whatever
happens afterwards. -/
theorem C01_spelling_stable (ops more : List Op) (hn : ∀ o ∈ ops ++ more, o.NulFree) (w w' : World)
    (hr : run World.init ops = .ok w) (hr' : run w more = .ok w') (h : Nat) (hm : h ∈ w.handles) :
    spelling w'.st h = spelling w.st h := by
  obtain ⟨T, hI, -, -⟩ := run_inv inv_init (fun o ho => hn o (List.mem_append_left _ ho)) hr
  obtain ⟨T', hI', hsub, -⟩ := run_inv hI (fun o ho => hn o (List.mem_append_right _ ho)) hr'
  obtain ⟨e, he, rfl⟩ := hI.hnds h hm
  rw [inv_spelling hI he, inv_spelling hI' (hsub e he)]

/-- The handles returned by a history, when it succeeds. -/
def handlesOf (ops : List Op) : Option (List Nat) :=
  match run World.init ops with
  | .ok w => some w.handles
  | _ => none

/-- Non-vacuity: a history with a repeated spelling, a bucket collision and other activity. -/
example : handlesOf [.intern false [97], .alloc [1, 2], .intern false [98, 99], .setKind 0 300,
    .intern true [97], .poke 0 1 7, .intern false [97, 98]] = some [1009, 1016, 1009, 1021] := by
  decide +kernel

/-- C01 fails with embedded NULs: the two literals `"a\0aa"` and `"a\0bd"` (different, same
bucket) get one handle, because `end_ident` stops comparing at the first NUL. -/
theorem C01_nul_false :
    handlesOf [.intern false [97, 0, 97, 97], .intern false [97, 0, 98, 100]] =
      some [1009, 1009] := by
  decide +kernel

/-- C01 fails for 8-bit characters read by two paths: `"\377"` and `"" "\377"` get two handles. -/
theorem C01_signed_false :
    handlesOf [.intern false [255], .intern true [255]] = some [1009, 1014] := by
  decide +kernel

theorem accumAll_isOk (sg : Bool) (s : St) (bs : List Nat) (h : s.poolAlloc + bs.length < POOL_SIZE) :
    ∃ s', accumAll sg s bs = .ok s' := by
  induction bs generalizing s with
  | nil => exact ⟨s, rfl⟩
  | cons b bs ih =>
    simp only [List.length_cons] at h
    have h1 : ¬ s.poolAlloc ≥ POOL_SIZE := by omega
    have h2 : ¬ s.poolAlloc + 1 ≥ POOL_SIZE := by omega
    simp only [accumAll, accum, h1, h2, if_false, Res.bind_ok]
    exact ih _ (by simp only; omega)

theorem endIdent_ub (s : St) (h : s.poolAlloc ≥ POOL_SIZE) : endIdent s = .ub := by
  simp [endIdent, h]

/-- The pool overflow check comes one byte too late: after a spelling that exactly fills the
string pool, interning the empty string writes its terminator out of bounds. -/
theorem C01_pool_overrun_false (n : Nat) (hn : n + 1 = 500000) :
    run World.init [.intern false (List.replicate n 120), .intern false []] = .ub := by
  obtain ⟨s1, h1⟩ := accumAll_isOk false (beginString init) (List.replicate n 120)
    (by simp [beginString, init, POOL_SIZE]; omega)
  obtain ⟨a1, a2, a3, a4, a5, a6⟩ := accumAll_ok h1
  rw [List.length_replicate] at a4
  simp only [beginString, init] at a1 a2 a3 a4
  have hwalk : ∀ s : St, s.heap = (fun _ => 0) → ∀ c, walk s (s.heapAlloc + 1) c = .ok (.inr c) := by
    intro s hs c; simp [walk, hs]
  have hend : ∃ h s2, endIdent s1 = .ok (h, s2) ∧ s2.poolAlloc = n + 1 := by
    simp only [endIdent]
    rw [if_neg (by rw [a4]; simp only [POOL_SIZE]; omega), hwalk _ (by simp [a1])]
    simp only [Res.bind_ok, allocObj, a2]
    rw [if_neg (by decide)]
    exact ⟨_, _, rfl, by simp [a4]⟩
  obtain ⟨h, s2, hend, hpa⟩ := hend
  simp only [run, step, World.init, intern, h1, Res.bind_ok, hend]
  simp only [accumAll, Res.bind_ok]
  rw [endIdent_ub _ (by simp only [beginString, hpa, POOL_SIZE]; omega)]; rfl

/-! ## Within the tables -/

/-- What is used lies within the tables. -/
def Fits (s : St) : Prop := s.heapAlloc ≤ 2000000 ∧ s.poolAlloc ≤ 500000

theorem fits_alloc {s s' : St} {n p : Nat} (hf : Fits s) (h : allocObj s n = .ok (p, s')) : Fits s' ∧ s'.start = s.start := by
  unfold allocObj at h
  split at h
  · cases h
  · next hc =>
    simp only [Res.ok.injEq, Prod.mk.injEq] at h
    obtain ⟨rfl, rfl⟩ := h
    simp only [HEAP_SIZE] at hc
    exact ⟨⟨by simp only; omega, hf.2⟩, rfl⟩

theorem fits_accumAll {sg : Bool} : ∀ (bs : List Nat) {s s' : St}, Fits s → s.start ≤ s.poolAlloc → accumAll sg s bs = .ok s' → Fits s' ∧ s'.start ≤ s'.poolAlloc ∧ s'.start = s.start
  | [], s, s', hf, hs, h => by simp only [accumAll, Res.ok.injEq] at h; subst h; exact ⟨hf, hs, rfl⟩
  | b :: bs, s, s', hf, hs, h => by
    obtain ⟨s1, h1, h2⟩ := Res.bind_eq_ok.mp h
    unfold accum at h1
    split at h1
    · cases h1
    · split at h1
      · cases h1
      · next hc =>
        simp only [Res.ok.injEq] at h1
        subst h1
        simp only [POOL_SIZE] at hc
        have := fits_accumAll bs (s := { s with hash := hashStep sg s.hash b, pool := upd s.pool s.poolAlloc b, poolAlloc := s.poolAlloc + 1 }) ⟨hf.1, by simp only; omega⟩ (by simp only; omega) h2
        exact this

theorem fits_intern {sg : Bool} {s s' : St} {bs : List Nat} {x : Nat} (hf : Fits s) (h : intern sg s bs = .ok (x, s')) : Fits s' := by
  obtain ⟨s1, h1, h2⟩ := Res.bind_eq_ok.mp h
  obtain ⟨f1, f2, f3⟩ := fits_accumAll bs (s := beginString s) hf (Nat.le_refl _) h1
  unfold endIdent at h2
  split at h2
  · cases h2
  · next hc =>
    simp only [POOL_SIZE] at hc
    obtain ⟨r, h3, h4⟩ := Res.bind_eq_ok.mp h2
    cases r with
    | inl p =>
      simp only [Res.ok.injEq, Prod.mk.injEq] at h4
      obtain ⟨rfl, rfl⟩ := h4
      exact ⟨f1.1, by simp only; have := f1.2; omega⟩
    | inr c =>
      obtain ⟨⟨p, s2⟩, h5, h6⟩ := Res.bind_eq_ok.mp h4
      simp only [Res.ok.injEq, Prod.mk.injEq] at h6
      obtain ⟨rfl, rfl⟩ := h6
      exact (fits_alloc (s := { s1 with pool := upd s1.pool s1.poolAlloc 0, poolAlloc := s1.poolAlloc + 1 }) ⟨f1.1, by simp only; omega⟩ h5).1

theorem fits_step {w w' : World} {o : Op} (hf : Fits w.st) (h : step w o = .ok w') : Fits w'.st := by
  cases o with
  | intern sg bs =>
    obtain ⟨⟨x, s⟩, h1, h2⟩ := Res.bind_eq_ok.mp h
    simp only [Res.ok.injEq] at h2
    subst h2
    exact fits_intern hf h1
  | alloc cells =>
    obtain ⟨⟨p, s⟩, h1, h2⟩ := Res.bind_eq_ok.mp h
    simp only [Res.ok.injEq] at h2
    subst h2
    exact (fits_alloc hf h1).1
  | poke i j v =>
    simp only [step] at h
    split at h
    · split at h <;> · simp only [Res.ok.injEq] at h; subst h; exact hf
    · simp only [Res.ok.injEq] at h; subst h; exact hf
  | setKind i v =>
    simp only [step] at h
    split at h <;> · simp only [Res.ok.injEq] at h; subst h; exact hf
  | setTag i v =>
    simp only [step] at h
    split at h <;> · simp only [Res.ok.injEq] at h; subst h; exact hf

theorem fits_run : ∀ (os : List Op) {w w' : World}, Fits w.st → run w os = .ok w' → Fits w'.st
  | [], _, _, hf, h => by simp only [run, Res.ok.injEq] at h; subst h; exact hf
  | o :: os, w, w', hf, h => by
    obtain ⟨w1, h1, h2⟩ := Res.bind_eq_ok.mp h
    exact fits_run os (fits_step hf h1) h2

/-- **C01**: no history that goes on without an error message leaves the tables: the five cells of every entry lie behind the buckets and within the heap of 2000000 cells, and the bytes of its spelling with their terminator
within the string pool of 500000 bytes; distinct entries do not overlap. -/
theorem C01_within_tables_partial {os : List Op} {w : World} (hn : ∀ o ∈ os, o.NulFree) (h : run World.init os = .ok w) :
    (∀ x ∈ w.handles, 1009 ≤ x ∧ x + 5 ≤ 2000000 ∧ (w.st.heap (x + 1)).toNat + (spelling w.st x).length + 1 ≤ 500000) ∧
    ∀ x ∈ w.handles, ∀ y ∈ w.handles, x ≠ y → x + 5 ≤ y ∨ y + 5 ≤ x := by
  obtain ⟨T, hI, -, -⟩ := run_inv inv_init hn h
  have hf := fits_run os (w := World.init) (by simp [Fits, World.init, init, HASH_PRIME]) h
  refine ⟨fun x hx => ?_, fun x hx y hy hne => ?_⟩
  · obtain ⟨e, he, rfl⟩ := hI.hnds x hx
    have ho := hI.ents e he
    have h1 := ho.lo
    simp only [HASH_PRIME] at h1
    refine ⟨h1, by have := ho.hi; have := hf.1; omega, ?_⟩
    have : (spelling w.st e.h).length = e.bs.length := by rw [spelling, readList_length, ho.len]; rfl
    rw [this]
    have := ho.strHi; have := hf.2; omega
  · obtain ⟨e, he, rfl⟩ := hI.hnds x hx
    obtain ⟨f, hf', rfl⟩ := hI.hnds y hy
    rcases sep_mem hI.sep he hf' with rfl | hs | hs
    · exact absurd rfl hne
    · exact .inl hs
    · exact .inr hs

end Verif.Intern
