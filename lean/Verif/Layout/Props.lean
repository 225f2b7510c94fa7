import Verif.Layout.Proofs
/-! # C25: layout of structs and unions -/
namespace Verif.Layout
open Verif Verif.Layout.Spec

/-- Every aggregate inside `T` has unambiguous member names. -/
def Clear (T : Ty) : Prop := ∀ p t, part T p = some t → Unambiguous t

theorem part_trans : ∀ (p : List Nat) {T t : Ty} (q : List Nat), part T p = some t →
    part T (p ++ q) = part t q := by
  intro p
  induction p with
  | nil => intro T t q h; cases T <;> simp only [part, Option.some.injEq] at h <;> subst h <;> rfl
  | cons i p ih =>
    intro T t q h
    match T with
    | .arr n e =>
      simp only [part] at h
      simp only [List.cons_append, part]
      split at h
      · next hi => rw [if_pos hi]; exact ih q h
      · exact absurd h (by simp)
    | .agg u ms =>
      simp only [part] at h
      simp only [List.cons_append]
      split at h
      · next hn => simp only [part, hn]; exact ih q h
      · exact absurd h (by simp)
    | .void | .char | .short | .int | .long | .enum | .ptr => simp [part] at h

theorem Clear.part {T t : Ty} {p} (h : Clear T) (hp : part T p = some t) : Clear t :=
  fun q t' hq => h (p ++ q) t' (by rw [part_trans p q hp]; exact hq)

theorem part_nil (T : Ty) : part T [] = some T := by cases T <;> rfl

theorem Clear.names {T t : Ty} {a p} (h : Clear T) (hp : Names a T p t) : Clear t :=
  h.part (p := p) (by have := names_part hp []; rw [List.append_nil] at this; rw [this]; exact part_nil t)

mutual
/-- All member names of an aggregate, including those inside anonymous members. -/
def namesT : Ty → List Nat
  | .agg _ ms => namesMs ms
  | _ => []
def namesMs : Ms → List Nat
  | .nil => []
  | .cons (some n) _ rest => n :: namesMs rest
  | .cons none t rest => namesT t ++ namesMs rest
end

mutual
/-- Decidable criterion: in every aggregate inside the type, no name occurs twice. -/
def clear : Ty → Bool
  | .arr _ t => clear t
  | .agg _ ms => decide (namesMs ms).Nodup && clearMs ms
  | _ => true
def clearMs : Ms → Bool
  | .nil => true
  | .cons _ t rest => clear t && clearMs rest
end

theorem names_mem {a T p t} (h : Names a T p t) : a ∈ namesT T := by
  induction h with
  | @here u ms i t h =>
    simp only [namesT]
    induction ms using Ms.rec (motive_1 := fun _ => True) generalizing i with
    | nil => cases i <;> simp [nth] at h
    | cons nm t' rest _ ih =>
      cases i with
      | zero =>
        simp only [nth, Option.some.injEq, Prod.mk.injEq] at h
        obtain ⟨rfl, _⟩ := h; simp [namesMs]
      | succ i =>
        have := ih (i := i) (by simpa only [nth] using h)
        cases nm <;> simp [namesMs, this]
    | _ => trivial
  | @anon u ms i T p t h _ ihT =>
    simp only [namesT]
    induction ms using Ms.rec (motive_1 := fun _ => True) generalizing i with
    | nil => cases i <;> simp [nth] at h
    | cons nm t' rest _ ih =>
      cases i with
      | zero =>
        simp only [nth, Option.some.injEq, Prod.mk.injEq] at h
        obtain ⟨rfl, rfl⟩ := h; simp [namesMs, ihT]
      | succ i =>
        have := ih (i := i) (by simpa only [nth] using h)
        cases nm <;> simp [namesMs, this]
    | _ => trivial

mutual
theorem unamb_T : ∀ T, (namesT T).Nodup → Unambiguous T
  | .agg u ms, h => unamb_Ms u ms (by simpa only [namesT] using h)
  | .void, _ => fun _ _ _ _ _ h _ => by cases h
  | .char, _ => fun _ _ _ _ _ h _ => by cases h
  | .short, _ => fun _ _ _ _ _ h _ => by cases h
  | .int, _ => fun _ _ _ _ _ h _ => by cases h
  | .long, _ => fun _ _ _ _ _ h _ => by cases h
  | .enum, _ => fun _ _ _ _ _ h _ => by cases h
  | .ptr, _ => fun _ _ _ _ _ h _ => by cases h
  | .arr _ _, _ => fun _ _ _ _ _ h _ => by cases h
theorem unamb_Ms (u : Bool) : ∀ ms, (namesMs ms).Nodup → Unambiguous (.agg u ms)
  | .nil, _ => fun _ _ _ _ _ h _ => absurd h nil_not_names
  | .cons nm t rest, hn => by
    intro a p tp q tq hp hq
    have mem_rest : ∀ {i q tq}, Names a (.agg u rest) (i :: q) tq → a ∈ namesMs rest := fun h => by
      simpa only [namesT] using names_mem h
    cases nm with
    | some n =>
      simp only [namesMs, List.nodup_cons] at hn
      have ih := unamb_Ms u rest hn.2
      rcases names_cons.1 hp with ⟨e, rfl, rfl⟩ | ⟨e, _⟩ | ⟨i, p', rfl, hp'⟩
      · rcases names_cons.1 hq with ⟨_, rfl, rfl⟩ | ⟨e', _⟩ | ⟨i, q', rfl, hq'⟩
        · exact ⟨rfl, rfl⟩
        · cases e'
        · cases e; exact absurd (mem_rest hq') hn.1
      · cases e
      · rcases names_cons.1 hq with ⟨e, rfl, rfl⟩ | ⟨e', _⟩ | ⟨j, q', rfl, hq'⟩
        · cases e; exact absurd (mem_rest hp') hn.1
        · cases e'
        · obtain ⟨e1, e2⟩ := ih a _ _ _ _ hp' hq'
          injection e1 with e3 e4
          subst e3; subst e4; exact ⟨rfl, e2⟩
    | none =>
      simp only [namesMs, List.nodup_append] at hn
      have ih := unamb_Ms u rest hn.2.1
      have ih' := unamb_T t hn.1
      rcases names_cons.1 hp with ⟨e, _⟩ | ⟨_, p', rfl, hp'⟩ | ⟨i, p', rfl, hp'⟩
      · cases e
      · rcases names_cons.1 hq with ⟨e, _⟩ | ⟨_, q', rfl, hq'⟩ | ⟨i, q', rfl, hq'⟩
        · cases e
        · obtain ⟨e1, e2⟩ := ih' a _ _ _ _ hp' hq'
          subst e1; exact ⟨rfl, e2⟩
        · exact absurd rfl (hn.2.2 a (names_mem hp') a (mem_rest hq'))
      · rcases names_cons.1 hq with ⟨e, _⟩ | ⟨_, q', rfl, hq'⟩ | ⟨j, q', rfl, hq'⟩
        · cases e
        · exact absurd rfl (hn.2.2 a (names_mem hq') a (mem_rest hp'))
        · obtain ⟨e1, e2⟩ := ih a _ _ _ _ hp' hq'
          injection e1 with e3 e4
          subst e3; subst e4; exact ⟨rfl, e2⟩
end

theorem clear_nth : ∀ {ms : Ms} {i nm t}, clearMs ms = true → nth ms i = some (nm, t) → clear t = true := by
  intro ms
  induction ms using Ms.rec (motive_1 := fun _ => True) with
  | nil => intro i nm t _ h; cases i <;> simp [nth] at h
  | cons name t rest _ ih =>
    intro i nm t' hl h
    simp only [clearMs, Bool.and_eq_true] at hl
    cases i with
    | zero => simp only [nth, Option.some.injEq, Prod.mk.injEq] at h; obtain ⟨rfl, rfl⟩ := h; exact hl.1
    | succ i => exact ih hl.2 (by simpa only [nth] using h)
  | _ => trivial

/-- The criterion is sufficient. -/
theorem Clear.of_clear {T : Ty} (h : clear T = true) : Clear T := by
  intro p
  induction p generalizing T with
  | nil =>
    intro t ht
    rw [part_nil] at ht
    injection ht with ht; subst ht
    refine unamb_T T ?_
    cases T with
    | agg u ms => simp only [clear, Bool.and_eq_true, decide_eq_true_eq] at h; simpa only [namesT] using h.1
    | _ => simp [namesT]
  | cons i p ih =>
    intro t ht
    match T with
    | .arr n e =>
      simp only [Verif.Layout.Spec.part] at ht
      split at ht
      · exact ih (T := e) (by simpa only [clear] using h) t ht
      · exact absurd ht (by simp)
    | .agg u ms =>
      simp only [Verif.Layout.Spec.part] at ht
      simp only [clear, Bool.and_eq_true] at h
      split at ht
      · next hn => exact ih (clear_nth h.2 hn) t ht
      · exact absurd ht (by simp)
    | .void | .char | .short | .int | .long | .enum | .ptr => simp [Verif.Layout.Spec.part] at ht

/-- What the two lookups return, for an unambiguous name. -/
theorem member_lookup {w : Nat} (hw : w = 4 ∨ w = 8) {T : Ty} (hl : Legal w T) (hu : Unambiguous T)
    {a p t} (hN : Names a T p t) :
    struct_member_offset w T a = .ok (partOff w T p) ∧ struct_member T a = .ok t := by
  obtain ⟨u, ms, rfl⟩ := names_agg hN
  rcases found_agg hw a _ hl u ms rfl with ⟨_, _, r⟩ | ⟨q, t', r1, r2, r3⟩
  · exact absurd hN (r _ _)
  · obtain ⟨rfl, rfl⟩ := hu _ _ _ _ _ hN r3
    exact ⟨by simp only [struct_member_offset, r1, Res.bind_ok, offFrom_zero],
      by simp only [struct_member, r2, Res.bind_ok]⟩

/-- **C25 (sizes)**: for every type that can be laid out, the size pnut computes is the size the C
ABI prescribes, and the alignment it uses is the ABI alignment. -/
theorem C25_sizeof {w : Nat} (hw : w = 4 ∨ w = 8) {T : Ty} (hl : Legal w T) :
    type_width w T = .ok (sizeof w T) ∧ type_largest_member w T = .ok (alignof w T) :=
  widths hw T hl

/-- **C25 (arrays stay aligned)**: the size is a positive multiple of the alignment -- or zero -- so
that every element of an array of them is aligned if the array is. -/
theorem C25_size_multiple {w : Nat} (hw : w = 4 ∨ w = 8) {T : Ty} (hl : Legal w T) :
    ∃ s, type_width w T = .ok s ∧ alignof w T ∣ s ∧ ∀ i, alignof w T ∣ i * s :=
  ⟨_, (widths hw T hl).1, align_dvd_size hw T hl,
    fun i => Nat.dvd_mul_left_of_dvd (align_dvd_size hw T hl) i⟩

/-- **C25 (member lookup)**: a member name, whether a direct member or inside anonymous members, is
found iff it names a part, and its offset and type are those of that part; otherwise the program is
rejected. -/
theorem C25_lookup {w : Nat} (hw : w = 4 ∨ w = 8) {u : Bool} {ms : Ms} (hl : Legal w (.agg u ms)) (a : Nat) :
    ((∀ p t, ¬ Names a (.agg u ms) p t) ∧
      struct_member_offset w (.agg u ms) a = .fatal ∧ struct_member (.agg u ms) a = .fatal) ∨
    (∃ p t, Names a (.agg u ms) p t ∧
      struct_member_offset w (.agg u ms) a = .ok (partOff w (.agg u ms) p) ∧
      struct_member (.agg u ms) a = .ok t) := by
  rcases found_agg hw a _ hl u ms rfl with ⟨r1, r2, r⟩ | ⟨q, t', r1, r2, r3⟩
  · refine .inl ⟨r, ?_, ?_⟩
    · simp only [struct_member_offset, r1, Res.bind_ok]
    · simp only [struct_member, r2, Res.bind_ok]
  · exact .inr ⟨q, t', r3, by simp only [struct_member_offset, r1, Res.bind_ok, offFrom_zero],
      by simp only [struct_member, r2, Res.bind_ok]⟩

theorem address {w : Nat} (hw : w = 4 ∨ w = 8) {T : Ty} {ss : List Step} {p : List Nat} {t : Ty}
    (hD : Designates T ss p t) : Legal w T → Clear T → Direct T ss →
    part T p = some t ∧
    ∀ b, (b = true → ∀ m e, T ≠ .arr m e) → lval_off w T b ss = .ok (partOff w T p, t) := by
  induction hD with
  | nil => intro _ _ _; exact ⟨part_nil _, fun b _ => by simp [lval_off, partOff]⟩
  | @mem T a p t ss q t' hN hD ih =>
    intro hl hc hd
    simp only [Direct] at hd
    obtain ⟨i1, i2⟩ := ih (names_legal hN hl) (hc.names hN) (hd.2 _ _ hN)
    refine ⟨(names_part hN q).trans i1, fun b _ => ?_⟩
    obtain ⟨l1, l2⟩ := member_lookup hw hl (hc [] T (part_nil _)) hN
    obtain ⟨u, ms, rfl⟩ := names_agg hN
    have step : lval_step w (.agg u ms) (.mem a) = .ok (partOff w (.agg u ms) p, t) := by
      cases u with
      | false => simp only [lval_step, l1, l2, Res.bind_ok]
      | true =>
        have hlen := hd.1 ms rfl p t hN
        obtain ⟨i, rfl⟩ := List.length_eq_one_iff.1 hlen
        simp only [lval_step, l2, Res.bind_ok]
        congr 2
        simp only [partOff]
        split <;> simp [partOff]
    simp only [lval_off, step, Res.bind_ok, i2 false (fun h => by cases h), names_off hN]
  | @idx n T i ss q t' hi hD ih =>
    intro hl hc hd
    simp only [Direct] at hd
    have hdd := hd n T rfl
    have hl' : Legal w T := by simpa only [Legal] using hl
    obtain ⟨i1, i2⟩ := ih hl' (hc.part (p := [i]) (by simp only [part, if_pos hi])) hdd.2
    refine ⟨by simp only [part, if_pos hi, i1], fun b hb => ?_⟩
    cases b with
    | true => exact absurd rfl (hb rfl n T)
    | false =>
      have e : type_width3 w T false false = .ok (sizeof w T) := by
        rw [← (widths hw T hl').1]
        unfold type_width3
        cases T with
        | arr m e => exact absurd rfl (hdd.1 m e)
        | _ => simp only [(widths hw _ hl').1, Res.bind_ok]; simp
      simp only [lval_off, lval_step, e, Res.bind_ok, i2 true (fun _ => hdd.1), partOff]
      simp

/-- **C25 (address of a part, partial)**: an access expression `x.a[i].b...` is compiled to the
displacement of the part it designates. Missing: members of anonymous members of a *union* accessed
by `.`, and arrays of arrays; both are compiled wrongly, see `C25_union_anon_false` and
`C25_matrix_false`. -/
theorem C25_address_partial {w : Nat} (hw : w = 4 ∨ w = 8) {T : Ty} (hl : Legal w T) (hc : Clear T)
    {ss p t} (hD : Designates T ss p t) (hd : Direct T ss) :
    lval_off w T false ss = .ok (partOff w T p, t) :=
  (address hw hD hl hc hd).2 false (fun h => by cases h)

/-- **C25 (inside)**: the part that a supported access addresses lies inside the object. -/
theorem C25_inside_partial {w : Nat} (hw : w = 4 ∨ w = 8) {T : Ty} (hl : Legal w T) (hc : Clear T)
    {ss p t} (hD : Designates T ss p t) (hd : Direct T ss) :
    ∃ o s S, lval_off w T false ss = .ok (o, t) ∧ type_width w t = .ok s ∧ type_width w T = .ok S ∧
      o + s ≤ S := by
  have ha := address hw hD hl hc hd
  exact ⟨_, _, _, ha.2 false (fun h => by cases h), (widths hw t (part_legal p hl ha.1)).1,
    (widths hw T hl).1, part_inside p T t ha.1⟩

/-- **C25 (members never overlap)**: two supported accesses that part ways at a struct or at an
array address disjoint bytes. -/
theorem C25_disjoint_partial {w : Nat} (hw : w = 4 ∨ w = 8) {T : Ty} (hl : Legal w T) (hc : Clear T)
    {ss p t} (hD : Designates T ss p t) (hd : Direct T ss)
    {ss' p' t'} (hD' : Designates T ss' p' t') (hd' : Direct T ss') (hA : Apart T p p') :
    ∃ o s o' s', lval_off w T false ss = .ok (o, t) ∧ type_width w t = .ok s ∧
      lval_off w T false ss' = .ok (o', t') ∧ type_width w t' = .ok s' ∧
      (o + s ≤ o' ∨ o' + s' ≤ o) := by
  have ha := address hw hD hl hc hd
  have ha' := address hw hD' hl hc hd'
  exact ⟨_, _, _, _, ha.2 false (fun h => by cases h), (widths hw t (part_legal p hl ha.1)).1,
    ha'.2 false (fun h => by cases h), (widths hw t' (part_legal p' hl ha'.1)).1,
    parts_apart hA ha.1 ha'.1⟩

/-- **C25 (unions)**: every member of a union is accessed at offset 0 and fits in it. -/
theorem C25_union {w : Nat} (hw : w = 4 ∨ w = 8) {ms : Ms} (hl : Legal w (.agg true ms))
    (hu : Unambiguous (.agg true ms)) {i a t} (hN : nth ms i = some (some a, t)) :
    lval_off w (.agg true ms) false [.mem a] = .ok (0, t) ∧
    struct_member_offset w (.agg true ms) a = .ok 0 ∧
    ∃ s S, type_width w t = .ok s ∧ type_width w (.agg true ms) = .ok S ∧ s ≤ S := by
  have hn : Names a (.agg true ms) [i] t := .here hN
  obtain ⟨l1, l2⟩ := member_lookup hw hl hu hn
  have hp : part (.agg true ms) [i] = some t := by simp only [part, hN]
  refine ⟨by simp only [lval_off, lval_step, l2, Res.bind_ok], ?_, _, _,
    (widths hw t (names_legal hn hl)).1, (widths hw _ hl).1, ?_⟩
  · rw [l1]; simp [partOff, hN]
  · have := part_inside (w := w) [i] _ t hp; omega

/-- **C25 (alignment, partial)**: in a type whose structs need no padding between members (for
instance when all members have the same alignment, or are ordered by decreasing alignment), every
supported access is at the ABI offset, a multiple of the alignment of the part. Missing: structs
with padding, see `C25_aligned_false`. -/
theorem C25_aligned_partial {w : Nat} (hw : w = 4 ∨ w = 8) {T : Ty} (hl : Legal w T) (hc : Clear T)
    (hdense : Dense w T) {ss p t} (hD : Designates T ss p t) (hd : Direct T ss) :
    lval_off w T false ss = .ok (abiOff w T p, t) ∧ alignof w t ∣ abiOff w T p := by
  have ha := address hw hD hl hc hd
  refine ⟨?_, abi_aligned hw p hl ha.1⟩
  rw [← (dense_off p hdense ha.1).1]
  exact ha.2 false (fun h => by cases h)

/-! ### Where the property fails -/

/-- `struct { char c; int x; }` -/
def charInt : Ty := .agg false (.cons (some 0) .char (.cons (some 1) .int .nil))

/-- **C25 is false as stated for alignment**: in `struct { char c; int x; }` the member `x` is
accessed at offset 1, which is not a multiple of its alignment 4 (and not the ABI offset 4). -/
theorem C25_aligned_false : lval_off 8 charInt false [.mem 1] = .ok (1, .int) ∧
    ¬ alignof 8 .int ∣ 1 ∧ abiOff 8 charInt [1] = 4 := by
  refine ⟨by decide +kernel, by decide +kernel, by decide +kernel⟩

/-- `union { struct { int a; int b; }; }` -/
def unionAnon : Ty := .agg true (.cons none (.agg false (.cons (some 0) .int (.cons (some 1) .int .nil))) .nil)

/-- **C25 is false for anonymous structs inside unions**: `u.a` and `u.b` are compiled to the same
address although they are different members of a struct. -/
theorem C25_union_anon_false : Designates unionAnon [.mem 0] [0, 0] .int ∧
    Designates unionAnon [.mem 1] [0, 1] .int ∧ Apart unionAnon [0, 0] [0, 1] ∧
    lval_off 8 unionAnon false [.mem 0] = .ok (0, .int) ∧
    lval_off 8 unionAnon false [.mem 1] = .ok (0, .int) := by
  refine ⟨?_, ?_, ?_, by decide +kernel, by decide +kernel⟩
  · exact .mem (p := [0, 0]) (.anon (i := 0) rfl (.here (i := 0) rfl)) .nil
  · exact .mem (p := [0, 1]) (.anon (i := 0) rfl (.here (i := 1) rfl)) .nil
  · exact .inFld (nm := none) (t := .agg false (.cons (some 0) .int (.cons (some 1) .int .nil))) rfl (.fld (by decide))

/-- **C25 is false for arrays of arrays**: in `int m[3][5]`, row 1 starts at byte 20, but `m[1]` is
compiled to displacement `WORD_SIZE`; and `m[1][0]` is not compiled to an address in `m` at all. -/
theorem C25_matrix_false : partOff 8 (.arr 3 (.arr 5 .int)) [1] = 20 ∧
    lval_off 8 (.arr 3 (.arr 5 .int)) false [.idx 1] = .ok (8, .arr 5 .int) ∧
    lval_off 8 (.arr 3 (.arr 5 .int)) false [.idx 1, .idx 0] = .ub := by
  refine ⟨by decide +kernel, by decide +kernel, by decide +kernel⟩

/-- An aggregate without members makes the compiler divide by zero. -/
theorem C25_empty_struct_false : type_width 8 (.agg false .nil) = .ub := by decide +kernel

/-! ### Non-vacuity: `struct { struct { char *p; int k; union { int x; char y[3]; }; } e[4]; short s; }` -/

def demo : Ty := .agg false (.cons (some 0) (.arr 4 (.agg false (.cons (some 1) .ptr (.cons (some 2) .int
  (.cons none (.agg true (.cons (some 3) .int (.cons (some 4) (.arr 3 .char) .nil))) .nil)))))
  (.cons (some 5) .short .nil))

example : type_width 8 demo = .ok 72 ∧ type_largest_member 8 demo = .ok 8 := by decide +kernel
example : Legal 8 demo := by
  simp only [demo, Legal, LegalMs]
  simp
example : Clear demo := .of_clear (by decide +kernel)
example : lval_off 8 demo false [.mem 0, .idx 2, .mem 4, .idx 1] = .ok (45, .char) := by decide +kernel
example : Designates demo [.mem 0, .idx 2, .mem 4, .idx 1] [0, 2, 2, 1, 1] .char :=
  .mem (p := [0]) (.here (i := 0) rfl) (.idx (by decide)
    (.mem (p := [2, 1]) (.anon (i := 2) rfl (.here (i := 1) rfl)) (.idx (by decide) .nil)))
example : Dense 8 demo := by
  simp only [demo, Dense, DenseMs, alignof, alignofMs, sizeof, extent, widest, padTo]
  simp
example : partOff 8 demo [0, 2, 2, 1, 1] = 45 ∧ partOff 8 demo [1] = 64 := by decide +kernel
example : Apart demo [0, 2, 2, 1, 1] [1] := .fld (by decide)
example : lval_off 4 charInt false [.mem 0] = .ok (0, .char) := by decide +kernel

end Verif.Layout
