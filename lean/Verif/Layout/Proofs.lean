import Verif.Layout.Spec
namespace Verif.Layout
open Verif Verif.Layout.Spec

theorem align_to_ok {a : Nat} (ha : 0 < a) (n : Nat) : align_to a n = .ok (padTo a n) := by
  unfold align_to padTo
  rw [if_neg (by omega)]
  congr 1
  have h := Nat.div_add_mod n a
  have hr := Nat.mod_lt n ha
  generalize n / a = q at h
  generalize n % a = r at h hr ⊢
  rcases Nat.eq_zero_or_pos r with h0 | h0
  · subst h0
    have : (n + a - 1) / a = q := by
      rw [← h]
      have : a * q + 0 + a - 1 = (a - 1) + a * q := by omega
      rw [this, Nat.add_mul_div_left _ _ ha, Nat.div_eq_of_lt (by omega)]; omega
    rw [this, Nat.sub_zero, Nat.mod_self, Nat.mul_comm]; omega
  · have : (n + a - 1) / a = q + 1 := by
      rw [← h]
      have : a * q + r + a - 1 = (r - 1) + a * (q + 1) := by rw [Nat.mul_add]; omega
      rw [this, Nat.add_mul_div_left _ _ ha, Nat.div_eq_of_lt (by omega)]; omega
    rw [this, Nat.mod_eq_of_lt (by omega : a - r < a), Nat.mul_comm, Nat.mul_add]; omega

theorem padTo_ge (a n : Nat) : n ≤ padTo a n := by unfold padTo; omega

theorem padTo_dvd {a : Nat} (ha : 0 < a) (n : Nat) : a ∣ padTo a n := by
  have h := align_to_ok ha n
  unfold align_to at h
  rw [if_neg (by omega)] at h
  injection h with h
  rw [← h]; exact Nat.dvd_mul_left _ _

theorem padTo_of_dvd {a n : Nat} (h : a ∣ n) : padTo a n = n := by
  unfold padTo
  rw [Nat.mod_eq_zero_of_dvd h, Nat.sub_zero, Nat.mod_self]; omega

/-- The alignments that occur. -/
def Pow (n : Nat) : Prop := n = 1 ∨ n = 2 ∨ n = 4 ∨ n = 8

theorem Pow.pos {n} (h : Pow n) : 0 < n := by unfold Pow at h; omega
theorem Pow.dvd {a b} (ha : Pow a) (hb : Pow b) (h : a ≤ b) : a ∣ b := by
  rcases ha with rfl | rfl | rfl | rfl <;> rcases hb with rfl | rfl | rfl | rfl <;>
    first | omega | decide
theorem Pow.max {a b} (ha : Pow a) (hb : Pow b) : Pow (Nat.max a b) := by
  rcases Nat.le_total a b with h | h
  · rw [show Nat.max a b = b from Nat.max_eq_right h]; exact hb
  · rw [show Nat.max a b = a from Nat.max_eq_left h]; exact ha

variable {w : Nat}

mutual
theorem alignof_pow (hw : w = 4 ∨ w = 8) : ∀ T, Legal w T → Pow (alignof w T)
  | .void, _ => .inl rfl
  | .char, _ => .inl rfl
  | .short, _ => .inr (.inl rfl)
  | .int, _ => .inr (.inr (.inl rfl))
  | .long, _ => .inr (.inr (.inr rfl))
  | .enum, _ => by simp only [alignof]; unfold Pow; omega
  | .ptr, _ => by simp only [alignof]; unfold Pow; omega
  | .arr _ t, h => by simp only [alignof]; exact alignof_pow hw t (by simpa only [Legal] using h)
  | .agg _ ms, h => by
    simp only [alignof]; simp only [Legal] at h
    rcases alignofMs_pow hw ms h.2 with h' | h'
    · exact absurd h' h.1
    · exact h'
theorem alignofMs_pow (hw : w = 4 ∨ w = 8) : ∀ ms, LegalMs w ms → ms = .nil ∨ Pow (alignofMs w ms)
  | .nil, _ => .inl rfl
  | .cons n t rest, h => by
    simp only [LegalMs] at h
    refine .inr ?_
    simp only [alignofMs]
    have h1 := alignof_pow hw t h.2.1
    rcases alignofMs_pow hw rest h.2.2 with h' | h'
    · subst h'; simp only [alignofMs]; rw [show Nat.max (alignof w t) 0 = alignof w t from Nat.max_eq_left (Nat.zero_le _)]; exact h1
    · exact h1.max h'
end

theorem ifmax (a b : Nat) : (if a < b then b else a) = Nat.max a b := by
  split
  · exact (Nat.max_eq_right (by omega)).symm
  · exact (Nat.max_eq_left (by omega)).symm

mutual
theorem widths (hw : w = 4 ∨ w = 8) : ∀ T, Legal w T →
    type_width w T = .ok (sizeof w T) ∧ type_largest_member w T = .ok (alignof w T)
  | .void, _ => ⟨rfl, rfl⟩
  | .char, _ => ⟨rfl, rfl⟩
  | .short, _ => ⟨rfl, rfl⟩
  | .int, _ => ⟨rfl, rfl⟩
  | .long, h => by simp only [Legal] at h; subst h; exact ⟨rfl, rfl⟩
  | .enum, _ => ⟨rfl, rfl⟩
  | .ptr, _ => ⟨rfl, rfl⟩
  | .arr n t, h => by
    have h' := widths hw t (by simpa only [Legal] using h)
    simp only [type_width, type_largest_member, h'.1, h'.2, Res.bind_ok, sizeof, alignof, and_self]
  | .agg u ms, h => by
    have hp := alignof_pow hw _ h
    simp only [Legal] at h
    simp only [alignof] at hp
    have h' := size_go_eq hw ms h.2 ⟨0, 0, 0⟩
    have z : ∀ n, Nat.max 0 n = n := fun n => Nat.max_eq_right (Nat.zero_le _)
    simp only [type_width, type_largest_member, h', Res.bind_ok, z, align_to_ok hp.pos, alignof]
    cases u <;> simp [sizeof]
theorem size_go_eq (hw : w = 4 ∨ w = 8) : ∀ ms, LegalMs w ms → ∀ a, size_go w ms a =
    .ok ⟨extent w ms a.sum, Nat.max a.max (widest w ms), Nat.max a.largest (alignofMs w ms)⟩
  | .nil, _, a => by
    simp only [size_go, extent, widest, alignofMs]
    have z : ∀ n, Nat.max n 0 = n := fun n => Nat.max_eq_left (Nat.zero_le _)
    simp only [z]
  | .cons n t rest, h, a => by
    simp only [LegalMs] at h
    obtain ⟨h1, h2⟩ := widths hw t h.2.1
    have hp := (alignof_pow hw t h.2.1).pos
    simp only [size_go, h1, h2, Res.bind_ok, extent, widest, alignofMs, align_to_ok hp]
    have e : (if sizeof w t ≠ 0 then Res.ok (padTo (alignof w t) a.sum) else Res.ok a.sum) =
        Res.ok (if sizeof w t ≠ 0 then padTo (alignof w t) a.sum else a.sum) := by split <;> rfl
    simp only [e, Res.bind_ok]
    rw [size_go_eq hw rest h.2.2]
    simp only [gt_iff_lt, ifmax]
    have as : ∀ x y z : Nat, Nat.max (Nat.max x y) z = Nat.max x (Nat.max y z) := fun x y z => Nat.max_assoc x y z
    simp only [as]
    congr 3
    by_cases h0 : sizeof w t = 0 <;> simp [h0]
end

theorem nth_legal : ∀ {ms : Ms} {i : Nat} {nm t}, LegalMs w ms → nth ms i = some (nm, t) →
    Legal w t ∧ (nm = none → ∃ u ms, t = .agg u ms) := by
  intro ms
  induction ms using Ms.rec (motive_1 := fun _ => True) with
  | nil => intro i nm t _ h; cases i <;> simp [nth] at h
  | cons name t rest _ ih =>
    intro i nm t' hl h
    simp only [LegalMs] at hl
    cases i with
    | zero => simp only [nth, Option.some.injEq, Prod.mk.injEq] at h; obtain ⟨rfl, rfl⟩ := h; exact ⟨hl.2.1, hl.1⟩
    | succ i => exact ih hl.2.2 (by simpa only [nth] using h)
  | _ => trivial

/-! Placement. -/

theorem prevEnd_ge : ∀ (ms : Ms) (o i : Nat), o ≤ prevEnd w ms o i := by
  intro ms
  induction ms using Ms.rec (motive_1 := fun _ => True) with
  | nil => intro o i; cases i <;> simp [prevEnd]
  | cons name t rest _ ih =>
    intro o i
    cases i with
    | zero => simp [prevEnd]
    | succ i =>
      simp only [prevEnd]
      refine Nat.le_trans ?_ (ih _ i)
      have := padTo_ge (alignof w t) o
      split <;> omega
  | _ => trivial

theorem extent_ge : ∀ (ms : Ms) (o : Nat), o ≤ extent w ms o := by
  intro ms
  induction ms using Ms.rec (motive_1 := fun _ => True) with
  | nil => intro o; simp [extent]
  | cons name t rest _ ih =>
    intro o
    simp only [extent]
    refine Nat.le_trans ?_ (ih _)
    have := padTo_ge (alignof w t) o
    split <;> omega
  | _ => trivial

theorem prevEnd_extent : ∀ (ms : Ms) (o i : Nat) {nm t}, nth ms i = some (nm, t) →
    prevEnd w ms o i + sizeof w t ≤ extent w ms o := by
  intro ms
  induction ms using Ms.rec (motive_1 := fun _ => True) with
  | nil => intro o i nm t h; cases i <;> simp [nth] at h
  | cons name t rest _ ih =>
    intro o i nm t' h
    cases i with
    | zero =>
      simp only [nth, Option.some.injEq, Prod.mk.injEq] at h; obtain ⟨rfl, rfl⟩ := h
      simp only [prevEnd, extent]
      refine Nat.le_trans ?_ (extent_ge _ _)
      have := padTo_ge (alignof w t) o
      split <;> omega
    | succ i => simp only [prevEnd, extent]; exact ih _ i (by simpa only [nth] using h)
  | _ => trivial

theorem prevEnd_lt : ∀ (ms : Ms) (o i j : Nat) {nm t}, nth ms i = some (nm, t) → i < j →
    prevEnd w ms o i + sizeof w t ≤ prevEnd w ms o j := by
  intro ms
  induction ms using Ms.rec (motive_1 := fun _ => True) with
  | nil => intro o i j nm t h; cases i <;> simp [nth] at h
  | cons name t rest _ ih =>
    intro o i j nm t' h hij
    obtain ⟨j, rfl⟩ : ∃ k, j = k + 1 := ⟨j - 1, by omega⟩
    cases i with
    | zero =>
      simp only [nth, Option.some.injEq, Prod.mk.injEq] at h; obtain ⟨rfl, rfl⟩ := h
      simp only [prevEnd]
      refine Nat.le_trans ?_ (prevEnd_ge _ _ _)
      have := padTo_ge (alignof w t) o
      split <;> omega
    | succ i => simp only [prevEnd]; exact ih _ i j (by simpa only [nth] using h) (by omega)
  | _ => trivial

theorem widest_ge : ∀ (ms : Ms) (i : Nat) {nm t}, nth ms i = some (nm, t) →
    sizeof w t ≤ widest w ms := by
  intro ms
  induction ms using Ms.rec (motive_1 := fun _ => True) with
  | nil => intro i nm t h; cases i <;> simp [nth] at h
  | cons name t rest _ ih =>
    intro i nm t' h
    simp only [widest]
    cases i with
    | zero =>
      simp only [nth, Option.some.injEq, Prod.mk.injEq] at h; obtain ⟨rfl, rfl⟩ := h
      exact Nat.le_max_left _ _
    | succ i => exact Nat.le_trans (ih i (by simpa only [nth] using h)) (Nat.le_max_right _ _)
  | _ => trivial

theorem part_inside : ∀ (p : List Nat) (T t : Ty), part T p = some t →
    partOff w T p + sizeof w t ≤ sizeof w T := by
  intro p
  induction p with
  | nil => intro T t h; cases T <;> simp only [part, Option.some.injEq] at h <;> subst h <;> simp [partOff]
  | cons i p ih =>
    intro T t h
    match T with
    | .arr n e =>
      simp only [part] at h
      split at h
      · next hi =>
        have := ih e t h
        simp only [partOff, sizeof]
        have h1 : (i + 1) * sizeof w e ≤ n * sizeof w e := Nat.mul_le_mul_right _ hi
        rw [Nat.add_mul] at h1
        omega
      · exact absurd h (by simp)
    | .agg u ms =>
      simp only [part] at h
      split at h
      · next nm e hn =>
        have := ih e t h
        simp only [partOff, hn]
        cases u with
        | false =>
          simp only [sizeof]
          have h1 := prevEnd_extent (w := w) ms 0 i hn
          have h2 := padTo_ge (alignofMs w ms) (extent w ms 0)
          simp; omega
        | true =>
          simp only [sizeof]
          have h1 := widest_ge (w := w) ms i hn
          have h2 := padTo_ge (alignofMs w ms) (widest w ms)
          simp; omega
      · exact absurd h (by simp)
    | .void | .char | .short | .int | .long | .enum | .ptr => simp [part] at h

theorem parts_apart {T : Ty} {p q : List Nat} (hA : Apart T p q) : ∀ {t t' : Ty},
    part T p = some t → part T q = some t' →
    partOff w T p + sizeof w t ≤ partOff w T q ∨ partOff w T q + sizeof w t' ≤ partOff w T p := by
  induction hA with
  | @fld ms i j p q hij =>
    intro t t' h h'
    simp only [part] at h h'
    split at h
    · next nm e hn =>
      split at h'
      · next nm' e' hn' =>
        simp only [partOff, hn, hn']
        have h1 := part_inside (w := w) p e t h
        have h2 := part_inside (w := w) q e' t' h'
        rcases Nat.lt_or_gt_of_ne hij with hl | hl
        · have := prevEnd_lt (w := w) ms 0 i j hn hl
          left; simp; omega
        · have := prevEnd_lt (w := w) ms 0 j i hn' hl
          right; simp; omega
      · exact absurd h' (by simp)
    · exact absurd h (by simp)
  | @elt n e i j p q hij =>
    intro t t' h h'
    simp only [part] at h h'
    split at h
    · split at h'
      · have h1 := part_inside (w := w) p e t h
        have h2 := part_inside (w := w) q e t' h'
        simp only [partOff]
        rcases Nat.lt_or_gt_of_ne hij with hl | hl
        · have : (i + 1) * sizeof w e ≤ j * sizeof w e := Nat.mul_le_mul_right _ hl
          rw [Nat.add_mul] at this
          left; omega
        · have : (j + 1) * sizeof w e ≤ i * sizeof w e := Nat.mul_le_mul_right _ hl
          rw [Nat.add_mul] at this
          right; omega
      · exact absurd h' (by simp)
    · exact absurd h (by simp)
  | @inFld u ms i nm e p q hn _ ih =>
    intro t t' h h'
    simp only [part, hn] at h h'
    simp only [partOff, hn]
    have := ih h h'
    omega
  | @inElt n e i p q _ ih =>
    intro t t' h h'
    simp only [part] at h h'
    simp only [partOff]
    split at h
    · next hi =>
      rw [if_pos hi] at h'
      have := ih h h'
      omega
    · exact absurd h (by simp)

/-! Name lookup. -/

theorem nil_not_names {a u p t} : ¬ Names a (.agg u .nil) p t := by
  intro h
  cases h with
  | here h => rename_i i; cases i <;> simp [nth] at h
  | anon h _ => rename_i i _ _; cases i <;> simp [nth] at h

theorem names_cons {a u nm t rest p t'} : Names a (.agg u (.cons nm t rest)) p t' ↔
    (nm = some a ∧ p = [0] ∧ t' = t) ∨
    (nm = none ∧ ∃ q, p = 0 :: q ∧ Names a t q t') ∨
    (∃ i q, p = (i + 1) :: q ∧ Names a (.agg u rest) (i :: q) t') := by
  constructor
  · intro h
    cases h with
    | @here _ _ i _ h =>
      cases i with
      | zero =>
        simp only [nth, Option.some.injEq, Prod.mk.injEq] at h
        exact .inl ⟨h.1, rfl, h.2.symm⟩
      | succ i => exact .inr (.inr ⟨i, [], rfl, .here (by simpa only [nth] using h)⟩)
    | @anon _ _ i T q _ h hN =>
      cases i with
      | zero =>
        simp only [nth, Option.some.injEq, Prod.mk.injEq] at h
        obtain ⟨rfl, rfl⟩ := h
        exact .inr (.inl ⟨rfl, q, rfl, hN⟩)
      | succ i => exact .inr (.inr ⟨i, q, rfl, .anon (by simpa only [nth] using h) hN⟩)
  · rintro (⟨rfl, rfl, rfl⟩ | ⟨rfl, q, rfl, hN⟩ | ⟨i, q, rfl, hN⟩)
    · exact .here rfl
    · exact .anon rfl hN
    · cases hN with
      | here h => exact .here (by simpa only [nth] using h)
      | anon h hN => exact .anon (by simpa only [nth] using h) hN

/-- Placement of a part relative to a struct laid out from offset `o`. -/
def offFrom (w : Nat) (u : Bool) (ms : Ms) (o : Nat) : List Nat → Nat
  | [] => 0
  | i :: p => match nth ms i with
    | some (_, t) => (if u then o else prevEnd w ms o i) + partOff w t p
    | none => 0

theorem offFrom_zero (u : Bool) (ms : Ms) (p : List Nat) :
    offFrom w u ms 0 p = partOff w (.agg u ms) p := by
  cases p with
  | nil => simp [offFrom, partOff]
  | cons i p => simp only [offFrom, partOff]; rfl

theorem offFrom_succ (u : Bool) (nm : Option Nat) (t : Ty) (rest : Ms) (o i : Nat) (p : List Nat) :
    offFrom w u (.cons nm t rest) o ((i + 1) :: p) =
    offFrom w u rest (if u then o else if sizeof w t = 0 then o else padTo (alignof w t) o + sizeof w t) (i :: p) := by
  simp only [offFrom, nth, prevEnd]
  cases u <;> simp

/-- What the two lookups find in a member list. -/
def Found (w : Nat) (u : Bool) (ms : Ms) (o a : Nat) : Prop :=
  (offset_go w u ms o a = .ok none ∧ member_go ms a = .ok none ∧ ∀ p t, ¬ Names a (.agg u ms) p t) ∨
  ∃ p t, offset_go w u ms o a = .ok (some (offFrom w u ms o p)) ∧ member_go ms a = .ok (some t) ∧
    Names a (.agg u ms) p t

theorem names_kind {a u u' ms p t} (h : Names a (.agg u ms) p t) : Names a (.agg u' ms) p t := by
  cases h with
  | here h => exact .here h
  | anon h hN => exact .anon h hN

mutual
theorem found_agg (hw : w = 4 ∨ w = 8) (a : Nat) : ∀ t, Legal w t → ∀ u ms, t = .agg u ms → Found w u ms 0 a
  | .agg u ms, h, u', ms', e => by
    injection e with e1 e2
    subst e1; subst e2
    simp only [Legal] at h
    exact found_ms hw a ms h.2 u 0
  | .void, _, _, _, e => by cases e
  | .char, _, _, _, e => by cases e
  | .short, _, _, _, e => by cases e
  | .int, _, _, _, e => by cases e
  | .long, _, _, _, e => by cases e
  | .enum, _, _, _, e => by cases e
  | .ptr, _, _, _, e => by cases e
  | .arr _ _, _, _, _, e => by cases e
theorem found_ms (hw : w = 4 ∨ w = 8) (a : Nat) : ∀ ms, LegalMs w ms → ∀ u o, Found w u ms o a
  | .nil, _, u, o => .inl ⟨by simp only [offset_go], by simp only [member_go], fun p t => nil_not_names⟩
  | .cons nm t rest, h, u, o => by
    simp only [LegalMs] at h
    obtain ⟨h1, h2⟩ := widths hw t h.2.1
    have hp := (alignof_pow hw t h.2.1).pos
    -- the offset at which the rest starts
    have hrest := found_ms hw a rest h.2.2 u
      (if u then o else if sizeof w t = 0 then o else padTo (alignof w t) o + sizeof w t)
    have e2 : (if sizeof w t ≠ 0 then (type_largest_member w t).bind fun lg => align_to lg o else Res.ok o) =
        .ok (if sizeof w t = 0 then o else padTo (alignof w t) o) := by
      rw [h2]
      simp only [Res.bind_ok, align_to_ok hp]
      by_cases h0 : sizeof w t = 0 <;> simp [h0]
    have e3 : (if u then offset_go w u rest o a else (type_width w t).bind fun sz =>
        (if sz ≠ 0 then (type_largest_member w t).bind fun lg => align_to lg o else Res.ok o).bind fun off =>
        offset_go w u rest (off + sz) a) =
        offset_go w u rest (if u then o else if sizeof w t = 0 then o else padTo (alignof w t) o + sizeof w t) a := by
      cases u with
      | true => simp
      | false =>
        rw [h1]
        simp only [Res.bind_ok, e2]
        by_cases h0 : sizeof w t = 0 <;> simp [h0]
    have fin : ∀ (_ : ∀ p t', Names a (.agg u (.cons nm t rest)) p t' →
          ∃ i q, p = (i + 1) :: q ∧ Names a (.agg u rest) (i :: q) t')
        (_ : offset_go w u (.cons nm t rest) o a =
          offset_go w u rest (if u then o else if sizeof w t = 0 then o else padTo (alignof w t) o + sizeof w t) a)
        (_ : member_go (.cons nm t rest) a = member_go rest a), Found w u (.cons nm t rest) o a := by
      intro k1 k2 k3
      rcases hrest with ⟨r1, r2, r3⟩ | ⟨p, t', r1, r2, r3⟩
      · refine .inl ⟨k2.trans r1, k3.trans r2, fun p t' hN => ?_⟩
        obtain ⟨i, q, _, hN'⟩ := k1 p t' hN
        exact r3 _ _ hN'
      · cases p with
        | nil => cases r3
        | cons i q =>
          refine .inr ⟨(i + 1) :: q, t', ?_, k3.trans r2, ?_⟩
          · rw [k2, r1, offFrom_succ]
          · exact names_cons.2 (.inr (.inr ⟨i, q, rfl, r3⟩))
    cases nm with
    | some n =>
      by_cases ha : a = n
      · subst ha
        refine .inr ⟨[0], t, ?_, ?_, .here rfl⟩
        · rw [offset_go.eq_def]
          simp [offFrom, nth, prevEnd, partOff]
        · rw [member_go.eq_def]
          simp
      · refine fin ?_ ?_ ?_
        · intro p t' hN
          rcases names_cons.1 hN with ⟨e, _⟩ | ⟨e, _⟩ | hR
          · exact absurd (Option.some.inj e).symm ha
          · cases e
          · exact hR
        · rw [offset_go.eq_def]
          simp only [if_neg ha, Res.bind_ok, e3]
        · rw [member_go.eq_def]
          simp only [if_neg ha, Res.bind_ok]
    | none =>
      obtain ⟨u', ms', rfl⟩ := h.1 rfl
      rcases found_agg hw a (.agg u' ms') h.2.1 u' ms' rfl with ⟨r1, r2, r3⟩ | ⟨p, t', r1, r2, r3⟩
      · refine fin ?_ ?_ ?_
        · intro p t' hN
          rcases names_cons.1 hN with ⟨e, _⟩ | ⟨_, q, _, hN'⟩ | hR
          · cases e
          · exact absurd hN' (r3 _ _)
          · exact hR
        · rw [offset_go.eq_def]
          simp only [r1, Res.bind_ok, e3]
        · rw [member_go.eq_def]
          simp only [r2, Res.bind_ok]
      · refine .inr ⟨0 :: p, t', ?_, ?_, .anon rfl r3⟩
        · rw [offset_go.eq_def]
          simp only [r1, Res.bind_ok, offFrom_zero]
          simp only [offFrom, nth, prevEnd]
          cases u <;> simp
        · rw [member_go.eq_def]
          simp only [r2, Res.bind_ok]
end

theorem names_agg {a T p t} (h : Names a T p t) : ∃ u ms, T = .agg u ms := by cases h <;> exact ⟨_, _, rfl⟩

theorem names_part {a T p t} (h : Names a T p t) : ∀ q, part T (p ++ q) = part t q := by
  induction h with
  | here h => intro q; simp only [List.singleton_append, part, h]
  | anon h _ ih => intro q; simp only [List.cons_append, part, h, ih]

theorem names_off {a T p t} (h : Names a T p t) : ∀ q, partOff w T (p ++ q) = partOff w T p + partOff w t q := by
  induction h with
  | here h => intro q; simp only [List.singleton_append, partOff, h]; omega
  | anon h _ ih => intro q; simp only [List.cons_append, partOff, h, ih]; omega

theorem names_legal {a T p t} (h : Names a T p t) (hl : Legal w T) : Legal w t := by
  induction h with
  | here h => simp only [Legal] at hl; exact (nth_legal hl.2 h).1
  | anon h _ ih => simp only [Legal] at hl; exact ih (nth_legal hl.2 h).1

theorem names_len {a T p t} (h : Names a T p t) : p ≠ [] := by cases h <;> simp

theorem part_legal : ∀ (p : List Nat) {T t : Ty}, Legal w T → part T p = some t → Legal w t := by
  intro p
  induction p with
  | nil => intro T t hl h; cases T <;> simp only [part, Option.some.injEq] at h <;> subst h <;> exact hl
  | cons i p ih =>
    intro T t hl h
    match T with
    | .arr n e =>
      simp only [part] at h
      split at h
      · exact ih (by simpa only [Legal] using hl) h
      · exact absurd h (by simp)
    | .agg u ms =>
      simp only [part] at h
      split at h
      · next hn => simp only [Legal] at hl; exact ih (nth_legal hl.2 hn).1 h
      · exact absurd h (by simp)
    | .void | .char | .short | .int | .long | .enum | .ptr => simp [part] at h

/-! Alignment. -/

mutual
theorem align_dvd_size (hw : w = 4 ∨ w = 8) : ∀ T, Legal w T → alignof w T ∣ sizeof w T
  | .void, _ => ⟨1, rfl⟩
  | .char, _ => ⟨1, rfl⟩
  | .short, _ => ⟨1, rfl⟩
  | .int, _ => ⟨1, rfl⟩
  | .long, _ => ⟨1, rfl⟩
  | .enum, _ => by simp only [alignof, sizeof]; exact Nat.dvd_refl _
  | .ptr, _ => by simp only [alignof, sizeof]; exact Nat.dvd_refl _
  | .arr n t, h => by
    simp only [alignof, sizeof]
    exact Nat.dvd_mul_left_of_dvd (align_dvd_size hw t (by simpa only [Legal] using h)) n
  | .agg u ms, h => by
    have hp := (alignof_pow hw _ h).pos
    simp only [alignof] at hp ⊢
    cases u <;> simp only [sizeof] <;> exact padTo_dvd hp _
end

theorem alignofMs_ge : ∀ (ms : Ms) (i : Nat) {nm t}, nth ms i = some (nm, t) →
    alignof w t ≤ alignofMs w ms := by
  intro ms
  induction ms using Ms.rec (motive_1 := fun _ => True) with
  | nil => intro i nm t h; cases i <;> simp [nth] at h
  | cons name t rest _ ih =>
    intro i nm t' h
    simp only [alignofMs]
    cases i with
    | zero =>
      simp only [nth, Option.some.injEq, Prod.mk.injEq] at h; obtain ⟨rfl, rfl⟩ := h
      exact Nat.le_max_left _ _
    | succ i => exact Nat.le_trans (ih i (by simpa only [nth] using h)) (Nat.le_max_right _ _)
  | _ => trivial

theorem part_align (hw : w = 4 ∨ w = 8) : ∀ (p : List Nat) {T t : Ty}, Legal w T → part T p = some t →
    alignof w t ∣ alignof w T := by
  intro p
  induction p with
  | nil => intro T t _ h; cases T <;> simp only [part, Option.some.injEq] at h <;> subst h <;> exact Nat.dvd_refl _
  | cons i p ih =>
    intro T t hl h
    match T with
    | .arr n e =>
      simp only [part] at h
      split at h
      · simp only [alignof]; exact ih (by simpa only [Legal] using hl) h
      · exact absurd h (by simp)
    | .agg u ms =>
      simp only [part] at h
      split at h
      · next hn =>
        have hp := alignof_pow hw _ hl
        simp only [Legal] at hl
        have he := (nth_legal hl.2 hn).1
        simp only [alignof] at hp ⊢
        exact Nat.dvd_trans (ih he h) ((alignof_pow hw _ he).dvd hp (alignofMs_ge ms i hn))
      · exact absurd h (by simp)
    | .void | .char | .short | .int | .long | .enum | .ptr => simp [part] at h

/-- The ABI placement aligns every part. -/
theorem abi_aligned (hw : w = 4 ∨ w = 8) : ∀ (p : List Nat) {T t : Ty}, Legal w T → part T p = some t →
    alignof w t ∣ abiOff w T p := by
  intro p
  induction p with
  | nil => intro T t _ h; cases T <;> simp [abiOff]
  | cons i p ih =>
    intro T t hl h
    match T with
    | .arr n e =>
      simp only [part] at h
      split at h
      · have hl' : Legal w e := by simpa only [Legal] using hl
        simp only [abiOff]
        exact Nat.dvd_add (Nat.dvd_mul_left_of_dvd (Nat.dvd_trans (part_align hw p hl' h) (align_dvd_size hw _ hl')) i) (ih hl' h)
      · exact absurd h (by simp)
    | .agg u ms =>
      simp only [part] at h
      split at h
      · next nm e hn =>
        simp only [Legal] at hl
        have he := (nth_legal hl.2 hn).1
        simp only [abiOff, hn]
        refine Nat.dvd_add ?_ (ih he h)
        cases u
        · simp only [Bool.false_eq_true, if_false]
          exact Nat.dvd_trans (part_align hw p he h) (padTo_dvd (alignof_pow hw _ he).pos _)
        · simp
      · exact absurd h (by simp)
    | .void | .char | .short | .int | .long | .enum | .ptr => simp [part] at h

theorem denseMs_prevEnd : ∀ (ms : Ms) (o i : Nat) {nm t}, DenseMs w false ms o → nth ms i = some (nm, t) →
    Dense w t ∧ alignof w t ∣ prevEnd w ms o i := by
  intro ms
  induction ms using Ms.rec (motive_1 := fun _ => True) with
  | nil => intro o i nm t _ h; cases i <;> simp [nth] at h
  | cons name t rest _ ih =>
    intro o i nm t' hd h
    simp only [DenseMs] at hd
    cases i with
    | zero =>
      simp only [nth, Option.some.injEq, Prod.mk.injEq] at h; obtain ⟨rfl, rfl⟩ := h
      exact ⟨hd.1, by simpa only [prevEnd] using hd.2.1 trivial⟩
    | succ i =>
      simp only [prevEnd]
      have e : (if sizeof w t = 0 then o else padTo (alignof w t) o + sizeof w t) = o + sizeof w t := by
        rw [padTo_of_dvd (hd.2.1 trivial)]
        split <;> omega
      rw [e]
      exact ih _ i (by simpa using hd.2.2) (by simpa only [nth] using h)
  | _ => trivial

theorem denseMs_union : ∀ (ms : Ms) (i o : Nat) {nm t}, DenseMs w true ms o → nth ms i = some (nm, t) →
    Dense w t := by
  intro ms
  induction ms using Ms.rec (motive_1 := fun _ => True) with
  | nil => intro i o nm t _ h; cases i <;> simp [nth] at h
  | cons name t rest _ ih =>
    intro i o nm t' hd h
    simp only [DenseMs] at hd
    cases i with
    | zero =>
      simp only [nth, Option.some.injEq, Prod.mk.injEq] at h; obtain ⟨rfl, rfl⟩ := h
      exact hd.1
    | succ i => exact ih i _ hd.2.2 (by simpa only [nth] using h)
  | _ => trivial

theorem dense_off : ∀ (p : List Nat) {T t : Ty}, Dense w T → part T p = some t →
    partOff w T p = abiOff w T p ∧ Dense w t := by
  intro p
  induction p with
  | nil => intro T t hd h; cases T <;> simp only [part, Option.some.injEq] at h <;> subst h <;> exact ⟨by simp [partOff, abiOff], hd⟩
  | cons i p ih =>
    intro T t hl h
    match T with
    | .arr n e =>
      simp only [part] at h
      split at h
      · have := ih (T := e) (by simpa only [Dense] using hl) h
        simp only [partOff, abiOff, this.1]; exact ⟨trivial, this.2⟩
      · exact absurd h (by simp)
    | .agg u ms =>
      simp only [part] at h
      split at h
      · next nm e hn =>
        simp only [Dense] at hl
        simp only [partOff, abiOff, hn]
        cases u with
        | false =>
          have h1 := denseMs_prevEnd ms 0 i hl hn
          have := ih h1.1 h
          simp only [padTo_of_dvd h1.2, this.1]; exact ⟨trivial, this.2⟩
        | true =>
          have := ih (denseMs_union ms i 0 hl hn) h
          simp [this.1, this.2]
      · exact absurd h (by simp)
    | .void | .char | .short | .int | .long | .enum | .ptr => simp [part] at h

end Verif.Layout
