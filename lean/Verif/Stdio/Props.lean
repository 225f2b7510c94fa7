import Verif.Stdio.Spec
namespace Verif.Stdio
open Verif Spec

theorem digit_eq (k : Nat) (h : k < 16) : digit (k : Int) = (Nat.digitChar k).toNat := by
  have : ∀ k : Fin 16, digit (k.1 : Int) = (Nat.digitChar k.1).toNat := by decide +kernel
  exact this ⟨k, h⟩

theorem digits_small {b m : Nat} (h : m < b) : Spec.digits b m = [(Nat.digitChar m).toNat] := by
  rw [Spec.digits, Nat.toDigits_of_lt_base h]; rfl

theorem digits_big {b m : Nat} (hb : 1 < b) (h : b ≤ m) :
    Spec.digits b m = Spec.digits b (m / b) ++ [(Nat.digitChar (m % b)).toNat] := by
  rw [Spec.digits, Nat.toDigits_of_base_le hb h, List.map_append]; rfl

theorem digits_length {b m k : Nat} (hb : 1 < b) (hk : 0 < k) : (Spec.digits b m).length ≤ k ↔ m < b ^ k := by
  rw [Spec.digits, List.length_map, Nat.length_toDigits_le_iff hb hk]

theorem digits_pos (b m : Nat) : 0 < (Spec.digits b m).length := by
  rw [Spec.digits, List.length_map]; exact Nat.length_toDigits_pos

theorem push_ok {c : Nat} {out : List Nat} (h : out.length < 100) : push c out = .ok (c :: out) := by
  rw [push, if_pos h]

theorem digit_loop_spec {b : Nat} (hb : 1 < b) (hb' : b ≤ 16) : ∀ fuel (m : Nat) out,
    (Spec.digits b m).length ≤ fuel → out.length + (Spec.digits b m).length ≤ 100 →
    ((digit_loop b fuel (-(m : Int)) out).bind fun (n, out) => push (digit (-(n.tmod b))) out) =
      .ok (Spec.digits b m ++ out)
  | 0, m, out, hf, _ => by have := digits_pos b m; omega
  | fuel + 1, m, out, hf, hl => by
    have hm : -((-(m : Int)).tmod b) = ((m % b : Nat) : Int) := by
      rw [Int.neg_tmod, Int.neg_neg]; rfl
    have hlt : m % b < 16 := by have := Nat.mod_lt m (show 0 < b by omega); omega
    rw [digit_loop]
    by_cases h : m < b
    · rw [if_neg (by omega), Res.bind_ok]
      show push (digit (-((-(m : Int)).tmod b))) out = _
      rw [digits_small h] at hl ⊢
      rw [hm, Nat.mod_eq_of_lt h, digit_eq m (by omega)]
      exact push_ok (by simp at hl; omega)
    · rw [digits_big hb (by omega)] at hl hf ⊢
      rw [List.length_append, List.length_singleton] at hl hf
      rw [if_pos (by omega), hm, digit_eq _ hlt, push_ok (by omega), Res.bind_ok]
      have hd : (-(m : Int)).tdiv b = -((m / b : Nat) : Int) := by
        rw [Int.neg_tdiv]; rfl
      rw [hd, digit_loop_spec hb hb' fuel (m / b) _ (by omega) (by simp; omega)]
      simp

theorem pad_spec (c lim : Nat) (hl : lim ≤ 99) : ∀ fuel (out : List Nat), lim + 1 - out.length < fuel →
    pad c (lim : Int) fuel out = .ok (List.replicate (lim + 1 - out.length) c ++ out)
  | 0, out, hf => by omega
  | fuel + 1, out, hf => by
    rw [pad]
    by_cases h : out.length ≤ lim
    · rw [if_pos (by omega), push_ok (by omega), Res.bind_ok, pad_spec c lim hl fuel _ (by simp; omega)]
      rw [List.length_cons, show lim + 1 - out.length = (lim + 1 - (out.length + 1)) + 1 by omega, List.replicate_succ']
      simp
    · rw [if_neg (by omega), show lim + 1 - out.length = 0 by omega]
      rfl

/-- Sign and digits of the number `int_to_str` prints. -/
def signed (b : Nat) (n : Int) (plus : Bool) : List Nat × List Nat :=
  (if n < 0 then [45] else if plus then [43] else [], Spec.digits b n.natAbs)

/-- **C40, conversion of numbers**: for every 32-bit `int`, base 8, 10 or 16 (indeed 8 to 16) and field
width below 100, `_int_to_str` stays inside its buffer and yields the sign and the digits of the number,
padded to the width with spaces on the left or zeros after the sign. -/
theorem C40_int_to_str (n : Int) (b width : Nat) (zero plus : Bool) (hn : -2 ^ 31 ≤ n ∧ n < 2 ^ 31)
    (hb : 8 ≤ b ∧ b ≤ 16) (hw : width < 100) :
    int_to_str n b width zero plus = .ok (field zero width (signed b n plus) ++ [0]) := by
  have hlen : (Spec.digits b n.natAbs).length ≤ 11 := by
    rw [digits_length (by omega) (by omega)]
    calc n.natAbs < 8 ^ 11 := by omega
      _ ≤ b ^ 11 := Nat.pow_le_pow_left hb.1 11
  have hpos := digits_pos b n.natAbs
  have e : (if decide (n < 0) = true then n else -n) = -((n.natAbs : Nat) : Int) := by
    by_cases h : n < 0
    · rw [if_pos (by simpa using h)]; omega
    · rw [if_neg (by simpa using h)]; omega
  have hd := digit_loop_spec (b := b) (by omega) hb.2 101 n.natAbs [0] (by omega) (by simp; omega)
  unfold int_to_str
  simp only
  rw [e, push_ok (by simp), Res.bind_ok]
  have e2 : ∀ (k : List Nat → Res (List Nat)),
      ((digit_loop b 101 (-((n.natAbs : Nat) : Int)) [0]).bind fun (x : Int × List Nat) =>
        (push (digit (-(x.1.tmod b))) x.2).bind k) = k (Spec.digits b n.natAbs ++ [0]) := by
    intro k
    rw [← Res.bind_ok (Spec.digits b n.natAbs ++ [0]) k, ← hd, Res.bind_assoc]
  have e3 : ((if (width : Int) ≥ 100 then (99 : Int) else width)) = width := if_neg (by omega)
  rw [e3]
  refine (e2 _).trans ?_
  simp only [signed, field]
  by_cases hneg : n < 0
  · cases zero
    · simp only [hneg, decide_true, Bool.true_or, Bool.false_eq_true, if_false, if_true, Bool.not_false, Res.bind_ok]
      rw [push_ok (by simp; omega), Res.bind_ok, pad_spec 32 width (by omega) _ _ (by simp; omega)]
      simp
      omega
    · simp only [hneg, decide_true, Bool.true_or, if_true, Bool.not_true, Bool.false_eq_true, if_false]
      by_cases hw0 : width = 0
      · subst hw0
        rw [pad, if_neg (by simp; omega), Res.bind_ok, push_ok (by simp; omega), Res.bind_ok]
        simp
      · rw [show (width : Int) - 1 = ((width - 1 : Nat) : Int) by omega, pad_spec 48 (width - 1) (by omega) _ _ (by simp; omega),
          Res.bind_ok, push_ok (by simp; omega), Res.bind_ok]
        simp
        omega
  · cases plus
    · simp only [hneg, decide_false, Bool.or_false, Bool.false_eq_true, if_false, Res.bind_ok]
      cases zero
      · simp only [Bool.false_eq_true, if_false, Bool.not_false, if_true, Res.bind_ok]
        rw [pad_spec 32 width (by omega) _ _ (by simp; omega)]
        simp
      · simp only [Bool.not_true, Bool.false_eq_true, if_false, if_true]
        rw [Int.sub_zero, pad_spec 48 width (by omega) _ _ (by simp; omega), Res.bind_ok]
        simp
    · simp only [hneg, decide_false, Bool.or_true, Bool.false_eq_true, if_false, if_true]
      cases zero
      · simp only [Bool.false_eq_true, if_false, Bool.not_false, if_true, Res.bind_ok]
        rw [push_ok (by simp; omega), Res.bind_ok, pad_spec 32 width (by omega) _ _ (by simp; omega)]
        simp
        omega
      · simp only [Bool.not_true, Bool.false_eq_true, if_false, if_true]
        by_cases hw0 : width = 0
        · subst hw0
          rw [pad, if_neg (by simp; omega), Res.bind_ok, push_ok (by simp; omega), Res.bind_ok]
          simp
        · rw [show (width : Int) - 1 = ((width - 1 : Nat) : Int) by omega, pad_spec 48 (width - 1) (by omega) _ _ (by simp; omega),
            Res.bind_ok, push_ok (by simp; omega), Res.bind_ok]
          simp
          omega

theorem digitChar_digit {k : Nat} (h : k < 10) : (Nat.digitChar k).toNat = 48 + k := Nat.toNat_digitChar_of_lt_ten h

theorem read_width_digits : ∀ (m : Nat) rest, m < 2 ^ 31 → read_width 0 (Spec.digits 10 m ++ rest) = read_width m rest := by
  intro m
  induction m using Nat.strongRecOn with
  | ind m ih =>
    intro rest hm
    by_cases h : m < 10
    · rw [digits_small h, digitChar_digit h, List.singleton_append, read_width, if_pos (by omega), if_pos (by omega)]
      congr 1; omega
    · have hmod : m % 10 < 10 := Nat.mod_lt _ (by omega)
      rw [digits_big (by omega) (by omega), List.append_assoc, ih (m / 10) (by omega) _ (by omega), digitChar_digit hmod,
        List.singleton_append, read_width, if_pos (by omega), if_pos (by omega)]
      congr 1; omega

theorem digits_head : ∀ m, 0 < m → ∃ h t, Spec.digits 10 m = h :: t ∧ 49 ≤ h ∧ h ≤ 57 := by
  intro m
  induction m using Nat.strongRecOn with
  | ind m ih =>
    intro hm
    by_cases h : m < 10
    · exact ⟨_, [], digits_small h, by rw [digitChar_digit h]; omega, by rw [digitChar_digit h]; omega⟩
    · obtain ⟨a, t, h1, h2⟩ := ih (m / 10) (by omega) (by omega)
      exact ⟨a, _, by rw [digits_big (by omega) (by omega), h1]; rfl, h2⟩

theorem fputstr_spec {σ} (put : σ → Nat → σ) : ∀ s st, (∀ b ∈ s, b ≠ 0) → fputstr put (s ++ [0]) st = s.foldl put st ∧
    fputstr put s st = s.foldl put st
  | [], st, _ => ⟨rfl, rfl⟩
  | c :: s, st, h => by
    have hc : c ≠ 0 := h c (by simp)
    have ih := fputstr_spec put s (put st c) (fun b hb => h b (by simp [hb]))
    cases c with
    | zero => exact absurd rfl hc
    | succ c => exact ih

theorem fputstr_count_spec : ∀ s, (∀ b ∈ s, b ≠ 0) → fputstr_count (s ++ [0]) = s.length ∧ fputstr_count s = s.length
  | [], _ => ⟨rfl, rfl⟩
  | c :: s, h => by
    have hc : c ≠ 0 := h c (by simp)
    have ih := fputstr_count_spec s (fun b hb => h b (by simp [hb]))
    cases c with
    | zero => exact absurd rfl hc
    | succ c => exact ⟨congrArg (· + 1) ih.1, congrArg (· + 1) ih.2⟩

theorem digitChar_ne (k : Nat) : (Nat.digitChar k).toNat ≠ 0 := by
  by_cases h : k < 16
  · have : ∀ k : Fin 16, (Nat.digitChar k.1).toNat ≠ 0 := by decide +kernel
    exact this ⟨k, h⟩
  · rw [Nat.digitChar_eq_star.2 (by omega)]; decide

theorem digits_nz {b : Nat} (hb : 1 < b) : ∀ m, ∀ x ∈ Spec.digits b m, x ≠ 0 := by
  intro m
  induction m using Nat.strongRecOn with
  | ind m ih =>
    by_cases h : m < b
    · rw [digits_small h]; intro x hx; rw [List.mem_singleton.1 hx]; exact digitChar_ne _
    · rw [digits_big hb (by omega)]
      intro x hx
      rcases List.mem_append.1 hx with hx | hx
      · exact ih _ (Nat.div_lt_self (by omega) hb) x hx
      · rw [List.mem_singleton.1 hx]; exact digitChar_ne _

theorem field_nz {zero : Bool} {width : Nat} {s d : List Nat} (hs : ∀ x ∈ s, x ≠ 0) (hd : ∀ x ∈ d, x ≠ 0) :
    ∀ x ∈ field zero width (s, d), x ≠ 0 := by
  intro x hx
  cases zero <;> simp only [field, Bool.false_eq_true, if_false, if_true, List.mem_append, List.mem_replicate] at hx
  · rcases hx with (⟨_, rfl⟩ | hx) | hx
    · decide
    · exact hs x hx
    · exact hd x hx
  · rcases hx with (hx | ⟨_, rfl⟩) | hx
    · exact hs x hx
    · decide
    · exact hd x hx

/-- The conversion character. -/
def convChar : Conv → Nat
  | .d => 100 | .u => 117 | .o => 111 | .x => 120

theorem number_signed (k : Conv) (n : Int) (hn : -2 ^ 31 ≤ n ∧ n < 2 ^ 31) (hk : k = .d ∨ 0 ≤ n) :
    number k n = signed (if convChar k = 120 then 16 else if convChar k = 111 then 8 else 10) n false := by
  have hm : 0 ≤ n → (n % 4294967296).toNat = n.natAbs := fun h => by
    rw [Int.emod_eq_of_lt h (by omega)]; omega
  cases k
  · rfl
  all_goals
    have h0 : 0 ≤ n := by simpa using hk
    simp [number, signed, convChar, hm h0, show ¬ n < 0 by omega]

theorem convert_int {σ} (put : σ → Nat → σ) (k : Conv) (zero : Bool) (width : Nat) (n : Int) (args : List Arg) (st : σ) (r : Int)
    (hn : -2 ^ 31 ≤ n ∧ n < 2 ^ 31) (hk : k = .d ∨ 0 ≤ n) (hw : width < 100) :
    convert put (convChar k) width zero (.int n :: args) st r =
      .ok ((field zero width (number k n)).foldl put st, r + (field zero width (number k n)).length, args) := by
  have hb : 8 ≤ (if convChar k = 120 then 16 else if convChar k = 111 then 8 else 10) ∧
      (if convChar k = 120 then 16 else if convChar k = 111 then 8 else 10) ≤ 16 := by cases k <;> decide
  have h := C40_int_to_str n _ width zero false hn hb hw
  rw [← number_signed k n hn hk] at h
  have hnz : ∀ x ∈ field zero width (number k n), x ≠ 0 := by
    rw [number_signed k n hn hk]
    refine field_nz ?_ (digits_nz (by omega) _)
    intro x hx
    split at hx
    · simp at hx; omega
    · simp at hx
  have e1 : ¬ convChar k = 99 := by cases k <;> decide
  have e2 : convChar k = 100 ∨ convChar k = 117 ∨ convChar k = 111 ∨ convChar k = 120 := by cases k <;> decide
  have e3 : ((if convChar k = 120 then (16 : Int) else if convChar k = 111 then 8 else 10)) =
      ((if convChar k = 120 then 16 else if convChar k = 111 then 8 else 10 : Nat) : Int) := by cases k <;> rfl
  rw [convert, if_neg e1, if_pos e2]
  show Res.bind (int_to_str _ _ _ _ _) _ = _
  rw [e3, h, Res.bind_ok, (fputstr_spec put _ st hnz).1, (fputstr_count_spec _ hnz).1]

theorem vfprintf_spec {σ} (put : σ → Nat → σ) : ∀ (ds : List Dir) (args : List Arg) (out : List Nat) (st : σ) (r : Int) (fuel : Nat),
    output ds args = some out → (∀ d ∈ ds, d.Valid) → (∀ a ∈ args, Arg.Valid a) → Supported ds args → ds.length < fuel →
    vfprintf put fuel (text ds) args st r = .ok (out.foldl put st, r + out.length) := by
  intro ds
  induction ds with
  | nil =>
    intro args out st r fuel ho _ _ _ hf
    obtain ⟨f, rfl⟩ : ∃ f, fuel = f + 1 := ⟨fuel - 1, by simp at hf; omega⟩
    cases ho
    simp [text, vfprintf]
  | cons d ds ih =>
    intro args out st r fuel ho hd ha hs hf
    obtain ⟨f, rfl⟩ : ∃ f, fuel = f + 1 := ⟨fuel - 1, by simp at hf; omega⟩
    have hf' : ds.length < f := by simp at hf; omega
    have hd' : ∀ d ∈ ds, d.Valid := fun d h => hd d (by simp [h])
    have ht : text (d :: ds) = d.text ++ text ds := rfl
    rw [ht]
    cases d with
    | lit c =>
      obtain ⟨o, ho1, rfl⟩ := Option.map_eq_some_iff.1 ho
      have hc : c ≠ 0 ∧ c ≠ 37 := hd (.lit c) (by simp)
      rw [Dir.text, List.singleton_append]
      simp only [vfprintf, hc.2, if_false]
      rw [ih args o _ _ f ho1 hd' ha hs hf']
      simp; omega
    | percent =>
      obtain ⟨o, ho1, rfl⟩ := Option.map_eq_some_iff.1 ho
      simp only [Dir.text, List.cons_append, List.nil_append, vfprintf, if_true]
      rw [ih args o _ _ f ho1 hd' ha hs hf']
      simp; omega
    | int k zero width =>
      match args, ho with
      | .int n :: args, ho =>
        obtain ⟨o, ho1, rfl⟩ := Option.map_eq_some_iff.1 ho
        obtain ⟨hw, hk, hs⟩ := hs
        have hn : -2 ^ 31 ≤ n ∧ n < 2 ^ 31 := ha (.int n) (by simp)
        have hc := convert_int put k zero width n args st r hn hk hw
        have hcc : ¬ (convChar k ≥ 48 ∧ convChar k ≤ 57) := by cases k <;> decide
        have hrw : ∀ w : Nat, read_width w (convChar k :: text ds) = .ok ((w : Int), convChar k, text ds) := by
          intro w; rw [read_width, if_neg hcc]
        have hl : skip_l (convChar k) (text ds) = .ok (convChar k, text ds) := by
          have : ¬ (convChar k = 108 ∨ convChar k = 76) := by cases k <;> decide
          cases text ds <;> simp [skip_l, this]
        have hfin : ((convert put (convChar k) width zero (.int n :: args) st r).bind fun x =>
            vfprintf put f (text ds) x.2.2 x.1 x.2.1) =
            .ok ((field zero width (number k n) ++ o).foldl put st, r + (field zero width (number k n) ++ o).length) := by
          rw [hc, Res.bind_ok]
          simp only
          rw [ih args o _ _ f ho1 hd' (fun a h => ha a (by simp [h])) hs hf']
          simp; omega
        have htxt : Dir.text (.int k zero width) =
            37 :: ((if zero then [48] else []) ++ ((if width = 0 then [] else Spec.digits 10 width) ++ [convChar k])) := by
          simp [Dir.text]; cases k <;> rfl
        have hw31 : width < 2 ^ 31 := by omega
        have hread : read_width 0 (((if width = 0 then [] else Spec.digits 10 width) ++ [convChar k]) ++ text ds) =
            .ok ((width : Int), convChar k, text ds) := by
          by_cases h0 : width = 0
          · subst h0; rw [if_pos rfl]; exact hrw 0
          · rw [if_neg h0, List.append_assoc, read_width_digits width _ hw31]; exact hrw width
        rw [htxt]
        cases zero
        · obtain ⟨c0, t0, e0, hc0, hc1⟩ : ∃ c0 t0, ((if width = 0 then [] else Spec.digits 10 width) ++ [convChar k]) ++ text ds = c0 :: t0 ∧ c0 ≠ 37 ∧ c0 ≠ 48 := by
            by_cases h0 : width = 0
            · rw [if_pos h0]
              exact ⟨convChar k, text ds, rfl, by cases k <;> decide, by cases k <;> decide⟩
            · obtain ⟨a, t, h1, h2, h3⟩ := digits_head width (by omega)
              rw [if_neg h0, h1]
              exact ⟨a, _, rfl, by omega, by omega⟩
          rw [e0] at hread
          rw [List.cons_append, if_neg (by decide), List.nil_append, e0, vfprintf, if_pos rfl]
          simp only [hc0, hc1, if_false, decide_false, Bool.false_eq_true]
          rw [hread, Res.bind_ok]
          simp only
          rw [hl, Res.bind_ok]
          exact hfin
        · rw [List.cons_append, if_pos rfl, List.singleton_append, List.cons_append, vfprintf, if_pos rfl]
          simp only [show ¬ (48 = 37) by decide, if_false, decide_true, if_true]
          rw [hread, Res.bind_ok]
          simp only
          rw [hl, Res.bind_ok]
          exact hfin
    | chr =>
      match args, ho with
      | .int n :: args, ho =>
        obtain ⟨o, ho1, rfl⟩ := Option.map_eq_some_iff.1 ho
        have hl : skip_l 99 (text ds) = .ok (99, text ds) := by
          cases text ds <;> simp [skip_l]
        simp only [Dir.text, List.cons_append, List.nil_append, vfprintf, if_true, show ¬ (99 = 37) by decide, show ¬ (99 = 48) by decide,
          if_false, decide_false, Bool.false_eq_true]
        rw [read_width, if_neg (by omega), Res.bind_ok]
        simp only
        rw [hl, Res.bind_ok]
        simp only [convert, if_true]
        rw [Res.bind_ok]
        simp only
        rw [ih args o _ _ f ho1 hd' (fun a h => ha a (by simp [h])) hs hf']
        simp; omega
    | str =>
      match args, ho with
      | .str s :: args, ho =>
        obtain ⟨o, ho1, rfl⟩ := Option.map_eq_some_iff.1 ho
        have hnz : ∀ b ∈ s, b ≠ 0 := ha (.str s) (by simp)
        have hl : skip_l 115 (text ds) = .ok (115, text ds) := by
          cases text ds <;> simp [skip_l]
        simp only [Dir.text, List.cons_append, List.nil_append, vfprintf, if_true, show ¬ (115 = 37) by decide, show ¬ (115 = 48) by decide,
          if_false, decide_false, Bool.false_eq_true]
        rw [read_width, if_neg (by omega), Res.bind_ok]
        simp only
        rw [hl, Res.bind_ok]
        simp only [convert, show ¬ (115 = 99) by decide, show ¬ (115 = 100 ∨ 115 = 117 ∨ 115 = 111 ∨ 115 = 120) by decide, if_false, if_true]
        rw [Res.bind_ok, (fputstr_spec put s st hnz).2, (fputstr_count_spec s hnz).2]
        simp only
        rw [ih args o _ _ f ho1 hd' (fun a h => ha a (by simp [h])) hs hf']
        simp; omega

theorem text_length : ∀ ds, ds.length ≤ (text ds).length
  | [] => Nat.le_refl _
  | d :: ds => by
    have := text_length ds
    have h : text (d :: ds) = d.text ++ text ds := rfl
    have h1 : 1 ≤ d.text.length := by cases d <;> simp [Dir.text]
    rw [h, List.length_append, List.length_cons]
    omega

theorem foldl_fputc : ∀ (o st : List Nat), o.foldl fputc st = st ++ o
  | [], st => by simp
  | c :: o, st => by rw [List.foldl_cons, foldl_fputc o, fputc]; simp

theorem foldl_sputc (size : Nat) : ∀ (o st : List Nat), st.length < size → o.foldl (sputc size) st = (st ++ o).take (size - 1)
  | [], st, h => by rw [List.foldl_nil, List.append_nil, List.take_of_length_le (by omega)]
  | c :: o, st, h => by
    rw [List.foldl_cons]
    by_cases hs : st.length + 1 < size
    · rw [sputc, if_pos hs, foldl_sputc size o _ (by simp; omega)]
      simp
    · rw [sputc, if_neg hs, foldl_sputc size o _ h]
      rw [List.take_append, List.take_append, show size - 1 - st.length = 0 by omega]
      simp

/-- **C40 (partial), printf**: for every format made of the supported directives and every matching
list of arguments, `printf` writes exactly what C prescribes and returns the number of characters
written. Missing: fields of 100 and more, `%u`, `%o`, `%x` of values from `2^31` on, field widths of
`%s` and `%c` (`C40_unsigned_false`, `C40_width_false`, `C40_string_width_false`); other flags,
precisions and conversions are not supported. -/
theorem C40_printf_partial (ds : List Dir) (args : List Arg) (out : List Nat) (ho : output ds args = some out)
    (hd : ∀ d ∈ ds, d.Valid) (ha : ∀ a ∈ args, Arg.Valid a) (hs : Supported ds args) :
    fprintf (text ds) args = .ok (out, out.length) := by
  have := text_length ds
  rw [fprintf, vfprintf_spec fputc ds args out [] 0 _ ho hd ha hs (by omega), foldl_fputc]
  simp

/-- **C40 (partial), snprintf**: with a buffer of `size > 0` bytes, `snprintf` stores the first
`size - 1` characters of the output and a terminator, so at most `size` bytes, and returns the length
of the whole output. -/
theorem C40_snprintf_partial (size : Nat) (hsz : 0 < size) (ds : List Dir) (args : List Arg) (out : List Nat)
    (ho : output ds args = some out) (hd : ∀ d ∈ ds, d.Valid) (ha : ∀ a ∈ args, Arg.Valid a) (hs : Supported ds args) :
    snprintf size (text ds) args = .ok (out.take (size - 1) ++ [0], out.length) ∧
    (out.take (size - 1) ++ [0]).length ≤ size := by
  have := text_length ds
  constructor
  · rw [snprintf, vfprintf_spec (sputc size) ds args out [] 0 _ ho hd ha hs (by omega), Res.bind_ok, foldl_sputc size out [] hsz]
    simp
  · simp; omega

/-- The unrestricted claim for `snprintf` is false for `size = 0`, where C lets the call store nothing:
the terminator is stored anyway. -/
theorem C40_snprintf_zero_false : snprintf 0 [65] [] = .ok ([0], 1) := by decide +kernel

/-- C40 is false of %u, %x, %o from `2^31` on: `printf("%x", 0xffffffff)` prints `-1`. -/
theorem C40_unsigned_false :
    fprintf (text [.int .x false 0]) [.int (-1)] = .ok ([45, 49], 2) ∧
    output [.int .x false 0] [.int (-1)] = some [102, 102, 102, 102, 102, 102, 102, 102] := by decide +kernel

/-- C40 is false of wide fields: the width 120 is taken as 99. -/
theorem C40_width_false :
    (fprintf (text [.int .d false 120]) [.int 7]).bind (fun x => .ok x.2) = .ok 99 ∧
    (output [.int .d false 120] [.int 7]).map List.length = some 120 := by decide +kernel

/-- C40 is false of `%3s`: the width is ignored (C prints `  a`). -/
theorem C40_string_width_false : fprintf [37, 51, 115] [.str [97]] = .ok ([97], 1) := by decide +kernel

/-- C40 is false of `fputs`: a newline is appended (C writes the string only). -/
theorem C40_fputs_false (s : List Nat) (h : ∀ b ∈ s, b ≠ 0) : fputs s = s ++ [10] := by
  rw [fputs, (fputstr_spec fputc s [] h).2, foldl_fputc]; rfl

/-- The hypotheses are met: `printf("x=%05d,%s%%%c", -42, "ab", 'c')`. -/
example : fprintf (text [.lit 120, .lit 61, .int .d true 5, .lit 44, .str, .percent, .chr]) [.int (-42), .str [97, 98], .int 99] =
    .ok ([120, 61, 45, 48, 48, 52, 50, 44, 97, 98, 37, 99], 12) :=
  C40_printf_partial _ _ _ (by decide) (by simp [Dir.Valid]) (by simp [Arg.Valid]) (by simp [Supported])

end Verif.Stdio
