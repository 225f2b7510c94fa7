import Verif.Lit.Proofs
/-! C06: integer literals denote their mathematical value. -/
namespace Verif.Lit
open Verif Spec

theorem value_eq (b : Nat) (ds : List Nat) : value b ds = valueFrom b 0 ds := rfl

theorem spells_head {b : Nat} {cs ds rest : List Nat} (h : Spells b cs ds) (hne : ds ≠ []) :
    curDigit (cs ++ rest) < b := by
  cases h with
  | nil => exact absurd rfl hne
  | cons h1 h2 h3 => simp [curDigit, digitOf_of_isDigit h1, h2]

/-- a digit string does not begin with `x` when its base is at most 16 -/
theorem spells_no_x {b : Nat} (hb : b ≤ 16) {cs ds rest : List Nat} (h : Spells b cs ds)
    (hr : ds = [] → ∀ t, rest ≠ 120 :: t ∧ rest ≠ 88 :: t) :
    ∀ t, cs ++ rest ≠ 120 :: t ∧ cs ++ rest ≠ 88 :: t := by
  intro t
  cases h with
  | nil => simpa using hr rfl t
  | @cons c d cs ds h1 h2 h3 =>
    have := digitOf_of_isDigit h1
    constructor
    · intro he
      injection he with he _
      subst he
      simp [digitOf] at this; omega
    · intro he
      injection he with he _
      subst he
      simp [digitOf] at this; omega

theorem spells_no_0 {cs ds rest : List Nat} (h : Spells 10 cs ds) (h0 : ds.head? ≠ some 0)
    (hne : ds ≠ []) : ∀ t, cs ++ rest ≠ 48 :: t := by
  intro t
  cases h with
  | nil => exact absurd rfl hne
  | @cons c d cs ds h1 h2 h3 =>
    intro he
    injection he with he _
    subst he
    have := digitOf_of_isDigit h1
    simp [digitOf] at this
    subst this
    exact h0 rfl

/-- **C06 (32-bit `int`, shell backend).**  A decimal, octal or hexadecimal literal of any length
whose value is at most 2^31 is scanned to `val = -value` (pnut keeps literals negated, every user of
`val` negates it back), consuming exactly the literal.  Above 2^31 the accumulation overflows `int`,
which is undefined behaviour of the compiler itself: there is no diagnostic. -/
theorem C06_literal32 (withBase : Bool) {cs ds rest : List Nat} {b : Nat}
    (hl : Literal cs b ds) (hf : Follows b ds rest) :
    (value b ds ≤ 2147483648 →
      ∃ k, number32 withBase (cs ++ rest) = .ok (k, -(value b ds : Int), rest)) ∧
    (2147483648 < value b ds → number32 withBase (cs ++ rest) = .ub) := by
  rw [value_eq]
  cases hl with
  | dec hs h0 hne =>
    rw [number32_dec _ _ (spells_no_0 hs h0 hne)]
    constructor
    · intro hv
      have := loop32_ok (by omega) (by omega) hs rest hf.1 0 hv
      simp only [Int.natCast_zero, Int.neg_zero] at this
      exact ⟨_, by rw [this]; rfl⟩
    · intro hv
      have := loop32_ub (by omega) hs rest 0 (by omega) hv
      simp only [Int.natCast_zero, Int.neg_zero] at this
      rw [this]; rfl
  | oct hs =>
    rw [List.cons_append, number32_oct _ _ (spells_no_x (by omega) hs (hf.2 rfl))]
    constructor
    · intro hv
      have := loop32_ok (by omega) (by omega) hs rest hf.1 0 hv
      simp only [Int.natCast_zero, Int.neg_zero] at this
      exact ⟨_, by rw [this]; rfl⟩
    · intro hv
      have := loop32_ub (by omega) hs rest 0 (by omega) hv
      simp only [Int.natCast_zero, Int.neg_zero] at this
      rw [this]; rfl
  | hexl hs hne =>
    rw [List.cons_append, List.cons_append, number32_hex _ _ (.inl rfl) _ (spells_head hs hne)]
    constructor
    · intro hv
      have := loop32_ok (by omega) (by omega) hs rest hf.1 0 hv
      simp only [Int.natCast_zero, Int.neg_zero] at this
      exact ⟨_, by rw [this]; rfl⟩
    · intro hv
      have := loop32_ub (by omega) hs rest 0 (by omega) hv
      simp only [Int.natCast_zero, Int.neg_zero] at this
      rw [this]; rfl
  | hexu hs hne =>
    rw [List.cons_append, List.cons_append, number32_hex _ _ (.inr rfl) _ (spells_head hs hne)]
    constructor
    · intro hv
      have := loop32_ok (by omega) (by omega) hs rest hf.1 0 hv
      simp only [Int.natCast_zero, Int.neg_zero] at this
      exact ⟨_, by rw [this]; rfl⟩
    · intro hv
      have := loop32_ub (by omega) hs rest 0 (by omega) hv
      simp only [Int.natCast_zero, Int.neg_zero] at this
      rw [this]; rfl

/-- The scanner for 64-bit literals once the base is known. -/
theorem number64_of_loop {h : Heap} {inp rest : List Nat} {y : U64}
    (hn : ∃ b inp', loop64 b ⟨0, 0⟩ inp' = (y, rest) ∧
      (number64 h inp = (toObj h y).bind fun (h', obj) =>
        let (k, r') := suffix rest; .ok (h', k, obj, r')))
    (h0 : 0 < h.alloc) (hroom : h.alloc + 2 ≤ heapSize) :
    ∃ h' obj, number64 h inp = .ok (h', (suffix rest).1, obj, (suffix rest).2) ∧
      (objWord h' obj).toNat = y.val := by
  obtain ⟨b, inp', -, he⟩ := hn
  rw [he]
  cases hto : toObj h y with
  | ok p =>
    obtain ⟨h', obj⟩ := p
    exact ⟨h', obj, by simp, toObj_word h y h0 hto⟩
  | fatal =>
    unfold toObj at hto
    split at hto
    · cases hto
    · rw [if_neg (by omega)] at hto; cases hto
  | ub =>
    unfold toObj at hto
    split at hto
    · cases hto
    · split at hto <;> cases hto
  | diverge =>
    unfold toObj at hto
    split at hto
    · cases hto
    · split at hto <;> cases hto

theorem number64_oct (h : Heap) (inp : List Nat) (hx : ∀ t, inp ≠ 120 :: t ∧ inp ≠ 88 :: t) :
    number64 h (48 :: inp) = (toObj h (loop64 8 ⟨0, 0⟩ inp).1).bind fun (h', obj) =>
        let (k, r') := suffix (loop64 8 ⟨0, 0⟩ inp).2; .ok (h', k, obj, r') := by
  unfold number64
  split
  · rename_i inp1 he
    injection he with _ he; subst he
    split
    · exact absurd rfl (hx _).1
    · exact absurd rfl (hx _).2
    · rfl
  · rename_i hh; exact absurd rfl (hh _)

theorem number64_dec (h : Heap) (inp : List Nat) (h0 : ∀ t, inp ≠ 48 :: t) :
    number64 h inp = (toObj h (loop64 10 ⟨0, 0⟩ inp).1).bind fun (h', obj) =>
        let (k, r') := suffix (loop64 10 ⟨0, 0⟩ inp).2; .ok (h', k, obj, r') := by
  unfold number64
  split
  · rename_i inp1; exact absurd rfl (h0 inp1)
  · rfl

theorem number64_hex (h : Heap) (x : Nat) (hx : x = 120 ∨ x = 88) (inp : List Nat)
    (hd : curDigit inp < 16) :
    number64 h (48 :: x :: inp) = (toObj h (loop64 16 ⟨0, 0⟩ inp).1).bind fun (h', obj) =>
        let (k, r') := suffix (loop64 16 ⟨0, 0⟩ inp).2; .ok (h', k, obj, r') := by
  rcases hx with rfl | rfl <;> simp [number64, Nat.not_le.mpr hd]

/-- Adding digit `d` to `10 * p` carries from bit 30 into bit 31 of the low word. -/
def CrossesSign (p d : Nat) : Prop :=
  p * 10 % 2 ^ 32 < 2 ^ 31 ∧ 2 ^ 31 ≤ p * 10 % 2 ^ 32 + d

theorem safeFrom_of_prefixes (v : Nat) (ds : List Nat)
    (h : ∀ pre d, (pre ++ [d]) <+: ds → ¬ CrossesSign (valueFrom 10 v pre) d) :
    SafeFrom 10 v ds := by
  induction ds generalizing v with
  | nil => trivial
  | cons d ds ih =>
    refine ⟨h [] d (by simp), ih _ ?_⟩
    intro pre d' hp
    exact h (d :: pre) d' (by simpa using hp)

/-- **C06 (64-bit literals, x86-64 backends), partial.**  An octal or hexadecimal literal of any length
whose value fits in 64 bits is compiled to a word with exactly that value; a decimal literal too,
unless some prefix of its digits crosses from `0x7fffffff` to `0x80000000` in the low word
(`CrossesSign`).  Missing for the full property: those decimal literals, for which it is false
(`C06_decimal64_false`). -/
theorem C06_literal64_partial (h : Heap) (h0 : 0 < h.alloc) (hroom : h.alloc + 2 ≤ heapSize)
    {cs ds rest : List Nat} {b : Nat} (hl : Literal cs b ds) (hf : Follows b ds rest)
    (hfit : value b ds < 2 ^ 64)
    (hdec : b = 10 → ∀ pre d, (pre ++ [d]) <+: ds → ¬ CrossesSign (value 10 pre) d) :
    ∃ h' obj, number64 h (cs ++ rest) = .ok (h', (suffix rest).1, obj, (suffix rest).2) ∧
      (objWord h' obj).toNat = value b ds := by
  rw [value_eq] at hfit ⊢
  cases hl with
  | dec hs hz hne =>
    obtain ⟨y, e, ev⟩ := loop64_ok (by omega) (by omega) hs rest hf.1 0 ⟨0, 0⟩ rfl hfit
      (safeFrom_of_prefixes 0 _ (hdec rfl))
    rw [← ev]
    refine number64_of_loop ⟨10, _, e, ?_⟩ h0 hroom
    rw [number64_dec _ _ (spells_no_0 hs hz hne), e]
  | oct hs =>
    obtain ⟨y, e, ev⟩ := loop64_ok (by omega) (by omega) hs rest hf.1 0 ⟨0, 0⟩ rfl hfit
      (safeFrom_pow2 (k := 3) rfl (by omega) 0 _ (spells_lt hs))
    rw [← ev]
    refine number64_of_loop ⟨8, _, e, ?_⟩ h0 hroom
    rw [List.cons_append, number64_oct _ _ (spells_no_x (by omega) hs (hf.2 rfl)), e]
  | hexl hs hne =>
    obtain ⟨y, e, ev⟩ := loop64_ok (by omega) (by omega) hs rest hf.1 0 ⟨0, 0⟩ rfl hfit
      (safeFrom_pow2 (k := 4) rfl (by omega) 0 _ (spells_lt hs))
    rw [← ev]
    refine number64_of_loop ⟨16, _, e, ?_⟩ h0 hroom
    rw [List.cons_append, List.cons_append, number64_hex _ _ (.inl rfl) _ (spells_head hs hne), e]
  | hexu hs hne =>
    obtain ⟨y, e, ev⟩ := loop64_ok (by omega) (by omega) hs rest hf.1 0 ⟨0, 0⟩ rfl hfit
      (safeFrom_pow2 (k := 4) rfl (by omega) 0 _ (spells_lt hs))
    rw [← ev]
    refine number64_of_loop ⟨16, _, e, ?_⟩ h0 hroom
    rw [List.cons_append, List.cons_append, number64_hex _ _ (.inr rfl) _ (spells_head hs hne), e]

/-- Every decimal literal below 2^31 is exact in the 64-bit configuration, unconditionally. -/
theorem C06_decimal64_small (h : Heap) (h0 : 0 < h.alloc) (hroom : h.alloc + 2 ≤ heapSize)
    {cs ds rest : List Nat} (hl : Literal cs 10 ds) (hf : Follows 10 ds rest)
    (hfit : value 10 ds < 2 ^ 31) :
    ∃ h' obj, number64 h (cs ++ rest) = .ok (h', (suffix rest).1, obj, (suffix rest).2) ∧
      (objWord h' obj).toNat = value 10 ds := by
  cases hl with
  | dec hs hz hne =>
    rw [value_eq] at hfit ⊢
    obtain ⟨y, e, ev⟩ := loop64_ok (by omega) (by omega) hs rest hf.1 0 ⟨0, 0⟩ rfl (by omega)
      (safeFrom_small (by omega) 0 _ hfit)
    rw [← ev]
    refine number64_of_loop ⟨10, _, e, ?_⟩ h0 hroom
    rw [number64_dec _ _ (spells_no_0 hs hz hne), e]

/-- The kind of a literal by its suffix. -/
def kindOf : Bool → Nat → Kind
  | false, 0 => .int
  | false, 1 => .intL
  | false, _ => .intLL
  | true, 0 => .intU
  | true, 1 => .intUL
  | true, _ => .intULL

theorem suffix_ok {s rest : List Nat} {u : Bool} {l : Nat} (h : Suffix s u l) (he : SuffixEnds rest) : suffix (s ++ rest) = (kindOf u l, rest) := by
  have e1 : isU rest = false := by
    cases rest with
    | nil => rfl
    | cons c t =>
      have := he c t rfl
      simp only [U, L, not_or] at this
      simp [isU, this]
  have e2 : isL rest = false := by
    cases rest with
    | nil => rfl
    | cons c t =>
      have := he c t rfl
      simp only [U, L, not_or] at this
      simp [isL, this]
  cases h with
  | none => simp [suffix, e1, e2, kindOf]
  | u h => rcases h with rfl | rfl <;> simp [suffix, isU, e1, e2, kindOf]
  | l h => rcases h with rfl | rfl <;> simp [suffix, isU.eq_1, isL.eq_1, e1, e2, kindOf]
  | ll h => rcases h with rfl | rfl <;> simp [suffix, isU.eq_1, isL.eq_1, e1, e2, kindOf]
  | ul h h' => rcases h with rfl | rfl <;> rcases h' with rfl | rfl <;> simp [suffix, isU.eq_1, isL.eq_1, e1, e2, kindOf]
  | lu h h' => rcases h with rfl | rfl <;> rcases h' with rfl | rfl <;> simp [suffix, isU.eq_1, isL.eq_1, e1, e2, kindOf]
  | ull h h' => rcases h with rfl | rfl <;> rcases h' with rfl | rfl <;> simp [suffix, isU.eq_1, isL.eq_1, e1, e2, kindOf]
  | llu h h' => rcases h with rfl | rfl <;> rcases h' with rfl | rfl <;> simp [suffix, isU.eq_1, isL.eq_1, e1, e2, kindOf]

/-- **C06, with suffixes (partial as `C06_literal64_partial`)**: the kind of the literal is that of its suffix, and the scanner stops right behind it. -/
theorem C06_suffix_partial (h : Heap) (h0 : 0 < h.alloc) (hroom : h.alloc + 2 ≤ heapSize)
    {cs ds s rest : List Nat} {b l : Nat} {u : Bool} (hl : Literal cs b ds) (hs : Suffix s u l) (he : SuffixEnds rest) (hf : Follows b ds (s ++ rest))
    (hfit : value b ds < 2 ^ 64)
    (hdec : b = 10 → ∀ pre d, (pre ++ [d]) <+: ds → ¬ CrossesSign (value 10 pre) d) :
    ∃ h' obj, number64 h (cs ++ (s ++ rest)) = .ok (h', kindOf u l, obj, rest) ∧ (objWord h' obj).toNat = value b ds := by
  have := C06_literal64_partial h h0 hroom hl hf hfit hdec
  rwa [suffix_ok hs he] at this

/-- `0x1FuL;` -/
example : ∃ h' obj, number64 ⟨fun _ => 0, 1⟩ [48, 120, 49, 70, 117, 76, 59] = .ok (h', .intUL, obj, [59]) ∧ (objWord h' obj).toNat = 31 := by
  refine C06_suffix_partial (cs := [48, 120, 49, 70]) (ds := [1, 15]) (s := [117, 76]) (rest := [59]) (b := 16) _ (by decide) (by decide) (.hexl (.cons (.dec 1 (by decide)) (by decide) (.cons (.upper 15 (by decide) (by decide)) (by decide) .nil)) (by simp)) (.ul (.inl rfl) (.inr rfl)) ?_ ?_ (by decide) (by simp)
  · intro c t h
    simp only [List.cons.injEq] at h
    simp only [U, L]
    omega
  · refine ⟨fun c d t h hd => ?_, by simp⟩
    simp only [List.cons_append, List.cons.injEq] at h
    obtain ⟨h, _⟩ := h
    cases hd <;> omega

/-- Malformed hexadecimal literal: `0x` without a digit is rejected in both configurations. -/
theorem C06_hex_needs_digit (wb : Bool) (h : Heap) (x : Nat) (hx : x = 120 ∨ x = 88)
    (rest : List Nat) (hs : Stops 16 rest) :
    number32 wb (48 :: x :: rest) = .fatal ∧ number64 h (48 :: x :: rest) = .fatal := by
  have : curDigit rest ≥ 16 := by
    cases rest with
    | nil => simp [curDigit]
    | cons c t => exact stops_ge (by omega) hs
  rcases hx with rfl | rfl <;> simp [number32, number64, this]

theorem spells_of_digits {b : Nat} (hb : b ≤ 36) (cs : List Nat) (h : ∀ c ∈ cs, digitOf c < b) :
    Spells b cs (cs.map digitOf) := by
  induction cs with
  | nil => exact .nil
  | cons c cs ih =>
    have hc := h c (by simp)
    exact .cons (isDigit_of_digitOf (by omega)) hc (ih fun x hx => h x (by simp [hx]))

def heap0 : Heap := { mem := fun _ => 0, alloc := 1009 }

/-- **C06 is false for 64-bit decimal literals:** `2147483648` (2^31) is compiled as 6442450944. -/
theorem C06_decimal64_false :
    Literal [50, 49, 52, 55, 52, 56, 51, 54, 52, 56] 10 [2, 1, 4, 7, 4, 8, 3, 6, 4, 8] ∧
    value 10 [2, 1, 4, 7, 4, 8, 3, 6, 4, 8] = 2147483648 ∧
    (match number64 heap0 [50, 49, 52, 55, 52, 56, 51, 54, 52, 56] with
     | .ok (h', _, obj, _) => (objWord h' obj).toNat
     | _ => 0) = 6442450944 := by
  refine ⟨Literal.dec ?_ (by decide) (by decide), by decide, by decide +kernel⟩
  exact spells_of_digits (b := 10) (by omega) [50, 49, 52, 55, 52, 56, 51, 54, 52, 56] (by decide)

/-- **C06, the failing literals characterised.** Whenever one digit step crosses the sign bit of the
low word the result is off by exactly 2^32. -/
theorem C06_decimal64_error (x : U64) (d : Nat) (hd : d < 10) (hc : CrossesSign x.val d) :
    (accum64 10 x d).val = (x.val * 10 + d + 2 ^ 32) % 2 ^ 64 :=
  accum64_val_bad 10 d x (by omega) (by omega) hc

/-! Non-vacuity. -/
-- 0x7fFf followed by `;`
example : Literal [48, 120, 55, 102, 70, 102] 16 [7, 15, 15, 15] ∧ Follows 16 [7, 15, 15, 15] [59] ∧
    number32 true [48, 120, 55, 102, 70, 102, 59] = .ok (.hex, -32767, [59]) := by
  refine ⟨Literal.hexl ?_ (by decide), ⟨?_, by omega⟩, by decide +kernel⟩
  · exact .cons (.dec 7 (by omega)) (by omega) (.cons (.lower 15 (by omega) (by omega)) (by omega)
      (.cons (.upper 15 (by omega) (by omega)) (by omega)
        (.cons (.lower 15 (by omega) (by omega)) (by omega) .nil)))
  · intro c d t h hd
    injection h with h _
    subst h
    have := digitOf_of_isDigit hd
    simp [digitOf] at this; omega
-- 18446744073709551615 as hexadecimal with suffix UL in the 64-bit configuration
example : (match number64 heap0 ([48, 88] ++ List.replicate 16 102 ++ [85, 76]) with
     | .ok (h', k, obj, r) => (k, (objWord h' obj).toNat, r)
     | _ => (.int, 0, [])) = (.intUL, 18446744073709551615, []) := by decide +kernel

end Verif.Lit
