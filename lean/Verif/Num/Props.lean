import Verif.Num.Model
import Verif.Lit.Props
/-! C07: printed integers read back as the same integer.

The specification is the one of C/POSIX-shell integer constants (`Verif.Lit.Spec`), optionally
preceded by a minus sign. -/
namespace Verif.Num
open Verif
open Verif.Lit.Spec

/-- `text` is an (optionally negated) C/POSIX integer constant denoting `n`. -/
inductive Denotes : List Int → Int → Prop
  | pos {cs : List Nat} {b ds} : Literal cs b ds → Denotes (cs.map Int.ofNat) (value b ds)
  | neg {cs : List Nat} {b ds} : Literal cs b ds → Denotes (45 :: cs.map Int.ofNat) (-(value b ds : Int))

theorem value_append (b : Nat) (ds : List Nat) (d : Nat) :
    value b (ds ++ [d]) = value b ds * b + d := by
  simp [value]

theorem spells_append {b : Nat} {cs ds : List Nat} {c d : Nat} (h : Spells b cs ds)
    (hc : IsDigit c d) (hd : d < b) : Spells b (cs ++ [c]) (ds ++ [d]) := by
  induction h with
  | nil => exact .cons hc hd .nil
  | cons h1 h2 h3 ih => exact .cons h1 h2 ih

/-- shared shape of the three printers: digits of `n` without leading zero -/
def IsDigitsOf (b n : Nat) (out : List Int) : Prop :=
  ∃ cs ds, out = cs.map Int.ofNat ∧ Spells b cs ds ∧ value b ds = n ∧ ds ≠ [] ∧
    (n ≠ 0 → ds.head? ≠ some 0) ∧ (n = 0 → ds = [0])

theorem isDigitsOf_single {b n : Nat} (hn : n < b) {c : Nat} (hc : IsDigit c n) :
    IsDigitsOf b n [(c : Int)] :=
  ⟨[c], [n], rfl, .cons hc hn .nil, by simp [value], by simp, by simp, by simp⟩

theorem isDigitsOf_snoc {b n : Nat} {out : List Int} (hb : 2 ≤ b) (hn : b ≤ n)
    (h : IsDigitsOf b (n / b) out) {c : Nat} (hc : IsDigit c (n % b)) :
    IsDigitsOf b n (out ++ [(c : Int)]) := by
  obtain ⟨cs, ds, e, hs, hv, hne, h0, -⟩ := h
  have hq : n / b ≠ 0 := by
    have : 0 < n / b := Nat.div_pos hn (by omega)
    omega
  refine ⟨cs ++ [c], ds ++ [n % b], by simp [e], spells_append hs hc (Nat.mod_lt _ (by omega)),
    ?_, by simp, ?_, by omega⟩
  · rw [value_append, hv, Nat.mul_comm]; exact Nat.div_add_mod n b
  · intro _
    have := h0 hq
    cases ds with
    | nil => exact absurd rfl hne
    | cons d ds => simpa using this

theorem putintAux_digits (n : Nat) : IsDigitsOf 10 n (putintAux (-(n : Int))) := by
  induction n using Nat.strongRecOn with
  | ind n ih =>
    have e1 : (-(n : Int)).tmod 10 = -((n % 10 : Nat) : Int) := by
      rw [Int.neg_tmod]; rfl
    have e2 : (-(n : Int)).tdiv 10 = -((n / 10 : Nat) : Int) := by
      rw [Int.neg_tdiv]; rfl
    have e3 : (48 : Int) - -((n % 10 : Nat) : Int) = ((48 + n % 10 : Nat) : Int) := by omega
    rw [putintAux, e1, e2, e3]
    split
    · exact isDigitsOf_snoc (by omega) (by omega) (ih _ (by omega)) (.dec _ (by omega))
    · rw [List.nil_append, Nat.mod_eq_of_lt (by omega)]
      exact isDigitsOf_single (by omega) (.dec _ (by omega))

theorem and_toNat (n : BitVec 32) (k : Nat) (hk : k < 32) :
    (n &&& BitVec.ofNat 32 (2 ^ k - 1)).toNat = n.toNat % 2 ^ k := by
  have h : 2 ^ k ≤ 2 ^ 31 := Nat.pow_le_pow_right (by omega) (by omega)
  rw [BitVec.toNat_and, BitVec.toNat_ofNat, Nat.mod_eq_of_lt (a := 2 ^ k - 1) (by omega),
    Nat.and_two_pow_sub_one_eq_mod]

theorem hexChar_isDigit (d : Nat) (h : d < 16) : ∃ c : Nat, hexChars.getD d 0 = c ∧ IsDigit c d := by
  rcases Nat.lt_or_ge d 10 with h1 | h1
  · refine ⟨48 + d, ?_, .dec d h1⟩
    match d, h1 with
    | 0, _ | 1, _ | 2, _ | 3, _ | 4, _ | 5, _ | 6, _ | 7, _ | 8, _ | 9, _ => rfl
  · refine ⟨97 + (d - 10), ?_, .lower d h1 (by omega)⟩
    match d, h1, h with
    | 10, _, _ | 11, _, _ | 12, _, _ | 13, _, _ | 14, _, _ | 15, _, _ => rfl
    | k + 16, _, h => omega

theorem puthex_digits (n : BitVec 32) : IsDigitsOf 16 n.toNat (puthex n) := by
  induction hk : n.toNat using Nat.strongRecOn generalizing n with
  | ind k ih =>
    have e1 : (n &&& 15#32).toNat = k % 16 := by rw [← hk]; exact and_toNat n 4 (by omega)
    obtain ⟨c, hc, hd⟩ := hexChar_isDigit (k % 16) (by omega)
    rw [puthex, e1, hc]
    have e2 := shiftMask4_toNat n
    split
    · rename_i hne
      have : (shiftMask n 4 0x0fffffff#32).toNat ≠ 0 := fun h =>
        hne (BitVec.eq_of_toNat_eq (by simpa using h))
      refine isDigitsOf_snoc (by omega) (by omega) ?_ hd
      have := ih (k / 16) (by omega) (shiftMask n 4 0x0fffffff#32) (by rw [e2, hk])
      exact this
    · rename_i hz
      have hz' : shiftMask n 4 0x0fffffff#32 = 0#32 := by simpa using hz
      rw [hz'] at e2
      simp at e2
      rw [Nat.mod_eq_of_lt (by omega)] at hd
      exact isDigitsOf_single (by omega) hd

theorem putoct_digits (n : BitVec 32) : IsDigitsOf 8 n.toNat (putoct n) := by
  induction hk : n.toNat using Nat.strongRecOn generalizing n with
  | ind k ih =>
    have e1 : (n &&& 7#32).toNat = k % 8 := by rw [← hk]; exact and_toNat n 3 (by omega)
    have e1' : (48 : Int) + (n &&& 7#32).toInt = ((48 + k % 8 : Nat) : Int) := by
      rw [BitVec.toInt_eq_toNat_of_lt (by omega), e1]; omega
    have hd : IsDigit (48 + k % 8) (k % 8) := .dec _ (by omega)
    rw [putoct, e1']
    have e2 := shiftMask3_toNat n
    split
    · rename_i hne
      have : (shiftMask n 3 0x1fffffff#32).toNat ≠ 0 := fun h =>
        hne (BitVec.eq_of_toNat_eq (by simpa using h))
      refine isDigitsOf_snoc (by omega) (by omega) ?_ hd
      have := ih (k / 8) (by omega) (shiftMask n 3 0x1fffffff#32) (by rw [e2, hk])
      exact this
    · rename_i hz
      have hz' : shiftMask n 3 0x1fffffff#32 = 0#32 := by simpa using hz
      rw [hz'] at e2
      simp at e2
      rw [Nat.mod_eq_of_lt (by omega)] at hd ⊢
      exact isDigitsOf_single (by omega) hd

theorem literal_of_digits {n : Nat} {out : List Int} (h : IsDigitsOf 10 n out) :
    ∃ cs b ds, out = cs.map Int.ofNat ∧ Literal cs b ds ∧ value b ds = n := by
  obtain ⟨cs, ds, e, hs, hv, hne, h0, hz⟩ := h
  by_cases hn : n = 0
  · have := hz hn
    subst this
    refine ⟨[48], 8, [], ?_, .oct .nil, by simp [value, hn]⟩
    cases hs with
    | cons h1 h2 h3 =>
      cases h3
      have := Lit.digitOf_of_isDigit h1
      cases h1
      · rename_i h; simp [e]
      · omega
      · omega
  · exact ⟨cs, 10, ds, e, .dec hs (h0 hn) hne, hv⟩

/-- **C07**: a decimal number is printed with a minus sign just when it is negative. -/
theorem C07_putint_sign (n : BitVec 32) : (printInt (.dec n)).head? = some 45 ↔ n.toInt < 0 := by
  simp only [printInt, putint]
  split
  · next h => simp [h]
  · next h =>
    refine iff_of_false ?_ h
    have h2 : ∀ k : Nat, (putintAux (-(k : Int))).head? ≠ some 45 := by
      intro k
      induction k using Nat.strongRecOn with
      | ind k ih =>
        have e1 : (-(k : Int)).tdiv 10 = -((k / 10 : Nat) : Int) := by rw [Int.neg_tdiv]; rfl
        have e2 : (-(k : Int)).tmod 10 = -((k % 10 : Nat) : Int) := by rw [Int.neg_tmod]; rfl
        rw [putintAux, e1, e2]
        split
        · have hk := ih (k / 10) (by omega)
          cases hc : putintAux (-((k / 10 : Nat) : Int)) with
          | nil => simp; omega
          | cons a l => rw [hc] at hk; simpa using hk
        · simp; omega
    have := h2 n.toInt.toNat
    rwa [show ((n.toInt.toNat : Nat) : Int) = n.toInt by omega] at this


/-- **C07, decimal.** Every 32-bit integer, including the most negative one, is printed as an
integer constant (with a minus sign when negative) that denotes exactly that integer. -/
theorem C07_putint (n : BitVec 32) : Denotes (printInt (.dec n)) n.toInt := by
  simp only [printInt, putint]
  split
  · obtain ⟨cs, b, ds, e, hl, hv⟩ := literal_of_digits (putintAux_digits n.toInt.natAbs)
    have e1 : -((n.toInt.natAbs : Nat) : Int) = n.toInt := by omega
    rw [e1] at e
    rw [e]
    have := Denotes.neg hl
    rwa [hv, e1] at this
  · obtain ⟨cs, b, ds, e, hl, hv⟩ := literal_of_digits (putintAux_digits n.toInt.natAbs)
    have e1 : ((n.toInt.natAbs : Nat) : Int) = n.toInt := by omega
    rw [e1] at e
    rw [e]
    have := Denotes.pos hl
    rwa [hv, e1] at this

/-- **C07, hexadecimal.** The constant printed denotes the 32-bit pattern read as unsigned; for a
non-negative value (the only ones the scanner produces for literals up to 2^31-1) that is the value
itself. -/
theorem C07_puthex (n : BitVec 32) : Denotes (printInt (.hex n)) n.toNat := by
  obtain ⟨cs, ds, e, hs, hv, hne, -, -⟩ := puthex_digits n
  have := Denotes.pos (Literal.hexl hs hne)
  rw [hv] at this
  simp only [printInt, e]
  exact this

/-- **C07, octal.** -/
theorem C07_putoct (n : BitVec 32) : Denotes (printInt (.oct n)) n.toNat := by
  obtain ⟨cs, ds, e, hs, hv, -, -, -⟩ := putoct_digits n
  have := Denotes.pos (Literal.oct hs)
  rw [hv] at this
  simp only [printInt, e]
  exact this

/-- Hexadecimal and octal output of non-negative 32-bit integers is exact. -/
theorem C07_hex_oct_nonneg (n : BitVec 32) (h : 0 ≤ n.toInt) :
    Denotes (printInt (.hex n)) n.toInt ∧ Denotes (printInt (.oct n)) n.toInt := by
  have e : n.toInt = n.toNat := by
    rw [BitVec.toInt_eq_toNat_cond] at h ⊢
    have := n.isLt
    split
    · rfl
    · rename_i hn; rw [if_neg hn] at h; omega
  rw [e]
  exact ⟨C07_puthex n, C07_putoct n⟩

/-- The meaning of a printed integer constant is unique, so "denotes" cannot hold for a wrong
value. -/
theorem C07_denotes_unique {t : List Int} {m n : Int} (hm : Denotes t m) (hn : Denotes t n)
    : m = n := by
  have inj : ∀ {a b : List Nat}, a.map Int.ofNat = b.map Int.ofNat → a = b := by
    intro a b h
    exact (List.map_inj_right (fun x y hxy => by injection hxy)).mp h
  -- the digits are determined by the spelling
  have sp : ∀ {b : Nat} {cs ds ds' : List Nat}, Spells b cs ds → Spells b cs ds' → ds = ds' := by
    intro b cs ds ds' h
    induction h generalizing ds' with
    | nil => intro h'; cases h'; rfl
    | cons h1 h2 h3 ih =>
      intro h'
      cases h' with
      | cons g1 g2 g3 =>
        rw [← Lit.digitOf_of_isDigit h1, ← Lit.digitOf_of_isDigit g1, ih g3]
  have nox : ∀ {b : Nat} {c : Nat} {cs ds : List Nat}, (c = 120 ∨ c = 88) → b ≤ 16 →
      Spells b (c :: cs) ds → False := by
    intro b c cs ds hc hb h
    cases h with
    | cons h1 h2 h3 =>
      have := Lit.digitOf_of_isDigit h1
      rcases hc with rfl | rfl <;> (simp [Lit.digitOf] at this; omega)
  have no0 : ∀ {cs ds : List Nat}, Spells 10 (48 :: cs) ds → ds.head? = some 0 := by
    intro cs ds h
    cases h with
    | cons h1 h2 h3 =>
      have := Lit.digitOf_of_isDigit h1
      simp [Lit.digitOf] at this
      simp [← this]
  have lit : ∀ {cs : List Nat} {b b' : Nat} {ds ds' : List Nat}, Literal cs b ds →
      Literal cs b' ds' → value b ds = value b' ds' := by
    intro cs b b' ds ds' h h'
    cases h with
    | dec hs h0 hne =>
      cases h' with
      | dec hs' _ _ => rw [sp hs hs']
      | oct hs' => exact absurd (no0 hs) h0
      | hexl hs' _ => exact absurd (no0 hs) h0
      | hexu hs' _ => exact absurd (no0 hs) h0
    | oct hs =>
      cases h' with
      | dec hs' h0' _ => exact absurd (no0 hs') h0'
      | oct hs' => rw [sp hs hs']
      | hexl hs' _ => exact (nox (.inl rfl) (by omega) hs).elim
      | hexu hs' _ => exact (nox (.inr rfl) (by omega) hs).elim
    | hexl hs hne =>
      cases h' with
      | dec hs' h0' _ => exact absurd (no0 hs') h0'
      | oct hs' => exact (nox (.inl rfl) (by omega) hs').elim
      | hexl hs' _ => rw [sp hs hs']
    | hexu hs hne =>
      cases h' with
      | dec hs' h0' _ => exact absurd (no0 hs') h0'
      | oct hs' => exact (nox (.inr rfl) (by omega) hs').elim
      | hexu hs' _ => rw [sp hs hs']
  have nominus : ∀ {cs : List Nat} {b : Nat} {ds : List Nat} {t : List Int}, Literal cs b ds →
      cs.map Int.ofNat ≠ 45 :: t := by
    intro cs b ds t h
    cases h with
    | dec hs _ hne =>
      cases hs with
      | nil => exact absurd rfl hne
      | @cons c d cs ds h1 h2 h3 =>
        intro he
        injection he with he _
        have hc : c = 45 := by injection he
        subst hc
        have := Lit.digitOf_of_isDigit h1
        simp [Lit.digitOf] at this; omega
    | oct _ => intro he; injection he with he _; injection he with he; omega
    | hexl _ _ => intro he; injection he with he _; injection he with he; omega
    | hexu _ _ => intro he; injection he with he _; injection he with he; omega
  generalize ht : t = t' at hn
  cases hm with
  | pos h =>
    cases hn with
    | pos h' => rw [inj ht] at h; exact congrArg Int.ofNat (lit h h')
    | neg h' => exact absurd ht (nominus h)
  | neg h =>
    cases hn with
    | pos h' => exact absurd ht.symm (nominus h')
    | neg h' =>
      injection ht with _ ht
      rw [inj ht] at h
      have := lit h h'
      omega

/-- Token pasting / stringification of integers (`accum_string_integer`): exact for every `int`
except `INT_MIN`, where the code overflows. -/
theorem C07_accum_string_integer (n : Int) (h1 : -2147483648 < n) :
    ∃ t, accumStringInteger n = .ok t ∧ Denotes t n := by
  have key : ∀ k : Nat, IsDigitsOf 10 k (accumStringNat k) := by
    intro k
    induction k using Nat.strongRecOn with
    | ind k ih =>
      rw [accumStringNat]
      have e3 : (48 : Int) + ((k % 10 : Nat) : Int) = ((48 + k % 10 : Nat) : Int) := by omega
      rw [e3]
      split
      · exact isDigitsOf_snoc (by omega) (by omega) (ih _ (by omega)) (.dec _ (by omega))
      · rw [List.nil_append, Nat.mod_eq_of_lt (by omega)]
        exact isDigitsOf_single (by omega) (.dec _ (by omega))
  unfold accumStringInteger
  split
  · rw [if_neg (by omega)]
    obtain ⟨cs, b, ds, e, hl, hv⟩ := literal_of_digits (key (-n).toNat)
    refine ⟨_, rfl, ?_⟩
    rw [e]
    have := Denotes.neg hl
    rw [hv] at this
    rwa [show -(((-n).toNat : Nat) : Int) = n by omega] at this
  · obtain ⟨cs, b, ds, e, hl, hv⟩ := literal_of_digits (key n.toNat)
    refine ⟨_, rfl, ?_⟩
    rw [e]
    have := Denotes.pos hl
    rw [hv] at this
    rwa [show ((n.toNat : Nat) : Int) = n by omega] at this

/-- **C07: negative values printed in hexadecimal do not denote themselves** in shells whose
arithmetic is wider than 32 bits: -1 is printed as `0xffffffff`. -/
theorem C07_negative_hex_false : ¬ Denotes (printInt (.hex (BitVec.ofInt 32 (-1)))) (-1) := by
  intro h
  have := C07_denotes_unique h (C07_puthex (BitVec.ofInt 32 (-1)))
  simp at this

/-! Non-vacuity: INT_MIN. -/
example : Denotes (printInt (.dec (BitVec.ofInt 32 (-2147483648)))) (-2147483648) :=
  C07_putint (BitVec.ofInt 32 (-2147483648))
example : printInt (.dec (BitVec.ofInt 32 (-207))) = [45, 50, 48, 55] := by
  simp [printInt, putint, putintAux]
example : printInt (.hex 0xa0f#32) = [48, 120, 97, 48, 102] := by
  simp [printInt, puthex, shiftMask4, hexChars]

end Verif.Num
