import Verif.RtPrintf.Supp
/-! Digits; the text given to the shell's `printf` is read back. -/
namespace Verif.RtPrintf

theorem isFlag_iff (c : Nat) : isFlag c = true ↔ c = 32 ∨ c = 35 ∨ c = 43 ∨ c = 45 ∨ c = 48 := by
  simp [isFlag]
theorem isDigit_iff (c : Nat) : isDigit c = true ↔ 48 ≤ c ∧ c ≤ 57 := by simp [isDigit]
theorem isSigned_iff (c : Nat) : isSigned c = true ↔ c = 100 ∨ c = 105 := by simp [isSigned]
theorem isUnsigned_iff (c : Nat) : isUnsigned c = true ↔ c = 111 ∨ c = 117 ∨ c = 120 ∨ c = 88 := by
  simp [isUnsigned]

theorem digitsAux_acc (k : Nat) (n : Nat) (acc : List Nat) :
    digitsAux k 10 false n acc = digitsAux k 10 false n [] ++ acc := by
  induction k generalizing n acc with
  | zero => rfl
  | succ k ih =>
    simp only [digitsAux]
    split
    · rfl
    · rw [ih (n / 10) (_ :: acc), ih (n / 10) [_]]; simp

theorem decVal_append (a : List Nat) (d : Nat) : decVal (a ++ [d]) = 10 * decVal a + (d - 48) := by
  simp [decVal]

theorem digitsAux_val (k : Nat) : ∀ n, n ≤ k →
    decVal (digitsAux k 10 false n []) = n ∧ (∀ d ∈ digitsAux k 10 false n [], isDigit d = true) ∧
      (n ≠ 0 → ∃ d r, digitsAux k 10 false n [] = d :: r ∧ d ≠ 48) := by
  induction k with
  | zero => intro n h; have : n = 0 := by omega
            subst this; simp [digitsAux, decVal]
  | succ k ih =>
    intro n h
    by_cases h0 : n = 0
    · subst h0; simp [digitsAux, decVal]
    · have hd : digitsAux (k + 1) 10 false n [] = digitsAux k 10 false (n / 10) [] ++ [48 + n % 10] := by
        simp only [digitsAux, if_neg h0]
        rw [digitsAux_acc]
        have : n % 10 < 10 := Nat.mod_lt _ (by omega)
        simp [digitChar, this]
      obtain ⟨i1, i2, i3⟩ := ih (n / 10) (by omega)
      rw [hd]
      refine ⟨?_, ?_, fun _ => ?_⟩
      · rw [decVal_append, i1]; omega
      · intro d hm
        rcases List.mem_append.mp hm with hm | hm
        · exact i2 d hm
        · simp only [List.mem_singleton] at hm
          subst hm; rw [isDigit_iff]; omega
      · by_cases h1 : n / 10 = 0
        · refine ⟨48 + n % 10, [], ?_, by omega⟩
          rw [h1]; cases k <;> simp [digitsAux]
        · obtain ⟨d, r, e, hne⟩ := i3 h1
          exact ⟨d, r ++ [48 + n % 10], by rw [e]; rfl, hne⟩

theorem showNat_pos {n : Nat} (h : n ≠ 0) :
    decVal (showNat n) = n ∧ (∀ d ∈ showNat n, isDigit d = true) ∧ ∃ d r, showNat n = d :: r ∧ d ≠ 48 := by
  obtain ⟨a, b, c⟩ := digitsAux_val n n (Nat.le_refl n)
  simp only [showNat, if_neg h, digits]
  exact ⟨a, b, c h⟩

theorem showNat_digit {c : Nat} (h : isDigit c = true) : showNat (c - 48) = [c] := by
  rw [isDigit_iff] at h
  have : c = 48 ∨ c = 49 ∨ c = 50 ∨ c = 51 ∨ c = 52 ∨ c = 53 ∨ c = 54 ∨ c = 55 ∨ c = 56 ∨ c = 57 := by omega
  rcases this with h | h | h | h | h | h | h | h | h | h <;> subst h <;> rfl

theorem takeWhile_all {p : Nat → Bool} {l r : List Nat} (h : ∀ x ∈ l, p x = true)
    (hr : ∀ c, r.head? = some c → p c = false) : (l ++ r).takeWhile p = l ∧ (l ++ r).dropWhile p = r := by
  induction l with
  | nil =>
    cases r with
    | nil => exact ⟨rfl, rfl⟩
    | cons c r => have := hr c rfl; simp [List.takeWhile, List.dropWhile, this]
  | cons a l ih =>
    have ha := h a (by simp)
    obtain ⟨i1, i2⟩ := ih (fun x hx => h x (by simp [hx]))
    simp [ha, i1, i2]

/-- The text of a precision: nothing or `.` and digits. -/
def PrecText : List Nat → Option Nat → Prop
  | [], p => p = none
  | c :: ds, p => c = 46 ∧ (∀ d ∈ ds, isDigit d = true) ∧ p = some (decVal ds)

theorem utilParse_text {fl w p : List Nat} {q : Option Nat} {ch : Nat}
    (hf : ∀ c ∈ fl, isFlag c = true) (hw : ∀ c ∈ w, isDigit c = true) (hw0 : ∀ c, w.head? = some c → c ≠ 48)
    (hp : PrecText p q) (h1 : isFlag ch = false) (h2 : isDigit ch = false) (h3 : ch ≠ 46) :
    utilParse (fl ++ w ++ p ++ [ch]) = some (Flags.of fl, decVal w, q, ch) := by
  have hnd : ∀ c, isDigit c = true → c ≠ 48 → isFlag c = false := by
    intro c hc h0
    rw [isDigit_iff] at hc
    cases hfc : isFlag c with
    | false => rfl
    | true => rw [isFlag_iff] at hfc; omega
  cases p with
  | nil =>
    simp only [PrecText] at hp; subst hp
    have e1 := takeWhile_all (p := isFlag) (l := fl) (r := w ++ [ch]) hf (by
      intro c hc
      cases w with
      | nil => simp at hc; subst hc; exact h1
      | cons a w =>
        simp at hc; subst hc
        exact hnd a (hw a (by simp)) (hw0 a rfl))
    have e2 := takeWhile_all (p := isDigit) (l := w) (r := [ch]) hw (by
      intro c hc; simp at hc; subst hc; exact h2)
    have e : fl ++ w ++ [] ++ [ch] = fl ++ (w ++ [ch]) := by simp
    rw [e, utilParse]
    simp only [e1.1, e1.2, e2.1, e2.2]
  | cons dot ds =>
    obtain ⟨rfl, hds, rfl⟩ := hp
    have e1 := takeWhile_all (p := isFlag) (l := fl) (r := w ++ 46 :: (ds ++ [ch])) hf (by
      intro c hc
      cases w with
      | nil => simp at hc; subst hc; rfl
      | cons a w =>
        simp at hc; subst hc
        exact hnd a (hw a (by simp)) (hw0 a rfl))
    have e2 := takeWhile_all (p := isDigit) (l := w) (r := 46 :: (ds ++ [ch])) hw (by
      intro c hc; simp at hc; subst hc; rfl)
    have e3 := takeWhile_all (p := isDigit) (l := ds) (r := [ch]) hds (by
      intro c hc; simp at hc; subst hc; exact h2)
    have e : fl ++ w ++ 46 :: ds ++ [ch] = fl ++ (w ++ 46 :: (ds ++ [ch])) := by simp
    rw [e, utilParse]
    simp only [e1.1, e1.2, e2.1, e2.2, e3.1, e3.2]

/-- The flags and width read by the utility where a width text `w` follows the flags. -/
def WidthText (fl : List Nat) (w : List Nat) (F : Flags) (W : Nat) : Prop :=
  ∃ fl' w', fl ++ w = fl' ++ w' ∧ (∀ c ∈ fl', isFlag c = true) ∧ (∀ c ∈ w', isDigit c = true) ∧
    (∀ c, w'.head? = some c → c ≠ 48) ∧ decVal w' = W ∧
    (Flags.of fl' = F ∨ (W = 0 ∧ Flags.of fl' = { F with zero := true }))

theorem WidthText.no {fl : List Nat} (hf : ∀ c ∈ fl, isFlag c = true) : WidthText fl [] (Flags.of fl) 0 :=
  ⟨fl, [], rfl, hf, by simp, by simp, rfl, .inl rfl⟩

theorem WidthText.lit {fl ds : List Nat} (hf : ∀ c ∈ fl, isFlag c = true) (hd : ∀ c ∈ ds, isDigit c = true)
    (h0 : ∀ c, ds.head? = some c → c ≠ 48) : WidthText fl ds (Flags.of fl) (decVal ds) :=
  ⟨fl, ds, rfl, hf, hd, h0, rfl, .inl rfl⟩

theorem WidthText.pos {fl : List Nat} (hf : ∀ c ∈ fl, isFlag c = true) {v : Int} (h : 0 ≤ v) :
    WidthText fl (showInt v) (Flags.of fl) v.natAbs := by
  have hs : showInt v = showNat v.natAbs := by simp only [showInt]; rw [if_neg (by omega)]
  rw [hs]
  by_cases h0 : v.natAbs = 0
  · rw [h0]
    refine ⟨fl ++ [48], [], by simp [showNat], ?_, by simp, by simp, rfl, .inr ⟨rfl, ?_⟩⟩
    · intro c hc
      rcases List.mem_append.mp hc with hc | hc
      · exact hf c hc
      · simp at hc; subst hc; rfl
    · simp [Flags.of]
  · obtain ⟨a, b, d, r, e, hne⟩ := showNat_pos h0
    refine ⟨fl, showNat v.natAbs, rfl, hf, b, ?_, a, .inl rfl⟩
    intro c hc; rw [e] at hc; simp at hc; subst hc; exact hne

theorem WidthText.neg {fl : List Nat} (hf : ∀ c ∈ fl, isFlag c = true) {v : Int} (h : v < 0) :
    WidthText fl (showInt v) { Flags.of fl with minus := true } v.natAbs := by
  have hs : showInt v = 45 :: showNat v.natAbs := by simp only [showInt]; rw [if_pos h]
  rw [hs]
  obtain ⟨a, b, d, r, e, hne⟩ := showNat_pos (n := v.natAbs) (by omega)
  refine ⟨fl ++ [45], showNat v.natAbs, by simp, ?_, b, ?_, a, .inl ?_⟩
  · intro c hc
    rcases List.mem_append.mp hc with hc | hc
    · exact hf c hc
    · simp at hc; subst hc; rfl
  · intro c hc; rw [e] at hc; simp at hc; subst hc; exact hne
  · simp [Flags.of]

theorem field_zero (fl : Flags) (z z' : Bool) (pre body : List Nat) :
    field fl z 0 pre body = field fl z' 0 pre body := by
  simp [field]

theorem field_flags {fl fl' : Flags} (h : fl.minus = fl'.minus) (z : Bool) (w : Nat) (pre body : List Nat) :
    field fl z w pre body = field fl' z w pre body := by
  simp [field, h]

theorem layInt_zero (F : Flags) (p : Option Nat) (ch : Nat) (neg : Bool) (mag : Nat) :
    layInt { F with zero := true } 0 p ch neg mag = layInt F 0 p ch neg mag := by
  simp only [layInt]
  rw [field_zero _ _ (F.zero && p.isNone)]
  exact field_flags rfl _ _ _ _

/-- The text of flags, width and precision read by the utility. -/
theorem utilParse_width {fl w p : List Nat} {F : Flags} {W : Nat} {q : Option Nat} {ch : Nat}
    (hw : WidthText fl w F W) (hp : PrecText p q) (h1 : isFlag ch = false) (h2 : isDigit ch = false)
    (h3 : ch ≠ 46) :
    ∃ F', utilParse (fl ++ w ++ p ++ [ch]) = some (F', W, q, ch) ∧
      (F' = F ∨ (W = 0 ∧ F' = { F with zero := true })) := by
  obtain ⟨fl', w', e, a, b, c, d, f⟩ := hw
  refine ⟨Flags.of fl', ?_, f⟩
  rw [e, utilParse_text a b c hp h1 h2 h3, d]

theorem utilInt_signed {fl w p : List Nat} {F : Flags} {W : Nat} {q : Option Nat} {ch : Nat}
    (hw : WidthText fl w F W) (hp : PrecText p q) (hs : isSigned ch = true) (ha : F.alt = false) (v : Int) :
    utilInt (fl ++ w ++ p ++ [ch]) v = some (layInt F W q ch (decide (v < 0)) v.natAbs) := by
  have hc := (isSigned_iff ch).mp hs
  obtain ⟨F', e, hF⟩ := utilParse_width (ch := ch) hw hp (by rcases hc with rfl | rfl <;> rfl)
    (by rcases hc with rfl | rfl <;> rfl) (by omega)
  simp only [utilInt, e, hs, if_true]
  rcases hF with rfl | ⟨rfl, rfl⟩
  · simp [ha]
  · have := layInt_zero F q ch (decide (v < 0)) v.natAbs
    simp only [ha] at this ⊢
    simp [this]

theorem utilInt_unsigned {fl w p : List Nat} {F : Flags} {W : Nat} {q : Option Nat} {ch : Nat}
    (hw : WidthText fl w F W) (hp : PrecText p q) (hs : isUnsigned ch = true) (ha : ¬ (F.alt = true ∧ ch = 117))
    {v : Int} (h0 : 0 ≤ v) (h1 : v < 2 ^ 32) :
    utilInt (fl ++ w ++ p ++ [ch]) v = some (layInt F W q ch false (v % 2 ^ 32).toNat) := by
  have hc := (isUnsigned_iff ch).mp hs
  have hns : isSigned ch = false := by rcases hc with rfl | rfl | rfl | rfl <;> rfl
  obtain ⟨F', e, hF⟩ := utilParse_width (ch := ch) hw hp (by rcases hc with rfl | rfl | rfl | rfl <;> rfl)
    (by rcases hc with rfl | rfl | rfl | rfl <;> rfl) (by omega)
  have hv : (v % 2 ^ 64).toNat = (v % 2 ^ 32).toNat := by
    rw [Int.emod_eq_of_lt h0 (by omega), Int.emod_eq_of_lt h0 h1]
  simp only [utilInt, e, hns, hs, hv]
  rcases hF with rfl | ⟨rfl, rfl⟩
  · simp [ha]
  · simp [ha, layInt_zero]

theorem utilStr_ok {fl w p : List Nat} {F : Flags} {W : Nat} {q : Option Nat}
    (hw : WidthText fl w F W) (hz : W = 0 → w = []) (hp : PrecText p q)
    (h1 : F.plus = false) (h2 : F.space = false) (h3 : F.alt = false) (h4 : F.zero = false)
    (hfl : ∀ c ∈ fl, isFlag c = true) (hF : w = [] → F = Flags.of fl) (s : List Nat) :
    utilStr (fl ++ w ++ p ++ [115]) s = some (layStr F W q s) := by
  by_cases hW : W = 0
  · have hwn := hz hW
    subst hwn; subst hW
    have := utilParse_text (w := []) (ch := 115) hfl (by simp) (by simp) hp rfl rfl (by omega)
    rw [← hF rfl] at this
    simp only [utilStr, this]
    simp [h1, h2, h3, h4, decVal]
  · obtain ⟨F', e, hF'⟩ := utilParse_width (ch := 115) hw hp rfl rfl (by omega)
    rcases hF' with rfl | ⟨hh, _⟩
    · simp only [utilStr, e]
      simp [h1, h2, h3, h4]
    · exact absurd hh hW

end Verif.RtPrintf
