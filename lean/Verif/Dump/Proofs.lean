import Verif.Dump.Model
import Verif.Dump.Spec
import Verif.Front.Props
import Verif.Num.Props
/-! Lemmas: what `print_tok` writes is read back. -/
namespace Verif.Dump
open Verif Verif.Lex.Spec Verif.Lit.Spec Verif.Str.Spec

/-! White space -/

theorem splits_ws {sh : Bool} {c : Nat} (hc : Space c) {rest : List Nat} {ts : List Lex.Tok} (h : Splits sh rest ts) : Splits sh (c :: rest) ts := by
  cases h with
  | done h =>
    refine .done ?_
    cases h with
    | gap h => exact .gap (.space hc h)
    | line h h' => exact .line (g := c :: _) (.space hc h) h'
  | cons h1 h2 h3 h4 h5 => exact .cons (g := c :: _) (.space hc h1) h2 h3 h4 h5

theorem splits_indent {sh : Bool} {rest : List Nat} {ts : List Lex.Tok} (h : Splits sh rest ts) : ∀ n : Nat, Splits sh (List.replicate n 32 ++ rest) ts
  | 0 => by simpa using h
  | n + 1 => by
    rw [List.replicate_succ, List.cons_append]
    exact splits_ws (.inl rfl) (splits_indent h n)

/-! Preprocessing tokens by their first character -/

theorem num_head {s : List Nat} (h : PPNumber s) : ∃ c r, s = c :: r ∧ (Digit c ∨ c = 46) := by
  induction h with
  | digit h => exact ⟨_, _, rfl, .inl h⟩
  | dot h => exact ⟨_, _, rfl, .inr rfl⟩
  | more _ _ ih => obtain ⟨c, r, e, h⟩ := ih; exact ⟨c, _, by rw [e, List.cons_append], h⟩
  | sign _ _ _ ih => obtain ⟨c, r, e, h⟩ := ih; exact ⟨c, _, by rw [e, List.cons_append], h⟩

/-- A preprocessing token that starts with a character of punctuation is a punctuator or a digraph. -/
theorem pp_punct {a : Nat} {r : List Nat} (h : PP (a :: r)) (ha : a = 123 ∨ a = 125 ∨ a = 45) : ∃ p ∈ punctuators.map (·.1) ++ digraphs, p = a :: r := by
  generalize hs : a :: r = s at h
  cases h with
  | ident h =>
    obtain ⟨⟨c, t, e, hc⟩, -⟩ := Lex.ident_all h
    rw [e] at hs
    obtain ⟨rfl, -⟩ := List.cons.inj hs
    rcases hc with hc | hc | hc <;> omega
  | number h =>
    obtain ⟨c, t, e, hc⟩ := num_head h
    rw [e] at hs
    obtain ⟨rfl, -⟩ := List.cons.inj hs
    rcases hc with ⟨hc, _⟩ | hc <;> omega
  | char | string | lchar | lstring =>
    obtain ⟨rfl, -⟩ := List.cons.inj hs
    omega
  | punct h => exact ⟨_, List.mem_append_left _ (List.mem_map_of_mem h), rfl⟩
  | digraph h => exact ⟨_, List.mem_append_right _ h, rfl⟩

theorem longest_brace {a : Nat} (ha : a = 123 ∨ a = 125) (rest : List Nat) : Longest [a] rest := by
  intro k hk hk' hp
  obtain ⟨p, hp, e⟩ := pp_punct (a := a) (r := rest.take k) hp (by omega)
  have : ∀ p ∈ punctuators.map (·.1) ++ digraphs, p.head? = some 123 ∨ p.head? = some 125 → p.length = 1 := by decide +kernel
  have := this p hp (by rw [e]; simp; omega)
  rw [e, List.length_cons, List.length_take] at this
  omega

theorem longest_minus {d : Nat} (hd : Digit d) (rest : List Nat) : Longest [45] (d :: rest) := by
  intro k hk hk' hp
  cases k with
  | zero => omega
  | succ k =>
    obtain ⟨p, hp, e⟩ := pp_punct (a := 45) (r := (d :: rest).take (k + 1)) hp (by omega)
    have : ∀ p ∈ punctuators.map (·.1) ++ digraphs, p.head? = some 45 → p[1]?.all (fun c => !(48 ≤ c && c ≤ 57)) = true := by decide +kernel
    have := this p hp (by rw [e]; rfl)
    rw [e] at this
    simp at this
    have h1 := hd.1
    have h2 := hd.2
    omega

theorem chars_closed {q : Nat} (hq : q ≠ 92) {cs : List Nat} (h : Chars q cs) (t : List Nat) : ¬ Chars q (cs ++ q :: t) := by
  induction h with
  | nil =>
    intro h
    generalize hs : [] ++ q :: t = s at h
    cases h with
    | nil => cases hs
    | plain h => exact h (List.cons.inj hs).1.symm
    | simple | oct | hex => exact hq (List.cons.inj hs).1
  | @plain c s h1 h2 h3 _ ih =>
    intro h
    simp only [List.cons_append] at h
    generalize s ++ q :: t = z at h ih
    cases h with
    | plain _ _ _ h => exact ih h
    | simple | oct | hex => exact h2 rfl
  | @simple e s he _ ih =>
    intro h
    simp only [List.cons_append] at h
    generalize s ++ q :: t = z at h ih
    cases h with
    | plain _ h => exact h rfl
    | simple _ h => exact ih h
    | oct a b => simp at he; omega
    | hex => simp at he
  | @oct d s a b _ ih =>
    intro h
    simp only [List.cons_append] at h
    generalize s ++ q :: t = z at h ih
    cases h with
    | plain _ h => exact h rfl
    | simple _ h => exact ih h
    | oct _ _ h => exact ih h
    | hex => omega
  | @hex c d s a b _ ih =>
    intro h
    simp only [List.cons_append] at h
    generalize s ++ q :: t = z at h ih
    cases h with
    | plain _ h => exact h rfl
    | simple h => simp at h
    | oct _ h => omega
    | hex _ _ h => exact ih h

theorem snoc_split {cs t s : List Nat} {q q' : Nat} (ht : t ≠ []) (h : cs ++ [q] ++ t = s ++ [q']) : ∃ t', s = cs ++ q :: t' := by
  obtain ⟨t', b, rfl⟩ : ∃ t' b, t = t' ++ [b] := ⟨t.dropLast, t.getLast ht, (List.dropLast_concat_getLast ht).symm⟩
  rw [← List.append_assoc] at h
  obtain ⟨h, -⟩ := List.append_inj' h rfl
  exact ⟨t', by rw [← h]; simp⟩

theorem longest_quoted {q : Nat} (hq : q = 39 ∨ q = 34) {cs : List Nat} (h : Chars q cs) (rest : List Nat) : Longest (q :: cs ++ [q]) rest := by
  intro k hk hk' hp
  have hne : rest.take k ≠ [] := by
    intro h0
    have := congrArg List.length h0
    rw [List.length_take, List.length_nil] at this
    omega
  generalize hs : q :: cs ++ [q] ++ rest.take k = s at hp
  rw [List.cons_append, List.cons_append] at hs
  cases hp with
  | ident h =>
    obtain ⟨⟨c, t, e, hc⟩, -⟩ := Lex.ident_all h
    rw [e] at hs
    obtain ⟨rfl, -⟩ := List.cons.inj hs
    rcases hc with hc | hc | hc <;> omega
  | number h =>
    obtain ⟨c, t, e, hc⟩ := num_head h
    rw [e] at hs
    obtain ⟨rfl, -⟩ := List.cons.inj hs
    rcases hc with ⟨hc, _⟩ | hc <;> omega
  | char _ hc =>
    obtain ⟨rfl, e⟩ := List.cons.inj hs
    obtain ⟨t', rfl⟩ := snoc_split hne e
    exact chars_closed (by omega) h _ hc
  | string hc =>
    obtain ⟨rfl, e⟩ := List.cons.inj hs
    obtain ⟨t', rfl⟩ := snoc_split hne e
    exact chars_closed (by omega) h _ hc
  | lchar | lstring =>
    obtain ⟨rfl, -⟩ := List.cons.inj hs
    omega
  | punct h =>
    have : ∀ p ∈ punctuators, p.1.head? ≠ some 39 ∧ p.1.head? ≠ some 34 := by decide +kernel
    have := this _ h
    rw [← hs] at this
    simp at this
    omega
  | digraph h =>
    have : ∀ p ∈ digraphs, p.head? ≠ some 39 ∧ p.head? ≠ some 34 := by decide +kernel
    have := this _ h
    rw [← hs] at this
    simp at this
    omega

/-! Numbers -/

theorem put_ofNat {c : Nat} (h : c < 256) : put (Int.ofNat c) = c := by
  simp only [put]
  show ((c : Int) % 256).toNat = c
  omega

theorem spells_lt {b : Nat} {cs ds : List Nat} (h : Spells b cs ds) : ∀ c ∈ cs, c < 128 := by
  induction h with
  | nil => simp
  | cons hd _ _ ih =>
    intro c hc
    rcases List.mem_cons.1 hc with rfl | hc
    · cases hd <;> omega
    · exact ih c hc

theorem literal_lt {b : Nat} {cs ds : List Nat} (h : Literal cs b ds) : ∀ c ∈ cs, c < 128 := by
  cases h with
  | dec h => exact spells_lt h
  | oct h => intro c hc; rcases List.mem_cons.1 hc with rfl | hc; omega; exact spells_lt h c hc
  | hexl h | hexu h =>
    intro c hc
    rcases List.mem_cons.1 hc with rfl | hc
    · omega
    rcases List.mem_cons.1 hc with rfl | hc
    · omega
    · exact spells_lt h c hc

theorem map_put {cs : List Nat} (h : ∀ c ∈ cs, c < 256) : (cs.map Int.ofNat).map put = cs := by
  induction cs with
  | nil => rfl
  | cons c cs ih =>
    rw [List.map_cons, List.map_cons, put_ofNat (h c (by simp)), ih fun x hx => h x (by simp [hx])]

/-- `putint` of a number of either sign; the base is 10, or 8 for the literal 0. -/
theorem putn_digits (n : Nat) : ∃ cs b ds, (Num.putintAux (-(n : Int))).map put = cs ∧ Literal cs b ds ∧ value b ds = n ∧ (b = 10 ∨ b = 8 ∧ n = 0) := by
  obtain ⟨cs, ds, e, hs, hv, hne, h0, hz⟩ := Num.putintAux_digits n
  rw [e, map_put fun c hc => by have := spells_lt hs c hc; omega]
  by_cases hn : n = 0
  · have := hz hn
    subst this
    cases hs with
    | @cons c _ _ _ hd _ ht =>
      cases ht
      refine ⟨_, 8, [], rfl, ?_, by simp [value, hn], .inr ⟨rfl, hn⟩⟩
      have : c = 48 := by
        generalize hz' : 0 = z at hd
        cases hd <;> omega
      rw [this]
      exact .oct .nil
  · exact ⟨cs, 10, ds, rfl, .dec hs (h0 hn) hne, hv, .inl rfl⟩

theorem putn_neg {n : Nat} (h : 0 < n) : putn (-(n : Int)) = 45 :: (Num.putintAux (-(n : Int))).map put := by
  rw [putn, Num.putint, if_pos (by omega)]
  rfl

theorem putn_nat (n : Nat) : putn (n : Int) = (Num.putintAux (-(n : Int))).map put := by
  rw [putn, Num.putint, if_neg (by omega)]

theorem putn_small {n : Nat} (h : n < 10) : putn (n : Int) = [48 + n] := by
  rw [putn_nat, Num.putintAux, dif_neg (by omega), Int.neg_tmod]
  have : (n : Int).tmod 10 = ((n % 10 : Nat) : Int) := rfl
  rw [this]
  simp [put]
  omega

/-! Characters -/

/-- What is written for a byte. -/
theorem piece {b : Nat} (hb : b < 256) :
    (printStringChar b = [b] ∧ b ≠ 92 ∧ b ≠ 39 ∧ b ≠ 34 ∧ b ≠ 10) ∨ (∃ e, printStringChar b = [92, e] ∧ (e, b) ∈ simpleEscapes) ∨
    printStringChar b = [92, 48 + b / 64, 48 + b / 8 % 8, 48 + b % 8] := by
  unfold printStringChar
  by_cases h : ((b : Int) = 7 ∨ (b : Int) = 8 ∨ (b : Int) = 12 ∨ (b : Int) = 10 ∨ (b : Int) = 13 ∨ (b : Int) = 9 ∨ (b : Int) = 11 ∨ (b : Int) = 92 ∨ (b : Int) = 39 ∨ (b : Int) = 34)
  · refine .inr (.inl ?_)
    rcases h with h | h | h | h | h | h | h | h | h | h <;>
      (obtain rfl : b = _ := Int.ofNat.inj h
       simp [simpleEscapes, put])
  · simp only [not_or] at h
    obtain ⟨h1, h2, h3, h4, h5, h6, h7, h8, h9, h10⟩ := h
    rw [if_neg h1, if_neg h2, if_neg h3, if_neg h4, if_neg h5, if_neg h6, if_neg h7, if_neg (by omega)]
    split
    · refine .inr (.inr ?_)
      have e1 : (b : Int) / 64 = ((b / 64 : Nat) : Int) := by omega
      have e2 : (b : Int) / 8 % 8 = ((b / 8 % 8 : Nat) : Int) := by omega
      have e3 : (b : Int) % 8 = ((b % 8 : Nat) : Int) := by omega
      rw [e1, e2, e3, putn_small (by omega), putn_small (by omega), putn_small (by omega)]
      rfl
    · refine .inl ⟨?_, by omega, by omega, by omega, by omega⟩
      have : put (b : Int) = b := put_ofNat hb
      rw [this]

theorem piece_item {b : Nat} (hb : b < 256) {q : Nat} (hq : q = 39 ∨ q = 34) (next : List Nat) :
    Item q (printStringChar b) b next ∧ ∀ t, printStringChar b = 92 :: 120 :: t → t.length ≤ 2 := by
  rcases piece hb with ⟨e, h1, h2, h3, h4⟩ | ⟨e, h1, h2⟩ | e
  · rw [e]
    exact ⟨.plain h1 (by omega) h4 hb, by simp⟩
  · rw [h1]
    exact ⟨.simple h2, by intro t ht; obtain rfl := (List.cons.inj (List.cons.inj ht).2).2; simp⟩
  · rw [e]
    refine ⟨?_, by intro t ht; simp at ht; omega⟩
    have hs : Spells 8 [48 + b / 64, 48 + b / 8 % 8, 48 + b % 8] [b / 64, b / 8 % 8, b % 8] :=
      .cons (.dec _ (by omega)) (by omega) (.cons (.dec _ (by omega)) (by omega) (.cons (.dec _ (by omega)) (by omega) .nil))
    have hv : value 8 [b / 64, b / 8 % 8, b % 8] = b := by simp [value]; omega
    have := Item.oct (quote := q) (next := next) hs (by simp) (by simp) (by simp) (by omega)
    rwa [hv] at this

theorem piece_chars {b : Nat} (hb : b < 256) {q : Nat} (hq : q = 39 ∨ q = 34) {s : List Nat} (hs : Chars q s) : Chars q (printStringChar b ++ s) := by
  rcases piece hb with ⟨e, h1, h2, h3, h4⟩ | ⟨e, h1, h2⟩ | e
  · rw [e]
    exact .plain (by omega) h1 h4 hs
  · rw [h1]
    refine .simple ?_ hs
    have : ∀ p ∈ simpleEscapes, p.1 ∈ [39, 34, 63, 92, 97, 98, 102, 110, 114, 116, 118] := by decide +kernel
    exact this _ h2
  · rw [e]
    exact .oct (by omega) (by omega) (.plain (by omega) (by omega) (by omega) (.plain (by omega) (by omega) (by omega) hs))

theorem printTokString_cons {sg : Bool} {b : Nat} (hg : sg = true → b < 128) (bs : List Nat) : printTokString sg (b :: bs) = printStringChar b ++ printTokString sg bs := by
  have : chr sg b = b := by
    unfold chr
    cases sg with
    | false => simp
    | true => have := hg rfl; simp; omega
  rw [printTokString, List.flatMap_cons, this]
  rfl

theorem str_ok {sg : Bool} (next : List Nat) : ∀ (bs : List Nat), (∀ b ∈ bs, b < 256 ∧ (sg = true → b < 128)) →
    ShortHex 34 (printTokString sg bs) bs next ∧ Chars 34 (printTokString sg bs)
  | [], _ => ⟨.nil, .nil⟩
  | b :: bs, h => by
    obtain ⟨h1, h2⟩ := str_ok next bs fun x hx => h x (by simp [hx])
    obtain ⟨hb, hg⟩ := h b (by simp)
    rw [printTokString_cons hg]
    obtain ⟨i1, i2⟩ := piece_item hb (.inr rfl) (printTokString sg bs ++ next)
    exact ⟨.cons i1 i2 h1, piece_chars hb (.inr rfl) h2⟩

/-! Names and operators -/

theorem printName_eq {s : List Nat} (h : s ≠ [105, 110, 108, 105, 110, 101]) : printName s = s := by
  unfold printName
  split
  · rename_i i hi
    rw [List.findIdx?_eq_some_iff_getElem] at hi
    obtain ⟨hi, he, -⟩ := hi
    have he := eq_of_beq he
    have hk : i ∈ keywordLines := by
      simp only [keywordLines, List.mem_filter, List.mem_range]
      have : Cli.keywordInits.length = 33 := by decide +kernel
      refine ⟨by omega, ?_⟩
      simp
      rintro rfl
      exact h (he.symm.trans rfl)
    rw [printKeyword, if_pos hk, List.getD_eq_getElem?_getD, List.getElem?_eq_getElem hi, Option.getD_some, he]
  · rfl

theorem printOp_eq : ∀ p ∈ punctuators, p.2 ≠ .plusPlus → p.2 ≠ .ellipsis → printOp p.2 = p.1 := by decide +kernel

theorem ident_chars {s : List Nat} (h : Identifier s) : s ≠ [] ∧ ∀ c ∈ s, c ≠ 39 ∧ c ≠ 34 ∧ c ≠ 47 ∧ c ≠ 92 := by
  obtain ⟨⟨c, t, e, hc⟩, h⟩ := Lex.ident_all h
  refine ⟨by rw [e]; simp, fun c hc => ?_⟩
  rcases h c hc with (h | h | h) | ⟨h, _⟩ <;> omega

theorem num_chars {s : List Nat} (h : PPNumber s) : s ≠ [] ∧ ∀ c ∈ s, c ≠ 39 ∧ c ≠ 34 ∧ c ≠ 47 ∧ c ≠ 92 := by
  constructor
  · obtain ⟨c, r, e, -⟩ := num_head h; rw [e]; simp
  induction h with
  | digit h => rcases h with ⟨h, _⟩; simp; omega
  | dot h => rcases h with ⟨h, _⟩; simp; omega
  | more _ h ih =>
    intro c hc
    rcases List.mem_append.1 hc with hc | hc
    · exact ih c hc
    · simp at hc
      subst hc
      rcases h with (h | h | h) | ⟨h, _⟩ | h <;> omega
  | sign _ he h ih =>
    intro c hc
    rcases List.mem_append.1 hc with hc | hc
    · exact ih c hc
    · simp at hc he
      omega

/-- A word without quotes before a space. -/
theorem splits_word {sh : Bool} {lex rest : List Nat} {t : Lex.Tok} {ts : List Lex.Tok} (h : Splits sh rest ts) (ht : Token sh lex (32 :: rest) t)
    (hl : lex ≠ [] ∧ ∀ c ∈ lex, c ≠ 39 ∧ c ≠ 34) (hc : NoComment (lex ++ 32 :: rest)) : Splits sh (lex ++ 32 :: rest) (t :: ts) := by
  refine .cons (g := []) .nil ht ?_ hc (splits_ws (.inl rfl) h)
  intro k hk hk' hp
  cases k with
  | zero => omega
  | succ k =>
    rw [List.take_succ_cons] at hp
    obtain ⟨r, h⟩ := Front.pp_quote hp (by simp)
    obtain ⟨h0, hl⟩ := hl
    rcases lex with _ | ⟨a, _ | ⟨b, l⟩⟩
    · exact h0 rfl
    · have := hl a (by simp)
      simp at h; omega
    · have := hl a (by simp)
      have := hl b (by simp)
      simp at h; omega

theorem noComment_head {a : Nat} {r : List Nat} (h : a ≠ 47) : NoComment (a :: r) := by
  constructor <;> (rintro ⟨t, ht⟩; exact h (List.cons.inj ht).1.symm)

theorem noComment_of {lex rest : List Nat} (h0 : lex ≠ []) (h : ∀ c ∈ lex, c ≠ 47) : NoComment (lex ++ rest) := by
  rcases lex with _ | ⟨a, l⟩
  · exact absurd rfl h0
  · exact noComment_head (h a (by simp))

end Verif.Dump
