import Verif.Dump.Proofs
/-! The loop of the preprocess-only mode. -/
namespace Verif.Dump
open Verif Verif.Lex.Spec Verif.Lit.Spec Verif.Str.Spec

/-- A number before a space. -/
theorem splits_num {sh : Bool} {rest : List Nat} {ts : List Lex.Tok} (h : Splits sh rest ts) {n : Nat} (hn : n ≤ 2147483648) :
    Splits sh ((Num.putintAux (-(n : Int))).map put ++ 32 :: rest) (.int .int (-(n : Int)) :: ts) := by
  obtain ⟨cs, b, ds, e, hl, hv, hb⟩ := putn_digits n
  rw [e]
  obtain ⟨h1, h2⟩ := num_chars (Lex.literal_ppnumber hl).1
  refine splits_word h ?_ ⟨h1, fun c hc => ⟨(h2 c hc).1, (h2 c hc).2.1⟩⟩ (noComment_of h1 fun c hc => (h2 c hc).2.2.1)
  have := Token.int (sh := sh) (rest := 32 :: rest) hl (by omega) (sfx := []) (k := .int) (by simp [suffixes]) (by simp)
  rw [List.append_nil, hv] at this
  have hk : (if sh then shKind b n else Lit.Kind.int) = .int := by
    cases sh with
    | false => rfl
    | true => rcases hb with rfl | ⟨rfl, rfl⟩ <;> simp [shKind]
  rwa [hk] at this

theorem splits_numU {rest : List Nat} {ts : List Lex.Tok} (h : Splits false rest ts) {n : Nat} (hn : n ≤ 2147483648) :
    Splits false ((Num.putintAux (-(n : Int))).map put ++ [85] ++ 32 :: rest) (.int .intU (-(n : Int)) :: ts) := by
  obtain ⟨cs, b, ds, e, hl, hv, hb⟩ := putn_digits n
  rw [e]
  obtain ⟨h1, h2⟩ := num_chars (.more (c := 85) (Lex.literal_ppnumber hl).1 (by simp [NonDigit]))
  refine splits_word h ?_ ⟨h1, fun c hc => ⟨(h2 c hc).1, (h2 c hc).2.1⟩⟩ (noComment_of h1 fun c hc => (h2 c hc).2.2.1)
  have := Token.int (sh := false) (rest := 32 :: rest) hl (by omega) (sfx := [85]) (k := .intU) (by simp [suffixes]) (by simp)
  rw [hv] at this
  exact this

/-- A minus before a number. -/
theorem splits_minus {sh : Bool} {rest : List Nat} {ts : List Lex.Tok} {n : Nat} (h : Splits sh ((Num.putintAux (-(n : Int))).map put ++ 32 :: rest) ts) :
    Splits sh (45 :: ((Num.putintAux (-(n : Int))).map put ++ 32 :: rest)) (.op (.ch 45) :: ts) := by
  obtain ⟨cs, b, ds, e, hl, hv, hb⟩ := putn_digits n
  rw [e] at h ⊢
  obtain ⟨c, t, rfl, hc⟩ := (Lex.literal_ppnumber hl).2
  exact .cons (g := []) (lex := [45]) .nil (.op (by decide +kernel) (by simp)) (longest_minus hc _) (noComment_head (by omega)) h

theorem body_ok {sh sg : Bool} {t : Lex.Tok} (hf : Spec.Fine sh sg t) (ht : t ≠ .newline) {rest : List Nat} {ts : List Lex.Tok} (h : Splits sh rest ts) :
    Splits sh (printBody sg t ++ 32 :: rest) (Spec.seen t ++ ts) := by
  cases t with
  | eof => exact hf.elim
  | newline => exact absurd rfl ht
  | directive => exact hf.elim
  | ident s =>
    obtain ⟨h1, h2⟩ := hf
    rw [printBody, printName_eq h2]
    obtain ⟨h3, h4⟩ := ident_chars h1
    exact splits_word h (.ident h1) ⟨h3, fun c hc => ⟨(h4 c hc).1, (h4 c hc).2.1⟩⟩ (noComment_of h3 fun c hc => (h4 c hc).2.2.1)
  | int k v =>
    obtain ⟨h1, h2, h3⟩ := hf
    obtain ⟨n, rfl⟩ : ∃ n : Nat, v = -(n : Int) := ⟨(-v).toNat, by omega⟩
    have hn : n ≤ 2147483648 := by omega
    have plain : Splits sh (putn (-(n : Int)) ++ 32 :: rest) ((if -(n : Int) = 0 then [.int .int 0] else [.op (.ch 45), .int .int (-(n : Int))]) ++ ts) := by
      by_cases h0 : n = 0
      · subst h0
        exact splits_num h hn
      · rw [if_neg (by omega), putn_neg (by omega)]
        exact splits_minus (splits_num h hn)
    have eN : putn (- -(n : Int)) = (Num.putintAux (-(n : Int))).map put := by rw [Int.neg_neg]; exact putn_nat n
    cases k with
    | int | hex | oct => exact plain
    | intL | intLL =>
      show Splits sh (putn (- -(n : Int)) ++ 32 :: rest) (.int .int (-(n : Int)) :: ts)
      rw [eN]
      exact splits_num h hn
    | intU | intUL | intULL =>
      show Splits sh (putn (- -(n : Int)) ++ [85] ++ 32 :: rest) (.int .intU (-(n : Int)) :: ts)
      rw [eN]
      have : sh = false := by simpa using h3.elim (by simp) (·.1)
      subst this
      exact splits_numU h hn
  | chr v =>
    have hv : v < 256 := hf
    obtain ⟨i1, i2⟩ := piece_item hv (.inl rfl) (39 :: 32 :: rest)
    have := piece_chars hv (.inl rfl) .nil
    rw [List.append_nil] at this
    exact .cons (g := []) .nil (.chr i1 i2) (longest_quoted (.inl rfl) this _) (noComment_head (by omega)) (splits_ws (.inl rfl) h)
  | str bs =>
    obtain ⟨i1, i2⟩ := str_ok (34 :: 32 :: rest) bs hf
    exact .cons (g := []) .nil (.str i1) (longest_quoted (.inr rfl) i2 _) (noComment_head (by omega)) (splits_ws (.inl rfl) h)
  | op o =>
    obtain ⟨⟨s, hs⟩, h1, h2, -⟩ := hf
    have e := printOp_eq _ hs h1 h2
    have hq : ∀ p ∈ punctuators, p.1 ≠ [] ∧ (∀ c ∈ p.1, c ≠ 39 ∧ c ≠ 34) ∧ (p.1.head? = some 47 → p.1 = [47] ∨ p.1 = [47, 61]) := by decide +kernel
    obtain ⟨q1, q2, q3⟩ := hq _ hs
    dsimp only at e q1 q2 q3
    rw [printBody, e]
    refine splits_word h (.op hs (by simp)) ⟨q1, q2⟩ ?_
    rcases s with _ | ⟨a, l⟩
    · exact absurd rfl q1
    · by_cases ha : a = 47
      · subst ha
        rcases q3 rfl with hl | hl <;> (rw [hl]; simp [NoComment])
      · exact noComment_head ha

theorem tok_ok {sh sg : Bool} {t : Lex.Tok} (hf : Spec.Fine sh sg t) (s : S) {rest : List Nat} {ts : List Lex.Tok} (h : Splits sh rest ts) :
    Splits sh ((printTok sg s t).1 ++ rest) (Spec.seen t ++ ts) := by
  unfold printTok
  split
  · rename_i ht
    subst ht
    split
    · exact h
    · exact splits_ws (.inr (.inr (.inl rfl))) h
  rename_i hnl
  split
  · rename_i ht
    subst ht
    dsimp only [indent]
    rw [List.append_assoc]
    exact splits_indent (.cons (g := []) (lex := [123]) .nil (.op (by decide +kernel) (by simp)) (longest_brace (.inl rfl) _) (noComment_head (by omega)) h) _
  split
  · rename_i ht
    subst ht
    dsimp only [indent]
    rw [List.append_assoc]
    exact splits_indent (.cons (g := []) (lex := [125]) .nil (.op (by decide +kernel) (by simp)) (longest_brace (.inr rfl) _) (noComment_head (by omega)) h) _
  · dsimp only
    have := body_ok hf hnl h
    rw [List.append_assoc, List.append_assoc]
    split
    · exact splits_indent this _
    · exact this

theorem dump_ok {sh sg : Bool} : ∀ (ts : List Lex.Tok) (s : S), (∀ t ∈ ts, Spec.Fine sh sg t) → Splits sh (dumpFrom sg s ts) (ts.flatMap Spec.seen)
  | [], _, _ => .done (.gap .nil)
  | t :: ts, s, h => by
    rw [dumpFrom, List.flatMap_cons]
    exact tok_ok (h t (by simp)) s (dump_ok ts _ fun x hx => h x (by simp [hx]))

/-! Line splicing does not touch the output. -/

def Inert (p : List Nat) : Prop := ∀ r, splice (p ++ r) = p ++ splice r

theorem Inert.append {p q : List Nat} (hp : Inert p) (hq : Inert q) : Inert (p ++ q) := by
  intro r
  rw [List.append_assoc, hp, hq, List.append_assoc]

theorem Inert.nil : Inert [] := fun _ => rfl

theorem splice_cons {c : Nat} (hc : c ≠ 92) (r : List Nat) : splice (c :: r) = c :: splice r := by
  rw [splice.eq_def]
  split
  · rename_i h; exact absurd (List.cons.inj h).1 hc
  · rename_i h; obtain ⟨rfl, rfl⟩ := List.cons.inj h; rfl
  · rename_i h; cases h

theorem splice_esc {c : Nat} (hc : c ≠ 10) (r : List Nat) : splice (92 :: c :: r) = 92 :: splice (c :: r) := by
  rw [splice.eq_def]
  split
  · rename_i h; exact absurd (List.cons.inj (List.cons.inj h).2).1 hc
  · rename_i h; obtain ⟨rfl, rfl⟩ := List.cons.inj h; rfl
  · rename_i h; cases h

theorem Inert.cons {c : Nat} (hc : c ≠ 92) {p : List Nat} (hp : Inert p) : Inert (c :: p) := by
  intro r
  rw [List.cons_append, splice_cons hc, hp, List.cons_append]

theorem Inert.esc {c : Nat} (hc : c ≠ 10) {p : List Nat} (hp : Inert (c :: p)) : Inert (92 :: c :: p) := by
  intro r
  have := hp r
  rw [List.cons_append, List.cons_append, splice_esc hc]
  rw [List.cons_append] at this
  rw [this]
  rfl

theorem Inert.of {p : List Nat} (h : 92 ∉ p) : Inert p := by
  induction p with
  | nil => exact .nil
  | cons c p ih =>
    simp at h
    exact .cons (fun e => h.1 e.symm) (ih h.2)

theorem piece_splice {b : Nat} (hb : b < 256) {r : List Nat} (hr : r.head? ≠ some 10) :
    splice (printStringChar b ++ r) = printStringChar b ++ splice r ∧ (printStringChar b ++ r).head? ≠ some 10 := by
  rcases Dump.piece hb with ⟨e, h1, _, _, h4⟩ | ⟨e, h1, h2⟩ | e
  · rw [e]; exact ⟨Inert.cons h1 .nil r, by simpa using h4⟩
  · rw [h1]
    have : ∀ p ∈ simpleEscapes, p.1 ≠ 10 := by decide +kernel
    have h10 := this _ h2
    refine ⟨?_, by simp⟩
    by_cases h92 : e = 92
    · subst h92
      show splice (92 :: 92 :: r) = 92 :: 92 :: splice r
      rw [splice_esc (by omega)]
      cases r with
      | nil => rfl
      | cons c r => rw [splice_esc (by simpa using hr)]
    · exact Inert.esc h10 (.cons h92 .nil) r
  · rw [e]
    exact ⟨Inert.esc (by omega) (.of (by simp; omega)) r, by simp⟩

theorem pieces_splice {sg : Bool} {r : List Nat} (hr : r.head? ≠ some 10) : ∀ (bs : List Nat), (∀ b ∈ bs, b < 256 ∧ (sg = true → b < 128)) →
    splice (printTokString sg bs ++ r) = printTokString sg bs ++ splice r ∧ (printTokString sg bs ++ r).head? ≠ some 10
  | [], _ => ⟨rfl, hr⟩
  | b :: bs, h => by
    obtain ⟨h1, h2⟩ := pieces_splice hr bs fun x hx => h x (by simp [hx])
    obtain ⟨hb, hg⟩ := h b (by simp)
    have := piece_splice hb h2
    rw [printTokString_cons hg, List.append_assoc, List.append_assoc, ← h1]
    exact this

theorem digits_inert (n : Nat) : 92 ∉ (Num.putintAux (-(n : Int))).map put := by
  obtain ⟨cs, b, ds, e, hl, -⟩ := putn_digits n
  rw [e]
  intro h
  exact ((num_chars (Lex.literal_ppnumber hl).1).2 _ h).2.2.2 rfl

theorem putn_inert (v : Int) : 92 ∉ putn v := by
  by_cases h : v < 0
  · obtain ⟨n, rfl⟩ : ∃ n : Nat, v = -(n : Int) := ⟨(-v).toNat, by omega⟩
    rw [putn_neg (by omega)]
    simpa using digits_inert n
  · obtain ⟨n, rfl⟩ : ∃ n : Nat, v = (n : Int) := ⟨v.toNat, by omega⟩
    rw [putn_nat]
    exact digits_inert n

theorem body_inert {sh sg : Bool} {t : Lex.Tok} (hf : Spec.Fine sh sg t) : Inert (printBody sg t) := by
  cases t with
  | eof | newline | directive => exact .nil
  | ident s =>
    rw [printBody, printName_eq hf.2]
    exact .of fun h => ((ident_chars hf.1).2 _ h).2.2.2 rfl
  | int k v =>
    rw [printBody]
    cases k <;> simp only [printInt]
    all_goals first | exact .of (putn_inert _) | exact .append (.of (putn_inert _)) (.of (by simp))
  | chr v =>
    intro r
    have := (piece_splice (b := v) hf (r := 39 :: r) (by simp)).1
    show splice (39 :: (printStringChar v ++ [39] ++ r)) = 39 :: (printStringChar v ++ [39] ++ splice r)
    rw [splice_cons (by omega), List.append_assoc, List.append_assoc]
    show 39 :: splice (printStringChar v ++ 39 :: r) = _
    rw [this, splice_cons (by omega)]
    rfl
  | str bs =>
    intro r
    have := (pieces_splice (r := 34 :: r) (by simp) bs hf).1
    show splice (34 :: (printTokString sg bs ++ [34] ++ r)) = 34 :: (printTokString sg bs ++ [34] ++ splice r)
    rw [splice_cons (by omega), List.append_assoc, List.append_assoc]
    show 34 :: splice (printTokString sg bs ++ 34 :: r) = _
    rw [this, splice_cons (by omega)]
    rfl
  | op o =>
    obtain ⟨⟨s, hs⟩, h1, h2, -⟩ := hf
    have : ∀ p ∈ punctuators, 92 ∉ p.1 := by decide +kernel
    rw [printBody, printOp_eq _ hs h1 h2]
    exact .of (this _ hs)

theorem indent_inert (s : S) : Inert (indent s) := .of (by simp [indent])

theorem tok_inert {sh sg : Bool} {t : Lex.Tok} (hf : Spec.Fine sh sg t) (s : S) : Inert (printTok sg s t).1 := by
  unfold printTok
  split
  · split
    · exact .nil
    · exact .of (by simp)
  split
  · exact .append (indent_inert _) (.of (by simp))
  split
  · exact .append (indent_inert _) (.of (by simp))
  · refine .append (.append ?_ (body_inert hf)) (.of (by simp))
    split
    · exact indent_inert _
    · exact .nil

theorem dump_splice {sh sg : Bool} : ∀ (ts : List Lex.Tok) (s : S), (∀ t ∈ ts, Spec.Fine sh sg t) → splice (dumpFrom sg s ts) = dumpFrom sg s ts
  | [], _, _ => rfl
  | t :: ts, s, h => by
    rw [dumpFrom, tok_inert (h t (by simp)) s, dump_splice ts _ fun x hx => h x (by simp [hx])]

theorem seen_noHash {sh sg : Bool} {t : Lex.Tok} (hf : Spec.Fine sh sg t) : Lex.NoHash (Spec.seen t) := by
  cases t with
  | int k v => cases k <;> simp only [Spec.seen] <;> (try split) <;> simp [Lex.NoHash]
  | op o => obtain ⟨-, -, -, h1, h2⟩ := hf; exact ⟨by simpa [Spec.seen] using fun h => h1 h.symm, by simpa [Spec.seen] using fun h => h2 h.symm⟩
  | _ => simp [Spec.seen, Lex.NoHash]

end Verif.Dump
