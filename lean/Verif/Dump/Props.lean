import Verif.Dump.Read
/-! # C53: the preprocess-only mode prints a program that C reads back -/
namespace Verif.Dump
open Verif Verif.Lex Verif.Lex.Spec

/-- **C53, the printed tokens (partial).** However the tokens are laid out over lines and blocks, the printed text splits, in C, into the tokens of the stream, one by one and in order: names, operators,
characters and strings are read back as they were; a number comes back as specified in `Spec.seen` (with a minus in front of it, see `C53_number_false`).  pnut itself reads it back the same way.
Missing: the tokens excluded by `Fine`, which are printed wrongly (see below), large literals, and the names of macros in brackets. -/
theorem C53_dump_partial {sh sg : Bool} (ts : List Tok) (hf : ∀ t ∈ ts, Spec.Fine sh sg t) (level : Int) (nls : Nat) :
    Splits sh (dumpFrom sg ⟨level, nls⟩ ts) (ts.flatMap Spec.seen) ∧ splice (dumpFrom sg ⟨level, nls⟩ ts) = dumpFrom sg ⟨level, nls⟩ ts ∧
    tokens sh (dumpFrom sg ⟨level, nls⟩ ts) = .ok (ts.flatMap Spec.seen) := by
  have h1 := dump_ok ts ⟨level, nls⟩ hf
  have h2 := dump_splice ts ⟨level, nls⟩ hf
  refine ⟨h1, h2, C21_tokens_partial h2 (by rwa [h2]) ?_⟩
  constructor <;>
  · intro h
    obtain ⟨t, ht, hh⟩ := List.mem_flatMap.1 h
    first | exact (seen_noHash (hf t ht)).1 hh | exact (seen_noHash (hf t ht)).2 hh

/-- A token that is not a number, or is 0, or has just the suffix `U`. -/
def Faithful : Tok → Prop
  | .int k v => (k = .int ∧ v = 0) ∨ k = .intU
  | .newline => False
  | _ => True

theorem seen_faithful {t : Tok} (h : Faithful t) : Spec.seen t = [t] := by
  cases t with
  | int k v => rcases h with ⟨rfl, rfl⟩ | rfl <;> rfl
  | newline => exact h.elim
  | _ => rfl

theorem flatMap_seen : ∀ {ts : List Tok}, (∀ t ∈ ts, Faithful t) → ts.flatMap Spec.seen = ts
  | [], _ => rfl
  | t :: ts, h => by
    rw [List.flatMap_cons, seen_faithful (h t (by simp)), flatMap_seen fun x hx => h x (by simp [hx])]
    rfl

theorem flatMap_solid : ∀ (ts : List Tok), (solid ts).flatMap Spec.seen = ts.flatMap Spec.seen
  | [] => rfl
  | t :: ts => by
    by_cases h : t = .newline
    · subst h
      exact flatMap_solid ts
    · have : solid (t :: ts) = t :: solid ts := by simp [solid, h]
      rw [this, List.flatMap_cons, List.flatMap_cons, flatMap_solid ts]

/-- **C53, from text to text (partial).** A text that C splits into tokens which are printed right, without directives and macros, is turned into a text that C (and pnut) splits into the corresponding
tokens; comments and layout are gone.  If no number except 0 is among them, they are the same tokens.
Missing: as above, and directives and macro expansion (C22). -/
theorem C53_preprocess_partial {sh sg : Bool} {inp : List Nat} {ts : List Tok} (hc : Splits sh inp ts) (hf : ∀ t ∈ ts, Spec.Fine sh sg t) :
    ∃ out, preprocess sh sg inp = .ok out ∧ Splits sh out (ts.flatMap Spec.seen) ∧ tokens sh out = .ok (ts.flatMap Spec.seen) ∧ ((∀ t ∈ ts, Faithful t) → Splits sh out ts ∧ tokens sh out = .ok ts) := by
  have hh : NoHash ts := by
    constructor
    · intro h; exact (hf _ h).2.2.2.1 rfl
    · intro h; exact (hf _ h).2.2.2.2 rfl
  obtain ⟨us, e1, e2⟩ := (reads_splits hc hh).2 (inp.length + 1) true (by omega)
  have hu : ∀ t ∈ us, Spec.Fine sh sg t := by
    intro t ht
    by_cases h : t = .newline
    · subst h; trivial
    · exact hf t (by rw [← e2]; simp [solid, ht, h])
  obtain ⟨h1, -, h3⟩ := C53_dump_partial us hu 0 0
  rw [← flatMap_solid us, e2] at h1 h3
  refine ⟨_, by rw [preprocess, e1]; rfl, h1, h3, fun hz => ?_⟩
  rw [flatMap_seen hz] at h1 h3
  exact ⟨h1, h3⟩

/-- The hypotheses are met: `x /= '\'' ;` with a string of all kinds of bytes, a name and a number. -/
example : ∀ t ∈ [Tok.ident [120], .op .slashEq, .chr 39, .newline, .op (.ch 123), .str [0, 34, 92, 10, 97, 127], .int .int (-5), .op (.ch 125)], Spec.Fine true true t := by
  intro t ht
  simp only [List.mem_cons, List.not_mem_nil, or_false] at ht
  rcases ht with rfl | rfl | rfl | rfl | rfl | rfl | rfl | rfl
  · exact ⟨.one (by simp [NonDigit]), by simp⟩
  · exact ⟨⟨[47, 61], by decide +kernel⟩, by decide, by decide, by decide, by decide⟩
  · exact (by decide : 39 < 256)
  · trivial
  · exact ⟨⟨[123], by decide +kernel⟩, by decide, by decide, by decide, by decide⟩
  · exact (by decide : ∀ b ∈ [0, 34, 92, 10, 97, 127], b < 256 ∧ (true = true → b < 128))
  · exact ⟨by omega, by omega, by simp⟩
  · exact ⟨⟨[125], by decide +kernel⟩, by decide, by decide, by decide, by decide⟩

/-- A printable character of ASCII, or a line end. -/
def Printable (c : Nat) : Prop := c = 10 ∨ (32 ≤ c ∧ c ≤ 126)

theorem spells_dec {cs ds : List Nat} (h : Lit.Spec.Spells 10 cs ds) : ∀ c ∈ cs, 48 ≤ c ∧ c ≤ 57 := by
  induction h with
  | nil => simp
  | cons hd hlt _ ih =>
    intro c hc
    rcases List.mem_cons.1 hc with rfl | hc
    · cases hd <;> omega
    · exact ih c hc

theorem digits_printable (n : Nat) : ∀ c ∈ (Num.putintAux (-(n : Int))).map put, 48 ≤ c ∧ c ≤ 57 := by
  obtain ⟨cs, ds, e, hs, -⟩ := Num.putintAux_digits n
  rw [e, map_put fun c hc => by have := spells_lt hs c hc; omega]
  exact spells_dec hs

theorem putn_printable (v : Int) : ∀ c ∈ putn v, Printable c := by
  intro c hc
  by_cases h : v < 0
  · obtain ⟨n, rfl⟩ : ∃ n : Nat, v = -(n : Int) := ⟨(-v).toNat, by omega⟩
    rw [putn_neg (by omega)] at hc
    rcases List.mem_cons.1 hc with rfl | hc
    · simp [Printable]
    · have := digits_printable n c hc
      unfold Printable; omega
  · obtain ⟨n, rfl⟩ : ∃ n : Nat, v = (n : Int) := ⟨v.toNat, by omega⟩
    rw [putn_nat] at hc
    have := digits_printable n c hc
    unfold Printable; omega

theorem char_printable (v : Int) : ∀ c ∈ printStringChar v, Printable c := by
  have two : ∀ {a c : Nat}, c ∈ [92, a] → 32 ≤ a → a ≤ 126 → Printable c := by
    intro a c h h1 h2
    simp at h
    unfold Printable
    omega
  intro c hc
  unfold printStringChar at hc
  iterate 7
    split at hc
    · exact two hc (by omega) (by omega)
  split at hc
  · exact two hc (by simp only [put]; omega) (by simp only [put]; omega)
  split at hc
  · simp only [List.mem_cons, List.mem_append] at hc
    rcases hc with rfl | (hc | hc) | hc
    · simp [Printable]
    all_goals exact putn_printable _ c hc
  · simp at hc
    subst hc
    simp only [put, Printable]
    omega

theorem body_printable {sh sg : Bool} {t : Tok} (hf : Spec.Fine sh sg t) : ∀ c ∈ printBody sg t, Printable c := by
  intro c hc
  cases t with
  | eof | newline | directive => simp [printBody] at hc
  | ident s =>
    rw [printBody, printName_eq hf.2] at hc
    unfold Printable
    rcases (Lex.ident_all hf.1).2 c hc with (h | h | h) | ⟨h, h'⟩ <;> omega
  | int k v =>
    rw [printBody] at hc
    cases k <;> simp only [printInt, List.mem_append, List.mem_singleton] at hc
    all_goals first
      | exact putn_printable _ c hc
      | (rcases hc with hc | rfl
         · exact putn_printable _ c hc
         · simp [Printable])
  | chr v =>
    simp only [printBody, List.cons_append, List.mem_cons, List.mem_append, List.not_mem_nil, or_false] at hc
    rcases hc with rfl | hc | rfl
    · simp [Printable]
    · exact char_printable _ c hc
    · simp [Printable]
  | str bs =>
    simp only [printBody, List.cons_append, List.mem_cons, List.mem_append, List.not_mem_nil, or_false] at hc
    rcases hc with rfl | hc | rfl
    · simp [Printable]
    · obtain ⟨b, -, hc⟩ := List.mem_flatMap.1 hc
      exact char_printable _ c hc
    · simp [Printable]
  | op o =>
    obtain ⟨⟨s, hs⟩, h1, h2, -⟩ := hf
    have : ∀ p ∈ punctuators, ∀ c ∈ p.1, 32 ≤ c ∧ c ≤ 126 := by decide +kernel
    rw [printBody, printOp_eq _ hs h1 h2] at hc
    exact .inr (this _ hs c hc)

theorem indent_printable (s : S) : ∀ c ∈ indent s, Printable c := by
  intro c hc
  rw [(List.mem_replicate.1 hc).2]
  simp [Printable]

theorem tok_printable {sh sg : Bool} {t : Tok} (hf : Spec.Fine sh sg t) (s : S) : ∀ c ∈ (printTok sg s t).1, Printable c := by
  intro c hc
  unfold printTok at hc
  split at hc
  · split at hc
    · simp at hc
    · simp at hc; exact .inl hc
  split at hc
  · rcases List.mem_append.1 hc with hc | hc
    · exact indent_printable _ c hc
    · simp at hc; simp [hc, Printable]
  split at hc
  · rcases List.mem_append.1 hc with hc | hc
    · exact indent_printable _ c hc
    · simp at hc; simp [hc, Printable]
  · rcases List.mem_append.1 hc with hc | hc
    · rcases List.mem_append.1 hc with hc | hc
      · split at hc
        · exact indent_printable _ c hc
        · simp at hc
      · exact body_printable hf c hc
    · simp at hc; simp [hc, Printable]

/-- **C53, the output is plain text (partial).** Only printable characters of ASCII and line ends are written, whatever bytes stand in the strings. -/
theorem C53_printable_partial {sh sg : Bool} : ∀ (ts : List Tok) (s : S), (∀ t ∈ ts, Spec.Fine sh sg t) → ∀ c ∈ dumpFrom sg s ts, Printable c
  | [], _, _, c, hc => by simp [dumpFrom] at hc
  | t :: ts, s, h, c, hc => by
    rw [dumpFrom] at hc
    rcases List.mem_append.1 hc with hc | hc
    · exact tok_printable (h t (by simp)) s c hc
    · exact C53_printable_partial ts _ (fun x hx => h x (by simp [hx])) c hc

/-- **C53, numbers: false.** A decimal constant other than 0 without suffix is printed with a minus before it: `5` becomes `-5`. -/
theorem C53_number_false (sh sg : Bool) (n : Nat) (h : 0 < n) (hn : n ≤ 2147483648) :
    tokens sh (dump sg [.int .int (-(n : Int))]) = .ok [.op (.ch 45), .int .int (-(n : Int))] := by
  have hf : ∀ t ∈ [Tok.int .int (-(n : Int))], Spec.Fine sh sg t := by
    intro t ht
    rw [List.mem_singleton] at ht
    subst ht
    exact ⟨by omega, by omega, by simp⟩
  have := (C53_dump_partial _ hf 0 0).2.2
  rw [dump, this]
  simp [Spec.seen]
  omega

/-- **C53, `++`, `...` and `inline`: false.** They are printed as one byte, the low one of the number of the token: 210, 220 and `<`. pnut itself refuses the first two. -/
theorem C53_missing_lines_false (sh sg : Bool) :
    dump sg [.ident [105], .op .plusPlus] = [105, 32, 210, 32] ∧ dump sg [.op .ellipsis] = [220, 32] ∧ dump sg [.ident [105, 110, 108, 105, 110, 101]] = [60, 32] ∧
    tokens sh (dump sg [.op .plusPlus]) = .fatal ∧ tokens sh (dump sg [.op .ellipsis]) = .fatal ∧ tokens sh (dump sg [.ident [105, 110, 108, 105, 110, 101]]) = .ok [.op (.ch 60)] := by
  cases sh <;> cases sg <;> decide +kernel

/-- **C53, suffixes: false.** `L` and `LL` are lost: the printed number is an `int` constant. -/
theorem C53_suffix_false (sg : Bool) (n : Nat) (hn : n < 2147483648) : tokens false (dump sg [.int .intL (-(n : Int))]) = .ok [.int .int (-(n : Int))] := by
  have hf : ∀ t ∈ [Tok.int .intL (-(n : Int))], Spec.Fine false sg t := by
    intro t ht
    rw [List.mem_singleton] at ht
    subst ht
    exact ⟨by omega, by omega, .inr ⟨rfl, by omega⟩⟩
  exact (C53_dump_partial _ hf 0 0).2.2

theorem putn_minus (n : Nat) (h : 0 < n) : ∃ r, putn (-(n : Int)) = 45 :: r := ⟨_, putn_neg h⟩

/-- **C53, bytes from 128 on: false.** Where `char` is signed they are printed in a string as `\\-`…, which is no escape of C; pnut itself refuses it. -/
theorem C53_signed_char_false (sh : Bool) (b : Nat) (h : 128 ≤ b) (hb : b < 256) : (∃ r, dump true [.str [b]] = 34 :: 92 :: 45 :: r) ∧ tokens sh (dump true [.str [b]]) = .fatal := by
  have hc : chr true b = (b : Int) - 256 := by simp [chr, h]
  obtain ⟨n, hn, e⟩ : ∃ n : Nat, 0 < n ∧ ((b : Int) - 256) / 64 = -(n : Int) := ⟨(-(((b : Int) - 256) / 64)).toNat, by omega, by omega⟩
  obtain ⟨r, hr⟩ := putn_minus n hn
  have key : ∃ r, dump true [.str [b]] = 34 :: 92 :: 45 :: r := by
    refine ⟨r ++ putn (((b : Int) - 256) / 8 % 8) ++ putn (((b : Int) - 256) % 8) ++ [34, 32], ?_⟩
    have : printStringChar ((b : Int) - 256) = 92 :: (putn (((b : Int) - 256) / 64) ++ putn (((b : Int) - 256) / 8 % 8) ++ putn (((b : Int) - 256) % 8)) := by
      unfold printStringChar
      iterate 8 rw [if_neg (by omega)]
      rw [if_pos (by omega)]
    simp [dump, dumpFrom, printTok, printBody, printTokString, hc, this, e, hr]
  refine ⟨key, ?_⟩
  obtain ⟨r, hr⟩ := key
  rw [hr]
  cases sh <;> rfl

/-- A text and its output: a call, a comment, a block: `f('a',"x\n")/**/;⏎{if g;}` gives `f ( 'a' , "x\n" ) ; ⏎{  if g ; }`. -/
example : preprocess true true [102, 40, 39, 97, 39, 44, 34, 120, 92, 110, 34, 41, 47, 42, 42, 47, 59, 10, 123, 105, 102, 32, 103, 59, 125] =
    .ok [102, 32, 40, 32, 39, 97, 39, 32, 44, 32, 34, 120, 92, 110, 34, 32, 41, 32, 59, 32, 10, 123, 32, 32, 105, 102, 32, 103, 32, 59, 32, 125] := by decide +kernel

end Verif.Dump
