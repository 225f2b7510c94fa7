import Verif.Str.Model
import Verif.Str.Spec
import Verif.Lit.Proofs
/-! C08: escapes in string and character literals. -/
namespace Verif.Str
open Verif Verif.Lit Verif.Lit.Spec Verif.Str.Spec

theorem spells_length {b : Nat} {cs ds : List Nat} (h : Spells b cs ds) : cs.length = ds.length := by
  induction h with
  | nil => rfl
  | cons _ _ _ ih => simp [ih]

theorem tryDigit_digit {b v c d : Nat} {inp : List Nat} (h : IsDigit c d) (hd : d < b) :
    tryDigit b (v, c :: inp) = (v * b + d, inp) := by
  simp [tryDigit, accumDigit, digitOf_of_isDigit h, Nat.not_le.mpr hd]

theorem tryDigit_stop {b v : Nat} (hb : b ≤ 36) {inp : List Nat} (h : Stops b inp) :
    tryDigit b (v, inp) = (v, inp) := by
  cases inp with
  | nil => rfl
  | cons c t => simp [tryDigit, accumDigit, stops_ge hb h]

theorem octalDigit_range {c d : Nat} (h : IsDigit c d) (hd : d < 8) : 48 ≤ c ∧ c ≤ 55 := by
  cases h <;> omega

theorem getStringChar_plain {c : Nat} (h : c ≠ 92) (next : List Nat) :
    getStringChar (c :: next) = .ok (c, next) := by
  simp [getStringChar, h]

theorem getStringChar_oct {cs ds next : List Nat} (hs : Spells 8 cs ds) (h1 : 1 ≤ ds.length)
    (h3 : ds.length ≤ 3) (hn : ds.length < 3 → Stops 8 next) :
    getStringChar (92 :: (cs ++ next)) = .ok (value 8 ds % 256, next) := by
  cases hs with
  | nil => simp at h1
  | @cons c d cs ds hc hd hs =>
    have hr := octalDigit_range hc hd
    have unf : ∀ inp1, getStringChar (92 :: c :: inp1) =
        .ok ((tryDigit 8 (tryDigit 8 (tryDigit 8 (0, c :: inp1)))).1 % 256,
          (tryDigit 8 (tryDigit 8 (tryDigit 8 (0, c :: inp1)))).2) := by
      intro inp1; simp [getStringChar, hr]
    rw [List.cons_append, unf, tryDigit_digit hc hd]
    cases hs with
    | nil =>
      have hst := hn (by simp)
      rw [List.nil_append, tryDigit_stop (by omega) hst, tryDigit_stop (by omega) hst]
      simp [value]
    | @cons c2 d2 cs ds hc2 hd2 hs =>
      rw [List.cons_append, tryDigit_digit hc2 hd2]
      cases hs with
      | nil =>
        have hst := hn (by simp)
        rw [List.nil_append, tryDigit_stop (by omega) hst]
        simp [value]
      | @cons c3 d3 cs ds hc3 hd3 hs =>
        rw [List.cons_append, tryDigit_digit hc3 hd3]
        cases hs with
        | nil => simp [value]
        | cons _ _ _ => simp at h3

theorem getStringChar_hex {x : Nat} (hx : x = 120 ∨ x = 88) {cs ds next : List Nat}
    (hs : Spells 16 cs ds) (h1 : 1 ≤ ds.length)
    (h2 : ds.length ≤ 2) (hn : ds.length < 2 → Stops 16 next) :
    getStringChar (92 :: x :: (cs ++ next)) = .ok (value 16 ds % 256, next) := by
  cases hs with
  | nil => simp at h1
  | @cons c d cs ds hc hd hs =>
    have unf : ∀ inp1, getStringChar (92 :: x :: c :: inp1) =
        .ok ((tryDigit 16 (d, inp1)).1 % 256, (tryDigit 16 (d, inp1)).2) := by
      intro inp1
      rcases hx with rfl | rfl <;>
        simp [getStringChar, accumDigit, digitOf_of_isDigit hc, Nat.not_le.mpr hd]
    rw [List.cons_append, unf]
    cases hs with
    | nil =>
      rw [List.nil_append, tryDigit_stop (by omega) (hn (by simp))]
      simp [value]
    | @cons c2 d2 cs ds hc2 hd2 hs =>
      rw [List.cons_append, tryDigit_digit hc2 hd2]
      cases hs with
      | nil => simp [value]
      | cons _ _ _ => simp at h2

theorem item_ok {q : Nat} {cs : List Nat} {b : Nat} {next : List Nat} (h : Item q cs b next)
    (hx : ∀ t, cs = 92 :: 120 :: t → t.length ≤ 2) :
    getStringChar (cs ++ next) = .ok (b, next) := by
  cases h with
  | plain h1 h2 h3 h4 => exact getStringChar_plain h1 next
  | @simple e b next h =>
    simp only [simpleEscapes, List.mem_cons, Prod.mk.injEq, List.not_mem_nil, or_false] at h
    rcases h with ⟨rfl, rfl⟩ | ⟨rfl, rfl⟩ | ⟨rfl, rfl⟩ | ⟨rfl, rfl⟩ | ⟨rfl, rfl⟩ | ⟨rfl, rfl⟩ |
      ⟨rfl, rfl⟩ | ⟨rfl, rfl⟩ | ⟨rfl, rfl⟩ | ⟨rfl, rfl⟩ <;> simp [getStringChar]
  | oct hs h1 h3 hn hv =>
    have := getStringChar_oct hs h1 h3 hn
    rw [Nat.mod_eq_of_lt hv] at this
    exact this
  | hex hs h1 hn hv =>
    have hl := hx _ rfl
    rw [spells_length hs] at hl
    have := getStringChar_hex (.inl rfl) hs h1 hl (fun _ => hn)
    rw [Nat.mod_eq_of_lt hv] at this
    exact this

theorem item_head {q : Nat} (hq : q ≠ 92) {cs : List Nat} {b : Nat} {next : List Nat}
    (h : Item q cs b next) : ∃ c t, cs = c :: t ∧ c ≠ q := by
  cases h with
  | plain h1 h2 h3 h4 => exact ⟨_, _, rfl, h2⟩
  | simple h => exact ⟨_, _, rfl, fun e => hq e.symm⟩
  | oct => exact ⟨_, _, rfl, fun e => hq e.symm⟩
  | hex => exact ⟨_, _, rfl, fun e => hq e.symm⟩

theorem accumUntilF_ok {q : Nat} (hq : q ≠ 92) {cs bs rest : List Nat}
    (h : ShortHex q cs bs (q :: rest)) :
    ∀ fuel, cs.length < fuel → accumUntilF fuel q (cs ++ q :: rest) = .ok (bs, rest) := by
  generalize hn : q :: rest = next at h
  induction h with
  | nil =>
    intro fuel hf
    subst hn
    match fuel, hf with
    | f + 1, _ => simp [accumUntilF]
  | @cons cs b cs' bs next hi hx h' ih =>
    subst hn
    intro fuel hf
    obtain ⟨c, t, e, hne⟩ := item_head hq hi
    have hok := item_ok hi hx
    match fuel, hf with
    | f + 1, hf =>
      subst e
      have hlen : cs'.length < f := by simp at hf; omega
      have := ih rfl f hlen
      rw [List.append_assoc, List.cons_append] at *
      simp only [accumUntilF, if_neg hne]
      rw [hok]
      simp [this]

/-- **C08 (strings), partial.** The contents of any C string literal, whatever mixture of plain
characters, simple, octal and hexadecimal escapes, is scanned to the bytes C prescribes, and scanning
stops right after the closing quote.  Missing for the full property: hexadecimal escapes of more than
two digits (`C08_long_hex_false`) and `\?` (`C08_question_mark_rejected`). -/
theorem C08_string_partial {cs bs rest : List Nat} (h : ShortHex 34 cs bs (34 :: rest)) :
    scanString (cs ++ 34 :: rest) = .ok (bs, rest) := by
  refine accumUntilF_ok (by omega) h _ ?_
  simp; omega

/-- **C08 (characters), partial.** -/
theorem C08_char_partial {cs : List Nat} {b : Nat} {rest : List Nat}
    (h : Item 39 cs b (39 :: rest)) (hx : ∀ t, cs = 92 :: 120 :: t → t.length ≤ 2) :
    scanChar (cs ++ 39 :: rest) = .ok (b, rest) := by
  have hok := item_ok h hx
  obtain ⟨c, t, e, -⟩ := item_head (by omega) h
  subst e
  rw [List.cons_append] at *
  simp only [scanChar, hok, Res.bind_ok]

/-- three-digit octal spelling of a byte -/
def octSpell (b : Nat) : List Nat := [92, 48 + b / 64, 48 + b / 8 % 8, 48 + b % 8]

theorem octSpell_item (q b : Nat) (hb : b < 256) (next : List Nat) : Item q (octSpell b) b next := by
  have hs : Spells 8 [48 + b / 64, 48 + b / 8 % 8, 48 + b % 8] [b / 64, b / 8 % 8, b % 8] :=
    .cons (.dec _ (by omega)) (by omega) (.cons (.dec _ (by omega)) (by omega)
      (.cons (.dec _ (by omega)) (by omega) .nil))
  have hv : value 8 [b / 64, b / 8 % 8, b % 8] = b := by
    simp [value]; omega
  have := Item.oct (quote := q) (next := next) hs (by simp) (by simp) (by simp) (by omega)
  rw [hv] at this
  exact this

/-- **C08: every byte sequence can be written as a literal**, and scanning it gives it back. -/
theorem C08_every_byte_string (bs rest : List Nat) (h : ∀ b ∈ bs, b < 256) :
    ∃ cs, Contents 34 cs bs (34 :: rest) ∧ scanString (cs ++ 34 :: rest) = .ok (bs, rest) := by
  suffices hh : ∃ cs, Contents 34 cs bs (34 :: rest) ∧ ShortHex 34 cs bs (34 :: rest) by
    obtain ⟨cs, h1, h2⟩ := hh
    exact ⟨cs, h1, C08_string_partial h2⟩
  induction bs with
  | nil => exact ⟨[], .nil, .nil⟩
  | cons b bs ih =>
    obtain ⟨cs, h1, h2⟩ := ih (fun x hx => h x (by simp [hx]))
    have hi := octSpell_item 34 b (h b (by simp)) (cs ++ 34 :: rest)
    refine ⟨octSpell b ++ cs, .cons hi h1, .cons hi ?_ h2⟩
    intro t ht
    simp only [octSpell, List.cons.injEq, true_and] at ht
    have := h b (by simp)
    omega

/-- Every successful step consumes input. -/
def Progress (n : Nat) : Res (Nat × List Nat) → Prop
  | .ok p => p.2.length < n
  | .diverge => False
  | _ => True

theorem tryDigit_length (b : Nat) (p : Nat × List Nat) :
    (tryDigit b p).2.length ≤ p.2.length := by
  obtain ⟨v, inp⟩ := p
  cases inp with
  | nil => simp [tryDigit, accumDigit]
  | cons c t => simp only [tryDigit, accumDigit]; split <;> simp

theorem getStringChar_progress (inp : List Nat) : Progress inp.length (getStringChar inp) := by
  have tl := tryDigit_length
  cases inp with
  | nil => trivial
  | cons c inp =>
    simp only [getStringChar]
    split
    · simp [Progress]
    · cases inp with
      | nil => trivial
      | cons e inp1 =>
        simp only
        split
        · have h1 := tl 8 (0, e :: inp1)
          have h2 := tl 8 (tryDigit 8 (0, e :: inp1))
          have h3 := tl 8 (tryDigit 8 (tryDigit 8 (0, e :: inp1)))
          simp only [List.length_cons, Progress] at *
          omega
        · split
          · cases hh : accumDigit 16 0 inp1 with
            | none => trivial
            | some p =>
              have h1 := tl 16 p
              have h2 : p.2.length ≤ inp1.length := by
                cases inp1 with
                | nil => simp [accumDigit] at hh
                | cons c t =>
                  simp only [accumDigit] at hh
                  split at hh
                  · cases hh
                  · injection hh with hh; subst hh; simp
              simp only [List.length_cons, Progress] at *
              omega
          · repeat' split
            all_goals first
              | trivial
              | (simp only [Progress, List.length_cons]; omega)

/-- Scanning always terminates (the loop bound of the model is never hit) and either consumes the
closing quote or is rejected. -/
theorem C08_scan_terminates (inp : List Nat) : scanString inp ≠ .diverge := by
  have prog := getStringChar_progress
  have main : ∀ fuel stop inp, inp.length < fuel → accumUntilF fuel stop inp ≠ .diverge := by
    intro fuel
    induction fuel with
    | zero => intro _ _ h; omega
    | succ f ih =>
      intro stop inp hf
      cases inp with
      | nil => simp [accumUntilF]
      | cons c t =>
        simp only [accumUntilF]
        split
        · simp
        · have hp := prog (c :: t)
          cases e : getStringChar (c :: t) with
          | ok p =>
            rw [e] at hp
            have hl : p.2.length < (c :: t).length := hp
            have := ih stop p.2 (by simp at hf hl; omega)
            simp only [Res.bind_ok]
            cases hh : accumUntilF f stop p.2 <;> simp_all
          | fatal => simp
          | ub => simp
          | diverge => rw [e] at hp; exact hp.elim
  exact main _ _ _ (by omega)

/-- **C08 is false for long hexadecimal escapes**: `"\x041"` is one byte 0x41 in C, pnut stores the
bytes 4 and `1`. -/
theorem C08_long_hex_false :
    Contents 34 [92, 120, 48, 52, 49] [65] [34] ∧
    scanString [92, 120, 48, 52, 49, 34] = .ok ([4, 49], []) := by
  constructor
  · have hs : Spells 16 [48, 52, 49] [0, 4, 1] :=
      .cons (.dec 0 (by omega)) (by omega) (.cons (.dec 4 (by omega)) (by omega)
        (.cons (.dec 1 (by omega)) (by omega) .nil))
    have hst : Stops 16 ([] ++ [34]) := by
      intro c d t h hd
      injection h with h _
      subst h
      have := digitOf_of_isDigit hd
      simp [digitOf] at this; omega
    have hi := Item.hex (quote := 34) hs (by simp) hst (by decide)
    exact .cons hi .nil
  · decide +kernel

/-- The C escape `\?` is rejected by pnut (it is valid C). -/
theorem C08_question_mark_rejected (rest : List Nat) : getStringChar (92 :: 63 :: rest) = .fatal := by
  simp [getStringChar]

/-! Non-vacuity: the literal `a\n\12\x4F8"`, where `8` is not an octal digit. -/
example : scanString [97, 92, 110, 92, 49, 50, 56, 92, 120, 52, 70, 34, 59] =
    .ok ([97, 10, 10, 56, 79], [59]) := by decide +kernel
example : ShortHex 34 [97, 92, 110] [97, 10] [34] :=
  .cons (cs := [97]) (.plain (by omega) (by omega) (by omega) (by omega)) (by simp)
    (.cons (cs := [92, 110]) (cs' := []) (.simple (by decide)) (by simp) .nil)

end Verif.Str
