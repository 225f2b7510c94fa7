import Verif.Lex.Proofs
/-! Lemmas about `get_tok`: each kind of token. -/
namespace Verif.Lex
open Verif Verif.Lit Verif.Lit.Spec Verif.Str Verif.Str.Spec Spec

theorem isAlpha_iff (c : Nat) : isAlpha c = true ↔ NonDigit c := by
  simp [isAlpha, NonDigit]; omega
theorem isDigit_iff (c : Nat) : isDigit c = true ↔ Digit c := by
  simp [isDigit, Digit]

theorem ident_all {s : List Nat} (h : Identifier s) : (∃ c t, s = c :: t ∧ NonDigit c) ∧ ∀ c ∈ s, NonDigit c ∨ Digit c := by
  induction h with
  | one h => exact ⟨⟨_, _, rfl, h⟩, fun x hx => by simp at hx; subst hx; exact .inl h⟩
  | @more s c _ hc ih =>
    obtain ⟨⟨a, t, rfl, ha⟩, h2⟩ := ih
    refine ⟨⟨a, t ++ [c], rfl, ha⟩, fun x hx => ?_⟩
    rcases List.mem_append.1 hx with h | h
    · exact h2 x h
    · simp at h; subst h; exact hc

theorem get_ident_ok {rest : List Nat} (hr : ∀ c t, rest = c :: t → ¬ (NonDigit c ∨ Digit c)) : ∀ {s : List Nat}, (∀ c ∈ s, NonDigit c ∨ Digit c) →
    get_ident (s ++ rest) = (s, rest) := by
  intro s
  induction s with
  | nil =>
    intro _
    cases rest with
    | nil => rfl
    | cons c t =>
      have := hr c t rfl
      rw [List.nil_append, get_ident, if_neg]
      intro h
      rw [Bool.or_eq_true, isAlpha_iff, isDigit_iff] at h
      exact this h
  | cons a s ih =>
    intro h
    have ha := h a (by simp)
    rw [List.cons_append, get_ident, if_pos (by rw [Bool.or_eq_true, isAlpha_iff, isDigit_iff]; exact ha), ih (fun c hc => h c (by simp [hc]))]

/-- If adding one character gives a preprocessing token, then that character is not next. -/
theorem longest_next {lex rest : List Nat} (h : Longest lex rest) {c : Nat} (hp : PP (lex ++ [c])) : ∀ t, rest ≠ c :: t := by
  rintro t rfl
  exact h 1 (by omega) (by simp) (by simpa using hp)

theorem longest_next2 {lex rest : List Nat} (h : Longest lex rest) {c d : Nat} (hp : PP (lex ++ [c, d])) : ∀ t, rest ≠ c :: d :: t := by
  rintro t rfl
  exact h 2 (by omega) (by simp) (by simpa using hp)

theorem ppnumber_all {s : List Nat} (h : PPNumber s) : ∀ {t : List Nat}, (∀ c ∈ t, NonDigit c ∨ Digit c ∨ c = 46) → PPNumber (s ++ t) := by
  intro t
  induction t generalizing s with
  | nil => intro _; simpa using h
  | cons c t ih =>
    intro ht
    have := ih (.more h (ht c (by simp))) (fun c hc => ht c (by simp [hc]))
    simpa using this

theorem isDigit_alnum {c d : Nat} (h : IsDigit c d) : NonDigit c ∨ Digit c ∨ c = 46 := by
  unfold NonDigit Digit
  cases h <;> omega

theorem isDigit_alnum' {c : Nat} (h : NonDigit c ∨ Digit c ∨ c = 46) {d : Nat} (hd : IsDigit c d) : NonDigit c ∨ Digit c := by
  unfold NonDigit Digit at *
  cases hd <;> omega

theorem spells_alnum {b : Nat} {cs ds : List Nat} (h : Spells b cs ds) : ∀ c ∈ cs, NonDigit c ∨ Digit c ∨ c = 46 := by
  induction h with
  | nil => simp
  | cons h1 _ _ ih =>
    intro c hc
    rcases List.mem_cons.1 hc with rfl | hc
    · exact isDigit_alnum h1
    · exact ih c hc

theorem isDigit_ten {c d : Nat} (h : IsDigit c d) (hd : d < 10) : Digit c := by
  unfold Digit
  cases h <;> omega

theorem literal_ppnumber {cs ds : List Nat} {b : Nat} (h : Literal cs b ds) : PPNumber cs ∧ ∃ c t, cs = c :: t ∧ Digit c := by
  have d48 : Digit 48 := by unfold Digit; omega
  have nx : NonDigit 120 := by unfold NonDigit; omega
  have nX : NonDigit 88 := by unfold NonDigit; omega
  cases h with
  | dec hs _ hne =>
    cases hs with
    | nil => exact absurd rfl hne
    | @cons c d cs ds h1 h2 h3 =>
      have hc := isDigit_ten h1 h2
      exact ⟨ppnumber_all (s := [c]) (.digit hc) (spells_alnum h3), c, cs, rfl, hc⟩
  | oct hs => exact ⟨ppnumber_all (s := [48]) (.digit d48) (spells_alnum hs), 48, _, rfl, d48⟩
  | @hexl cs _ hs _ =>
    refine ⟨ppnumber_all (s := [48]) (.digit d48) (t := 120 :: cs) ?_, 48, _, rfl, d48⟩
    intro c hc
    rcases List.mem_cons.1 hc with rfl | hc
    · exact .inl nx
    · exact spells_alnum hs c hc
  | @hexu cs _ hs _ =>
    refine ⟨ppnumber_all (s := [48]) (.digit d48) (t := 88 :: cs) ?_, 48, _, rfl, d48⟩
    intro c hc
    rcases List.mem_cons.1 hc with rfl | hc
    · exact .inl nX
    · exact spells_alnum hs c hc

theorem sfx_alnum {sfx : List Nat} {k : Kind} (h : (sfx, k) ∈ suffixes) : ∀ c ∈ sfx, c = 117 ∨ c = 85 ∨ c = 108 ∨ c = 76 := by
  have : ∀ p ∈ suffixes, ∀ c ∈ p.1, c = 117 ∨ c = 85 ∨ c = 108 ∨ c = 76 := by decide
  exact this _ h

theorem isU_cons (c : Nat) (t : List Nat) : isU (c :: t) = (c == 117 || c == 85) := rfl
theorem isL_cons (c : Nat) (t : List Nat) : isL (c :: t) = (c == 108 || c == 76) := rfl

theorem suffix_ok {sfx rest : List Nat} {k : Kind} (h : (sfx, k) ∈ suffixes) (hr : ∀ c t, rest = c :: t → ¬ NonDigit c) :
    suffix (sfx ++ rest) = (k, rest) := by
  have hU : isU rest = false := by
    cases rest with
    | nil => rfl
    | cons c t => have := hr c t rfl; unfold NonDigit at this; simp [isU]; omega
  have hL : isL rest = false := by
    cases rest with
    | nil => rfl
    | cons c t => have := hr c t rfl; unfold NonDigit at this; simp [isL]; omega
  simp only [suffixes, List.mem_cons, Prod.mk.injEq, List.not_mem_nil, or_false] at h
  rcases h with ⟨rfl, rfl⟩ | ⟨rfl, rfl⟩ | ⟨rfl, rfl⟩ | ⟨rfl, rfl⟩ | ⟨rfl, rfl⟩ | ⟨rfl, rfl⟩ | ⟨rfl, rfl⟩ | ⟨rfl, rfl⟩ | ⟨rfl, rfl⟩ | ⟨rfl, rfl⟩ |
    ⟨rfl, rfl⟩ | ⟨rfl, rfl⟩ | ⟨rfl, rfl⟩ | ⟨rfl, rfl⟩ | ⟨rfl, rfl⟩ | ⟨rfl, rfl⟩ | ⟨rfl, rfl⟩ | ⟨rfl, rfl⟩ | ⟨rfl, rfl⟩ | ⟨rfl, rfl⟩ | ⟨rfl, rfl⟩ | ⟨rfl, rfl⟩ | ⟨rfl, rfl⟩ <;>
  simp [suffix, hU, hL, isU_cons, isL_cons]

/-- The value and the kind of a literal. -/
theorem number32_kind {cs ds rest : List Nat} {b : Nat} (hl : Literal cs b ds) (hf : Follows b ds rest) (hv : value b ds ≤ 2147483648) :
    number32 true (cs ++ rest) = .ok (shKind b (value b ds), -(value b ds : Int), rest) ∧
    number32 false (cs ++ rest) = .ok (.int, -(value b ds : Int), rest) := by
  rw [value_eq] at *
  cases hl with
  | dec hs h0 hne =>
    have := loop32_ok (by omega) (by omega) hs rest hf.1 0 hv
    simp only [Int.natCast_zero, Int.neg_zero] at this
    constructor <;> rw [number32_dec _ _ (spells_no_0 hs h0 hne), this] <;> simp [shKind]
  | oct hs =>
    have := loop32_ok (by omega) (by omega) hs rest hf.1 0 hv
    simp only [Int.natCast_zero, Int.neg_zero] at this
    constructor <;> rw [List.cons_append, number32_oct _ _ (spells_no_x (by omega) hs (hf.2 rfl)), this] <;> simp [shKind]
  | hexl hs hne =>
    have := loop32_ok (by omega) (by omega) hs rest hf.1 0 hv
    simp only [Int.natCast_zero, Int.neg_zero] at this
    constructor <;> rw [List.cons_append, List.cons_append, number32_hex _ _ (.inl rfl) _ (spells_head hs hne), this] <;> simp [shKind]
  | hexu hs hne =>
    have := loop32_ok (by omega) (by omega) hs rest hf.1 0 hv
    simp only [Int.natCast_zero, Int.neg_zero] at this
    constructor <;> rw [List.cons_append, List.cons_append, number32_hex _ _ (.inr rfl) _ (spells_head hs hne), this] <;> simp [shKind]

theorem number_ok (sh : Bool) {cs sfx ds rest : List Nat} {b : Nat} {k : Kind} (hl : Literal cs b ds) (hv : value b ds ≤ 2147483648)
    (hs : (sfx, k) ∈ suffixes) (hsh : sh = true → sfx = []) (hr : ∀ c t, rest = c :: t → ¬ (NonDigit c ∨ Digit c)) :
    number sh (cs ++ sfx ++ rest) = .ok (if sh then shKind b (value b ds) else k, -(value b ds : Int), rest) := by
  have hb : b ≤ 16 := by cases hl <;> omega
  have ch : ∀ c t, sfx ++ rest = c :: t → ¬ (Digit c) ∧ (∀ d, IsDigit c d → 16 ≤ d) ∧ c ≠ 120 ∧ c ≠ 88 := by
    intro c t e
    cases sfx with
    | nil =>
      have h := hr c t e
      refine ⟨fun hd => h (.inr hd), fun d hd => ?_, ?_, ?_⟩
      · exact absurd (isDigit_alnum' (isDigit_alnum hd) hd) h
      · rintro rfl; exact h (.inl (by unfold NonDigit; omega))
      · rintro rfl; exact h (.inl (by unfold NonDigit; omega))
    | cons a s =>
      have h := sfx_alnum hs a (by simp)
      simp at e
      obtain ⟨rfl, _⟩ := e
      refine ⟨by unfold Digit; omega, fun d hd => ?_, by omega, by omega⟩
      cases hd <;> omega
  have hf : Follows b ds (sfx ++ rest) := by
    refine ⟨fun c d t e hd => ?_, fun _ _ t => ⟨?_, ?_⟩⟩
    · have := (ch c t e).2.1 d hd; omega
    · intro e; exact (ch _ _ e).2.2.1 rfl
    · intro e; exact (ch _ _ e).2.2.2 rfl
  have hk := number32_kind hl hf hv
  unfold number
  rw [List.append_assoc]
  cases sh with
  | true =>
    have := hsh rfl
    subst this
    simp only [if_true]
    exact hk.1
  | false =>
    simp only [Bool.false_eq_true, if_false]
    rw [hk.2]
    simp only [Res.bind_ok]
    rw [suffix_ok hs (fun c t e h => hr c t e (.inl h))]

theorem digit_ne {c : Nat} (h : Digit c) : ¬ c ≤ 32 ∧ (c == 35) = false ∧ isAlpha c = false ∧ isDigit c = true := by
  refine ⟨by unfold Digit at h; omega, by unfold Digit at h; simp; omega, ?_, (isDigit_iff c).2 h⟩
  cases e : isAlpha c with
  | false => rfl
  | true => rw [isAlpha_iff] at e; unfold NonDigit at e; unfold Digit at h; omega

theorem nondigit_ne {c : Nat} (h : NonDigit c) : ¬ c ≤ 32 ∧ (c == 35) = false ∧ isAlpha c = true := by
  refine ⟨by unfold NonDigit at h; omega, by unfold NonDigit at h; simp; omega, (isAlpha_iff c).2 h⟩

theorem next_cons (c d : Nat) (r : List Nat) : next c (d :: r) = if d = c then some r else none := rfl

set_option maxHeartbeats 2000000 in
/-- An operator. -/
theorem operator_ok {s rest : List Nat} {o : Op} (h : (s, o) ∈ punctuators) (hl : Longest s rest) (hd : s = [46] → ¬ [46] <+: rest)
    (hc : NoComment (s ++ rest)) (sh skip nl : Bool) (hn : s.head? = some 35 → nl = false) :
    get_tok sh skip nl (s ++ rest) = .ok (.op o, rest) := by
  have nx : ∀ c : Nat, ((punctuators.map Prod.fst).contains (s ++ [c])) = true → next c rest = none := by
    intro c hm
    rw [List.contains_iff_mem, List.mem_map] at hm
    obtain ⟨⟨s', o'⟩, hm, rfl⟩ := hm
    exact next_none (longest_next hl (.punct hm))
  have nd : s = [46] → next 46 rest = none := by
    intro e
    refine next_none ?_
    rintro t rfl
    exact hd e (by simp)
  have nc : s = [47] → next 42 rest = none ∧ next 47 rest = none := by
    rintro rfl
    refine ⟨next_none ?_, next_none ?_⟩
    · rintro t rfl; exact hc.1 (by simp)
    · rintro t rfl; exact hc.2 (by simp)
  rw [get_tok, get_tokF.eq_def]
  clear hl hd hc
  revert h
  intro h
  simp only [punctuators, List.mem_cons, Prod.mk.injEq, List.not_mem_nil, or_false] at h
  rcases h with ⟨rfl, rfl⟩ | ⟨rfl, rfl⟩ | ⟨rfl, rfl⟩ | ⟨rfl, rfl⟩ | ⟨rfl, rfl⟩ | ⟨rfl, rfl⟩ | ⟨rfl, rfl⟩ | ⟨rfl, rfl⟩ | ⟨rfl, rfl⟩ | ⟨rfl, rfl⟩ |
    ⟨rfl, rfl⟩ | ⟨rfl, rfl⟩ | ⟨rfl, rfl⟩ | ⟨rfl, rfl⟩ | ⟨rfl, rfl⟩ | ⟨rfl, rfl⟩ | ⟨rfl, rfl⟩ | ⟨rfl, rfl⟩ | ⟨rfl, rfl⟩ | ⟨rfl, rfl⟩ |
    ⟨rfl, rfl⟩ | ⟨rfl, rfl⟩ | ⟨rfl, rfl⟩ | ⟨rfl, rfl⟩ | ⟨rfl, rfl⟩ | ⟨rfl, rfl⟩ | ⟨rfl, rfl⟩ | ⟨rfl, rfl⟩ | ⟨rfl, rfl⟩ | ⟨rfl, rfl⟩ |
    ⟨rfl, rfl⟩ | ⟨rfl, rfl⟩ | ⟨rfl, rfl⟩ | ⟨rfl, rfl⟩ | ⟨rfl, rfl⟩ | ⟨rfl, rfl⟩ | ⟨rfl, rfl⟩ | ⟨rfl, rfl⟩ | ⟨rfl, rfl⟩ | ⟨rfl, rfl⟩ |
    ⟨rfl, rfl⟩ | ⟨rfl, rfl⟩ | ⟨rfl, rfl⟩ | ⟨rfl, rfl⟩ | ⟨rfl, rfl⟩ | ⟨rfl, rfl⟩ | ⟨rfl, rfl⟩ | ⟨rfl, rfl⟩
  all_goals
    try have n61 := nx 61 (by decide)
    try have n38 := nx 38 (by decide)
    try have n124 := nx 124 (by decide)
    try have n60 := nx 60 (by decide)
    try have n62 := nx 62 (by decide)
    try have n43 := nx 43 (by decide)
    try have n45 := nx 45 (by decide)
    try have n35 := nx 35 (by decide)
    try have n46 := nd rfl
    try have n47 := nc rfl
    try have n99 := hn rfl
    clear nx nd nc hn
    simp [isAlpha, isDigit, operator, next_cons, *]

end Verif.Lex
