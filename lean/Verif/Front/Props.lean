import Verif.Front.Proofs2
/-! C52: from the text of a block to its tree. -/
namespace Verif.Front
open Verif Verif.Intern Verif.Lex.Spec

/-- **C52** (partial: no declarations, casts to or sizes of types, macros, directives, line continuations; see `Spec.tok`).  A text splits by the lexical rules of C into the tokens `ts`; these begin with tokens that the grammar
of C derives as a block with the tree `st`.  Then pnut reads the text as exactly this tree and stops behind the block; the numbers in the tree stand for entries of the table of names that have the spellings of the
identifiers (so that different identifiers have different numbers), whatever white space and comments stand between the tokens, whatever else is done with the heap meanwhile, and however the names are hashed.
`hfit`: the heap and the string pool are large enough (see `C52_fits`). -/
theorem C52_text_to_tree_partial {sh : Bool} {t : Cli.Target} {more : Nat → List Op} {inp : List Nat} {ts : List Lex.Tok} (hs : splice inp = inp) (hc : Splits sh (splice inp) ts) (hz : Spec.NulFree ts)
    (hm : ∀ i, ∀ o ∈ more i, o.NulFree ∧ ∀ j v, o ≠ .setKind j v) {w : World} (hfit : run World.init (initOps 0 (inits t) ++ history more 0 ts) = .ok w) :
    ∃ num, (∀ s ∈ Spec.names ts, spelling w.st (num s) = s) ∧
      ∀ xs rest st, Spec.Toks num ts (xs ++ rest) → PStmt.Spec.Body false xs st → front sh t more inp = .ok (some (st, rest)) :=
  front_ok (by rwa [hs] at hc) hz hm hfit

/-- **C52**: a keyword of declarations or the name of a macro of every target is never taken for an identifier: the text is outside the model (declarations and macros are the subjects of C42 and C22). -/
theorem C52_reserved_partial {sh : Bool} {t : Cli.Target} {more : Nat → List Op} {inp : List Nat} {ts : List Lex.Tok} (hs : splice inp = inp) (hc : Splits sh (splice inp) ts) (hh : Lex.NoHash ts) (hz : Spec.NulFree ts)
    (hm : ∀ i, ∀ o ∈ more i, o.NulFree ∧ ∀ j v, o ≠ .setKind j v) {w : World} (hfit : run World.init (initOps 0 (inits t) ++ history more 0 ts) = .ok w) {s : List Nat} (h1 : s ∈ Spec.names ts)
    (h2 : s ∈ Spec.typeWords ∨ s ∈ Spec.allMacros) : front sh t more inp = .ok none := by
  obtain ⟨w0, e0, e1⟩ := run_append _ hfit
  obtain ⟨T0, k0⟩ := kk_start (t := t) e0
  obtain ⟨o, c, hn⟩ := conv_none t more hm ts 0 k0 (names_bytes hc) hz e1
  rw [front, Lex.C21_tokens_partial hs hc hh, Res.bind_ok, start, e0, Res.bind_ok, c, Res.bind_ok, hn s h1 h2]

def usedOk (r : Res World) : Bool :=
  match used r with
  | some (a, b) => decide (a < 1000) && decide (b < 2000)
  | none => false

theorem usedOk_elim {r : Res World} (h : usedOk r = true) : ∃ a b, used r = some (a, b) ∧ a < 1000 ∧ b < 2000 := by
  unfold usedOk at h
  split at h
  · next a b e => simp at h; exact ⟨a, b, e, h.1, h.2⟩
  · cases h

theorem used_elim {r : Res World} {a b : Nat} (h : used r = some (a, b)) : ∃ w, r = .ok w ∧ w.st.poolAlloc = a ∧ w.st.heapAlloc = b := by
  cases r with
  | ok w => simp only [used, Option.some.injEq, Prod.mk.injEq] at h; exact ⟨w, rfl, h.1, h.2⟩
  | _ => cases h

/-- When nothing else needs room, the tables are large enough for every text whose names and strings have fewer than 490000 bytes (with a byte behind each) and are fewer than 390000. -/
theorem C52_fits {sh : Bool} (t : Cli.Target) {inp : List Nat} {ts : List Lex.Tok} (hc : Splits sh inp ts) (hz : Spec.NulFree ts) (hb : (room ts).1 < 490000) (hn : (room ts).2 < 390000) :
    ∃ w, run World.init (initOps 0 (inits t) ++ history (fun _ => []) 0 ts) = .ok w := by
  have h1 : ∃ a b, used (start t) = some (a, b) ∧ a < 1000 ∧ b < 2000 := usedOk_elim (by cases t <;> decide +kernel)
  obtain ⟨a, b, h2, h3, h4⟩ := h1
  obtain ⟨w, h, h5, h6⟩ := used_elim h2
  · obtain ⟨T, k⟩ := kk_start h
    obtain ⟨w', hw⟩ := history_total t ts 0 k (names_bytes hc) hz (by simp only [POOL_SIZE]; omega) (by simp only [HEAP_SIZE]; omega)
    exact ⟨w', run_append' _ h hw⟩

/-- **C52**, for short texts: no condition on the tables is left. -/
theorem C52_short_text_partial {sh : Bool} (t : Cli.Target) {inp : List Nat} {ts : List Lex.Tok} (hs : splice inp = inp) (hc : Splits sh (splice inp) ts) (hz : Spec.NulFree ts) (hb : (room ts).1 < 490000) (hn : (room ts).2 < 390000) :
    ∃ num : List Nat → Nat, (∀ a ∈ Spec.names ts, ∀ b ∈ Spec.names ts, num a = num b → a = b) ∧
      ∀ xs rest st, Spec.Toks num ts (xs ++ rest) → PStmt.Spec.Body false xs st → front sh t (fun _ => []) inp = .ok (some (st, rest)) := by
  obtain ⟨w, hw⟩ := C52_fits t hc hz hb hn
  obtain ⟨num, h1, h2⟩ := C52_text_to_tree_partial hs hc hz (more := fun _ => []) (by simp) hw
  refine ⟨num, fun a ha b hb e => ?_, h2⟩
  rw [← h1 a ha, ← h1 b hb, e]

/-! ## Layout does not matter -/

/-- **C52**: two texts with the same tokens are read in the same way, whatever they look like. -/
theorem C52_layout_partial {sh : Bool} (t : Cli.Target) (more : Nat → List Op) {inp inp' : List Nat} {ts : List Lex.Tok} (hs : splice inp = inp) (hs' : splice inp' = inp') (hc : Splits sh (splice inp) ts)
    (hc' : Splits sh (splice inp') ts) (hh : Lex.NoHash ts) : front sh t more inp = front sh t more inp' := by
  rw [front, front, Lex.C21_tokens_partial hs hc hh, Lex.C21_tokens_partial hs' hc' hh]

/-! ## A text that meets the hypotheses -/

theorem splits_space {sh : Bool} {rest : List Nat} {ts : List Lex.Tok} (h : Splits sh rest ts) : Splits sh (32 :: rest) ts := by
  cases h with
  | done h =>
    refine .done ?_
    cases h with
    | gap h => exact .gap (.space (Or.inl rfl) h)
    | line h h' => exact .line (g := 32 :: _) (.space (Or.inl rfl) h) h'
  | cons h1 h2 h3 h4 h5 => exact .cons (g := 32 :: _) (.space (Or.inl rfl) h1) h2 h3 h4 h5

/-- A comment in front. -/
theorem splits_comment {sh : Bool} {rest : List Nat} {ts : List Lex.Tok} (h : Splits sh rest ts) : Splits sh (47 :: 42 :: 32 :: 99 :: 32 :: 42 :: 47 :: rest) ts := by
  have hb : ∀ {g : List Nat}, Gap g → Gap (47 :: 42 :: ([32, 99, 32] ++ 42 :: 47 :: g)) := fun h => .block (by decide) h
  cases h with
  | done h =>
    refine .done ?_
    cases h with
    | gap h => exact .gap (hb h)
    | line h h' => exact .line (g := 47 :: 42 :: ([32, 99, 32] ++ 42 :: 47 :: _)) (hb h) h'
  | cons h1 h2 h3 h4 h5 => exact .cons (g := 47 :: 42 :: ([32, 99, 32] ++ 42 :: 47 :: _)) (hb h1) h2 h3 h4 h5

theorem ident_noSpace {s : List Nat} (h : Identifier s) : 32 ∉ s := by
  induction h with
  | one h => rcases h with h | h | h <;> simp <;> omega
  | more _ h ih =>
    simp only [List.mem_append, not_or, List.mem_singleton]
    refine ⟨ih, ?_⟩
    rcases h with (h | h | h) | ⟨h, _⟩ <;> omega

theorem num_noSpace {s : List Nat} (h : PPNumber s) : 32 ∉ s := by
  induction h with
  | digit h => rcases h with ⟨h, _⟩; simp; omega
  | dot h => rcases h with ⟨h, _⟩; simp; omega
  | more _ h ih =>
    simp only [List.mem_append, not_or, List.mem_singleton]
    refine ⟨ih, ?_⟩
    rcases h with (h | h | h) | ⟨h, _⟩ | h <;> omega
  | sign _ he h ih =>
    simp only [List.mem_append, not_or, List.mem_cons, List.not_mem_nil, or_false]
    simp only [List.mem_cons, List.not_mem_nil, or_false] at he
    refine ⟨ih, ?_, ?_⟩ <;> omega

theorem pp_quote {s : List Nat} (h : PP s) (h32 : 32 ∈ s) : ∃ r, s = 39 :: r ∨ s = 34 :: r ∨ s = 76 :: 39 :: r ∨ s = 76 :: 34 :: r := by
  cases h with
  | ident h => exact absurd h32 (ident_noSpace h)
  | number h => exact absurd h32 (num_noSpace h)
  | char => exact ⟨_, .inl rfl⟩
  | lchar => exact ⟨_, .inr (.inr (.inl rfl))⟩
  | string => exact ⟨_, .inr (.inl rfl)⟩
  | lstring => exact ⟨_, .inr (.inr (.inr rfl))⟩
  | punct h =>
    have : ∀ p ∈ punctuators, 32 ∉ p.1 := by decide +kernel
    exact absurd h32 (this _ h)
  | digraph h =>
    have : ∀ p ∈ digraphs, 32 ∉ p := by decide +kernel
    exact absurd h32 (this _ h)

/-- A word followed by a space. -/
theorem splits_word {sh : Bool} {lex rest : List Nat} {t : Lex.Tok} {ts : List Lex.Tok} (h : Splits sh rest ts) (ht : Token sh lex (32 :: rest) t) (hl : (lex.isEmpty || lex.contains 39 || lex.contains 34) = false)
    (hc : (lex.head? == some 47) = false) : Splits sh (lex ++ 32 :: rest) (t :: ts) := by
  refine .cons (g := []) .nil ht ?_ ?_ (splits_space h)
  · intro k hk hk' hp
    cases k with
    | zero => omega
    | succ k =>
      rw [List.take_succ_cons] at hp
      obtain ⟨r, h⟩ := pp_quote hp (by simp)
      simp at hl
      rcases lex with _ | ⟨a, _ | ⟨b, l⟩⟩
      · simp at hl
      · simp at h hl; omega
      · simp at h hl; omega
  · rcases lex with _ | ⟨a, l⟩
    · simp at hl
    · simp at hc
      simp [NoComment]
      exact ⟨fun h => absurd h.symm hc, fun h => absurd h.symm hc⟩

theorem identifier_of : ∀ (s : List Nat) {p : List Nat}, Identifier p → (s.all fun c => Lex.isAlpha c || Lex.isDigit c) = true → Identifier (p ++ s)
  | [], p, h, _ => by simpa using h
  | c :: s, p, h, hs => by
    simp only [List.all_cons, Bool.and_eq_true] at hs
    have : p ++ c :: s = (p ++ [c]) ++ s := by simp
    rw [this]
    refine identifier_of s (.more h ?_) hs.2
    have h1 := hs.1
    simp [Lex.isAlpha, Lex.isDigit] at h1
    simp only [NonDigit, Digit]
    omega

theorem ident_tok {sh : Bool} {rest : List Nat} (c : Nat) (s : List Nat) (hc : Lex.isAlpha c = true) (hs : (s.all fun c => Lex.isAlpha c || Lex.isDigit c) = true) : Token sh (c :: s) rest (.ident (c :: s)) := by
  refine .ident (identifier_of s (.one ?_) hs)
  simp [Lex.isAlpha] at hc
  simp only [NonDigit]
  omega

/-- `/* c */ { if ( x1 ) while ( y ) x1 += y ; else { goto if_ ; } } z` -/
def exText : List Nat := Spec.str "/* c */ { if ( x1 ) while ( y ) x1 += y ; else { goto if_ ; } } z "

def exToks : List Lex.Tok :=
  [.op (.ch 123), .ident (Spec.str "if"), .op (.ch 40), .ident (Spec.str "x1"), .op (.ch 41), .ident (Spec.str "while"), .op (.ch 40), .ident (Spec.str "y"), .op (.ch 41), .ident (Spec.str "x1"), .op .plusEq, .ident (Spec.str "y"),
   .op (.ch 59), .ident (Spec.str "else"), .op (.ch 123), .ident (Spec.str "goto"), .ident (Spec.str "if_"), .op (.ch 59), .op (.ch 125), .op (.ch 125), .ident (Spec.str "z")]

theorem ex_splits : Splits true exText exToks := by
  have o : ∀ {s rest : List Nat} {o : Lex.Op}, (s, o) ∈ punctuators → s ≠ [46] → Token true s rest (.op o) := fun h h' => .op h fun e => absurd e h'
  have h : Splits true (123 :: 32 :: Spec.str "if ( x1 ) while ( y ) x1 += y ; else { goto if_ ; } } z ") exToks := by
    refine splits_word (lex := [123]) ?_ (o (by decide +kernel) (by decide)) rfl rfl
    refine splits_word (lex := Spec.str "if") ?_ (ident_tok _ _ rfl rfl) rfl rfl
    refine splits_word (lex := [40]) ?_ (o (by decide +kernel) (by decide)) rfl rfl
    refine splits_word (lex := Spec.str "x1") ?_ (ident_tok _ _ rfl rfl) rfl rfl
    refine splits_word (lex := [41]) ?_ (o (by decide +kernel) (by decide)) rfl rfl
    refine splits_word (lex := Spec.str "while") ?_ (ident_tok _ _ rfl rfl) rfl rfl
    refine splits_word (lex := [40]) ?_ (o (by decide +kernel) (by decide)) rfl rfl
    refine splits_word (lex := Spec.str "y") ?_ (ident_tok _ _ rfl rfl) rfl rfl
    refine splits_word (lex := [41]) ?_ (o (by decide +kernel) (by decide)) rfl rfl
    refine splits_word (lex := Spec.str "x1") ?_ (ident_tok _ _ rfl rfl) rfl rfl
    refine splits_word (lex := [43, 61]) ?_ (o (by decide +kernel) (by decide)) rfl rfl
    refine splits_word (lex := Spec.str "y") ?_ (ident_tok _ _ rfl rfl) rfl rfl
    refine splits_word (lex := [59]) ?_ (o (by decide +kernel) (by decide)) rfl rfl
    refine splits_word (lex := Spec.str "else") ?_ (ident_tok _ _ rfl rfl) rfl rfl
    refine splits_word (lex := [123]) ?_ (o (by decide +kernel) (by decide)) rfl rfl
    refine splits_word (lex := Spec.str "goto") ?_ (ident_tok _ _ rfl rfl) rfl rfl
    refine splits_word (lex := Spec.str "if_") ?_ (ident_tok _ _ rfl rfl) rfl rfl
    refine splits_word (lex := [59]) ?_ (o (by decide +kernel) (by decide)) rfl rfl
    refine splits_word (lex := [125]) ?_ (o (by decide +kernel) (by decide)) rfl rfl
    refine splits_word (lex := [125]) ?_ (o (by decide +kernel) (by decide)) rfl rfl
    refine splits_word (lex := Spec.str "z") ?_ (ident_tok _ _ rfl rfl) rfl rfl
    exact .done (.gap .nil)
  exact splits_comment (splits_space h)

private abbrev I (x : Nat) : PStmt.Tok := .e (.ident x)
private abbrev P (x : Parse.P) : PStmt.Tok := .e (.p x)

/-- The tree of the text, its names being numbered by `num`. -/
def exTree (num : List Nat → Nat) : PStmt.St :=
  .block (.if_ (.parens (.ident (num (Spec.str "x1")))) (.while_ (.parens (.ident (num (Spec.str "y")))) (.expr (.assign .pluseq (.ident (num (Spec.str "x1"))) (.ident (num (Spec.str "y"))))))
    (.block (.goto (num (Spec.str "if_"))) .nil)) .nil

def exBody (x y g : Nat) : List PStmt.Tok :=
  [.lbrace, .kw .if_, P .lpar, I x, P .rpar, .kw .while_, P .lpar, I y, P .rpar, I x, P .pluseq, I y, P .semi, .kw .else_, .lbrace, .kw .goto, I g, P .semi, .rbrace, .rbrace]

theorem ex_body (x y g : Nat) : PStmt.Spec.Body false (exBody x y g)
    (.block (.if_ (.parens (.ident x)) (.while_ (.parens (.ident y)) (.expr (.assign .pluseq (.ident x) (.ident y)))) (.block (.goto g) .nil)) .nil) :=
  .mk (ts := [.kw .if_, P .lpar, I x, P .rpar, .kw .while_, P .lpar, I y, P .rpar, I x, P .pluseq, I y, P .semi, .kw .else_, .lbrace, .kw .goto, I g, P .semi, .rbrace])
    (.stm (ts := [.kw .if_, P .lpar, I x, P .rpar, .kw .while_, P .lpar, I y, P .rpar, I x, P .pluseq, I y, P .semi, .kw .else_, .lbrace, .kw .goto, I g, P .semi, .rbrace])
      (.ifElse (te := [I x]) (ts := [.kw .while_, P .lpar, I y, P .rpar, I x, P .pluseq, I y, P .semi]) (ts' := [.lbrace, .kw .goto, I g, P .semi, .rbrace]) ⟨[.ident x], rfl, PStmt.expr_ident _ _⟩
        (.while_ (te := [I y]) (ts := [I x, P .pluseq, I y, P .semi]) ⟨[.ident y], rfl, PStmt.expr_ident _ _⟩
          (.expr (te := [I x, P .pluseq, I y]) ⟨[.ident x, .p .pluseq, .ident y], rfl, .ofAssign (.assign (ts := [.ident x]) (ts' := [.ident y]) (by decide) (.ofPostfix (.ofPrimary (.ident x)))
            (.ofCond (.ofLor (PStmt.bin_ident _ _ 10 (by omega)))))⟩ .text))
        (.block (ts := [.kw .goto, I g, P .semi]) (.stm (ts := [.kw .goto, I g, P .semi]) .goto .nil))) .nil)

theorem ex_toks (num : List Nat → Nat) : Spec.Toks num exToks (exBody (num (Spec.str "x1")) (num (Spec.str "y")) (num (Spec.str "if_")) ++ [.e (.ident (num (Spec.str "z")))]) := by
  have k : ∀ {s : List Nat}, Spec.keywords.lookup s = none → (s ∈ Spec.typeWords ∨ s ∈ Spec.macros) = False → Spec.tok num (.ident s) = some (.e (.ident (num s))) := by
    intro s h1 h2
    simp only [Spec.tok, h1]
    rw [if_neg (by rw [h2]; exact id)]
  have k' : ∀ {s : List Nat} {t : PStmt.Tok}, Spec.keywords.lookup s = some t → Spec.tok num (.ident s) = some t := by
    intro s t h1
    simp only [Spec.tok, h1]
  have no : ∀ {s : List Nat}, (Spec.typeWords.contains s || Spec.macros.contains s) = false → (s ∈ Spec.typeWords ∨ s ∈ Spec.macros) = False := by
    intro s h
    simp only [Bool.or_eq_false_iff, List.contains_eq_mem, decide_eq_false_iff_not] at h
    simp only [h.1, h.2, or_self]
  simp only [exToks, exBody, List.cons_append, List.nil_append]
  repeat' apply Spec.Toks.cons
  all_goals first
    | exact .nil
    | exact k' (by decide +kernel)
    | exact k (by decide +kernel) (no (by decide +kernel))
    | (simp only [Spec.tok]; decide +kernel)

/-- A word that begins like a keyword is an identifier; a keyword of declarations is none. -/
example (t : Cli.Target) : front true t (fun _ => []) (Spec.str "{ int ; }") = .ok none := by cases t <;> decide +kernel

/-- The hypotheses of `C52_short_text_partial` are met by the text above. -/
example (t : Cli.Target) : ∃ num : List Nat → Nat, (∀ a ∈ Spec.names exToks, ∀ b ∈ Spec.names exToks, num a = num b → a = b) ∧
    front true t (fun _ => []) exText = .ok (some (exTree num, [.e (.ident (num (Spec.str "z")))])) := by
  have hsp : splice exText = exText := by decide +kernel
  obtain ⟨num, h1, h2⟩ := C52_short_text_partial t hsp (hsp.symm ▸ ex_splits) (by intro s h; simp [exToks] at h) (by decide +kernel) (by decide +kernel)
  exact ⟨num, h1, h2 _ _ _ (ex_toks num) (ex_body _ _ _)⟩

end Verif.Front
