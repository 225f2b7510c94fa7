import Verif.Lex.Proofs2
/-! # C21: tokens are the longest match -/
namespace Verif.Lex
open Verif Verif.Lit Verif.Lit.Spec Verif.Str Verif.Str.Spec Spec

theorem token_ok {sh : Bool} {lex rest : List Nat} {t : Tok} (ht : Token sh lex rest t) (hl : Longest lex rest) (hc : NoComment (lex ++ rest))
    (skip nl : Bool) (hn : lex.head? = some 35 → nl = false) : get_tok sh skip nl (lex ++ rest) = .ok (t, rest) ∧ Solid (lex ++ rest) := by
  cases ht with
  | ident hi =>
    obtain ⟨⟨c, s, rfl, hcn⟩, hall⟩ := ident_all hi
    obtain ⟨h1, h2, h3⟩ := nondigit_ne hcn
    have hr : ∀ c' t', rest = c' :: t' → ¬ (NonDigit c' ∨ Digit c') :=
      fun c' t' e h => longest_next hl (.ident (.more hi h)) t' e
    refine ⟨?_, fun c' r' e => by cases e; omega⟩
    have hg := get_ident_ok hr hall
    rw [get_tok, get_tokF.eq_def]
    rw [List.cons_append] at hg ⊢
    simp [h1, h2, h3, hg]
  | @int cs sfx b ds k _ hli hv hs hsh =>
    obtain ⟨hp, c, s, rfl, hcd⟩ := literal_ppnumber hli
    obtain ⟨h1, h2, h3, h4⟩ := digit_ne hcd
    have hp2 : PPNumber (c :: s ++ sfx) := ppnumber_all hp fun x hx => by
      have := sfx_alnum hs x hx
      left; unfold NonDigit; omega
    have hr : ∀ c' t', rest = c' :: t' → ¬ (NonDigit c' ∨ Digit c') := by
      intro c' t' e h
      refine longest_next hl (.number (.more hp2 ?_)) t' e
      rcases h with h | h
      · exact .inl h
      · exact .inr (.inl h)
    have hnum := number_ok sh hli hv hs hsh hr
    refine ⟨?_, fun c' r' e => by cases e; omega⟩
    rw [get_tok, get_tokF.eq_def]
    rw [List.cons_append, List.cons_append] at hnum ⊢
    simp [h1, h2, h3, h4, List.append_assoc] at hnum ⊢
    rw [hnum]; rfl
  | @chr cs b _ hi hx =>
    have := C08_char_partial hi hx
    refine ⟨?_, fun c' r' e => by cases e; omega⟩
    rw [get_tok, get_tokF.eq_def]
    rw [show 39 :: cs ++ [39] ++ rest = 39 :: (cs ++ 39 :: rest) by simp]
    simp [isAlpha, isDigit, this]
  | @str cs bs _ hi =>
    have := C08_string_partial hi
    refine ⟨?_, fun c' r' e => by cases e; omega⟩
    rw [get_tok, get_tokF.eq_def]
    rw [show 34 :: cs ++ [34] ++ rest = 34 :: (cs ++ 34 :: rest) by simp]
    simp [isAlpha, isDigit, this]
  | @op s o _ hm hd =>
    refine ⟨operator_ok hm hl hd hc sh skip nl hn, ?_⟩
    have : ∀ p ∈ punctuators, ∃ c t, p.1 = c :: t ∧ 32 < c := by
      intro p hp
      have h2 : ∀ p ∈ punctuators, 32 < p.1.headD 0 ∧ p.1 ≠ [] := by decide
      obtain ⟨h3, h4⟩ := h2 p hp
      cases hq : p.1 with
      | nil => exact absurd hq h4
      | cons c t => rw [hq] at h3; exact ⟨c, t, rfl, h3⟩
    obtain ⟨c, t, e, hc'⟩ := this _ hm
    simp at e
    subst e
    exact fun c' r' e => by cases e; omega

/-- **C21, one token.** When the text continues with white space and comments and then with a token of the supported kinds, which is the longest
preprocessing token there, then `get_tok` returns that token and stops right behind it — except that a `#` at the start of a line begins a directive. -/
theorem C21_next_partial {sh : Bool} {g lex rest : List Nat} {t : Tok} (hg : Gap g) (ht : Token sh lex rest t) (hl : Longest lex rest)
    (hc : NoComment (lex ++ rest)) (nl : Bool) (hn : lex.head? = some 35 → nl = false ∧ 10 ∉ g) :
    get_tok sh true nl (g ++ (lex ++ rest)) = .ok (t, rest) := by
  have hs := (token_ok ht hl hc true false (fun _ => rfl)).2
  obtain ⟨nl', h1, h2⟩ := (gap_ok sh hg hs).1 nl
  rw [h1]
  exact (token_ok ht hl hc true nl' (fun h => h2 (hn h).1 (hn h).2)).1

theorem gapEnd_ok (sh nl : Bool) {g : List Nat} (hg : GapEnd g) : get_tok sh true nl g = .ok (.eof, []) := by
  cases hg with
  | gap h =>
    obtain ⟨nl', h1, _⟩ := (gap_ok sh h (s := []) (by intro c r e; cases e)).1 nl
    rw [List.append_nil] at h1
    rw [h1]; rfl
  | line h hb =>
    obtain ⟨nl', h1, _⟩ := (gap_ok sh h (s := 47 :: 47 :: _) (by intro c r e; cases e; omega)).1 nl
    rw [h1, get_tok_line, skipLine_end hb]; rfl

/-- No token is `#` or `##`: there are no directives. -/
def NoHash (ts : List Tok) : Prop := Tok.op (.ch 35) ∉ ts ∧ Tok.op .hashHash ∉ ts

theorem token_hash {sh : Bool} {lex rest : List Nat} {t : Tok} (ht : Token sh lex rest t) (h : lex.head? = some 35) :
    t = .op (.ch 35) ∨ t = .op .hashHash := by
  cases ht with
  | ident hi =>
    obtain ⟨⟨c, s, rfl, hcn⟩, _⟩ := ident_all hi
    simp at h; subst h; unfold NonDigit at hcn; omega
  | int hli =>
    obtain ⟨_, c, s, rfl, hcd⟩ := literal_ppnumber hli
    simp at h; subst h; unfold Digit at hcd; omega
  | chr => simp at h
  | str => simp at h
  | @op s o _ hm _ =>
    have : ∀ p ∈ punctuators, p.1.head? = some 35 → p.2 = .ch 35 ∨ p.2 = .hashHash := by decide
    rcases this _ hm h with e | e
    · left; exact congrArg Tok.op e
    · right; exact congrArg Tok.op e

theorem token_ne {sh : Bool} {lex rest : List Nat} {t : Tok} (ht : Token sh lex rest t) : t ≠ .eof ∧ t ≠ .directive ∧ lex ≠ [] := by
  cases ht with
  | ident hi => obtain ⟨⟨c, s, rfl, hcn⟩, _⟩ := ident_all hi; simp
  | int hli => obtain ⟨_, c, s, rfl, hcd⟩ := literal_ppnumber hli; simp
  | chr => simp
  | str => simp
  | @op s o _ hm _ =>
    have : ∀ p ∈ punctuators, p.1 ≠ [] := by decide
    exact ⟨by simp, by simp, this _ hm⟩

/-- The core of C21, for the characters that the lexer sees. -/
theorem tokens_of_splits {sh : Bool} {inp : List Nat} {ts : List Tok} (hc : Splits sh inp ts) (hh : NoHash ts) : tokens sh inp = .ok ts := by
  suffices ∀ n, inp.length < n → tokensF sh n inp = .ok ts from this _ (by omega)
  induction hc with
  | done hg =>
    intro n hn
    cases n with
    | zero => omega
    | succ n => simp [tokensF, gapEnd_ok sh false hg]
  | @cons g lex rest t ts hg ht hl hnc _ ih =>
    intro n hn
    cases n with
    | zero => omega
    | succ n =>
      obtain ⟨t1, t2, t3⟩ := token_ne ht
      have hne : lex.head? = some 35 → False := by
        intro h
        rcases token_hash ht h with rfl | rfl
        · exact hh.1 (by simp)
        · exact hh.2 (by simp)
      have := C21_next_partial hg ht hl hnc false (fun h => (hne h).elim)
      have hlen : 0 < lex.length := List.length_pos_iff.2 t3
      simp only [List.length_append] at hn
      have ih' := ih ⟨fun h => hh.1 (by simp [h]), fun h => hh.2 (by simp [h])⟩ n (by omega)
      simp only [tokensF, this, Res.bind_ok, ih']

/-- **C21, a whole text.** A text without line continuations and directives which C splits into tokens of the supported kinds (each the longest
preprocessing token at its place, separated by white space and comments) is split by pnut into the same tokens. -/
theorem C21_tokens_partial {sh : Bool} {inp : List Nat} {ts : List Tok} (hs : splice inp = inp) (hc : Splits sh (splice inp) ts) (hh : NoHash ts) :
    tokens sh inp = .ok ts := by
  rw [hs] at hc
  exact tokens_of_splits hc hh

/-- A result that is not `diverge`, and whose remaining input is an end of the input. -/
def Ends {α : Type} (rem : α → List Nat) (inp : List Nat) (x : Res α) : Prop :=
  x ≠ .diverge ∧ ∀ a, x = .ok a → rem a <:+ inp

theorem ends_ok {α : Type} {rem : α → List Nat} {inp : List Nat} {a : α} (h : rem a <:+ inp) : Ends rem inp (.ok a) :=
  ⟨by simp, fun b e => by cases e; exact h⟩
theorem ends_fatal {α : Type} {rem : α → List Nat} {inp : List Nat} : Ends rem inp .fatal := ⟨by simp, fun b e => by cases e⟩
theorem ends_ub {α : Type} {rem : α → List Nat} {inp : List Nat} : Ends rem inp .ub := ⟨by simp, fun b e => by cases e⟩
theorem ends_bind {α β : Type} {rem : α → List Nat} {rem' : β → List Nat} {inp inp' : List Nat} {x : Res α} {f : α → Res β}
    (hx : Ends rem inp x) (hf : ∀ a, rem a <:+ inp → Ends rem' inp' (f a)) : Ends rem' inp' (x.bind f) := by
  cases x with
  | ok a => rw [Res.bind_ok]; exact hf a (hx.2 a rfl)
  | fatal => exact ends_fatal
  | ub => exact ends_ub
  | diverge => exact absurd rfl hx.1
theorem ends_mono {α : Type} {rem : α → List Nat} {inp inp' : List Nat} {x : Res α} (h : Ends rem inp x) (h' : inp <:+ inp') : Ends rem inp' x :=
  ⟨h.1, fun a e => (h.2 a e).trans h'⟩

theorem loop32_ends (b : Nat) : ∀ (inp : List Nat) (v : Int), Ends Prod.snd inp (loop32 b v inp) := by
  intro inp
  induction inp with
  | nil => intro v; exact ends_ok (List.suffix_refl _)
  | cons c t ih =>
    intro v
    rw [loop32]
    split
    · exact ends_ok (List.suffix_refl _)
    · have : Ends (fun _ => []) [] (accum32 b v (digitOf c)) := by
        unfold accum32 chk32
        split
        · rw [Res.bind_ok]; split
          · exact ends_ok (List.suffix_refl _)
          · exact ends_ub
        · exact ends_ub
      exact ends_bind this fun v1 _ => ends_mono (ih v1) (List.suffix_cons c t)

theorem number32_ends (wb : Bool) {c : Nat} (t : List Nat) (hc : Digit c) : Ends (fun p => p.2.2) t (number32 wb (c :: t)) := by
  by_cases h : c = 48
  · subst h
    unfold number32
    split
    · rename_i inp1 e
      cases e
      split
      all_goals
        first
        | split
          · exact ends_fatal
          · exact ends_bind (ends_mono (loop32_ends 16 _ 0) (List.suffix_cons _ _)) fun a ha => ends_ok ha
        | exact ends_bind (loop32_ends 8 _ 0) fun a ha => ends_ok ha
    · rename_i h; exact absurd rfl (h t)
  · rw [number32_dec _ _ (by intro t' e; cases e; exact h rfl), loop32, if_neg (by unfold Digit at hc; simp [digitOf]; split <;> omega)]
    refine ends_bind (rem := Prod.snd) (inp := t) ?_ fun a ha => ends_ok ha
    have : Ends (fun _ => []) [] (accum32 10 0 (digitOf c)) := by
      unfold accum32 chk32
      split
      · rw [Res.bind_ok]; split
        · exact ends_ok (List.suffix_refl _)
        · exact ends_ub
      · exact ends_ub
    exact ends_bind this fun v1 _ => loop32_ends 10 t v1

theorem suffix_suffix (inp : List Nat) : (suffix inp).2 <:+ inp := by
  have d : ∀ (n : Nat) (l : List Nat), l.drop n <:+ l := fun n l => List.drop_suffix n l
  unfold suffix
  split
  · dsimp only
    split
    · split
      · exact (d 1 _).trans ((d 1 _).trans (d 1 _))
      · exact (d 1 _).trans (d 1 _)
    · exact d 1 _
  · split
    · dsimp only
      split <;> dsimp only <;> split
      · exact (d 1 _).trans ((d 1 _).trans (d 1 _))
      · exact (d 1 _).trans (d 1 _)
      · exact (d 1 _).trans (d 1 _)
      · exact d 1 _
    · exact List.suffix_refl _

theorem number_ends (sh : Bool) {c : Nat} (t : List Nat) (hc : Digit c) : Ends (fun p => p.2.2) t (number sh (c :: t)) := by
  unfold number
  split
  · exact number32_ends true t hc
  · exact ends_bind (number32_ends false t hc) fun a ha => ends_ok ((suffix_suffix _).trans ha)

theorem accumDigit_suffix {b v : Nat} {inp : List Nat} {p : Nat × List Nat} (h : accumDigit b v inp = some p) : p.2 <:+ inp := by
  cases inp with
  | nil => simp [accumDigit] at h
  | cons c t =>
    rw [accumDigit, Option.ite_none_left_eq_some] at h
    obtain ⟨_, h⟩ := h
    cases h; exact List.suffix_cons c t

theorem tryDigit_suffix (b : Nat) (p : Nat × List Nat) : (tryDigit b p).2 <:+ p.2 := by
  unfold tryDigit
  cases h : accumDigit b p.1 p.2 with
  | none => exact List.suffix_refl _
  | some q => exact accumDigit_suffix h

theorem getStringChar_ends (c : Nat) (t : List Nat) : Ends Prod.snd t (getStringChar (c :: t)) := by
  unfold getStringChar
  dsimp only
  split
  · exact ends_ok (List.suffix_refl _)
  · split
    · exact ends_fatal
    · rename_i e inp1
      split
      · exact ends_ok ((tryDigit_suffix _ _).trans ((tryDigit_suffix _ _).trans (tryDigit_suffix _ _)))
      · split
        · split
          · exact ends_fatal
          · rename_i p hp
            exact ends_ok ((tryDigit_suffix _ _).trans ((accumDigit_suffix hp).trans (List.suffix_cons _ _)))
        · repeat' split
          all_goals first | exact ends_fatal | exact ends_ok (List.suffix_cons _ _)

theorem accumUntilF_ends (stop : Nat) : ∀ (n : Nat) (inp : List Nat), inp.length < n → Ends Prod.snd inp (accumUntilF n stop inp) := by
  intro n
  induction n with
  | zero => intro inp h; omega
  | succ n ih =>
    intro inp h
    cases inp with
    | nil => exact ends_fatal
    | cons c t =>
      rw [accumUntilF]
      split
      · exact ends_ok (List.suffix_cons c t)
      · refine ends_bind (getStringChar_ends c t) fun a ha => ?_
        have := ha.length_le
        simp at h
        refine ends_bind (ih a.2 (by omega)) fun b hb => ends_ok ?_
        exact (hb.trans ha).trans (List.suffix_cons c t)

theorem scanChar_ends (inp : List Nat) : Ends Prod.snd inp (scanChar inp) := by
  cases inp with
  | nil => exact ends_fatal
  | cons c t =>
    simp only [scanChar]
    refine ends_bind (getStringChar_ends c t) fun a ha => ?_
    obtain ⟨v, r⟩ := a
    dsimp only
    split
    · exact ends_ok (((List.suffix_cons _ _).trans ha).trans (List.suffix_cons c t))
    · exact ends_fatal

theorem next_suffix {c : Nat} {r r' : List Nat} (h : next c r = some r') : r' <:+ r := by
  rw [next_some h]; exact List.suffix_cons _ _

theorem ends_ite {α : Type} {rem : α → List Nat} {inp : List Nat} {p : Prop} [Decidable p] {x y : Res α} (hx : Ends rem inp x) (hy : Ends rem inp y) :
    Ends rem inp (if p then x else y) := by split <;> assumption

theorem operator_ends (c : Nat) (r : List Nat) : Ends Prod.snd r (operator c r) := by
  unfold operator
  repeat' apply ends_ite
  all_goals
    first
    | exact ends_fatal
    | exact ends_ok (List.suffix_refl _)
    | skip
  all_goals
    split
    · rename_i h
      first
      | exact ends_ok (next_suffix h)
      | split
        · rename_i h2; exact ends_ok ((next_suffix h2).trans (next_suffix h))
        · exact ends_fatal
    · first
      | exact ends_ok (List.suffix_refl _)
      | split
        · rename_i h
          first
          | exact ends_ok (next_suffix h)
          | split
            · rename_i h2; exact ends_ok ((next_suffix h2).trans (next_suffix h))
            · exact ends_ok (next_suffix h)
        · first
          | exact ends_ok (List.suffix_refl _)
          | split
            · rename_i h; exact ends_ok (next_suffix h)
            · exact ends_ok (List.suffix_refl _)

theorem skipWs_suffix (inp : List Nat) : ∀ b, (skipWs b inp).2 <:+ inp := by
  induction inp with
  | nil => intro b; exact List.suffix_refl _
  | cons c r ih =>
    intro b
    unfold skipWs
    split
    · exact (ih _).trans (List.suffix_cons c r)
    · exact List.suffix_refl _

theorem skipLine_suffix (inp : List Nat) : skipLine inp <:+ inp := by
  induction inp with
  | nil => exact List.suffix_refl _
  | cons c r ih =>
    unfold skipLine
    split
    · exact List.suffix_refl _
    · exact ih.trans (List.suffix_cons c r)

theorem blockLoop_suffix {inp : List Nat} : ∀ {t r}, blockLoop t inp = some r → r <:+ inp := by
  induction inp with
  | nil => intro t r h; simp [blockLoop] at h
  | cons c r ih =>
    intro t r' h
    unfold blockLoop at h
    split at h
    · cases h; exact List.suffix_cons c _
    · exact (ih h).trans (List.suffix_cons c r)

theorem get_ident_suffix (inp : List Nat) : (get_ident inp).2 <:+ inp := by
  induction inp with
  | nil => exact List.suffix_refl _
  | cons c r ih =>
    unfold get_ident
    split
    · exact ih.trans (List.suffix_cons c r)
    · exact List.suffix_refl _

/-- What `get_tok` leaves: an end of the input, and it has consumed something, unless it is at the end or at a directive. -/
def Left (inp : List Nat) (p : Tok × List Nat) : Prop :=
  p.2 <:+ inp ∧ (p.1 = .eof → p.2 = []) ∧ (p.1 ≠ .eof → p.1 ≠ .directive → p.2.length < inp.length) ∧
  (p.1 = .directive → ∃ t, p.2 = 35 :: t)

theorem get_tok_left (sh skip : Bool) : ∀ (n : Nat) (nl : Bool) (inp : List Nat), inp.length < n →
    get_tokF sh skip n nl inp ≠ .diverge ∧ ∀ p, get_tokF sh skip n nl inp = .ok p → Left inp p := by
  intro n
  induction n with
  | zero => intro nl inp h; omega
  | succ n ih =>
    intro nl inp hlen
    cases inp with
    | nil =>
      refine ⟨by simp [get_tokF], fun p h => ?_⟩
      simp [get_tokF] at h; subst h
      exact ⟨List.suffix_refl _, fun _ => rfl, fun h => absurd rfl h, fun h => by cases h⟩
    | cons c r =>
      simp only [List.length_cons] at hlen
      -- a recursive call on a shorter input
      have recur : ∀ (b : Bool) (r' : List Nat), r' <:+ r → get_tokF sh skip n b r' ≠ .diverge ∧
          ∀ p, get_tokF sh skip n b r' = .ok p → Left (c :: r) p := by
        intro b r' hs
        have hl := hs.length_le
        refine ⟨(ih b r' (by omega)).1, fun p hp => ?_⟩
        obtain ⟨h1, h2, h3, h4⟩ := (ih b r' (by omega)).2 p hp
        refine ⟨(h1.trans hs).trans (List.suffix_cons c r), h2, fun a b => ?_, h4⟩
        have := h3 a b
        simp; omega
      -- a token
      have tok : ∀ {α : Type} {rem : α → List Nat} {x : Res α} {f : α → Tok}, Ends rem r x → (∀ a, f a ≠ .eof ∧ f a ≠ .directive) →
          (x.bind fun a => .ok (f a, rem a)) ≠ .diverge ∧ ∀ p, (x.bind fun a => .ok (f a, rem a)) = .ok p → Left (c :: r) p := by
        intro α rem x f hx hf
        cases x with
        | ok a =>
          rw [Res.bind_ok]
          refine ⟨by simp, fun p hp => ?_⟩
          cases hp
          have := hx.2 a rfl
          have hl := this.length_le
          exact ⟨this.trans (List.suffix_cons c r), fun h => absurd h (hf a).1, fun _ _ => by simp; omega, fun h => absurd h (hf a).2⟩
        | fatal => simp [Res.bind]
        | ub => simp [Res.bind]
        | diverge => exact absurd rfl hx.1
      have one : ∀ {t : Tok} {r' : List Nat}, t ≠ .eof → t ≠ .directive → r' <:+ r → (Res.ok (t, r') : Res (Tok × List Nat)) ≠ .diverge ∧
          ∀ p, (Res.ok (t, r') : Res (Tok × List Nat)) = .ok p → Left (c :: r) p := by
        intro t r' h1 h2 hs
        have hl := hs.length_le
        refine ⟨by simp, fun p hp => ?_⟩
        cases hp
        exact ⟨hs.trans (List.suffix_cons c r), fun h => absurd h h1, fun _ _ => by simp; omega, fun h => absurd h h2⟩
      have fat : (Res.fatal : Res (Tok × List Nat)) ≠ .diverge ∧ ∀ p, (Res.fatal : Res (Tok × List Nat)) = .ok p → Left (c :: r) p :=
        ⟨by simp, fun p h => by cases h⟩
      rw [get_tokF]
      split
      · rename_i hc
        have hs : (skipWs false (c :: r)).2 <:+ r := by
          rw [skipWs, if_pos hc]; exact skipWs_suffix _ _
        dsimp only
        split
        · exact one (by simp) (by simp) hs
        · exact recur _ _ hs
      · split
        · rename_i h
          simp at h
          refine ⟨by simp, fun p hp => ?_⟩
          cases hp
          exact ⟨List.suffix_refl _, fun h => (by cases h), fun _ h => absurd rfl h, fun _ => ⟨r, by rw [h.2]⟩⟩
        · split
          · rename_i ha
            refine one (by simp) (by simp) ?_
            rw [get_ident, if_pos (by simp [ha])]
            exact get_ident_suffix r
          · split
            · rename_i hd
              rw [isDigit_iff] at hd
              exact tok (rem := fun (p : Kind × Int × List Nat) => p.2.2) (f := fun p => .int p.1 p.2.1) (number_ends sh r hd) (by simp)
            · split
              · exact tok (rem := Prod.snd) (f := fun p => .chr p.1) (scanChar_ends r) (by simp)
              · split
                · exact tok (rem := Prod.snd) (f := fun p => .str p.1) (accumUntilF_ends 34 _ r (by omega)) (by simp)
                · split
                  · split
                    · rename_i h
                      split
                      · exact fat
                      · rename_i h2
                        exact recur _ _ ((blockLoop_suffix h2).trans (next_suffix h))
                    · split
                      · rename_i r' h
                        have := next_some h
                        subst this
                        exact recur _ _ (skipLine_suffix _)
                      · split
                        · rename_i h
                          exact one (by simp) (by simp) (next_suffix h)
                        · exact one (by simp) (by simp) (List.suffix_refl _)
                  · split
                    · split
                      · rename_i h
                        exact recur _ _ (next_suffix h)
                      · exact fat
                    · exact tok (rem := Prod.snd) (f := fun p => .op p.1) (operator_ends c r) (by simp)

/-- **C21, termination.** On every input `get_tok` returns a token or stops with an error; and so does reading all tokens. -/
theorem C21_terminates (sh skip nl : Bool) (inp : List Nat) : get_tok sh skip nl inp ≠ .diverge ∧ tokens sh inp ≠ .diverge := by
  refine ⟨(get_tok_left sh skip _ nl inp (by omega)).1, ?_⟩
  suffices ∀ n (inp : List Nat), inp.length < n → tokensF sh n inp ≠ .diverge from this _ _ (by omega)
  intro n
  induction n with
  | zero => intro inp h; omega
  | succ n ih =>
    intro inp h
    have hl := get_tok_left sh true _ false inp (Nat.lt_succ_self _)
    rw [tokensF]
    cases hg : get_tok sh true false inp with
    | ok p =>
      obtain ⟨t, r⟩ := p
      have h3 := (hl.2 _ hg).2.2.1
      rw [Res.bind_ok]
      dsimp only
      split
      · simp
      · simp
      · rename_i n1 n2
        have := ih r (by have := h3 (by simpa using n1) (by simpa using n2); simp at this; omega)
        cases ht : tokensF sh n r with
        | diverge => exact absurd ht this
        | _ => simp [Res.bind]
    | fatal => simp [Res.bind]
    | ub => simp [Res.bind]
    | diverge => exact absurd hg hl.1

/-- **C21, nothing is lost or read twice.** A token takes characters from the start of the input, at least one; the end of the input is reported only
when nothing is left, and a directive only at a `#`. -/
theorem C21_consumes (sh skip nl : Bool) (inp : List Nat) {t : Tok} {rest : List Nat} (h : get_tok sh skip nl inp = .ok (t, rest)) :
    ∃ used, inp = used ++ rest ∧ (t = .eof → rest = []) ∧ (t ≠ .eof → t ≠ .directive → used ≠ []) ∧ (t = .directive → ∃ r, rest = 35 :: r) := by
  obtain ⟨⟨used, h1⟩, h2, h3, h4⟩ := (get_tok_left sh skip _ nl inp (Nat.lt_succ_self _)).2 _ h
  dsimp only at h1 h2 h3 h4
  refine ⟨used, h1.symm, h2, fun a b => ?_, h4⟩
  rintro rfl
  have := h3 a b
  rw [← h1] at this
  simp at this

end Verif.Lex
