import Verif.Names.Spec
/-! C14: different things have different names in the generated script. -/
namespace Verif.Names
open Verif

attribute [local irreducible] isChr isRt

theorem num_inj {a b : Nat} (h : num a = num b) : a = b := by
  have := congrArg (Nat.ofDigitChars 10 · 0) h
  simpa [num, Nat.ofDigitChars_toDigits] using this

theorem num_digits (k : Nat) : digits (num k) = true := by
  simp only [digits, num, Bool.and_eq_true, List.all_eq_true, Bool.not_eq_true', List.isEmpty_eq_false_iff]
  exact ⟨Nat.toDigits_ne_nil, fun c hc => Nat.isDigit_of_mem_toDigits (by omega) (by omega) hc⟩

theorem num_head (k : Nat) : ∃ c r, num k = c :: r ∧ c.isDigit = true := by
  have := num_digits k
  cases h : num k with
  | nil => simp [h, digits] at this
  | cons c r => simp [h, digits] at this; exact ⟨c, r, rfl, this.1⟩

section lits
theorem lit0 : "__".toList = ['_', '_'] := by decide +kernel
theorem lit1 : "t".toList = ['t'] := by decide +kernel
theorem lit2 : "str_".toList = ['s', 't', 'r', '_'] := by decide +kernel
theorem lit3 : "sizeof__".toList = ['s', 'i', 'z', 'e', 'o', 'f', '_', '_'] := by decide +kernel
theorem lit4 : "state_fd".toList = ['s', 't', 'a', 't', 'e', '_', 'f', 'd'] := by decide +kernel
theorem lit5 : "buffer_fd".toList = ['b', 'u', 'f', 'f', 'e', 'r', '_', 'f', 'd'] := by decide +kernel
theorem lit6 : "cursor_fd".toList = ['c', 'u', 'r', 's', 'o', 'r', '_', 'f', 'd'] := by decide +kernel
theorem lit7 : "buflen_fd".toList = ['b', 'u', 'f', 'l', 'e', 'n', '_', 'f', 'd'] := by decide +kernel
theorem lit8 : "c2i_".toList = ['c', '2', 'i', '_'] := by decide +kernel
theorem lit9 : "__sizeof__".toList = ['_', '_', 's', 'i', 'z', 'e', 'o', 'f', '_', '_'] := by decide +kernel
theorem lit10 : "__t".toList = ['_', '_', 't'] := by decide +kernel
theorem lit11 : "__str_".toList = ['_', '_', 's', 't', 'r', '_'] := by decide +kernel
theorem lit12 : "__c2i_".toList = ['_', '_', 'c', '2', 'i', '_'] := by decide +kernel
end lits

/-- The part after `__`, for the names that begin with it. -/
def Ent.rest : Ent → Txt
  | .member x => x
  | .size x => ['s', 'i', 'z', 'e', 'o', 'f', '_', '_'] ++ x
  | .temp k => 't' :: num k
  | .str k => ['s', 't', 'r', '_'] ++ num k
  | .stk k => num k
  | .chr c => (chrText c).drop 2
  | .c2i c => ['c', '2', 'i', '_'] ++ [c]
  | .fd b k => b.prefix ++ num k
  | .rt x => x.drop 2
  | _ => []

/-- The first character group of a name: 0 for a letter, 1 for `_` and a letter, 2 for `_` and a digit,
3 for `__`. -/
def start : Txt → Nat
  | '_' :: '_' :: _ => 3
  | '_' :: c :: _ => if c.isDigit then 2 else 1
  | '_' :: [] => 1
  | _ => 0

/-- Families of names beginning with `__`. -/
def kind (t : Txt) : Nat :=
  if digits t then 1
  else if ['t'].isPrefixOf t && digits (t.drop 1) then 2
  else if ['s', 't', 'r', '_'].isPrefixOf t && digits (t.drop 4) then 3
  else if ['s', 'i', 'z', 'e', 'o', 'f', '_', '_'].isPrefixOf t then 4
  else if ['s', 't', 'a', 't', 'e', '_', 'f', 'd'].isPrefixOf t && digits (t.drop 8) then 5
  else if ['b', 'u', 'f', 'f', 'e', 'r', '_', 'f', 'd'].isPrefixOf t && digits (t.drop 9) then 6
  else if ['c', 'u', 'r', 's', 'o', 'r', '_', 'f', 'd'].isPrefixOf t && digits (t.drop 9) then 7
  else if ['b', 'u', 'f', 'l', 'e', 'n', '_', 'f', 'd'].isPrefixOf t && digits (t.drop 9) then 8
  else if ['c', '2', 'i', '_'].isPrefixOf t then 9
  else if isChr t then 10
  else if isRt t then 11
  else 12

theorem kind_reserved {t : Txt} (h : reserved t = false) : kind t = 12 := by
  simp only [reserved, Bool.or_eq_false_iff, lit0, lit1, lit2, lit3, lit4, lit5, lit6, lit7, lit8, lit9, lit10, lit11, lit12] at h
  obtain ⟨⟨⟨⟨⟨⟨⟨⟨⟨⟨h1, h2⟩, h3⟩, h4⟩, h5⟩, h6⟩, h7⟩, h8⟩, h9⟩, h10⟩, h11⟩ := h
  simp only [kind, h1, h2, h3, h4, h5, h6, h7, h8, h9, h10, h11, Bool.false_eq_true, if_false]

/-- The families of `rest`. -/
def Ent.tag : Ent → Nat
  | .stk _ => 1
  | .temp _ => 2
  | .str _ => 3
  | .size _ => 4
  | .fd .state _ => 5
  | .fd .buffer _ => 6
  | .fd .cursor _ => 7
  | .fd .buflen _ => 8
  | .c2i _ => 9
  | .chr _ => 10
  | .rt _ => 11
  | _ => 12

/-- Names beginning with `__`. -/
def Ent.under : Ent → Bool
  | .loc _ | .glob _ | .enum _ | .heap _ => false
  | .rt x => x.head? = some '_'
  | _ => true

theorem chr_table : ∀ c ∈ List.range 256, character_ident c = .fatal ∨
    ((Ent.chr c).name = "__".toList ++ (Ent.chr c).rest ∧ kind (Ent.chr c).rest = 10) := by decide +kernel

theorem chr_inj : ∀ c ∈ List.range 256, character_ident c = .fatal ∨
    (List.range 256).find? (fun d => (Ent.chr d).name == (Ent.chr c).name) = some c := by decide +kernel

theorem rt_table : ∀ x ∈ runtimeVars, x.head? = some '_' → x = "__".toList ++ x.drop 2 ∧ kind (x.drop 2) = 11 := by decide +kernel

theorem c2i_table : ∀ c ∈ c2iChars, kind (['c', '2', 'i', '_'] ++ [c]) = 9 := by decide +kernel

theorem not_digits_cons {c : Char} {r : Txt} (h : c.isDigit = false) : digits (c :: r) = false := by simp [digits, h]

theorem kind_size (x : Txt) : kind ('s' :: 'i' :: 'z' :: 'e' :: 'o' :: 'f' :: '_' :: '_' :: x) = 4 := by
  have h1 : digits ('s' :: 'i' :: 'z' :: 'e' :: 'o' :: 'f' :: '_' :: '_' :: x) = false := not_digits_cons (by decide)
  unfold kind
  rw [h1]
  simp only [List.isPrefixOf]
  simp

theorem kind_state (t : Txt) (h : digits t = true) : kind ('s' :: 't' :: 'a' :: 't' :: 'e' :: '_' :: 'f' :: 'd' :: t) = 5 := by
  unfold kind
  rw [not_digits_cons (by decide)]
  simp only [List.isPrefixOf, List.drop_succ_cons, List.drop_zero, h]
  simp
theorem kind_buffer (t : Txt) (h : digits t = true) : kind ('b' :: 'u' :: 'f' :: 'f' :: 'e' :: 'r' :: '_' :: 'f' :: 'd' :: t) = 6 := by
  unfold kind
  rw [not_digits_cons (by decide)]
  simp only [List.isPrefixOf, List.drop_succ_cons, List.drop_zero, h]
  simp
theorem kind_cursor (t : Txt) (h : digits t = true) : kind ('c' :: 'u' :: 'r' :: 's' :: 'o' :: 'r' :: '_' :: 'f' :: 'd' :: t) = 7 := by
  unfold kind
  rw [not_digits_cons (by decide)]
  simp only [List.isPrefixOf, List.drop_succ_cons, List.drop_zero, h]
  simp
theorem kind_buflen (t : Txt) (h : digits t = true) : kind ('b' :: 'u' :: 'f' :: 'l' :: 'e' :: 'n' :: '_' :: 'f' :: 'd' :: t) = 8 := by
  unfold kind
  rw [not_digits_cons (by decide)]
  simp only [List.isPrefixOf, List.drop_succ_cons, List.drop_zero, h]
  simp

theorem kind_fd (b : FdVar) (t : Txt) (k : Nat) (h : digits t = true) : kind (b.prefix ++ t) = (Ent.fd b k).tag := by
  cases b with
  | state => rw [show FdVar.state.prefix = _ from lit4]; exact kind_state t h
  | buffer => rw [show FdVar.buffer.prefix = _ from lit5]; exact kind_buffer t h
  | cursor => rw [show FdVar.cursor.prefix = _ from lit6]; exact kind_cursor t h
  | buflen => rw [show FdVar.buflen.prefix = _ from lit7]; exact kind_buflen t h

theorem under_spec {e : Ent} (h : e.ok) (hu : e.under = true) : e.name = ['_', '_'] ++ e.rest ∧ kind e.rest = e.tag := by
  cases e with
  | loc x => simp [Ent.under] at hu
  | glob x => simp [Ent.under] at hu
  | enum x => simp [Ent.under] at hu
  | heap x => simp [Ent.under] at hu
  | member x => exact ⟨rfl, kind_reserved h.2⟩
  | size x =>
    refine ⟨by show "__sizeof__".toList ++ x = _; rw [lit9]; rfl, ?_⟩
    simp only [Ent.rest, Ent.tag, List.cons_append, List.nil_append]
    exact kind_size x
  | temp k =>
    refine ⟨by show "__t".toList ++ num k = _; rw [lit10]; rfl, ?_⟩
    have := num_digits k
    simp [Ent.rest, Ent.tag, kind, not_digits_cons, List.isPrefixOf, this]
  | str k =>
    refine ⟨by show "__str_".toList ++ num k = _; rw [lit11]; rfl, ?_⟩
    have := num_digits k
    simp [Ent.rest, Ent.tag, kind, not_digits_cons, List.isPrefixOf, this]
  | stk k =>
    refine ⟨rfl, ?_⟩
    have := num_digits k
    simp [Ent.rest, Ent.tag, kind, this]
  | chr c =>
    obtain ⟨hc, t, ht⟩ := h
    rcases chr_table c (by simpa using hc) with h1 | h1
    · rw [h1] at ht; simp at ht
    · exact h1
  | c2i c => exact ⟨by show "__c2i_".toList ++ [c] = _; rw [lit12]; rfl, c2i_table c h⟩
  | fd b k =>
    have := num_digits k
    refine ⟨by simp only [Ent.name, Ent.rest, List.append_assoc, lit0], ?_⟩
    simp only [Ent.rest]
    exact kind_fd b _ k this
  | rt x =>
    simp only [Ent.under, decide_eq_true_eq] at hu
    exact rt_table x h hu

/-- Different entities whose names begin with `__`. -/
theorem under_inj {a b : Ent} (ha : a.ok) (hb : b.ok) (hau : a.under = true) (hbu : b.under = true) (h : a.name = b.name) : a = b := by
  obtain ⟨a1, a2⟩ := under_spec ha hau
  obtain ⟨b1, b2⟩ := under_spec hb hbu
  have hr : a.rest = b.rest := by rw [a1, b1] at h; simpa using h
  have ht : a.tag = b.tag := by rw [← a2, ← b2, hr]
  cases a with
  | loc x => simp [Ent.under] at hau
  | glob x => simp [Ent.under] at hau
  | enum x => simp [Ent.under] at hau
  | heap x => simp [Ent.under] at hau
  | member x =>
    cases b with
    | member y => simp only [Ent.rest] at hr; rw [hr]
    | fd v k => cases v <;> simp [Ent.tag] at ht
    | _ => simp_all [Ent.tag, Ent.under]
  | size x =>
    cases b with
    | size y => simp only [Ent.rest, List.append_cancel_left_eq] at hr; rw [hr]
    | fd v k => cases v <;> simp [Ent.tag] at ht
    | _ => simp [Ent.tag] at ht
  | temp k =>
    cases b with
    | temp l => simp only [Ent.rest, List.cons.injEq, true_and] at hr; rw [num_inj hr]
    | fd v k => cases v <;> simp [Ent.tag] at ht
    | _ => simp [Ent.tag] at ht
  | str k =>
    cases b with
    | str l => simp only [Ent.rest, List.append_cancel_left_eq] at hr; rw [num_inj hr]
    | fd v k => cases v <;> simp [Ent.tag] at ht
    | _ => simp [Ent.tag] at ht
  | stk k =>
    cases b with
    | stk l => simp only [Ent.rest] at hr; rw [num_inj hr]
    | fd v k => cases v <;> simp [Ent.tag] at ht
    | _ => simp [Ent.tag] at ht
  | chr c =>
    cases b with
    | chr d =>
      obtain ⟨hc, t, ht⟩ := ha
      obtain ⟨hd, t', ht'⟩ := hb
      rcases chr_inj c (by simpa using hc) with e | e
      · rw [e] at ht; simp at ht
      rcases chr_inj d (by simpa using hd) with e' | e'
      · rw [e'] at ht'; simp at ht'
      rw [h, e'] at e
      injection e with e
      rw [e]
    | fd v k => cases v <;> simp [Ent.tag] at ht
    | _ => simp [Ent.tag] at ht
  | c2i c =>
    cases b with
    | c2i d => simp [Ent.rest] at hr; rw [hr]
    | fd v k => cases v <;> simp [Ent.tag] at ht
    | _ => simp [Ent.tag] at ht
  | fd v k =>
    cases b with
    | fd w l =>
      have : v = w := by cases v <;> cases w <;> simp_all [Ent.tag]
      subst this
      simp only [Ent.rest, List.append_cancel_left_eq] at hr; rw [num_inj hr]
    | _ => cases v <;> simp [Ent.tag] at ht
  | rt x =>
    cases b with
    | rt y => simp only [Ent.name] at h; rw [h]
    | fd v k => cases v <;> simp [Ent.tag] at ht
    | _ => simp [Ent.tag] at ht

theorem start_under {e : Ent} (h : e.ok) (hu : e.under = true) : start e.name = 3 := by
  rw [(under_spec h hu).1]; rfl

theorem alpha_ne {c : Char} (h : c.isAlpha = true) : c ≠ '_' := by rintro rfl; revert h; decide

theorem alpha_not_digit {c : Char} (h : c.isAlpha = true) : c.isDigit = false := by
  simp only [Char.isAlpha, Char.isUpper, Char.isLower, Bool.or_eq_true, Bool.and_eq_true, decide_eq_true_eq] at h
  simp only [Char.isDigit, Bool.and_eq_false_iff, decide_eq_false_iff_not]
  right
  rcases h with ⟨h, _⟩ | ⟨h, _⟩ <;>
  · intro h'
    have := UInt32.le_trans h h'
    revert this; decide

theorem safe_head {x : Txt} {b : Bool} (h : assert_var_decl_is_safe x b = .ok ()) : x.head? ≠ some '_' := by
  intro e
  simp [assert_var_decl_is_safe, e] at h

theorem ident_head {x : Txt} (h : isIdent x = true) (hh : x.head? ≠ some '_') : ∃ c r, x = c :: r ∧ c.isAlpha = true := by
  cases x with
  | nil => simp [isIdent] at h
  | cons c r =>
    simp only [List.head?_cons, ne_eq, Option.some.injEq] at hh
    simp only [isIdent, Bool.and_eq_true, Bool.or_eq_true, decide_eq_true_eq] at h
    rcases h.1 with h | h
    · exact ⟨c, r, rfl, h⟩
    · exact absurd h hh

theorem start_alpha {c : Char} (r : Txt) (h : c.isAlpha = true) : start (c :: r) = 0 := by
  have := alpha_ne h
  unfold start
  split <;> simp_all

theorem start_glob {c : Char} (r : Txt) (h : c.isAlpha = true) : start ('_' :: c :: r) = 1 := by
  have := alpha_ne h
  have := alpha_not_digit h
  unfold start
  split <;> simp_all

theorem digit_ne {c : Char} (h : c.isDigit = true) : c ≠ '_' := by rintro rfl; revert h; decide

theorem start_heap {c : Char} (r : Txt) (h : c.isDigit = true) : start ('_' :: c :: r) = 2 := by
  have := digit_ne h
  unfold start
  split <;> simp_all

theorem loc_head {x : Txt} (h : isIdent x = true) (hs : assert_var_decl_is_safe x true = .ok ()) : start (env_var true x) = 0 := by
  obtain ⟨c, r, rfl, hc⟩ := ident_head h (safe_head hs)
  simp only [env_var, if_true]
  split
  · decide
  · exact start_alpha r hc

/-- The shape of the names. -/
theorem start_spec {e : Ent} (h : e.ok) : start e.name = (match e with
    | .loc _ => 0 | .glob _ => 1 | .enum _ => 1 | .heap _ => 2 | _ => if e.under then 3 else 0) := by
  cases e with
  | loc x => exact loc_head h.1 h.2.1
  | glob x =>
    obtain ⟨c, r, rfl, hc⟩ := ident_head h.1 (safe_head h.2)
    exact start_glob r hc
  | enum x =>
    obtain ⟨c, r, rfl, hc⟩ := ident_head h.1 h.2
    exact start_glob r hc
  | heap k =>
    obtain ⟨c, r, e, hc⟩ := num_head k
    simp only [Ent.name, e]; exact start_heap r hc
  | rt x =>
    cases hu : (Ent.rt x).under with
    | true => simp only [if_true]; exact start_under h hu
    | false =>
      simp only [Bool.false_eq_true, if_false]
      have key : ∀ x ∈ runtimeVars, (Ent.rt x).under = false → start x = 0 := by decide +kernel
      exact key x h hu
  | _ => simp only [Ent.under, if_true]; exact start_under h rfl

theorem rt_plain : ∀ x ∈ runtimeVars, (Ent.rt x).under = false → x = "IFS".toList ∨ x = "LC_ALL".toList := by decide +kernel

theorem loc_ne_rt {x y : Txt} (hx : (Ent.loc x).ok) (hy : (Ent.rt y).ok) (hu : (Ent.rt y).under = false) : env_var true x ≠ y := by
  obtain ⟨h1, h2, h3⟩ := hx
  intro e
  have hne : x ≠ "IFS".toList := by rintro rfl; revert h2; decide
  rcases rt_plain y hy hu with rfl | rfl
  · simp only [env_var, if_true] at e
    split at e
    · revert e; decide
    · exact hne e
  · simp only [env_var, if_true] at e
    split at e
    · revert e; decide
    · exact h3 e

theorem loc_inj {x y : Txt} (hx : (Ent.loc x).ok) (hy : (Ent.loc y).ok) (e : env_var true x = env_var true y) : x = y := by
  have hnx : x ≠ "argv_".toList := by rintro rfl; have := hx.2.1; revert this; decide
  have hny : y ≠ "argv_".toList := by rintro rfl; have := hy.2.1; revert this; decide
  simp only [env_var, if_true] at e
  by_cases h1 : x = "argv".toList <;> by_cases h2 : y = "argv".toList
  · rw [h1, h2]
  · rw [if_pos h1, if_neg h2] at e; exact absurd e.symm hny
  · rw [if_neg h1, if_pos h2] at e; exact absurd e hnx
  · rw [if_neg h1, if_neg h2] at e; exact e

/-- **C14** (variables; partial).  Two entities with the same shell variable are the same: local and
global variables, enumeration constants, structure members and sizes, temporaries, string constants,
memory cells, saved values, character constants and the variables of the runtime library never share a
name.  The compiler enforces the conditions on variables; missing: structure members with a reserved
name, enumeration constants beginning with `_` and a local variable `LC_ALL` are accepted although
they clash (see the theorems below). -/
theorem C14_variables_partial (a b : Ent) (ha : a.ok) (hb : b.ok) (h : a.name = b.name) : a.same b := by
  have hs : start a.name = start b.name := by rw [h]
  rw [start_spec ha, start_spec hb] at hs
  cases hua : a.under with
  | true =>
    cases hub : b.under with
    | true =>
      have := under_inj ha hb hua hub h
      subst this
      cases a <;> simp [Ent.same]
    | false => cases a <;> cases b <;> simp_all [Ent.under]
  | false =>
    cases hub : b.under with
    | true => cases a <;> cases b <;> simp_all [Ent.under]
    | false =>
      cases a with
      | loc x =>
        cases b with
        | loc y => simp only [Ent.same, Ent.loc.injEq]; exact loc_inj ha hb h
        | rt y => exact absurd h (loc_ne_rt ha hb hub)
        | _ => simp_all [Ent.under]
      | glob x =>
        cases b with
        | glob y => simpa [Ent.same, Ent.name, env_var, global_var] using h
        | enum y => simpa [Ent.same, Ent.name, env_var, global_var] using h
        | _ => simp_all [Ent.under]
      | enum x =>
        cases b with
        | glob y => simpa [Ent.same, Ent.name, env_var, global_var] using h
        | enum y => simpa [Ent.same, Ent.name, env_var, global_var] using h
        | _ => simp_all [Ent.under]
      | heap k =>
        cases b with
        | heap l => simp only [Ent.name, List.cons.injEq, true_and] at h; simp only [Ent.same, num_inj h]
        | _ => simp_all [Ent.under]
      | rt x =>
        cases b with
        | loc y => exact absurd h.symm (loc_ne_rt hb ha hua)
        | rt y => simp only [Ent.name] at h; simp only [Ent.same, h]
        | _ => simp_all [Ent.under]
      | _ => simp [Ent.under] at hua

/-- The compiler accepts a variable name iff it does not begin with `_`, is not one character followed by
`_`, and — for local variables — is neither `IFS` nor `argv_`. -/
theorem C14_accepted (x : Txt) (isLocal : Bool) : assert_var_decl_is_safe x isLocal = .ok () ↔
    (∀ r, x ≠ '_' :: r) ∧ (∀ c, x ≠ [c, '_']) ∧ (isLocal = true → x ≠ "IFS".toList ∧ x ≠ "argv_".toList) := by
  have h1 : x.head? = some '_' ↔ ∃ r, x = '_' :: r := by cases x <;> simp
  have h2 : (x.length = 2 ∧ x.getLast? = some '_') ↔ ∃ c, x = [c, '_'] := by
    match x with
    | [] => simp
    | [a] => simp
    | [a, b] => simp
    | a :: b :: c :: r => simp
  unfold assert_var_decl_is_safe
  by_cases e1 : ∃ r, x = '_' :: r
  · rw [if_pos (by simp [h1.2 e1])]
    obtain ⟨r, rfl⟩ := e1
    simp
  by_cases e2 : ∃ c, x = [c, '_']
  · rw [if_pos (by have := h2.2 e2; rw [Bool.or_eq_true]; right; simp [this.1, this.2])]
    obtain ⟨r, rfl⟩ := e2
    simp
  rw [if_neg (by simp only [Bool.or_eq_true, decide_eq_true_eq, Bool.and_eq_true, h1, h2]; exact fun h => h.elim e1 e2)]
  simp only [not_exists] at e1 e2
  by_cases e3 : isLocal = true ∧ (x = "argv_".toList ∨ x = "IFS".toList)
  · rw [if_pos (by simpa using e3)]
    simp only [reduceCtorEq, false_iff, not_and]
    intro _ _ h
    have := h e3.1
    rcases e3.2 with e | e
    · exact absurd e this.2
    · exact absurd e this.1
  · rw [if_neg (by simpa using e3)]
    simp only [true_iff]
    refine ⟨e1, e2, fun hl => ?_⟩
    exact ⟨fun e => e3 ⟨hl, Or.inr e⟩, fun e => e3 ⟨hl, Or.inl e⟩⟩

/-! ### Clashes -/

/-- The full claim for structure members is false: a member `t1` has the same variable as the first
temporary, a member `SP` that of the stack pointer of saved variables, a member `a__` that of the
character constant `'a'`. -/
theorem C14_members_false :
    (Ent.member "t1".toList).name = (Ent.temp 1).name ∧ (Ent.member "SP".toList).name = (Ent.rt "__SP".toList).name ∧
    (Ent.member "a__".toList).name = (Ent.chr 97).name ∧ (Ent.member "ptr".toList).name = (Ent.rt "__ptr".toList).name := by decide +kernel

/-- Enumeration constants are not checked: `_t1` has the same variable as the first temporary. -/
theorem C14_enum_false : (Ent.enum "_t1".toList).name = (Ent.temp 1).name ∧ (Ent.enum "_SP".toList).name = (Ent.rt "__SP".toList).name := by
  decide +kernel

/-- A local variable `LC_ALL` is accepted; it is the variable that selects the locale. -/
theorem C14_locale_false : assert_var_decl_is_safe "LC_ALL".toList true = .ok () ∧
    (Ent.loc "LC_ALL".toList).name = (Ent.rt "LC_ALL".toList).name := by decide +kernel

/-! ### Functions -/

/-- Shell functions of different C functions have different names, and none of them is a helper function
of the runtime library: these do not begin with `_`. -/
theorem C14_functions (f g : Txt) (h : global_var f = global_var g) : f = g := by simpa [global_var] using h

/-! ### String constants -/

/-- Values set by definitions are large and belong to one text each. -/
def DefsOK (B : Nat) (dv : Nat → Nat) : List Ev → Prop
  | [] => True
  | .use _ :: r => DefsOK B dv r
  | .define p v :: r => B ≤ v ∧ 0 < v ∧ dv v = p ∧ DefsOK B dv r

def uses : List Ev → Nat
  | [] => 0
  | .use _ :: r => uses r + 1
  | .define _ _ :: r => uses r

theorem numbers_owner (B : Nat) (dv : Nat → Nat) : (evs : List Ev) → (s : Strs) → (own : Nat → Nat) → DefsOK B dv evs →
    s.counter + uses evs ≤ B →
    (∀ p, s.tag p = 0 ∨ (s.tag p < s.counter ∧ own (s.tag p) = p) ∨ (B ≤ s.tag p ∧ dv (s.tag p) = p)) →
    ∃ W : Nat → Nat, (∀ p k, (p, k) ∈ numbers evs s → W k = p) ∧ (∀ k < s.counter, W k = own k) ∧ ∀ k, B ≤ k → W k = dv k
  | [], s, own, _, hu, _ => ⟨fun k => if k < s.counter then own k else dv k, by simp [numbers], fun k hk => by simp [hk],
      fun k hk => if_neg (by simp [uses] at hu; omega)⟩
  | .use p :: r, s, own, hd, hu, hi => by
    simp only [uses] at hu
    simp only [numbers, fresh_string_ident]
    by_cases h0 : s.tag p = 0
    · simp only [h0, if_true]
      obtain ⟨W, w1, w2, w3⟩ := numbers_owner B dv r ⟨upd s.tag p s.counter, s.counter + 1⟩ (upd own s.counter p) hd (by simp; omega) (by
        intro q
        simp only [upd_apply]
        by_cases hq : q = p
        · subst hq
          simp only [if_true]
          right; left
          exact ⟨by omega, trivial⟩
        · simp only [hq, if_false]
          rcases hi q with e | ⟨e1, e2⟩ | e
          · exact Or.inl e
          · right; left
            refine ⟨by omega, ?_⟩
            rw [if_neg (by omega)]; exact e2
          · exact Or.inr (Or.inr e))
      refine ⟨W, fun q k hm => ?_, fun k hk => ?_, w3⟩
      · simp only [List.mem_cons, Prod.mk.injEq] at hm
        rcases hm with ⟨rfl, rfl⟩ | hm
        · rw [w2 _ (by show s.counter < s.counter + 1; omega)]; exact upd_same ..
        · exact w1 q k hm
      · rw [w2 k (by show _ < _ + 1; omega), upd_apply, if_neg (by omega)]
    · simp only [h0, if_false]
      obtain ⟨W, w1, w2, w3⟩ := numbers_owner B dv r s own hd (by omega) hi
      refine ⟨W, fun q k hm => ?_, w2, w3⟩
      simp only [List.mem_cons, Prod.mk.injEq] at hm
      rcases hm with ⟨rfl, rfl⟩ | hm
      · rcases hi q with e | ⟨e1, e2⟩ | ⟨e1, e2⟩
        · exact absurd e h0
        · rw [w2 _ e1, e2]
        · rw [w3 _ e1, e2]
      · exact w1 q k hm
  | .define p v :: r, s, own, hd, hu, hi => by
    obtain ⟨d1, d2, d3, d4⟩ := hd
    simp only [numbers]
    refine numbers_owner B dv r { s with tag := upd s.tag p v } own d4 hu ?_
    intro q
    simp only [upd_apply]
    by_cases hq : q = p
    · subst hq
      simp only [if_true]
      exact Or.inr (Or.inr ⟨d1, d3⟩)
    · simp only [hq, if_false]; exact hi q

/-- **C14** (string constants).  Different strings never get the same number, in any sequence of uses of
string constants mixed with definitions of macros and types of the same names, as long as there are no
more uses of strings than `B`, where `B` is a lower bound of the heap indices of macros and types
(the first 1009 indices are taken by the hash table). -/
theorem C14_strings (B : Nat) (dv : Nat → Nat) (evs : List Ev) (hd : DefsOK B dv evs) (hu : uses evs ≤ B)
    (p q k : Nat) (hp : (p, k) ∈ numbers evs ⟨fun _ => 0, 0⟩) (hq : (q, k) ∈ numbers evs ⟨fun _ => 0, 0⟩) : p = q := by
  obtain ⟨W, h, _⟩ := numbers_owner B dv evs ⟨fun _ => 0, 0⟩ (fun _ => 0) hd (by simpa using hu) (fun _ => Or.inl rfl)
  rw [← h p k hp, h q k hq]

/-- Without the bound it is false: the string `"M"` of a macro `M` whose tag is 2 and the third other
string share a number. -/
theorem C14_strings_false : ¬ ∀ (evs : List Ev) (p q k : Nat), (p, k) ∈ numbers evs ⟨fun _ => 0, 0⟩ → (q, k) ∈ numbers evs ⟨fun _ => 0, 0⟩ → p = q := by
  intro h
  have := h [.define 100 2, .use 100, .use 5, .use 6, .use 7] 100 7 2 (by decide +kernel) (by decide +kernel)
  omega

/-! ### Examples -/

example : (Ent.loc "x".toList).ok ∧ (Ent.glob "count".toList).ok ∧ (Ent.member "next".toList).ok ∧ (Ent.enum "RED".toList).ok ∧
    (Ent.size "Point".toList).ok ∧ (Ent.temp 3).ok ∧ (Ent.rt "__SP".toList).ok := by
  refine ⟨⟨?_, ?_, ?_⟩, ⟨?_, ?_⟩, ⟨?_, ?_⟩, ⟨?_, ?_⟩, ?_, trivial, ?_⟩ <;> first | decide +kernel | (simp only [Ent.ok]; decide +kernel)

example : (Ent.chr 126).ok ∧ (Ent.chr 126).name = "__TILDE__".toList := ⟨⟨by decide, _, rfl⟩, by decide +kernel⟩

/-- The first string is numbered again at each use; the others keep their number. -/
example : numbers [.use 5, .use 6, .use 5, .use 6, .use 5] ⟨fun _ => 0, 0⟩ = [(5, 0), (6, 1), (5, 2), (6, 1), (5, 2)] := by decide +kernel

example : DefsOK 1009 (fun _ => 100) [.use 5, .define 100 2000, .use 100, .use 5] := by simp [DefsOK]

end Verif.Names
