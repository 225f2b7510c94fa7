import Verif.Macro.Paste
/-! C22: macro expansion substitutes arguments and terminates. -/
namespace Verif.Macro
open Verif Verif.Lex Spec

/-! ## Termination -/

/-- Every macro of the table was defined by a directive. -/
def FromDefines (D : Table) : Prop := ∀ m mac, D m = some mac → ∃ paren toks, Tok.eof ∉ toks ∧ handle_define paren toks = .ok mac

theorem params_rest : ∀ (n : Nat) (toks : List Tok), toks.length ≤ n → ∀ (args : List Name) (p : List Name × List Tok),
    params toks args = .ok p → ∀ t ∈ p.2, t ∈ toks := by
  intro n
  induction n with
  | zero =>
    intro toks hn args p h t ht
    have : toks = [] := List.length_eq_zero_iff.1 (by omega)
    subst this
    simp [params] at h; subst h; exact ht
  | succ n ih =>
    intro toks hn args p h t ht
    rw [params.eq_def] at h
    split at h
    · exact List.mem_cons_of_mem _ (ih _ (by simp at hn; omega) _ p h t ht)
    · cases h; exact List.mem_cons_of_mem _ ht
    · exact List.mem_cons_of_mem _ (List.mem_cons_of_mem _ (ih _ (by simp at hn; omega) _ p h t ht))
    · cases h; exact List.mem_cons_of_mem _ (List.mem_cons_of_mem _ ht)
    · cases h; exact ht
    · cases h; exact ht
    · cases h

theorem line_mem : ∀ (ts : List Tok), ∀ t ∈ line ts, t ∈ ts := by
  intro ts
  induction ts with
  | nil => intro t h; exact h
  | cons u ts ih =>
    intro t h
    rw [line.eq_def] at h
    split at h
    · simp at h
    · simp at h
    · rename_i e
      cases e
      rcases List.mem_cons.1 h with rfl | h
      · simp
      · exact List.mem_cons_of_mem _ (ih t h)

theorem read_eof {args : List Name} {toks : List Tok} {b : List BTok} (he : Tok.eof ∉ toks) (h : read_macro_tokens args toks = .ok b) : EOF ∉ b := by
  unfold read_macro_tokens at h
  dsimp only at h
  split at h
  · cases h
  · cases h
    intro hm
    obtain ⟨t, ht, e⟩ := List.mem_map.1 hm
    refine lookup_ne (t := t) (u := .eof) ?_ e
    rintro rfl
    exact he (line_mem _ _ ht)

theorem noEof_of {D : Table} (h : FromDefines D) : NoEof D := by
  intro m mac hm
  obtain ⟨paren, toks, he, hd⟩ := h m mac hm
  unfold handle_define at hd
  split at hd
  · obtain ⟨⟨args, r⟩, h1, h2⟩ := Res.bind_eq_ok.1 hd
    obtain ⟨b, h3, h4⟩ := Res.bind_eq_ok.1 h2
    cases h4
    exact read_eof (fun h => he (List.mem_of_mem_tail (params_rest _ _ (Nat.le_refl _) _ _ h1 _ h))) h3
  · obtain ⟨b, h3, h4⟩ := Res.bind_eq_ok.1 hd
    cases h4
    exact read_eof he h3

/-- Expansion of every source ends (with tokens or an error), whatever macros are defined — recursive and mutually recursive ones, with `#` and `##`,
called with any arguments or unfinished calls. -/
theorem C22_terminates {D : Table} (hD : FromDefines D) {src : List Tok} (hs : Tok.eof ∉ src) : ∃ r, r ≠ .diverge ∧ Expands D src r := by
  obtain ⟨N, r, h1, h2, -⟩ := expandF_conv (noEof_of hD) (noEof_start hs)
  exact ⟨r, h1, N, fun n hn => h2 n n hn hn⟩

/-- … and it has one result. -/
theorem C22_deterministic {D : Table} {src : List Tok} {r r' : Res (List Tok)} (h : Expands D src r) (h' : Expands D src r') : r = r' := expands_unique h h'

/-! ## Substitution -/

/-- **Function-like and object-like macros.**  If C's macro replacement turns the source into `out`, pnut's parser gets `out`.

Missing (see the witnesses below): macros that use themselves when arguments are involved, `#` and `##` in general, calls whose parentheses are not in one text, function-like names that
are not called inside bodies and arguments, arguments that expand to a comma, an empty first argument, and arguments in the source that use macros of a higher rank than the macro called. -/
theorem C22_call_partial {C : CTable} {D : Table} {rk : Name → Nat} (hD : Defined C D) (hW : WF C) (hR : Ranked C rk) {src out : List Tok}
    (hA : ArgsRanked C rk (strip src)) (hs : Tok.eof ∉ src) (h : File C (strip src) out) : Expands D src (.ok out) := by
  obtain ⟨h1, src', h2, h3⟩ := file_sim hD hW hR h src rfl hs hA
  exact reads_expands h3 h1 (gets_end h2)

/-- **Object-like macros**, with any recursion: pnut's parser gets what C's macro replacement gives, in which a macro is not replaced inside its own replacement. -/
theorem C22_object_partial {C : CTable} {D : Table} (hD : Defined C D) (hW : WF C) (hO : ∀ m c, C m = some c → ∃ b, c = .obj b) {L : List Name}
    (hL : ∀ m, C m ≠ none → m ∈ L) (hl : L.length ≤ 58) {src : List Tok} (hs : ∀ t ∈ src, t ≠ .eof ∧ t ≠ .op (.ch 35) ∧ t ≠ .op .hashHash) :
    ∃ out, Exp C [] (fun _ => none) (strip src) out ∧ Expands D src (.ok out) := by
  obtain ⟨out, h1, h2, src', h3, h4⟩ := obj_file hD hW ⟨hO, hL⟩ hl src hs
  exact ⟨out, h1, reads_expands h4 h2 (gets_end h3)⟩

theorem lookup2 {a b : Name} (h : a ≠ b) : lookup_macro_token [b, a] (.ident a) = .arg 1 ∧ lookup_macro_token [b, a] (.ident b) = .arg 0 := by
  constructor
  · have h1 : (b == a) = false := by simpa using h.symm
    simp [lookup_macro_token, List.idxOf_cons, h1]
  · simp [lookup_macro_token]

/-- **Pasting**: `#define F(a, b) a ## b` makes `F(x, y)` the identifier `xy`, where `y` and `xy` are no macros (`x` may be one). -/
theorem C22_paste_partial {D : Table} (hD : FromDefines D) {f a b : Name} (hab : a ≠ b) {mac : Macro} (hf : D f = some mac)
    (hm : handle_define true [lpar, .ident a, comma, .ident b, rpar, .ident a, .op .hashHash, .ident b] = .ok mac)
    {x y : Name} (hy : D y = none) (hxy : D (x ++ y) = none) {rest out : List Tok} (hs : Tok.eof ∉ rest) (h : Expands D rest (.ok out)) :
    Expands D (.ident f :: lpar :: .ident x :: comma :: .ident y :: rpar :: rest) (.ok (.ident (x ++ y) :: out)) := by
  have hmac : mac = ⟨[.arg 1, HH, .arg 0], some 2⟩ := by
    obtain ⟨e1, e2⟩ := lookup2 hab
    have e3 : lookup_macro_token [b, a] (.op .hashHash) = HH := rfl
    simp only [handle_define, if_true, List.tail_cons, params, Res.bind_ok, read_macro_tokens, line, List.map_cons, List.map_nil, e1, e2, e3] at hm
    simp [Res.bind_ok] at hm
    exact hm.symm
  rw [hmac] at hf
  have c : Cont D true (start (.ident f :: lpar :: .ident x :: comma :: .ident y :: rpar :: rest))
      (pushed (some f) [.arg 1, HH, .arg 0] [[.tok (.ident y)], [.tok (.ident x)]] (start rest)) := by
    refine cont_file_call _ hf (gets_file _ (by simp) (by simp)) ?_ (by simp [start])
    refine getsArgs_stream (as := [[.ident x], [.ident y]]) ?_ (by simp) ?_
    · intro a ha
      simp at ha
      rcases ha with rfl | rfl <;> exact ⟨.tok (by simp) (by simp) (by simp) .nil, by simp⟩
    · refine .cons (gets_raw _ (by simp)) (.cons (gets_raw _ (by simp)) (.cons (gets_raw _ (by simp)) (.cons (gets_raw _ (by simp)) .nil)))
  have r : Reads D true (start (.ident f :: lpar :: .ident x :: comma :: .ident y :: rpar :: rest)) [.ident (x ++ y)] (start rest) := by
    refine reads_cont c (.cons (gets_paste hy hxy) (.done ?_))
    exact cont_trans (cont_pushed D true _ _ _) (cont_pushed D true _ _ _)
  exact expands_reads (noEof_of hD) r (by simp) (noEof_start hs) h

/-- **Stringising**: `#define F(a) #a` makes `F(x)` the string `"x"` for an identifier `x` (a macro or not). -/
theorem C22_stringify_partial {D : Table} (hD : FromDefines D) {f a : Name} {mac : Macro} (hf : D f = some mac)
    (hm : handle_define true [lpar, .ident a, rpar, .op (.ch 35), .ident a] = .ok mac) {x : Name} {rest out : List Tok} (hs : Tok.eof ∉ rest)
    (h : Expands D rest (.ok out)) : Expands D (.ident f :: lpar :: .ident x :: rpar :: rest) (.ok (.str x :: out)) := by
  have hmac : mac = ⟨[.tok (.op (.ch 35)), .arg 0], some 1⟩ := by
    have e2 : lookup_macro_token [a] (.ident a) = .arg 0 := by simp [lookup_macro_token]
    have e3 : lookup_macro_token [a] (.op (.ch 35)) = .tok (.op (.ch 35)) := rfl
    simp only [handle_define, if_true, List.tail_cons, params, Res.bind_ok, read_macro_tokens, line, List.map_cons, List.map_nil, e2, e3] at hm
    simp [Res.bind_ok] at hm
    exact hm.symm
  rw [hmac] at hf
  have c : Cont D true (start (.ident f :: lpar :: .ident x :: rpar :: rest))
      (pushed (some f) [.tok (.op (.ch 35)), .arg 0] [[.tok (.ident x)]] (start rest)) := by
    refine cont_file_call _ hf (gets_file _ (by simp) (by simp)) ?_ (by simp [start])
    refine getsArgs_stream (as := [[.ident x]]) ?_ (by simp) ?_
    · intro a ha
      simp at ha
      subst ha
      exact ⟨.tok (by simp) (by simp) (by simp) .nil, by simp⟩
    · exact .cons (gets_raw _ (by simp)) (.cons (gets_raw _ (by simp)) .nil)
  have r : Reads D true (start (.ident f :: lpar :: .ident x :: rpar :: rest)) [.str x] (start rest) :=
    reads_cont c (.cons gets_stringify (.done (cont_pushed D true _ _ _)))
  exact expands_reads (noEof_of hD) r (by simp) (noEof_start hs) h

/-! ## Examples and departures from C -/

/-- Tables given by a list of definitions. -/
def ctab (l : List (Name × CMacro)) : CTable := fun m => l.lookup m
def defd (c : CMacro) : Option Macro := match handle_define c.isFn c.text with | .ok mac => some mac | _ => none
def tab (l : List (Name × CMacro)) : Table := fun m => (l.lookup m).bind defd

theorem defd_some {c : CMacro} (h : (defd c).isSome) : ∃ mac, handle_define c.isFn c.text = .ok mac ∧ defd c = some mac := by
  unfold defd at h ⊢
  split at h
  · rename_i mac e; exact ⟨mac, e, rfl⟩
  · simp at h

theorem defined_tab {l : List (Name × CMacro)} (h : ∀ p ∈ l, (defd p.2).isSome) : Defined (ctab l) (tab l) := by
  intro m
  cases e : ctab l m with
  | none =>
    have e : l.lookup m = none := e
    simp [tab, e]
  | some c =>
    have e : l.lookup m = some c := e
    obtain ⟨mac, h1, h2⟩ := defd_some (h _ (lookup_mem e))
    exact ⟨mac, h1, by simp [tab, e, h2]⟩

theorem fromDefines_tab {l : List (Name × CMacro)} (h : ∀ p ∈ l, Tok.eof ∉ p.2.text) : FromDefines (tab l) := by
  intro m mac hm
  unfold tab at hm
  cases e : l.lookup m with
  | none => rw [e] at hm; cases hm
  | some c =>
    rw [e] at hm
    have hm : defd c = some mac := hm
    unfold defd at hm
    split at hm
    · rename_i mac' e'
      cases hm
      exact ⟨c.isFn, c.text, h _ (lookup_mem e), e'⟩
    · cases hm

/-- Identifiers of one letter, numbers. -/
abbrev i (c : Char) : Tok := .ident [c.toNat]
abbrev nm (c : Char) : Name := [c.toNat]
abbrev num (n : Nat) : Tok := .int .int (-(n : Int))
abbrev o (c : Char) : Tok := .op (.ch c.toNat)

/-- `#define A(x, y) x + y`, `#define O 1`, `#define T A(O, O)`. -/
def defs1 : List (Name × CMacro) := [(nm 'A', .fn [nm 'x', nm 'y'] [i 'x', o '+', i 'y']), (nm 'O', .obj [num 1]), (nm 'T', .obj [i 'A', lpar, i 'O', comma, i 'O', rpar])]

def rk1 (m : Name) : Nat := if m = nm 'T' then 2 else if m = nm 'A' then 1 else 0

theorem plain_dec {t : Tok} (h : (match t with | .ident _ => false | .op (.ch 35) => false | .op .hashHash => false | .eof => false | .newline => false | _ => true) = true) :
    Plain t := by
  refine ⟨?_, ?_, ?_, ?_, ?_⟩
  · rintro x rfl; simp at h
  all_goals (rintro rfl; simp at h)

theorem wf_tab {l : List (Name × CMacro)} (h : ∀ p ∈ l, p.2.params.Nodup ∧ ∀ t ∈ p.2.body, t ≠ .eof ∧ t ≠ .newline ∧ t ≠ .op (.ch 35) ∧ t ≠ .op .hashHash) : WF (ctab l) :=
  fun _ _ e => h _ (lookup_mem e)

theorem ranked_tab {l : List (Name × CMacro)} {rk : Name → Nat} (h : ∀ p ∈ l, rk p.1 ≤ 50 ∧ ∀ x ∈ names p.2.body, x ∉ p.2.params → l.lookup x ≠ none → rk x < rk p.1) :
    Ranked (ctab l) rk := fun _ _ e => h _ (lookup_mem e)

/-- A check of `ArgsRanked`. -/
def checkAt (C : CTable) (rk : Name → Nat) : List Tok → Bool
  | .ident f :: .op (.ch 40) :: rest => (C f).isNone || (List.range rest.length).all fun j => rest[j]? != some rpar ||
      (names (rest.take j)).all fun x => (C x).isNone || decide (rk x ≤ rk f)
  | _ => true

theorem argsRanked_check {C : CTable} {rk : Name → Nat} {src : List Tok} (h : (List.range src.length).all (fun k => checkAt C rk (src.drop k)) = true) : ArgsRanked C rk src := by
  intro pre f text post hs hf _ x hx hC
  rw [List.all_eq_true] at h
  have h1 := h pre.length (by rw [hs]; simp)
  rw [hs, List.drop_left] at h1
  simp only [checkAt, Bool.or_eq_true, List.all_eq_true] at h1
  rcases h1 with h1 | h1
  · exact absurd (by simpa using h1) hf
  · have h2 := h1 text.length (by simp)
    rcases h2 with h2 | h2
    · simp at h2
    · rw [List.take_left] at h2
      rcases h2 x hx with h3 | h3
      · exact absurd (by simpa using h3) hC
      · simpa using h3

theorem exp_O (hide : List Name) (hh : nm 'O' ∉ hide) {r out : List Tok} (h : Exp (ctab defs1) hide (fun _ => none) r out) :
    Exp (ctab defs1) hide (fun _ => none) (i 'O' :: r) (num 1 :: out) :=
  .obj (body := [num 1]) (o := [num 1]) rfl hh rfl (.plain (plain_dec rfl) .nil) h

/-- `A(x, y)` is `x + y`. -/
theorem exp_A (hide : List Name) (hh : nm 'A' ∉ hide) {a b oa ob r out : List Tok} (ha : ArgText a) (hb : ArgText b) (hoa : ArgText oa) (hob : ArgText ob) (hane : a ≠ []) (hone : oa ≠ [])
    (h1 : Exp (ctab defs1) hide (fun _ => none) a oa) (h2 : Exp (ctab defs1) hide (fun _ => none) b ob)
    (h : Exp (ctab defs1) hide (fun _ => none) r out) :
    Exp (ctab defs1) hide (fun _ => none) (i 'A' :: lpar :: (a ++ comma :: b ++ rpar :: r)) (oa ++ o '+' :: ob ++ out) := by
  have := Exp.call (C := ctab defs1) (hide := hide) (env := fun _ => none) (f := nm 'A') (ps := [nm 'x', nm 'y']) (body := [i 'x', o '+', i 'y'])
    (as := [a, b]) (os := [oa, ob]) (o := oa ++ o '+' :: ob) (r := r) (out := out) rfl hh rfl rfl rfl (by simp [ha, hb]) (by simp [hoa, hob])
    (by simpa using hane) (by simpa using hone) (by simp [h1, h2]) ?_ h
  · simpa [List.intercalate] using this
  · have e : oa ++ o '+' :: ob = oa ++ (o '+' :: (ob ++ [])) := by simp
    rw [e]
    exact .param rfl (.plain (plain_dec rfl) (.param rfl .nil))

/-- `A(T, z);` with a line end inside, `A;` — becomes `1 + 1 + z; A;`. -/
example : Expands (tab defs1) [i 'A', lpar, i 'O', .newline, comma, i 'z', rpar, o ';', i 'T', i 'A', o ';'] (.ok [num 1, o '+', i 'z', o ';', num 1, o '+', num 1, i 'A', o ';']) := by
  refine C22_call_partial (rk := rk1) (defined_tab (by decide)) (wf_tab (by decide)) (ranked_tab (by decide)) ?_ (by decide) ?_
  · exact argsRanked_check (by decide)
  · refine .seg (a := [i 'A', lpar, i 'O', comma, i 'z', rpar, o ';', i 'T']) (o := [num 1, o '+', i 'z', o ';', num 1, o '+', num 1]) ?_ (.name (t := o ';') rfl (by decide) (.inl (plain_dec rfl)) .nil)
    refine exp_A [] (by decide) (a := [i 'O']) (b := [i 'z']) (oa := [num 1]) (ob := [i 'z']) (.tok (by decide) (by decide) (by decide) .nil) (.tok (by decide) (by decide) (by decide) .nil)
      (.tok (by decide) (by decide) (by decide) .nil) (.tok (by decide) (by decide) (by decide) .nil) (by decide) (by decide) (exp_O [] (by decide) .nil) (.ident rfl rfl .nil)
      (.plain (plain_dec rfl) ?_)
    refine .obj (body := [i 'A', lpar, i 'O', comma, i 'O', rpar]) (o := [num 1, o '+', num 1]) rfl (by decide) rfl ?_ .nil
    exact exp_A [nm 'T'] (by decide) (a := [i 'O']) (b := [i 'O']) (oa := [num 1]) (ob := [num 1]) (.tok (by decide) (by decide) (by decide) .nil) (.tok (by decide) (by decide) (by decide) .nil)
      (.tok (by decide) (by decide) (by decide) .nil) (.tok (by decide) (by decide) (by decide) .nil) (by decide) (by decide) (exp_O _ (by decide) .nil) (exp_O _ (by decide) .nil) .nil

/-- `#define X Y X`, `#define Y X Y`. -/
def defs3 : List (Name × CMacro) := [(nm 'X', .obj [i 'Y', i 'X']), (nm 'Y', .obj [i 'X', i 'Y'])]

/-- The source `X` is expanded as in C. -/
example : ∃ out, Exp (ctab defs3) [] (fun _ => none) [i 'X'] out ∧ Expands (tab defs3) [i 'X'] (.ok out) := by
  refine C22_object_partial (C := ctab defs3) (L := [nm 'X', nm 'Y']) (src := [i 'X']) (defined_tab (l := defs3) (by decide)) (wf_tab (l := defs3) (by decide)) ?_ ?_ (by decide) (by decide)
  · intro m c h
    have := lookup_mem h
    simp [defs3] at this
    rcases this with ⟨-, rfl⟩ | ⟨-, rfl⟩ <;> exact ⟨_, rfl⟩
  · intro m h
    cases e : ctab defs3 m with
    | none => exact absurd e h
    | some c =>
      have := lookup_mem e
      simp [defs3] at this
      rcases this with ⟨h, -⟩ | ⟨h, -⟩ <;> simp [h]

/-- `#define C(a, b) a ## b`, `#define S(a) #a`. -/
def defs2 : List (Name × CMacro) := [(nm 'C', .fn [nm 'a', nm 'b'] [i 'a', .op .hashHash, i 'b']), (nm 'S', .fn [nm 'a'] [o '#', i 'a']), (nm 'M', .obj [num 1])]

example : Expands (tab defs2) [i 'C', lpar, i 'M', comma, i 'y', rpar, i 'S', lpar, i 'M', rpar, o ';'] (.ok [.ident (nm 'M' ++ nm 'y'), .str (nm 'M'), o ';']) :=
  C22_paste_partial (a := nm 'a') (b := nm 'b') (fromDefines_tab (by decide)) (by decide) rfl rfl rfl rfl (by decide)
    (C22_stringify_partial (a := nm 'a') (fromDefines_tab (by decide)) rfl rfl (by decide) (expands_of 3 (by decide +kernel) (by simp)))

example : FromDefines (tab defs1) := fromDefines_tab (by decide)

/-- A macro is expanded again inside its own expansion: `#define F(x) G(F(x))`, `#define G(y) y`, source `F(1)`. C gives `F(1)`. -/
theorem C22_recursion_false : Expands (tab [(nm 'F', .fn [nm 'x'] [i 'G', lpar, i 'F', lpar, i 'x', rpar, rpar]), (nm 'G', .fn [nm 'y'] [i 'y'])])
    [i 'F', lpar, num 1, rpar] (.ok [i 'G', lpar, i 'F', lpar, num 1, rpar, rpar]) := expands_of 60 (by decide +kernel) (by simp)

/-- The right operand of `##` is expanded: `#define C(a, b) a ## b`, `#define M 1`, source `C(x, M)`. C gives `xM`. -/
theorem C22_paste_false : Expands (tab defs2) [i 'C', lpar, i 'x', comma, i 'M', rpar] (.ok [.ident [120, 49]]) := expands_of 30 (by decide +kernel) (by simp)

/-- Pasting a zero: `#define Z(a, b) a ## b`, source `Z(1, 0)` is 1; C gives 10. -/
theorem C22_paste_zero_false : Expands (tab defs2) [i 'C', lpar, num 1, comma, num 0, rpar] (.ok [num 1]) := expands_of 30 (by decide +kernel) (by simp)

/-- Two tokens cannot be made a string: source `S(x + 1)`. C gives `"x + 1"`. -/
theorem C22_stringify_false : Expands (tab defs2) [i 'S', lpar, i 'x', o '+', num 1, rpar] (.ok [.str notSupported]) := expands_of 30 (by decide +kernel) (by simp)

/-- A macro behind the name of a function-like macro is expanded twice: `#define F(x) x`, `#define M M +`, source `F M`. C gives `F M +`. -/
theorem C22_uncalled_false : Expands (tab [(nm 'F', .fn [nm 'x'] [i 'x']), (nm 'M', .obj [i 'M', o '+'])]) [i 'F', i 'M'] (.ok [i 'F', i 'M', o '+', o '+']) :=
  expands_of 30 (by decide +kernel) (by simp)

/-- A macro that expands to `(` makes a call: `#define F(x) 1`, `#define L (`, source `F L 2 )`. C gives `F ( 2 )`. -/
theorem C22_paren_false : Expands (tab [(nm 'F', .fn [nm 'x'] [num 1]), (nm 'L', .obj [lpar])]) [i 'F', i 'L', num 2, rpar] (.ok [num 1]) :=
  expands_of 30 (by decide +kernel) (by simp)

/-- In a body, an argument that expands to a comma becomes two: `#define F(x) x`, `#define P 1, 2`, `#define G F(P)`, source `G`. C gives `1, 2`. -/
theorem C22_comma_false : Expands (tab [(nm 'F', .fn [nm 'x'] [i 'x']), (nm 'P', .obj [num 1, comma, num 2]), (nm 'G', .obj [i 'F', lpar, i 'P', rpar])]) [i 'G'] .fatal :=
  expands_of 30 (by decide +kernel) (by simp)

/-- An empty argument: `#define F(x) 1`, source `F()`. C gives `1`. -/
theorem C22_empty_false : Expands (tab [(nm 'F', .fn [nm 'x'] [num 1])]) [i 'F', lpar, rpar] .fatal := expands_of 30 (by decide +kernel) (by simp)

/-- `#` in an object-like macro is not an operator in C: `#define H #`, source `H`. -/
theorem C22_hash_false : Expands (tab [(nm 'H', .obj [o '#'])]) [i 'H', o ';'] .fatal := expands_of 30 (by decide +kernel) (by simp)

/-- The arguments in a file are expanded while the macro is being expanded: `#define F(x) x`, `#define G F(1)`, source `F(G)`. C gives `1`. -/
theorem C22_arg_false : Expands (tab [(nm 'F', .fn [nm 'x'] [i 'x']), (nm 'G', .obj [i 'F', lpar, num 1, rpar])]) [i 'F', lpar, i 'G', rpar] (.ok [i 'F', lpar, num 1, rpar]) :=
  expands_of 30 (by decide +kernel) (by simp)

/-- A macro being pasted with itself: `#define x x ## y`, source `x z`. C gives `xy z`. -/
theorem C22_selfpaste_false : Expands (tab [(nm 'x', .obj [i 'x', .op .hashHash, i 'y'])]) [i 'x', i 'z'] (.ok [i 'x', .ident [121, 122]]) :=
  expands_of 30 (by decide +kernel) (by simp)

end Verif.Macro
