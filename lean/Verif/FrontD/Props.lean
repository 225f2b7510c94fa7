import Verif.FrontD.Proofs
import Verif.Cont.Props
/-! # C55: from the text of a file of declarations to the declared names and their types -/
namespace Verif.FrontD
open Verif Verif.Intern Verif.Lex.Spec Verif.Decl.Spec

/-- What is said of the result: all of the text was read; the nodes built stand for exactly what the grammar of C says is declared; so do the typedef names. -/
def Declared (os : List SOut) (env : Env) (outs : List Decl.Out) (types : Decl.Types) (s : Decl.S) : Prop :=
  s.toks = [] ∧ All2 (OutIs s.heap) outs os ∧ TypesAre s.heap types env

/-- **C55 (partial).** A text that C splits into tokens (`Splits`), which are the tokens of a file of declarations (`SUnit`), is read by the native compilers, and what they build declares exactly the names, with exactly the types and
initializers, of the file; different spellings are different names.  Whatever is stored in the heap and string pool in between (`more`), if it fits.  Missing: line continuations (see `C55_continued_partial`), enumerations, bodies, expressions that are no literals;
what is missing in C42. -/
theorem C55_text_to_declarations_partial {t : Cli.Target} {more : Nat → List Op} {inp : List Nat} {ts : List Lex.Tok} (hs : splice inp = inp) (hc : Splits false (splice inp) ts) (hz : Front.Spec.NulFree ts)
    (hm : ∀ i, ∀ o ∈ more i, o.NulFree ∧ ∀ j v, o ≠ .setKind j v) {w : World} (hfit : run World.init (Front.initOps 0 (Front.inits t) ++ Front.history more 0 ts) = .ok w) :
    ∃ num, (∀ s ∈ Front.Spec.names ts, spelling w.st (num s) = s) ∧
      ∀ xs os env, Spec.Toks num ts xs → SUnit (fun _ => none) xs os env →
        ∃ outs types s, Declared os env outs types s ∧ ∃ N, ∀ n, N ≤ n → front n t more inp = .ok (some (outs, types, s)) := by
  obtain ⟨num, h1, h2⟩ := front_ok (by rwa [hs] at hc) hz hm hfit
  refine ⟨num, h1, fun xs os env hx hu => ?_⟩
  obtain ⟨outs, types, s, a, b, c, d⟩ := h2 xs os env hx hu
  exact ⟨outs, types, s, ⟨a, b, c⟩, d⟩

theorem short_ok (t : Cli.Target) {inp : List Nat} {ts : List Lex.Tok} (hc : Splits false inp ts) (hz : Front.Spec.NulFree ts) (hb : (Front.room ts).1 < 490000) (hn : (Front.room ts).2 < 390000) :
    ∃ num : List Nat → Nat, (∀ a ∈ Front.Spec.names ts, ∀ b ∈ Front.Spec.names ts, num a = num b → a = b) ∧
      ∀ xs os env, Spec.Toks num ts xs → SUnit (fun _ => none) xs os env →
        ∃ outs types s, Declared os env outs types s ∧ ∃ N, ∀ n, N ≤ n → front n t (fun _ => []) inp = .ok (some (outs, types, s)) := by
  obtain ⟨w, hw⟩ := Front.C52_fits t hc hz hb hn
  obtain ⟨num, h1, h2⟩ := front_ok hc hz (more := fun _ => []) (by simp) hw
  refine ⟨num, fun a ha b hb e => by rw [← h1 a ha, ← h1 b hb, e], fun xs os env hx hu => ?_⟩
  obtain ⟨outs, types, s, a, b, c, d⟩ := h2 xs os env hx hu
  exact ⟨outs, types, s, ⟨a, b, c⟩, d⟩

/-- **C55**, for short texts: no condition on the tables is left. -/
theorem C55_short_text_partial (t : Cli.Target) {inp : List Nat} {ts : List Lex.Tok} (hs : splice inp = inp) (hc : Splits false (splice inp) ts) (hz : Front.Spec.NulFree ts) (hb : (Front.room ts).1 < 490000)
    (hn : (Front.room ts).2 < 390000) :
    ∃ num : List Nat → Nat, (∀ a ∈ Front.Spec.names ts, ∀ b ∈ Front.Spec.names ts, num a = num b → a = b) ∧
      ∀ xs os env, Spec.Toks num ts xs → SUnit (fun _ => none) xs os env →
        ∃ outs types s, Declared os env outs types s ∧ ∃ N, ∀ n, N ≤ n → front n t (fun _ => []) inp = .ok (some (outs, types, s)) :=
  short_ok t (by rwa [hs] at hc) hz hb hn

/-- **C55**, in a build with `SUPPORT_LINE_CONTINUATION`: the same for files with line continuations, except lines that end in an even number of backslashes (`C54_even_false`). -/
theorem C55_continued_partial (t : Cli.Target) {file : List Nat} {ts : List Lex.Tok} (he : ¬ Cont.Spec.EvenEnd file) (hc : Splits false (splice file) ts) (hz : Front.Spec.NulFree ts) (hb : (Front.room ts).1 < 490000)
    (hn : (Front.room ts).2 < 390000) :
    ∃ num : List Nat → Nat, (∀ a ∈ Front.Spec.names ts, ∀ b ∈ Front.Spec.names ts, num a = num b → a = b) ∧
      ∀ xs os env, Spec.Toks num ts xs → SUnit (fun _ => none) xs os env →
        ∃ outs types s, Declared os env outs types s ∧ ∃ N, ∀ n, N ≤ n → ((Cont.stream file).bind fun cs => front n t (fun _ => []) cs) = .ok (some (outs, types, s)) := by
  rw [Cont.C54_stream_partial file he]
  exact short_ok t hc hz hb hn

/-- **C55**: two texts with the same tokens declare the same, whatever they look like (comments, spaces, lines). -/
theorem C55_layout_partial (n : Nat) (t : Cli.Target) (more : Nat → List Op) {inp inp' : List Nat} {ts : List Lex.Tok} (hs : splice inp = inp) (hs' : splice inp' = inp') (hc : Splits false (splice inp) ts)
    (hc' : Splits false (splice inp') ts) (hh : Lex.NoHash ts) : front n t more inp = front n t more inp' := by
  rw [front, front, Lex.C21_tokens_partial hs hc hh, Lex.C21_tokens_partial hs' hc' hh]

/-- **C55**: a keyword of statements or the name of a macro of every target is never taken for a declared name: the text is outside the model. -/
theorem C55_reserved_partial {n : Nat} {t : Cli.Target} {more : Nat → List Op} {inp : List Nat} {ts : List Lex.Tok} (hs : splice inp = inp) (hc : Splits false (splice inp) ts) (hh : Lex.NoHash ts) (hz : Front.Spec.NulFree ts)
    (hm : ∀ i, ∀ o ∈ more i, o.NulFree ∧ ∀ j v, o ≠ .setKind j v) {w : World} (hfit : run World.init (Front.initOps 0 (Front.inits t) ++ Front.history more 0 ts) = .ok w) {s : List Nat} (h1 : s ∈ Front.Spec.names ts)
    (h2 : s ∈ Spec.otherWords ∨ s ∈ Front.Spec.allMacros) : front n t more inp = .ok none := by
  obtain ⟨w0, e0, e1⟩ := Front.run_append _ hfit
  obtain ⟨T0, k0⟩ := Front.kk_start (t := t) e0
  obtain ⟨o, c, hn⟩ := conv_none t more hm ts 0 k0 (Front.names_bytes hc) hz e1
  rw [front, Lex.C21_tokens_partial hs hc hh, Res.bind_ok, Front.start, e0, Res.bind_ok, c, Res.bind_ok, hn s h1 h2]

def outside {α : Type} : Res (Option α) → Bool
  | .ok none => true
  | _ => false

example (t : Cli.Target) : outside (front 9 t (fun _ => []) (Front.Spec.str "int while ;")) = true ∧ outside (front 9 t (fun _ => []) (Front.Spec.str "int whil ;")) = false := by cases t <;> decide +kernel

/-! ## A text that meets the hypotheses -/


/-- `/* c */ typedef unsigned char T ; static T * p [ 3 ] , q ; int f ( T c , ... ) ; ` -/
def exText : List Nat := Front.Spec.str "/* c */ typedef unsigned char T ; static T * p [ 3 ] , q ; int f ( T c , ... ) ; "

def exToks : List Lex.Tok :=
  [.ident (Front.Spec.str "typedef"), .ident (Front.Spec.str "unsigned"), .ident (Front.Spec.str "char"), .ident (Front.Spec.str "T"), .op (.ch 59), .ident (Front.Spec.str "static"), .ident (Front.Spec.str "T"), .op (.ch 42), .ident (Front.Spec.str "p"), .op (.ch 91), .int .int (-3), .op (.ch 93), .op (.ch 44),
   .ident (Front.Spec.str "q"), .op (.ch 59), .ident (Front.Spec.str "int"), .ident (Front.Spec.str "f"), .op (.ch 40), .ident (Front.Spec.str "T"), .ident (Front.Spec.str "c"), .op (.ch 44), .op .ellipsis, .op (.ch 41), .op (.ch 59)]

theorem ex_splits : Splits false exText exToks := by
  have o : ∀ {s rest : List Nat} {o : Lex.Op}, (s, o) ∈ punctuators → s ≠ [46] → Token false s rest (.op o) := fun h h' => .op h fun e => absurd e h'
  have i : ∀ {rest : List Nat}, Token false [51] rest (.int .int (-3)) := by
    intro rest
    exact Token.int (cs := [51]) (sfx := []) (ds := [3]) (k := .int) (b := 10) (.dec (.cons (.dec 3 (by decide)) (by decide) .nil) (by decide) (by decide)) (by decide) (by decide) (by simp)
  have h : Splits false (Front.Spec.str "typedef unsigned char T ; static T * p [ 3 ] , q ; int f ( T c , ... ) ; ") exToks := by
    refine Front.splits_word (lex := Front.Spec.str "typedef") ?_ (Front.ident_tok _ _ rfl rfl) rfl rfl
    refine Front.splits_word (lex := Front.Spec.str "unsigned") ?_ (Front.ident_tok _ _ rfl rfl) rfl rfl
    refine Front.splits_word (lex := Front.Spec.str "char") ?_ (Front.ident_tok _ _ rfl rfl) rfl rfl
    refine Front.splits_word (lex := Front.Spec.str "T") ?_ (Front.ident_tok _ _ rfl rfl) rfl rfl
    refine Front.splits_word (lex := [59]) ?_ (o (by decide +kernel) (by decide)) rfl rfl
    refine Front.splits_word (lex := Front.Spec.str "static") ?_ (Front.ident_tok _ _ rfl rfl) rfl rfl
    refine Front.splits_word (lex := Front.Spec.str "T") ?_ (Front.ident_tok _ _ rfl rfl) rfl rfl
    refine Front.splits_word (lex := [42]) ?_ (o (by decide +kernel) (by decide)) rfl rfl
    refine Front.splits_word (lex := Front.Spec.str "p") ?_ (Front.ident_tok _ _ rfl rfl) rfl rfl
    refine Front.splits_word (lex := [91]) ?_ (o (by decide +kernel) (by decide)) rfl rfl
    refine Front.splits_word (lex := [51]) ?_ i rfl rfl
    refine Front.splits_word (lex := [93]) ?_ (o (by decide +kernel) (by decide)) rfl rfl
    refine Front.splits_word (lex := [44]) ?_ (o (by decide +kernel) (by decide)) rfl rfl
    refine Front.splits_word (lex := Front.Spec.str "q") ?_ (Front.ident_tok _ _ rfl rfl) rfl rfl
    refine Front.splits_word (lex := [59]) ?_ (o (by decide +kernel) (by decide)) rfl rfl
    refine Front.splits_word (lex := Front.Spec.str "int") ?_ (Front.ident_tok _ _ rfl rfl) rfl rfl
    refine Front.splits_word (lex := Front.Spec.str "f") ?_ (Front.ident_tok _ _ rfl rfl) rfl rfl
    refine Front.splits_word (lex := [40]) ?_ (o (by decide +kernel) (by decide)) rfl rfl
    refine Front.splits_word (lex := Front.Spec.str "T") ?_ (Front.ident_tok _ _ rfl rfl) rfl rfl
    refine Front.splits_word (lex := Front.Spec.str "c") ?_ (Front.ident_tok _ _ rfl rfl) rfl rfl
    refine Front.splits_word (lex := [44]) ?_ (o (by decide +kernel) (by decide)) rfl rfl
    refine Front.splits_word (lex := [46, 46, 46]) ?_ (o (by decide +kernel) (by decide)) rfl rfl
    refine Front.splits_word (lex := [41]) ?_ (o (by decide +kernel) (by decide)) rfl rfl
    refine Front.splits_word (lex := [59]) ?_ (o (by decide +kernel) (by decide)) rfl rfl
    exact .done (.gap .nil)
  exact Front.splits_comment (Front.splits_space h)

def exUnit (T p q f c : Nat) : List Decl.Tok :=
  [.sc .typedef, .kw .unsigned, .kw .char, .ident T, .semi] ++ ([.sc .static, .ident T, .star, .ident p, .lbrk, .expr 3 false, .rbrk, .comma, .ident q, .semi] ++
    ([.kw .int, .ident f, .lpar, .ident T, .ident c, .comma, .ellipsis, .rpar, .semi] ++ []))

theorem ex_toks (num : List Nat → Nat) : Spec.Toks num exToks (exUnit (num (Front.Spec.str "T")) (num (Front.Spec.str "p")) (num (Front.Spec.str "q")) (num (Front.Spec.str "f")) (num (Front.Spec.str "c"))) := by
  have k : ∀ {s : List Nat}, Spec.keywords.lookup s = none → (s ∈ Spec.otherWords ∨ s ∈ Front.Spec.macros) = False → Spec.tok num (.ident s) = some (.ident (num s)) := by
    intro s h1 h2
    simp only [Spec.tok, h1]
    rw [if_neg (by rw [h2]; exact id)]
  have k' : ∀ {s : List Nat} {t : Decl.Tok}, Spec.keywords.lookup s = some t → Spec.tok num (.ident s) = some t := by
    intro s t h1
    simp only [Spec.tok, h1]
  have no : ∀ {s : List Nat}, (Spec.otherWords.contains s || Front.Spec.macros.contains s) = false → (s ∈ Spec.otherWords ∨ s ∈ Front.Spec.macros) = False := by
    intro s h
    simp only [Bool.or_eq_false_iff, List.contains_eq_mem, decide_eq_false_iff_not] at h
    simp only [h.1, h.2, or_self]
  simp only [exToks, exUnit, List.cons_append, List.nil_append]
  repeat' apply Spec.Toks.cons
  all_goals first
    | exact .nil
    | exact k' (by decide +kernel)
    | exact k (by decide +kernel) (no (by decide +kernel))
    | (simp only [Spec.tok]; decide +kernel)

theorem ex_unit {T p q f c : Nat} (h1 : p ≠ T) (h2 : q ≠ T) (h3 : f ≠ T) (h4 : c ≠ T) : ∃ P, SUnit (fun _ => none) (exUnit T p q f c)
    [.typedefs (.cons (some T) Decl.uchar .nil), .vars [⟨some p, .arr (.ptr Decl.noQ Decl.uchar) 3, none⟩, ⟨some q, Decl.uchar, none⟩] (some .static) P,
     .vars [⟨some f, .fn Decl.intT (.cons (some c) Decl.uchar .nil) true, none⟩] none (∀ t ∈ [.ident f, .lpar, .ident T, .ident c, .comma, .ellipsis, .rpar], Quiet (addTypes (.cons (some T) Decl.uchar .nil) fun _ => none) t)]
    (addTypes (.cons (some T) Decl.uchar .nil) fun _ => none) := by
  have uc : Specs (fun _ => none) [.sc .typedef, .kw .unsigned, .kw .char] (some .typedef) Decl.uchar := by
    have := Specs.mk (env := fun _ => none) (.storage .nil) (.words (.unsignedS .char)) .nil (.left (c := some .typedef)) (.inl (Decl.Q.or_no _))
    rw [Decl.Q.or_no, Decl.qualify_no] at this
    exact this
  have nm : ∀ {env : Env} {abs : Bool} {x : Nat}, env x = none → PtrD env abs [.ident x] (.name (some x)) := fun h => .dir (.ident h)
  have d1 : SDecl (fun _ => none) [.sc .typedef, .kw .unsigned, .kw .char, .ident T, .semi] (.typedefs (.cons (some T) Decl.uchar .nil)) (addTypes (.cons (some T) Decl.uchar .nil) fun _ => none) :=
    SDecl.typedefs uc (ts := [.ident T]) (.one (nm rfl) trivial) (by intro x hx; simp [Ps.names] at hx; subst hx; simp)
  have ne : ∀ {x}, x ≠ T → addTypes (.cons (some T) Decl.uchar .nil) (fun _ => none) x = none := fun h => if_neg h
  have tT : TypeSpec (addTypes (.cons (some T) Decl.uchar .nil) fun _ => none) [.ident T] Decl.uchar := .typedef (if_pos rfl)
  generalize addTypes (.cons (some T) Decl.uchar .nil) (fun _ => none) = env at d1 ne tT ⊢
  have st : Specs env [.sc .static, .ident T] (some .static) Decl.uchar := by
    have := Specs.mk (env := env) (.storage .nil) tT .nil (.left (c := some .static)) (.inl (Decl.Q.or_no _))
    rw [Decl.Q.or_no, Decl.qualify_no] at this
    exact this
  have pp : PtrD env false [.star, .ident p, .lbrk, .expr 3 false, .rbrk] (.ptr false (.arr (.name (some p)) 3)) := .star (.dir (.arr (.ident (ne h1))))
  have d2 := SDecl.vars (env := env) st (by intro e; cases e) (ts := [.star, .ident p, .lbrk, .expr 3 false, .rbrk, .comma, .ident q])
    (.more (.plain pp ⟨fun h => h, fun h => h, trivial⟩) (.one (.plain (nm (ne h2)) trivial)))
  have ti : Specs env [.kw .int] none Decl.intT := Decl.specs_plain (.words (.plain .int))
  have pf : PtrD env false [.ident f, .lpar, .ident T, .ident c, .comma, .ellipsis, .rpar] (.fn (.name (some f)) (.cons (some c) Decl.uchar .nil) true) :=
    .dir (.fn (ts := [.ident f]) (tp := [.ident T, .ident c, .comma, .ellipsis]) (.ident (ne h3)) (by simp)
      (.ellipsis (ts := [.ident T, .ident c]) (.one (Decl.specs_plain tT) (by intro e; cases e) (nm (ne h4)) trivial fun h => h)))
  have d3 := SDecl.vars (env := env) ti (by intro e; cases e) (ts := [.ident f, .lpar, .ident T, .ident c, .comma, .ellipsis, .rpar]) (.one (.plain pf ⟨fun h => h, trivial⟩))
  exact ⟨_, .cons d1 (.cons d2 (.cons d3 .nil))⟩

/-- The hypotheses of `C55_short_text_partial` are met by the text above: `T` is `unsigned char`, `p` an array of three pointers to it, `f` a variadic function. -/
example (t : Cli.Target) : ∃ num : List Nat → Nat, (∀ a ∈ Front.Spec.names exToks, ∀ b ∈ Front.Spec.names exToks, num a = num b → a = b) ∧
    ∃ os env outs types s, Declared os env outs types s ∧ env (num (Front.Spec.str "T")) = some Decl.uchar ∧ os.length = 3 ∧
      (∃ P, os[1]? = some (.vars [⟨some (num (Front.Spec.str "p")), .arr (.ptr Decl.noQ Decl.uchar) 3, none⟩, ⟨some (num (Front.Spec.str "q")), Decl.uchar, none⟩] (some .static) P)) ∧
      ∃ N, ∀ n, N ≤ n → front n t (fun _ => []) exText = .ok (some (outs, types, s)) := by
  have hsp : splice exText = exText := by decide +kernel
  obtain ⟨num, h1, h2⟩ := C55_short_text_partial t hsp (hsp.symm ▸ ex_splits) (by intro s h; simp [exToks] at h) (by decide +kernel) (by decide +kernel)
  have ne : ∀ a ∈ Front.Spec.names exToks, a ≠ Front.Spec.str "T" → num a ≠ num (Front.Spec.str "T") := fun a ha hn e => hn (h1 a ha _ (by decide +kernel) e)
  obtain ⟨P, hu⟩ := ex_unit (ne (Front.Spec.str "p") (by decide +kernel) (by decide +kernel)) (ne (Front.Spec.str "q") (by decide +kernel) (by decide +kernel)) (ne (Front.Spec.str "f") (by decide +kernel) (by decide +kernel))
    (ne (Front.Spec.str "c") (by decide +kernel) (by decide +kernel))
  obtain ⟨outs, types, s, hd, hN⟩ := h2 _ _ _ (ex_toks num) hu
  exact ⟨num, h1, _, _, outs, types, s, hd, if_pos rfl, rfl, ⟨P, rfl⟩, hN⟩

end Verif.FrontD
