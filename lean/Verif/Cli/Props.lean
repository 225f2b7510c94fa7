import Verif.Cli.Proofs
/-! # C41: the command line; C39: what the compiler's result depends on -/
namespace Verif.Cli
open Verif Verif.Inc

/-- **C41, the start.** Before the options are read the keywords of C are keywords, the predefined macros of the target are defined, and every other name is an identifier. -/
theorem C41_predefined (t : Target) : Spec.Initial t (initTab t) := initial t

/-- **C41, the options.** Take any command line with at least one source file, whose source files exist and that has at most one `-I`. Whatever the rest of the compiler is, it is run with a symbol table in which
the last `-D` or `-U` of a name decides (and `-D` gives it the value that is written), with the search path of `-I` and the output file of the last `-o`, on the text of the source files from the last one to the first one; files named by `-o` have been emptied.
Nothing else on the command line matters: not the order of the options among the files, nor whether an operand is attached. `_partial`: the source files are read in the opposite of the order in which they are given (see `C41_reverse_false`). -/
theorem C41_options_partial {α : Type} {t : Target} {fs : FS} {opts : List Spec.Opt} {args : List Path} (h : Spec.CmdLine t opts args)
    {files : List Path} {last : Path} (hl : Spec.files opts = files ++ [last]) (hf : ∀ f ∈ Spec.files opts, fs f ≠ none) (hs : (Spec.searches opts).length ≤ 1)
    (dir : Path → Path) (hd : ∀ p, Inc.Spec.IsDir (dir p) p) (body : Tab → Option Path → Option Path → Prog α) :
    ∃ tab : Tab, (∀ n e, tab n = e ↔ Spec.Means (initTab t) opts n e) ∧
      main t fs args body = Inc.Spec.run (Spec.emptied (Spec.outputs opts) fs) dir (body tab (Spec.searches opts).head? (Spec.outputs opts).getLast?)
        ⟨Spec.joined (Spec.emptied (Spec.outputs opts) fs) (last :: files.reverse), last, 1⟩ := by
  refine ⟨(applyAll (start t fs) opts).tab, fun n e => ⟨fun h => ?_, fun h => means_unique (tab_all opts (start t fs) n) h⟩, ?_⟩
  · rw [← h]; exact tab_all opts (start t fs) n
  · rw [main_eq h hf hs, if_neg, run_eq hd (hl ▸ holds_all t fs opts) (fs := Spec.emptied (Spec.outputs opts) fs) (fs_all opts _)]
    have := (holds_all t fs opts).paths
    rw [hl, List.reverse_append] at this
    intro e; rw [e] at this; cases this

/-- The value of `-D` can be read off: the text behind `-D` determines name and value. -/
theorem C41_define_unique {s : List Nat} {n n' : Name} {v v' : Val} (h : Spec.DefText s n v) (h' : Spec.DefText s n' v') : n = n' ∧ v = v' := by
  have e := (defText_ok h).1
  rw [(defText_ok h').1] at e
  have := Res.ok.inj e
  exact ⟨(congrArg Prod.fst this).symm, (congrArg Prod.snd this).symm⟩

/-- **C41, order.** Two command lines with the same source files, the same meaning for every name, the same search path and the same outputs are the same to the compiler, whatever their order and spelling. -/
theorem C41_order {α : Type} {t : Target} {fs : FS} {opts opts' : List Spec.Opt} {args args' : List Path} (h : Spec.CmdLine t opts args) (h' : Spec.CmdLine t opts' args')
    (h1 : Spec.files opts = Spec.files opts') (h2 : ∀ n e, Spec.Means (initTab t) opts n e ↔ Spec.Means (initTab t) opts' n e) (h3 : Spec.searches opts = Spec.searches opts')
    (h4 : Spec.outputs opts = Spec.outputs opts') (hf : ∀ f ∈ Spec.files opts, fs f ≠ none) (hs : (Spec.searches opts).length ≤ 1)
    (body : Tab → Option Path → Option Path → Prog α) : main t fs args body = main t fs args' body := by
  rcases List.eq_nil_or_concat (Spec.files opts) with he | ⟨files, last, he⟩
  · rw [main_eq h hf hs, main_eq h' (h1 ▸ hf) (h3 ▸ hs), if_pos, if_pos]
    · have := (holds_all t fs opts').paths
      rw [← h1, he] at this; exact List.map_eq_nil_iff.1 this
    · have := (holds_all t fs opts).paths
      rw [he] at this; exact List.map_eq_nil_iff.1 this
  · obtain ⟨tab, ht, e⟩ := C41_options_partial h (by simpa using he) hf hs file_parent_directory parent_isDir body
    obtain ⟨tab', ht', e'⟩ := C41_options_partial h' (files := files) (last := last) (by rw [← h1]; simpa using he) (h1 ▸ hf) (h3 ▸ hs) file_parent_directory parent_isDir body
    have : tab = tab' := funext fun n => (ht n _).2 ((h2 n _).2 ((ht' n _).1 rfl))
    rw [e, e', this, h3, h4]

/-- **C41, errors.** Without a source file the compiler stops with an error. -/
theorem C41_no_file {α : Type} {t : Target} {fs : FS} {opts : List Spec.Opt} {args : List Path} (h : Spec.CmdLine t opts args) (hn : Spec.files opts = [])
    (hs : (Spec.searches opts).length ≤ 1) (body : Tab → Option Path → Option Path → Prog α) : main t fs args body = .fatal := by
  rw [main_eq h (by simp [hn]) hs, if_pos]
  have := (holds_all t fs opts).paths
  rw [hn] at this; exact List.map_eq_nil_iff.1 this

/-- **C41, errors.** At an argument that is not an option (an unknown letter, `-` alone, `-o` for `pnut-sh`), a second `-I`, a source file that does not exist and a `-D` with a value that is not one of the
supported ones, the compiler stops with an error, whatever follows. -/
theorem C41_refused {α : Type} {t : Target} {fs : FS} {opts : List Spec.Opt} {args rest : List Path} (h : Spec.CmdLine t opts args) (hf : ∀ f ∈ Spec.files opts, fs f ≠ none)
    (hs : (Spec.searches opts).length ≤ 1) (hr : Spec.Refused t fs opts rest) (body : Tab → Option Path → Option Path → Prog α) : main t fs (args ++ rest) body = .fatal := by
  rw [main, cmdLine_ok h _ (canAll hf hs)]
  generalize hst : applyAll (start t fs) opts = st
  have sh_false : t ≠ .sh → (t == Target.sh) = false := by intro h; cases t <;> simp_all
  suffices options (t == .sh) rest st = .fatal by rw [this]; rfl
  cases hr with
  | dash => exact options_fatal fun next _ => rfl
  | @letter c s rest hc =>
    simp at hc
    refine options_fatal fun next _ => ?_
    show flag _ _ _ _ _ = _
    rw [flag, if_neg (by omega), if_neg (by omega), if_neg (by omega), if_neg (by omega), if_neg (by omega)]
  | output ht =>
    subst ht
    refine options_fatal fun next _ => ?_
    show flag true _ _ _ _ = _
    rw [flag, if_neg (by simp), if_neg (by simp), if_neg (by simp), if_neg (by simp), if_neg (by simp)]
  | search hse =>
    refine options_fatal fun next _ => ?_
    show flag _ _ _ _ _ = _
    rw [flag, if_neg (by omega), if_neg (by omega), if_neg (by omega), if_neg (by omega), if_pos rfl, if_pos]
    rw [← hst, search_all _ _ rfl hs]
    intro e
    exact hse (List.head?_eq_none_iff.1 e)
  | @file f rest h1 h2 h3 =>
    refine options_fatal fun next _ => ?_
    have : st.fs f = none := by rw [← hst, fs_all, Spec.emptied, if_neg h2]; exact h3
    rw [option_file h1, include_file.eq_def]
    dsimp only [source_path]
    rw [this]
    rfl
  | value ht hn h1 h2 ha =>
    rw [sh_false ht]
    refine attach_fatal ha (fun opnd next used ho => ?_) _
    show flag _ _ _ _ _ = _
    rw [flag, if_neg (by omega), if_pos (by simp), ho]
    dsimp only
    rw [handle_macro_D, splitEq_eq hn]
    dsimp only
    rw [if_neg h1, if_neg h2]
    rfl
  | @number n s k c r as rest ht hn hd hk hc ha =>
    rw [sh_false ht]
    refine attach_fatal ha (fun opnd next used ho => ?_) _
    show flag _ _ _ _ _ = _
    rw [flag, if_neg (by omega), if_pos (by simp), ho]
    dsimp only
    have hap := decimal_append hd hk (c :: r)
    obtain ⟨c', t', rfl, hc'⟩ := decimal_cons hd
    rw [handle_macro_D, splitEq_eq hn]
    dsimp only [List.cons_append]
    rw [if_neg (by omega), if_pos hc']
    rw [List.cons_append] at hap
    rw [hap, decimal, if_neg hc]
    rfl
  | unterminated ht hn h1 ha =>
    rw [sh_false ht]
    refine attach_fatal ha (fun opnd next used ho => ?_) _
    show flag _ _ _ _ _ = _
    rw [flag, if_neg (by omega), if_pos (by simp), ho]
    dsimp only
    rw [handle_macro_D, splitEq_eq hn]
    dsimp only
    rw [if_pos rfl, untilQuote_none h1]
    rfl

/-! ## C39 -/

theorem run_agree {α : Type} {fs fs' : FS} : ∀ (p : Prog α) (st : Inc.St), (∀ q ∈ Spec.opened fs p st, fs q = fs' q) → run fs p st = run fs' p st := by
  intro p
  induction p with
  | ret a => intro st _; rfl
  | get k ih =>
    intro st h
    rw [Spec.opened] at h
    rw [run, run]
    cases hg : get_ch st with
    | ok x => rw [hg] at h; rw [Res.bind_ok, Res.bind_ok]; exact ih _ _ _ _ h
    | fatal => rfl
    | ub => rfl
    | diverge => rfl
  | inc how name k ih =>
    intro st h
    rw [Spec.opened] at h
    rw [run, run]
    cases hr : relative how st with
    | ok rel =>
      rw [hr] at h
      dsimp only at h
      rw [Res.bind_ok, Res.bind_ok]
      have he : include_file fs' name rel st = include_file fs name rel st := by
        rw [include_file.eq_def, include_file.eq_def, h _ (List.mem_cons_self ..)]
      rw [he]
      cases hi : include_file fs name rel st with
      | ok st' =>
        rw [hi] at h
        rw [Res.bind_ok, Res.bind_ok]
        exact ih _ fun q hq => h q (List.mem_cons_of_mem _ hq)
      | fatal => rfl
      | ub => rfl
      | diverge => rfl
    | fatal => rfl
    | ub => rfl
    | diverge => rfl

/-- The states differ in files outside `P` only. -/
structure Same (P : Path → Prop) (st st' : St) : Prop where
  tab : st.tab = st'.tab
  search : st.search = st'.search
  out : st.out = st'.out
  inc : st.inc = st'.inc
  fs : ∀ p, P p → st.fs p = st'.fs p

/-- Related results. -/
def SameRes (P : Path → Prop) : Res St → Res St → Prop
  | .ok st, .ok st' => Same P st st'
  | .fatal, .fatal => True
  | .ub, .ub => True
  | .diverge, .diverge => True
  | _, _ => False

def SameRes2 (P : Path → Prop) : Res (St × Bool) → Res (St × Bool) → Prop
  | .ok (st, b), .ok (st', b') => Same P st st' ∧ b = b'
  | .fatal, .fatal => True
  | .ub, .ub => True
  | .diverge, .diverge => True
  | _, _ => False

theorem option_same {P : Path → Prop} {sh : Bool} {a : Path} {next : Option Path} {st st' : St} (h : Same P st st') (ha : P a) :
    SameRes2 P (option sh a next st) (option sh a next st') := by
  obtain ⟨tab, search, out, fs, inc⟩ := st
  obtain ⟨tab', search', out', fs', inc'⟩ := st'
  obtain ⟨h1, h2, h3, h4, h5⟩ := h
  dsimp only at h1 h2 h3 h4 h5
  subst h1 h2 h3 h4
  have hflag : ∀ c opnd, SameRes2 P (flag sh c opnd next ⟨tab, search, out, fs, inc⟩) (flag sh c opnd next ⟨tab, search, out, fs', inc⟩) := by
    intro c opnd
    rw [flag, flag]
    split
    · cases operand opnd next with
      | none => trivial
      | some x =>
        refine ⟨⟨rfl, rfl, rfl, rfl, fun p hp => ?_⟩, rfl⟩
        show (if _ then _ else _) = (if _ then _ else _)
        dsimp only
        rw [h5 p hp]
    split
    · cases operand opnd next with
      | none => trivial
      | some x =>
        dsimp only
        cases handle_macro_D x.1 with
        | ok y => exact ⟨⟨rfl, rfl, rfl, rfl, h5⟩, rfl⟩
        | fatal => trivial
        | ub => trivial
        | diverge => trivial
    split
    · exact ⟨⟨rfl, rfl, rfl, rfl, h5⟩, rfl⟩
    split
    · cases operand opnd next with
      | none => trivial
      | some x => exact ⟨⟨rfl, rfl, rfl, rfl, h5⟩, rfl⟩
    split
    · dsimp only
      split
      · trivial
      · cases operand opnd next with
        | none => exact ⟨⟨rfl, rfl, rfl, rfl, h5⟩, rfl⟩
        | some x => exact ⟨⟨rfl, rfl, rfl, rfl, h5⟩, rfl⟩
    · trivial
  rw [option.eq_def, option.eq_def]
  split
  · trivial
  · exact hflag _ _
  · dsimp only
    have : include_file fs' a none inc = include_file fs a none inc := by
      rw [include_file.eq_def, include_file.eq_def]; dsimp only [source_path]; rw [h5 a ha]
    rw [this]
    cases include_file fs a none inc with
    | ok x => exact ⟨⟨rfl, rfl, rfl, rfl, h5⟩, rfl⟩
    | fatal => trivial
    | ub => trivial
    | diverge => trivial

theorem options_same {P : Path → Prop} {sh : Bool} : ∀ (args : List Path) {st st' : St}, Same P st st' → (∀ a ∈ args, P a) → SameRes P (options sh args st) (options sh args st')
  | [], _, _, h, _ => h
  | [a], st, st', h, ha => by
    have := option_same (sh := sh) (next := none) h (ha a (by simp))
    rw [options, options]
    cases h1 : option sh a none st <;> cases h2 : option sh a none st' <;> rw [h1, h2] at this <;> first | exact this.1 | exact this
  | a :: b :: rest, st, st', h, ha => by
    have := option_same (sh := sh) (next := some b) h (ha a (by simp))
    rw [options, options]
    cases h1 : option sh a (some b) st with
    | ok x =>
      cases h2 : option sh a (some b) st' with
      | ok y =>
        rw [h1, h2] at this
        obtain ⟨x1, x2⟩ := x
        obtain ⟨y1, y2⟩ := y
        obtain ⟨hs, e⟩ := this
        subst e
        rw [Res.bind_ok, Res.bind_ok]
        dsimp only
        split
        · exact options_same rest hs fun q hq => ha q (by simp [hq])
        · exact options_same (b :: rest) hs fun q hq => ha q (List.mem_cons_of_mem _ hq)
      | _ => rw [h1, h2] at this; exact this.elim
    | fatal => cases h2 : option sh a (some b) st' <;> rw [h1, h2] at this <;> first | trivial | exact this.elim
    | ub => cases h2 : option sh a (some b) st' <;> rw [h1, h2] at this <;> first | trivial | exact this.elim
    | diverge => cases h2 : option sh a (some b) st' <;> rw [h1, h2] at this <;> first | trivial | exact this.elim

/-- **C39.** Whatever the rest of the compiler is (as long as it reads its input through the include stack): its result depends on the arguments and on the content of the files that are named on the command line or that an `#include`
names in that run. Two file systems that agree on those give the same result; no other file, and no other part of the environment, is looked at. `_partial`: that the rest of the compiler has no other input is
how it is modelled (a `Prog`), not proved from its source. -/
theorem C39_partial {α : Type} {t : Target} {fs fs' : FS} {args : List Path} {body : Tab → Option Path → Option Path → Prog α}
    (h : ∀ p, p ∈ args ∨ p ∈ Spec.included t fs args body → fs p = fs' p) : main t fs args body = main t fs' args body := by
  have hs := options_same (P := fun p => p ∈ args ∨ p ∈ Spec.included t fs args body) (sh := t == .sh) args
    (st := start t fs) (st' := start t fs') ⟨rfl, rfl, rfl, rfl, h⟩ fun a ha => .inl ha
  rw [main, main]
  cases h1 : options (t == .sh) args (start t fs) with
  | ok st =>
    cases h2 : options (t == .sh) args (start t fs') with
    | ok st' =>
      rw [h1, h2] at hs
      obtain ⟨e1, e2, e3, e4, e5⟩ := hs
      rw [Res.bind_ok, Res.bind_ok, ← e1, ← e2, ← e3, ← e4]
      split
      · rfl
      · refine run_agree _ _ fun q hq => e5 q (.inr ?_)
        rw [Spec.included, h1]; exact hq
    | _ => rw [h1, h2] at hs; exact hs.elim
  | fatal => cases h2 : options (t == .sh) args (start t fs') <;> rw [h1, h2] at hs <;> first | rfl | exact hs.elim
  | ub => cases h2 : options (t == .sh) args (start t fs') <;> rw [h1, h2] at hs <;> first | rfl | exact hs.elim
  | diverge => cases h2 : options (t == .sh) args (start t fs') <;> rw [h1, h2] at hs <;> first | rfl | exact hs.elim

/-! ## Concrete cases -/

theorem cW {o : Spec.Opt} {os : List Spec.Opt} {a as : List Path} (h : Spec.Written o a) (h' : Spec.Line Spec.Written os as) : Spec.Line Spec.Written (o :: os) (a ++ as) := .cons h h'
theorem cS {o : Spec.Opt} {os : List Spec.Opt} {a as : List Path} (h : Spec.WrittenSh o a) (h' : Spec.Line Spec.WrittenSh os as) : Spec.Line Spec.WrittenSh (o :: os) (a ++ as) := .cons h h'

/-- `a` is `A`, `b` is `B`, `d/f` is `F`. -/
def exFs : FS := fun p => if p = [97] then some [65] else if p = [98] then some [66] else if p = [100, 47, 102] then some [70] else none

/-- `-DX=5 a -I d/ -UY b -o c -DX="s"`. -/
def exOpts : List Spec.Opt := [.define [88] (.int 5), .file [97], .search [100, 47], .undef [89], .file [98], .output [99], .define [88] (.str [115])]
def exArgs : List Path := [[45, 68, 88, 61, 53], [97], [45, 73], [100, 47], [45, 85, 89], [98], [45, 111], [99], [45, 68, 88, 61, 34, 115, 34]]

theorem ex_line : Spec.CmdLine .x64 exOpts exArgs := by
  rw [Spec.CmdLine, if_neg (by simp)]
  refine cW (.define (.int (n := [88]) (s := [53]) (by simp) (by simp) (.one (d := 5) (by simp)) (by simp) (by omega)) (.one (by simp))) ?_
  refine cW (.file (by simp)) ?_
  refine cW (.search .two) ?_
  refine cW (.undef (.one (by simp))) ?_
  refine cW (.file (by simp)) ?_
  refine cW (.output .two) ?_
  exact cW (.define (.str (n := [88]) (s := [115]) (by simp) (by simp) (by simp) (by simp)) (.one (by simp))) .nil

example : (Spec.files exOpts = [[97]] ++ [[98]]) ∧ (∀ f ∈ Spec.files exOpts, exFs f ≠ none) ∧ (Spec.searches exOpts).length ≤ 1 := by decide
example : Spec.Means (initTab .x64) exOpts [88] (.macro (.str [115])) := .inl ⟨exOpts.take 6, .define [88] (.str [115]), [], rfl, rfl, by simp⟩

/-- Three characters, the meaning of `X`, the search path and the output. -/
def exBody (tab : Tab) (search out : Option Path) : Prog (List (Option Nat) × Entry × Option Path × Option Path) :=
  .get fun a _ _ => .get fun b _ _ => .get fun c _ _ => .ret ([a, b, c], tab [88], search, out)

example : main .x64 exFs exArgs exBody = .ok ([some 66, some 10, some 65], .macro (.str [115]), some [100, 47], some [99]) := by decide +kernel

/-- `pnut-sh -DX -U Y a`. -/
example : Spec.CmdLine .sh [.define [88] (.int 1), .undef [89], .file [97]] [[45, 68, 88], [45, 85], [89], [97]] := by
  rw [Spec.CmdLine, if_pos rfl]
  exact cS (.define (by simp) (by simp)) (cS (.undef .two) (cS (.file (by simp)) .nil))

/-- `-DX=1 a` and `a -D X`. -/
example (body : Tab → Option Path → Option Path → Prog Nat) : main .i386 exFs [[45, 68, 88, 61, 49], [97]] body = main .i386 exFs [[97], [45, 68], [88]] body := by
  refine C41_order (opts := [.define [88] (.int 1), .file [97]]) (opts' := [.file [97], .define [88] (.int 1)]) ?_ ?_ rfl ?_ rfl rfl (by decide) (by decide) body
  · rw [Spec.CmdLine, if_neg (by simp)]
    exact cW (.define (.int (n := [88]) (s := [49]) (by simp) (by simp) (.one (d := 1) (by simp)) (by simp) (by omega)) (.one (by simp))) (cW (.file (by simp)) .nil)
  · rw [Spec.CmdLine, if_neg (by simp)]
    exact cW (.file (by simp)) (cW (.define (.one (by simp) (by simp)) .two) .nil)
  · intro n e
    have key : ∀ opts, (opts = [Spec.Opt.define [88] (.int 1), .file [97]] ∨ opts = [Spec.Opt.file [97], .define [88] (.int 1)]) →
        Spec.Means (initTab .i386) opts n (if n = [88] then .macro (.int 1) else initTab .i386 n) := by
      intro opts ho
      by_cases hn : n = [88]
      · subst hn
        rcases ho with rfl | rfl
        · exact .inl ⟨[], _, _, rfl, rfl, by simp [Spec.says]⟩
        · exact .inl ⟨[.file [97]], _, [], rfl, rfl, by simp⟩
      · refine .inr ⟨?_, by rw [if_neg hn]⟩
        rcases ho with rfl | rfl <;> simp [Spec.says, Ne.symm hn]
    constructor
    · intro h; rw [means_unique h (key _ (.inl rfl))]; exact key _ (.inr rfl)
    · intro h; rw [means_unique h (key _ (.inr rfl))]; exact key _ (.inl rfl)

/-- `-DX=-1`, `-DX=0x10` and `-DX=abc` are refused; so are `-q` and a missing file. -/
example (body : Tab → Option Path → Option Path → Prog Nat) : ∀ a ∈ ([[45, 68, 88, 61, 45, 49], [45, 68, 88, 61, 48, 120, 49, 48], [45, 68, 88, 61, 97, 98, 99], [45, 113], [113]] : List Path),
    main .x64 exFs [[97], a] body = .fatal := by
  have key : ∀ a, Spec.Refused .x64 exFs [.file [97]] [a] → main .x64 exFs [[97], a] body = .fatal := fun a h =>
    C41_refused (opts := [.file [97]]) (args := [[97]]) (by rw [Spec.CmdLine, if_neg (by simp)]; exact cW (.file (by simp)) .nil) (by decide) (by decide) h body
  intro a ha
  simp at ha
  rcases ha with rfl | rfl | rfl | rfl | rfl
  · exact key _ (.value (n := [88]) (rest := []) (by simp) (by simp) (by simp) (by simp) (.one (by simp)))
  · exact key _ (.number (n := [88]) (s := [48]) (rest := []) (by simp) (by simp) (.one (d := 0) (by simp)) (by omega) (by simp) (.one (by simp)))
  · exact key _ (.value (n := [88]) (rest := []) (by simp) (by simp) (by simp) (by simp) (.one (by simp)))
  · exact key _ (.letter (by simp))
  · exact key _ (.file (by simp) (by simp [Spec.outputs]) rfl)

/-- C39: another file system, that differs in a file that is not read. -/
example (body : Tab → Option Path → Option Path → Prog Nat) (h : ∀ p ∈ Spec.included .x64 exFs [[97]] body, p ≠ [98]) :
    main .x64 exFs [[97]] body = main .x64 (fun p => if p = [98] then none else exFs p) [[97]] body := by
  refine C39_partial fun p hp => ?_
  have : p ≠ [98] := by
    rcases hp with hp | hp
    · simp at hp; subst hp; simp
    · exact h p hp
  rw [if_neg this]

/-! ## Where pnut departs from other compilers -/

/-- What a name is. -/
def look (n : Name) (tab : Tab) (_ _ : Option Path) : Prog Entry := .ret (tab n)

/-- `pnut a b` reads `b` first. -/
theorem C41_reverse_false : main .x64 exFs [[97], [98]] (fun _ _ _ => .get fun c _ _ => .ret c) = .ok (some 66) := by decide +kernel

/-- `-DX=010` is 10; the C constant is 8. -/
theorem C41_octal_false : main .x64 exFs [[45, 68, 88, 61, 48, 49, 48], [97]] (look [88]) = .ok (.macro (.int 10)) := by decide +kernel

/-- `-DX="\n"` is a backslash and an `n`; the C string literal is a newline. -/
theorem C41_escape_false : main .x64 exFs [[45, 68, 88, 61, 34, 92, 110, 34], [97]] (look [88]) = .ok (.macro (.str [92, 110])) := by decide +kernel

/-- `-DX="s"+1` is the string `s`: what follows the string is dropped without a word. -/
theorem C41_junk_false : main .x64 exFs [[45, 68, 88, 61, 34, 115, 34, 43, 49], [97]] (look [88]) = .ok (.macro (.str [115])) := by decide +kernel

/-- `-DX=2147483648` is undefined behaviour, not an error. -/
theorem C41_overflow_false : main .x64 exFs [[45, 68, 88, 61, 50, 49, 52, 55, 52, 56, 51, 54, 52, 56], [97]] (look [88]) = .ub := by decide +kernel

/-- `-Uif` makes an identifier of the keyword `if`. -/
theorem C41_keyword_false : main .x64 exFs [[45, 85, 105, 102], [97]] (look [105, 102]) = .ok .ident := by decide +kernel

/-- `pnut-sh -DX=5` defines a macro with the name `X=5`, and not `X`. -/
theorem C41_sh_value_false : main .sh exFs [[45, 68, 88, 61, 53], [97]] (look [88]) = .ok .ident ∧
    main .sh exFs [[45, 68, 88, 61, 53], [97]] (look [88, 61, 53]) = .ok (.macro (.int 1)) := by decide +kernel

/-- `pnut-sh -D X a` defines a macro with no name, and takes `X` for a file. -/
theorem C41_sh_detached_false : main .sh exFs [[45, 68], [88], [97]] (look [88]) = .fatal ∧ main .sh exFs [[45, 68], [97]] (look []) = .ok (.macro (.int 1)) := by decide +kernel

/-- `pnut a -I` is accepted, and `pnut a -D` is undefined behaviour (`argv[argc]` is dereferenced). -/
theorem C41_missing_operand_false : main .x64 exFs [[97], [45, 73]] (look [88]) = .ok .ident ∧ main .x64 exFs [[97], [45, 68]] (look [88]) = .ub := by decide +kernel

/-- A compiler that includes `<f>`. -/
def angleF (_ : Tab) (search _ : Option Path) : Prog (Option Nat) :=
  match search with
  | none => .ret none
  | some d => .inc (.angle d) [102] (.get fun c _ _ => .ret c)

/-- `-Id` does not find `d/f` for `#include <f>`: it opens `df`. With `-Id/` it is found. -/
theorem C41_slash_false : main .x64 exFs [[45, 73, 100], [97]] angleF = .fatal ∧ main .x64 exFs [[45, 73, 100, 47], [97]] angleF = .ok (some 70) := by decide +kernel

end Verif.Cli
