import Verif.Parse.Spec
/-! Helper lemmas for the expression parser. -/
namespace Verif.Parse
open Verif Spec

/-! ### Fuel monotonicity -/

def le (o o' : Out) : Prop := o = .diverge ∨ o = o'

theorem le_refl (o : Out) : le o o := Or.inr rfl

theorem bind_le {o o' : Out} {f f' : E × List Tok → Out} (h : le o o')
    (hf : ∀ a, le (f a) (f' a)) : le (o.bind f) (o'.bind f') := by
  rcases h with h | h
  · left; rw [h]; rfl
  · subst h
    cases o with
    | ok a => exact hf a
    | _ => exact Or.inr rfl

theorem bind_le' {o : Res (List Tok)} {f f' : List Tok → Out}
    (hf : ∀ a, le (f a) (f' a)) : le (o.bind f) (o.bind f') := by
  cases o with
  | ok a => exact hf a
  | _ => exact Or.inr rfl

theorem step_mono {rec rec' : Call → List Tok → Out} (h : ∀ c ts, le (rec c ts) (rec' c ts))
    (c : Call) (ts : List Tok) : le (step rec c ts) (step rec' c ts) := by
  unfold step
  repeat' first
    | exact h _ _
    | exact le_refl _
    | apply bind_le
    | apply bind_le'
    | intro _
    | split

theorem run_le (n : Nat) : ∀ c ts, le (run n c ts) (run (n + 1) c ts) := by
  induction n with
  | zero => intro c ts; left; rfl
  | succ n ih => exact step_mono ih

theorem run_mono {n m : Nat} (hnm : n ≤ m) {c ts r} (h : run n c ts = .ok r) :
    run m c ts = .ok r := by
  induction hnm with
  | refl => exact h
  | step _ ih =>
    rcases run_le _ c ts with h' | h'
    · rw [h'] at ih; cases ih
    · rw [← h', ih]

theorem run_mono_ne {n m : Nat} (hnm : n ≤ m) {c ts} (h : run n c ts ≠ .diverge) :
    run m c ts = run n c ts := by
  induction hnm with
  | refl => rfl
  | step _ ih =>
    rcases run_le _ c ts with h' | h'
    · rw [ih] at h'; exact absurd h' h
    · rw [← h', ih]

/-- The call returns `r` (with some call depth). -/
def Ev (c : Call) (ts : List Tok) (r : E × List Tok) : Prop := ∃ n, run n c ts = .ok r

theorem ev_det {c ts r r'} (h : Ev c ts r) (h' : Ev c ts r') : r = r' := by
  obtain ⟨n, h⟩ := h
  obtain ⟨m, h'⟩ := h'
  have a := run_mono (Nat.le_max_left n m) h
  have b := run_mono (Nat.le_max_right n m) h'
  rw [a] at b; exact Res.ok.inj b

/-- Build an `Ev` from one unfolding. -/
theorem ev_step {c ts r} (n : Nat) (h : step (run n) c ts = .ok r) : Ev c ts r := ⟨n + 1, h⟩

theorem Ev.two {c ts r c' ts' r'} (h : Ev c ts r) (h' : Ev c' ts' r') :
    ∃ n, run n c ts = .ok r ∧ run n c' ts' = .ok r' := by
  obtain ⟨n, h⟩ := h
  obtain ⟨m, h'⟩ := h'
  exact ⟨max n m, run_mono (Nat.le_max_left n m) h, run_mono (Nat.le_max_right n m) h'⟩

theorem Ev.three {c ts r c' ts' r' c2 ts2 r2} (h : Ev c ts r) (h' : Ev c' ts' r') (h2 : Ev c2 ts2 r2) :
    ∃ n, run n c ts = .ok r ∧ run n c' ts' = .ok r' ∧ run n c2 ts2 = .ok r2 := by
  obtain ⟨n, h, h'⟩ := Ev.two h h'
  obtain ⟨m, h2⟩ := h2
  exact ⟨max n m, run_mono (Nat.le_max_left n m) h, run_mono (Nat.le_max_left n m) h',
    run_mono (Nat.le_max_right n m) h2⟩

/-! ### Which tokens continue an expression -/

/-- The loosest level at which a token can continue an expression; 100 if it never does. -/
def contLevel : Tok → Nat
  | .str _ => 0
  | .p q => match q with
    | .lpar | .lbrk | .dot | .arrow | .incr | .decr => 0
    | .star | .slash | .percent => 1
    | .plus | .minus => 2
    | .shl | .shr => 3
    | .lt | .gt | .le | .ge => 4
    | .eqeq | .ne => 5
    | .amp => 6
    | .caret => 7
    | .bar => 8
    | .andand => 9
    | .oror => 10
    | .quest => 11
    | .eq | .pluseq | .minuseq | .stareq | .slasheq | .percenteq | .shleq | .shreq | .ampeq
    | .careteq | .bareq => 12
    | .comma => 13
    | _ => 100
  | _ => 100

def stop (k : Nat) : List Tok → Prop
  | [] => True
  | t :: _ => k < contLevel t

def notStr : List Tok → Prop
  | .str _ :: _ => False
  | _ => True

theorem stop_le {j k : Nat} (h : j ≤ k) {ts} (hs : stop k ts) : stop j ts := by
  cases ts with
  | nil => trivial
  | cons t _ => exact Nat.lt_of_le_of_lt h hs

theorem notStr_of_stop {k ts} (h : stop k ts) : notStr ts := by
  cases ts with
  | nil => trivial
  | cons t _ => cases t <;> first | trivial | (simp [stop, contLevel] at h)

theorem isLevelOp_level {k q} (h : isLevelOp k q = true) : contLevel (.p q) = k := by
  unfold isLevelOp at h
  split at h <;> simp at h <;>
    first | (rcases h with ((h | h) | h) | h <;> subst h <;> rfl)
          | (rcases h with (h | h) | h <;> subst h <;> rfl)
          | (rcases h with h | h <;> subst h <;> rfl)
          | (subst h; rfl)

theorem isoOps_isLevelOp {k q} (h : q ∈ isoOps k) : isLevelOp k q = true := by
  unfold isoOps at h
  split at h <;> simp at h <;> unfold isLevelOp <;>
    first | (rcases h with h | h | h | h <;> subst h <;> rfl)
          | (rcases h with h | h | h <;> subst h <;> rfl)
          | (rcases h with h | h <;> subst h <;> rfl)
          | (subst h; rfl)

theorem isLevelOp_isoOps {k q} (h : isLevelOp k q = true) : q ∈ isoOps k := by
  unfold isLevelOp at h
  split at h <;> simp at h <;> unfold isoOps <;>
    first | (rcases h with ((h | h) | h) | h <;> subst h <;> decide)
          | (rcases h with (h | h) | h <;> subst h <;> decide)
          | (rcases h with h | h <;> subst h <;> decide)
          | (subst h; decide)

theorem isoAssign_iff {q} : q ∈ isoAssign ↔ isAssignOp q = true := by
  cases q <;> decide

theorem isoUnary_iff {q} : q ∈ isoUnary ↔ isUnaryOp q = true := by
  cases q <;> decide

theorem assign_level {q} (h : isAssignOp q = true) : contLevel (.p q) = 12 := by
  cases q <;> first | rfl | (exact absurd h (by decide))

/-! ### Completeness -/

theorem commaSnoc_of_ne {e c : E} (h : ∀ a b, e ≠ .comma a b) : commaSnoc e c = .comma e c := by
  cases e <;> first | rfl | exact absurd rfl (h _ _)

theorem D_not_comma {rx nt ts e} (h : D rx nt ts e) (hn : nt ≠ .expr) : ∀ a b, e ≠ .comma a b := by
  induction h with
  | comma => exact absurd rfl hn
  | ofAssign => exact absurd rfl hn
  | ofPrimary _ ih | ofPostfix _ ih | ofUnary _ ih | ofLor _ ih | ofCond _ ih => exact ih (by simp)
  | ofLower _ _ ih => exact ih (by simp)
  | @args _ l _ _ _ _ _ _ => intro a b; cases l <;> simp [argSnoc]
  | _ => intro a b; simp

/-- An argument chain. -/
def isChain : E → Prop
  | .list _ tl => isChain tl
  | .nil => True
  | _ => False

def argApp : E → E → E
  | .list a b, c => .list a (argApp b c)
  | _, c => c

theorem argApp_snoc {l a c : E} : argApp (argSnoc l a) c = argApp l (.list a c) := by
  fun_induction argSnoc l a <;> simp_all [argApp]

theorem argSnoc_eq {l a} (h : isChain l) : argSnoc l a = argApp l (.list a .nil) := by
  fun_induction argSnoc l a <;> simp_all [argApp, isChain]

theorem isChain_snoc {l a} (h : isChain l) : isChain (argSnoc l a) := by
  fun_induction argSnoc l a <;> simp_all [argApp, isChain]

theorem commaSnoc_assoc {a b c : E} (hb : ∀ x y, b ≠ .comma x y) :
    commaSnoc (commaSnoc a b) c = commaSnoc a (.comma b c) := by
  fun_induction commaSnoc a b <;> simp_all [commaSnoc, commaSnoc_of_ne]

theorem moreStrs_of_notStr {ts} (h : notStr ts) : moreStrs ts = ([], ts) := by
  cases ts with
  | nil => rfl
  | cons t r => cases t <;> first | rfl | exact h.elim

theorem moreStrs_strs {ts s rest} (h : Strs ts s) (hn : notStr rest) :
    moreStrs (ts ++ rest) = (s, rest) := by
  induction h with
  | one s => simp [moreStrs, moreStrs_of_notStr hn]
  | more s ts s' _ ih => simp [moreStrs, ih]

/-- What completeness means for each nonterminal; left-recursive ones are stated with the
continuation of the loop. -/
def Goal : NT → List Tok → E → Prop
  | .primary, ts, e => ∀ rest, notStr rest → Ev .primary (ts ++ rest) (e, rest)
  | .postfix, ts, e => ∀ rest r, notStr rest → Ev (.postLoop e) rest r → Ev .postfix (ts ++ rest) r
  | .unary, ts, e => ∀ rest, stop 0 rest → Ev .unary (ts ++ rest) (e, rest)
  | .bin 0, ts, e => ∀ rest, stop 0 rest → Ev .cast (ts ++ rest) (e, rest)
  | .bin (k + 1), ts, e => ∀ rest r, stop k rest → Ev (.binLoop (k + 1) e) rest r →
      Ev (.bin (k + 1)) (ts ++ rest) r
  | .cond, ts, e => ∀ rest, stop 11 rest → Ev .cond (ts ++ rest) (e, rest)
  | .assign, ts, e => ∀ rest, stop 12 rest → Ev .assign (ts ++ rest) (e, rest)
  | .expr, ts, e =>
    (∀ rest, stop 13 rest → Ev .comma (ts ++ rest) (e, rest)) ∧
    (∀ rest c rest', Ev .comma rest (c, rest') →
      Ev .comma (ts ++ .p .comma :: rest) (commaSnoc e c, rest'))
  | .args, ts, l => isChain l ∧
    (∀ rest, stop 13 rest → Ev .params (ts ++ rest) (l, rest)) ∧
    (∀ rest c rest', Ev .params rest (c, rest') →
      Ev .params (ts ++ .p .comma :: rest) (argApp l c, rest'))

theorem ev_postLoop_stop {e rest} (h : stop 0 rest) : Ev (.postLoop e) rest (e, rest) := by
  refine ev_step 0 ?_
  cases rest with
  | nil => rfl
  | cons t r =>
    cases t with
    | p q => cases q <;> first | rfl | (simp [stop, contLevel] at h)
    | _ => rfl

theorem ev_binLoop_stop {k e rest} (h : stop k rest) : Ev (.binLoop k e) rest (e, rest) := by
  refine ev_step 0 ?_
  cases rest with
  | nil => rfl
  | cons t r =>
    cases t with
    | p q =>
      simp only [step]
      by_cases hq : isLevelOp k q = true
      · have := isLevelOp_level hq
        simp [stop, this] at h
      · simp [hq]
    | _ => rfl

section
variable {t : Nat} {r : List Tok} {x : E × List Tok}
theorem no_primary_ty (n) : run n .primary (.ty t :: r) ≠ .ok x := by
  cases n <;> simp [run, step]
theorem no_postfix_ty (n) : run n .postfix (.ty t :: r) ≠ .ok x := by
  cases n with
  | zero => simp [run]
  | succ n =>
    intro h
    obtain ⟨_, h1, _⟩ := Res.bind_eq_ok.mp h
    exact no_primary_ty n h1
theorem no_unary_ty (n) : run n .unary (.ty t :: r) ≠ .ok x := by
  cases n with
  | zero => simp [run]
  | succ n => exact no_postfix_ty n
theorem no_cast_ty (n) : run n .cast (.ty t :: r) ≠ .ok x := by
  cases n with
  | zero => simp [run]
  | succ n => exact no_unary_ty n
theorem no_bin_ty (n k) : run n (.bin k) (.ty t :: r) ≠ .ok x := by
  induction k generalizing n x with
  | zero =>
    cases n with
    | zero => simp [run]
    | succ n => exact no_cast_ty n
  | succ k ih =>
    cases n with
    | zero => simp [run]
    | succ n =>
      intro h
      obtain ⟨_, h1, _⟩ := Res.bind_eq_ok.mp h
      exact ih n h1
theorem no_cond_ty (n) : run n .cond (.ty t :: r) ≠ .ok x := by
  cases n with
  | zero => simp [run]
  | succ n =>
    intro h
    obtain ⟨_, h1, _⟩ := Res.bind_eq_ok.mp h
    exact no_bin_ty n _ h1
theorem no_assign_ty (n) : run n .assign (.ty t :: r) ≠ .ok x := by
  cases n with
  | zero => simp [run]
  | succ n =>
    intro h
    obtain ⟨_, h1, _⟩ := Res.bind_eq_ok.mp h
    exact no_cond_ty n h1
theorem no_comma_ty (n) : run n .comma (.ty t :: r) ≠ .ok x := by
  cases n with
  | zero => simp [run]
  | succ n =>
    intro h
    obtain ⟨_, h1, _⟩ := Res.bind_eq_ok.mp h
    exact no_assign_ty n h1
theorem no_paren_ty (n) : run n .paren (.ty t :: r) ≠ .ok x := by
  cases n with
  | zero => simp [run]
  | succ n =>
    intro h
    obtain ⟨_, h1, _⟩ := Res.bind_eq_ok.mp h
    exact no_comma_ty n h1
end

theorem ev_cast_of_unary {ts r} (h : Ev .unary ts r) : Ev .cast ts r := by
  obtain ⟨n, h⟩ := h
  by_cases hp : ∃ r', ts = .p .lpar :: r'
  · obtain ⟨r', rfl⟩ := hp
    cases n with
    | zero => cases h
    | succ n =>
    simp only [run, step, isUnaryOp] at h
    simp at h
    cases n with
    | zero => cases h
    | succ n =>
    simp only [run, step] at h
    obtain ⟨⟨a, ra⟩, h1, h2⟩ := Res.bind_eq_ok.mp h
    cases n with
    | zero => cases h1
    | succ n =>
    simp only [run, step] at h1
    by_cases ht : ∃ t r'', r' = .ty t :: r''
    · obtain ⟨t, r'', rfl⟩ := ht
      exact absurd h1 (no_paren_ty n)
    · refine ev_step (n + 1) ?_
      simp only [step]
      have : (run (n+1) .paren r') = .ok (a, ra) := run_mono (Nat.le_succ _) h1
      cases r' with
      | nil => simp only [this, Res.bind_ok]; exact h2
      | cons t r'' =>
        cases t with
        | ty t => exact absurd ⟨_, _, rfl⟩ ht
        | _ => simp only [this, Res.bind_ok]; exact h2
  · refine ev_step n ?_
    cases ts with
    | nil => exact h
    | cons t r' =>
      cases t with
      | p q => cases q <;> first | exact h | exact absurd ⟨_, rfl⟩ hp
      | _ => exact h


/-- Tokens that start a unary expression which is not a postfix expression. -/
def unaryStart : Tok → Bool
  | .sizeofKw => true
  | .p .incr | .p .decr => true
  | .p q => isUnaryOp q
  | _ => false

theorem postfix_head {rx ts e} (h : D rx .postfix ts e) :
    ∃ t r, ts = t :: r ∧ unaryStart t = false := by
  have aux : ∀ nt ts e, D rx nt ts e → (nt = .primary ∨ nt = .postfix) →
      ∃ t r, ts = t :: r ∧ unaryStart t = false := by
    intro nt ts e h
    induction h with
    | ident | num | chr | parens => intro _; exact ⟨_, _, rfl, rfl⟩
    | str h => intro _; cases h <;> exact ⟨_, _, rfl, rfl⟩
    | ofPrimary _ ih => intro _; exact ih (Or.inl rfl)
    | index _ _ ih _ | call _ _ ih _ =>
      intro _; obtain ⟨t, r, rfl, ht⟩ := ih (Or.inr rfl); exact ⟨_, _, rfl, ht⟩
    | call0 _ ih | member _ _ ih | arrow _ _ ih | postinc _ ih | postdec _ ih =>
      intro _; obtain ⟨t, r, rfl, ht⟩ := ih (Or.inr rfl); exact ⟨_, _, rfl, ht⟩
    | _ => intro h; simp at h
  exact aux _ _ _ h (Or.inr rfl)

theorem ev_sizeof {ts e rest} (h : Ev .unary ts (e, rest)) :
    Ev .unary (.sizeofKw :: ts) (.sizeofE e, rest) := by
  obtain ⟨n, h⟩ := h
  by_cases hp : ∃ r', ts = .p .lpar :: r'
  · obtain ⟨r', rfl⟩ := hp
    cases n with
    | zero => cases h
    | succ n =>
    simp only [run, step, isUnaryOp] at h
    simp at h
    cases n with
    | zero => cases h
    | succ n =>
    simp only [run, step] at h
    obtain ⟨⟨a, ra⟩, h1, h2⟩ := Res.bind_eq_ok.mp h
    cases n with
    | zero => cases h1
    | succ n =>
    simp only [run, step] at h1
    by_cases ht : ∃ t r'', r' = .ty t :: r''
    · obtain ⟨t, r'', rfl⟩ := ht
      exact absurd h1 (no_paren_ty n)
    · refine ev_step (n + 1) ?_
      simp only [step]
      have : (run (n+1) .paren r') = .ok (a, ra) := run_mono (Nat.le_succ _) h1
      cases r' with
      | nil => simp only [this, Res.bind_ok, h2]
      | cons t r'' =>
        cases t with
        | ty t => exact absurd ⟨_, _, rfl⟩ ht
        | _ => simp only [this, Res.bind_ok, h2]
  · refine ev_step n ?_
    cases ts with
    | nil => simp only [step, h, Res.bind_ok]
    | cons t r' =>
      cases t with
      | p q =>
        by_cases hq : q = .lpar
        · exact absurd ⟨_, by rw [hq]⟩ hp
        · cases q <;> first | exact absurd rfl hq | simp only [step, h, Res.bind_ok]
      | _ => simp only [step, h, Res.bind_ok]

section
variable {r : List Tok} {x : E × List Tok}
theorem no_bin_rpar (n k) : run n (.bin k) (.p .rpar :: r) ≠ .ok x := by
  induction k generalizing n x with
  | zero =>
    intro h
    iterate 4 (cases n with | zero => cases h | succ n => ?_)
    simp only [run, step, isUnaryOp] at h
    simp at h
    obtain ⟨_, h1, _⟩ := Res.bind_eq_ok.mp h
    cases n <;> simp [run, step] at h1
  | succ k ih =>
    cases n with
    | zero => simp [run]
    | succ n =>
      intro h
      obtain ⟨_, h1, _⟩ := Res.bind_eq_ok.mp h
      exact ih n h1
theorem no_params_rpar (n) : run n .params (.p .rpar :: r) ≠ .ok x := by
  intro h
  iterate 3 (cases n with | zero => cases h | succ n => ?_)
  obtain ⟨_, h1, _⟩ := Res.bind_eq_ok.mp h
  obtain ⟨_, h1, _⟩ := Res.bind_eq_ok.mp h1
  obtain ⟨_, h1, _⟩ := Res.bind_eq_ok.mp h1
  exact no_bin_rpar n _ h1
end

theorem fullBin {k ts e rest} (h : Goal (.bin k) ts e) (hs : stop k rest) :
    Ev (.bin k) (ts ++ rest) (e, rest) := by
  cases k with
  | zero =>
    obtain ⟨n, h⟩ := h rest hs
    exact ev_step n h
  | succ k => exact h rest _ (stop_le (Nat.le_succ k) hs) (ev_binLoop_stop hs)

theorem ev_cond_of_bin {ts e rest} (h : Ev (.bin 10) ts (e, rest)) (hs : stop 11 rest) :
    Ev .cond ts (e, rest) := by
  obtain ⟨n, h⟩ := h
  refine ev_step n ?_
  simp only [step, h, Res.bind_ok]
  cases rest with
  | nil => rfl
  | cons t r =>
    cases t with
    | p q => cases q <;> first | rfl | (simp [stop, contLevel] at hs)
    | _ => rfl

theorem ev_assign_of_cond {ts e rest} (h : Ev .cond ts (e, rest)) (hs : stop 12 rest) :
    Ev .assign ts (e, rest) := by
  obtain ⟨n, h⟩ := h
  refine ev_step n ?_
  simp only [step, h, Res.bind_ok]
  cases rest with
  | nil => rfl
  | cons t r =>
    cases t with
    | p q => cases q <;> first | rfl | (simp [stop, contLevel] at hs)
    | _ => rfl

theorem ev_assign_op {ts a q r b rest} (hq : isAssignOp q = true) (h : Ev .cond ts (a, .p q :: r))
    (h' : Ev .assign r (b, rest)) : Ev .assign ts (.assign q a b, rest) := by
  obtain ⟨n, h, h'⟩ := h.two h'
  refine ev_step n ?_
  simp [step, h, h', hq]

theorem goal_of_unary {ts e} (h : Goal .unary ts e) : Goal (.bin 0) ts e :=
  fun rest hs => ev_cast_of_unary (h rest hs)

theorem goal_lift {k ts e} (h : Goal (.bin k) ts e) : Goal (.bin (k + 1)) ts e := by
  intro rest r hs hl
  have h1 := fullBin h hs
  obtain ⟨n, h1, h2⟩ := h1.two hl
  exact ev_step n (by simp [step, h1, h2])

theorem goal_bin10_of_unary {ts e} (h : Goal .unary ts e) : Goal (.bin 10) ts e :=
  goal_lift <| goal_lift <| goal_lift <| goal_lift <| goal_lift <| goal_lift <| goal_lift <|
    goal_lift <| goal_lift <| goal_lift <| goal_of_unary h

/-- A unary expression never starts with `(` followed by a type name. -/
theorem complete {rx nt ts e} (h : D rx nt ts e) : Goal nt ts e := by
  induction h with
  | ident x => intro rest _; exact ev_step 0 rfl
  | num x => intro rest _; exact ev_step 0 rfl
  | chr x => intro rest _; exact ev_step 0 rfl
  | @str ts s hs =>
    intro rest hn
    have := moreStrs_strs hs hn
    refine ev_step 0 ?_
    cases hs with
    | one s => simp [step, moreStrs_of_notStr hn]
    | more s ts s' h =>
      simp [moreStrs] at this
      simp [step, this]
  | @parens ts e _ ih =>
    intro rest hn
    obtain ⟨n, h⟩ := ih.1 (.p .rpar :: rest) (by simp [stop, contLevel])
    refine ev_step (n + 1) ?_
    simp [step, run, h, expect]
  | @ofPrimary ts e _ ih =>
    intro rest r hn hl
    obtain ⟨n, h1, h2⟩ := (ih rest hn).two hl
    exact ev_step n (by simp [step, h1, h2])
  | @index ts a is i _ _ iha ihi =>
    intro rest r hn hl
    rw [List.append_assoc]
    refine iha _ _ (by trivial) ?_
    obtain ⟨n, h1, h2⟩ := (ihi.1 (.p .rbrk :: rest) (by simp [stop, contLevel])).two hl
    exact ev_step n (by simp [step, h1, h2, expect])
  | @call0 ts f _ ih =>
    intro rest r hn hl
    rw [List.append_assoc]
    refine ih _ _ (by trivial) ?_
    obtain ⟨n, hl⟩ := hl
    exact ev_step n (by simp [step, hl])
  | @call ts f as l _ hargs iha ihi =>
    intro rest r hn hl
    rw [List.append_assoc]
    refine iha _ _ (by trivial) ?_
    obtain ⟨n, h1, h2⟩ := (ihi.2.1 (.p .rpar :: rest) (by simp [stop, contLevel])).two hl
    refine ev_step n ?_
    have : ∀ r', as ++ .p .rpar :: rest ≠ .p .rpar :: r' := by
      intro r' he
      rw [he] at h1
      exact absurd h1 (no_params_rpar n)
    simp only [step, List.cons_append, List.append_assoc, List.nil_append]
    simp [h1, h2, expect]
  | @member ts a x _ ih =>
    intro rest r hn hl
    rw [List.append_assoc]
    refine ih _ _ (by trivial) ?_
    obtain ⟨n, hl⟩ := hl
    exact ev_step n (by simp [step, hl])
  | @arrow ts a x _ ih =>
    intro rest r hn hl
    rw [List.append_assoc]
    refine ih _ _ (by trivial) ?_
    obtain ⟨n, hl⟩ := hl
    exact ev_step n (by simp [step, hl])
  | @postinc ts a _ ih =>
    intro rest r hn hl
    rw [List.append_assoc]
    refine ih _ _ (by trivial) ?_
    obtain ⟨n, hl⟩ := hl
    exact ev_step n (by simp [step, hl])
  | @postdec ts a _ ih =>
    intro rest r hn hl
    rw [List.append_assoc]
    refine ih _ _ (by trivial) ?_
    obtain ⟨n, hl⟩ := hl
    exact ev_step n (by simp [step, hl])
  | @arg ts a _ ih =>
    refine ⟨trivial, ?_, ?_⟩
    · intro rest hs
      obtain ⟨n, h⟩ := ih rest (stop_le (by decide) hs)
      refine ev_step n ?_
      simp only [step, h, Res.bind_ok]
      cases rest with
      | nil => rfl
      | cons t r =>
        cases t with
        | p q => cases q <;> first | rfl | (simp [stop, contLevel] at hs)
        | _ => rfl
    · intro rest c rest' hc
      obtain ⟨n, h, h'⟩ := (ih (.p .comma :: rest) (by simp [stop, contLevel])).two hc
      exact ev_step n (by simp [step, h, h', argApp])
  | @args ts l ts' a _ _ ihl iha =>
    refine ⟨isChain_snoc ihl.1, ?_, ?_⟩
    · intro rest hs
      rw [List.append_assoc, argSnoc_eq ihl.1]
      refine ihl.2.2 (ts' ++ rest) _ _ ?_
      obtain ⟨n, h⟩ := iha rest (stop_le (by decide) hs)
      refine ev_step n ?_
      simp only [step, h, Res.bind_ok]
      cases rest with
      | nil => rfl
      | cons t r =>
        cases t with
        | p q => cases q <;> first | rfl | (simp [stop, contLevel] at hs)
        | _ => rfl
    · intro rest c rest' hc
      rw [List.append_assoc, argApp_snoc]
      refine ihl.2.2 (ts' ++ .p .comma :: rest) _ _ ?_
      obtain ⟨n, h, h'⟩ := (iha (.p .comma :: rest) (by simp [stop, contLevel])).two hc
      exact ev_step n (by simp [step, h, h'])
  | @ofPostfix ts e hd ih =>
    intro rest hs
    obtain ⟨n, h⟩ := ih rest _ (notStr_of_stop hs) (ev_postLoop_stop hs)
    refine ev_step n ?_
    obtain ⟨t, r, rfl, ht⟩ := postfix_head hd
    simp only [List.cons_append] at h ⊢
    cases t with
    | p q => cases q <;> first | exact h | (exact absurd ht (by decide))
    | sizeofKw => simp [unaryStart] at ht
    | _ => exact h
  | preinc _ ih =>
    intro rest hs
    obtain ⟨n, h⟩ := ih rest hs
    exact ev_step n (by simp [step, h])
  | predec _ ih =>
    intro rest hs
    obtain ⟨n, h⟩ := ih rest hs
    exact ev_step n (by simp [step, h])
  | @unary ts e q hq _ ih =>
    intro rest hs
    obtain ⟨n, h⟩ := ih rest hs
    refine ev_step n ?_
    rw [isoUnary_iff] at hq
    cases q <;> first | (exact absurd hq (by decide)) | (simp [step, h, isUnaryOp])
  | @sizeofE ts e _ ih =>
    intro rest hs
    exact ev_sizeof (ih rest hs)
  | sizeofT t =>
    intro rest hs
    exact ev_step 0 (by simp [step, expect])
  | ofUnary _ ih => exact goal_of_unary ih
  | cast t _ ih =>
    intro rest hs
    obtain ⟨n, h⟩ := ih rest hs
    exact ev_step n (by simp [step, expect, h])
  | ofLower _ _ ih => exact goal_lift ih
  | @bin k q ts a ts' b hq _ _ iha ihb =>
    have hl := isoOps_isLevelOp hq
    have hc := isLevelOp_level hl
    intro rest r hs hloop
    rw [List.append_assoc]
    refine iha _ _ (by simp [stop, hc]) ?_
    have h1 := fullBin ihb hs
    obtain ⟨n, h1, h2⟩ := h1.two hloop
    exact ev_step n (by simp [step, hl, h1, h2])
  | ofLor _ ih =>
    intro rest hs
    exact ev_cond_of_bin (fullBin ih (stop_le (by decide) hs)) hs
  | @cond tc c ta a tb b _ _ _ ihc iha ihb =>
    intro rest hs
    have h1 := fullBin (rest := .p .quest :: (ta ++ .p .colon :: (tb ++ rest))) ihc (by simp [stop, contLevel])
    obtain ⟨n, h1, h2, h3⟩ := h1.three (iha.1 (.p .colon :: (tb ++ rest)) (by simp [stop, contLevel])) (ihb rest hs)
    exact ev_step n (by simp [step, h1, h2, h3, expect])
  | ofCond _ ih =>
    intro rest hs
    exact ev_assign_of_cond (ih rest (stop_le (by decide) hs)) hs
  | @assign ts a q ts' b hq _ _ iha ihb =>
    intro rest hs
    rw [isoAssign_iff] at hq
    have hl := assign_level hq
    rw [List.append_assoc]
    refine ev_assign_op hq (ev_cond_of_bin (fullBin (goal_bin10_of_unary iha) ?_) ?_) (ihb rest hs)
    · simp [stop, hl]
    · simp [stop, hl]
  | @assignRelaxed ts a q ts' b _ hq _ _ iha ihb =>
    intro rest hs
    rw [isoAssign_iff] at hq
    have hl := assign_level hq
    rw [List.append_assoc]
    refine ev_assign_op hq (iha _ ?_) (ihb rest hs)
    simp [stop, hl]
  | @ofAssign ts e hd ih =>
    refine ⟨?_, ?_⟩
    · intro rest hs
      obtain ⟨n, h⟩ := ih rest (stop_le (by decide) hs)
      refine ev_step n ?_
      simp only [step, h, Res.bind_ok]
      cases rest with
      | nil => rfl
      | cons t r =>
        cases t with
        | p q => cases q <;> first | rfl | (simp [stop, contLevel] at hs)
        | _ => rfl
    · intro rest c rest' hc
      rw [commaSnoc_of_ne (D_not_comma hd (by simp))]
      obtain ⟨n, h, h'⟩ := (ih (.p .comma :: rest) (by simp [stop, contLevel])).two hc
      exact ev_step n (by simp [step, h, h'])
  | @comma ts a ts' b _ hd iha ihb =>
    have hb := D_not_comma hd (by simp)
    refine ⟨?_, ?_⟩
    · intro rest hs
      rw [List.append_assoc]
      refine iha.2 (ts' ++ rest) _ _ ?_
      obtain ⟨n, h⟩ := ihb rest (stop_le (by decide) hs)
      refine ev_step n ?_
      simp only [step, h, Res.bind_ok]
      cases rest with
      | nil => rfl
      | cons t r =>
        cases t with
        | p q => cases q <;> first | rfl | (simp [stop, contLevel] at hs)
        | _ => rfl
    · intro rest c rest' hc
      rw [List.append_assoc, commaSnoc_assoc hb]
      refine iha.2 (ts' ++ .p .comma :: rest) _ _ ?_
      obtain ⟨n, h, h'⟩ := (ihb (.p .comma :: rest) (by simp [stop, contLevel])).two hc
      exact ev_step n (by simp [step, h, h'])

/-! ### Soundness -/

theorem comma_left {rx ts0 a ts b} (ha : D rx .assign ts0 a) (h : D rx .expr ts b) :
    D rx .expr (ts0 ++ .p .comma :: ts) (.comma a b) := by
  have aux : ∀ nt ts b, D rx nt ts b → nt = .expr →
      D rx .expr (ts0 ++ .p .comma :: ts) (.comma a b) := by
    intro nt ts b h
    induction h with
    | ofAssign h ih =>
      intro _
      have := D.comma (D.ofAssign ha) h
      rwa [commaSnoc_of_ne (D_not_comma ha (by simp))] at this
    | comma h1 h2 ih _ =>
      intro _
      have := D.comma (ih rfl) h2
      simpa [commaSnoc] using this
    | _ => intro h; simp at h
  exact aux _ _ _ h rfl

theorem args_left {rx ts0 a ts l} (ha : D rx .assign ts0 a) (h : D rx .args ts l) :
    D rx .args (ts0 ++ .p .comma :: ts) (.list a l) := by
  have aux : ∀ nt ts l, D rx nt ts l → nt = .args →
      D rx .args (ts0 ++ .p .comma :: ts) (.list a l) := by
    intro nt ts l h
    induction h with
    | arg h ih => intro _; exact D.args (D.arg ha) h
    | args h1 h2 ih _ =>
      intro _
      have := D.args (ih rfl) h2
      simpa [argSnoc] using this
    | _ => intro h; simp at h
  exact aux _ _ _ h rfl

/-- What soundness means for each call. -/
def Snd : Call → List Tok → E → Prop
  | .paren, pre, e => ∃ ts e0, pre = ts ++ [.p .rpar] ∧ e = .parens e0 ∧ D true .expr ts e0
  | .primary, pre, e => D true .primary pre e
  | .postfix, pre, e => D true .postfix pre e
  | .postLoop e0, pre, e => ∀ ts, D true .postfix ts e0 → D true .postfix (ts ++ pre) e
  | .unary, pre, e => D true .unary pre e
  | .cast, pre, e => D true (.bin 0) pre e
  | .bin k, pre, e => k ≤ 10 → D true (.bin k) pre e
  | .binLoop k e0, pre, e => ∀ ts, k ≤ 10 → D true (.bin k) ts e0 → D true (.bin k) (ts ++ pre) e
  | .cond, pre, e => D true .cond pre e
  | .assign, pre, e => D true .assign pre e
  | .comma, pre, e => D true .expr pre e
  | .params, pre, e => D true .args pre e

theorem expect_ok {q ts r} (h : expect q ts = .ok r) : ts = .p q :: r := by
  unfold expect at h
  split at h
  · split at h
    · cases h; simp_all
    · cases h
  · cases h

theorem moreStrs_sound (ts : List Tok) (s : List Nat) :
    ∃ pre, ts = pre ++ (moreStrs ts).2 ∧ Strs (.str s :: pre) (s ++ (moreStrs ts).1) := by
  induction ts generalizing s with
  | nil => exact ⟨[], rfl, by simpa [moreStrs] using Strs.one s⟩
  | cons t r ih =>
    cases t with
    | str s' =>
      obtain ⟨pre, h1, h2⟩ := ih s'
      refine ⟨.str s' :: pre, by simp only [moreStrs, List.cons_append]; rw [← h1], ?_⟩
      simpa [moreStrs] using Strs.more s _ _ h2
    | _ => exact ⟨[], rfl, by simpa [moreStrs] using Strs.one s⟩

theorem paren_post {pre e pre' e'} (h : Snd .paren pre e) (h' : Snd (.postLoop e) pre' e') :
    D true .postfix (.p .lpar :: (pre ++ pre')) e' := by
  obtain ⟨ts, e0, rfl, rfl, hd⟩ := h
  exact h' _ (D.ofPrimary (D.parens hd))

theorem sound (n : Nat) : ∀ c ts e rest, run n c ts = .ok (e, rest) →
    ∃ pre, ts = pre ++ rest ∧ Snd c pre e := by
  induction n with
  | zero => intro c ts e rest h; cases h
  | succ n ih =>
    intro c ts e rest h
    change step (run n) c ts = _ at h
    unfold step at h
    split at h
    · rw [Res.bind_eq_ok] at h; obtain ⟨⟨a, r⟩, h1, h⟩ := h
      rw [Res.bind_eq_ok] at h; obtain ⟨r', h2, h⟩ := h
      cases h
      obtain ⟨pre, rfl, hd⟩ := ih _ _ _ _ h1
      have := expect_ok h2
      (try simp only at this); subst this
      exact ⟨pre ++ [.p .rpar], by simp, _, _, rfl, rfl, hd⟩
    · split at h
      · cases h; exact ⟨[_], rfl, D.ident _⟩
      · cases h; exact ⟨[_], rfl, D.num _⟩
      · cases h; exact ⟨[_], rfl, D.chr _⟩
      · rename_i s r
        cases h
        obtain ⟨pre, h1, h2⟩ := moreStrs_sound r s
        exact ⟨.str s :: pre, by simp only [List.cons_append]; rw [← h1], D.str h2⟩
      · obtain ⟨pre, h1, ts, e0, rfl, rfl, hd⟩ := ih _ _ _ _ h
        exact ⟨.p .lpar :: (ts ++ [.p .rpar]), by simp [h1], by exact D.parens hd⟩
      · cases h
    · rw [Res.bind_eq_ok] at h; obtain ⟨⟨a, r⟩, h1, h⟩ := h
      obtain ⟨pre, rfl, hd⟩ := ih _ _ _ _ h1
      obtain ⟨pre', h3, hd'⟩ := ih _ _ _ _ h
      (try simp only at h3); subst h3
      exact ⟨pre ++ pre', by simp, hd' _ (D.ofPrimary hd)⟩
    · split at h
      · rw [Res.bind_eq_ok] at h; obtain ⟨⟨a, r⟩, h1, h⟩ := h
        rw [Res.bind_eq_ok] at h; obtain ⟨r', h2, h⟩ := h
        obtain ⟨pre, rfl, hd⟩ := ih _ _ _ _ h1
        have := expect_ok h2
        (try simp only at this); subst this
        obtain ⟨pre', rfl, hd'⟩ := ih _ _ _ _ h
        refine ⟨.p .lbrk :: (pre ++ [.p .rbrk]) ++ pre', by simp, fun ts hts => ?_⟩
        rw [← List.append_assoc]
        exact hd' _ (D.index hts hd)
      · split at h
        · obtain ⟨pre', rfl, hd'⟩ := ih _ _ _ _ h
          refine ⟨[.p .lpar, .p .rpar] ++ pre', by simp, fun ts hts => ?_⟩
          rw [← List.append_assoc]
          exact hd' _ (D.call0 hts)
        · rw [Res.bind_eq_ok] at h; obtain ⟨⟨a, r⟩, h1, h⟩ := h
          rw [Res.bind_eq_ok] at h; obtain ⟨r', h2, h⟩ := h
          obtain ⟨pre, rfl, hd⟩ := ih _ _ _ _ h1
          have := expect_ok h2
          (try simp only at this); subst this
          obtain ⟨pre', rfl, hd'⟩ := ih _ _ _ _ h
          refine ⟨.p .lpar :: (pre ++ [.p .rpar]) ++ pre', by simp, fun ts hts => ?_⟩
          rw [← List.append_assoc]
          exact hd' _ (D.call hts hd)
      · split at h
        · rename_i x r
          obtain ⟨pre', rfl, hd'⟩ := ih _ _ _ _ h
          refine ⟨[.p .dot, .ident x] ++ pre', by simp, fun ts hts => ?_⟩
          rw [← List.append_assoc]
          exact hd' _ (D.member _ hts)
        · cases h
      · split at h
        · rename_i x r
          obtain ⟨pre', rfl, hd'⟩ := ih _ _ _ _ h
          refine ⟨[.p .arrow, .ident x] ++ pre', by simp, fun ts hts => ?_⟩
          rw [← List.append_assoc]
          exact hd' _ (D.arrow _ hts)
        · cases h
      · obtain ⟨pre', rfl, hd'⟩ := ih _ _ _ _ h
        refine ⟨[.p .incr] ++ pre', by simp, fun ts hts => ?_⟩
        rw [← List.append_assoc]
        exact hd' _ (D.postinc hts)
      · obtain ⟨pre', rfl, hd'⟩ := ih _ _ _ _ h
        refine ⟨[.p .decr] ++ pre', by simp, fun ts hts => ?_⟩
        rw [← List.append_assoc]
        exact hd' _ (D.postdec hts)
      · cases h
        exact ⟨[], rfl, fun ts hts => by simpa using hts⟩
    · split at h
      · rw [Res.bind_eq_ok] at h; obtain ⟨⟨a, r⟩, h1, h⟩ := h
        cases h
        obtain ⟨pre, rfl, hd⟩ := ih _ _ _ _ h1
        exact ⟨_ :: pre, by simp, D.preinc hd⟩
      · rw [Res.bind_eq_ok] at h; obtain ⟨⟨a, r⟩, h1, h⟩ := h
        cases h
        obtain ⟨pre, rfl, hd⟩ := ih _ _ _ _ h1
        exact ⟨_ :: pre, by simp, D.predec hd⟩
      · split at h
        · split at h
          · rw [Res.bind_eq_ok] at h; obtain ⟨r', h2, h⟩ := h
            cases h
            have := expect_ok h2
            subst this
            exact ⟨[.sizeofKw, .p .lpar, .ty _, .p .rpar], by simp, D.sizeofT _⟩
          · rw [Res.bind_eq_ok] at h; obtain ⟨⟨a, r⟩, h1, h⟩ := h
            rw [Res.bind_eq_ok] at h; obtain ⟨⟨b, r'⟩, h2, h⟩ := h
            cases h
            obtain ⟨pre, rfl, hd⟩ := ih _ _ _ _ h1
            obtain ⟨pre', h3, hd'⟩ := ih _ _ _ _ h2
            (try simp only at h3); subst h3
            exact ⟨.sizeofKw :: .p .lpar :: (pre ++ pre'), by simp,
              D.sizeofE (D.ofPostfix (paren_post hd hd'))⟩
        · rw [Res.bind_eq_ok] at h; obtain ⟨⟨a, r⟩, h1, h⟩ := h
          cases h
          obtain ⟨pre, rfl, hd⟩ := ih _ _ _ _ h1
          exact ⟨_ :: pre, by simp, D.sizeofE hd⟩
      · split at h
        · rename_i q r _ _ hq
          rw [Res.bind_eq_ok] at h; obtain ⟨⟨a, r⟩, h1, h⟩ := h
          cases h
          obtain ⟨pre, rfl, hd⟩ := ih _ _ _ _ h1
          exact ⟨_ :: pre, by simp, D.unary (isoUnary_iff.mpr hq) hd⟩
        · obtain ⟨pre, h1, hd⟩ := ih _ _ _ _ h
          exact ⟨pre, h1, D.ofPostfix hd⟩
      · obtain ⟨pre, h1, hd⟩ := ih _ _ _ _ h
        exact ⟨pre, h1, D.ofPostfix hd⟩
    · split at h
      · split at h
        · rw [Res.bind_eq_ok] at h; obtain ⟨r', h2, h⟩ := h
          have := expect_ok h2
          subst this
          rw [Res.bind_eq_ok] at h; obtain ⟨⟨a, r⟩, h1, h⟩ := h
          cases h
          obtain ⟨pre, rfl, hd⟩ := ih _ _ _ _ h1
          exact ⟨.p .lpar :: .ty _ :: .p .rpar :: pre, by simp, D.cast _ hd⟩
        · rw [Res.bind_eq_ok] at h; obtain ⟨⟨a, r⟩, h1, h⟩ := h
          obtain ⟨pre, rfl, hd⟩ := ih _ _ _ _ h1
          obtain ⟨pre', h3, hd'⟩ := ih _ _ _ _ h
          (try simp only at h3); subst h3
          exact ⟨.p .lpar :: (pre ++ pre'), by simp, D.ofUnary (D.ofPostfix (paren_post hd hd'))⟩
      · obtain ⟨pre, h1, hd⟩ := ih _ _ _ _ h
        exact ⟨pre, h1, D.ofUnary hd⟩
    · obtain ⟨pre, h1, hd⟩ := ih _ _ _ _ h
      exact ⟨pre, h1, fun _ => hd⟩
    · rename_i k
      rw [Res.bind_eq_ok] at h; obtain ⟨⟨a, r⟩, h1, h⟩ := h
      obtain ⟨pre, rfl, hd⟩ := ih _ _ _ _ h1
      obtain ⟨pre', h3, hd'⟩ := ih _ _ _ _ h
      (try simp only at h3); subst h3
      exact ⟨pre ++ pre', by simp, fun hk =>
        hd' _ hk (D.ofLower (by omega) (hd (by omega)))⟩
    · rename_i k e0
      split at h
      · rename_i q r
        split at h
        · rename_i hq
          rw [Res.bind_eq_ok] at h; obtain ⟨⟨a, r⟩, h1, h⟩ := h
          obtain ⟨pre, rfl, hd⟩ := ih _ _ _ _ h1
          obtain ⟨pre', h3, hd'⟩ := ih _ _ _ _ h
          (try simp only at h3); subst h3
          refine ⟨.p q :: pre ++ pre', by simp, fun ts hk hts => ?_⟩
          rw [← List.append_assoc]
          have hq' := isLevelOp_isoOps hq
          cases k with
          | zero => simp [isoOps] at hq'
          | succ k => exact hd' _ hk (D.bin hq' hts (hd (by omega)))
        · cases h; exact ⟨[], rfl, fun ts _ hts => by simpa using hts⟩
      · cases h; exact ⟨[], rfl, fun ts _ hts => by simpa using hts⟩
    · rw [Res.bind_eq_ok] at h; obtain ⟨⟨a, r⟩, h1, h⟩ := h
      obtain ⟨pre, rfl, hd⟩ := ih _ _ _ _ h1
      have hd := hd (by decide)
      simp only at h
      split at h
      · rw [Res.bind_eq_ok] at h; obtain ⟨⟨b, r⟩, h1, h⟩ := h
        rw [Res.bind_eq_ok] at h; obtain ⟨r', h2, h⟩ := h
        rw [Res.bind_eq_ok] at h; obtain ⟨⟨c, r⟩, h3, h⟩ := h
        cases h
        obtain ⟨pre1, rfl, hd1⟩ := ih _ _ _ _ h1
        have := expect_ok h2
        (try simp only at this); subst this
        obtain ⟨pre2, rfl, hd2⟩ := ih _ _ _ _ h3
        exact ⟨pre ++ .p .quest :: (pre1 ++ .p .colon :: pre2), by simp, D.cond hd hd1 hd2⟩
      · cases h; exact ⟨pre, rfl, D.ofLor hd⟩
    · rw [Res.bind_eq_ok] at h; obtain ⟨⟨a, r⟩, h1, h⟩ := h
      obtain ⟨pre, rfl, hd⟩ := ih _ _ _ _ h1
      simp only at h
      split at h
      · rename_i q r
        split at h
        · rename_i hq
          rw [Res.bind_eq_ok] at h; obtain ⟨⟨b, r⟩, h1, h⟩ := h
          cases h
          obtain ⟨pre1, rfl, hd1⟩ := ih _ _ _ _ h1
          exact ⟨pre ++ .p q :: pre1, by simp, D.assignRelaxed rfl (isoAssign_iff.mpr hq) hd hd1⟩
        · cases h; exact ⟨pre, rfl, D.ofCond hd⟩
      · cases h; exact ⟨pre, rfl, D.ofCond hd⟩
    · rw [Res.bind_eq_ok] at h; obtain ⟨⟨a, r⟩, h1, h⟩ := h
      obtain ⟨pre, rfl, hd⟩ := ih _ _ _ _ h1
      simp only at h
      split at h
      · rw [Res.bind_eq_ok] at h; obtain ⟨⟨b, r⟩, h1, h⟩ := h
        cases h
        obtain ⟨pre1, rfl, hd1⟩ := ih _ _ _ _ h1
        exact ⟨pre ++ .p .comma :: pre1, by simp, comma_left hd hd1⟩
      · cases h; exact ⟨pre, rfl, D.ofAssign hd⟩
    · rw [Res.bind_eq_ok] at h; obtain ⟨⟨a, r⟩, h1, h⟩ := h
      obtain ⟨pre, rfl, hd⟩ := ih _ _ _ _ h1
      simp only at h
      split at h
      · rw [Res.bind_eq_ok] at h; obtain ⟨⟨b, r⟩, h1, h⟩ := h
        cases h
        obtain ⟨pre1, rfl, hd1⟩ := ih _ _ _ _ h1
        exact ⟨pre ++ .p .comma :: pre1, by simp, args_left hd hd1⟩
      · cases h; exact ⟨pre, rfl, D.arg hd⟩

/-! ### Termination -/

def rank : Call → Nat
  | .primary => 1 | .postLoop _ => 1 | .binLoop _ _ => 1
  | .postfix => 2 | .unary => 3 | .cast => 4 | .bin k => 5 + k
  | .cond => 16 | .assign => 17 | .comma => 18 | .params => 18 | .paren => 19

def okCall : Call → Prop
  | .bin k => k ≤ 10
  | .binLoop k _ => k ≤ 10
  | _ => True

theorem run_len {n c ts e rest} (h : run n c ts = .ok (e, rest)) : rest.length ≤ ts.length := by
  obtain ⟨pre, rfl, _⟩ := sound n c ts e rest h
  simp

theorem bind_ne {o : Out} {f : E × List Tok → Out} (h : o ≠ .diverge)
    (hf : ∀ a r, o = .ok (a, r) → f (a, r) ≠ .diverge) : o.bind f ≠ .diverge := by
  cases o with
  | ok a => exact hf a.1 a.2 rfl
  | diverge => exact absurd rfl h
  | _ => simp

theorem bind_ne' {q ts} {f : List Tok → Out}
    (hf : ∀ r, ts = .p q :: r → f r ≠ .diverge) : (expect q ts).bind f ≠ .diverge := by
  cases h : expect q ts with
  | ok a => exact hf a (expect_ok h)
  | diverge => unfold expect at h; split at h <;> (try split at h) <;> cases h
  | _ => simp

theorem moreStrs_len (ts : List Tok) : (moreStrs ts).2.length ≤ ts.length := by
  obtain ⟨pre, h, _⟩ := moreStrs_sound ts []
  have := congrArg List.length h
  simp at this; omega

theorem run_terminates (n : Nat) : ∀ c ts, okCall c → 32 * ts.length + rank c ≤ n →
    run n c ts ≠ .diverge := by
  induction n with
  | zero => intro c ts _ h; cases c <;> simp [rank] at h
  | succ n ih =>
    intro c ts hc hn
    change step (run n) c ts ≠ _
    unfold step
    have rl := fun {c ts e rest} (h : run n c ts = .ok (e, rest)) => run_len h
    repeat' first
      | (apply bind_ne)
      | (apply bind_ne'; intro _ _)
      | (intro _ _ heq; have := rl heq)
      | split
      | (apply ih)
    all_goals first
      | (intro hh; cases hh; done)
      | (subst_vars; simp_all [okCall, rank]; done)
      | (subst_vars; simp_all [okCall, rank]; omega)

/-! ### Printing -/

def ntOf (i : Nat) : NT :=
  if i = 0 then .postfix else if i = 1 then .unary else if i ≤ 12 then .bin (i - 2)
  else if i = 13 then .cond else if i = 14 then .assign else .expr

theorem D_lift1 {i ts e} (h : D false (ntOf i) ts e) (hi : i ≤ 14) : D false (ntOf (i + 1)) ts e := by
  have : i = 0 ∨ i = 1 ∨ (∃ k, i = k + 2 ∧ k < 10) ∨ i = 12 ∨ i = 13 ∨ i = 14 := by
    by_cases h0 : i = 0 ∨ i = 1 ∨ i = 12 ∨ i = 13 ∨ i = 14
    · rcases h0 with h | h | h | h | h <;> simp [h]
    · exact Or.inr (Or.inr (Or.inl ⟨i - 2, by omega, by omega⟩))
  rcases this with rfl | rfl | ⟨k, rfl, hk⟩ | rfl | rfl | rfl
  · exact D.ofPostfix h
  · exact D.ofUnary h
  · have e1 : ntOf (k + 2) = .bin k := by simp [ntOf]; omega
    have e2 : ntOf (k + 2 + 1) = .bin (k + 1) := by simp [ntOf]; omega
    rw [e1] at h; rw [e2]
    exact D.ofLower hk h
  · exact D.ofLor h
  · exact D.ofCond h
  · exact D.ofAssign h

theorem D_lift {i j ts e} (h : D false (ntOf i) ts e) (hij : i ≤ j) (hj : j ≤ 15) :
    D false (ntOf j) ts e := by
  induction hij with
  | refl => exact h
  | step _ ih => exact D_lift1 (ih (by omega)) (by omega)

theorem isoLevel_spec {k q} (h : q ∈ isoOps k) : isoLevel q = k ∧ 1 ≤ k ∧ k ≤ 10 := by
  unfold isoOps at h
  split at h <;> simp at h <;>
    first | (rcases h with h | h | h | h <;> subst h <;> decide)
          | (rcases h with h | h | h <;> subst h <;> decide)
          | (rcases h with h | h <;> subst h <;> decide)
          | (subst h; decide)

/-- `ts` derives a tree equal to `e` up to parentheses nodes. -/
def Good (nt : NT) (ts : List Tok) (e : E) : Prop := ∃ t, D false nt ts t ∧ erase t = erase e

theorem good_wrap {p lvl ts e} (h : Good (ntOf p) ts e) (hp : p ≤ 15) (hl : lvl ≤ 15) :
    Good (ntOf lvl) (wrap p lvl ts) e := by
  obtain ⟨t, hd, he⟩ := h
  unfold wrap
  split
  · exact ⟨t, D_lift hd ‹_› hl, he⟩
  · have h15 : D false .expr ts t := D_lift hd hp (Nat.le_refl 15)
    exact ⟨.parens t, D_lift (i := 0) (D.ofPrimary (D.parens h15)) (by omega) hl, he⟩

theorem unparse_good {b e} (h : WF b e) : ∀ lvl, lvl ≤ 15 →
    if b then Good .args (unparse lvl e) e else Good (ntOf lvl) (unparse lvl e) e := by
  induction h with
  | ident x => intro l hl; exact good_wrap (p := 0) ⟨_, D.ofPrimary (D.ident x), rfl⟩ (by decide) hl
  | num x => intro l hl; exact good_wrap (p := 0) ⟨_, D.ofPrimary (D.num x), rfl⟩ (by decide) hl
  | chr x => intro l hl; exact good_wrap (p := 0) ⟨_, D.ofPrimary (D.chr x), rfl⟩ (by decide) hl
  | str x => intro l hl; exact good_wrap (p := 0) ⟨_, D.ofPrimary (D.str (Strs.one x)), rfl⟩ (by decide) hl
  | parens _ ih =>
    intro l hl
    obtain ⟨t, hd, he⟩ := ih 15 (by decide)
    exact good_wrap (p := 0) ⟨_, D.ofPrimary (D.parens hd), he⟩ (by decide) hl
  | index _ _ iha ihi =>
    intro l hl
    obtain ⟨t, hd, he⟩ := iha 0 (by decide)
    obtain ⟨t', hd', he'⟩ := ihi 15 (by decide)
    exact good_wrap (p := 0) ⟨_, D.index hd hd', by simp [erase, he, he']⟩ (by decide) hl
  | call0 _ ih =>
    intro l hl
    obtain ⟨t, hd, he⟩ := ih 0 (by decide)
    exact good_wrap (p := 0) ⟨_, D.call0 hd, by simp [erase, he]⟩ (by decide) hl
  | @call f l hf hl' ihf ihl =>
    intro lvl hl
    obtain ⟨t, hd, he⟩ := ihf 0 (by decide)
    obtain ⟨t', hd', he'⟩ := ihl 14 (by decide)
    have : unparse lvl (.call f l) = wrap 0 lvl (unparse 0 f ++ .p .lpar :: (unparse 14 l ++ [.p .rpar])) := by
      rw [unparse.eq_def]
      cases hl' <;> rfl
    rw [this]
    exact good_wrap (p := 0) ⟨_, D.call hd hd', by simp [erase, he, he']⟩ (by decide) hl
  | member x _ ih =>
    intro l hl
    obtain ⟨t, hd, he⟩ := ih 0 (by decide)
    exact good_wrap (p := 0) ⟨_, D.member x hd, by simp [erase, he]⟩ (by decide) hl
  | arrow x _ ih =>
    intro l hl
    obtain ⟨t, hd, he⟩ := ih 0 (by decide)
    exact good_wrap (p := 0) ⟨_, D.arrow x hd, by simp [erase, he]⟩ (by decide) hl
  | postinc _ ih =>
    intro l hl
    obtain ⟨t, hd, he⟩ := ih 0 (by decide)
    exact good_wrap (p := 0) ⟨_, D.postinc hd, by simp [erase, he]⟩ (by decide) hl
  | postdec _ ih =>
    intro l hl
    obtain ⟨t, hd, he⟩ := ih 0 (by decide)
    exact good_wrap (p := 0) ⟨_, D.postdec hd, by simp [erase, he]⟩ (by decide) hl
  | preinc _ ih =>
    intro l hl
    obtain ⟨t, hd, he⟩ := ih 1 (by decide)
    exact good_wrap (p := 1) ⟨_, D.preinc hd, by simp [erase, he]⟩ (by decide) hl
  | predec _ ih =>
    intro l hl
    obtain ⟨t, hd, he⟩ := ih 1 (by decide)
    exact good_wrap (p := 1) ⟨_, D.predec hd, by simp [erase, he]⟩ (by decide) hl
  | unary hq _ ih =>
    intro l hl
    obtain ⟨t, hd, he⟩ := ih 2 (by decide)
    exact good_wrap (p := 1) ⟨_, D.unary hq hd, by simp [erase, he]⟩ (by decide) hl
  | sizeofE _ ih =>
    intro l hl
    obtain ⟨t, hd, he⟩ := ih 1 (by decide)
    exact good_wrap (p := 1) ⟨_, D.sizeofE hd, by simp [erase, he]⟩ (by decide) hl
  | sizeofT t =>
    intro l hl
    exact good_wrap (p := 1) ⟨_, D.sizeofT t, rfl⟩ (by decide) hl
  | cast t _ ih =>
    intro l hl
    obtain ⟨t', hd, he⟩ := ih 2 (by decide)
    exact good_wrap (p := 2) ⟨_, D.cast t hd, by simp [erase, he]⟩ (by decide) hl
  | @bin q a b hq _ _ iha ihb =>
    intro l hl
    obtain ⟨k, hq⟩ := hq
    obtain ⟨hk, h1, h2⟩ := isoLevel_spec hq
    obtain ⟨j, rfl⟩ : ∃ j, k = j + 1 := ⟨k - 1, by omega⟩
    obtain ⟨t, hd, he⟩ := iha (2 + isoLevel q) (by omega)
    obtain ⟨t', hd', he'⟩ := ihb (1 + isoLevel q) (by omega)
    have e1 : ntOf (2 + isoLevel q) = .bin (j + 1) := by
      rw [hk]; unfold ntOf; rw [if_neg (by omega), if_neg (by omega), if_pos (by omega)]; congr 1; omega
    have e2 : ntOf (1 + isoLevel q) = .bin j := by
      rw [hk]; unfold ntOf; rw [if_neg (by omega), if_neg (by omega), if_pos (by omega)]; congr 1; omega
    rw [e1] at hd
    rw [e2] at hd'
    refine good_wrap (p := 2 + isoLevel q) ⟨.bin q t t', ?_, by simp [erase, he, he']⟩ (by omega) hl
    rw [e1]
    exact D.bin hq hd hd'
  | cond _ _ _ ihc iha ihb =>
    intro l hl
    obtain ⟨t, hd, he⟩ := ihc 12 (by decide)
    obtain ⟨t1, hd1, he1⟩ := iha 15 (by decide)
    obtain ⟨t2, hd2, he2⟩ := ihb 13 (by decide)
    exact good_wrap (p := 13) ⟨_, D.cond hd hd1 hd2, by simp [erase, he, he1, he2]⟩ (by decide) hl
  | assign hq _ _ iha ihb =>
    intro l hl
    obtain ⟨t1, hd1, he1⟩ := iha 1 (by decide)
    obtain ⟨t2, hd2, he2⟩ := ihb 14 (by decide)
    exact good_wrap (p := 14) ⟨_, D.assign hq hd1 hd2, by simp [erase, he1, he2]⟩ (by decide) hl
  | comma _ _ iha ihb =>
    intro l hl
    obtain ⟨t1, hd1, he1⟩ := iha 14 (by decide)
    obtain ⟨t2, hd2, he2⟩ := ihb 15 (by decide)
    exact good_wrap (p := 15) ⟨_, comma_left hd1 hd2, by simp [erase, he1, he2]⟩ (by decide) hl
  | arg _ ih =>
    intro l hl
    obtain ⟨t, hd, he⟩ := ih 14 (by decide)
    have : ∀ a, unparse l (.list a .nil) = unparse 14 a := by
      intro a; rw [unparse.eq_def]; simp [wrap, prec]
    simp only [if_true]
    rw [this]
    exact ⟨_, D.arg hd, by simp [erase, he]⟩
  | @args a l' _ hl' iha ihl =>
    intro l hl
    obtain ⟨t, hd, he⟩ := iha 14 (by decide)
    obtain ⟨t', hd', he'⟩ := ihl 14 (by decide)
    have : unparse l (.list a l') = unparse 14 a ++ .p .comma :: unparse 14 l' := by
      rw [unparse.eq_def]
      cases hl' <;> simp [wrap, prec]
    simp only [if_true]
    rw [this]
    exact ⟨_, args_left hd hd', by simp [erase, he, he']⟩

end Verif.Parse
