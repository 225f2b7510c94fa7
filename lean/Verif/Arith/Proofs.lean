import Verif.Arith.Spec
import Verif.Parse.Props
/-! Helper lemmas for C11, part 1: the text printed for an expression parses to a tree with the
same 64-bit meaning as the expression. -/
namespace Verif.Arith
open Verif Spec
open Verif.Parse (P Tok E parse)
open Verif.Parse.Spec (D NT isoOps isoLevel isoAssign isoUnary commaSnoc)

theorem dec_enc (l : LV) : dec (enc l) = l := by
  cases l with
  | var x => simp [enc, dec]
  | cell a =>
    cases a with
    | ofNat n =>
      have h1 : (3 * n + 1) % 3 = 1 := by omega
      have h2 : (3 * n + 1) / 3 = n := by omega
      simp [enc, dec, h1, h2]
    | negSucc n =>
      have h1 : (3 * n + 2) % 3 = 2 := by omega
      have h2 : (3 * n + 2) / 3 = n := by omega
      simp [enc, dec, h1, h2]

/-! ### Chains of operators of one level -/

/-- Operands at level `k` joined by operators in `ops`, grouped to the left. -/
inductive Ch (ops : List P) (k : Nat) : List Tok → E → Prop where
  | base {ts t} : D false (.bin k) ts t → Ch ops k ts t
  | step {ts a q ts' b} : q ∈ ops → Ch ops k ts a → D false (.bin k) ts' b →
      Ch ops k (ts ++ .p q :: ts') (.bin q a b)

theorem Ch.toD {ops k ts t} (h : Ch ops k ts t) (hk : k < 10) (ho : ∀ q ∈ ops, q ∈ isoOps (k + 1)) :
    D false (.bin (k + 1)) ts t := by
  induction h with
  | base h => exact D.ofLower hk h
  | step hq _ hb ih => exact D.bin (ho _ hq) ih hb

theorem Ch.ofD {k ts t} (h : D false (.bin (k + 1)) ts t) : Ch (isoOps (k + 1)) k ts t := by
  have aux : ∀ nt ts t, D false nt ts t → nt = .bin (k + 1) → Ch (isoOps (k + 1)) k ts t := by
    intro nt ts t h
    induction h with
    | ofLower _ h' _ =>
      intro he; injection he with he; have he := Nat.succ.inj he; subst he; exact Ch.base h'
    | bin hq _ hb ih _ =>
      intro he; injection he with he; have he := Nat.succ.inj he; subst he
      exact Ch.step hq (ih rfl) hb
    | _ => intro he; simp at he
  exact aux _ _ _ h rfl

theorem graft {ops k q ts1 a ts2 b} (hq : q ∈ ops) (h1 : Ch ops k ts1 a) (h2 : Ch ops k ts2 b)
    (law : ∀ o ∈ ops, ∀ A B C, binSem o (binSem q A B) C = binSem q A (binSem o B C)) :
    ∃ t, Ch ops k (ts1 ++ .p q :: ts2) t ∧ evalSh t = binSem q (evalSh a) (evalSh b) := by
  induction h2 with
  | base h => exact ⟨_, Ch.step hq h1 h, by simp [evalSh]⟩
  | @step ts b1 o ts' b2 ho _ hb ih =>
    obtain ⟨t, ht, he⟩ := ih
    refine ⟨.bin o t b2, ?_, ?_⟩
    · have := Ch.step ho ht hb
      simpa using this
    · simp only [evalSh, he]
      exact law o ho _ _ _

/-- Operators that may continue an unparenthesised right operand of `q`. -/
def opsOf (q : P) : List P := if q = .star then [.star] else isoOps (isoLevel q)

theorem assoc_law {q o : P} (hq : isAssoc q = true) (hne : q ≠ .eqeq) (ho : o ∈ opsOf q)
    (A B C : M Int) : binSem o (binSem q A B) C = binSem q A (binSem o B C) := by
  funext σ
  have wadd : ∀ a b : Int, wrap (wrap a + b) = wrap (a + b) := by
    intro a b; simp [wrap, Int.bmod_add_bmod]
  have wadd' : ∀ a b : Int, wrap (a + wrap b) = wrap (a + b) := by
    intro a b; simp [wrap, Int.add_bmod_bmod]
  have wsub : ∀ a b : Int, wrap (wrap a - b) = wrap (a - b) := by
    intro a b; simp [wrap, Int.bmod_sub_bmod]
  have wmul : ∀ a b : Int, wrap (wrap a * b) = wrap (a * b) := by
    intro a b; simp [wrap, Int.bmod_mul_bmod]
  have wmul' : ∀ a b : Int, wrap (a * wrap b) = wrap (a * b) := by
    intro a b; simp [wrap, Int.mul_bmod_bmod]
  cases q <;> simp [isAssoc] at hq hne <;> simp [opsOf, isoLevel, isoOps, List.range, List.range.loop, List.find?] at ho
  case amp =>
    subst ho
    simp only [binSem, M.bnd, M.lift, op64]
    cases A σ with
    | none => rfl
    | some r =>
      simp only
      cases B r.2 with
      | none => rfl
      | some s =>
        simp only [Option.map_some]
        cases C s.2 <;> simp only [BitVec.ofInt_toInt, BitVec.and_assoc, Option.map_some, Option.map_none]
  case bar =>
    subst ho
    simp only [binSem, M.bnd, M.lift, op64]
    cases A σ with
    | none => rfl
    | some r =>
      simp only
      cases B r.2 with
      | none => rfl
      | some s =>
        simp only [Option.map_some]
        cases C s.2 <;> simp only [BitVec.ofInt_toInt, BitVec.or_assoc, Option.map_some, Option.map_none]
  case caret =>
    subst ho
    simp only [binSem, M.bnd, M.lift, op64]
    cases A σ with
    | none => rfl
    | some r =>
      simp only
      cases B r.2 with
      | none => rfl
      | some s =>
        simp only [Option.map_some]
        cases C s.2 <;> simp only [BitVec.ofInt_toInt, BitVec.xor_assoc, Option.map_some, Option.map_none]
  case star =>
    subst ho
    simp only [binSem, M.bnd, M.lift, op64]
    cases A σ with
    | none => rfl
    | some r =>
      simp only
      cases B r.2 with
      | none => rfl
      | some s =>
        simp only [Option.map_some]
        cases C s.2 with
        | none => rfl
        | some c => simp [wmul, wmul', Int.mul_assoc]
  case plus =>
    rcases ho with rfl | rfl
    · simp only [binSem, M.bnd, M.lift, op64]
      cases A σ with
      | none => rfl
      | some r =>
        simp only
        cases B r.2 with
        | none => rfl
        | some s =>
          simp only [Option.map_some]
          cases C s.2 with
          | none => rfl
          | some c => simp [wadd, wadd', Int.add_assoc]
    · simp only [binSem, M.bnd, M.lift, op64]
      cases A σ with
      | none => rfl
      | some r =>
        simp only
        cases B r.2 with
        | none => rfl
        | some s =>
          simp only [Option.map_some]
          cases C s.2 with
          | none => rfl
          | some c => simp [wsub, wadd', Int.add_sub_assoc]
  case andand =>
    subst ho
    simp only [binSem, M.bnd, M.ret]
    cases A σ with
    | none => rfl
    | some r =>
      obtain ⟨x, σ1⟩ := r
      simp only
      by_cases hx : x = 0
      · simp [hx, M.ret]
      · simp only [hx, if_false, M.bnd]
        cases B σ1 with
        | none => rfl
        | some s =>
          obtain ⟨y, σ2⟩ := s
          by_cases hy : y = 0
          · simp [hy, b2i, M.ret]
          · simp only [b2i, bne_iff_ne, ne_eq, hy, not_false_eq_true, if_true, M.ret]
            simp [M.bnd]
            cases C σ2 with
            | none => rfl
            | some c => by_cases hc : c.1 = 0 <;> simp [M.ret, hc]
  case oror =>
    subst ho
    simp only [binSem, M.bnd, M.ret]
    cases A σ with
    | none => rfl
    | some r =>
      obtain ⟨x, σ1⟩ := r
      simp only
      by_cases hx : x = 0
      · simp only [hx, ne_eq, not_true_eq_false, if_false, M.bnd]
        cases B σ1 with
        | none => rfl
        | some s =>
          obtain ⟨y, σ2⟩ := s
          by_cases hy : y = 0
          · simp [hy, b2i, M.ret, M.bnd]
            cases C σ2 with
            | none => rfl
            | some c => by_cases hc : c.1 = 0 <;> simp [hc]
          · simp [hy, b2i, M.ret]
      · simp [hx, M.ret]

/-! ### Resolving addresses -/

mutual
/-- The expression with the addresses in it evaluated (in order), as a tree of the shell. -/
def res : X → M E
  | .int v => M.ret (.num v)
  | .hex v => M.ret (.num v)
  | .var x => M.ret (.ident (enc (.var x)))
  | .deref e => (res e).bnd fun y => (evalSh y).bnd fun a => M.ret (.ident (enc (.cell a)))
  | .plus e => res e
  | .parens e => res e
  | .cast e => res e
  | .neg e => (res e).bnd fun y => M.ret (.unary .minus y)
  | .bnot e => (res e).bnd fun y => M.ret (.unary .tilde y)
  | .lnot e => (res e).bnd fun y => M.ret (.unary .excl y)
  | .preinc l => (resL l).bnd fun x => M.ret (.assign .pluseq (.ident (enc x)) (.num 1))
  | .predec l => (resL l).bnd fun x => M.ret (.assign .minuseq (.ident (enc x)) (.num 1))
  | .postinc l => (resL l).bnd fun x =>
      M.ret (.bin .minus (.assign .pluseq (.ident (enc x)) (.num 1)) (.num 1))
  | .postdec l => (resL l).bnd fun x =>
      M.ret (.bin .plus (.assign .minuseq (.ident (enc x)) (.num 1)) (.num 1))
  | .addr l => resA l
  | .bin q a b => (res a).bnd fun x => (res b).bnd fun y => M.ret (.bin q x y)
  | .comma a b => (res a).bnd fun x => (res b).bnd fun y => M.ret (.comma x y)
  | .cond c a b => (res c).bnd fun z => (res a).bnd fun x => (res b).bnd fun y => M.ret (.cond z x y)
  | .assign q l e => (resL l).bnd fun x => (res e).bnd fun y => M.ret (.assign q (.ident (enc x)) y)
  | .index a b => (res a).bnd fun x => (res b).bnd fun y =>
      (evalSh (.bin .plus x y)).bnd fun p => M.ret (.ident (enc (.cell p)))
  | .arrow a off => (res a).bnd fun x =>
      (evalSh (.bin .plus x (.num off))).bnd fun p => M.ret (.ident (enc (.cell p)))
def resL : X → M LV
  | .var x => M.ret (.var x)
  | .deref e => (res e).bnd fun y => (evalSh y).bnd fun a => M.ret (.cell a)
  | .index a b => (res a).bnd fun x => (res b).bnd fun y =>
      (evalSh (.bin .plus x y)).bnd fun p => M.ret (.cell p)
  | .arrow a off => (res a).bnd fun x =>
      (evalSh (.bin .plus x (.num off))).bnd fun p => M.ret (.cell p)
  | .cast l => resL l
  | _ => fun _ => none
def resA : X → M E
  | .index a b => (res a).bnd fun x => (res b).bnd fun y => M.ret (.bin .plus x y)
  | .arrow a off => (res a).bnd fun x => M.ret (.bin .plus x (.num off))
  | _ => fun _ => none
end

theorem bnd_some {α β} {m : M α} {f : α → M β} {σ r} (h : m.bnd f σ = some r) :
    ∃ a σ1, m σ = some (a, σ1) ∧ f a σ1 = some r := by
  unfold M.bnd at h
  split at h
  · exact ⟨_, _, ‹_›, h⟩
  · cases h

theorem ret_some {α} {a : α} {σ r} (h : M.ret a σ = some r) : r = (a, σ) := by
  simp [M.ret] at h; exact h.symm

/-! ### Text -/

theorem parse_of_D {ts t} (h : D false .expr ts t) : parse ts = .ok (t, []) := by
  have := Parse.C10_parses_iso_expressions h [] (Or.inl rfl)
  rwa [List.append_nil] at this

theorem ex_tok {t ps σ ts σ'} (h : expandL ps σ = some (ts, σ')) :
    expandL (.tok t :: ps) σ = some (t :: ts, σ') := by
  simp [expandL, expandP, M.bnd, M.ret, h]

theorem ex_nil (σ : State) : expandL [] σ = some ([], σ) := rfl

theorem ex_append {p1 p2 σ t1 σ1 t2 σ2} (h1 : expandL p1 σ = some (t1, σ1))
    (h2 : expandL p2 σ1 = some (t2, σ2)) : expandL (p1 ++ p2) σ = some (t1 ++ t2, σ2) := by
  induction p1 generalizing σ t1 with
  | nil =>
    simp [expandL, M.ret] at h1
    obtain ⟨rfl, rfl⟩ := h1
    simpa using h2
  | cons p ps ih =>
    simp only [expandL] at h1
    obtain ⟨a, σa, ha, h1⟩ := bnd_some h1
    obtain ⟨b, σb, hb, h1⟩ := bnd_some h1
    have := ret_some h1
    injection this with e1 e2
    subst e1 e2
    have := ih hb
    simp [expandL, M.bnd, ha, this, M.ret]

theorem ex_cell {w σ a σ'} (h : word w σ = some (a, σ')) :
    expandL [.cell w] σ = some ([.ident (enc (.cell a))], σ') := by
  simp [expandL, expandP, M.bnd, M.ret, h]

theorem word_exp {ps σ toks σA t} (h : expandL ps σ = some (toks, σA)) (hd : D false .expr toks t) :
    word [.exp ps] σ = evalSh t σA := by
  simp [word, M.bnd, h, parse_of_D hd]

/-! ### Levels -/

def ntT (n : Nat) : NT := if n ≤ 10 then .bin n else if n = 11 then .cond else if n = 12 then .assign else .expr

theorem D_liftT1 {n ts t} (h : D false (ntT n) ts t) : D false (ntT (n + 1)) ts t := by
  unfold ntT at *
  by_cases h1 : n < 10
  · rw [if_pos (by omega)] at h
    rw [if_pos (by omega)]
    exact D.ofLower h1 h
  · by_cases h2 : n = 10
    · subst h2; exact D.ofLor h
    · by_cases h3 : n = 11
      · subst h3; exact D.ofCond h
      · by_cases h4 : n = 12
        · subst h4; exact D.ofAssign h
        · rw [if_neg (by omega), if_neg (by omega), if_neg (by omega)] at h
          rw [if_neg (by omega), if_neg (by omega), if_neg (by omega)]
          exact h

theorem D_liftT {n m ts t} (h : D false (ntT n) ts t) (hnm : n ≤ m) : D false (ntT m) ts t := by
  induction hnm with
  | refl => exact h
  | step _ ih => exact D_liftT1 ih

theorem D_bin_lift {j k ts t} (h : D false (.bin j) ts t) (hjk : j ≤ k) (hk : k ≤ 10) :
    D false (.bin k) ts t := by
  have h' : D false (ntT j) ts t := by unfold ntT; rwa [if_pos (by omega)]
  have := D_liftT h' hjk
  unfold ntT at this
  rwa [if_pos hk] at this

theorem D_unary_T {n ts t} (h : D false .unary ts t) : D false (ntT n) ts t :=
  D_liftT (n := 0) (D.ofUnary h) (Nat.zero_le _)

theorem D_parens {n ts t} (h : D false (ntT n) ts t) :
    D false .unary (.p .lpar :: (ts ++ [.p .rpar])) (.parens t) := by
  refine D.ofPostfix (D.ofPrimary (D.parens ?_))
  by_cases hn : n ≤ 13
  · exact D_liftT h hn
  · have : ntT n = .expr := by
      unfold ntT; rw [if_neg (by omega), if_neg (by omega), if_neg (by omega)]
    rwa [this] at h

/-- What is known of the text of an operand printed below the operator `o`. -/
def ClsO (e : X) (o : Outer) (m : Nat) (toks : List Tok) (t : E) : Prop :=
  D false .unary toks t ∨ (2 ≤ m ∧ D false (.bin 2) toks t) ∨
  ∃ q, o = .op q ∧ isAssoc q = true ∧ isBin q e = true ∧ Ch (opsOf q) (isoLevel q - 1) toks t

def Cls (e : X) (o : Outer) (m : Nat) (toks : List Tok) (t : E) : Prop :=
  if o = .zero then D false (ntT (top e)) toks t
  else if o = .op .eq then (isComma e = false → D false .assign toks t)
  else ClsO e o m toks t

theorem cls_tight {e o m toks t} (h : D false .unary toks t) : Cls e o m toks t := by
  unfold Cls
  split
  · exact D_unary_T h
  · split
    · intro _; exact D_unary_T (n := 12) h
    · exact Or.inl h

theorem cls_two {e o m toks t} (h : D false (.bin 2) toks t) (hm : 2 ≤ m) (ht : top e = 2) :
    Cls e o m toks t := by
  unfold Cls
  split
  · rw [ht]; exact h
  · split
    · intro _; exact D_liftT (n := 2) (m := 12) h (by decide)
    · exact Or.inr (Or.inl ⟨hm, h⟩)

/-- The effect of `wrap_if_needed(true, …)` in an arithmetic context. -/
theorem cls_wrap {e o m σ code toks σA t inner} (hex : expandL code σ = some (toks, σA))
    (hd : D false (ntT (top e)) toks t) (hc : isComma e = false → top e ≤ 12)
    (hin : ∀ q, inner = some q → isAssoc q = true →
      isBin q e = true ∧ Ch (opsOf q) (isoLevel q - 1) toks t) :
    ∃ toks' t', expandL (wrapIf true .arith code o inner) σ = some (toks', σA) ∧
      evalSh t' = evalSh t ∧ Cls e o m toks' t' := by
  unfold wrapIf
  simp only
  by_cases hp : needParens true o inner = true
  · rw [if_pos hp]
    refine ⟨.p .lpar :: (toks ++ [.p .rpar]), .parens t, ?_, by simp [evalSh], cls_tight (D_parens hd)⟩
    exact ex_tok (ex_append hex (ex_tok (ex_nil _)))
  · rw [if_neg hp]
    refine ⟨toks, t, hex, rfl, ?_⟩
    unfold Cls
    by_cases h0 : o = .zero
    · rw [if_pos h0]; exact hd
    · rw [if_neg h0]
      by_cases h1 : o = .op .eq
      · rw [if_pos h1]
        intro hh
        exact D_liftT hd (hc hh)
      · rw [if_neg h1]
        cases inner with
        | none => simp [needParens, h0, h1] at hp
        | some q =>
          simp [needParens, h0, h1] at hp
          obtain ⟨hb, hch⟩ := hin q rfl hp.1
          exact Or.inr (Or.inr ⟨q, hp.2, hp.1, hb, hch⟩)

theorem isoLevel_mem {q : P} (h : 1 ≤ isoLevel q) : q ∈ isoOps (isoLevel q) := by
  revert h; cases q <;> decide

theorem isoLevel_le (q : P) : isoLevel q ≤ 10 := by
  cases q <;> decide

theorem opsOf_sub {q o : P} (h : o ∈ opsOf q) : o ∈ isoOps (isoLevel q) := by
  unfold opsOf at h
  split at h
  · rename_i hq; subst hq; simp at h; subst h; decide
  · exact h

theorem mem_opsOf {q : P} (h : 1 ≤ isoLevel q) : q ∈ opsOf q := by
  unfold opsOf
  split
  · rename_i hq; subst hq; decide
  · exact isoLevel_mem h

theorem ne_eq_of_level {q : P} (h : 1 ≤ isoLevel q) : Outer.op q ≠ .op .eq := by
  intro he; injection he with he; subst he; revert h; decide

theorem clsO_of_cls {e q m toks t} (h : Cls e (.op q) m toks t) (hq : q ≠ .eq) :
    ClsO e (.op q) m toks t := by
  unfold Cls at h
  rw [if_neg (by simp), if_neg (by simpa using hq)] at h
  exact h

theorem clsO_tight {e q m toks t} (h : Cls e (.op q) m toks t) (hq : q ≠ .eq) (hm : m < 2)
    (hn : isAssoc q = false) : D false .unary toks t := by
  rcases clsO_of_cls h hq with h | ⟨h, _⟩ | ⟨q', he, ha, _⟩
  · exact h
  · omega
  · injection he with he; subst he; rw [hn] at ha; cases ha

/-- Operand of an operator looser than the additive ones, not associative. -/
theorem clsO_loose {e q m toks t} (h : Cls e (.op q) m toks t) (hq : q ≠ .eq)
    (hn : isAssoc q = false) : D false (.bin 2) toks t := by
  rcases clsO_of_cls h hq with h | ⟨_, h⟩ | ⟨q', he, ha, _⟩
  · exact D_unary_T (n := 2) h
  · exact h
  · injection he with he; subst he; rw [hn] at ha; cases ha

theorem left_operand {e q toks t} (h : Cls e (.op q) (isoLevel q) toks t) (hl : 1 ≤ isoLevel q) :
    D false (.bin (isoLevel q)) toks t ∧
    (isAssoc q = true → Ch (opsOf q) (isoLevel q - 1) toks t) := by
  have hle := isoLevel_le q
  rcases clsO_of_cls h (fun he => ne_eq_of_level hl (by rw [he])) with hd | ⟨h2, hd⟩ | ⟨q', he, ha, _, hc⟩
  · exact ⟨D_bin_lift (D.ofUnary hd) (Nat.zero_le _) hle,
      fun _ => Ch.base (D_bin_lift (D.ofUnary hd) (Nat.zero_le _) (by omega))⟩
  · refine ⟨D_bin_lift hd h2 hle, fun ha => ?_⟩
    by_cases hk : isoLevel q = 2
    · have hq : q = .plus := by
        revert hk ha; cases q <;> decide
      subst hq
      exact Ch.ofD hd
    · exact Ch.base (D_bin_lift hd (by omega) (by omega))
  · injection he with he
    subst he
    refine ⟨?_, fun _ => hc⟩
    have := hc.toD (by omega) (fun o ho => by
      have := opsOf_sub ho
      rwa [show isoLevel q - 1 + 1 = isoLevel q by omega])
    rwa [show isoLevel q - 1 + 1 = isoLevel q by omega] at this

theorem right_operand {e q toks t} (h : Cls e (.op q) (if q = .plus then 2 else isoLevel q - 1) toks t)
    (hl : 1 ≤ isoLevel q) (hne : ¬ (q = .eqeq ∧ isBin .eqeq e = true)) :
    D false (.bin (isoLevel q - 1)) toks t ∨
    (isAssoc q = true ∧ q ≠ .eqeq ∧ Ch (opsOf q) (isoLevel q - 1) toks t) := by
  have hle := isoLevel_le q
  rcases clsO_of_cls h (fun he => ne_eq_of_level hl (by rw [he])) with hd | ⟨h2, hd⟩ | ⟨q', he, ha, hb, hc⟩
  · exact Or.inl (D_bin_lift (D.ofUnary hd) (Nat.zero_le _) (by omega))
  · by_cases hq : q = .plus
    · subst hq
      exact Or.inr ⟨rfl, by decide, Ch.ofD hd⟩
    · rw [if_neg hq] at h2
      exact Or.inl (D_bin_lift hd h2 (by omega))
  · injection he with he
    subst he
    refine Or.inr ⟨ha, fun hq => hne ⟨hq, ?_⟩, hc⟩
    rw [hq] at hb; exact hb

theorem combine {a b q ts1 t1 ts2 t2} (ha : Cls a (.op q) (isoLevel q) ts1 t1)
    (hb : Cls b (.op q) (if q = .plus then 2 else isoLevel q - 1) ts2 t2)
    (hl : 1 ≤ isoLevel q) (hne : ¬ (q = .eqeq ∧ isBin .eqeq b = true)) :
    ∃ t, evalSh t = binSem q (evalSh t1) (evalSh t2) ∧
      D false (.bin (isoLevel q)) (ts1 ++ .p q :: ts2) t ∧
      (isAssoc q = true → Ch (opsOf q) (isoLevel q - 1) (ts1 ++ .p q :: ts2) t) := by
  obtain ⟨hd1, hc1⟩ := left_operand ha hl
  obtain ⟨j, hj⟩ : ∃ j, isoLevel q = j + 1 := ⟨isoLevel q - 1, by omega⟩
  have hle := isoLevel_le q
  rcases right_operand hb hl hne with hd2 | ⟨has, hq, hc2⟩
  · refine ⟨.bin q t1 t2, by simp [evalSh], ?_, fun has => Ch.step (mem_opsOf hl) (hc1 has) hd2⟩
    have hm := isoLevel_mem hl
    rw [hj] at hd1 hd2 hm ⊢
    exact D.bin hm hd1 hd2
  · obtain ⟨t, ht, he⟩ := graft (mem_opsOf hl) (hc1 has) hc2 (fun o ho => assoc_law has hq ho)
    refine ⟨t, he, ?_, fun _ => ht⟩
    have := ht.toD (by omega) (fun o ho => by
      have := opsOf_sub ho
      rwa [show isoLevel q - 1 + 1 = isoLevel q by omega])
    rwa [show isoLevel q - 1 + 1 = isoLevel q by omega] at this

/-- Sum of two texts at additive level. -/
theorem sum {ts1 t1 ts2 t2} (h1 : D false (.bin 2) ts1 t1) (h2 : D false (.bin 2) ts2 t2) :
    ∃ t, evalSh t = binSem .plus (evalSh t1) (evalSh t2) ∧
      D false (.bin 2) (ts1 ++ .p .plus :: ts2) t := by
  obtain ⟨t, ht, he⟩ := graft (ops := isoOps 2) (q := .plus) (by decide) (Ch.ofD h1) (Ch.ofD h2)
    (fun o ho => assoc_law (q := .plus) rfl (by decide) ho)
  exact ⟨t, he, ht.toD (by decide) (fun _ h => h)⟩

theorem sum_num {ts1 t1} (h1 : D false (.bin 2) ts1 t1) (n : Int) :
    D false (.bin 2) (ts1 ++ [.p .plus, .num n]) (.bin .plus t1 (.num n)) :=
  D.bin (by decide) h1 (D_unary_T (n := 1) (D.ofPostfix (D.ofPrimary (D.num n))))

theorem no_lead_minus {e o s} (ho : o = .op .minus ∨ o = .castOp) (hok : ok e 0 = true)
    (hn : isNeg e = false) (h : go e .arith o = .ok s) : ∀ r, s ≠ .tok (.p .minus) :: r := by
  have np : ∀ inner, needParens true o inner = true := by
    intro inner
    rcases ho with rfl | rfl <;> cases inner <;> simp [needParens] <;> rename_i q <;> cases q <;> decide
  induction e generalizing o s with
  | int v => simp [go, wrapInt] at h; split at h <;> (subst h; intro r; simp); omega
  | hex v => simp [go, wrapIf, needParens] at h; subst h; simp
  | var x => simp [go] at h; subst h; simp
  | deref e =>
    simp only [go, Res.bind_eq_ok, wrapIf, needParens] at h
    obtain ⟨_, _, h⟩ := h
    simp at h; subst h; simp
  | index a b =>
    simp only [go, Res.bind_eq_ok, wrapIf, needParens] at h
    obtain ⟨_, _, _, _, h⟩ := h
    simp at h; subst h; simp
  | arrow a b =>
    simp only [go, Res.bind_eq_ok, wrapIf, needParens] at h
    obtain ⟨_, _, h⟩ := h
    simp at h; subst h; simp
  | plus e ih =>
    exact ih ho (by simpa [ok] using hok) (by simpa [isNeg] using hn) (by simpa [go] using h) np
  | parens e ih =>
    exact ih ho (by simpa [ok] using hok) (by simpa [isNeg] using hn) (by simpa [go] using h) np
  | cast e ih =>
    refine ih (Or.inr rfl) (by simpa [ok] using hok) (by simpa [isNeg] using hn) (by simpa [go] using h) ?_
    intro inner
    cases inner <;> simp [needParens]
  | neg e => simp [isNeg] at hn
  | bnot e =>
    simp [ok] at hok
    cases e <;> simp [isInt] at hok <;> simp only [go, Res.bind_eq_ok, wrapIf, needParens] at h <;>
      (obtain ⟨s', _, h⟩ := h; simp at h; subst h; intro r; unfold glue; split <;> simp)
  | lnot e =>
    simp [ok] at hok
    cases e <;> simp [isInt] at hok <;> simp only [go, Res.bind_eq_ok, wrapIf, needParens] at h <;>
      (obtain ⟨s', _, h⟩ := h; simp at h; subst h; intro r; unfold glue; split <;> simp)
  | preinc l | predec l =>
    simp only [go, Res.bind_eq_ok, wrapIf, np, if_true] at h
    obtain ⟨_, _, h⟩ := h
    simp at h; subst h; simp
  | postinc l | postdec l => simp [ok] at hok
  | addr l => cases l <;> simp [ok] at hok
  | bin q a b | comma a b | assign q a b =>
    simp only [go, Res.bind_eq_ok, wrapIf, np, if_true] at h
    obtain ⟨_, _, _, _, h⟩ := h
    simp at h; subst h; simp
  | cond c a b =>
    simp only [go, Res.bind_eq_ok, wrapIf, np, if_true] at h
    obtain ⟨_, _, _, _, _, _, h⟩ := h
    simp at h; subst h; simp

end Verif.Arith
