import Verif.Arith.Proofs
/-! Helper lemmas for C11, part 2: the printed text has the meaning of the resolved expression. -/
namespace Verif.Arith
open Verif Spec
open Verif.Parse (P Tok E parse)
open Verif.Parse.Spec (D NT isoOps isoLevel isoAssign isoUnary commaSnoc)

theorem top_le (e : X) : top e ≤ 13 := by
  induction e <;> simp [top] <;> first | omega | assumption | skip
  rename_i q _ _ _ _
  have := isoLevel_le q
  omega

def AClaim (e : X) : Prop := ∀ m σ Y σA o, ok e m = true → res e σ = some (Y, σA) →
  ∃ ps toks t, go e .arith o = .ok ps ∧ expandL ps σ = some (toks, σA) ∧ evalSh t = evalSh Y ∧
    Cls e o m toks t

def BClaim (e : X) : Prop := ∀ σ Y σA o, ok e 13 = true → isNegLit e = false →
  res e σ = some (Y, σA) → ∃ w, go e .base o = .ok w ∧ word w σ = evalSh Y σA

def LClaim (l : X) : Prop := ∀ σ x σA, okL l = true → resL l σ = some (x, σA) →
  ∃ ps, lv l = .ok ps ∧ expandL ps σ = some ([.ident (enc x)], σA)

def QClaim (l : X) : Prop := ∀ m σ Y σA, ok (.addr l) m = true → resA l σ = some (Y, σA) →
  ∃ ps toks t, lvAddr l = .ok ps ∧ expandL ps σ = some (toks, σA) ∧ evalSh t = evalSh Y ∧
    D false (.bin 2) toks t ∧ 2 ≤ m

theorem clsZ {e m toks t} (h : Cls e .zero m toks t) : D false (ntT (top e)) toks t := by
  unfold Cls at h; rwa [if_pos rfl] at h

theorem clsZ2 {e m toks t} (h : Cls e .zero m toks t) (ht : top e ≤ 2) : D false (.bin 2) toks t :=
  D_liftT (m := 2) (clsZ h) ht

theorem clsZE {e m toks t} (h : Cls e .zero m toks t) : D false .expr toks t :=
  D_liftT (m := 13) (clsZ h) (top_le e)

/-- Operand of `+` at most additive: any of the shapes. -/
theorem clsPlus {e toks t} (h : Cls e (.op .plus) 2 toks t) : D false (.bin 2) toks t :=
  (left_operand (q := .plus) h (by decide)).1

/-- Nodes that go through `wrap_if_needed`. -/
theorem B_of_A {e : X} (hb : ∀ o, go e .base o = (go e .arith .zero).bind fun s => .ok [.exp s])
    (hA : AClaim e) : BClaim e := by
  intro σ Y σA o hok _ hr
  obtain ⟨ps, toks, t, hg, hex, he, hc⟩ := hA 13 σ Y σA .zero hok hr
  refine ⟨[.exp ps], by rw [hb, hg]; rfl, ?_⟩
  rw [word_exp hex (clsZE hc), he]

theorem D_id (n : Nat) : D false .unary [.ident n] (.ident n) :=
  D.ofPostfix (D.ofPrimary (D.ident n))
theorem D_num (n : Int) : D false .unary [.num n] (.num n) :=
  D.ofPostfix (D.ofPrimary (D.num n))

theorem L_fatal {l : X} (h : okL l = false) : LClaim l := by
  intro σ x σA hk _; rw [h] at hk; cases hk

theorem Q_fatal {l : X} (h : ∀ m, ok (.addr l) m = false) : QClaim l := by
  intro m σ Y σA hk _; rw [h] at hk; cases hk

/-- Unary operators. -/
theorem unary_case {e : X} {q : P} (hA : AClaim e) (hq : q ∈ isoUnary) (hna : isAssoc q = false)
    (hne : q ≠ .eq)
    (hl : q = .minus → isNeg e = false) (m : Nat) {σ Y σA} (o : Outer) (e' : X)
    (hok : ok e 0 = true) (hr : res e σ = some (Y, σA)) :
    ∃ s toks t, go e .arith (.op q) = .ok s ∧ expandL (glue q s) σ = some (toks, σA) ∧
      evalSh t = evalSh (.unary q Y) ∧ Cls e' o m toks t := by
  obtain ⟨s, toks, t, hg, hex, he, hc⟩ := hA 0 σ Y σA (.op q) hok hr
  have hd := clsO_tight hc hne (by decide) hna
  have hgl : glue q s = pt q :: s := by
    unfold glue
    split
    · rename_i r
      by_cases hm : q = .minus
      · subst hm
        exact absurd rfl (no_lead_minus (Or.inl rfl) hok (hl rfl) hg r)
      · rw [if_neg hm]
    · rfl
  refine ⟨s, .p q :: toks, .unary q t, hg, ?_, ?_, cls_tight (D.unary hq (D.ofUnary hd))⟩
  · rw [hgl]; exact ex_tok hex
  · simp only [isoUnary, List.mem_cons, List.not_mem_nil, or_false] at hq
    rcases hq with rfl | rfl | rfl | rfl | rfl | rfl <;> simp_all [evalSh]

theorem claims (e : X) : AClaim e ∧ BClaim e ∧ LClaim e ∧ QClaim e := by
  induction e with
  | int v =>
    refine ⟨?_, ?_, L_fatal rfl, Q_fatal fun _ => rfl⟩
    · intro m σ Y σA o _ hr
      simp [res] at hr; have := ret_some hr; injection this with e1 e2; subst e1 e2
      refine ⟨[pn v], [.num v], .num v, ?_, ex_tok (ex_nil _), rfl, cls_tight (D_num _)⟩
      simp [go, wrapInt]
    · intro σ Y σA o _ _ hr
      simp [res] at hr; have := ret_some hr; injection this with e1 e2; subst e1 e2
      refine ⟨[pn v], ?_, ?_⟩
      · simp [go, wrapInt]
      · simp [word, evalSh]
  | hex v =>
    have hA : AClaim (.hex v) := by
      intro m σ Y σA o _ hr
      simp [res] at hr; have := ret_some hr; injection this with e1 e2; subst e1 e2
      exact ⟨[pn v], [.num v], .num v, by simp [go, wrapIf, needParens], ex_tok (ex_nil _), rfl,
        cls_tight (D_num _)⟩
    exact ⟨hA, B_of_A (fun o => by simp [go, wrapIf, needParens]) hA, L_fatal rfl, Q_fatal fun _ => rfl⟩
  | var x =>
    refine ⟨?_, ?_, ?_, Q_fatal fun _ => rfl⟩
    · intro m σ Y σA o _ hr
      simp [res] at hr; have := ret_some hr; injection this with e1 e2; subst e1 e2
      exact ⟨_, _, .ident (enc (.var x)), rfl, ex_tok (ex_nil _), rfl, cls_tight (D_id _)⟩
    · intro σ Y σA o _ _ hr
      simp [res] at hr; have := ret_some hr; injection this with e1 e2; subst e1 e2
      exact ⟨_, rfl, by simp [word, evalSh, dec_enc, State.get]⟩
    · intro σ y σA _ hr
      simp [resL] at hr; have := ret_some hr; injection this with e1 e2; subst e1 e2
      exact ⟨_, rfl, ex_tok (ex_nil _)⟩
  | deref e ih =>
    obtain ⟨_, ihB, _, _⟩ := ih
    have hA : AClaim (.deref e) := by
      intro m σ Y σA o hok hr
      simp [ok] at hok
      simp only [res] at hr
      obtain ⟨y, σ1, h1, hr⟩ := bnd_some hr
      obtain ⟨a, σ2, h2, hr⟩ := bnd_some hr
      have := ret_some hr; injection this with e1 e2; subst e1 e2
      obtain ⟨w, hw, hv⟩ := ihB σ y σ1 (.op .star) hok.1 hok.2 h1
      refine ⟨[.cell w], [.ident (enc (.cell a))], _, ?_, ex_cell (hv.trans h2), rfl, cls_tight (D_id _)⟩
      simp [go, hw, wrapIf, needParens]
    refine ⟨hA, B_of_A (fun o => ?_) hA, ?_, Q_fatal fun _ => rfl⟩
    · simp [go, wrapIf, needParens, Res.bind_assoc]
    · intro σ x σA hok hr
      simp [okL] at hok
      simp only [resL] at hr
      obtain ⟨y, σ1, h1, hr⟩ := bnd_some hr
      obtain ⟨a, σ2, h2, hr⟩ := bnd_some hr
      have := ret_some hr; injection this with e1 e2; subst e1 e2
      obtain ⟨w, hw, hv⟩ := ihB σ y σ1 .zero hok.1 hok.2 h1
      refine ⟨[.cell w], ?_, ex_cell (hv.trans h2)⟩
      simp [lv, hw]
  | plus e ih =>
    obtain ⟨ihA, ihB, _, _⟩ := ih
    refine ⟨?_, ?_, L_fatal rfl, Q_fatal fun _ => rfl⟩
    · intro m σ Y σA o hok hr
      obtain ⟨ps, toks, t, h1, h2, h3, h4⟩ := ihA m σ Y σA o (by simpa [ok] using hok) (by simpa [res] using hr)
      exact ⟨ps, toks, t, by simpa [go] using h1, h2, h3, by simpa [Cls, ClsO, top, isComma, isBin] using h4⟩
    · intro σ Y σA o hok hn hr
      simpa [go] using ihB σ Y σA o (by simpa [ok] using hok) (by simpa [isNegLit] using hn) (by simpa [res] using hr)
  | parens e ih =>
    obtain ⟨ihA, ihB, _, _⟩ := ih
    refine ⟨?_, ?_, L_fatal rfl, Q_fatal fun _ => rfl⟩
    · intro m σ Y σA o hok hr
      obtain ⟨ps, toks, t, h1, h2, h3, h4⟩ := ihA m σ Y σA o (by simpa [ok] using hok) (by simpa [res] using hr)
      exact ⟨ps, toks, t, by simpa [go] using h1, h2, h3, by simpa [Cls, ClsO, top, isComma, isBin] using h4⟩
    · intro σ Y σA o hok hn hr
      simpa [go] using ihB σ Y σA o (by simpa [ok] using hok) (by simpa [isNegLit] using hn) (by simpa [res] using hr)
  | cast e ih =>
    obtain ⟨ihA, ihB, ihL, _⟩ := ih
    refine ⟨?_, ?_, ?_, Q_fatal fun _ => rfl⟩
    · intro m σ Y σA o hok hr
      obtain ⟨ps, toks, t, h1, h2, h3, h4⟩ := ihA m σ Y σA .castOp (by simpa [ok] using hok) (by simpa [res] using hr)
      refine ⟨ps, toks, t, by simpa [go] using h1, h2, h3, ?_⟩
      unfold Cls at h4
      rw [if_neg (by simp), if_neg (by simp)] at h4
      rcases h4 with h | ⟨hm, h⟩ | ⟨q, hq, _⟩
      · exact cls_tight h
      · exact cls_two h hm rfl
      · cases hq
    · intro σ Y σA o hok hn hr
      simpa [go] using ihB σ Y σA .castOp (by simpa [ok] using hok) (by simpa [isNegLit] using hn) (by simpa [res] using hr)
    · intro σ x σA hok hr
      simpa [lv] using ihL σ x σA (by simpa [okL] using hok) (by simpa [resL] using hr)
  | neg e ih =>
    obtain ⟨ihA, _, _, _⟩ := ih
    by_cases hi : ∃ v, e = .int v
    · obtain ⟨v, rfl⟩ := hi
      refine ⟨?_, ?_, L_fatal rfl, Q_fatal fun _ => rfl⟩
      · intro m σ Y σA o _ hr
        simp only [res] at hr
        obtain ⟨y, σ1, h1, hr⟩ := bnd_some hr
        have := ret_some h1; injection this with e1 e2; subst e1 e2
        have := ret_some hr; injection this with e1 e2; subst e1 e2
        by_cases hv : v = 0
        · subst hv
          exact ⟨[pn 0], [.num 0], .num 0, rfl, ex_tok (ex_nil _), rfl, cls_tight (D_num _)⟩
        · refine ⟨[pt .minus, pn v], [.p .minus, .num v], .unary .minus (.num v), ?_,
            ex_tok (ex_tok (ex_nil _)), rfl, cls_tight (D.unary (by decide) (D.ofUnary (D_num _)))⟩
          simp only [go, wrapInt]
          rw [if_pos (by omega)]
          simp
      · intro σ Y σA o _ hn _
        simp [isNegLit] at hn
    · have hgo : ∀ c o, go (.neg e) c o = (go e .arith (.op .minus)).bind fun s =>
          .ok (wrapIf false c (glue .minus s) o (some .minus)) := by
        intro c o
        cases e <;> first | rfl | exact absurd ⟨_, rfl⟩ hi
      have hA : AClaim (.neg e) := by
        intro m σ Y σA o hok hr
        have hok' : ok e 0 = true ∧ isNeg e = false := by
          cases e <;> first | (simpa [ok, isInt] using hok) | exact absurd ⟨_, rfl⟩ hi
        simp only [res] at hr
        obtain ⟨y, σ1, h1, hr⟩ := bnd_some hr
        have := ret_some hr; injection this with e1 e2; subst e1 e2
        obtain ⟨s, toks, t, hg, hex, he, hc⟩ := unary_case (q := .minus) ihA (by decide) rfl (by decide)
          (fun _ => hok'.2) m o (.neg e) hok'.1 h1
        exact ⟨_, toks, t, by rw [hgo, hg]; rfl, by simpa [wrapIf, needParens] using hex, he, hc⟩
      exact ⟨hA, B_of_A (fun o => by rw [hgo, hgo, Res.bind_assoc]; rfl) hA, L_fatal rfl, Q_fatal fun _ => rfl⟩
  | bnot e ih =>
    obtain ⟨ihA, _, _, _⟩ := ih
    have hgo : isInt e = false → ∀ c o, go (.bnot e) c o = (go e .arith (.op .tilde)).bind fun s =>
        .ok (wrapIf false c (glue .tilde s) o (some .tilde)) := by
      intro hi c o
      cases e <;> first | rfl | cases hi
    have hA : AClaim (.bnot e) := by
      intro m σ Y σA o hok hr
      have hok' : isInt e = false ∧ ok e 0 = true := by simpa [ok] using hok
      simp only [res] at hr
      obtain ⟨y, σ1, h1, hr⟩ := bnd_some hr
      have := ret_some hr; injection this with e1 e2; subst e1 e2
      obtain ⟨s, toks, t, hg, hex, he, hc⟩ := unary_case (q := .tilde) ihA (by decide) rfl (by decide)
        (fun h => by cases h) m o (.bnot e) hok'.2 h1
      exact ⟨_, toks, t, by rw [hgo hok'.1, hg]; rfl, by simpa [wrapIf, needParens] using hex, he, hc⟩
    refine ⟨hA, ?_, L_fatal rfl, Q_fatal fun _ => rfl⟩
    intro σ Y σA o hok hn hr
    have hi : isInt e = false := by simp [ok] at hok; exact hok.1
    exact B_of_A (fun o => by rw [hgo hi, hgo hi, Res.bind_assoc]; rfl) hA σ Y σA o hok hn hr
  | lnot e ih =>
    obtain ⟨ihA, _, _, _⟩ := ih
    have hgo : isInt e = false → ∀ c o, go (.lnot e) c o = (go e .arith (.op .excl)).bind fun s =>
        .ok (wrapIf false c (glue .excl s) o (some .excl)) := by
      intro hi c o
      cases e <;> first | rfl | cases hi
    have hA : AClaim (.lnot e) := by
      intro m σ Y σA o hok hr
      have hok' : isInt e = false ∧ ok e 0 = true := by simpa [ok] using hok
      simp only [res] at hr
      obtain ⟨y, σ1, h1, hr⟩ := bnd_some hr
      have := ret_some hr; injection this with e1 e2; subst e1 e2
      obtain ⟨s, toks, t, hg, hex, he, hc⟩ := unary_case (q := .excl) ihA (by decide) rfl (by decide)
        (fun h => by cases h) m o (.lnot e) hok'.2 h1
      exact ⟨_, toks, t, by rw [hgo hok'.1, hg]; rfl, by simpa [wrapIf, needParens] using hex, he, hc⟩
    refine ⟨hA, ?_, L_fatal rfl, Q_fatal fun _ => rfl⟩
    intro σ Y σA o hok hn hr
    have hi : isInt e = false := by simp [ok] at hok; exact hok.1
    exact B_of_A (fun o => by rw [hgo hi, hgo hi, Res.bind_assoc]; rfl) hA σ Y σA o hok hn hr
  | preinc l ih =>
    obtain ⟨_, _, ihL, _⟩ := ih
    have hA : AClaim (.preinc l) := by
      intro m σ Y σA o hok hr
      simp only [res] at hr
      obtain ⟨x, σ1, h1, hr⟩ := bnd_some hr
      have := ret_some hr; injection this with e1 e2; subst e1 e2
      obtain ⟨ps, hg, hex⟩ := ihL σ x _ (by simpa [ok] using hok) h1
      obtain ⟨toks, t, h2, h3, h4⟩ := cls_wrap (e := .preinc l) (o := o) (m := m) (inner := none)
        (ex_append hex (ex_tok (t := .p .pluseq) (ex_tok (t := .num 1) (ex_nil _))))
        (D.assign (q := .pluseq) (by decide) (D_id _) (D_unary_T (n := 12) (D_num 1)))
        (fun _ => by simp [top]) (fun q hq => by cases hq)
      exact ⟨_, toks, t, by simp [go, hg], h2, h3, h4⟩
    exact ⟨hA, B_of_A (fun o => by simp [go, wrapIf, needParens, Res.bind_assoc]) hA, L_fatal rfl, Q_fatal fun _ => rfl⟩
  | predec l ih =>
    obtain ⟨_, _, ihL, _⟩ := ih
    have hA : AClaim (.predec l) := by
      intro m σ Y σA o hok hr
      simp only [res] at hr
      obtain ⟨x, σ1, h1, hr⟩ := bnd_some hr
      have := ret_some hr; injection this with e1 e2; subst e1 e2
      obtain ⟨ps, hg, hex⟩ := ihL σ x _ (by simpa [ok] using hok) h1
      obtain ⟨toks, t, h2, h3, h4⟩ := cls_wrap (e := .predec l) (o := o) (m := m) (inner := none)
        (ex_append hex (ex_tok (t := .p .minuseq) (ex_tok (t := .num 1) (ex_nil _))))
        (D.assign (q := .minuseq) (by decide) (D_id _) (D_unary_T (n := 12) (D_num 1)))
        (fun _ => by simp [top]) (fun q hq => by cases hq)
      exact ⟨_, toks, t, by simp [go, hg], h2, h3, h4⟩
    exact ⟨hA, B_of_A (fun o => by simp [go, wrapIf, needParens, Res.bind_assoc]) hA, L_fatal rfl, Q_fatal fun _ => rfl⟩
  | postinc l ih =>
    obtain ⟨_, _, ihL, _⟩ := ih
    have hA : AClaim (.postinc l) := by
      intro m σ Y σA o hok hr
      simp [ok] at hok
      simp only [res] at hr
      obtain ⟨x, σ1, h1, hr⟩ := bnd_some hr
      have := ret_some hr; injection this with e1 e2; subst e1 e2
      obtain ⟨ps, hg, hex⟩ := ihL σ x _ hok.1 h1
      have hin : D false .assign ([.ident (enc x)] ++ .p .pluseq :: [.num 1]) _ :=
        D.assign (q := .pluseq) (by decide) (D_id _) (D_unary_T (n := 12) (D_num 1))
      have hd : D false (.bin 2) ((.p .lpar :: (([.ident (enc x)] ++ .p .pluseq :: [.num 1]) ++ [.p .rpar]))
          ++ .p .minus :: [.num 1]) (.bin .minus (.parens _) (.num 1)) :=
        D.bin (by decide) (D_unary_T (n := 2) (D_parens (n := 12) hin)) (D_unary_T (n := 1) (D_num 1))
      refine ⟨pt .lpar :: (ps ++ [pt .pluseq, pn 1, pt .rpar, pt .minus, pn 1]), _, _,
        by simp [go, hg, wrapIf, needParens], ex_tok (ex_append hex
        (ex_tok (ex_tok (ex_tok (ex_tok (ex_tok (ex_nil _))))))), ?_, cls_two (by simpa using hd) hok.2 rfl⟩
      simp [evalSh]
    exact ⟨hA, B_of_A (fun o => by simp [go, wrapIf, needParens, Res.bind_assoc]) hA, L_fatal rfl, Q_fatal fun _ => rfl⟩
  | postdec l ih =>
    obtain ⟨_, _, ihL, _⟩ := ih
    have hA : AClaim (.postdec l) := by
      intro m σ Y σA o hok hr
      simp [ok] at hok
      simp only [res] at hr
      obtain ⟨x, σ1, h1, hr⟩ := bnd_some hr
      have := ret_some hr; injection this with e1 e2; subst e1 e2
      obtain ⟨ps, hg, hex⟩ := ihL σ x _ hok.1 h1
      have hin : D false .assign ([.ident (enc x)] ++ .p .minuseq :: [.num 1]) _ :=
        D.assign (q := .minuseq) (by decide) (D_id _) (D_unary_T (n := 12) (D_num 1))
      have hd : D false (.bin 2) ((.p .lpar :: (([.ident (enc x)] ++ .p .minuseq :: [.num 1]) ++ [.p .rpar]))
          ++ .p .plus :: [.num 1]) (.bin .plus (.parens _) (.num 1)) :=
        D.bin (by decide) (D_unary_T (n := 2) (D_parens (n := 12) hin)) (D_unary_T (n := 1) (D_num 1))
      refine ⟨pt .lpar :: (ps ++ [pt .minuseq, pn 1, pt .rpar, pt .plus, pn 1]), _, _,
        by simp [go, hg, wrapIf, needParens], ex_tok (ex_append hex
        (ex_tok (ex_tok (ex_tok (ex_tok (ex_tok (ex_nil _))))))), ?_, cls_two (by simpa using hd) hok.2 rfl⟩
      simp [evalSh]
    exact ⟨hA, B_of_A (fun o => by simp [go, wrapIf, needParens, Res.bind_assoc]) hA, L_fatal rfl, Q_fatal fun _ => rfl⟩
  | addr l ih =>
    obtain ⟨_, _, _, ihQ⟩ := ih
    have hA : AClaim (.addr l) := by
      intro m σ Y σA o hok hr
      simp only [res] at hr
      obtain ⟨ps, toks, t, hg, hex, he, hd, hm⟩ := ihQ m σ Y σA hok hr
      exact ⟨ps, toks, t, by simp [go, hg, wrapIf, needParens], hex, he, cls_two hd hm rfl⟩
    exact ⟨hA, B_of_A (fun o => by simp [go, wrapIf, needParens, Res.bind_assoc]) hA, L_fatal rfl, Q_fatal fun _ => rfl⟩
  | bin q a b iha ihb =>
    obtain ⟨ihA, _, _, _⟩ := iha
    obtain ⟨ihB, _, _, _⟩ := ihb
    have hA : AClaim (.bin q a b) := by
      intro m σ Y σA o hok hr
      simp only [ok, Bool.and_eq_true, decide_eq_true_eq] at hok
      obtain ⟨⟨⟨hl, oka⟩, okb⟩, hne⟩ := hok
      simp only [res] at hr
      obtain ⟨x, σ1, h1, hr⟩ := bnd_some hr
      obtain ⟨y, σ2, h2, hr⟩ := bnd_some hr
      have := ret_some hr; injection this with e1 e2; subst e1 e2
      obtain ⟨pa, ta, Ta, ga, exa, ea, ca⟩ := ihA _ σ x σ1 (.op q) oka h1
      obtain ⟨pb, tb, Tb, gb, exb, eb, cb⟩ := ihB _ _ y _ (.op q) okb h2
      obtain ⟨t, het, hd, hch⟩ := combine ca cb hl (by
        rintro ⟨h1, h2⟩; rw [h1, h2] at hne; simp at hne)
      have hlev := isoLevel_le q
      have hd' : D false (ntT (top (.bin q a b))) (ta ++ .p q :: tb) t := by
        show D false (ntT (isoLevel q)) _ _; unfold ntT; rw [if_pos hlev]; exact hd
      obtain ⟨toks, t', h3, h4, h5⟩ := cls_wrap (e := .bin q a b) (o := o) (m := m) (inner := some q)
        (ex_append exa (ex_tok exb)) hd' (fun _ => by simp only [top]; omega)
        (fun q' hq' has => by injection hq' with hq'; subst hq'; exact ⟨by simp [isBin], hch has⟩)
      refine ⟨_, toks, t', by simp only [go, ga, gb, Res.bind_ok], h3, ?_, h5⟩
      rw [h4, het, ea, eb]; simp [evalSh]
    exact ⟨hA, B_of_A (fun o => by simp [go, wrapIf, needParens, Res.bind_assoc]) hA, L_fatal rfl, Q_fatal fun _ => rfl⟩
  | comma a b iha ihb =>
    obtain ⟨ihA, _, _, _⟩ := iha
    obtain ⟨ihB, _, _, _⟩ := ihb
    have hA : AClaim (.comma a b) := by
      intro m σ Y σA o hok hr
      simp only [ok, Bool.and_eq_true] at hok
      obtain ⟨oka, okb⟩ := hok
      simp only [res] at hr
      obtain ⟨x, σ1, h1, hr⟩ := bnd_some hr
      obtain ⟨y, σ2, h2, hr⟩ := bnd_some hr
      have := ret_some hr; injection this with e1 e2; subst e1 e2
      obtain ⟨pa, ta, Ta, ga, exa, ea, ca⟩ := ihA _ σ x σ1 (.op .comma) oka h1
      obtain ⟨pb, tb, Tb, gb, exb, eb, cb⟩ := ihB _ _ y _ (.op .comma) okb h2
      have da := clsO_loose ca (by decide) rfl
      have db := clsO_loose cb (by decide) rfl
      have hd := D.comma (D_liftT (n := 2) (m := 13) da (by decide)) (D_liftT (n := 2) (m := 12) db (by decide))
      rw [Parse.commaSnoc_of_ne (Parse.D_not_comma da (by simp))] at hd
      obtain ⟨toks, t', h3, h4, h5⟩ := cls_wrap (e := .comma a b) (o := o) (m := m) (inner := some .comma)
        (ex_append exa (ex_tok exb)) hd (fun h => by simp [isComma] at h)
        (fun q' hq' has => by injection hq' with hq'; subst hq'; cases has)
      refine ⟨_, toks, t', by simp only [go, ga, gb, Res.bind_ok], h3, ?_, h5⟩
      rw [h4]; simp [evalSh, ea, eb]
    exact ⟨hA, B_of_A (fun o => by simp [go, wrapIf, needParens, Res.bind_assoc]) hA, L_fatal rfl, Q_fatal fun _ => rfl⟩
  | cond c a b ihc iha ihb =>
    obtain ⟨ihC, _, _, _⟩ := ihc
    obtain ⟨ihA, _, _, _⟩ := iha
    obtain ⟨ihB, _, _, _⟩ := ihb
    have hA : AClaim (.cond c a b) := by
      intro m σ Y σA o hok hr
      simp only [ok, Bool.and_eq_true] at hok
      obtain ⟨⟨okc, oka⟩, okb⟩ := hok
      simp only [res] at hr
      obtain ⟨z, σ0, h0, hr⟩ := bnd_some hr
      obtain ⟨x, σ1, h1, hr⟩ := bnd_some hr
      obtain ⟨y, σ2, h2, hr⟩ := bnd_some hr
      have := ret_some hr; injection this with e1 e2; subst e1 e2
      obtain ⟨pc, tc, Tc, gc, exc, ec, cc⟩ := ihC _ σ z σ0 (.op .quest) okc h0
      obtain ⟨pa, ta, Ta, ga, exa, ea, ca⟩ := ihA _ σ0 x σ1 (.op .quest) oka h1
      obtain ⟨pb, tb, Tb, gb, exb, eb, cb⟩ := ihB _ _ y _ (.op .quest) okb h2
      have dc := clsO_loose cc (by decide) rfl
      have da := clsO_loose ca (by decide) rfl
      have db := clsO_loose cb (by decide) rfl
      have hd := D.cond (D_bin_lift dc (k := 10) (by decide) (by decide))
        (D_liftT (n := 2) (m := 13) da (by decide)) (D_liftT (n := 2) (m := 11) db (by decide))
      obtain ⟨toks, t', h3, h4, h5⟩ := cls_wrap (e := .cond c a b) (o := o) (m := m) (inner := some .quest)
        (ex_append exc (ex_tok (ex_append exa (ex_tok exb)))) hd (fun _ => by simp [top])
        (fun q' hq' has => by injection hq' with hq'; subst hq'; cases has)
      refine ⟨_, toks, t', by simp only [go, gc, ga, gb, Res.bind_ok], h3, ?_, h5⟩
      rw [h4]; simp [evalSh, ea, eb, ec]
    exact ⟨hA, B_of_A (fun o => by simp [go, wrapIf, needParens, Res.bind_assoc]) hA, L_fatal rfl, Q_fatal fun _ => rfl⟩
  | assign q l e ihl ihe =>
    obtain ⟨_, _, ihL, _⟩ := ihl
    obtain ⟨ihA, _, _, _⟩ := ihe
    have hA : AClaim (.assign q l e) := by
      intro m σ Y σA o hok hr
      simp only [ok, Bool.and_eq_true, decide_eq_true_eq] at hok
      obtain ⟨⟨⟨hq, okl⟩, oke⟩, hne⟩ := hok
      simp only [res] at hr
      obtain ⟨x, σ1, h1, hr⟩ := bnd_some hr
      obtain ⟨y, σ2, h2, hr⟩ := bnd_some hr
      have := ret_some hr; injection this with e1 e2; subst e1 e2
      obtain ⟨pa, ga, exa⟩ := ihL σ x σ1 okl h1
      obtain ⟨pb, tb, Tb, gb, exb, eb, cb⟩ := ihA _ _ y _ (.op q) oke h2
      have hna : isAssoc q = false := by
        revert hq; cases q <;> decide
      have db : D false .assign tb Tb := by
        by_cases hqe : q = .eq
        · subst hqe
          unfold Cls at cb
          rw [if_neg (by simp), if_pos rfl] at cb
          exact cb (by simpa using hne)
        · exact D_liftT (n := 2) (m := 12) (clsO_loose cb hqe hna) (by decide)
      have hd := D.assign hq (D_id (enc x)) db
      obtain ⟨toks, t', h3, h4, h5⟩ := cls_wrap (e := .assign q l e) (o := o) (m := m) (inner := some q)
        (ex_append exa (ex_tok exb)) hd (fun _ => by simp [top])
        (fun q' hq' has => by injection hq' with hq'; subst hq'; rw [hna] at has; cases has)
      refine ⟨_, toks, t', by simp only [go, ga, gb, Res.bind_ok], h3, ?_, h5⟩
      rw [h4]; simp [evalSh, eb]
    exact ⟨hA, B_of_A (fun o => by simp [go, wrapIf, needParens, Res.bind_assoc]) hA, L_fatal rfl, Q_fatal fun _ => rfl⟩
  | index a b iha ihb =>
    obtain ⟨ihA, _, _, _⟩ := iha
    obtain ⟨ihB, _, _, _⟩ := ihb
    have hA : AClaim (.index a b) := by
      intro m σ Y σA o hok hr
      simp only [ok, Bool.and_eq_true] at hok
      simp only [res] at hr
      obtain ⟨x, σ1, h1, hr⟩ := bnd_some hr
      obtain ⟨y, σ2, h2, hr⟩ := bnd_some hr
      obtain ⟨p, σ3, h3, hr⟩ := bnd_some hr
      have := ret_some hr; injection this with e1 e2; subst e1 e2
      obtain ⟨pa, ta, Ta, ga, exa, ea, ca⟩ := ihA _ σ x σ1 (.op .plus) hok.1 h1
      obtain ⟨pb, tb, Tb, gb, exb, eb, cb⟩ := ihB _ _ y _ (.op .plus) hok.2 h2
      obtain ⟨t, het, hd⟩ := sum (clsPlus ca) (clsPlus cb)
      refine ⟨_, _, .ident (enc (.cell p)), by simp only [go, ga, gb, Res.bind_ok, wrapIf, needParens]; rfl, ex_cell ?_, rfl, cls_tight (D_id _)⟩
      rw [word_exp (ex_append exa (ex_tok exb)) (D_liftT (n := 2) (m := 13) hd (by decide)), het, ea, eb]
      simpa [evalSh] using h3
    refine ⟨hA, B_of_A (fun o => by simp [go, wrapIf, needParens, Res.bind_assoc]) hA, ?_, ?_⟩
    · intro σ x σA hok hr
      simp only [okL, Bool.and_eq_true, decide_eq_true_eq] at hok
      obtain ⟨⟨⟨oka, okb⟩, topa⟩, topb⟩ := hok
      simp only [resL] at hr
      obtain ⟨x, σ1, h1, hr⟩ := bnd_some hr
      obtain ⟨y, σ2, h2, hr⟩ := bnd_some hr
      obtain ⟨p, σ3, h3, hr⟩ := bnd_some hr
      have := ret_some hr; injection this with e1 e2; subst e1 e2
      obtain ⟨pa, ta, Ta, ga, exa, ea, ca⟩ := ihA _ σ x _ .zero oka h1
      obtain ⟨pb, tb, Tb, gb, exb, eb, cb⟩ := ihB _ _ y _ .zero okb h2
      obtain ⟨t, het, hd⟩ := sum (clsZ2 ca topa) (clsZ2 cb topb)
      refine ⟨_, by simp only [lv, ga, gb, Res.bind_ok]; rfl, ex_cell ?_⟩
      rw [word_exp (ex_append exa (ex_tok exb)) (D_liftT (n := 2) (m := 13) hd (by decide)), het, ea, eb]
      simpa [evalSh] using h3
    · intro m σ Y σA hok hr
      simp only [ok, Bool.and_eq_true, decide_eq_true_eq] at hok
      obtain ⟨⟨⟨⟨hm, oka⟩, okb⟩, topa⟩, topb⟩ := hok
      simp only [resA] at hr
      obtain ⟨x, σ1, h1, hr⟩ := bnd_some hr
      obtain ⟨y, σ2, h2, hr⟩ := bnd_some hr
      have := ret_some hr; injection this with e1 e2; subst e1 e2
      obtain ⟨pa, ta, Ta, ga, exa, ea, ca⟩ := ihA _ σ x _ .zero oka h1
      obtain ⟨pb, tb, Tb, gb, exb, eb, cb⟩ := ihB _ _ y _ .zero okb h2
      obtain ⟨t, het, hd⟩ := sum (clsZ2 ca topa) (clsZ2 cb topb)
      refine ⟨_, _, t, by simp only [lvAddr, ga, gb, Res.bind_ok], ex_append exa (ex_tok exb), ?_, hd, hm⟩
      rw [het, ea, eb]; simp [evalSh]
  | arrow a off iha =>
    obtain ⟨ihA, _, _, _⟩ := iha
    have hA : AClaim (.arrow a off) := by
      intro m σ Y σA o hok hr
      simp only [ok] at hok
      simp only [res] at hr
      obtain ⟨x, σ1, h1, hr⟩ := bnd_some hr
      obtain ⟨p, σ3, h3, hr⟩ := bnd_some hr
      have := ret_some hr; injection this with e1 e2; subst e1 e2
      obtain ⟨pa, ta, Ta, ga, exa, ea, ca⟩ := ihA _ σ x σ1 (.op .arrow) hok h1
      have hd := sum_num (clsO_loose ca (by decide) rfl) off
      refine ⟨_, _, .ident (enc (.cell p)), by simp only [go, ga, Res.bind_ok, wrapIf, needParens]; rfl, ex_cell ?_, rfl, cls_tight (D_id _)⟩
      rw [word_exp (ex_append exa (ex_tok (ex_tok (ex_nil _)))) (D_liftT (n := 2) (m := 13) hd (by decide))]
      simpa [evalSh, ea] using h3
    refine ⟨hA, B_of_A (fun o => by simp [go, wrapIf, needParens, Res.bind_assoc]) hA, ?_, ?_⟩
    · intro σ x σA hok hr
      simp only [okL, Bool.and_eq_true, decide_eq_true_eq] at hok
      obtain ⟨oka, topa⟩ := hok
      simp only [resL] at hr
      obtain ⟨x, σ1, h1, hr⟩ := bnd_some hr
      obtain ⟨p, σ3, h3, hr⟩ := bnd_some hr
      have := ret_some hr; injection this with e1 e2; subst e1 e2
      obtain ⟨pa, ta, Ta, ga, exa, ea, ca⟩ := ihA _ σ x _ .zero oka h1
      have hd := sum_num (clsZ2 ca topa) off
      refine ⟨_, by simp only [lv, ga, Res.bind_ok]; rfl, ex_cell ?_⟩
      rw [word_exp (ex_append exa (ex_tok (ex_tok (ex_nil _)))) (D_liftT (n := 2) (m := 13) hd (by decide))]
      simpa [evalSh, ea] using h3
    · intro m σ Y σA hok hr
      simp only [ok, Bool.and_eq_true, decide_eq_true_eq] at hok
      obtain ⟨⟨hm, oka⟩, topa⟩ := hok
      simp only [resA] at hr
      obtain ⟨x, σ1, h1, hr⟩ := bnd_some hr
      have := ret_some hr; injection this with e1 e2; subst e1 e2
      obtain ⟨pa, ta, Ta, ga, exa, ea, ca⟩ := ihA _ σ x _ .zero oka h1
      have hd := sum_num (clsZ2 ca topa) off
      refine ⟨_, _, _, by simp only [lvAddr, ga, Res.bind_ok], ex_append exa (ex_tok (ex_tok (ex_nil _))), ?_, hd, hm⟩
      simp [evalSh, ea]

end Verif.Arith
