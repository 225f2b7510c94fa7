import Verif.Arith.Proofs5
/-! C11: the arithmetic text emitted for a C expression has the value and the effects of the
expression. -/
namespace Verif.Arith
open Verif Spec
open Verif.Parse (P Tok E parse)

/-- **C11** (partial: the shapes excluded by `ok` and `ord` are miscompiled, see below).
If C gives the expression a value, then the text printed for `$(( … ))` expands, parses by the ISO
grammar and evaluates in the 64-bit arithmetic of the shell to the same value, leaving every
variable and heap cell as C does. -/
theorem C11_arith_text_partial (e : X) (σ : State) (r : Int × State)
    (hok : ok e 13 = true) (hord : ord e = true) (hin : InR σ) (h : evalC e σ = some r) :
    ∃ ps, compArith e = .ok ps ∧ arith ps σ = some r := by
  obtain ⟨Y, σA, hr, hv⟩ := (main_ind e).1 13 σ r.1 r.2 hok hord hin h
  obtain ⟨ps, toks, t, hg, hex, he, hc⟩ := (claims e).1 13 σ Y σA .zero hok hr
  exact ⟨ps, hg, by rw [arith, word_exp hex (clsZE hc), he, hv]⟩

/-- The same for a word (`RVALUE_CTX_BASE`: an argument, an array index, a heap address). -/
theorem C11_word_partial (e : X) (σ : State) (r : Int × State)
    (hok : ok e 13 = true) (hord : ord e = true) (hneg : isNegLit e = false) (hin : InR σ)
    (h : evalC e σ = some r) : ∃ w, compBase e = .ok w ∧ word w σ = some r := by
  obtain ⟨Y, σA, hr, hv⟩ := (main_ind e).1 13 σ r.1 r.2 hok hord hin h
  obtain ⟨w, hw, he⟩ := (claims e).2.1 σ Y σA .zero hok hneg hr
  exact ⟨w, hw, by rw [he, hv]⟩

/-- An assignment target denotes the location C designates. -/
theorem C11_lvalue_partial (l : X) (σ : State) (x : LV) (σ' : State)
    (hok : okL l = true) (hord : ordL l = true) (hin : InR σ) (h : lvalC l σ = some (x, σ')) :
    ∃ ps, lv l = .ok ps ∧ expandL ps σ = some ([.ident (enc x)], σ') :=
  (claims l).2.2.1 σ x σ' hok ((main_ind l).2.1 σ x σ' hok hord hin h)

/-! ### Expressions that only read memory: no side conditions on evaluation order -/

/-- Expressions without assignments, whose heap addresses use no division and no shift; a literal
is not an operand of `~` and `!`, a negation not one of `-`, and the right operand of `==` is not
itself a `==`. -/
inductive ReadOnly : X → Prop where
  | int (v) : ReadOnly (.int v)
  | hex (v) : ReadOnly (.hex v)
  | var (x) : ReadOnly (.var x)
  | plus {e} : ReadOnly e → ReadOnly (.plus e)
  | parens {e} : ReadOnly e → ReadOnly (.parens e)
  | cast {e} : ReadOnly e → ReadOnly (.cast e)
  | neg {e} : ReadOnly e → isNeg e = false → ReadOnly (.neg e)
  | bnot {e} : ReadOnly e → isInt e = false → ReadOnly (.bnot e)
  | lnot {e} : ReadOnly e → isInt e = false → ReadOnly (.lnot e)
  | bin {q a b} : (∃ k, q ∈ Parse.Spec.isoOps k) → ReadOnly a → ReadOnly b →
      ¬ (q = .eqeq ∧ isBin .eqeq b = true) → ReadOnly (.bin q a b)
  | comma {a b} : ReadOnly a → ReadOnly b → ReadOnly (.comma a b)
  | cond {c a b} : ReadOnly c → ReadOnly a → ReadOnly b → ReadOnly (.cond c a b)
  | deref {e} : ReadOnly e → pureTotal e = true → isNegLit e = false → ReadOnly (.deref e)
  | index {a b} : ReadOnly a → ReadOnly b → pureTotal a = true → pureTotal b = true →
      ReadOnly (.index a b)
  | arrow {a} (off) : ReadOnly a → pureTotal a = true → ReadOnly (.arrow a off)

theorem isoLevel_of_mem {q : P} (h : ∃ k, q ∈ Parse.Spec.isoOps k) : 1 ≤ Parse.Spec.isoLevel q := by
  obtain ⟨k, hk⟩ := h
  unfold Parse.Spec.isoOps at hk
  split at hk <;> simp at hk <;> (try rcases hk with rfl | rfl | rfl | rfl) <;>
    (try rcases hk with rfl | rfl | rfl) <;> (try rcases hk with rfl | rfl) <;> (try subst hk) <;> decide

theorem ReadOnly.facts {e} (h : ReadOnly e) : (∀ m, ok e m = true) ∧ ord e = true ∧
    bWrites e = false ∧ aWr e = [] ∧ noCellWr e = true ∧ wr e = [] ∧ condAddr e = true := by
  induction h with
  | int | hex | var => simp [ok, ord, bWrites, aWr, noCellWr, wr, condAddr]
  | plus _ ih | parens _ ih | cast _ ih =>
    obtain ⟨h1, h2, h3, h4, h5, h6, h7⟩ := ih
    simp [ok, ord, bWrites, aWr, noCellWr, wr, condAddr, h1, h2, h3, h4, h5, h6, h7]
  | neg _ hn ih | bnot _ hn ih | lnot _ hn ih =>
    obtain ⟨h1, h2, h3, h4, h5, h6, h7⟩ := ih
    simp [ok, ord, bWrites, aWr, noCellWr, wr, condAddr, h1, h2, h3, h4, h5, h6, h7, hn]
  | @bin q a b hq _ _ hne iha ihb =>
    obtain ⟨a1, a2, a3, a4, a5, a6, a7⟩ := iha
    obtain ⟨b1, b2, b3, b4, b5, b6, b7⟩ := ihb
    have hl := isoLevel_of_mem hq
    refine ⟨?_, ?_, by simp [bWrites, a3, b3], by simp [aWr, a4, b4], by simp [noCellWr, a5, b5],
      by simp [wr, a6, b6], by simp [condAddr, a7, b7]⟩
    · intro m
      simp only [ok, hl, a1, b1, Bool.and_eq_true, decide_eq_true_eq, true_and]
      cases h1 : (q == .eqeq) with
      | false => rfl
      | true =>
        cases h2 : isBin .eqeq b with
        | false => rfl
        | true => exact absurd ⟨by simpa using h1, h2⟩ hne
    · cases q <;> simp [ord, a2, b2, b7, a3, commute, b4]
  | comma _ _ iha ihb =>
    obtain ⟨a1, a2, a3, a4, a5, a6, a7⟩ := iha
    obtain ⟨b1, b2, b3, b4, b5, b6, b7⟩ := ihb
    simp [ok, ord, bWrites, aWr, noCellWr, wr, condAddr, *, commute]
  | cond _ _ _ ihc iha ihb =>
    obtain ⟨c1, c2, c3, c4, c5, c6, c7⟩ := ihc
    obtain ⟨a1, a2, a3, a4, a5, a6, a7⟩ := iha
    obtain ⟨b1, b2, b3, b4, b5, b6, b7⟩ := ihb
    simp [ok, ord, bWrites, aWr, noCellWr, wr, condAddr, *]
  | deref _ hp hn ih =>
    obtain ⟨h1, h2, h3, h4, h5, h6, h7⟩ := ih
    simp [ok, ord, bWrites, aWr, noCellWr, wr, condAddr, *]
  | index _ _ ha hb iha ihb =>
    obtain ⟨a1, a2, a3, a4, a5, a6, a7⟩ := iha
    obtain ⟨b1, b2, b3, b4, b5, b6, b7⟩ := ihb
    simp [ok, ord, bWrites, aWr, noCellWr, wr, condAddr, *, commute]
  | arrow off _ ha iha =>
    obtain ⟨a1, a2, a3, a4, a5, a6, a7⟩ := iha
    simp [ok, ord, bWrites, aWr, noCellWr, wr, condAddr, *]

/-- Reading expressions: every precedence, associativity, literal, comparison, shift, short-circuit
and conditional; every nesting. -/
theorem C11_read_only (e : X) (he : ReadOnly e) (σ : State) (hin : InR σ) (r : Int × State)
    (h : evalC e σ = some r) : ∃ ps, compArith e = .ok ps ∧ arith ps σ = some r :=
  C11_arith_text_partial e σ r (he.facts.1 13) he.facts.2.1 hin h

/-- Statements: `x = e` and `x op= e` for a variable, a cell `*p`, `a[i]`, `p->f` of reading
expressions. -/
theorem C11_assignment (q : P) (hq : q ∈ Parse.Spec.isoAssign) (l e : X) (he : ReadOnly e)
    (hc : isComma e = false) (hl : okL l = true) (hl' : ordL l = true) (σ : State) (hin : InR σ)
    (r : Int × State) (h : evalC (.assign q l e) σ = some r) :
    ∃ ps, compArith (.assign q l e) = .ok ps ∧ arith ps σ = some r := by
  refine C11_arith_text_partial _ σ r ?_ ?_ hin h
  · simp [ok, hq, hl, he.facts.1, hc]
  · simp [ord, hl', he.facts.2.1]

/-! ### Examples -/

/-- variables 0,1,2 = 5, 7, 100; cell 100+k holds 10 k -/
def σ0 : State where
  var := fun x => if x = 0 then 5 else if x = 1 then 7 else if x = 2 then 100 else 0
  cell := fun a => if 100 ≤ a ∧ a < 200 then 10 * (a - 100) else 0

def valC (e : X) : Option Int := (evalC e σ0).map (·.1)
def valSh (e : X) : Option Int :=
  match compArith e with
  | .ok ps => (arith ps σ0).map (·.1)
  | _ => none

theorem σ0_in : InR σ0 := by
  constructor
  · intro x
    simp only [σ0]
    split
    · decide
    · split
      · decide
      · split <;> decide
  · intro a
    simp only [σ0]
    split
    · constructor <;> omega
    · decide

/-- `(x + 2) * (y - (x - 3)) << 1 == 70 && p[x & 3] > -1 ? ~x : 0` -/
def ex1 : X :=
  .cond (.bin .andand
    (.bin .eqeq (.bin .shl (.bin .star (.parens (.bin .plus (.var 0) (.int 2)))
      (.parens (.bin .minus (.var 1) (.parens (.bin .minus (.var 0) (.int 3)))))) (.int 1)) (.int 70))
    (.bin .gt (.index (.var 2) (.bin .amp (.var 0) (.int 3))) (.neg (.int 1))))
    (.bnot (.var 0)) (.int 0)

example : ok ex1 13 = true ∧ ord ex1 = true ∧ valC ex1 = some (-6) ∧ valSh ex1 = some (-6) := by
  decide +kernel

/-- `p[x++] = y += 3, x + y` -/
def ex2 : X :=
  .comma (.assign .eq (.index (.var 2) (.postinc (.var 0))) (.assign .pluseq (.var 1) (.int 3)))
    (.bin .plus (.var 0) (.var 1))

example : ok ex2 13 = true ∧ ord ex2 = true ∧ valC ex2 = some 16 ∧ valSh ex2 = some 16 := by
  decide +kernel

example : ReadOnly ex1 := by
  refine .cond (.bin ⟨9, by decide⟩ (.bin ⟨5, by decide⟩ (.bin ⟨3, by decide⟩
    (.bin ⟨1, by decide⟩ (.parens (.bin ⟨2, by decide⟩ (.var _) (.int _) (by decide)))
      (.parens (.bin ⟨2, by decide⟩ (.var _) (.parens (.bin ⟨2, by decide⟩ (.var _) (.int _) (by decide))) (by decide)))
      (by decide)) (.int _) (by decide)) (.int _) (by decide))
    (.bin ⟨4, by decide⟩ (.index (.var _) (.bin ⟨6, by decide⟩ (.var _) (.int _) (by decide)) rfl rfl)
      (.neg (.int _) rfl) (by decide)) (by decide)) (.bnot (.var _) rfl) (.int _)

/-! ### The excluded shapes are miscompiled

Each line: the C value, then the value of the emitted text. -/

/-- C11 fails in general: `~5` is printed `-5`. -/
theorem C11_false : ¬ ∀ (e : X) (σ : State) (r : Int × State), InR σ → evalC e σ = some r →
    ∃ ps, compArith e = .ok ps ∧ arith ps σ = some r := by
  intro h
  obtain ⟨ps, hc, ha⟩ := h (.bnot (.int 5)) σ0 (-6, σ0) σ0_in rfl
  have : valSh (.bnot (.int 5)) = some (-6) := by simp [valSh, hc, ha]
  exact absurd this (by decide +kernel)

/-- `!5` is printed `-5`. -/
theorem C11_lnot_literal_false : valC (.lnot (.int 5)) = some 0 ∧ valSh (.lnot (.int 5)) = some (-5) := by
  decide +kernel
/-- `1 == (x == 5)` is printed `1 == x == 5`. -/
theorem C11_eq_assoc_false :
    valC (.bin .eqeq (.int 1) (.parens (.bin .eqeq (.var 0) (.int 5)))) = some 1 ∧
    valSh (.bin .eqeq (.int 1) (.parens (.bin .eqeq (.var 0) (.int 5)))) = some 0 := by decide +kernel
/-- `x = (y, 3)` is printed `x = y, 3`: the value is right but `x` is 7. -/
theorem C11_assign_comma_false :
    valC (.bin .plus (.assign .eq (.var 0) (.parens (.comma (.var 1) (.int 3)))) (.var 0)) = some 6 ∧
    valSh (.bin .plus (.assign .eq (.var 0) (.parens (.comma (.var 1) (.int 3)))) (.var 0)) = some 10 := by
  decide +kernel
/-- `2 * x++` is printed `2 * (x += 1) - 1`. -/
theorem C11_mul_postinc_false :
    valC (.bin .star (.int 2) (.postinc (.var 0))) = some 10 ∧
    valSh (.bin .star (.int 2) (.postinc (.var 0))) = some 11 := by decide +kernel
/-- `y - x++` is printed `y - (x += 1) - 1`. -/
theorem C11_minus_postinc_false :
    valC (.bin .minus (.var 1) (.postinc (.var 0))) = some 2 ∧
    valSh (.bin .minus (.var 1) (.postinc (.var 0))) = some 0 := by decide +kernel
/-- `- -x` is printed `--x`. -/
theorem C11_neg_neg_false :
    valC (.neg (.neg (.var 0))) = some 5 ∧ valSh (.neg (.neg (.var 0))) = some 4 := by decide +kernel
/-- `p[x & 3] = 1` assigns `_$((p + x & 3))`. -/
theorem C11_lvalue_index_false :
    valC (.comma (.assign .eq (.index (.var 2) (.bin .amp (.var 0) (.int 3))) (.int 9)) (.int 0)) = some 0 ∧
    (match lv (.index (.var 2) (.bin .amp (.var 0) (.int 3))) with
     | .ok ps => (expandL ps σ0).map (·.1)
     | _ => none) = some [.ident (enc (.cell 1))] ∧
    (lvalC (.index (.var 2) (.bin .amp (.var 0) (.int 3))) σ0).map (·.1) = some (.cell 101) := by
  decide +kernel
/-- `y - &p[x]` is printed `y - p + x`. -/
theorem C11_addr_false :
    valC (.bin .minus (.var 1) (.addr (.index (.var 2) (.var 0)))) = some (-98) ∧
    valSh (.bin .minus (.var 1) (.addr (.index (.var 2) (.var 0)))) = some (-88) := by decide +kernel
/-- `(*p) = 4` is an error of the shell: `p = 4` is printed with `$p` as target. -/
theorem C11_parens_lvalue_false :
    valC (.assign .eq (.parens (.deref (.var 2))) (.int 4)) = some 4 ∧
    valSh (.assign .eq (.parens (.deref (.var 2))) (.int 4)) = none := by decide +kernel
/-- `n && a[x / n]` with `n = 0`: the division is expanded before `&&`. -/
theorem C11_short_circuit_false :
    valC (.bin .andand (.var 9) (.index (.var 2) (.bin .slash (.var 0) (.var 9)))) = some 0 ∧
    valSh (.bin .andand (.var 9) (.index (.var 2) (.bin .slash (.var 0) (.var 9)))) = none := by
  decide +kernel
/-- `p = p + 1, *p` reads the cell of the old `p`. -/
theorem C11_stale_address_false :
    valC (.comma (.assign .eq (.var 2) (.bin .plus (.var 2) (.int 1))) (.deref (.var 2))) = some 10 ∧
    valSh (.comma (.assign .eq (.var 2) (.bin .plus (.var 2) (.int 1))) (.deref (.var 2))) = some 0 := by
  decide +kernel

end Verif.Arith
