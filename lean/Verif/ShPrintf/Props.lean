import Verif.ShPrintf.Proofs
/-! C18: the output of a `printf` expanded at compile time. -/
namespace Verif.ShPrintf
open Verif Verif.ShStr Verif.ShStr.Spec

/-- C18. A `printf` with a constant format, expanded at compile time: whenever the compiler accepts the
call and C defines the output, the generated commands print it.  Missing: a `%s` after an integer
conversion (`NoStale`), `%s` with a lone `.`, a padded string ending with a newline (`GoodUse`), and the
side effects of the arguments. -/
theorem C18_printf_partial (L : Lay) {fmt : List Nat} {args : List Arg} {cmds : List Cmd} {out : List Nat}
    (hfmt : ∀ c ∈ fmt, 1 ≤ c ∧ c < 256)
    (hchr : ∀ a ∈ args, ∀ c, a.chr = some c → a.val = c)
    (hgood : ∀ u ∈ uses (fmt.length + 1) fmt args, GoodUse u)
    (hstale : NoStale false ((uses (fmt.length + 1) fmt args).map Prod.fst))
    (hcomp : handlePrintfCall fmt args = .ok cmds) (hC : cOut L fmt args = some out) :
    outs L cmds = some out := by
  unfold handlePrintfCall at hcomp
  rw [Res.bind_eq_ok] at hcomp
  obtain ⟨s, h1, h2⟩ := hcomp
  simp only [Res.ok.injEq] at h2
  subst h2
  have := main L (fmt.length + 1) fmt args out hC hfmt hchr hgood false hstale (fmt.length + 1) _ s [] [] rfl rfl rfl .nil
    rfl (fun _ => rfl) h1 (Nat.lt_succ_self _)
  simpa using this

theorem dq_lit_true {c : Nat} (h1 : 1 ≤ c) : ∃ f,
    (∀ rest, dquoted (escapeChar true c ++ rest) = (dquoted rest).map fun q => (f ++ q.1, q.2)) ∧ f ≠ [] ∧
    ∀ (L : Lay) n g ws, shPass L (n + 1) (f ++ g) ws = (shPass L n g ws).map fun p => (c :: p.1, p.2) := by
  by_cases h : c = 37
  · subst h
    refine ⟨[37, 37], ?_, by simp, ?_⟩
    · intro rest
      have e : ∀ r, dquoted (37 :: r) = (dquoted r).map fun q => (37 :: q.1, q.2) := by
        intro r; rw [dquoted.eq_def]; simp
      rw [show escapeChar true 37 = [37, 37] by decide]
      simp only [List.cons_append, List.nil_append, e]
      cases dquoted rest <;> simp
    · intro L n g ws
      simp [shPass]
  · have : escapeChar true c = escapeChar false c := by simp [escapeChar, h]
    rw [this]
    obtain ⟨f, g1, _, g2, g3, _⟩ := dq_lit h h1
    exact ⟨f, g1, g2, g3⟩

theorem literal_pass (L : Lay) : ∀ (s : List Nat), (∀ c ∈ s, 1 ≤ c ∧ c < 256) → ∃ f,
    (∀ rest, dquoted (escapeString true s ++ rest) = (dquoted rest).map fun q => (f ++ q.1, q.2)) ∧
    ∀ n, f.length < n → shPass L n f [] = some (s, [])
  | [], _ => ⟨[], fun rest => by simp [escapeString], fun n hn => by
      obtain ⟨n, rfl⟩ : ∃ k, n = k + 1 := ⟨n - 1, by omega⟩
      rfl⟩
  | c :: s, h => by
    obtain ⟨f, g1, g2⟩ := literal_pass L s (fun x hx => h x (List.mem_cons_of_mem _ hx))
    obtain ⟨f1, d1, d3, d4⟩ := dq_lit_true (h c (by simp)).1
    refine ⟨f1 ++ f, ?_, ?_⟩
    · intro rest
      simp only [escapeString, List.append_assoc]
      rw [d1, g1]
      cases dquoted rest <;> simp
    · intro n hn
      have : 0 < f1.length := List.length_pos_iff.mpr d3
      simp only [List.length_append] at hn
      obtain ⟨n, rfl⟩ : ∃ k, n = k + 1 := ⟨n - 1, by omega⟩
      rw [d4, g2 n (by omega)]
      rfl

/-- C18. `putstr` (also `puts` and `printf`) of one string constant prints exactly its bytes, whatever they are. -/
theorem C18_literal (L : Lay) (f : Fn) {s : List Nat} (h : ∀ c ∈ s, 1 ≤ c ∧ c < 256) :
    ∃ cmds, compCall f s [] = some (.ok cmds) ∧ outs L cmds = some s := by
  refine ⟨_, rfl, ?_⟩
  cases hs : s with
  | nil => rfl
  | cons c t =>
    rw [← hs]
    have e : printfCall s [] true = [.printf (decide (c = 45)) (escapeString true s) []] := by rw [hs]; rfl
    obtain ⟨g, g1, g2⟩ := literal_pass L s h
    have hd : dquoted (escapeString true s ++ [34]) = some (g, []) := by rw [g1 [34]]; simp [dquoted]
    have hno : ¬ (decide (c = 45) = false ∧ g.head? = some 45 ∧ g ≠ [45]) := by
      rintro ⟨h1, h2, _⟩
      rw [hs, escapeString, List.append_assoc] at hd
      exact dq_head hd (h c (by rw [hs]; simp)).1 (by simpa using h1) h2
    simp only [e, outs, Cmd.out, hd]
    rw [if_neg hno]
    simp only [shPrintf, List.map_nil, g2 _ (Nat.lt_succ_self _)]
    simp

/-- What C prints for a format without `%`. -/
theorem cOut_literal (L : Lay) : ∀ (n : Nat) (s : List Nat) (args : List Arg), 37 ∉ s → s.length < n → cPrintf L n s args = some s
  | 0, _, _, _, h => by omega
  | n + 1, [], _, _, _ => rfl
  | n + 1, c :: s, args, h, hn => by
    simp only [List.mem_cons, not_or] at h
    rw [cPrintf.eq_def]
    simp only
    rw [if_neg (fun e => h.1 e.symm), cOut_literal L n s args h.2 (by simp at hn; omega)]
    rfl

/-- C18. `printf("…")` with a single argument that contains no `%` prints what C prints. -/
theorem C18_single_partial (L : Lay) {s out : List Nat} (h : ∀ c ∈ s, 1 ≤ c ∧ c < 256) (hp : 37 ∉ s)
    (hC : cOut L s [] = some out) : ∃ cmds, compCall .printf s [] = some (.ok cmds) ∧ outs L cmds = some out := by
  unfold cOut at hC
  rw [cOut_literal L _ s [] hp (Nat.lt_succ_self _)] at hC
  simp only [Option.some.injEq] at hC
  subst hC
  exact C18_literal L .printf h

/-- C18 (as `C18_printf_partial`), for the call in the source: `printf` with a constant format and arguments is compiled to commands that print what C prints. -/
theorem C18_call_partial (L : Lay) {fmt : List Nat} {args : List Arg} {r : Res (List Cmd)} {cmds : List Cmd} {out : List Nat}
    (hfmt : ∀ c ∈ fmt, 1 ≤ c ∧ c < 256) (hchr : ∀ a ∈ args, ∀ c, a.chr = some c → a.val = c)
    (hgood : ∀ u ∈ uses (fmt.length + 1) fmt args, GoodUse u) (hstale : NoStale false ((uses (fmt.length + 1) fmt args).map Prod.fst))
    (hne : args ≠ []) (hcomp : compCall .printf fmt args = some r) (hr : r = .ok cmds) (hC : cOut L fmt args = some out) : outs L cmds = some out := by
  subst hr
  simp only [compCall, if_neg hne, if_true, Option.some.injEq] at hcomp
  exact C18_printf_partial L hfmt hchr hgood hstale hcomp hC

/-- C18. `printf` with arguments is always compiled inline, and `puts` and `putstr` with more than their argument never are. -/
theorem C18_which (f : Fn) (fmt : List Nat) {args : List Arg} (hne : args ≠ []) : (compCall f fmt args).isSome ↔ f = .printf := by
  cases f <;> simp [compCall, hne]

/-- C18. `putchar(c)` prints the byte `c`, for a character constant as well as for a computed value. -/
theorem C18_putchar (L : Lay) {a : Arg} (hc : ∀ c, a.chr = some c → a.val = c) (h0 : 0 ≤ a.val) (h1 : a.val < 256) :
    outs L [compPutcharInline a] = some [a.val.toNat] := by
  rw [outs_one]; exact putchar_out L hc h0 h1

/-! ### Where the statement fails -/

/-- A layout: decimal for integers, strings truncated to the precision. -/
def demo : Lay where
  int _ _ v := ShIO.decimal v
  str s _ x := if s.dot then (match s.prec with | .lit ds => x.take (ds.foldl (fun n d => 10 * n + (d - 48)) 0) | _ => []) else x
  plain s x _ h := by simp [h]

def iarg (v : Int) : Arg := ⟨none, v, []⟩
def sarg (s : List Nat) : Arg := ⟨none, 0, s⟩

/-- C18. `printf("%d %s %d", 1, "x", 2)` does not print `1 x 2`: the words collected before the `%s` are
given again to the next `printf`. -/
theorem C18_stale_false : ¬ ∀ (fmt : List Nat) (args : List Arg) (cmds : List Cmd) (out : List Nat),
    (∀ c ∈ fmt, 1 ≤ c ∧ c < 256) → handlePrintfCall fmt args = .ok cmds → cOut demo fmt args = some out →
    outs demo cmds = some out := by
  intro h
  have := h [37, 100, 32, 37, 115, 32, 37, 100] [iarg 1, sarg [120], iarg 2]
    [.printf false [37, 100, 32] [.val (iarg 1)], .pstr (sarg [120]), .printf false [32, 37, 100] [.val (iarg 1), .val (iarg 2)]]
    [49, 32, 120, 32, 50] (by decide) (by decide +kernel) (by decide +kernel)
  revert this
  decide +kernel

/-- C18. `printf("100%%")` prints both `%`. -/
theorem C18_single_false : ¬ ∀ (fmt : List Nat) (cmds : List Cmd) (out : List Nat),
    (∀ c ∈ fmt, 1 ≤ c ∧ c < 256) → compCall .printf fmt [] = some (.ok cmds) → cOut demo fmt [] = some out →
    outs demo cmds = some out := by
  intro h
  have := h [49, 48, 48, 37, 37] [.printf false [49, 48, 48, 37, 37, 37, 37] []] [49, 48, 48, 37] (by decide) (by decide +kernel) (by decide +kernel)
  revert this
  decide +kernel

/-- C18. `puts("x")` prints no newline at the end. -/
theorem C18_puts_false : ¬ ∀ (s : List Nat) (cmds : List Cmd), (∀ c ∈ s, 1 ≤ c ∧ c < 256) →
    compCall .puts s [] = some (.ok cmds) → outs demo cmds = some (s ++ [10]) := by
  intro h
  have := h [120] [.printf false [120] []] (by decide) (by decide +kernel)
  revert this
  decide +kernel

/-- C18. `printf("%.s", "abc")` prints the string, which C truncates to nothing. -/
theorem C18_dot_false : ¬ ∀ (fmt : List Nat) (args : List Arg) (cmds : List Cmd) (out : List Nat),
    (∀ c ∈ fmt, 1 ≤ c ∧ c < 256) → NoStale false ((uses (fmt.length + 1) fmt args).map Prod.fst) →
    handlePrintfCall fmt args = .ok cmds → cOut demo fmt args = some out → outs demo cmds = some out := by
  intro h
  have := h [37, 46, 115] [sarg [97, 98, 99]] [.pstr (sarg [97, 98, 99])] [] (by decide) (by simp [uses, parseSpec, parseNum, parsePrec, isFlagChar, isDigit, Spec.stars, NoStale])
    (by decide +kernel) (by decide +kernel)
  revert this
  decide +kernel

/-- C18. `printf("%9s", "x\n")` loses the newline, which the command substitution removes. -/
theorem C18_newline_false : ¬ ∀ (fmt : List Nat) (args : List Arg) (cmds : List Cmd) (out : List Nat),
    (∀ c ∈ fmt, 1 ≤ c ∧ c < 256) → NoStale false ((uses (fmt.length + 1) fmt args).map Prod.fst) →
    handlePrintfCall fmt args = .ok cmds → cOut demo fmt args = some out → outs demo cmds = some out := by
  intro h
  have := h [37, 46, 57, 115] [sarg [120, 10]] [.printf false [37, 46, 57, 115] [.sub (sarg [120, 10])]] [120, 10] (by decide)
    (by simp [uses, parseSpec, parseNum, parsePrec, isFlagChar, isDigit, Spec.stars, NoStale])
    (by decide +kernel) (by decide +kernel)
  revert this
  decide +kernel

/-! ### The hypotheses are met -/

/-- `printf("%s is %d%% of %-5lx%c\n", "ab", 7, 255, 'x')`. -/
def exFmt : List Nat := [37, 115, 32, 105, 115, 32, 37, 100, 37, 37, 32, 111, 102, 32, 37, 45, 53, 108, 120, 37, 99, 10]
def exArgs : List Arg := [sarg [97, 98], iarg 7, iarg 255, ⟨some 120, 120, []⟩]

example : ∃ cmds, handlePrintfCall exFmt exArgs = .ok cmds ∧ cOut demo exFmt exArgs =
      some [97, 98, 32, 105, 115, 32, 55, 37, 32, 111, 102, 32, 50, 53, 53, 120, 10] ∧
    outs demo cmds = some [97, 98, 32, 105, 115, 32, 55, 37, 32, 111, 102, 32, 50, 53, 53, 120, 10] ∧
    (uses (exFmt.length + 1) exFmt exArgs).map (fun u => u.1.ch) = [115, 100, 120, 99] := by
  refine ⟨[.pstr (sarg [97, 98]),
    .printf false [32, 105, 115, 32, 37, 100, 37, 37, 32, 111, 102, 32, 37, 45, 53, 108, 120] [.val (iarg 7), .val (iarg 255)],
    .printf false [120] [], .printf false [92, 110] []], ?_, ?_, ?_, ?_⟩ <;> decide +kernel

example : NoStale false ((uses (exFmt.length + 1) exFmt exArgs).map Prod.fst) := by
  have : (uses (exFmt.length + 1) exFmt exArgs).map Prod.fst =
    [⟨[], .no, false, .no, 0, 115⟩, ⟨[], .no, false, .no, 0, 100⟩, ⟨[45], .lit [53], false, .no, 1, 120⟩, ⟨[], .no, false, .no, 0, 99⟩] := by
    decide +kernel
  rw [this]
  simp [NoStale]

end Verif.ShPrintf
