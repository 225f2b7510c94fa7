import Verif.RtPrintf.Main
/-! C47: the `printf` of the shell runtime prints what C's does.

`printf n mem (p :: words)` is a call of the runtime function (used when the format is not a literal) in a
memory `mem`, `n` bounding the rounds of its loops; `StrAt mem p fmt` says that the format is at `p`,
`WordsOf mem args words` that the words are the integers of the call and the addresses of its strings;
`cOutput fmt args` is the output C prescribes, where it prescribes one. -/
namespace Verif.RtPrintf

/-- **C47** (partial).  For every format and arguments for which C prescribes an output, within the
restrictions of `okFmt` (no length modifier, no `.` without a number, no negative `*` precision, no
negative `*` width for `c`, no `*` width of 0 for `s`; not negative arguments for `o u x X`, bytes for `c`,
strings not ending with a newline for `s`), the function terminates, has printed exactly that output, and
has not changed the memory.  Missing: the restrictions, the result (0 instead of the number of bytes
printed: `C47_result_false`), other conversions. -/
theorem C47_printf_partial {mem : Mem} {p : Int} {fmt : List Nat} {args : List Arg} {words : List Int}
    {out : List Nat} (hf : StrAt mem p fmt) (hw : WordsOf mem args words) (hc : cOutput fmt args = some out)
    (hok : okFmt (fmt.length + 1) fmt args = true) :
    ∃ N, ∀ n, N ≤ n → printf n mem (p :: words) = .ok ⟨0, mem, out⟩ := by
  simp only [cOutput, Option.map_eq_some_iff] at hc
  obtain ⟨⟨o, a⟩, hc, rfl⟩ := hc
  obtain ⟨q, st, ws, ⟨N, k, hr⟩, hs, _⟩ := run_fmt (u := []) (fmt.length + 1)
    (s := reset ⟨mem, p, false, 0, [], [], [], words, []⟩) (t := fmt) rfl rfl rfl rfl (by simpa [reset] using hf) hw hc hok
  refine ⟨N + 1 + k, fun n hn => ?_⟩
  obtain ⟨j, rfl⟩ : ∃ j, n = (j + 1) + k := ⟨n - 1 - k, by omega⟩
  simp only [StrAt, reset] at hs
  simp only [printf, hr (j + 1) (by omega)]
  simp only [loop, reset, hs]
  simp [R.bind]

theorem loop_exit {s s' : St} {c : Nat} {o : List Nat} (hr : Runs s s') (hm : s'.mod = true)
    (hc : s'.mem s'.ptr = some (c : Int)) (h1 : 1 ≤ c) (h2 : c ≤ 255) (M : Nat)
    (h : ∀ n, M ≤ n → modCase n c { s' with ptr := s'.ptr + 1 } = .exit 1 o) :
    ∃ N, ∀ n, N ≤ n → loop n s = .exit 1 o := by
  obtain ⟨N, k, hr⟩ := hr
  refine ⟨N + M + 1 + k, fun n hn => ?_⟩
  obtain ⟨j, rfl⟩ : ∃ j, n = (j + 1) + k := ⟨n - 1 - k, by omega⟩
  rw [hr (j + 1) (by omega), loop]
  simp only [hc]
  rw [if_neg (by omega)]
  simp only [round, octal_byte h2]
  rw [if_pos hm, h j (by omega)]
  rfl

/-- **C47** (the refusals).  A conversion character the function does not know, after any flags and after
any part of the format it handles: what precedes is printed as C prescribes, then the message with the
character, and the script exits with status 1: nothing is printed wrongly. -/
theorem C47_unknown_refused {mem : Mem} {p : Int} {pre fl r : List Nat} {c : Nat} {args rest : List Arg}
    {words : List Int} {out : List Nat} (hf : StrAt mem p (pre ++ 37 :: (fl ++ c :: r))) (hw : WordsOf mem args words)
    (hc : cPrintf (pre.length + 1) pre args = some (out, rest)) (hok : okFmt (pre.length + 1) pre args = true)
    (hfl : ∀ x ∈ fl, isFlag x = true) (hu : c ∉ [37, 100, 105, 111, 117, 120, 88, 99, 115, 42, 46, 10])
    (hu1 : isFlag c = false) (hu2 : isDigit c = false) :
    ∃ N, ∀ n, N ≤ n → printf n mem (p :: words) = .exit 1 (out ++ unknownMsg ++ [c, 10]) := by
  obtain ⟨q, st, ws, hr, hs, _⟩ := run_fmt (u := 37 :: (fl ++ c :: r)) (pre.length + 1)
    (s := reset ⟨mem, p, false, 0, [], [], [], words, []⟩) (t := pre) rfl rfl rfl rfl hf hw hc hok
  obtain ⟨h1, h2, h3, h4⟩ := hs
  simp only [List.mem_cons, List.not_mem_nil, or_false, not_or] at hu
  have r0 : Runs ⟨mem, q, false, st, [], [], [], ws, out⟩ ⟨mem, q + 1, true, q + 1, [], [], [], ws, out⟩ := by
    refine Runs.one h3 h1 0 fun k _ => ?_
    simp only [round, octal_byte h2]
    rw [if_neg (by simp), if_pos (by simp)]
  have r1 := run_flags (s := ⟨mem, q + 1, true, q + 1, [], [], [], ws, out⟩) rfl rfl rfl h4 hfl
  have h5 := StrAt.drop (l := fl) h4
  obtain ⟨g1, g2, g3, g4⟩ := h5
  have hr' : Runs (reset ⟨mem, p, false, 0, [], [], [], words, []⟩) ⟨mem, q, false, st, [], [], [], ws, out⟩ := by
    simpa [reset] using hr
  obtain ⟨N, hN⟩ := loop_exit (o := out ++ unknownMsg ++ [c, 10]) ((hr'.trans r0).trans r1) rfl g3 g1 g2 0 (by
    intro n _
    have hh : headChar c = [c] := headChar_eq (by omega)
    have ha : isSigned c = false := by
      cases hx : isSigned c with
      | false => rfl
      | true => rw [isSigned_iff] at hx; omega
    have hb : isUnsigned c = false := by
      cases hx : isUnsigned c with
      | false => rfl
      | true => rw [isUnsigned_iff] at hx; omega
    simp only [modCase, ha, hb, hu1, hu2, hh]
    rw [if_neg (by omega), if_neg (by simp), if_neg (by omega), if_neg (by omega), if_neg (by simp), if_neg (by simp),
      if_neg (by omega), if_neg (by omega)]
    simp)
  refine ⟨N, fun n hn => ?_⟩
  simp only [printf, hN n hn]
  rfl

/-- The text from `__mod_start` when the format is ended at `__fmt_ptr`. -/
theorem putPstr_cut {m : Mem} {t u : List Nat} {a : Int} (h : StrAt m a (t ++ u)) :
    ∀ n, t.length + 1 ≤ n → putPstr n (fun x => if x = a + t.length then some 0 else m x) a = .ok t := by
  intro n hn
  refine putPstr_ok ?_ n hn
  clear hn
  induction t generalizing a with
  | nil => simp [StrAt]
  | cons c t ih =>
    obtain ⟨h1, h2, h3, h4⟩ := h
    refine ⟨h1, h2, ?_, ?_⟩
    · show (if a = a + ((c :: t).length : Int) then some 0 else m a) = _
      rw [if_neg (by simp only [List.length_cons]; omega)]; exact h3
    · have := ih h4
      have e : a + ((c :: t).length : Int) = a + 1 + (t.length : Int) := by simp; omega
      rw [e]; exact this

/-- **C47** (the refusals).  A `.` not followed by digits or `*`: the script says which specification is
invalid and exits with status 1.  (C gives `%.d` a meaning: `C47_dot_false`.) -/
theorem C47_dot_refused {mem : Mem} {p : Int} {pre fl r : List Nat} {c : Nat} {args rest : List Arg}
    {words : List Int} {out : List Nat} (hf : StrAt mem p (pre ++ 37 :: (fl ++ 46 :: c :: r)))
    (hw : WordsOf mem args words)
    (hc : cPrintf (pre.length + 1) pre args = some (out, rest)) (hok : okFmt (pre.length + 1) pre args = true)
    (hfl : ∀ x ∈ fl, isFlag x = true) (hu1 : c ≠ 42) (hu2 : isDigit c = false) :
    ∃ N, ∀ n, N ≤ n → printf n mem (p :: words) = .exit 1 (out ++ invalidMsg ++ fl ++ [46, 10]) := by
  obtain ⟨q, st, ws, hr, hs, _⟩ := run_fmt (u := 37 :: (fl ++ 46 :: c :: r)) (pre.length + 1)
    (s := reset ⟨mem, p, false, 0, [], [], [], words, []⟩) (t := pre) rfl rfl rfl rfl hf hw hc hok
  obtain ⟨h1, h2, h3, h4⟩ := hs
  have r0 : Runs ⟨mem, q, false, st, [], [], [], ws, out⟩ ⟨mem, q + 1, true, q + 1, [], [], [], ws, out⟩ := by
    refine Runs.one h3 h1 0 fun k _ => ?_
    simp only [round, octal_byte h2]
    rw [if_neg (by simp), if_pos (by simp)]
  have r1 := run_flags (s := ⟨mem, q + 1, true, q + 1, [], [], [], ws, out⟩) rfl rfl rfl h4 hfl
  have h5 := StrAt.drop (l := fl) h4
  obtain ⟨g1, g2, g3, f1, f2, f3, f4⟩ := h5
  have hr' : Runs (reset ⟨mem, p, false, 0, [], [], [], words, []⟩) ⟨mem, q, false, st, [], [], [], ws, out⟩ := by
    simpa [reset] using hr
  obtain ⟨N, hN⟩ := loop_exit (o := out ++ invalidMsg ++ fl ++ [46, 10]) ((hr'.trans r0).trans r1) rfl g3 g1 g2
    (fl.length + 2) (by
    intro n hn
    have hcut := putPstr_cut (t := fl ++ [46]) (u := c :: r) (a := q + 1) (by simpa [reset] using h4) n (by simp; omega)
    have hd : ¬ (48 ≤ c ∧ c ≤ 57) := by
      intro hh; rw [(isDigit_iff c).mpr hh] at hu2; cases hu2
    have e : q + 1 + ((fl ++ [46]).length : Int) = q + 1 + (fl.length : Int) + 1 := by simp; omega
    rw [e] at hcut
    simp only [reset] at f3
    simp only [modCase, f3]
    rw [if_neg (by omega), if_neg (by decide), if_neg (by omega), if_neg (by omega), if_neg (by decide),
      if_neg (by decide), if_neg (by omega), if_pos trivial, if_neg (by omega), if_neg (by omega)]
    simp only [invalid, hcut, R.bind]
    simp)
  refine ⟨N, fun n hn => ?_⟩
  simp only [printf, hN n hn]
  rfl

/-- What a call printed and its result, if it returned; the output and status, if it exited. -/
def seen : R Done → List Nat × Int
  | .ok d => (d.out, d.ret)
  | .exit c o => (o, -1 - c)
  | _ => ([], -100)

/-- A memory with texts at addresses. -/
def memOf (l : List (Int × List Nat)) : Mem := fun a =>
  (l.findSome? fun q => if q.1 ≤ a ∧ a < q.1 + q.2.length then ((q.2.drop (a - q.1).toNat).head?).map fun (c : Nat) => (c : Int)
                        else if a = q.1 + q.2.length then some 0 else none)

/-- Non-vacuity: `printf("<%-5d|%05d|%x|%.3d|%*d|%c|%5s>%%\n", 42, -7, 255, 7, -4, 3, 65, "ab")`. -/
def demoFmt : List Nat :=
  [60, 37, 45, 53, 100, 124, 37, 48, 53, 100, 124, 37, 120, 124, 37, 46, 51, 100, 124, 37, 42, 100, 124, 37, 99, 124,
   37, 53, 115, 62, 37, 37, 10]
def demoArgs : List Arg := [.int 42, .int (-7), .int 255, .int 7, .int (-4), .int 3, .int 65, .str [97, 98]]
def demoMem : Mem := memOf [(1, demoFmt), (50, [97, 98])]
def demoOut : List Nat :=
  [60, 52, 50, 32, 32, 32, 124, 45, 48, 48, 48, 55, 124, 102, 102, 124, 48, 48, 55, 124, 51, 32, 32, 32, 124, 65, 124,
   32, 32, 32, 97, 98, 62, 37, 10]

/-- A string in memory, decided. -/
def strAtB (m : Mem) : Int → List Nat → Bool
  | a, [] => m a == some 0
  | a, c :: t => decide (1 ≤ c) && decide (c ≤ 255) && (m a == some (c : Int)) && strAtB m (a + 1) t

theorem strAt_of {m : Mem} {t : List Nat} : ∀ {a : Int}, strAtB m a t = true → StrAt m a t := by
  induction t with
  | nil => intro a h; simpa [strAtB, StrAt] using h
  | cons c t ih =>
    intro a h
    simp only [strAtB, Bool.and_eq_true, decide_eq_true_eq, beq_iff_eq] at h
    exact ⟨h.1.1.1, h.1.1.2, h.1.2, ih h.2⟩

example : cOutput demoFmt demoArgs = some demoOut := by decide +kernel
example : okFmt (demoFmt.length + 1) demoFmt demoArgs = true := by decide +kernel
theorem demo_str : StrAt demoMem 1 demoFmt := strAt_of (by decide +kernel)
theorem demo_words : WordsOf demoMem demoArgs [42, -7, 255, 7, -4, 3, 65, 50] :=
  ⟨_, _, rfl, rfl, _, _, rfl, rfl, _, _, rfl, rfl, _, _, rfl, rfl, _, _, rfl, rfl, _, _, rfl, rfl, _, _, rfl, rfl,
    _, _, rfl, strAt_of (by decide +kernel), rfl⟩
example : seen (printf 60 demoMem [1, 42, -7, 255, 7, -4, 3, 65, 50]) = (demoOut, 0) := by decide +kernel

/-- Non-vacuity of the refusals: `printf("a%-q")`, `printf("a%-.d", 5)`. -/
example : ∃ N, ∀ n, N ≤ n →
    printf n (memOf [(1, [97, 37, 45, 113])]) [1] = .exit 1 ([97] ++ unknownMsg ++ [113, 10]) :=
  C47_unknown_refused (pre := [97]) (fl := [45]) (c := 113) (r := []) (args := []) (rest := [])
    (strAt_of (by decide +kernel)) rfl (by decide +kernel) (by decide +kernel) (by decide) (by decide) (by decide) (by decide)
example : ∃ N, ∀ n, N ≤ n →
    printf n (memOf [(1, [97, 37, 45, 46, 100])]) [1, 5] = .exit 1 ([97] ++ invalidMsg ++ [45] ++ [46, 10]) :=
  C47_dot_refused (pre := [97]) (fl := [45]) (c := 100) (r := []) (args := [.int 5]) (rest := [.int 5])
    (strAt_of (by decide +kernel)) ⟨_, _, rfl, rfl, rfl⟩ (by decide +kernel) (by decide +kernel) (by decide) (by decide) (by decide)

/-- A call departs from C: C prescribes an output, the function prints another one or exits. -/
def Departs (fmt : List Nat) (args : List Arg) (mem : Mem) (words : List Int) : Prop :=
  ∃ out, StrAt mem 1 fmt ∧ WordsOf mem args words ∧ cOutput fmt args = some out ∧
    (seen (printf 40 mem (1 :: words))).1 ≠ out ∧ printf 40 mem (1 :: words) ≠ .diverge

/-- The full property is false: the result is 0 for `printf("a")`, which prints one byte. -/
theorem C47_result_false :
    cOutput [97] [] = some [97] ∧ StrAt (memOf [(1, [97])]) 1 [97] ∧
      seen (printf 40 (memOf [(1, [97])]) [1]) = ([97], 0) :=
  ⟨by decide +kernel, strAt_of (by decide +kernel), by decide +kernel⟩

theorem seen_ne {r : R Done} (h : (seen r).2 ≠ -100) : r ≠ .diverge := by
  intro e; subst e; exact h rfl

/-- `printf(f, "a\n")` with `f = "%s"` prints `a`: the newline is lost. -/
theorem C47_newline_false : Departs [37, 115] [.str [97, 10]] (memOf [(1, [37, 115]), (10, [97, 10])]) [10] :=
  ⟨[97, 10], strAt_of (by decide +kernel), ⟨_, _, rfl, strAt_of (by decide +kernel), rfl⟩, by decide +kernel,
    by decide +kernel, seen_ne (by decide +kernel)⟩

/-- `printf(f, -1)` with `f = "%x"` prints 16 digits instead of 8. -/
theorem C47_unsigned_false : Departs [37, 120] [.int (-1)] (memOf [(1, [37, 120])]) [-1] :=
  ⟨[102, 102, 102, 102, 102, 102, 102, 102], strAt_of (by decide +kernel), ⟨_, _, rfl, rfl, rfl⟩, by decide +kernel,
    by decide +kernel, seen_ne (by decide +kernel)⟩

/-- `printf(f, 5)` with `f = "%ld"` exits with status 1. -/
theorem C47_long_false : Departs [37, 108, 100] [.int 5] (memOf [(1, [37, 108, 100])]) [5] :=
  ⟨[53], strAt_of (by decide +kernel), ⟨_, _, rfl, rfl, rfl⟩, by decide +kernel,
    by decide +kernel, seen_ne (by decide +kernel)⟩

/-- `printf(f, 5)` with `f = "%.d"` exits with status 1. -/
theorem C47_dot_false : Departs [37, 46, 100] [.int 5] (memOf [(1, [37, 46, 100])]) [5] :=
  ⟨[53], strAt_of (by decide +kernel), ⟨_, _, rfl, rfl, rfl⟩, by decide +kernel,
    by decide +kernel, seen_ne (by decide +kernel)⟩

/-- `printf(f, -3, 'A')` with `f = "%*c"` prints no spaces. -/
theorem C47_char_width_false : Departs [37, 42, 99] [.int (-3), .int 65] (memOf [(1, [37, 42, 99])]) [-3, 65] :=
  ⟨[65, 32, 32], strAt_of (by decide +kernel), ⟨_, _, rfl, rfl, _, _, rfl, rfl, rfl⟩, by decide +kernel,
    by decide +kernel, seen_ne (by decide +kernel)⟩

end Verif.RtPrintf
