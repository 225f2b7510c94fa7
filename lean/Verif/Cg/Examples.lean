import Verif.Cg.Props
/-! Examples and counterexamples for C29 and C30. -/
namespace Verif.Cg
open Verif Verif.Gen Verif.Gen.Spec Verif.X86 Verif.X86.Spec Spec

/-- No structs. -/
def T0 : Tags := ⟨fun _ => 0, fun _ _ => none, fun _ _ => none⟩
def C8 : Ctx := { w := 8, T := T0, lim := 4096 }
def C4 : Ctx := { w := 4, T := T0, lim := 4096 }

abbrev tInt : CTy := .int false
abbrev tUint : CTy := .int true
abbrev tChar : CTy := .char false

/-- A state with the arguments in the words from `sp` on. -/
def stOf (w : Nat) (sp G : Int) (vs : List Int) : MS :=
  ⟨fun r => if r = 4 then sp else if r = 3 then G else 0,
   fun a => (uns w (vs.getD ((a - sp) / w).toNat 0) / 256 ^ ((a - sp) % w).toNat % 256).toNat, 0, 0, []⟩

/-- The code of the functions and a call of the function `f` at its end. -/
def codeOf (C : Ctx) (p : Program) (f : Nat) : List Asm :=
  match codegen_funs C.w C.T (envOf p id) p.funs 1000 with
  | .ok (c, _) => c ++ [.call f]
  | _ => []

/-- AX after the call. -/
def runCall (C : Ctx) (p : Program) (f : Nat) (vs : List Int) : Option Int :=
  (runTo C.w 4096 (codeOf C p f) (codeOf C p f).length 1000 ((codeOf C p f).length - 1) (stOf C.w 1048576 2097152 vs)).map (·.reg 0)

/-- Returned value in C. -/
def cCall (C : Ctx) (p : Program) (f : Nat) (vs : List Int) : Option Int :=
  (call C p.fn (p.env 2097152) 100 f vs 1048576 ⟨fun _ => none, []⟩).map (·.1)

def blk : List St → St
  | [] => .bnil
  | s :: ss => .bstmt s (blk ss)

/-- `int fact(int n) { if (n <= 1) return 1; return n * fact(n - 1); }`,
`int sum(int n) { int s = 0; int i; for (i = 0; i < n; i++) { switch (i % 3) { case 0: continue; case 1: s += fact(i); break; default: s = s - 1; } } return s; }` -/
def pEx : Program where
  globals := []
  enums := []
  funs := [
    ⟨1, [(10, tInt)], tInt, blk [.ifte (.bin .le (.var 10) (.num 1)) (.ret (some (.num 1))) .skip,
      .ret (some (.bin .mul (.var 10) (.call 1 (.acons (.bin .sub (.var 10) (.num 1)) .anil))))]⟩,
    ⟨2, [(10, tInt)], tInt, .bdecl 11 tInt (some (.num 0)) (.bdecl 12 tInt none (blk [
      .forr (.expr (.assign (.var 12) (.num 0))) (some (.bin .lt (.var 12) (.var 10))) (.expr (.incdec true false (.var 12)))
        (.blk (blk [.switch (.bin .mod (.var 12) (.num 3)) (.blk (blk [
          .case (.num 0) .cont,
          .case (.num 1) (.expr (.opassign .add (.var 11) (.call 1 (.acons (.var 12) .anil)))), .brk,
          .dflt (.expr (.assign (.var 11) (.bin .sub (.var 11) (.num 1))))]))])),
      .ret (some (.var 11))]))⟩]

example : cCall C8 pEx 2 [6] = some 23 := by decide +kernel
example : runCall C8 pEx 2 [6] = some 23 := by decide +kernel
example : ∀ f ∈ pEx.funs, SupF C8 (envOf pEx id) pEx.kind f = true := by decide +kernel
theorem stOf_rel {C : Ctx} (hw : C.w = 4 ∨ C.w = 8) (vs : List Int) : Rel C 2097152 1048576 ⟨fun _ => none, []⟩ (stOf C.w 1048576 2097152 vs) := by
  have a : sgn C.w 1048576 = 1048576 := by rcases hw with e | e <;> rw [e] <;> decide +kernel
  have b : sgn C.w 2097152 = 2097152 := by rcases hw with e | e <;> rw [e] <;> decide +kernel
  have c : sgn C.w 0 = 0 := by rcases hw with e | e <;> rw [e] <;> decide +kernel
  refine ⟨?_, ?_, ?_, ?_, rfl⟩
  · intro r
    simp only [stOf]
    split
    · exact a
    · split
      · exact b
      · exact c
  · rw [a]; rfl
  · rw [b]; rfl
  · intro a b h; cases h

/-- Check of `StrAt`. -/
def strAtB (C : Ctx) (base : Int) (P : List Asm) : Bool := (List.range P.length).all fun i => match P[i]? with
  | some (.data k _) => C.strAt k == adr C.w base P i
  | _ => true
theorem strAtB_ok {C : Ctx} {base : Int} {P : List Asm} (h : strAtB C base P = true) : StrAt C base P := by
  intro i k bs hi
  have hl : i < P.length := by
    rcases Nat.lt_or_ge i P.length with h | h
    · exact h
    · rw [List.getElem?_eq_none h] at hi; cases hi
  have := (List.all_eq_true.1 h) i (List.mem_range.2 hl)
  simp only [hi] at this
  simpa using this

theorem codeOf_loaded {C : Ctx} {p : Program} {f : Nat} (hw : C.w = 4 ∨ C.w = 8) (hg : p.globals = [])
    (hc : (codeOf C p f).isEmpty = false) (hstr : strAtB C 4096 (codeOf C p f) = true := by decide +kernel) : Loaded C p id 2097152 4096 (codeOf C p f) ∧ (codeOf C p f)[(codeOf C p f).length - 1]? = some (.call f) := by
  have hstr := strAtB_ok hstr
  unfold codeOf at *
  split at hc
  · rename_i c l e
    rw [e] at hstr
    refine ⟨.of_funs (i := 0) hw e (fun i hi => ?_) (fun v hv => by rw [hg] at hv; cases hv) hstr, by simp⟩
    rw [Nat.zero_add, List.getElem?_append_left hi]
  · cases hc

theorem le_of_lt' {w n : Nat} (hw : w = 4 ∨ w = 8) (hl : n ≤ 10) : (1048576 : Int) + ((n * w : Nat) : Int) ≤ (2 ^ (8 * w) : Nat) := by
  have : n * w ≤ 10 * 8 := Nat.mul_le_mul hl (by omega)
  have h2 : 4294967296 ≤ 2 ^ (8 * w) := by rcases hw with e | e <;> rw [e] <;> decide
  omega

/-- The call at the end of the code, in the state `stOf`. -/
theorem call_stOf {C : Ctx} {p : Program} {f : Nat} {vs : List Int} {v : Int} {r : CTy} (hw : C.w = 4 ∨ C.w = 8) (hlim : C.lim = 4096)
    (hg : p.globals = []) (hk : p.kind f = some (.fn r)) (hr : r ≠ .void) (hl : vs.length ≤ 10)
    (ha : ∀ i (h : i < vs.length), word C.w (stOf C.w 1048576 2097152 vs).mem (1048576 + i * C.w) = sgn C.w vs[i])
    (hc : (codeOf C p f).isEmpty = false) (h1 : cCall C p f vs = some v)
    (hright : CallRight C 4096 p id 2097152 (codeOf C p f)) (hstr : strAtB C 4096 (codeOf C p f) = true := by decide +kernel) :
    ∃ s', Steps C.w 4096 (codeOf C p f) ((codeOf C p f).length - 1, stOf C.w 1048576 2097152 vs) ((codeOf C p f).length, s') ∧
      s'.reg 0 = sgn C.w v := by
  obtain ⟨-, hcall⟩ := codeOf_loaded hw hg hc hstr
  unfold cCall at h1
  rw [Option.map_eq_some_iff] at h1
  obtain ⟨⟨v1, M'⟩, h1, rfl⟩ := h1
  have hlen : (codeOf C p f).length - 1 + 1 = (codeOf C p f).length := by
    cases h : codeOf C p f with
    | nil => rw [h] at hc; cases hc
    | cons a b => simp
  obtain ⟨s', e1, -, -, e2⟩ := hright f r _ _ vs 1048576 ⟨fun _ => none, []⟩ v1 M' hk hcall (stOf_rel hw vs)
    ⟨by omega, by rw [show ((vs.length : Int)) * C.w = ((vs.length * C.w : Nat) : Int) by simp]; exact le_of_lt' hw hl, fun a h => absurd rfl h⟩ ha ⟨100, h1⟩
  rw [hlen] at e1
  exact ⟨s', e1, e2 hr⟩

/-- A program on which C and the machine disagree. -/
theorem not_right {C : Ctx} {p : Program} {f : Nat} {vs : List Int} {v v' : Int} {r : CTy} (hw : C.w = 4 ∨ C.w = 8) (hlim : C.lim = 4096)
    (hg : p.globals = []) (hk : p.kind f = some (.fn r)) (hr : r ≠ .void) (hl : vs.length ≤ 10)
    (ha : ∀ i (h : i < vs.length), word C.w (stOf C.w 1048576 2097152 vs).mem (1048576 + i * C.w) = sgn C.w vs[i])
    (hc : (codeOf C p f).isEmpty = false)
    (hu : uniqB (codeOf C p f) [] = true) (hfit : adr C.w 4096 (codeOf C p f) (codeOf C p f).length < (2 ^ (8 * C.w - 1) : Nat))
    (h1 : cCall C p f vs = some v) (h2 : runCall C p f vs = some v') (hne : v' ≠ sgn C.w v) (hstr : strAtB C 4096 (codeOf C p f) = true := by decide +kernel) :
    Loaded C p id 2097152 4096 (codeOf C p f) ∧ ¬ CallRight C 4096 p id 2097152 (codeOf C p f) := by
  refine ⟨(codeOf_loaded hw hg hc hstr).1, fun hright => ?_⟩
  obtain ⟨s', e1, e2⟩ := call_stOf hw hlim hg hk hr hl ha hc h1 hright hstr
  unfold runCall at h2
  rw [Option.map_eq_some_iff] at h2
  obtain ⟨s2, h2, rfl⟩ := h2
  have := run_end hw (uniqB_ok hu) (by decide) hfit e1 (runTo_ok h2)
  subst this
  exact hne e2

/-- A program on which the machine gets stuck. -/
theorem not_right_stuck {C : Ctx} {p : Program} {f : Nat} {vs : List Int} {v : Int} {r : CTy} {n : Nat} (hw : C.w = 4 ∨ C.w = 8) (hlim : C.lim = 4096)
    (hg : p.globals = []) (hk : p.kind f = some (.fn r)) (hr : r ≠ .void) (hl : vs.length ≤ 10)
    (ha : ∀ i (h : i < vs.length), word C.w (stOf C.w 1048576 2097152 vs).mem (1048576 + i * C.w) = sgn C.w vs[i])
    (hc : (codeOf C p f).isEmpty = false)
    (hu : uniqB (codeOf C p f) [] = true) (hfit : adr C.w 4096 (codeOf C p f) (codeOf C p f).length < (2 ^ (8 * C.w - 1) : Nat))
    (h1 : cCall C p f vs = some v)
    (h2 : stuckIn C.w 4096 (codeOf C p f) n ((codeOf C p f).length - 1) (stOf C.w 1048576 2097152 vs) = true) (hstr : strAtB C 4096 (codeOf C p f) = true := by decide +kernel) :
    Loaded C p id 2097152 4096 (codeOf C p f) ∧ ¬ CallRight C 4096 p id 2097152 (codeOf C p f) := by
  refine ⟨(codeOf_loaded hw hg hc hstr).1, fun hright => ?_⟩
  obtain ⟨s', e1, e2⟩ := call_stOf hw hlim hg hk hr hl ha hc h1 hright hstr
  exact stuckIn_ok hw (uniqB_ok hu) (by decide) hfit h2 e1

/-- The hypotheses of `C30_call_partial` hold for the program above, and `sum(6)` is 23 on the machine. -/
example : ∃ s', Steps 8 4096 (codeOf C8 pEx 2) ((codeOf C8 pEx 2).length - 1, stOf 8 1048576 2097152 [6]) ((codeOf C8 pEx 2).length, s') ∧
    s'.reg 0 = 23 := by
  have hl := (codeOf_loaded (C := C8) (p := pEx) (f := 2) (.inr rfl) rfl (by decide +kernel)).1
  exact call_stOf (C := C8) (vs := [6]) (v := 23) (r := tInt) (.inr rfl) rfl rfl rfl (by simp) (by decide) (by decide +kernel) (by decide +kernel)
    (by decide +kernel) (C30_call_partial (fun _ _ _ => rfl) hl (by unfold Supported; decide +kernel))

/-- One function with name 1. -/
def one (ps : List (Nat × CTy)) (r : CTy) (b : St) : Program := ⟨[], [⟨1, ps, r, b⟩], [], []⟩

/-- `int f(int i) { do { i = i + 1; if (i < 3) continue; } while (i < 2); return i; }`: `continue` in a `do` loop does not evaluate the
condition (exe.c:2119: the loop's continue label is the start of the body).  `f(0)` is 2 in C, 3 in pnut. -/
def pDo : Program := one [(10, tInt)] tInt (blk [.doW (.blk (blk [.expr (.assign (.var 10) (.bin .add (.var 10) (.num 1))),
  .ifte (.bin .lt (.var 10) (.num 3)) .cont .skip])) (.bin .lt (.var 10) (.num 2)), .ret (some (.var 10))])

theorem C30_do_continue_false : Loaded C8 pDo id 2097152 4096 (codeOf C8 pDo 1) ∧ ¬ CallRight C8 4096 pDo id 2097152 (codeOf C8 pDo 1) :=
  not_right (vs := [0]) (v := 2) (v' := 3) (r := tInt) (.inr rfl) rfl rfl rfl (by simp) (by decide) (by decide +kernel) (by decide +kernel)
    (by decide +kernel) (by decide +kernel) (by decide +kernel) (by decide +kernel) (by decide +kernel)

/-- `unsigned f(unsigned u) { return (u + 1) / 2; }` on x86-64: the sum is not reduced to 32 bits. -/
def pDiv : Program := one [(10, tUint)] tUint (blk [.ret (some (.bin .div (.bin .add (.var 10) (.num 1)) (.num 2)))])
theorem C29_unsigned32_false : Loaded C8 pDiv id 2097152 4096 (codeOf C8 pDiv 1) ∧ ¬ CallRight C8 4096 pDiv id 2097152 (codeOf C8 pDiv 1) :=
  not_right (vs := [4294967295]) (v := 0) (v' := 2147483648) (r := tUint) (.inr rfl) rfl rfl rfl (by simp) (by decide) (by decide +kernel) (by decide +kernel)
    (by decide +kernel) (by decide +kernel) (by decide +kernel) (by decide +kernel) (by decide +kernel)

/-- `int f(int x) { return 1 && x; }`: the value of `&&` is not normalised to 0 or 1 (exe.c:1560-1577). -/
def pAnd : Program := one [(10, tInt)] tInt (blk [.ret (some (.land (.num 1) (.var 10)))])
theorem C29_and_value_false : Loaded C8 pAnd id 2097152 4096 (codeOf C8 pAnd 1) ∧ ¬ CallRight C8 4096 pAnd id 2097152 (codeOf C8 pAnd 1) :=
  not_right (vs := [5]) (v := 1) (v' := 5) (r := tInt) (.inr rfl) rfl rfl rfl (by simp) (by decide) (by decide +kernel) (by decide +kernel)
    (by decide +kernel) (by decide +kernel) (by decide +kernel) (by decide +kernel) (by decide +kernel)

/-- `int f(int x) { return sizeof("abc") + x; }`: pnut gives string literals the type `char *` (exe.c:822-989, 1681). -/
def pSizeStr : Program := one [(10, tInt)] tInt (blk [.ret (some (.bin .add (.sizeofE (.str 0 [97, 98, 99])) (.var 10)))])
theorem C29_sizeof_string_false : Loaded C8 pSizeStr id 2097152 4096 (codeOf C8 pSizeStr 1) ∧ ¬ CallRight C8 4096 pSizeStr id 2097152 (codeOf C8 pSizeStr 1) :=
  not_right (vs := [5]) (v := 9) (v' := 13) (r := tInt) (.inr rfl) rfl rfl rfl (by simp) (by decide) (by decide +kernel) (by decide +kernel)
    (by decide +kernel) (by decide +kernel) (by decide +kernel) (by decide +kernel) (by decide +kernel)

/-- `int f(int x, char c) { return (char)(x + c); }`: pnut takes the type of the right operand for the type of the sum, so that the cast does nothing. -/
def pCast : Program := one [(10, tInt), (11, tChar)] tInt (blk [.ret (some (.cast tChar (.bin .add (.var 10) (.var 11))))])
theorem C29_cast_false : Loaded C8 pCast id 2097152 4096 (codeOf C8 pCast 1) ∧ ¬ CallRight C8 4096 pCast id 2097152 (codeOf C8 pCast 1) :=
  not_right (vs := [300, 1]) (v := 45) (v' := 301) (r := tInt) (.inr rfl) rfl rfl rfl (by simp) (by decide) (by decide +kernel) (by decide +kernel)
    (by decide +kernel) (by decide +kernel) (by decide +kernel) (by decide +kernel) (by decide +kernel)

/-- `int f(int x) { char c; return c = x; }`: the value of an assignment is not converted. -/
def pAsg : Program := one [(10, tInt)] tInt (.bdecl 11 tChar none (blk [.ret (some (.assign (.var 11) (.var 10)))]))
theorem C29_assignment_value_false : Loaded C8 pAsg id 2097152 4096 (codeOf C8 pAsg 1) ∧ ¬ CallRight C8 4096 pAsg id 2097152 (codeOf C8 pAsg 1) :=
  not_right (vs := [300]) (v := 44) (v' := 300) (r := tInt) (.inr rfl) rfl rfl rfl (by simp) (by decide) (by decide +kernel) (by decide +kernel)
    (by decide +kernel) (by decide +kernel) (by decide +kernel) (by decide +kernel) (by decide +kernel)

/-- `char f(int x) { return x; }`: the returned value is not converted. -/
def pRet : Program := one [(10, tInt)] tChar (blk [.ret (some (.var 10))])
theorem C30_return_value_false : Loaded C8 pRet id 2097152 4096 (codeOf C8 pRet 1) ∧ ¬ CallRight C8 4096 pRet id 2097152 (codeOf C8 pRet 1) :=
  not_right (vs := [300]) (v := 44) (v' := 300) (r := tChar) (.inr rfl) rfl rfl rfl (by simp) (by decide) (by decide +kernel) (by decide +kernel)
    (by decide +kernel) (by decide +kernel) (by decide +kernel) (by decide +kernel) (by decide +kernel)

/-- `int f(int b) { int x; int *p = &x; return (b ? 0 : p) + 1 == p + 1; }`: the type of `?:` is that of its second operand, the pointer is not scaled. -/
def pCond : Program := one [(10, tInt)] tInt (.bdecl 11 tInt none (.bdecl 12 (.ptr tInt) (some (.addr (.var 11))) (blk [.ret (some (.bin .eq (.bin .add (.cond (.var 10) (.num 0) (.var 12)) (.num 1)) (.bin .add (.var 12) (.num 1))))])))
theorem C29_conditional_false : Loaded C8 pCond id 2097152 4096 (codeOf C8 pCond 1) ∧ ¬ CallRight C8 4096 pCond id 2097152 (codeOf C8 pCond 1) :=
  not_right (vs := [0]) (v := 1) (v' := 0) (r := tInt) (.inr rfl) rfl rfl rfl (by simp) (by decide) (by decide +kernel) (by decide +kernel)
    (by decide +kernel) (by decide +kernel) (by decide +kernel) (by decide +kernel) (by decide +kernel)

/-- `int f(unsigned char a, unsigned char b) { return (a - b) / 2; }`: no integer promotion. -/
def pPromo : Program := one [(10, .char true), (11, .char true)] tInt (blk [.ret (some (.bin .div (.bin .sub (.var 10) (.var 11)) (.num 2)))])
theorem C29_promotion_false : Loaded C8 pPromo id 2097152 4096 (codeOf C8 pPromo 1) ∧ ¬ CallRight C8 4096 pPromo id 2097152 (codeOf C8 pPromo 1) :=
  not_right (vs := [0, 2]) (v := -1) (v' := 9223372036854775807) (r := tInt) (.inr rfl) rfl rfl rfl (by simp) (by decide) (by decide +kernel) (by decide +kernel)
    (by decide +kernel) (by decide +kernel) (by decide +kernel) (by decide +kernel) (by decide +kernel)

/-- `int f(unsigned u) { switch (u) { case -1: return 7; } return 0; }` on x86-64: the constant is not converted. -/
def pCase : Program := one [(10, tUint)] tInt (blk [.switch (.var 10) (.blk (blk [.case (.neg (.num 1)) (.ret (some (.num 7)))])), .ret (some (.num 0))])
theorem C30_case_false : Loaded C8 pCase id 2097152 4096 (codeOf C8 pCase 1) ∧ ¬ CallRight C8 4096 pCase id 2097152 (codeOf C8 pCase 1) :=
  not_right (vs := [4294967295]) (v := 7) (v' := 0) (r := tInt) (.inr rfl) rfl rfl rfl (by simp) (by decide) (by decide +kernel) (by decide +kernel)
    (by decide +kernel) (by decide +kernel) (by decide +kernel) (by decide +kernel) (by decide +kernel)

/-- `int f(int x, int y) { switch (x) { case 0: x; int z; case 1: return y; } return 0; }`: the jump to `case 1` passes over the declaration, the compiler counts its word all the same. -/
def pSkip : Program := one [(10, tInt), (11, tInt)] tInt (blk [.switch (.var 10) (.blk (.bstmt (.case (.num 0) (.expr (.var 10))) (.bdecl 12 tInt none (blk [.case (.num 1) (.ret (some (.var 11)))])))), .ret (some (.num 0))])
theorem C30_switch_declaration_false : Loaded C8 pSkip id 2097152 4096 (codeOf C8 pSkip 1) ∧ ¬ CallRight C8 4096 pSkip id 2097152 (codeOf C8 pSkip 1) :=
  not_right_stuck (vs := [1, 7]) (v := 7) (n := 100) (r := tInt) (.inr rfl) rfl rfl rfl (by simp) (by decide) (by decide +kernel) (by decide +kernel)
    (by decide +kernel) (by decide +kernel) (by decide +kernel) (by decide +kernel)

end Verif.Cg
namespace Verif.Cg
open Verif Verif.Gen Verif.Gen.Spec Verif.X86 Verif.X86.Spec Spec

/-- `x = y * 2 + fact(3)` in a function with a parameter `y` and a local variable `x`. -/
def eEx : E := .assign (.var 20) (.bin .add (.bin .mul (.var 21) (.num 2)) (.call 1 (.acons (.num 3) .anil)))
def lsEx : List Local := [⟨20, 1, tInt, false⟩, ⟨21, -1, tInt, true⟩]
def cEx : List Asm := match codegen_rvalue 8 T0 { envOf pEx id with locals := lsEx, loops := [] } eEx 1 5000 with
  | .ok (c, _, _) => c
  | _ => []
def PEx : List Asm := match codegen_funs 8 T0 (envOf pEx id) pEx.funs 1000 with
  | .ok (c, _) => c ++ cEx
  | _ => []
/-- `y` holds 5, `x` has no value yet. -/
def MEx : Mem := .mk (io := []) fun a => if 1048584 ≤ a ∧ a < 1048588 then some (some (if a = 1048584 then 5 else 0)) else if 1048568 ≤ a ∧ a < 1048572 then some none else none

/-- The hypotheses of `C29_expression_partial` hold here: the word pushed is 16. -/
example : ∃ s', Steps 8 4096 PEx (PEx.length - cEx.length, stOf 8 1048568 2097152 [0, 0, 5]) (PEx.length - cEx.length + cEx.length, s') ∧
    word 8 s'.mem (1048560) = 16 := by
  have hl : Loaded C8 pEx id 2097152 4096 PEx := by
    have e : ∃ c l, codegen_funs 8 T0 (envOf pEx id) pEx.funs 1000 = .ok (c, l) ∧ PEx = c ++ cEx := ⟨_, _, rfl, rfl⟩
    obtain ⟨c, l, e, e2⟩ := e
    refine .of_funs (i := 0) (.inr rfl) e (fun i hi => ?_) (fun v hv => by cases hv) (strAtB_ok (by decide +kernel))
    rw [e2, Nat.zero_add, List.getElem?_append_left hi]
  have hf : FrameOk C8 lsEx 1048576 := ⟨by decide +kernel, by
    intro b hb _ n t
    simp only [lsEx, List.mem_cons, List.not_mem_nil, or_false] at hb
    rcases hb with rfl | rfl <;> simp⟩
  have hc : ∃ l, codegen_rvalue 8 T0 { envOf pEx id with locals := lsEx, loops := [] } eEx 1 5000 = .ok (cEx, 2, l) := ⟨_, rfl⟩
  obtain ⟨l, hc⟩ := hc
  have hv : ∃ M', evalE C8 (call C8 pEx.fn (pEx.env 2097152) 50) ((pEx.env 2097152).scope (frame C8 lsEx 1048576)) eEx (1048576 - 1 * 8) MEx = some (16, M') := by
    have : (evalE C8 (call C8 pEx.fn (pEx.env 2097152) 50) ((pEx.env 2097152).scope (frame C8 lsEx 1048576)) eEx (1048576 - 1 * 8) MEx).map (·.1) = some 16 := by
      decide +kernel
    rw [Option.map_eq_some_iff] at this
    obtain ⟨⟨v, M'⟩, h1, h2⟩ := this
    simp only at h2
    subst h2
    exact ⟨M', h1⟩
  obtain ⟨M', hv⟩ := hv
  obtain ⟨-, s', h1, -, -, -, h2⟩ := C29_expression_partial (C := C8) (base := 4096) (fun _ _ _ => rfl) hl (by unfold Supported; decide +kernel) hf
    (pc := PEx.length - cEx.length) (md := .low 8) (s := stOf 8 1048568 2097152 [0, 0, 5]) hc
    (fun i hi => by
      have e : ∃ c l, codegen_funs 8 T0 (envOf pEx id) pEx.funs 1000 = .ok (c, l) ∧ PEx = c ++ cEx := ⟨_, _, rfl, rfl⟩
      obtain ⟨c, l, e, e2⟩ := e
      rw [e2, List.length_append, Nat.add_sub_cancel, List.getElem?_append_right (by omega), Nat.add_sub_cancel_left])
    (by decide +kernel) (by unfold mdOk; decide)
    ⟨by
      intro r
      simp only [stOf]
      split
      · decide +kernel
      · split <;> decide +kernel, by decide +kernel, by decide +kernel, by
      intro a b h
      unfold MEx at h
      dsimp only at h
      split at h
      · rename_i hr
        simp only [Option.some.injEq] at h
        subst h
        have : ∀ j : Nat, j < 4 → (stOf 8 1048568 2097152 [0, 0, 5]).mem (1048584 + j) % 256 = if (1048584 : Int) + j = 1048584 then 5 else 0 := by decide +kernel
        have := this (a - 1048584).toNat (by omega)
        rw [show (1048584 : Int) + (a - 1048584).toNat = a by omega] at this
        exact this
      · split at h <;> (cases h), rfl⟩
    ⟨by decide, by decide +kernel, by
      intro a h
      unfold MEx at h
      dsimp only at h
      split at h
      · simp only [C8]; refine ⟨by omega, ?_, by omega⟩
        have : (2097152 : Int) < (2 ^ (8 * 8) : Nat) := by decide
        omega
      · split at h
        · simp only [C8]; refine ⟨by omega, ?_, by omega⟩
          have : (2097152 : Int) < (2 ^ (8 * 8) : Nat) := by decide
          omega
        · exact absurd rfl h⟩ hv
  refine ⟨s', h1, ?_⟩
  have := h2 rfl
  rw [show (1048576 : Int) - 1 * (C8.w : Int) - C8.w = 1048560 by decide] at this
  rw [show (8:Nat) = C8.w by rfl, this]; decide

/-- The same program on i386. -/
example : ∃ s', Steps 4 4096 (codeOf C4 pEx 2) ((codeOf C4 pEx 2).length - 1, stOf 4 1048576 2097152 [6]) ((codeOf C4 pEx 2).length, s') ∧
    s'.reg 0 = 23 := by
  have hl := (codeOf_loaded (C := C4) (p := pEx) (f := 2) (.inl rfl) rfl (by decide +kernel)).1
  exact call_stOf (C := C4) (vs := [6]) (v := 23) (r := tInt) (.inl rfl) rfl rfl rfl (by simp) (by decide) (by decide +kernel) (by decide +kernel)
    (by decide +kernel) (C30_call_partial (fun _ _ _ => rfl) hl (by unfold Supported; decide +kernel))

end Verif.Cg
