import Verif.Sys.Examples3
/-! A compiled program with string literals: the hypotheses of `C44_c_program_init_partial` hold. -/
namespace Verif.Sys
open Verif Verif.Gen Verif.X86 Verif.X86.Spec Verif.Cg Verif.Rt Spec

def put3 : Fun := ⟨2, [(10, .ptr tChar)], tInt, blk [.whil (.deref (.var 10)) (.blk (blk [.expr (.call 60 (args [.deref (.var 10)])), .expr (.incdec true false (.var 10))])), .ret (some (.num 0))]⟩
def main3 : Fun := ⟨3, [], tInt, blk [.expr (.call 2 (args [.str 1 [111, 107]])), .expr (.call 2 (args [.var 50])), .ret (some (.index (.str 2 [55, 66]) (.num 1)))]⟩
/-- `int put(char *s) { while (*s) { putchar(*s); s++; } return 0; } char *q = "Hi"; int main() { put("ok"); put(q); return "7B"[1]; }` -/
def ts3 : List Top := [.fn put3, .var 50 (.ptr tChar) (some (.str 0 [72, 105])), .fn main3]
def p3 : Cg.Spec.Program where
  globals := [(50, 16, .ptr tChar)]
  enums := []
  libs := [(60, .void)]
  funs := funsOf ts3
def what3 (f : Nat) : Option LibFn := if f = 60 then some .putchar else none
def lab3 (f : Nat) : Nat := match what3 f with
  | some F => L0.of F
  | none => f + 100

def ds3 : List Decl := match genTops 8 T0 mm2 (envOf p3 lab3) ts3 1000 with
  | .ok (ds, _) => ds
  | _ => []
def L3 : Labels := { L0 with init_next := (genDecls L0.init_start ds3).2 }
def P3 : List Asm := program 8 L3 24 true ds3
def C3 : Cg.Spec.Ctx := { w := 8, T := T0, lim := 65536, lib := library os1 σ1 8 2097152 what3, strAt := fun k => if k = 0 then 4294 else if k = 1 then 4315 else 4372 }
theorem gen3 : ∃ l, genTops 8 T0 mm2 (envOf p3 lab3) ts3 1000 = .ok (ds3, l) := by
  have hne : ds3.isEmpty = false := by decide +kernel
  unfold ds3 at hne ⊢
  split at hne
  · rename_i ds l e
    exact ⟨l, by rw [e]⟩
  · cases hne

theorem compiled3 : Compiled 8 L3 P3 24 true ds3 := ⟨.inr rfl, rfl, rfl⟩
theorem uniq3 : Uniq P3 := uniqB_ok (by decide +kernel)
theorem declares3 : Declares p3 lab3 L3 what3 := by
  refine ⟨?_, ?_⟩
  · intro f F r hw hf hk
    unfold what3 at hw
    repeat' (first
      | (split at hw
         · rename_i e; subst e; cases hw; cases hk; rfl)
      | cases hw)
  · intro f F hw _
    unfold lab3
    rw [hw]
    cases F <;> rfl

/-- The bytes of the three strings. -/
def str3 (a : Int) : Option Nat :=
  if 4294 ≤ a ∧ a < 4294 + 3 then some (if a = 4294 then 72 else if a = 4294 + 1 then 105 else 0)
  else if 4315 ≤ a ∧ a < 4315 + 3 then some (if a = 4315 then 111 else if a = 4315 + 1 then 107 else 0)
  else if 4372 ≤ a ∧ a < 4372 + 3 then some (if a = 4372 then 55 else if a = 4372 + 1 then 66 else 0)
  else none
/-- The process as it is started: the loader has put the strings at their places. -/
def s3 : MS := { s0 with mem := fun a => match str3 a with | some b => b | none => s0.mem a }
/-- The global variable, zero, and the strings. -/
def M3 : Cg.Spec.Mem := { at_ := fun a => if 2097168 ≤ a ∧ a < 2097176 then some (some 0) else (str3 a).map some }

theorem started3 : Started 8 1048576 s3 := ⟨started0.stack, started0.words, started0.low, started0.high⟩

theorem str3_range {a : Int} {b : Nat} (h : str3 a = some b) : 4096 ≤ a ∧ a < 8192 ∧ b < 256 := by
  have hb : b < 256 := by
    unfold str3 at h
    repeat' (first | split at h | (cases h <;> omega))
  unfold str3 at h
  split at h
  · omega
  · split at h
    · omega
    · split at h
      · omega
      · cases h

/-- The process writes `okHi` and ends with status 66 (`B`). -/
theorem runs3 : PSteps os1 8 4096 P3 (.run 0 s3 ⟨0, [72, 105, 33], []⟩) (.done 66 ⟨2, [72, 105, 33], [111, 107, 72, 105]⟩) := by
  have hv : ((initAll C3 p3 mm2 (fun e M => Cg.Spec.evalE C3 (Cg.Spec.call C3 p3.fn (p3.env 2097152) 100) (p3.env 2097152) e 1048576 M) 2097152 ts3 M3).bind fun M1 =>
    (Cg.Spec.call C3 p3.fn (p3.env 2097152) 100 3 [] (1048576 - 2 * (8 : Nat)) M1).map (fun r => (r.1, r.2.io))) =
      some (66, [.write 1 [111], .write 1 [107], .write 1 [72], .write 1 [105]]) := by decide +kernel
  simp only [Option.bind_eq_some_iff, Option.map_eq_some_iff] at hv
  obtain ⟨M1, hi, ⟨v, M'⟩, hv, he⟩ := hv
  simp only [Prod.mk.injEq] at he
  obtain ⟨rfl, hio⟩ := he
  have hM : ∀ a b, M3 a = some b → (2097168 ≤ a ∧ a < 2097176 ∧ b = some 0) ∨ (4096 ≤ a ∧ a < 8192 ∧ s3.mem a < 256 ∧ b = some (s3.mem a)) := by
    intro a b ha
    unfold M3 at ha; dsimp only at ha
    split at ha
    · cases ha; exact .inl ⟨by omega, by omega, rfl⟩
    · simp only [Option.map_eq_some_iff] at ha
      obtain ⟨c, hc, rfl⟩ := ha
      have := str3_range hc
      refine .inr ⟨this.1, this.2.1, ?_, ?_⟩ <;> simp [s3, hc, this.2.2]
  obtain ⟨l, hgen⟩ := gen3
  have := C44_c_program_init_partial (os := os1) (base := 4096) (C := C3) compiled3 (p := p3) (lab := lab3) (what := what3) (mm := mm2) (ts := ts3) (f := 3) (r := tInt) (M := M3) (M1 := M1) (M' := M')
    (vs := []) (sp := 1048576) (G := 2097152) (H := 268435456) (s := s3) (σ1 := σ1) uniq3 (by decide) (by decide +kernel) hgen rfl (by unfold Cg.Spec.Program.InSpace; decide +kernel)
    (by unfold Supported; decide +kernel) (by decide +kernel) declares3 rfl rfl rfl (by decide) (by decide) started3 given1
    (.inl rfl) ⟨by decide, by decide, ?_⟩ rfl ?_ (strAtB_ok (by decide +kernel)) (imageB_ok (by decide +kernel)) ?_ ⟨100, hi⟩ ⟨100, hv⟩
  · rw [hio] at this
    exact this
  · intro a ha
    obtain ⟨b, hb⟩ := Option.ne_none_iff_exists'.1 ha
    have := hM a b hb
    show 0 ≤ a ∧ a < (18446744073709551616 : Int) ∧ ¬ ((65536 : Int) ≤ a ∧ a < 1048576)
    omega
  · intro a h1 h2
    cases e : M3 a with
    | none => rfl
    | some b =>
      have := hM a b e
      have h3 : a < 1048576 + (8 : Nat) := h2
      omega
  · intro a b ha
    rcases hM a _ ha with h | ⟨h1, h2, h3, h4⟩
    · have h4 : b = 0 := by have := h.2.2; cases this; rfl
      refine .inr (.inl ⟨?_, ?_, h4⟩)
      · show (2097152 : Int) + 2 * (8 : Nat) ≤ a
        omega
      · omega
    · cases h4
      refine .inr (.inr ⟨.inl ?_, by omega, by omega, .inl ?_⟩)
      · show a < 1048576 - 5 * (8 : Nat)
        omega
      · exact Nat.mod_eq_of_lt h3

end Verif.Sys
