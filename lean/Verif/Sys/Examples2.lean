import Verif.Sys.Props3
import Verif.Sys.Examples
/-! A compiled program that calls the library: the hypotheses of `C44_c_program_io_partial` hold. -/
namespace Verif.Sys
open Verif Verif.Gen Verif.X86 Verif.X86.Spec Verif.Cg Verif.Rt Spec

/-- A system with an input and an output. The state: the number of blocks given, the rest of the input, what has been written. -/
structure W1 where
  blocks : Nat
  input : List Nat
  output : List Nat
deriving DecidableEq

def os1 : OS W1 where
  serve σ
    | .alloc _ => ({ σ with blocks := σ.blocks + 1 }, if σ.blocks = 0 then 2097152 else 268435456)
    | .write _ d => ({ σ with output := σ.output ++ d }, d.length)
    | _ => (σ, -1)
  read σ fd n := if fd = 0 then ({ σ with input := σ.input.drop n.toNat }, if n < 0 then .error 22 else .ok ((σ.input.take n.toNat).map (· % 256))) else (σ, .error 9)
  read_len σ fd n l h := by
    split at h
    · dsimp only at h
      split at h
      · cases h
      · cases h; simp; omega
    · cases h
  read_byte σ fd n l h := by
    split at h
    · dsimp only at h
      split at h
      · cases h
      · cases h
        intro b hb
        simp only [List.mem_map] at hb
        obtain ⟨c, _, rfl⟩ := hb
        omega
    · cases h
  read_err σ fd n e h := by
    split at h
    · dsimp only at h
      split at h
      · cases h; simp
      · cases h
    · cases h; simp
  flags _ := 0

def what1 (f : Nat) : Option LibFn :=
  if f = 60 then some .putchar else if f = 61 then some .getchar else if f = 62 then some .write else if f = 63 then some .malloc else if f = 64 then some .read else none
def lab1 (f : Nat) : Nat := match what1 f with
  | some F => L0.of F
  | none => f + 100

def σ1 : W1 := ⟨2, [72, 105, 33], []⟩
def C1 : Cg.Spec.Ctx := { w := 8, T := T0, lim := 4096, lib := library os1 σ1 8 2097152 what1 }

def args : List E → E
  | [] => .anil
  | e :: es => .acons e (args es)

/-- `int main() { char *p = malloc(2); int n = read(0, p, 2); putchar(p[1]); write(1, p, n); return getchar(); }` -/
def p1 : Cg.Spec.Program where
  globals := []
  enums := []
  libs := [(60, .void), (61, tChar), (62, tInt), (63, .ptr .void), (64, tInt)]
  funs := [⟨3, [], tInt, .bdecl 11 (.ptr tChar) (some (.call 63 (args [.num 2]))) (.bdecl 12 tInt (some (.call 64 (args [.num 0, .var 11, .num 2]))) (blk [
    .expr (.call 60 (args [.index (.var 11) (.num 1)])), .expr (.call 62 (args [.num 1, .var 11, .var 12])), .ret (some (.call 61 .anil))]))⟩]

def fns1 : List Asm := match codegen_funs 8 T0 (envOf p1 lab1) p1.funs 1000 with
  | .ok (c, _) => c
  | _ => []
def ds1 : List Decl := [.code fns1]
def P1 : List Asm := program 8 L0 24 true ds1

/-- The two words of the run-time system, and the heap. -/
def M1 : Cg.Spec.Mem := { at_ := fun a => if 2097152 ≤ a ∧ a < 2097168 then some (some (heapByte 8 2097152 268435456 a)) else if 268435456 ≤ a ∧ a < 373293056 then some none else none }

theorem compiled1 : Compiled 8 L0 P1 24 true ds1 := ⟨.inr rfl, rfl, rfl⟩
theorem uniq1 : Uniq P1 := uniqB_ok (by decide +kernel)
theorem given1 : Given os1 8 1048576 24 ⟨0, [72, 105, 33], []⟩ 2097152 268435456 σ1 :=
  ⟨rfl, rfl, by decide, by decide, by decide, by decide, by decide⟩

theorem loaded1 : Loaded C1 p1 lab1 2097152 4096 P1 := by
  have hat : At P1 1 fns1 := by
    have := at_self P1
    exact this.right.left.left
  have hne : fns1.isEmpty = false := by decide +kernel
  unfold fns1 at hat hne
  split at hne
  · rename_i c l e
    rw [e] at hat
    exact .of_funs (.inr rfl) e hat (by intro v hv; cases hv) (strAtB_ok (by decide +kernel))
  · cases hne

theorem declares1 : Declares p1 lab1 L0 what1 := by
  refine ⟨?_, ?_⟩
  · intro f F r hw hf hk
    unfold what1 at hw
    repeat' (first
      | (split at hw
         · rename_i e; subst e; cases hw; cases hk; rfl)
      | cases hw)
  · intro f F hw _
    unfold lab1
    rw [hw]

theorem sup1 : Supported C1 p1 lab1 := by unfold Supported; decide +kernel

/-- The process reads `Hi!`, writes `i`, `Hi` and ends with status 33 (`!`). -/
theorem runs1 : PSteps os1 8 4096 P1 (.run 0 s0 ⟨0, [72, 105, 33], []⟩) (.done 33 ⟨2, [], [105, 72, 105]⟩) := by
  have hv : ((Cg.Spec.call C1 p1.fn (p1.env 2097152) 100 3 [] (1048576 - 2 * (8 : Nat)) M1).map (fun r => (r.1, r.2.io))) =
    some (33, [.read 0 2, .write 1 [105], .write 1 [72, 105], .read 0 1]) := by decide +kernel
  rw [Option.map_eq_some_iff] at hv
  obtain ⟨⟨v, M'⟩, hv, he⟩ := hv
  simp only [Prod.mk.injEq] at he
  obtain ⟨rfl, hio⟩ := he
  have hM : ∀ a, M1 a ≠ none → (2097152 ≤ a ∧ a < 2097168) ∨ (268435456 ≤ a ∧ a < 373293056) := by
    intro a ha
    unfold M1 at ha; dsimp only at ha
    split at ha
    · exact .inl ‹_›
    · split at ha
      · exact .inr ‹_›
      · exact absurd rfl ha
  have := C44_c_program_io_partial (os := os1) (base := 4096) (C := C1) compiled1 (p := p1) (lab := lab1) (what := what1) (f := 3) (r := tInt) (M := M1) (M' := M') (vs := []) (sp := 1048576)
    (G := 2097152) (H := 268435456) (s := s0) (σ1 := σ1) uniq1 (by decide) (by decide +kernel) loaded1 sup1 declares1 rfl rfl rfl (by decide) rfl (by decide) started0 given1 (.inl rfl)
    ⟨by decide, by decide, ?_⟩ rfl (imageB_ok (by decide +kernel)) ?_ ⟨100, hv⟩
  · rw [hio] at this
    exact this
  · intro a ha
    have := hM a ha
    show 0 ≤ a ∧ a < (18446744073709551616 : Int) ∧ ¬ ((4096 : Int) ≤ a ∧ a < 1048576 - 2 * (8 : Nat) + ((0 : Nat) : Int) * (8 : Nat))
    omega
  · intro a b ha
    unfold M1 at ha; dsimp only at ha
    split at ha
    · rename_i h1
      cases ha
      exact .inl ⟨h1.1, h1.2, rfl⟩
    · split at ha <;> cases ha

/-- ... and nothing else. -/
example (n : Nat) (σ : W1) (hr : PSteps os1 8 4096 P1 (.run 0 s0 ⟨0, [72, 105, 33], []⟩) (.done n σ)) : n = 33 ∧ σ = ⟨2, [], [105, 72, 105]⟩ :=
  C44_unique compiled1 uniq1 (by decide) (by decide +kernel) hr runs1

end Verif.Sys
