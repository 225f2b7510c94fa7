import Verif.Sys.Props2
import Verif.Cg.Examples
/-! Where C44 does not say what C says; and a compiled program that runs. -/
namespace Verif.Sys
open Verif Verif.X86 Verif.X86.Spec Verif.Cg Verif.Rt Spec

section
variable {W : Type} {os : OS W} {w : Nat} {L : Labels} {base : Int} {P : List Asm} {ga : Int} {mr : Bool} {ds : List Decl} (h : Compiled w L P ga mr ds)
include h

/-- When the read fails, `fgetc` returns the descriptor (a valid character if it is small) instead of EOF. -/
theorem C44_fgetc_error_false {k : Nat} {sp : Int} {s : MS} {σ : W} {e : Nat} (hc : Calls w P L.fgetc k sp s) (hfd : argument w sp s 0 ≠ -1)
    (herr : (os.read σ (sgn 4 (argument w sp s 0)) 1).2 = .error e) :
    CallGives os w base P k sp s σ (argument w sp s 0) (os.read σ (sgn 4 (argument w sp s 0)) 1).1 nothing ∧ argument w sp s 0 ≠ charOrEof (.error e) := by
  have := fgetc_all (os := os) (base := base) h (σ := σ) hc
  simp only [herr] at this
  exact ⟨this, hfd⟩

/-- When the read fails, `getchar` returns 0 instead of EOF. -/
theorem C44_getchar_error_false {k : Nat} {sp : Int} {s : MS} {σ : W} {e : Nat} (hc : Calls w P L.getchar k sp s)
    (herr : (os.read σ 0 1).2 = .error e) :
    CallGives os w base P k sp s σ 0 (os.read σ 0 1).1 nothing ∧ 0 ≠ charOrEof (.error e) := by
  have := getchar_all (os := os) (base := base) h (σ := σ) hc
  simp only [herr] at this
  exact ⟨this, by simp [charOrEof]⟩

/-- For descriptors from 256 on, `fgetc` returns more than a character: the upper bytes of the descriptor stay in the result. -/
theorem C44_fgetc_descriptor_false {k : Nat} {sp : Int} {s : MS} {σ : W} {b : Nat} {t : List Nat} (hc : Calls w P L.fgetc k sp s) (hfd : 256 ≤ argument w sp s 0)
    (hok : (os.read σ (sgn 4 (argument w sp s 0)) 1).2 = .ok (b :: t)) :
    CallGives os w base P k sp s σ (argument w sp s 0 - argument w sp s 0 % 256 + b) (os.read σ (sgn 4 (argument w sp s 0)) 1).1 nothing ∧
      argument w sp s 0 - argument w sp s 0 % 256 + b ≠ charOrEof (.ok (b :: t)) := by
  have := fgetc_all (os := os) (base := base) h (σ := σ) hc
  simp only [hok] at this
  exact ⟨this, by simp only [charOrEof]; omega⟩

/-- The flags of `open` for the modes "r", "w" and "a" of `fopen` (O_RDONLY; O_WRONLY, O_CREAT, O_TRUNC; O_WRONLY, O_CREAT, O_APPEND). -/
def modeFlags : List Nat → Int
  | [119] => 0x241
  | [97] => 0x441
  | _ => 0

/-- `fopen(path, "w")` opens the file for reading only; it is neither created nor truncated. -/
theorem C44_fopen_mode_false {k : Nat} {sp : Int} {s : MS} {σ : W} {p : List Nat} (hc : Calls w P L.fopen k sp s) (hp : CStr w s.mem (argument w sp s 0) p)
    (hb : Clear w sp (argument w sp s 0) (p.length + 1)) (hmode : CStr w s.mem (argument w sp s 1) [119]) :
    (∃ v σ', σ' = (os.serve σ (.open_ p 0 0)).1 ∧ CallGives os w base P k sp s σ v σ' nothing) ∧ (0 : Int) ≠ modeFlags [119] := by
  have := C44_fopen_partial (os := os) (base := base) h (σ := σ) hc hp hb
  exact ⟨⟨_, _, rfl, this⟩, by decide⟩
end

/-- A small system: two blocks of memory to give, a terminal, and an empty standard input. The state: the number of blocks given, what has been printed. -/
def os0 : OS (Nat × List Nat) where
  serve σ
    | .alloc _ => ((σ.1 + 1, σ.2), if σ.1 = 0 then 2097152 else 268435456)
    | .write _ d => ((σ.1, σ.2 ++ d), d.length)
    | _ => (σ, -1)
  read σ fd n := (σ, if n < 1 then .error 22 else if fd = 0 then .ok [] else if fd = 3 then .ok [65] else .error 9)
  read_len σ fd n l h := by
    simp only at h
    split at h
    · cases h
    · split at h
      · cases h; simp; omega
      · split at h <;> cases h
        simp; omega
  read_byte σ fd n l h := by
    simp only at h
    split at h
    · cases h
    · split at h
      · cases h; simp
      · split at h <;> cases h
        simp
  read_err σ fd n e h := by
    simp only at h
    split at h
    · cases h; simp
    · split at h
      · cases h
      · split at h <;> cases h
        simp
  flags _ := 0

/-- The labels of the run-time system. -/
def L0 : Labels := ⟨1, 2, 2, 103, 5, 6, 7, 8, 9, 10, 11, 12, 13, 14, 15, 16, 17, 18, 19, 20, 21, 22, 23⟩
def lab0 (f : Nat) : Nat := f + 100

/-- The functions of `Cg.pEx` and `int main(int argc, char **argv) { return sum(argc) + g; }` with a global variable `int g`. -/
def pMain : Cg.Spec.Program := { pEx with
  globals := [(50, 16, tInt)]
  funs := pEx.funs ++ [⟨3, [(10, tInt), (11, .ptr (.ptr tChar))], tInt, blk [.ret (some (.bin .add (.call 2 (.acons (.var 10) .anil)) (.var 50)))]⟩] }

def fns0 : List Asm := match codegen_funs 8 T0 (envOf pMain lab0) pMain.funs 1000 with
  | .ok (c, _) => c
  | _ => []
/-- A function that calls run-time functions. -/
def calls0 : List Asm := [.call 13, .call 16, .call 15, .call 19, .call 7, .call 5, .call 17]
def ds0 : List Decl := [.code fns0, .code calls0]
def P0 : List Asm := program 8 L0 24 true ds0

/-- The system has put `argc` = 6 at the start of the stack (and a string "w" further up). -/
def s0 : MS := ⟨fun r => if r = 4 then 1048576 else if r = 3 then 2097152 else 0, fun a => if a = 1048576 then 6 else if a = 1048600 then 119 else 0, 0, 0, []⟩

theorem compiled0 : Compiled 8 L0 P0 24 true ds0 := ⟨.inr rfl, rfl, rfl⟩
theorem uniq0 : Uniq P0 := uniqB_ok (by decide +kernel)
theorem started0 : Started 8 1048576 s0 := by
  refine ⟨by decide +kernel, ?_, by decide, by decide⟩
  intro r
  simp only [s0]
  split
  · decide +kernel
  · split <;> decide +kernel
theorem given0 : Given os0 8 1048576 24 (0, []) 2097152 268435456 (2, []) :=
  ⟨rfl, rfl, by decide, by decide, by decide, by decide, by decide⟩

def M0 : Cg.Spec.Mem := { at_ := fun a => if 2097168 ≤ a ∧ a < 2097172 then some (some 0) else none }

/-- A check of `Image`. -/
def imageB (w : Nat) (base : Int) (P : List Asm) (m : Int → Nat) : Bool := (List.range P.length).all fun i => match P[i]? with
  | some (.data _ bs) => (List.range (bs.length + 1)).all fun j => m (adr w base P i + (j : Int)) % 256 == (bs ++ [0]).getD j 0
  | _ => true
theorem imageB_ok {w : Nat} {base : Int} {P : List Asm} {m : Int → Nat} (h : imageB w base P m = true) : Image w base P m := by
  intro i k bs hi j hj
  have hl : i < P.length := by
    rcases Nat.lt_or_ge i P.length with h | h
    · exact h
    · rw [List.getElem?_eq_none h] at hi; cases hi
  have := (List.all_eq_true.1 h) i (List.mem_range.2 hl)
  simp only [hi] at this
  have := (List.all_eq_true.1 this) j (List.mem_range.2 (by omega))
  simpa using this

theorem loaded0 : Loaded C8 pMain lab0 2097152 4096 P0 := by
  have hat : At P0 1 fns0 := by
    have := at_self P0
    exact this.right.left.left
  have hne : fns0.isEmpty = false := by decide +kernel
  unfold fns0 at hat hne
  split at hne
  · rename_i c l e
    rw [e] at hat
    exact .of_funs (.inr rfl) e hat (by intro v hv; simp only [pMain, List.mem_singleton] at hv; subst hv; decide) (strAtB_ok (by decide +kernel))
  · cases hne

/-- The hypotheses of `C44_process` and `C44_c_program_partial` hold: the whole process ends with status 23, the value of `sum(6)`. -/
theorem runs0 : PSteps os0 8 4096 P0 (.run 0 s0 (0, [])) (.done 23 (2, [])) := by
  have hv : ((Cg.Spec.call C8 pMain.fn (pMain.env 2097152) 100 3 [6, 1048584] (1048576 - 2 * (8 : Nat)) M0).map (·.1)) = some 23 := by decide +kernel
  rw [Option.map_eq_some_iff] at hv
  obtain ⟨⟨v, M'⟩, hv, rfl⟩ := hv
  have hM : ∀ a, M0 a ≠ none → 2097168 ≤ a ∧ a < 2097172 := by
    intro a ha
    unfold M0 at ha; dsimp only at ha
    split at ha
    · assumption
    · exact absurd rfl ha
  refine C44_c_program_partial (os := os0) (base := 4096) compiled0 (C := C8) (p := pMain) (lab := lab0) (f := 3) (r := tInt) (M := M0) (vs := [6, 1048584]) (sp := 1048576) (G := 2097152) (H := 268435456)
    rfl (fun _ _ _ => rfl) loaded0 (by unfold Supported; decide +kernel) rfl rfl (by decide) rfl (by decide) started0 given0 (.inr (by decide +kernel)) ⟨by decide, by decide, ?_⟩ (imageB_ok (by decide +kernel)) ?_ ⟨100, hv⟩
  · intro a ha
    have := hM a ha
    show 0 ≤ a ∧ a < (18446744073709551616 : Int) ∧ ¬ ((4096 : Int) ≤ a ∧ a < 1048576 - 2 * (8 : Nat) + ((2 : Nat) : Int) * (8 : Nat))
    omega
  · intro a b ha
    have h1 := hM a (by rw [ha]; simp)
    unfold M0 at ha; dsimp only at ha
    rw [if_pos h1] at ha
    cases ha
    exact .inl ⟨by omega, by omega, rfl⟩

/-- ... and no other. -/
example (n : Nat) (σ : Nat × List Nat) (hr : PSteps os0 8 4096 P0 (.run 0 s0 (0, [])) (.done n σ)) : n = 23 ∧ σ = (2, []) :=
  C44_unique compiled0 uniq0 (by decide) (by decide +kernel) hr runs0

/-- A state with the stack pointer 4 words below, and the arguments given. -/
def sA (a b c : Nat) : MS := ⟨fun r => if r = 4 then 1048544 else if r = 3 then 2097152 else 0,
  fun x => if x = 1048544 then a % 256 else if x = 1048545 then a / 256 else if x = 1048552 then b % 256 else if x = 1048553 then b / 256 % 256 else if x = 1048554 then b / 65536 else if x = 1048560 then c else s0.mem x, 0, 0, []⟩

theorem callsA (a b c n k : Nat) (h : P0[k]? = some (.call n)) : Calls 8 P0 n k 1048544 (sA a b c) :=
  ⟨h, by show (1048544 : Int) = _; decide +kernel, by show sgn 8 2097152 = 2097152; decide +kernel, by decide, by decide⟩

def k0 : Nat := 1 + fns0.length

theorem at_second (w : Nat) (L : Labels) (ga : Int) (mr : Bool) (a b : List Asm) : At (program w L ga mr [.code a, .code b]) (1 + a.length) b := by
  have h := (at_self (program w L ga mr [.code a, .code b])).right.left.right.left
  simpa using h

theorem at0 : At P0 k0 calls0 := at_second 8 L0 24 true fns0 calls0

theorem call0 (j n : Nat) (hj : j < 7) (h : calls0[j]? = some (.call n)) : P0[k0 + j]? = some (.call n) := by rw [at0 j hj, h]

/-- `putchar('A')`. -/
example : CallGives os0 8 4096 P0 (k0 + 0) 1048544 (sA 65 0 0) (2, []) 65 (2, [65]) nothing := by
  have := C44_putchar (os := os0) (base := 4096) compiled0 (σ := (2, [])) (callsA 65 0 0 L0.putchar (k0 + 0) (call0 0 _ (by decide) rfl))
  rw [show argument 8 1048544 (sA 65 0 0) 0 = 65 by decide +kernel] at this
  exact this

/-- `fgetc(3)` gives the character. -/
example : CallGives os0 8 4096 P0 (k0 + 1) 1048544 (sA 3 0 0) (2, []) 65 (2, []) nothing := by
  have h3 : argument 8 1048544 (sA 3 0 0) 0 = 3 := by decide +kernel
  have := C44_fgetc_partial (os := os0) (base := 4096) compiled0 (σ := (2, [])) (l := [65]) (callsA 3 0 0 L0.fgetc (k0 + 1) (call0 1 _ (by decide) rfl)) (by rw [h3]; decide) (by rw [h3]; rfl)
  rw [h3] at this
  exact this

/-- `fgetc(5)` fails and gives 5. -/
example : CallGives os0 8 4096 P0 (k0 + 1) 1048544 (sA 5 0 0) (2, []) 5 (2, []) nothing := by
  have h3 : argument 8 1048544 (sA 5 0 0) 0 = 5 := by decide +kernel
  have := (C44_fgetc_error_false (os := os0) (base := 4096) compiled0 (σ := (2, [])) (e := 9) (callsA 5 0 0 L0.fgetc (k0 + 1) (call0 1 _ (by decide) rfl)) (by rw [h3]; decide) (by
    rw [h3, show sgn 4 5 = 5 by decide +kernel]; rfl)).1
  rw [h3, show sgn 4 5 = 5 by decide +kernel] at this
  exact this

/-- `write(1, p, 2)`, where `p` is the address of "w" (at 1048600). -/
example : CallGives os0 8 4096 P0 (k0 + 4) 1048544 (sA 1 1048600 2) (2, []) 2 (2, [119, 0]) nothing := by
  have h1 : argument 8 1048544 (sA 1 1048600 2) 1 = 1048600 := by decide +kernel
  have h2 : uns 8 (argument 8 1048544 (sA 1 1048600 2) 2) = 2 := by decide +kernel
  have := C44_write (os := os0) (base := 4096) compiled0 (σ := (2, [])) (callsA 1 1048600 2 L0.write (k0 + 4) (call0 4 _ (by decide) rfl)) (by
    rw [h1, h2]
    intro i h0 h2
    unfold uns
    omega)
  rw [h1, h2] at this
  exact this

/-- `exit(7)`. -/
example : PSteps os0 8 4096 P0 (.run (k0 + 5) (sA 7 0 0) (2, [])) (.done 7 (2, [])) := by
  have := C44_exit (os := os0) (base := 4096) compiled0 (σ := (2, [])) (callsA 7 0 0 L0.exit (k0 + 5) (call0 5 _ (by decide) rfl))
  rw [show argument 8 1048544 (sA 7 0 0) 0 = 7 by decide +kernel] at this
  exact this

end Verif.Sys
