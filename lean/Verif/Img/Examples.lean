import Verif.Img.Props
import Verif.Sys.Examples4
/-! Every file that the compiler writes can be loaded; the program of `Verif.Sys.Examples4` as a file. -/
namespace Verif.Img
open Verif Verif.Gen Verif.X86 Verif.X86.Spec Verif.Cg Verif.Rt Verif.Sys Verif.Sys.Spec

theorem header_bytes32 (n : Nat) : ∀ b ∈ Elf.p_header32 n (Elf.e_header32 []), 0 ≤ b ∧ b < 256 := by
  rw [Elf.header32]
  have h1 : ∀ b ∈ Elf.H32, (0 : Int) ≤ b ∧ b < 256 := by decide +kernel
  have h2 : ∀ b ∈ Elf.T32, (0 : Int) ≤ b ∧ b < 256 := by decide +kernel
  have h3 : ∀ b ∈ Elf.le4 (84 + n), (0 : Int) ≤ b ∧ b < 256 := by intro b hb; simp [Elf.le4] at hb; omega
  intro b hb
  simp only [List.mem_append] at hb
  rcases hb with hb | hb | hb | hb
  · exact h1 b hb
  · exact h3 b hb
  · exact h3 b hb
  · exact h2 b hb

theorem header_bytes64 (n : Nat) : ∀ b ∈ Elf.p_header64 n (Elf.e_header64 []), 0 ≤ b ∧ b < 256 := by
  rw [Elf.header64]
  have h1 : ∀ b ∈ Elf.H64, (0 : Int) ≤ b ∧ b < 256 := by decide +kernel
  have h2 : ∀ b ∈ Elf.T64, (0 : Int) ≤ b ∧ b < 256 := by decide +kernel
  have h3 : ∀ b ∈ Elf.le4 (120 + n), (0 : Int) ≤ b ∧ b < 256 := by intro b hb; simp [Elf.le4] at hb; omega
  intro b hb
  simp only [List.mem_append] at hb
  rcases hb with hb | hb | hb | hb | hb
  · exact h1 b hb
  · exact h3 b hb
  · simp at hb; omega
  · exact h3 b hb
  · exact h2 b hb

theorem file_bytes (w : Nat) (code : Nat → Int) (n : Nat) : ∀ b ∈ Elf.generate_exe w code n, 0 ≤ b ∧ b < 256 := by
  intro b hb
  unfold Elf.generate_exe at hb
  have hc : ∀ b ∈ (List.range n).map (fun k => code (0 + k) % 256), 0 ≤ b ∧ b < 256 := by
    intro b hb
    simp only [List.mem_map] at hb
    obtain ⟨k, -, rfl⟩ := hb
    omega
  split at hb <;> rw [Elf.write_code_eq, List.mem_append] at hb
  · exact hb.elim (header_bytes32 n b) (hc b)
  · exact hb.elim (header_bytes64 n b) (hc b)

/-- The memory after loading. -/
def loadedMem (file : List Int) (ph : Elf.Spec.Phdr) (m0 : Int → Nat) (a : Int) : Nat :=
  if 0 ≤ a then match Elf.Spec.loaded file ph a.toNat with
    | some b => b.toNat
    | none => m0 a
  else m0 a

/-- **C49.** Every file that the compiler writes can be loaded, over any memory; only the bytes of the segment change. -/
theorem C49_loadable {w : Nat} (hw : w = 4 ∨ w = 8) {P : List Asm} {file : List Int} (hf : executable w P = .ok file) (m0 : Int → Nat) :
    ∃ m, Spec.ExecFile w file m (if w = 4 then 0x08048054 else 0x40000078) ∧
      ∀ a : Int, (a < (if w = 4 then 0x08048000 else 0x40000000) ∨ (if w = 4 then 0x08048000 else 0x40000000) + file.length ≤ a) → m a = m0 a := by
  unfold executable at hf
  rw [Res.bind_eq_ok] at hf
  obtain ⟨st, ha, hf⟩ := hf
  cases hf
  have hn : st.n ≤ 500000 := Code.run_bound w _ _ _ _ (by simp [Code.S.init]) ha
  obtain ⟨eh, ph, hg⟩ := Elf.C35_elf_file w hw (fun k => st.code k % 256) st.n hn (fun i _ => ⟨by omega, by omega⟩)
  rw [generate_mod] at hg
  have hent : eh.entry = (if w = 4 then 0x08048054 else 0x40000078) := by
    have := hg.ehdr
    rcases hw with rfl | rfl
    · rw [show Elf.generate_exe 4 st.code st.n = _ from Elf.write_code_eq _ _ _ _, Elf.header32, List.append_assoc] at this
      rw [show ∀ l, Elf.Spec.ehdr 4 (Elf.H32 ++ l) = some ⟨2, 3, 1, 0x08048054, 52, 52, 32, 1⟩ from fun l => rfl] at this
      cases this
      rfl
    · rw [show Elf.generate_exe 8 st.code st.n = _ from Elf.write_code_eq _ _ _ _, Elf.header64, List.append_assoc] at this
      rw [show ∀ l, Elf.Spec.ehdr 8 (Elf.H64 ++ l) = some ⟨2, 62, 1, 0x40000078, 64, 64, 56, 1⟩ from fun l => rfl] at this
      cases this
      rfl
  have hva : ph.vaddr + (if w = 4 then 84 else 120) = eh.entry := by
    have h1 := hg.code.2
    have h2 := hg.seg.2.2.2.2
    have h3 : (Elf.generate_exe w st.code st.n).length = (if w = 4 then 84 else 120) + st.n := by
      unfold Elf.generate_exe
      split <;> rw [Elf.write_code_eq] <;> simp [Elf.length32, Elf.length64]
    omega
  refine ⟨loadedMem (Elf.generate_exe w st.code st.n) ph m0, ⟨eh, ph, hg.ident, hg.ehdr, hg.exec.1, hg.exec.2.1, hg.phdr.1, hg.phdr.2.1, hg.seg.1, ?_, ?_⟩, ?_⟩
  · intro a b hb
    unfold loadedMem
    rw [if_pos (by omega), Int.toNat_natCast, hb]
    have : 0 ≤ b ∧ b < 256 := by
      unfold Elf.Spec.loaded at hb
      split at hb
      · exact file_bytes w st.code st.n b (List.mem_of_getElem? hb)
      · split at hb
        · cases hb; omega
        · cases hb
    dsimp only
    omega
  · rw [hent]; split <;> rfl
  · intro a hab
    unfold loadedMem
    split
    · have : Elf.Spec.loaded (Elf.generate_exe w st.code st.n) ph a.toNat = none := by
        have h1 := hg.seg.2.2.2.1
        have h2 := hg.seg.2.2.2.2
        unfold Elf.Spec.loaded
        rcases hw with rfl | rfl <;> simp at hab hva hent <;> rw [if_neg (by omega), if_neg (by omega)]
      rw [this]
    · rfl

/-! ### a program -/

instance (w r : Nat) : Decidable (Reg w r) := by unfold Reg; infer_instance
instance (n : Int) : Decidable (I32 n) := by unfold I32; infer_instance
instance (w : Nat) (e : Emit) : Decidable (e.ok w) := by cases e <;> unfold Emit.ok <;> infer_instance
instance (w : Nat) (a : Asm) : Decidable (Spec.Encodable w a) := by cases a <;> unfold Spec.Encodable <;> infer_instance

def C4 : Cg.Spec.Ctx := { w := 8, T := T0, lim := 65536, lib := library os1 σ1 8 2097152 what3, strAt := fun k => 1073741944 + (if k = 0 then 198 else if k = 1 then 219 else 276) }

def file3 : List Int := match executable 8 P3 with
  | .ok f => f
  | _ => []
theorem exe3 : executable 8 P3 = .ok file3 := by
  have hne : (match executable 8 P3 with | .ok _ => true | _ => false) = true := by decide +kernel
  unfold file3
  split at hne
  · rename_i f e
    rw [e]
  · cases hne

/-- The bytes of the three strings. -/
def str4 (a : Int) : Option Nat := str3 (a - 1073741944 + 4096)
/-- The global variable, zero, and the strings. -/
def M4 : Cg.Spec.Mem := { at_ := fun a => if 2097168 ≤ a ∧ a < 2097176 then some (some 0) else (str4 a).map some }

instance : (e : Emit) → Decidable (Spec.SmallE e) := fun e => by cases e <;> (simp only [Spec.SmallE]; infer_instance)
instance : (a : Asm) → Decidable (Spec.Small a) := fun a => by cases a <;> (unfold Spec.Small; infer_instance)
theorem enc3 : ∀ a ∈ P3, Spec.Small a := by decide +kernel

def dataB (k : Nat) (bs : List Nat) : Option Asm → Bool
  | some (.data k' bs') => k' == k && bs' == bs
  | _ => false
theorem dataB_ok {k : Nat} {bs : List Nat} {a : Option Asm} (h : dataB k bs a = true) : a = some (.data k bs) := by
  unfold dataB at h
  split at h
  · simp at h; rw [h.1, h.2]
  · cases h

/-- The bytes of the strings are in the code. -/
theorem str4_code {a : Int} {b : Nat} (h : str4 a = some b) :
    ∃ (pc k : Nat) (bs : List Nat) (i : Nat), P3[pc]? = some (.data k bs) ∧ i ≤ bs.length ∧ a = Cg.adr 8 1073741944 P3 pc + i ∧ b = (bs ++ [0]).getD i 0 := by
  have e0 : P3[56]? = some (.data 0 [72, 105]) := dataB_ok (by decide +kernel)
  have e1 : P3[63]? = some (.data 1 [111, 107]) := dataB_ok (by decide +kernel)
  have e2 : P3[78]? = some (.data 2 [55, 66]) := dataB_ok (by decide +kernel)
  have a0 : adr 8 1073741944 P3 56 = 1073742142 := by decide +kernel
  have a1 : adr 8 1073741944 P3 63 = 1073742163 := by decide +kernel
  have a2 : adr 8 1073741944 P3 78 = 1073742220 := by decide +kernel
  have go : ∀ (pc k : Nat) (x y : Nat) (A : Int), P3[pc]? = some (.data k [x, y]) → adr 8 1073741944 P3 pc = A → A ≤ a → a < A + 3 → b = (if a = A then x else if a = A + 1 then y else 0) →
      ∃ (pc k : Nat) (bs : List Nat) (i : Nat), P3[pc]? = some (.data k bs) ∧ i ≤ bs.length ∧ a = Cg.adr 8 1073741944 P3 pc + i ∧ b = (bs ++ [0]).getD i 0 := by
    intro pc k x y A hp hA h1 h2 hb
    refine ⟨pc, k, [x, y], (a - A).toNat, hp, by simp; omega, by omega, ?_⟩
    rw [hb]
    split
    · rw [show (a - A).toNat = 0 by omega]; rfl
    · split
      · rw [show (a - A).toNat = 1 by omega]; rfl
      · rw [show (a - A).toNat = 2 by omega]; rfl
  unfold str4 str3 at h
  split at h
  · cases h
    refine go _ _ _ _ _ e0 a0 (by omega) (by omega) ?_
    congr 1
    · exact propext ⟨by omega, by omega⟩
    · congr 1
      exact propext ⟨by omega, by omega⟩
  · split at h
    · cases h
      refine go _ _ _ _ _ e1 a1 (by omega) (by omega) ?_
      congr 1
      · exact propext ⟨by omega, by omega⟩
      · congr 1
        exact propext ⟨by omega, by omega⟩
    · split at h
      · cases h
        refine go _ _ _ _ _ e2 a2 (by omega) (by omega) ?_
        congr 1
        · exact propext ⟨by omega, by omega⟩
        · congr 1
          exact propext ⟨by omega, by omega⟩
      · cases h

/-- The file of 3698 bytes, loaded over the memory of the process and started at its entry point, writes `okHi` and ends with status 66. -/
theorem runs_file3 : ∃ s, Spec.ExecFile 8 file3 s.mem 1073741944 ∧
    Spec.BSteps os1 8 s.mem (.run 1073741944 s ⟨0, [72, 105, 33], []⟩) (.done 66 ⟨2, [72, 105, 33], [111, 107, 72, 105]⟩) := by
  obtain ⟨m, hl, -⟩ := C49_loadable (.inr rfl) exe3 s0.mem
  refine ⟨{ s0 with mem := m }, hl, ?_⟩
  have hv : ((initAll C4 p3 mm2 (fun e M => Cg.Spec.evalE C4 (Cg.Spec.call C4 p3.fn (p3.env 2097152) 100) (p3.env 2097152) e 1048576 M) 2097152 ts3 M4).bind fun M1 =>
    (Cg.Spec.call C4 p3.fn (p3.env 2097152) 100 3 [] (1048576 - 2 * (8 : Nat)) M1).map (fun r => (r.1, r.2.io))) =
      some (66, [.write 1 [111], .write 1 [107], .write 1 [72], .write 1 [105]]) := by decide +kernel
  simp only [Option.bind_eq_some_iff, Option.map_eq_some_iff] at hv
  obtain ⟨M1, hi, ⟨v, M'⟩, hv, he⟩ := hv
  simp only [Prod.mk.injEq] at he
  obtain ⟨rfl, hio⟩ := he
  have hM : ∀ a b, M4 a = some b → (2097168 ≤ a ∧ a < 2097176 ∧ b = some 0) ∨ (1073741944 ≤ a ∧ a < 1073746040 ∧ ∃ c, str4 a = some c ∧ b = some c) := by
    intro a b ha
    unfold M4 at ha; dsimp only at ha
    split at ha
    · cases ha; exact .inl ⟨by omega, by omega, rfl⟩
    · simp only [Option.map_eq_some_iff] at ha
      obtain ⟨c, hc, rfl⟩ := ha
      have := str3_range hc
      exact .inr ⟨by omega, by omega, c, hc, rfl⟩
  obtain ⟨l, hgen⟩ := gen3
  have := (C49_executable_partial (os := os1) (C := C4) compiled3 (file := file3) (entry := 1073741944) (p := p3) (lab := lab3) (what := what3) (mm := mm2) (ts := ts3) (f := 3) (r := tInt) (M := M4) (M1 := M1) (M' := M')
    (vs := []) (sp := 1048576) (G := 2097152) (H := 268435456) (s := { s0 with mem := m }) (σ1 := σ1) exe3 hl enc3 hgen rfl (by unfold Cg.Spec.Program.InSpace; decide +kernel)
    (by unfold Supported; decide +kernel) (by decide +kernel) declares3 rfl rfl rfl (by decide) (by decide) ⟨started0.stack, started0.words, started0.low, started0.high⟩ given1
    (.inl rfl) ⟨by decide, by decide, ?_⟩ rfl ?_ (strAtB_ok (by decide +kernel)) ?_ ⟨100, hi⟩ ⟨100, hv⟩).1
  · rw [hio] at this
    exact this
  · intro a ha
    obtain ⟨b, hb⟩ := Option.ne_none_iff_exists'.1 ha
    have := hM a b hb
    show 0 ≤ a ∧ a < (18446744073709551616 : Int) ∧ ¬ ((65536 : Int) ≤ a ∧ a < 1048576)
    omega
  · intro a h1 h2
    cases e : M4 a with
    | none => rfl
    | some b =>
      have := hM a b e
      have h3 : a < 1048576 + (8 : Nat) := h2
      omega
  · intro a b ha
    rcases hM a _ ha with h | ⟨h1, h2, c, hc, hb⟩
    · have h4 : b = 0 := by have := h.2.2; cases this; rfl
      refine .inr (.inl ⟨?_, ?_, h4⟩)
      · show (2097152 : Int) + 2 * (8 : Nat) ≤ a
        omega
      · omega
    · cases hb
      exact .inr (.inr ⟨.inr (by omega), by omega, by omega, .inr (str4_code hc)⟩)

end Verif.Img
