import Verif.Elf.Model
import Verif.Elf.Spec
namespace Verif.Elf
open Verif.Code (write_i8 write_i32_le)

theorem write_code_eq (code : Nat → Int) : ∀ n i o,
    write_code code n i o = o ++ (List.range n).map fun k => code (i + k) % 256
  | 0, i, o => by simp [write_code]
  | n + 1, i, o => by
    rw [write_code, write_code_eq code n, write_i8, List.range_succ_eq_map]
    simp [List.map_map, Function.comp_def, Nat.add_assoc, Nat.add_comm 1]

theorem field_append (f g : List Int) : ∀ k off v, Spec.field f off k = some v → Spec.field (f ++ g) off k = some v
  | 0, off, v, h => h
  | k + 1, off, v, h => by
    unfold Spec.field at h ⊢
    split at h
    · rename_i b r hb hr
      rw [field_append f g k (off + 1) r hr]
      have : (f ++ g)[off]? = some b := by
        rw [List.getElem?_append_left (List.getElem?_eq_some_iff.1 hb).1]; exact hb
      rw [this]
      exact h
    · cases h

/-- The number written by `write_i32_le` is read back. -/
theorem field_i32 (pre post : List Int) (n : Nat) (hn : n < 2 ^ 32) (off : Nat) (ho : off = pre.length) :
    Spec.field (pre ++ ([(n : Int) % 256, (n : Int) / 2^8 % 256, (n : Int) / 2^16 % 256, (n : Int) / 2^24 % 256] ++ post)) off 4 = some n := by
  subst ho
  have h1 : ∀ x : Int, 0 ≤ x % 256 ∧ x % 256 < 256 := fun x => ⟨Int.emod_nonneg _ (by omega), Int.emod_lt_of_pos _ (by omega)⟩
  simp only [Spec.field]
  simp only [List.getElem?_append_right (Nat.le_add_right _ _), Nat.add_assoc, List.getElem?_append_right (Nat.le_refl _)]
  simp [h1]
  omega

/-- Facts about the file written for code `code[0..n)`. -/
structure Good (w : Nat) (code : Nat → Int) (n : Nat) (file : List Int) (eh : Spec.Ehdr) (ph : Spec.Phdr) : Prop where
  /-- magic number, class and byte order -/
  ident : Spec.ident (w / 4) file
  ehdr : Spec.ehdr w file = some eh
  /-- executable for the right machine (3: Intel 80386, 62: x86-64) -/
  exec : eh.type = 2 ∧ eh.machine = (if w = 4 then 3 else 62) ∧ eh.version = 1
  /-- there is one program header, right where the header says, of the stated size -/
  phdr : eh.phnum = 1 ∧ Spec.phdr w file eh.phoff = some ph ∧ eh.phentsize = (if w = 4 then 32 else 56) ∧
    eh.phoff = eh.ehsize ∧ eh.ehsize = (if w = 4 then 52 else 64)
  /-- it describes a loadable segment (readable and executable, not writable) covering the whole file -/
  seg : ph.type = 1 ∧ ph.flags = 5 ∧ ph.offset = 0 ∧ ph.filesz = file.length ∧ ph.memsz = file.length
  /-- file offset and address agree modulo the alignment, a power of two multiple of the page size -/
  align : ph.align % 4096 = 0 ∧ ph.offset % ph.align = ph.vaddr % ph.align ∧ ∃ k, ph.align = 2 ^ k
  /-- the code is in memory from the entry point on, and it ends the segment -/
  code : (∀ i, i < n → Spec.loaded file ph (eh.entry + i) = some (code i)) ∧ eh.entry + n = ph.vaddr + ph.memsz
  /-- everything fits in the address space -/
  fits : ph.vaddr + ph.memsz < 2 ^ 31

/-- Four bytes of a number, little-endian. -/
def le4 (n : Nat) : List Int := [(n : Int) % 256, (n : Int) / 2^8 % 256, (n : Int) / 2^16 % 256, (n : Int) / 2^24 % 256]

def H32 : List Int := e_header32 [] ++ [1, 0, 0, 0, 0, 0, 0, 0, 0, 0x80, 4, 8, 0, 0x80, 4, 8]
def T32 : List Int := [5, 0, 0, 0, 0, 0x10, 0, 0]
def H64 : List Int := e_header64 [] ++
  [1, 0, 0, 0, 5, 0, 0, 0, 0, 0, 0, 0, 0, 0, 0, 0, 0, 0, 0, 0x40, 0, 0, 0, 0, 0, 0, 0, 0x40, 0, 0, 0, 0]
def T64 : List Int := [0, 0, 0, 0, 0, 0, 0x20, 0, 0, 0, 0, 0]

/-- The header bytes for i386. -/
theorem header32 (n : Nat) : p_header32 n (e_header32 []) = H32 ++ (le4 (84 + n) ++ (le4 (84 + n) ++ T32)) := by
  simp [p_header32, e_header32, write_i32_le, write_i8, write_4_i8, write_2_i8, H32, T32, le4]

theorem header64 (n : Nat) : p_header64 n (e_header64 []) =
    H64 ++ (le4 (120 + n) ++ ([0, 0, 0, 0] ++ (le4 (120 + n) ++ T64))) := by
  simp [p_header64, e_header64, write_i32_le, write_i8, write_4_i8, write_2_i8, H64, T64, le4]

theorem field_drop (pre f : List Int) : ∀ k off, Spec.field (pre ++ f) (pre.length + off) k = Spec.field f off k
  | 0, off => rfl
  | k + 1, off => by
    have := field_drop pre f k (off + 1)
    simp only [Spec.field, Nat.add_assoc, this, List.getElem?_append_right (Nat.le_add_right _ _), Nat.add_sub_cancel_left]

theorem field_drop' (pre f : List Int) (k off p : Nat) (h : p = pre.length + off) :
    Spec.field (pre ++ f) p k = Spec.field f off k := by rw [h, field_drop]

theorem field_add (f : List Int) : ∀ j off k a b, Spec.field f off j = some a → Spec.field f (off + j) k = some b →
    Spec.field f off (j + k) = some (a + 256 ^ j * b)
  | 0, off, k, a, b, ha, hb => by
    simp only [Spec.field, Option.some.injEq] at ha
    subst ha
    simpa using hb
  | j + 1, off, k, a, b, ha, hb => by
    rw [show j + 1 + k = (j + k) + 1 by omega]
    unfold Spec.field at ha ⊢
    split at ha
    · rename_i x r hx hr
      rw [hx, field_add f j (off + 1) k r b hr (by rw [show off + 1 + j = off + (j + 1) by omega]; exact hb)]
      simp only
      split at ha
      · rename_i hx'
        rw [if_pos hx']
        simp only [Option.some.injEq] at ha ⊢
        subst ha
        rw [Nat.pow_succ', Nat.mul_assoc]
        omega
      · cases ha
    · cases ha

theorem length32 (n : Nat) : (p_header32 n (e_header32 [])).length = 84 := by
  rw [header32]; rfl
theorem length64 (n : Nat) : (p_header64 n (e_header64 [])).length = 120 := by
  rw [header64]; rfl

theorem loaded_code {code : Nat → Int} {n : Nat} (hb : ∀ i, i < n → 0 ≤ code i ∧ code i < 256)
    (hd : List Int) (ph : Spec.Phdr) (ho : ph.offset = 0) (hf : ph.filesz = hd.length + n) (i : Nat) (hi : i < n) :
    Spec.loaded (hd ++ (List.range n).map fun k => code (0 + k) % 256) ph (ph.vaddr + hd.length + i) = some (code i) := by
  unfold Spec.loaded
  rw [if_pos (by omega), ho]
  rw [show 0 + (ph.vaddr + hd.length + i - ph.vaddr) = hd.length + i by omega]
  rw [List.getElem?_append_right (Nat.le_add_right _ _), Nat.add_sub_cancel_left]
  obtain ⟨h1, h2⟩ := hb i hi
  simp [hi]
  omega

/-- **C35**: whatever the code, the file written is a well-formed ELF executable whose single segment
covers exactly the file and whose entry point is the first byte of the unchanged code. -/
theorem C35_elf_file (w : Nat) (hw : w = 4 ∨ w = 8) (code : Nat → Int) (n : Nat) (hn : n ≤ Code.MAX_CODE_SIZE)
    (hb : ∀ i, i < n → 0 ≤ code i ∧ code i < 256) :
    ∃ eh ph, Good w code n (generate_exe w code n) eh ph := by
  have hn' : n ≤ 500000 := hn
  rcases hw with rfl | rfl
  · refine ⟨⟨2, 3, 1, 0x08048054, 52, 52, 32, 1⟩, ⟨1, 5, 0, 0x08048000, 84 + n, 84 + n, 4096⟩, ?_⟩
    have hl : (generate_exe 4 code n).length = 84 + n := by
      simp [generate_exe, write_code_eq, length32]
    have he : generate_exe 4 code n = p_header32 n (e_header32 []) ++ (List.range n).map fun k => code (0 + k) % 256 := by
      simp [generate_exe, write_code_eq]
    generalize hcs : ((List.range n).map fun k => code (0 + k) % 256) = cs at he
    rw [header32] at he
    have e1 : generate_exe 4 code n = H32 ++ (le4 (84 + n) ++ (le4 (84 + n) ++ (T32 ++ cs))) := by
      rw [he]; simp only [List.append_assoc]
    have e2 : generate_exe 4 code n = (H32 ++ le4 (84 + n)) ++ (le4 (84 + n) ++ (T32 ++ cs)) := by
      rw [he]; simp only [List.append_assoc]
    have e3 : generate_exe 4 code n = (H32 ++ le4 (84 + n) ++ le4 (84 + n)) ++ (T32 ++ cs) := by
      rw [he]; simp only [List.append_assoc]
    have hp : ∀ off k v, Spec.field H32 off k = some v → Spec.field (generate_exe 4 code n) off k = some v := by
      intro off k v h
      rw [e1]
      exact field_append _ _ _ _ _ h
    have hq : ∀ off k v, Spec.field T32 off k = some v →
        Spec.field (generate_exe 4 code n) (76 + off) k = some v := by
      intro off k v h
      rw [e3, field_drop' _ _ _ off _ (by simp [H32, le4]; rfl)]
      exact field_append _ _ _ _ _ h
    have f1 : Spec.field (generate_exe 4 code n) 68 4 = some (84 + n) := by
      rw [e1]
      exact field_i32 _ _ _ (by omega) _ (by simp [H32]; rfl)
    have f2 : Spec.field (generate_exe 4 code n) 72 4 = some (84 + n) := by
      rw [e2]
      exact field_i32 _ _ _ (by omega) _ (by simp [H32, le4]; rfl)
    constructor
    · rw [Spec.ident, e1]
      rfl
    · simp only [Spec.ehdr, hp 16 2 2 (by decide), hp 18 2 3 (by decide), hp 20 4 1 (by decide), hp 24 4 0x08048054 (by decide),
        hp 28 4 52 (by decide), hp 40 2 52 (by decide), hp 42 2 32 (by decide), hp 44 2 1 (by decide)]
      rfl
    · exact ⟨rfl, rfl, rfl⟩
    · refine ⟨rfl, ?_, rfl, rfl, rfl⟩
      have h0 := hq 0 4 5 (by decide)
      have h4 := hq 4 4 4096 (by decide)
      simp only [Nat.reduceAdd] at h0 h4
      simp only [Spec.phdr, hp 52 4 1 (by decide), hp 56 4 0 (by decide), hp 60 4 0x08048000 (by decide), f1, f2,
        h0, h4, Nat.reduceAdd]
      rfl
    · exact ⟨rfl, rfl, rfl, hl.symm, hl.symm⟩
    · show 4096 % 4096 = 0 ∧ 0 % 4096 = 0x08048000 % 4096 ∧ ∃ k, 4096 = 2 ^ k
      exact ⟨by decide, by decide, 12, by decide⟩
    · refine ⟨fun i hi => ?_, by simp; omega⟩
      rw [he]
      have := loaded_code hb (p_header32 n (e_header32 [])) ⟨1, 5, 0, 0x08048000, 84 + n, 84 + n, 4096⟩ rfl
        (by rw [length32]) i hi
      rw [length32, header32, hcs] at this
      simp only [Nat.reduceAdd] at this ⊢
      exact this
    · simp; omega
  · refine ⟨⟨2, 62, 1, 0x40000078, 64, 64, 56, 1⟩, ⟨1, 5, 0, 0x40000000, 120 + n, 120 + n, 0x200000⟩, ?_⟩
    have hl : (generate_exe 8 code n).length = 120 + n := by
      simp [generate_exe, write_code_eq, length64]
    have he : generate_exe 8 code n = p_header64 n (e_header64 []) ++ (List.range n).map fun k => code (0 + k) % 256 := by
      simp [generate_exe, write_code_eq]
    generalize hcs : ((List.range n).map fun k => code (0 + k) % 256) = cs at he
    rw [header64] at he
    have e1 : generate_exe 8 code n = H64 ++ (le4 (120 + n) ++ ([0, 0, 0, 0] ++ (le4 (120 + n) ++ (T64 ++ cs)))) := by
      rw [he]; simp only [List.append_assoc]
    have e2 : generate_exe 8 code n = (H64 ++ le4 (120 + n)) ++ ([0, 0, 0, 0] ++ (le4 (120 + n) ++ (T64 ++ cs))) := by
      rw [he]; simp only [List.append_assoc]
    have e3 : generate_exe 8 code n = (H64 ++ le4 (120 + n) ++ [0, 0, 0, 0]) ++ (le4 (120 + n) ++ (T64 ++ cs)) := by
      rw [he]; simp only [List.append_assoc]
    have e4 : generate_exe 8 code n = (H64 ++ le4 (120 + n) ++ [0, 0, 0, 0] ++ le4 (120 + n)) ++ (T64 ++ cs) := by
      rw [he]; simp only [List.append_assoc]
    have hp : ∀ off k v, Spec.field H64 off k = some v → Spec.field (generate_exe 8 code n) off k = some v := by
      intro off k v h
      rw [e1]
      exact field_append _ _ _ _ _ h
    have hq : ∀ off k v, Spec.field T64 off k = some v →
        Spec.field (generate_exe 8 code n) (108 + off) k = some v := by
      intro off k v h
      rw [e4, field_drop' _ _ _ off _ (by simp [H64, le4]; rfl)]
      exact field_append _ _ _ _ _ h
    have f1 : Spec.field (generate_exe 8 code n) 96 8 = some (120 + n) := by
      rw [show 120 + n = 120 + n + 256 ^ 4 * 0 by omega]
      refine field_add _ 4 96 4 _ 0 ?_ ?_
      · rw [e1]
        exact field_i32 _ _ _ (by omega) _ (by simp [H64]; rfl)
      · rw [e2, field_drop' _ _ _ 0 _ (by simp [H64, le4]; rfl)]
        exact field_append [0, 0, 0, 0] _ _ _ _ (by decide)
    have f2 : Spec.field (generate_exe 8 code n) 104 8 = some (120 + n) := by
      rw [show 120 + n = 120 + n + 256 ^ 4 * 0 by omega]
      refine field_add _ 4 104 4 _ 0 ?_ (hq 0 4 0 (by decide))
      rw [e3]
      exact field_i32 _ _ _ (by omega) _ (by simp [H64, le4]; rfl)
    constructor
    · rw [Spec.ident, e1]
      rfl
    · simp only [Spec.ehdr, hp 16 2 2 (by decide), hp 18 2 62 (by decide), hp 20 4 1 (by decide), hp 24 8 0x40000078 (by decide),
        hp 32 8 64 (by decide), hp 52 2 64 (by decide), hp 54 2 56 (by decide), hp 56 2 1 (by decide)]
      rfl
    · exact ⟨rfl, rfl, rfl⟩
    · refine ⟨rfl, ?_, rfl, rfl, rfl⟩
      have h4 := hq 4 8 0x200000 (by decide)
      simp only [Nat.reduceAdd] at h4
      simp only [Spec.phdr, hp 64 4 1 (by decide), hp 68 4 5 (by decide), hp 72 8 0 (by decide), hp 80 8 0x40000000 (by decide), f1, f2,
        h4, Nat.reduceAdd]
      rfl
    · exact ⟨rfl, rfl, rfl, hl.symm, hl.symm⟩
    · show 0x200000 % 4096 = 0 ∧ 0 % 0x200000 = 0x40000000 % 0x200000 ∧ ∃ k, 0x200000 = 2 ^ k
      exact ⟨by decide, by decide, 21, by decide⟩
    · refine ⟨fun i hi => ?_, by simp; omega⟩
      rw [he]
      have := loaded_code hb (p_header64 n (e_header64 [])) ⟨1, 5, 0, 0x40000000, 120 + n, 120 + n, 0x200000⟩ rfl
        (by rw [length64]) i hi
      rw [length64, header64, hcs] at this
      simp only [Nat.reduceAdd] at this ⊢
      exact this
    · simp; omega

/-- Not vacuous: a three-byte program. -/
example : (generate_exe 8 (fun i => [0xc3, 0x90, 0x90].getD i 0) 3).length = 123 := by decide +kernel

end Verif.Elf
