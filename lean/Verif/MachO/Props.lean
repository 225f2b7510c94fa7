import Verif.MachO.Model
import Verif.MachO.Spec
import Verif.Elf.Props
/-! C48: the Mach-O file. -/
namespace Verif.MachO
open Verif.Code (write_i8 write_i32_le)
open Verif.Elf (write_4_i8 write_2_i8 write_code write_code_eq field_append field_i32 field_drop' field_add le4)

def H : List Int := write_pagezero (write_mach_o_header_64 []) ++
  [0x19, 0, 0, 0, 0x48, 0, 0, 0, 0x5f, 0x5f, 0x54, 0x45, 0x58, 0x54, 0, 0, 0, 0, 0, 0, 0, 0, 0, 0, 0, 0, 0, 0, 1, 0, 0, 0]
def M : List Int := [0, 0, 0, 0, 0, 0, 0, 0, 0, 0, 0, 0]
def T : List Int := write_unix_thread ([0, 0, 0, 0] ++ [7, 0, 0, 0, 5, 0, 0, 0, 0, 0, 0, 0, 0, 0, 0, 0])

theorem w4_app (a b c d : Int) (o : List Int) : write_4_i8 a b c d o = o ++ [a % 256, b % 256, c % 256, d % 256] := by
  simp [write_4_i8, write_2_i8, write_i8]

set_option maxRecDepth 4000 in
theorem thread_app (o : List Int) : write_unix_thread o = o ++ write_unix_thread [] := by
  simp only [write_unix_thread, w4_app, List.append_assoc, List.nil_append]

theorem lenH : H.length = 136 := by decide +kernel
theorem lenM : M.length = 12 := by decide +kernel
theorem lenT : T.length = 204 := by decide +kernel
theorem lenl (n : Nat) : (le4 n).length = 4 := rfl

theorem header (n : Nat) :
    write_unix_thread (write_text_section n (write_pagezero (write_mach_o_header_64 []))) =
      H ++ (le4 n ++ (M ++ (le4 n ++ T))) := by
  generalize hX : write_pagezero (write_mach_o_header_64 []) = X
  have hH : H = X ++ [0x19, 0, 0, 0, 0x48, 0, 0, 0, 0x5f, 0x5f, 0x54, 0x45, 0x58, 0x54, 0, 0, 0, 0, 0, 0, 0, 0, 0, 0,
      0, 0, 0, 0, 1, 0, 0, 0] := by rw [← hX]; rfl
  rw [thread_app, T, thread_app ([0, 0, 0, 0] ++ _), hH]
  simp [write_text_section, write_i32_le, write_i8, write_4_i8, write_2_i8, M, le4]

theorem header_length (n : Nat) :
    (write_unix_thread (write_text_section n (write_pagezero (write_mach_o_header_64 [])))).length = 360 := by
  rw [header]; simp only [List.length_append, lenH, lenM, lenT, lenl]

theorem fill_eq : ∀ k s o, 4096 ≤ s + k → fill k s o = o ++ List.replicate (4096 - s) 0
  | 0, s, o, h => by simp [fill, show 4096 - s = 0 by omega]
  | k + 1, s, o, h => by
    rw [fill]
    split
    · rename_i hs
      rw [fill_eq k (s + 1) _ (by omega), show 4096 - s = (4096 - (s + 1)) + 1 by omega, List.replicate_succ]
      simp [write_i8]
    · simp [show 4096 - s = 0 by omega]

/-- The text segment pnut describes. -/
def textSeg (n : Nat) : Spec.Seg :=
  ⟨[0x5f, 0x5f, 0x54, 0x45, 0x58, 0x54, 0, 0, 0, 0, 0, 0, 0, 0, 0, 0], 2 ^ 32, n, 0, n, 7, 5, 0⟩
/-- The zero page. -/
def pageZero : Spec.Seg :=
  ⟨[0x5f, 0x5f, 0x50, 0x41, 0x47, 0x45, 0x5a, 0x45, 0x52, 0x4f, 0, 0, 0, 0, 0, 0], 0, 2 ^ 32, 0, 0, 0, 0, 0⟩

/-- Facts about the file written for code `code[0..n)`. -/
structure Good (code : Nat → Int) (n : Nat) (file : List Int) : Prop where
  /-- a 64-bit x86-64 executable with three load commands, which follow the header of 32 bytes -/
  hdr : ∃ h, Spec.hdr file = some h ∧ h.magic = 0xfeedfacf ∧ h.cputype = 0x01000007 ∧ h.filetype = 2 ∧ h.ncmds = 3 ∧
    Spec.cmds file h.ncmds 32 =
      some ([.seg pageZero, .seg (textSeg n), .thread 4 42 (2 ^ 32 + (32 + h.sizeofcmds))], 32 + h.sizeofcmds)
  /-- the code follows the load commands (of 328 bytes) in the file -/
  code : ∀ i, i < n → file[360 + i]? = some (code i)
  /-- the file is as long as the system wants -/
  size : 4096 ≤ file.length ∧ 360 + n ≤ file.length

theorem file_eq (code : Nat → Int) (n : Nat) : generate_exe code n =
    H ++ (le4 n ++ (M ++ (le4 n ++ (T ++ (((List.range n).map fun k => code (0 + k) % 256) ++
      List.replicate (4096 - (56 + n)) 0))))) := by
  rw [generate_exe, fill_eq _ _ _ (by omega), write_code_eq, header]
  simp only [List.append_assoc]

theorem good (code : Nat → Int) (n : Nat) (hn : n ≤ Code.MAX_CODE_SIZE)
    (hb : ∀ i, i < n → 0 ≤ code i ∧ code i < 256) : Good code n (generate_exe code n) := by
  have hn' : n ≤ 500000 := hn
  have he := file_eq code n
  have hl : (generate_exe code n).length = 360 + n + (4096 - (56 + n)) := by
    rw [he]
    simp only [List.length_append, lenH, lenM, lenT, lenl, List.length_map, List.length_range, List.length_replicate]
    omega
  have hcode : ∀ i, i < n → (generate_exe code n)[360 + i]? = some (code i) := by
    intro i hi
    have e : generate_exe code n = (H ++ le4 n ++ M ++ le4 n ++ T) ++ (((List.range n).map fun k => code (0 + k) % 256) ++
        List.replicate (4096 - (56 + n)) 0) := by
      rw [he]; simp only [List.append_assoc]
    have hlen : (H ++ le4 n ++ M ++ le4 n ++ T).length = 360 := by
      simp only [List.length_append, lenH, lenM, lenT, lenl]
    rw [e, List.getElem?_append_right (by omega), hlen, Nat.add_sub_cancel_left,
      List.getElem?_append_left (by simpa using hi)]
    obtain ⟨h1, h2⟩ := hb i hi
    simp [hi]
    omega
  generalize generate_exe code n = f at he hl hcode ⊢
  generalize hcs : (((List.range n).map fun k => code (0 + k) % 256) ++ List.replicate (4096 - (56 + n)) 0) = cs at he
  have e2 : f = (H ++ le4 n) ++ (M ++ (le4 n ++ (T ++ cs))) := by
    rw [he]; simp only [List.append_assoc]
  have e3 : f = (H ++ le4 n ++ M) ++ (le4 n ++ (T ++ cs)) := by
    rw [he]; simp only [List.append_assoc]
  have e4 : f = (H ++ le4 n ++ M ++ le4 n) ++ (T ++ cs) := by
    rw [he]; simp only [List.append_assoc]
  have hp : ∀ off k v, Elf.Spec.field H off k = some v → Elf.Spec.field f off k = some v := by
    intro off k v h
    rw [he]
    exact field_append _ _ _ _ _ h
  have hm : ∀ off k v, Elf.Spec.field M off k = some v → Elf.Spec.field f (140 + off) k = some v := by
    intro off k v h
    rw [e2, field_drop' _ _ _ off _ (by simp only [List.length_append, lenH, lenM, lenl])]
    exact field_append _ _ _ _ _ h
  have hq : ∀ off k v, Elf.Spec.field T off k = some v → Elf.Spec.field f (156 + off) k = some v := by
    intro off k v h
    rw [e4, field_drop' _ _ _ off _ (by simp only [List.length_append, lenH, lenM, lenl])]
    exact field_append _ _ _ _ _ h
  have f1 : Elf.Spec.field f 136 4 = some n := by
    rw [he]
    exact field_i32 _ _ _ (by omega) _ (by simp only [List.length_append, lenH, lenM, lenl])
  have f2 : Elf.Spec.field f 152 4 = some n := by
    rw [e3]
    exact field_i32 _ _ _ (by omega) _ (by simp only [List.length_append, lenH, lenM, lenl])
  have g1 : Elf.Spec.field f 136 8 = some n := by
    have := field_add f 4 136 4 n 0 f1 (hm 0 4 0 (by decide +kernel))
    simpa using this
  have g2 : Elf.Spec.field f 152 8 = some n := by
    have := field_add f 4 152 4 n 0 f2 (hq 0 4 0 (by decide +kernel))
    simpa using this
  have hname : ∀ k, k + 16 ≤ 136 → (f.drop k).take 16 = (H.drop k).take 16 := by
    intro k hk
    rw [he, List.drop_append_of_le_length (by rw [lenH]; omega),
      List.take_append_of_le_length (by rw [List.length_drop, lenH]; omega)]
  have n1 : (f.drop 40).take 16 = pageZero.name := by rw [hname 40 (by decide)]; decide +kernel
  have n2 : (f.drop 112).take 16 = (textSeg n).name := by rw [hname 112 (by decide)]; exact (by decide +kernel : (H.drop 112).take 16 = (textSeg 0).name)
  refine ⟨⟨⟨0xfeedfacf, 0x01000007, 2, 3, 328⟩, ?_, rfl, rfl, rfl, rfl, ?_⟩, hcode, by omega, by omega⟩
  · simp only [Spec.hdr, hp 0 4 0xfeedfacf (by decide +kernel), hp 4 4 0x01000007 (by decide +kernel), hp 12 4 2 (by decide +kernel),
      hp 16 4 3 (by decide +kernel), hp 20 4 328 (by decide +kernel)]
    rfl
  · have c1 : Spec.cmd f 32 = some (.seg pageZero, 72) := by
      simp only [Spec.cmd, Nat.reduceAdd, hp 32 4 0x19 (by decide +kernel), hp 36 4 72 (by decide +kernel), hp 56 8 0 (by decide +kernel),
        hp 64 8 (2 ^ 32) (by decide +kernel), hp 72 8 0 (by decide +kernel), hp 80 8 0 (by decide +kernel), hp 88 4 0 (by decide +kernel),
        hp 92 4 0 (by decide +kernel), hp 96 4 0 (by decide +kernel), n1]
      rfl
    have c2 : Spec.cmd f 104 = some (.seg (textSeg n), 72) := by
      have h0 := hq 4 4 7 (by decide +kernel)
      have h1 := hq 8 4 5 (by decide +kernel)
      have h2 := hq 12 4 0 (by decide +kernel)
      have h3 := hm 4 8 0 (by decide +kernel)
      simp only [Nat.reduceAdd] at h0 h1 h2 h3
      simp only [Spec.cmd, Nat.reduceAdd, hp 104 4 0x19 (by decide +kernel), hp 108 4 72 (by decide +kernel), hp 128 8 (2 ^ 32) (by decide +kernel),
        g1, g2, h0, h1, h2, h3, n2]
      rfl
    have c3 : Spec.cmd f 176 = some (.thread 4 42 (2 ^ 32 + 360), 184) := by
      have h0 := hq 20 4 5 (by decide +kernel)
      have h1 := hq 24 4 184 (by decide +kernel)
      have h2 := hq 28 4 4 (by decide +kernel)
      have h3 := hq 32 4 42 (by decide +kernel)
      have h4 := hq 164 8 (2 ^ 32 + 360) (by decide +kernel)
      simp only [Nat.reduceAdd] at h0 h1 h2 h3 h4
      simp only [Spec.cmd, Nat.reduceAdd, Nat.reduceMul, h0, h1, h2, h3, h4]
      rfl
    simp only [Spec.cmds, c1, c2, c3, Nat.reduceAdd, Option.pure_def, Option.bind_eq_bind, Option.bind_some]

/-- **C48** (partial).  Whatever the code: the file is a Mach-O executable for x86-64 whose header and load
commands are well formed and of the stated sizes: an inaccessible segment over the first 4 GB, a text
segment (readable, executable, not writable) from there on, at the start of the file, and a thread that
starts at the first byte of the code.  When the segments are mapped by whole pages of 4096 bytes and the
last page has room for the headers' 360 bytes behind the code (`0 < n % 4096 ≤ 3736`), the whole code is
in memory from the entry point on, unchanged.  Missing: the other code sizes, for which it is false
(`C48_truncated_false`), and mapping without rounding (`C48_exact_false`). -/
theorem C48_macho_partial (code : Nat → Int) (n : Nat) (hn : n ≤ Code.MAX_CODE_SIZE)
    (hb : ∀ i, i < n → 0 ≤ code i ∧ code i < 256) :
    Good code n (generate_exe code n) ∧
    (0 < n % 4096 → n % 4096 + 360 ≤ 4096 →
      ∀ i, i < n → Spec.mapped (generate_exe code n) (textSeg n) (2 ^ 32 + 360 + i) = some (code i)) := by
  have hg := good code n hn hb
  refine ⟨hg, fun h0 h1 i hi => ?_⟩
  have hu : 360 + n ≤ Spec.pageUp n := by
    simp only [Spec.pageUp]; omega
  rw [Spec.mapped, if_pos (by show 2 ^ 32 ≤ _ ∧ _ < 2 ^ 32 + Spec.pageUp n; omega)]
  show some ((generate_exe code n)[0 + (2 ^ 32 + 360 + i - 2 ^ 32)]?.getD 0) = _
  rw [show 0 + (2 ^ 32 + 360 + i - 2 ^ 32) = 360 + i by omega, hg.code i hi]
  rfl

/-- The segment is described as long as the code, but it starts with the 360 bytes of the headers: for
every code whose size does not leave 360 bytes in its last page, the end of the code is not mapped. -/
theorem C48_truncated_false (code : Nat → Int) (n : Nat) (h0 : 0 < n)
    (h : n % 4096 = 0 ∨ 4096 < n % 4096 + 360) :
    Spec.mapped (generate_exe code n) (textSeg n) (2 ^ 32 + 360 + (n - 1)) = none := by
  have hu : Spec.pageUp n ≤ 359 + n := by
    simp only [Spec.pageUp]; omega
  rw [Spec.mapped, if_neg (by show ¬ (2 ^ 32 ≤ _ ∧ _ < 2 ^ 32 + Spec.pageUp n); omega)]

/-- Without rounding, the last 360 bytes are never mapped, whatever the code; a code of at most 360
bytes not at all. -/
theorem C48_exact_false (code : Nat → Int) (n i : Nat) (hi : i < n) (h : n ≤ i + 360) :
    Spec.exact (generate_exe code n) (textSeg n) (2 ^ 32 + 360 + i) = none := by
  rw [Spec.exact, if_neg (by show ¬ (2 ^ 32 ≤ _ ∧ _ < 2 ^ 32 + n); omega)]

/-- Non-vacuity: a code of 5000 bytes is mapped whole, one of 8000 bytes is not. -/
example : ∀ i, i < 5000 → Spec.mapped (generate_exe (fun k => k % 256) 5000) (textSeg 5000) (2 ^ 32 + 360 + i) =
    some ((i : Int) % 256) :=
  (C48_macho_partial (fun k => (k : Int) % 256) 5000 (by decide +kernel) (fun i _ => by omega)).2 (by decide +kernel) (by decide +kernel)
example : Spec.mapped (generate_exe (fun k => k % 256) 8000) (textSeg 8000) (2 ^ 32 + 360 + 7999) = none :=
  C48_truncated_false _ 8000 (by decide +kernel) (by decide +kernel)

end Verif.MachO
