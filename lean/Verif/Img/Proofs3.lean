import Verif.Img.Proofs2
import Verif.Elf.Props
import Verif.Sys.Props4
/-! From the file to the code in memory. -/
namespace Verif.Img
open Verif Verif.X86 Verif.X86.Spec Verif.Cg Verif.Code Verif.Code.Spec Verif.Sys

theorem run_append (w : Nat) (kind : Nat → Kind) : ∀ (a b : List Op) (s : S), Code.run w kind (a ++ b) s = (Code.run w kind a s).bind (Code.run w kind b)
  | [], b, s => rfl
  | o :: a, b, s => by
    simp only [List.cons_append, Code.run, Res.bind_assoc]
    congr 1
    funext s1
    exact run_append w kind a b s1

theorem defsPos_left {w : Nat} {a b : List Op} (h : DefsPositive w (a ++ b)) : DefsPositive w a := by
  intro pre o post l e ho
  exact h pre o (post ++ b) l (by rw [e, List.append_assoc, List.cons_append]) ho

/-- No label is defined twice in a program that can be assembled. -/
theorem uniq_of_asm {w : Nat} {P : List Asm} {st : S} (hpos : DefsPositive w (codeOps w P)) (ha : assemble w P = .ok st) : Uniq P := by
  have key : ∀ i j n : Nat, i < j → P[i]? = some (Asm.lbl n) → P[j]? = some (Asm.lbl n) → False := by
    intro i j n hij hi hj
    have e1 := ops_split (w := w) hj
    have hl : i < j := hij
    have hi2 : (P.take j)[i]? = some (Asm.lbl n) := by rw [List.getElem?_take_of_lt hij]; exact hi
    have e2 := ops_split (w := w) hi2
    simp only [asmOps, List.cons_append, List.nil_append] at e1 e2
    generalize hA : codeOps w (P.take j) = A at *
    have hp : DefsPositive w A := by rw [e1] at hpos; exact defsPos_left hpos
    have hp1 := hp
    unfold assemble at ha
    rw [e1, run_append, Res.bind_eq_ok] at ha
    obtain ⟨s1, h1, h2⟩ := ha
    have iv := run_inv' hp h1
    have hit := items_split w (codeOps w ((P.take j).take i)) (.defl n) (codeOps w ((P.take j).drop (i + 1)))
    rw [← e2] at hit
    have := (iv.defd n _ hit (by simp [isDef])).1
    have hz := hp1 _ _ _ n e2 (.inl rfl)
    simp only [Code.run, Op.run] at h2
    unfold def_label at h2
    rw [if_neg (by simp), if_pos (by rw [this]; dsimp only; omega)] at h2
    cases h2
  intro i j n hi hj
  rcases Nat.lt_trichotomy i j with h | h | h
  · exact (key i j n h hi hj).elim
  · exact h
  · exact (key j i n h hj hi).elim

/-- A program that begins with a jump has no label at the first byte. -/
theorem pos_of_jmp {w n : Nat} {P : List Asm} : DefsPositive w (codeOps w (.jmp n :: P)) := by
  show DefsPositive w (.emit 0xe9 :: _)
  exact C28_first_byte w _ _

theorem write_code_mod (code : Nat → Int) (n i : Nat) (o : List Int) : Elf.write_code (fun k => code k % 256) n i o = Elf.write_code code n i o := by
  rw [Elf.write_code_eq, Elf.write_code_eq]
  simp

theorem generate_mod (w : Nat) (code : Nat → Int) (n : Nat) : Elf.generate_exe w (fun k => code k % 256) n = Elf.generate_exe w code n := by
  unfold Elf.generate_exe
  rw [write_code_mod, write_code_mod]

/-- The file has been loaded: the code is in memory. -/
theorem inMem_of_file {w : Nat} (hw : w = 4 ∨ w = 8) {P : List Asm} {file : List Int} {m : Int → Nat} {entry : Int} (hpos : DefsPositive w (codeOps w P))
    (hf : executable w P = .ok file) (hl : Spec.ExecFile w file m entry) (hok : ∀ a ∈ P, Spec.Encodable w a) :
    ∃ st, InMem w entry P m st ∧ entry + st.n < 2147483648 := by
  unfold executable at hf
  rw [Res.bind_eq_ok] at hf
  obtain ⟨st, ha, hf⟩ := hf
  cases hf
  have hn : st.n ≤ 500000 := run_bound w _ _ _ _ (by simp [S.init]) ha
  obtain ⟨eh, ph, hg⟩ := Elf.C35_elf_file w hw (fun k => st.code k % 256) st.n hn (fun i _ => ⟨by omega, by omega⟩)
  rw [generate_mod] at hg
  obtain ⟨eh', ph', -, he', -, -, -, hp', -, hld, hen⟩ := hl.load
  rw [hg.ehdr] at he'
  cases he'
  rw [hg.phdr.2.1] at hp'
  cases hp'
  have hc := hg.code
  have hfit := hg.fits
  have hlen : st.n = size w (codeOps w P) := (C28_bytes_kept w _ _ st hpos ha).1
  have hfit2 : entry + st.n < 2147483648 := by omega
  refine ⟨st, ⟨hw, ha, hpos, ?_, by omega, ?_, fun e he => hok _ he, fun c n he => hok _ he⟩, hfit2⟩
  · intro i hi
    have := hld _ _ (hc.1 i hi)
    rw [hen, ← Int.natCast_add]
    exact this
  · rw [adr_size, List.take_length, ← hlen]
    rcases hw with rfl | rfl
    · have : ((2 ^ (8 * 4 - 1) : Nat) : Int) = 2147483648 := by decide
      omega
    · have : ((2 ^ (8 * 8 - 1) : Nat) : Int) = 9223372036854775808 := by decide
      omega

/-- The bytes of the string literals. -/
theorem InMem.image {w : Nat} {base : Int} {P : List Asm} {img : Int → Nat} {st : S} (h : InMem w base P img st) (hd : ∀ a ∈ P, Spec.Encodable w a) : Sys.Spec.Image w base P img := by
  intro pc k bs hp i hi
  have hb : AreBytes bs := hd _ (List.mem_of_getElem? hp)
  have e := ops_split (w := w) hp
  have : asmOps w (.data k bs) = (bs ++ [0]).map (fun (b : Nat) => Op.emit (b : Int)) := by simp [asmOps]
  rw [this] at e
  have := h.emits (bs := bs ++ [0]) (hb.append (by intro b hb; simp at hb; omega)) e (j := i) (by simp; omega)
  rw [adr_size, this, List.getD_eq_getElem?_getD, List.getElem?_eq_getElem (by simp; omega)]
  rfl

end Verif.Img
