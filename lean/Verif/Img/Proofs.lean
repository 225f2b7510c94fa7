import Verif.Img.Model
import Verif.Img.Spec
import Verif.Code.Props
import Verif.Sys.Proofs5
/-! The bytes do what the items of code do. -/
namespace Verif.Img
open Verif Verif.X86 Verif.X86.Spec Verif.Cg Verif.Code Verif.Code.Spec Spec

/-- All are bytes. -/
def AreBytes (bs : List Nat) : Prop := ∀ b ∈ bs, b < 256
theorem AreBytes.nil : AreBytes [] := by intro b hb; cases hb
theorem AreBytes.cons {a : Int} {l : List Nat} (h : AreBytes l) : AreBytes (b8 a :: l) := by
  intro b hb
  rcases List.mem_cons.1 hb with rfl | hb
  · unfold b8; omega
  · exact h b hb
theorem AreBytes.append {l r : List Nat} (h : AreBytes l) (h2 : AreBytes r) : AreBytes (l ++ r) := by
  intro b hb
  rcases List.mem_append.1 hb with hb | hb
  · exact h b hb
  · exact h2 b hb
theorem AreBytes.ite {c : Prop} [Decidable c] {l r : List Nat} (h : AreBytes l) (h2 : AreBytes r) : AreBytes (if c then l else r) := by
  split <;> assumption
theorem AreBytes.rex {w a b : Nat} : AreBytes (rex_prefix w a b) := Code.rex_lt w a b
theorem AreBytes.i32 {n : Int} : AreBytes (X86.i32le n) := Code.i32le_lt n
theorem AreBytes.i64 {n : Int} : AreBytes (X86.i64le n) := .append .i32 .i32

theorem bytes_lt (w : Nat) (e : Emit) : AreBytes (e.bytes w) := by
  cases e <;> simp only [Emit.bytes, X86.add_reg_reg, X86.or_reg_reg, X86.and_reg_reg, X86.sub_reg_reg, X86.xor_reg_reg, X86.cmp_reg_reg, X86.mov_reg_reg, X86.op_reg_reg,
    X86.mov_reg_imm, X86.add_reg_imm, X86.mov_mem8_reg, X86.mov_mem16_reg, X86.mov_mem32_reg, X86.mov_mem64_reg, X86.mov_memory, X86.mov_reg_mem8, X86.mov_reg_mem16, X86.mov_reg_mem32,
    X86.mov_reg_mem8_sign_ext, X86.mov_reg_mem16_sign_ext, X86.mov_reg_mem32_sign_ext, X86.mov_reg_mem64, X86.mov_memory_extend, X86.imul_reg_reg, X86.idiv_reg, X86.div_reg, X86.cdq_cqo,
    X86.s_l_reg_cl, X86.sar_reg_cl, X86.shr_reg_cl, X86.op_reg_slash_digit, X86.push_reg, X86.pop_reg, X86.jump_rel, X86.call_rel, X86.call_reg, X86.ret, X86.jump_cond_rel, X86.int_i8,
    X86.syscall_, X86.mod_rm] <;>
  repeat' (first | exact .nil | exact .rex | exact .i32 | exact .i64 | apply AreBytes.ite | apply AreBytes.append | apply AreBytes.cons)

theorem bytes_len (w : Nat) (e : Emit) : (e.bytes w).length ≤ 15 := by
  have rex : ∀ a b, (rex_prefix w a b).length = if w = 8 then 1 else 0 := fun a b => by unfold rex_prefix; split <;> simp
  have h4 : ∀ n, (X86.i32le n).length = 4 := fun n => rfl
  have h8 : ∀ n, (X86.i64le n).length = 8 := fun n => rfl
  cases e <;> simp only [Emit.bytes, X86.add_reg_reg, X86.or_reg_reg, X86.and_reg_reg, X86.sub_reg_reg, X86.xor_reg_reg, X86.cmp_reg_reg, X86.mov_reg_reg, X86.op_reg_reg,
    X86.mov_reg_imm, X86.add_reg_imm, X86.mov_mem8_reg, X86.mov_mem16_reg, X86.mov_mem32_reg, X86.mov_mem64_reg, X86.mov_memory, X86.mov_reg_mem8, X86.mov_reg_mem16, X86.mov_reg_mem32,
    X86.mov_reg_mem8_sign_ext, X86.mov_reg_mem16_sign_ext, X86.mov_reg_mem32_sign_ext, X86.mov_reg_mem64, X86.mov_memory_extend, X86.imul_reg_reg, X86.idiv_reg, X86.div_reg, X86.cdq_cqo,
    X86.s_l_reg_cl, X86.sar_reg_cl, X86.shr_reg_cl, X86.op_reg_slash_digit, X86.push_reg, X86.pop_reg, X86.jump_rel, X86.call_rel, X86.call_reg, X86.ret, X86.jump_cond_rel, X86.int_i8,
    X86.syscall_, X86.mod_rm, List.length_append, List.length_cons, List.length_nil, h4, rex] <;>
  (repeat' split) <;> (try simp only [List.length_nil, List.length_cons, h4, h8, rex]) <;> (try omega) <;> (repeat' split) <;> omega

/-! ### places -/

theorem size_emits (w : Nat) (bs : List Nat) : size w (bs.map fun (b : Nat) => .emit (b : Int)) = bs.length := by
  induction bs with
  | nil => rfl
  | cons b bs ih => simp only [List.map_cons, size, size1, ih, List.length_cons]; omega

theorem size_asm (w : Nat) (a : Asm) : size w (asmOps w a) = a.size w := by
  cases a with
  | ins e => exact size_emits w _
  | data k bs => simp only [asmOps, size_append, size_emits, Asm.size]; rfl
  | _ => rfl

theorem size_code (w : Nat) (P : List Asm) : size w (codeOps w P) = (P.map (Asm.size w)).sum := by
  induction P with
  | nil => rfl
  | cons a P ih =>
    unfold codeOps at ih ⊢
    rw [List.flatMap_cons, size_append, size_asm, ih]
    simp

theorem adr_size (w : Nat) (base : Int) (P : List Asm) (pc : Nat) : adr w base P pc = base + (size w (codeOps w (P.take pc)) : Nat) := by
  rw [size_code]; rfl

/-- The operations of the item at `pc` and those around it. -/
theorem ops_split {w : Nat} {P : List Asm} {pc : Nat} {a : Asm} (h : P[pc]? = some a) :
    codeOps w P = codeOps w (P.take pc) ++ (asmOps w a ++ codeOps w (P.drop (pc + 1))) := by
  have hl : pc < P.length := (List.getElem?_eq_some_iff.1 h).1
  have e : P = P.take pc ++ a :: P.drop (pc + 1) := by
    have := (List.take_append_drop pc P).symm
    rw [List.drop_eq_getElem_cons hl, (List.getElem?_eq_some_iff.1 h).2] at this
    exact this
  conv => lhs; rw [e]
  simp only [codeOps, List.flatMap_append, List.flatMap_cons]

/-- The code `P` has been assembled to the bytes in `st`, which are in the memory `img` from address `base` on. -/
structure InMem (w : Nat) (base : Int) (P : List Asm) (img : Int → Nat) (st : S) : Prop where
  w48 : w = 4 ∨ w = 8
  asm : assemble w P = .ok st
  pos : DefsPositive w (codeOps w P)
  img : ∀ i : Nat, i < st.n → ((img (base + i) % 256 : Nat) : Int) = st.code i % 256
  nonneg : 0 ≤ base
  fit : adr w base P P.length < (2 ^ (8 * w - 1) : Nat)
  ok : ∀ e, Asm.ins e ∈ P → e.ok w
  cc : ∀ c n, Asm.jcc c n ∈ P → c < 16

section
variable {w : Nat} {base : Int} {P : List Asm} {img : Int → Nat} {st : S} (h : InMem w base P img st)
include h

theorem InMem.len : st.n = size w (codeOps w P) := (C28_bytes_kept w _ _ st h.pos h.asm).1

theorem InMem.emit {pre post : List Op} {b : Int} (e : codeOps w P = pre ++ .emit b :: post) : ((img (base + (size w pre : Nat)) % 256 : Nat) : Int) = b % 256 := by
  rw [h.img _ (by rw [h.len, e, size_append]; simp only [size, size1]; omega)]
  rw [(C28_bytes_kept w _ _ st h.pos h.asm).2 b pre post e]
  omega

theorem InMem.emits {pre post : List Op} {bs : List Nat} (hb : AreBytes bs) (e : codeOps w P = pre ++ (bs.map (fun (b : Nat) => Op.emit (b : Int)) ++ post)) {j : Nat} (hj : j < bs.length) :
    img (base + (size w pre : Nat) + j) % 256 = bs[j] := by
  have e2 : codeOps w P = (pre ++ (bs.take j).map (fun (b : Nat) => Op.emit (b : Int))) ++ .emit (bs[j] : Int) :: ((bs.drop (j + 1)).map (fun (b : Nat) => Op.emit (b : Int)) ++ post) := by
    have e3 : bs = bs.take j ++ bs[j] :: bs.drop (j + 1) := by rw [← List.drop_eq_getElem_cons hj, List.take_append_drop]
    have e4 : bs.map (fun (b : Nat) => Op.emit (b : Int)) = (bs.take j).map (fun (b : Nat) => Op.emit (b : Int)) ++ .emit (bs[j] : Int) :: (bs.drop (j + 1)).map (fun (b : Nat) => Op.emit (b : Int)) := by
      conv => lhs; rw [e3]
      rw [List.map_append, List.map_cons]
    rw [e, e4, List.append_assoc, List.append_assoc, List.cons_append]
  have := h.emit e2
  rw [size_append, size_emits, List.length_take, Nat.min_eq_left (by omega), Int.natCast_add, ← Int.add_assoc] at this
  have h1 : bs[j] < 256 := hb _ (List.getElem_mem hj)
  omega

theorem InMem.adr_le (pc : Nat) : adr w base P pc ≤ adr w base P P.length := by
  rcases Nat.le_total pc P.length with h1 | h1
  · exact adr_mono h1
  · rw [show adr w base P pc = adr w base P P.length by unfold adr; rw [List.take_of_length_le h1, List.take_length]]
    omega

theorem InMem.adr_nonneg (pc : Nat) : 0 ≤ adr w base P pc := by
  have := h.nonneg
  unfold adr
  omega

theorem InMem.space (pc : Nat) : 0 ≤ adr w base P pc ∧ adr w base P pc + 15 < (2 ^ (8 * w) : Nat) := by
  refine ⟨h.adr_nonneg pc, ?_⟩
  have h1 := h.adr_le pc
  have h2 := h.fit
  rcases h.w48 with rfl | rfl
  · have : ((2 ^ (8 * 4 - 1) : Nat) : Int) = 2147483648 := by decide
    have : ((2 ^ (8 * 4) : Nat) : Int) = 4294967296 := by decide
    omega
  · have : ((2 ^ (8 * 8 - 1) : Nat) : Int) = 9223372036854775808 := by decide
    have : ((2 ^ (8 * 8) : Nat) : Int) = 18446744073709551616 := by decide
    omega

theorem InMem.uns_adr (pc : Nat) : uns w (adr w base P pc) = adr w base P pc := by
  have := h.space pc
  unfold uns
  exact Int.emod_eq_of_lt this.1 (by omega)

omit h in
theorem window_eq {ip : Int} {bs : List Nat} (h0 : 0 ≤ ip) (h1 : ip + 15 < (2 ^ (8 * w) : Nat)) (hl : bs.length ≤ 15)
    (hb : ∀ j (hj : j < bs.length), img (ip + (j : Nat)) % 256 = bs[j]) : ∃ rest, window w img ip = bs ++ rest ∧ rest.length = 15 - bs.length := by
  refine ⟨((List.range (15 - bs.length)).map fun (j : Nat) => img (uns w (ip + (bs.length + j : Nat))) % 256), ?_, by simp⟩
  unfold window
  have e : (15 : Nat) = bs.length + (15 - bs.length) := by omega
  conv => lhs; rw [e]
  rw [List.range_add, List.map_append, List.map_map]
  congr 1
  apply List.ext_getElem
  · simp
  · intro j hj hj2
    simp only [List.getElem_map, List.getElem_range]
    rw [← hb j hj2]
    unfold uns
    rw [Int.emod_eq_of_lt (by omega) (by omega)]

/-- An item that is an instruction is fetched. -/
theorem InMem.fetch {pc : Nat} {a : Asm} {bs : List Nat} {i : Insn} (ha : P[pc]? = some a) (hs : a.size w = bs.length) (hl : bs.length ≤ 15)
    (hb : ∀ j (hj : j < bs.length), img (adr w base P pc + (j : Nat)) % 256 = bs[j]) (hd : ∀ rest, decode w (bs ++ rest) = some (i, rest)) :
    Fetch w img (adr w base P pc) i (adr w base P (pc + 1)) := by
  have hsp := h.space pc
  obtain ⟨rest, e1, e2⟩ := window_eq hsp.1 hsp.2 hl hb
  refine ⟨rest, by rw [e1]; exact hd rest, ?_⟩
  have : adr w base P (pc + 1) = adr w base P pc + (bs.length : Nat) := by
    unfold adr
    rw [List.take_add_one, ha]
    simp only [Option.toList_some, List.map_append, List.sum_append, List.map_cons, List.map_nil, List.sum_cons, List.sum_nil, hs]
    omega
  rw [e2, show 15 - (15 - bs.length) = bs.length by omega, ← this, h.uns_adr]

theorem InMem.fetch_ins {pc : Nat} {e : Emit} (ha : P[pc]? = some (.ins e)) : Fetch w img (adr w base P pc) (e.intended w) (adr w base P (pc + 1)) := by
  refine h.fetch ha rfl (bytes_len w e) ?_ (C31_encoding_partial w h.w48 e (h.ok e (List.mem_of_getElem? ha)))
  intro j hj
  rw [adr_size]
  exact h.emits (bytes_lt w e) (ops_split ha) hj

theorem InMem.fetch_ret {pc : Nat} (ha : P[pc]? = some .ret) : Fetch w img (adr w base P pc) .ret (adr w base P (pc + 1)) := by
  refine h.fetch (bs := [0xc3]) ha rfl (by simp) ?_ (fun rest => by rcases h.w48 with rfl | rfl <;> simp [decode, afterOpSize, body])
  intro j hj
  rw [adr_size]
  exact h.emits (bs := [0xc3]) (by intro b hb; simp at hb; omega) (ops_split ha) hj

omit h in
theorem s32_bmod (b0 b1 b2 b3 : Int) (h0 : 0 ≤ b0 ∧ b0 < 256) (h1 : 0 ≤ b1 ∧ b1 < 256) (h2 : 0 ≤ b2 ∧ b2 < 256) (h3 : 0 ≤ b3 ∧ b3 < 256) :
    s32 b0.toNat b1.toNat b2.toNat b3.toNat = Int.bmod (value [b0, b1, b2, b3]) (2 ^ (8 * 4)) := by
  have e : value [b0, b1, b2, b3] = b0 + 256 * b1 + 65536 * b2 + 16777216 * b3 := by simp only [value]; omega
  rw [e, Int.bmod_def]
  unfold s32
  dsimp only
  have : (((2 : Nat) ^ (8 * 4) : Nat) : Int) = 4294967296 := by decide
  rw [this]
  rw [Int.emod_eq_of_lt (by omega) (by omega)]
  split <;> split <;> omega

/-- The four bytes of a label operand. -/
theorem InMem.rel {pre post : List Op} {n i : Nat} (e : codeOps w P = pre ++ .use n :: post) (hi : P[i]? = some (.lbl n)) :
    ∃ b0 b1 b2 b3 : Nat, s32 b0 b1 b2 b3 = adr w base P i - (base + (size w pre : Nat) + 4) ∧
      ∀ j (hj : j < 4), img (base + (size w pre : Nat) + (j : Nat)) % 256 = [b0, b1, b2, b3][j] := by
  have hd := ops_split (w := w) hi
  have := C28_use w _ _ st h.pos h.asm n pre post _ _ e (by rw [hd]; rfl)
  obtain ⟨-, hr, hv⟩ := this
  have hlen : size w pre + 4 ≤ st.n := by rw [h.len, e, size_append]; simp only [size, size1]; omega
  have ec : cells st.code (size w pre) 4 = [st.code (size w pre), st.code (size w pre + 1), st.code (size w pre + 2), st.code (size w pre + 3)] := rfl
  rw [ec] at hr hv
  simp only [List.mem_cons, List.not_mem_nil, or_false, forall_eq_or_imp, forall_eq] at hr
  refine ⟨_, _, _, _, (s32_bmod _ _ _ _ hr.1 hr.2.1 hr.2.2.1 hr.2.2.2).trans ?_, ?_⟩
  · rw [adr_size]; omega
  · intro j hj
    have := h.img (size w pre + j) (by omega)
    rw [Int.natCast_add, ← Int.add_assoc] at this
    match j, hj with
    | 0, _ => show _ = (st.code _).toNat; simp only [Nat.add_zero] at this; omega
    | 1, _ => show _ = (st.code _).toNat; omega
    | 2, _ => show _ = (st.code _).toNat; omega
    | 3, _ => show _ = (st.code _).toNat; omega

omit h in
/-- Two pieces of memory after one another. -/
theorem two {ip : Int} {a b : List Nat} (ha : ∀ j (hj : j < a.length), img (ip + (j : Nat)) % 256 = a[j]) (hb : ∀ j (hj : j < b.length), img (ip + (a.length : Nat) + (j : Nat)) % 256 = b[j]) :
    ∀ j (hj : j < (a ++ b).length), img (ip + (j : Nat)) % 256 = (a ++ b)[j] := by
  intro j hj
  rw [List.length_append] at hj
  rcases Nat.lt_or_ge j a.length with h1 | h1
  · rw [List.getElem_append_left h1]; exact ha j h1
  · rw [List.getElem_append_right h1, ← hb (j - a.length) (by omega)]
    congr 2
    omega

/-- A transfer of control to a label is fetched. -/
theorem InMem.fetch_rel {pc i n : Nat} {a : Asm} {bs : List Nat} {f : Int → Insn} (ha : P[pc]? = some a) (ho : asmOps w a = bs.map (fun (b : Nat) => Op.emit (b : Int)) ++ [.use n])
    (hB : AreBytes bs) (hl : bs.length ≤ 2) (hs : a.size w = bs.length + 4) (hi : P[i]? = some (.lbl n))
    (hd : ∀ b0 b1 b2 b3 rest, decode w (bs ++ (b0 :: b1 :: b2 :: b3 :: rest)) = some (f (s32 b0 b1 b2 b3), rest)) :
    Fetch w img (adr w base P pc) (f (adr w base P i - adr w base P (pc + 1))) (adr w base P (pc + 1)) := by
  have hsp := ops_split (w := w) ha
  rw [ho] at hsp
  have e1 : codeOps w P = codeOps w (P.take pc) ++ (bs.map (fun (b : Nat) => Op.emit (b : Int)) ++ (.use n :: codeOps w (P.drop (pc + 1)))) := by
    rw [hsp]; simp only [List.append_assoc, List.cons_append, List.nil_append]
  have e2 : codeOps w P = (codeOps w (P.take pc) ++ bs.map (fun (b : Nat) => Op.emit (b : Int))) ++ .use n :: codeOps w (P.drop (pc + 1)) := by
    rw [e1, List.append_assoc]
  obtain ⟨b0, b1, b2, b3, hv, hb⟩ := h.rel e2 hi
  rw [size_append, size_emits] at hv hb
  have hn : adr w base P (pc + 1) = adr w base P pc + (bs.length + 4 : Nat) := by
    unfold adr
    rw [List.take_add_one, ha]
    simp only [Option.toList_some, List.map_append, List.sum_append, List.map_cons, List.map_nil, List.sum_cons, List.sum_nil, hs]
    omega
  have ea := adr_size w base P pc
  have e3 : adr w base P i - adr w base P (pc + 1) = s32 b0 b1 b2 b3 := by rw [hv, hn, ea]; omega
  rw [e3]
  refine h.fetch (bs := bs ++ [b0, b1, b2, b3]) ha (by rw [hs, List.length_append]; rfl) (by rw [List.length_append]; simp only [List.length_cons, List.length_nil]; omega) ?_
    (fun rest => by rw [List.append_assoc]; exact hd b0 b1 b2 b3 rest)
  apply two
  · intro j hj
    rw [ea]
    exact h.emits hB e1 hj
  · intro j hj
    rw [ea, Int.add_assoc base, ← Int.natCast_add]
    exact hb j hj

theorem InMem.fetch_jmp {pc i n : Nat} (ha : P[pc]? = some (.jmp n)) (hi : P[i]? = some (.lbl n)) :
    Fetch w img (adr w base P pc) (.jmp (adr w base P i - adr w base P (pc + 1))) (adr w base P (pc + 1)) := by
  refine h.fetch_rel (bs := [0xe9]) ha rfl (by intro b hb; simp at hb; omega) (by simp) rfl hi ?_
  intro b0 b1 b2 b3 rest
  rcases h.w48 with rfl | rfl <;> simp [decode, afterOpSize, body, imm32]

theorem InMem.fetch_call {pc i n : Nat} (ha : P[pc]? = some (.call n)) (hi : P[i]? = some (.lbl n)) :
    Fetch w img (adr w base P pc) (.call (adr w base P i - adr w base P (pc + 1))) (adr w base P (pc + 1)) := by
  refine h.fetch_rel (bs := [0xe8]) ha rfl (by intro b hb; simp at hb; omega) (by simp) rfl hi ?_
  intro b0 b1 b2 b3 rest
  rcases h.w48 with rfl | rfl <;> simp [decode, afterOpSize, body, imm32]

omit h in
theorem decode_jcc (hw : w = 4 ∨ w = 8) {c : Nat} (hc : c < 16) (b0 b1 b2 b3 : Nat) (rest : List Nat) :
    decode w ([0x0f, 0x80 + c] ++ (b0 :: b1 :: b2 :: b3 :: rest)) = some (.jcc c (s32 b0 b1 b2 b3), rest) := by
  match c, hc with
  | 0, _ | 1, _ | 2, _ | 3, _ | 4, _ | 5, _ | 6, _ | 7, _ | 8, _ | 9, _ | 10, _ | 11, _ | 12, _ | 13, _ | 14, _ | 15, _ =>
    rcases hw with rfl | rfl <;> simp [decode, afterOpSize, body, imm32]
  | n + 16, h => omega

omit h in
theorem jcc_ops (c n : Nat) : asmOps w (.jcc c n) = [0x0f, 0x80 + c].map (fun (b : Nat) => Op.emit (b : Int)) ++ [.use n] := by
  simp only [asmOps, List.map_cons, List.map_nil, List.cons_append, List.nil_append, Int.natCast_add]; rfl

theorem InMem.fetch_jcc {pc i c n : Nat} (ha : P[pc]? = some (.jcc c n)) (hi : P[i]? = some (.lbl n)) :
    Fetch w img (adr w base P pc) (.jcc c (adr w base P i - adr w base P (pc + 1))) (adr w base P (pc + 1)) := by
  have hc := h.cc c n (List.mem_of_getElem? ha)
  exact h.fetch_rel (bs := [0x0f, 0x80 + c]) (f := .jcc c) ha (jcc_ops c n) (by intro b hb; simp at hb; omega) (by simp) rfl hi (fun b0 b1 b2 b3 rest => decode_jcc h.w48 hc b0 b1 b2 b3 rest)

/-- A conditional jump is fetched even if its label is not defined. -/
theorem InMem.fetch_jcc' {pc c n : Nat} (ha : P[pc]? = some (.jcc c n)) : ∃ rel, Fetch w img (adr w base P pc) (.jcc c rel) (adr w base P (pc + 1)) := by
  have hc := h.cc c n (List.mem_of_getElem? ha)
  have hsp := ops_split (w := w) ha
  rw [jcc_ops, List.append_assoc] at hsp
  refine ⟨_, h.fetch (bs := [0x0f, 0x80 + c] ++ [img (adr w base P pc + 2 + (0 : Nat)) % 256, img (adr w base P pc + 2 + (1 : Nat)) % 256, img (adr w base P pc + 2 + (2 : Nat)) % 256,
    img (adr w base P pc + 2 + (3 : Nat)) % 256]) ha rfl (by simp) ?_ (fun rest => by rw [List.append_assoc]; exact decode_jcc h.w48 hc _ _ _ _ rest)⟩
  apply two
  · intro j hj
    rw [adr_size]
    exact h.emits (bs := [0x0f, 0x80 + c]) (by intro b hb; simp at hb; omega) hsp hj
  · intro j hj
    simp only [List.length_cons, List.length_nil] at hj
    match j, hj with
    | 0, _ | 1, _ | 2, _ | 3, _ => rfl

end
end Verif.Img
