import Verif.X86.Proofs
import Verif.X86.MachineLemmas
/-! # C31: x86 instructions are encoded as intended -/
namespace Verif.X86
open Spec

/-- The emitters of x86.c, with their C arguments. -/
inductive Emit where
  | add_reg_reg (dst src : Nat) | or_reg_reg (dst src : Nat) | and_reg_reg (dst src : Nat)
  | sub_reg_reg (dst src : Nat) | xor_reg_reg (dst src : Nat) | cmp_reg_reg (dst src : Nat)
  | mov_reg_reg (dst src : Nat)
  | mov_reg_imm (dst : Nat) (imm : Int)
  | add_reg_imm (dst : Nat) (imm : Int)
  | mov_mem8_reg (base : Nat) (offset : Int) (src : Nat)
  | mov_mem16_reg (base : Nat) (offset : Int) (src : Nat)
  | mov_mem32_reg (base : Nat) (offset : Int) (src : Nat)
  | mov_mem64_reg (base : Nat) (offset : Int) (src : Nat)
  | mov_reg_mem8 (dst base : Nat) (offset : Int)
  | mov_reg_mem16 (dst base : Nat) (offset : Int)
  | mov_reg_mem32 (dst base : Nat) (offset : Int)
  | mov_reg_mem8_sign_ext (dst base : Nat) (offset : Int)
  | mov_reg_mem16_sign_ext (dst base : Nat) (offset : Int)
  | mov_reg_mem32_sign_ext (dst base : Nat) (offset : Int)
  | mov_reg_mem64 (dst base : Nat) (offset : Int)
  | imul_reg_reg (dst src : Nat)
  | idiv_reg (src : Nat) | div_reg (src : Nat) | cdq_cqo
  | s_l_reg_cl (dst : Nat) | sar_reg_cl (dst : Nat) | shr_reg_cl (dst : Nat)
  | push_reg (src : Nat) | pop_reg (dst : Nat)
  | jump_rel (offset : Int) | call_rel (offset : Int) | call_reg (reg : Nat) | ret
  | jump_cond_rel (cond : Nat) (offset : Int)
  | int_i8 (n : Nat)
  | syscall_

/-- The bytes the emitter appends, at word size `w` (the model). -/
def Emit.bytes (w : Nat) : Emit → List Nat
  | .add_reg_reg d s => X86.add_reg_reg w d s
  | .or_reg_reg d s => X86.or_reg_reg w d s
  | .and_reg_reg d s => X86.and_reg_reg w d s
  | .sub_reg_reg d s => X86.sub_reg_reg w d s
  | .xor_reg_reg d s => X86.xor_reg_reg w d s
  | .cmp_reg_reg d s => X86.cmp_reg_reg w d s
  | .mov_reg_reg d s => X86.mov_reg_reg w d s
  | .mov_reg_imm d i => X86.mov_reg_imm w d i
  | .add_reg_imm d i => X86.add_reg_imm w d i
  | .mov_mem8_reg b o s => X86.mov_mem8_reg w b o s
  | .mov_mem16_reg b o s => X86.mov_mem16_reg w b o s
  | .mov_mem32_reg b o s => X86.mov_mem32_reg w b o s
  | .mov_mem64_reg b o s => X86.mov_mem64_reg w b o s
  | .mov_reg_mem8 d b o => X86.mov_reg_mem8 w d b o
  | .mov_reg_mem16 d b o => X86.mov_reg_mem16 w d b o
  | .mov_reg_mem32 d b o => X86.mov_reg_mem32 w d b o
  | .mov_reg_mem8_sign_ext d b o => X86.mov_reg_mem8_sign_ext w d b o
  | .mov_reg_mem16_sign_ext d b o => X86.mov_reg_mem16_sign_ext w d b o
  | .mov_reg_mem32_sign_ext d b o => X86.mov_reg_mem32_sign_ext w d b o
  | .mov_reg_mem64 d b o => X86.mov_reg_mem64 w d b o
  | .imul_reg_reg d s => X86.imul_reg_reg w d s
  | .idiv_reg s => X86.idiv_reg w s
  | .div_reg s => X86.div_reg w s
  | .cdq_cqo => X86.cdq_cqo w
  | .s_l_reg_cl d => X86.s_l_reg_cl w d
  | .sar_reg_cl d => X86.sar_reg_cl w d
  | .shr_reg_cl d => X86.shr_reg_cl w d
  | .push_reg s => X86.push_reg s
  | .pop_reg d => X86.pop_reg d
  | .jump_rel o => X86.jump_rel o
  | .call_rel o => X86.call_rel o
  | .call_reg r => X86.call_reg r
  | .ret => X86.ret
  | .jump_cond_rel c o => X86.jump_cond_rel c o
  | .int_i8 n => X86.int_i8 n
  | .syscall_ => X86.syscall_

/-- The instruction the comment in x86.c says the emitter encodes. -/
def Emit.intended (w : Nat) : Emit → Insn
  | .add_reg_reg d s => .rr .add w d s
  | .or_reg_reg d s => .rr .or w d s
  | .and_reg_reg d s => .rr .and w d s
  | .sub_reg_reg d s => .rr .sub w d s
  | .xor_reg_reg d s => .rr .xor w d s
  | .cmp_reg_reg d s => .rr .cmp w d s
  | .mov_reg_reg d s => .rr .mov w d s
  | .mov_reg_imm d i => .movImm w d i
  | .add_reg_imm d i => .addImm w d i
  | .mov_mem8_reg b o s => .store 1 b o s
  | .mov_mem16_reg b o s => .store 2 b o s
  | .mov_mem32_reg b o s => .store 4 b o s
  | .mov_mem64_reg b o s => .store 8 b o s
  | .mov_reg_mem8 d b o => .loadx false 1 w d b o
  | .mov_reg_mem16 d b o => .loadx false 2 w d b o
  | .mov_reg_mem32 d b o => .load 4 d b o
  | .mov_reg_mem8_sign_ext d b o => .loadx true 1 w d b o
  | .mov_reg_mem16_sign_ext d b o => .loadx true 2 w d b o
  | .mov_reg_mem32_sign_ext d b o => .loadx true 4 w d b o
  | .mov_reg_mem64 d b o => .load 8 d b o
  | .imul_reg_reg d s => .imul w d s
  | .idiv_reg s => .idiv w s
  | .div_reg s => .div w s
  | .cdq_cqo => .cxq w
  | .s_l_reg_cl d => .shift .shl w d
  | .sar_reg_cl d => .shift .sar w d
  | .shr_reg_cl d => .shift .shr w d
  | .push_reg s => .push s
  | .pop_reg d => .pop d
  | .jump_rel o => .jmp o
  | .call_rel o => .call o
  | .call_reg r => .callr r
  | .ret => .ret
  | .jump_cond_rel c o => .jcc c o
  | .int_i8 n => .int n
  | .syscall_ => .syscall

/-- A register of the machine: 8 on i386, 16 on x86-64. -/
def Reg (w r : Nat) : Prop := (w = 4 ∧ r < 8) ∨ (w = 8 ∧ r < 16)
/-- A C `int`. -/
def I32 (n : Int) : Prop := -2147483648 ≤ n ∧ n < 2147483648

/-- Operands for which the encoding is right.  Registers are arbitrary registers of the machine,
immediates and displacements arbitrary ints, except: the 8/16/32-bit accesses, `push`, `pop` and
`call_reg` need registers below 8 (no REX prefix is emitted, see the `_false` theorems), the byte
store needs AX..BX, and the 64-bit accesses and `mov_reg_mem32_sign_ext` exist on x86-64 only. -/
def Emit.ok (w : Nat) : Emit → Prop
  | .add_reg_reg d s | .or_reg_reg d s | .and_reg_reg d s | .sub_reg_reg d s | .xor_reg_reg d s
  | .cmp_reg_reg d s | .mov_reg_reg d s | .imul_reg_reg d s => Reg w d ∧ Reg w s
  | .mov_reg_imm d i | .add_reg_imm d i => Reg w d ∧ I32 i
  | .mov_mem8_reg b o s => b < 8 ∧ s < 4 ∧ I32 o
  | .mov_mem16_reg b o s | .mov_mem32_reg b o s => b < 8 ∧ s < 8 ∧ I32 o
  | .mov_mem64_reg b o s => w = 8 ∧ b < 16 ∧ s < 16 ∧ I32 o
  | .mov_reg_mem8 d b o | .mov_reg_mem16 d b o | .mov_reg_mem8_sign_ext d b o
  | .mov_reg_mem16_sign_ext d b o => Reg w d ∧ Reg w b ∧ I32 o
  | .mov_reg_mem32 d b o => d < 8 ∧ b < 8 ∧ I32 o
  | .mov_reg_mem32_sign_ext d b o | .mov_reg_mem64 d b o => w = 8 ∧ d < 16 ∧ b < 16 ∧ I32 o
  | .idiv_reg r | .div_reg r | .s_l_reg_cl r | .sar_reg_cl r | .shr_reg_cl r => Reg w r
  | .push_reg r | .pop_reg r | .call_reg r => r < 8
  | .cdq_cqo | .ret => True
  | .jump_rel o | .call_rel o => I32 o
  | .jump_cond_rel c o => c < 16 ∧ I32 o
  | .int_i8 n => n < 256
  | .syscall_ => w = 8

theorem b8_op (n : Nat) (h : n < 256) : b8 (n : Int) = n := by unfold b8; omega

theorem rt_rr (w dst src op : Nat) (o : RR) (hw : w = 4 ∨ w = 8) (hd : Reg w dst) (hs : Reg w src)
    (rest : List Nat)
    (hop : (op, o) ∈ [(0x01, RR.add), (0x09, .or), (0x21, .and), (0x29, .sub), (0x31, .xor),
      (0x39, .cmp), (0x89, .mov)]) :
    decode w (op_reg_reg w op dst src w ++ rest) = some (.rr o w dst src, rest) := by
  have hopl : op < 256 ∧ op ≠ 0x66 ∧ (op < 0x40 ∨ 0x50 ≤ op) := by
    simp at hop; omega
  have hb : ∀ R B t, modrm R 0 B ((192 + (src % 8) * 8 + dst % 8) :: t) = some (src, .reg dst, t) →
      ∀ hr, body w w hr R 0 B (op :: (192 + (src % 8) * 8 + dst % 8) :: t) = some (.rr o w dst src, t) := by
    intro R B t hm hr
    simp at hop
    rcases hop with ⟨rfl, rfl⟩ | ⟨rfl, rfl⟩ | ⟨rfl, rfl⟩ | ⟨rfl, rfl⟩ | ⟨rfl, rfl⟩ | ⟨rfl, rfl⟩ | ⟨rfl, rfl⟩ <;>
      simp [body, hm]
  rcases hw with rfl | rfl
  · have hd : dst < 8 := by rcases hd with h | h <;> omega
    have hs : src < 8 := by rcases hs with h | h <;> omega
    simp only [op_reg_reg, b8_op op hopl.1, mod_rm_eq]
    simp only [show ¬ ((4:Nat) = 2) by decide, show ¬ ((4:Nat) = 8) by decide, if_false,
      List.nil_append, List.cons_append]
    rw [dec_norex _ _ _ hopl.2.1 hopl.2.2]
    exact hb 0 0 rest (modrm_rr 0 0 src dst rest 0 (by omega) (by omega)) false
  · have hd : dst < 16 := by rcases hd with h | h <;> omega
    have hs : src < 16 := by rcases hs with h | h <;> omega
    simp only [op_reg_reg, b8_op op hopl.1, mod_rm_eq]
    simp only [show ¬ ((8:Nat) = 2) by decide, if_false, if_true, rex8,
      List.nil_append, List.cons_append]
    rw [dec_rex]
    exact hb _ _ rest (modrm_rr _ _ src dst rest 0 (hi_ge hs) (hi_ge hd)) true

theorem rt_slash (w op digit reg : Nat) (i : Insn) (hw : w = 4 ∨ w = 8) (hr : Reg w reg)
    (hdig : digit < 8) (rest : List Nat)
    (hop : (op = 0xf7 ∧ (digit = 7 ∧ i = .idiv w reg ∨ digit = 6 ∧ i = .div w reg)) ∨
      (op = 0xd3 ∧ (digit = 4 ∧ i = .shift .shl w reg ∨ digit = 5 ∧ i = .shift .shr w reg ∨
        digit = 7 ∧ i = .shift .sar w reg))) :
    decode w (op_reg_slash_digit w op digit reg ++ rest) = some (i, rest) := by
  have hopl : op < 256 ∧ op ≠ 0x66 ∧ (op < 0x40 ∨ 0x50 ≤ op) := by omega
  have hb : ∀ R B t, (∀ d, d < 8 → ∃ d', d' % 8 = d ∧
        modrm R 0 B ((192 + (d % 8) * 8 + reg % 8) :: t) = some (d', .reg reg, t)) →
      ∀ hr, body w w hr R 0 B (op :: (192 + (digit % 8) * 8 + reg % 8) :: t) = some (i, t) := by
    intro R B t hm hr
    obtain ⟨d', hd', hm⟩ := hm digit hdig
    rcases hop with ⟨rfl, ⟨rfl, rfl⟩ | ⟨rfl, rfl⟩⟩ | ⟨rfl, ⟨rfl, rfl⟩ | ⟨rfl, rfl⟩ | ⟨rfl, rfl⟩⟩ <;>
      simp only [body, hm] <;> simp [hd']
  rcases hw with rfl | rfl
  · have hd : reg < 8 := by rcases hr with h | h <;> omega
    simp only [op_reg_slash_digit, b8_op op hopl.1, mod_rm_eq, rex4,
      List.nil_append, List.cons_append]
    rw [dec_norex _ _ _ hopl.2.1 hopl.2.2]
    refine hb 0 0 rest (fun d hd' => ⟨d, by omega, modrm_rr 0 0 d reg rest 0 (by omega) (by omega)⟩) false
  · have hd : reg < 16 := by rcases hr with h | h <;> omega
    simp only [op_reg_slash_digit, b8_op op hopl.1, mod_rm_eq, rex8,
      List.nil_append, List.cons_append]
    rw [dec_rex]
    refine hb _ _ rest (fun d hd' => ⟨d, by omega, modrm_rr _ _ d reg rest 0 (by simp; omega) (hi_ge hd)⟩) true

/-- The tail of a memory instruction. -/
theorem memtail (base : Nat) (offset : Int) (reg : Nat) (rest : List Nat) :
    [b8 (0x80 + ((reg % 8 : Nat) * 8 : Int) + (base % 8 : Nat))] ++
      (if base = 4 ∨ base = 12 then [b8 0x24] else []) ++ i32le offset ++ rest =
    (128 + (reg % 8) * 8 + base % 8) ::
      ((if base = 4 ∨ base = 12 then [b8 0x24] else []) ++ (i32le offset ++ rest)) := by
  rw [mem_byte]; simp

theorem rt_mem (w op reg base width : Nat) (off : Int) (i : Insn) (rest : List Nat)
    (hw : w = 4 ∨ w = 8) (ho : I32 off)
    (hr : (width ≠ 8 ∧ reg < 8 ∧ base < 8) ∨ (width = 8 ∧ w = 8 ∧ reg < 16 ∧ base < 16))
    (hop : (op = 0x88 ∧ width = 1 ∧ reg < 4 ∧ i = .store 1 base off reg) ∨
      (op = 0x89 ∧ (width = 2 ∨ width = 4 ∨ width = 8) ∧ i = .store width base off reg) ∨
      (op = 0x8b ∧ (width = 4 ∨ width = 8) ∧ i = .load width reg base off)) :
    decode w (mov_memory w op reg base off width ++ rest) = some (i, rest) := by
  have hopl : op < 256 ∧ op ≠ 0x66 ∧ (op < 0x40 ∨ 0x50 ≤ op) := by omega
  obtain ⟨tl, htl⟩ : ∃ tl, tl = (128 + (reg % 8) * 8 + base % 8) ::
      ((if base = 4 ∨ base = 12 then [b8 0x24] else []) ++ (i32le off ++ rest)) := ⟨_, rfl⟩
  have hshape : mov_memory w op reg base off width ++ rest =
      (if width = 2 then [102] else []) ++ ((if width = 8 then rex_prefix w reg base else []) ++
        (op :: tl)) := by
    rw [htl, ← memtail]
    simp only [mov_memory, b8_op op hopl.1]
    have : b8 0x66 = 102 := rfl
    rw [this]
    simp
  rw [hshape]
  rcases hr with ⟨h8, hr8, hb8⟩ | ⟨rfl, rfl, hr16, hb16⟩
  · have hm := modrm_mem 0 0 reg base off rest (by omega) (by omega) (by omega) ho.1 ho.2
    rw [← htl] at hm
    rw [if_neg h8]
    rcases hop with ⟨rfl, rfl, hr4, rfl⟩ | ⟨rfl, hw', rfl⟩ | ⟨rfl, hw', rfl⟩
    · simp only [show ¬ ((1:Nat) = 2) by decide, if_false, List.nil_append]
      rw [dec_norex _ _ _ hopl.2.1 hopl.2.2]
      simp [body, hm, hr4]
    · rcases hw' with rfl | rfl | rfl
      · simp only [if_true, List.nil_append, List.cons_append]
        rw [dec_66 _ _ _ hopl.2.2]
        simp [body, hm]
      · simp only [show ¬ ((4:Nat) = 2) by decide, if_false, List.nil_append]
        rw [dec_norex _ _ _ hopl.2.1 hopl.2.2]
        simp [body, hm]
      · exact absurd rfl h8
    · rcases hw' with rfl | rfl
      · simp only [show ¬ ((4:Nat) = 2) by decide, if_false, List.nil_append]
        rw [dec_norex _ _ _ hopl.2.1 hopl.2.2]
        simp [body, hm]
      · exact absurd rfl h8
  · have hm := modrm_mem _ _ reg base off rest (hi_ge hr16) (hi_ge hb16) hb16 ho.1 ho.2
    rw [← htl] at hm
    simp only [show ¬ ((8:Nat) = 2) by decide, if_false, if_true, List.nil_append, rex8,
      List.cons_append]
    rw [dec_rex]
    rcases hop with ⟨rfl, h1, _⟩ | ⟨rfl, _, rfl⟩ | ⟨rfl, _, rfl⟩
    · omega
    · simp [body, hm]
    · simp [body, hm]

theorem rt_memx (w op reg base : Nat) (off : Int) (f0 : Bool) (i : Insn) (rest : List Nat)
    (hw : w = 4 ∨ w = 8) (ho : I32 off) (hr : Reg w reg) (hb : Reg w base)
    (hop : (f0 = true ∧ (op = 0xb6 ∧ i = .loadx false 1 w reg base off ∨
        op = 0xb7 ∧ i = .loadx false 2 w reg base off ∨
        op = 0xbe ∧ i = .loadx true 1 w reg base off ∨
        op = 0xbf ∧ i = .loadx true 2 w reg base off)) ∨
      (f0 = false ∧ w = 8 ∧ op = 0x63 ∧ i = .loadx true 4 w reg base off)) :
    decode w (mov_memory_extend w op reg base off f0 ++ rest) = some (i, rest) := by
  have hopl : op < 256 := by omega
  obtain ⟨tl, htl⟩ : ∃ tl, tl = (128 + (reg % 8) * 8 + base % 8) ::
      ((if base = 4 ∨ base = 12 then [b8 0x24] else []) ++ (i32le off ++ rest)) := ⟨_, rfl⟩
  have hshape : mov_memory_extend w op reg base off f0 ++ rest =
      rex_prefix w reg base ++ ((if f0 then [15] else []) ++ (op :: tl)) := by
    rw [htl, ← memtail]
    simp only [mov_memory_extend, b8_op op hopl]
    have : b8 0x0f = 15 := rfl
    rw [this]
    simp
  rw [hshape]
  rcases hw with rfl | rfl
  · have hr : reg < 8 := by rcases hr with h | h <;> omega
    have hb : base < 8 := by rcases hb with h | h <;> omega
    have hm := modrm_mem 0 0 reg base off rest (by omega) (by omega) (by omega) ho.1 ho.2
    rw [← htl] at hm
    rcases hop with ⟨rfl, hop⟩ | ⟨_, h, _⟩
    · simp only [rex4, List.nil_append, if_true, List.cons_append]
      rw [dec_norex _ _ _ (by decide) (by decide)]
      rcases hop with ⟨rfl, rfl⟩ | ⟨rfl, rfl⟩ | ⟨rfl, rfl⟩ | ⟨rfl, rfl⟩ <;> simp [body, hm]
    · omega
  · have hr : reg < 16 := by rcases hr with h | h <;> omega
    have hb : base < 16 := by rcases hb with h | h <;> omega
    have hm := modrm_mem _ _ reg base off rest (hi_ge hr) (hi_ge hb) hb ho.1 ho.2
    rw [← htl] at hm
    rcases hop with ⟨rfl, hop⟩ | ⟨rfl, _, rfl, rfl⟩
    · simp only [rex8, List.nil_append, if_true, List.cons_append]
      rw [dec_rex]
      rcases hop with ⟨rfl, rfl⟩ | ⟨rfl, rfl⟩ | ⟨rfl, rfl⟩ | ⟨rfl, rfl⟩ <;> simp [body, hm]
    · simp only [rex8, List.nil_append, List.cons_append]
      rw [dec_rex]
      simp [body, hm]

/-- **C31.** Every emitter of x86.c, with any operands of the machine (see `Emit.ok` for the few
restrictions), followed by any other code, appends bytes that decode, following the x86 manual, to
the intended instruction with these operands, and decoding resumes right after them. -/
theorem C31_encoding_partial (w : Nat) (hw : w = 4 ∨ w = 8) (e : Emit) (h : e.ok w) (rest : List Nat) :
    decode w (e.bytes w ++ rest) = some (e.intended w, rest) := by
  cases e <;> simp only [Emit.ok, Emit.bytes, Emit.intended] at h ⊢
  case add_reg_reg d s => exact rt_rr w d s 0x01 .add hw h.1 h.2 rest (by simp)
  case or_reg_reg d s => exact rt_rr w d s 0x09 .or hw h.1 h.2 rest (by simp)
  case and_reg_reg d s => exact rt_rr w d s 0x21 .and hw h.1 h.2 rest (by simp)
  case sub_reg_reg d s => exact rt_rr w d s 0x29 .sub hw h.1 h.2 rest (by simp)
  case xor_reg_reg d s => exact rt_rr w d s 0x31 .xor hw h.1 h.2 rest (by simp)
  case cmp_reg_reg d s => exact rt_rr w d s 0x39 .cmp hw h.1 h.2 rest (by simp)
  case mov_reg_reg d s => exact rt_rr w d s 0x89 .mov hw h.1 h.2 rest (by simp)
  case mov_reg_imm d i =>
    obtain ⟨hd, hi⟩ := h
    have hop : b8 (0xb8 + (d % 8 : Nat)) = 184 + d % 8 := by unfold b8; omega
    rcases hw with rfl | rfl
    · have hd : d < 8 := by rcases hd with h | h <;> omega
      simp only [mov_reg_imm, rex4, hop, if_true, List.nil_append, List.cons_append]
      rw [dec_norex _ _ _ (by omega) (by omega)]
      simp only [body]
      rw [imm32_i32le i hi.1 hi.2]
      repeat rw [if_neg (by omega)]
      rw [if_pos (by omega)]
      simp; omega
    · have hd : d < 16 := by rcases hd with h | h <;> omega
      simp only [mov_reg_imm, rex8, hop, show ¬ ((8:Nat) = 4) by decide, if_false,
        List.nil_append, List.cons_append]
      rw [dec_rex]
      simp only [body]
      rw [imm64_i64le i hi.1 hi.2]
      repeat rw [if_neg (by omega)]
      rw [if_pos (by omega)]
      simp [← hi_ge hd]; omega
  case add_reg_imm d i =>
    obtain ⟨hd, hi⟩ := h
    have hop : b8 0x81 = 129 := rfl
    rcases hw with rfl | rfl
    · have hd : d < 8 := by rcases hd with h | h <;> omega
      simp only [add_reg_imm, rex4, hop, mod_rm_eq, List.nil_append, List.cons_append]
      rw [dec_norex _ _ _ (by omega) (by omega)]
      simp only [body, modrm_rr 0 0 0 d _ 0 (by omega) (by omega : d / 8 = 0)]
      rw [imm32_i32le i hi.1 hi.2]
      simp
    · have hd : d < 16 := by rcases hd with h | h <;> omega
      simp only [add_reg_imm, rex8, hop, mod_rm_eq, List.nil_append, List.cons_append]
      rw [dec_rex]
      simp only [body, modrm_rr _ _ 0 d _ 0 (hi_ge (by omega : 0 < 16)) (hi_ge hd)]
      rw [imm32_i32le i hi.1 hi.2]
      simp
  case mov_mem8_reg b o s =>
    exact rt_mem w _ _ _ _ _ _ rest hw h.2.2 (.inl ⟨by decide, by omega, h.1⟩)
      (.inl ⟨rfl, rfl, h.2.1, rfl⟩)
  case mov_mem16_reg b o s =>
    exact rt_mem w _ _ _ _ _ _ rest hw h.2.2 (.inl ⟨by decide, h.2.1, h.1⟩)
      (.inr (.inl ⟨rfl, by simp, rfl⟩))
  case mov_mem32_reg b o s =>
    exact rt_mem w _ _ _ _ _ _ rest hw h.2.2 (.inl ⟨by decide, h.2.1, h.1⟩)
      (.inr (.inl ⟨rfl, by simp, rfl⟩))
  case mov_mem64_reg b o s =>
    exact rt_mem w _ _ _ _ _ _ rest hw h.2.2.2 (.inr ⟨rfl, h.1, h.2.2.1, h.2.1⟩)
      (.inr (.inl ⟨rfl, by simp, rfl⟩))
  case mov_reg_mem8 d b o => exact rt_memx w _ _ _ _ _ _ rest hw h.2.2 h.1 h.2.1 (by simp)
  case mov_reg_mem16 d b o => exact rt_memx w _ _ _ _ _ _ rest hw h.2.2 h.1 h.2.1 (by simp)
  case mov_reg_mem32 d b o =>
    exact rt_mem w _ _ _ _ _ _ rest hw h.2.2 (.inl ⟨by decide, h.1, h.2.1⟩)
      (.inr (.inr ⟨rfl, by simp, rfl⟩))
  case mov_reg_mem8_sign_ext d b o => exact rt_memx w _ _ _ _ _ _ rest hw h.2.2 h.1 h.2.1 (by simp)
  case mov_reg_mem16_sign_ext d b o => exact rt_memx w _ _ _ _ _ _ rest hw h.2.2 h.1 h.2.1 (by simp)
  case mov_reg_mem32_sign_ext d b o =>
    exact rt_memx w _ _ _ _ _ _ rest hw h.2.2.2 (.inr ⟨h.1, h.2.1⟩) (.inr ⟨h.1, h.2.2.1⟩)
      (.inr ⟨rfl, h.1, rfl, rfl⟩)
  case mov_reg_mem64 d b o =>
    exact rt_mem w _ _ _ _ _ _ rest hw h.2.2.2 (.inr ⟨rfl, h.1, h.2.1, h.2.2.1⟩)
      (.inr (.inr ⟨rfl, by simp, rfl⟩))
  case imul_reg_reg d s =>
    have hop : b8 0x0f = 15 := rfl
    have hop2 : b8 0xaf = 175 := rfl
    obtain ⟨hd, hs⟩ := h
    rcases hw with rfl | rfl
    · have hd : d < 8 := by rcases hd with h | h <;> omega
      have hs : s < 8 := by rcases hs with h | h <;> omega
      simp only [imul_reg_reg, rex4, hop, hop2, mod_rm_eq, List.nil_append, List.cons_append]
      rw [dec_norex _ _ _ (by omega) (by omega)]
      simp [body, modrm_rr 0 0 d s rest 0 (by omega) (by omega)]
    · have hd : d < 16 := by rcases hd with h | h <;> omega
      have hs : s < 16 := by rcases hs with h | h <;> omega
      simp only [imul_reg_reg, rex8, hop, hop2, mod_rm_eq, List.nil_append, List.cons_append]
      rw [dec_rex]
      simp only [body, modrm_rr _ _ d s rest 0 (hi_ge hd) (hi_ge hs)]
      simp
  case idiv_reg s => exact rt_slash w _ _ _ _ hw h (by decide) rest (.inl ⟨rfl, .inl ⟨rfl, rfl⟩⟩)
  case div_reg s => exact rt_slash w _ _ _ _ hw h (by decide) rest (.inl ⟨rfl, .inr ⟨rfl, rfl⟩⟩)
  case s_l_reg_cl d => exact rt_slash w _ _ _ _ hw h (by decide) rest (.inr ⟨rfl, .inl ⟨rfl, rfl⟩⟩)
  case sar_reg_cl d =>
    exact rt_slash w _ _ _ _ hw h (by decide) rest (.inr ⟨rfl, .inr (.inr ⟨rfl, rfl⟩)⟩)
  case shr_reg_cl d =>
    exact rt_slash w _ _ _ _ hw h (by decide) rest (.inr ⟨rfl, .inr (.inl ⟨rfl, rfl⟩)⟩)
  case cdq_cqo => rcases hw with rfl | rfl <;> rfl
  case push_reg r =>
    have : b8 (0x50 + (r : Nat)) = 80 + r := by unfold b8; omega
    simp only [push_reg, this, List.cons_append, List.nil_append]
    rw [dec_norex _ _ _ (by omega) (by omega)]
    simp only [body]
    repeat rw [if_neg (by omega)]
    rw [if_pos (by omega)]
    simp
  case pop_reg r =>
    have : b8 (0x58 + (r : Nat)) = 88 + r := by unfold b8; omega
    simp only [pop_reg, this, List.cons_append, List.nil_append]
    rw [dec_norex _ _ _ (by omega) (by omega)]
    simp only [body]
    repeat rw [if_neg (by omega)]
    rw [if_pos (by omega)]
    simp
  case jump_rel o =>
    have : b8 0xe9 = 233 := rfl
    simp only [jump_rel, this, List.cons_append, List.nil_append]
    rw [dec_norex _ _ _ (by omega) (by omega)]
    simp [body, imm32_i32le o h.1 h.2]
  case call_rel o =>
    have : b8 0xe8 = 232 := rfl
    simp only [call_rel, this, List.cons_append, List.nil_append]
    rw [dec_norex _ _ _ (by omega) (by omega)]
    simp [body, imm32_i32le o h.1 h.2]
  case call_reg r =>
    have : b8 0xff = 255 := rfl
    simp only [call_reg, this, mod_rm_eq, List.cons_append, List.nil_append]
    rw [dec_norex _ _ _ (by omega) (by omega)]
    simp [body, modrm_rr 0 0 2 r rest 0 (by omega) (by omega)]
  case ret => rcases hw with rfl | rfl <;> rfl
  case jump_cond_rel c o =>
    have : b8 0x0f = 15 := rfl
    have h2 : b8 (0x80 + (c : Nat)) = 128 + c := by unfold b8; omega
    simp only [jump_cond_rel, this, h2, List.cons_append, List.nil_append]
    rw [dec_norex _ _ _ (by omega) (by omega)]
    have e1 : 128 + c ≠ 175 := by omega
    have e2 : 128 + c ≠ 182 := by omega
    have e3 : 128 + c ≠ 183 := by omega
    have e4 : 128 + c ≠ 190 := by omega
    have e5 : 128 + c ≠ 191 := by omega
    have e6 : 128 + c < 144 := by omega
    simp [body, imm32_i32le o h.2.1 h.2.2, e1, e2, e3, e4, e5, e6]
  case int_i8 n =>
    have : b8 0xcd = 205 := rfl
    have h2 : b8 (n : Int) = n := b8_op n h
    simp only [int_i8, this, h2, List.cons_append, List.nil_append]
    rw [dec_norex _ _ _ (by omega) (by omega)]
    simp [body]
  case syscall_ =>
    have : syscall_ = [15, 5] := by decide
    simp only [this, List.cons_append, List.nil_append]
    rw [dec_norex _ _ _ (by omega) (by omega)]
    simp [body, h]
end Verif.X86

/-! Composite emitters and whole sequences. -/
namespace Verif.X86
open Spec

/-- The value of a large immediate: the mathematical number of its two halves, read as unsigned 32-bit numbers. -/
def LargeImm.val : LargeImm → Int
  | .small n => n
  | .big lo hi => lo % 4294967296 + 4294967296 * (hi % 4294967296)

theorem imm32_sgn (n : Int) (t : List Nat) : imm32 (i32le n ++ t) = some (sgn 4 n, t) := by
  have : s32 (b8 n) (b8 (n / 2^8)) (b8 (n / 2^16)) (b8 (n / 2^24)) = sgn 4 n := by
    unfold s32 sgn b8 Int.bmod
    simp only [Int.reducePow, Nat.reducePow, Nat.reduceMul]
    split <;> split <;> omega
  simp only [imm32, i32le, List.cons_append, List.nil_append]
  rw [this]

theorem imm64_sgn (lo hi : Int) (t : List Nat) : imm64 (i32le lo ++ i32le hi ++ t) = some (sgn 8 (LargeImm.big lo hi).val, t) := by
  have hw : ∀ n : Int, (b8 n + 256 * b8 (n / 2^8) + 65536 * b8 (n / 2^16) + 16777216 * b8 (n / 2^24) : Int) = n % 4294967296 := by
    intro n; unfold b8; omega
  have : s64 (b8 lo) (b8 (lo / 2^8)) (b8 (lo / 2^16)) (b8 (lo / 2^24)) (b8 hi) (b8 (hi / 2^8)) (b8 (hi / 2^16)) (b8 (hi / 2^24)) = sgn 8 (LargeImm.big lo hi).val := by
    have h1 := hw lo
    have h2 := hw hi
    have h3 := Int.emod_nonneg lo (show (4294967296 : Int) ≠ 0 by decide)
    have h4 := Int.emod_nonneg hi (show (4294967296 : Int) ≠ 0 by decide)
    have h5 := Int.emod_lt_of_pos lo (show (0 : Int) < 4294967296 by decide)
    have h6 := Int.emod_lt_of_pos hi (show (0 : Int) < 4294967296 by decide)
    unfold s64 sgn
    rw [show (LargeImm.big lo hi).val = lo % 4294967296 + 4294967296 * (hi % 4294967296) from rfl]
    generalize b8 lo = x0 at h1 ⊢
    generalize b8 (lo / 2^8) = x1 at h1 ⊢
    generalize b8 (lo / 2^16) = x2 at h1 ⊢
    generalize b8 (lo / 2^24) = x3 at h1 ⊢
    generalize b8 hi = x4 at h2 ⊢
    generalize b8 (hi / 2^8) = x5 at h2 ⊢
    generalize b8 (hi / 2^16) = x6 at h2 ⊢
    generalize b8 (hi / 2^24) = x7 at h2 ⊢
    generalize lo % 4294967296 = a at h1 h3 h5 ⊢
    generalize hi % 4294967296 = b at h2 h4 h6 ⊢
    dsimp only
    generalize hu : x0 + 256 * x1 + 65536 * x2 + 16777216 * x3 + 4294967296 * (x4 + 256 * x5 + 65536 * x6 + 16777216 * x7) = u
    have e : (u : Int) = a + 4294967296 * b := by omega
    rw [← e]
    have h7 : (u : Int) < 18446744073709551616 := by omega
    clear h1 h2 hu e
    unfold Int.bmod
    rw [show ((2 ^ (8 * 8) : Nat) : Int) = 18446744073709551616 by decide, Int.emod_eq_of_lt (by omega) h7]
    dsimp only
    split <;> split <;> omega
  simp only [imm64, i32le, List.cons_append, List.nil_append]
  rw [this]

/-- **C31.** A literal too large for an `int` is loaded with its value (modulo the word size): for every register and every pair of halves the compiler accepts. -/
theorem C31_large_immediate (w : Nat) (hw : w = 4 ∨ w = 8) (d : Nat) (hd : Reg w d) (o : LargeImm) (ho : ∀ n, o = .small n → n < 2147483648) {bs : List Nat}
    (h : mov_reg_large_imm w d o = .ok bs) (rest : List Nat) : decode w (bs ++ rest) = some (.movImm w d (sgn w o.val), rest) := by
  have hop : b8 (0xb8 + (d % 8 : Nat)) = 184 + d % 8 := by unfold b8; omega
  have key4 : w = 4 → ∀ n : Int, decode w (rex_prefix w 0 d ++ [b8 (0xb8 + (d % 8 : Nat))] ++ i32le n ++ rest) = some (.movImm w d (sgn w n), rest) := by
    rintro rfl n
    have hd : d < 8 := by rcases hd with h | h <;> omega
    simp only [rex4, hop, List.nil_append, List.cons_append]
    rw [dec_norex _ _ _ (by omega) (by omega)]
    simp only [body]
    rw [imm32_sgn]
    repeat rw [if_neg (by omega)]
    rw [if_pos (by omega)]
    simp; omega
  have key8 : w = 8 → ∀ (bs : List Nat) (v : Int), imm64 (bs ++ rest) = some (v, rest) →
      decode w (rex_prefix w 0 d ++ [b8 (0xb8 + (d % 8 : Nat))] ++ bs ++ rest) = some (.movImm w d v, rest) := by
    rintro rfl bs v hb
    have hd : d < 16 := by rcases hd with h | h <;> omega
    simp only [rex8, hop, List.nil_append, List.cons_append]
    rw [dec_rex]
    simp only [body]
    rw [hb]
    repeat rw [if_neg (by omega)]
    rw [if_pos (by omega)]
    simp [← hi_ge hd]; omega
  cases o with
  | small n =>
    have hn := ho n rfl
    simp only [mov_reg_large_imm, Res.ok.injEq] at h
    subst h
    rcases hw with rfl | rfl
    · exact key4 rfl n
    · rw [if_neg (by decide)]
      refine key8 rfl _ _ ?_
      rw [imm64_i64le n (by omega) (by omega)]
      simp only [LargeImm.val]
      rw [sgn_id (.inr rfl) (by omega) (by omega)]
  | big lo hi =>
    rcases hw with rfl | rfl
    · simp only [mov_reg_large_imm, if_true] at h
      split at h
      · cases h
      · rename_i h0
        simp only [Res.ok.injEq] at h
        subst h
        have h0 : hi = 0 := by omega
        subst h0
        rw [key4 rfl]
        simp only [LargeImm.val]
        congr 3
        unfold sgn
        rw [show (4294967296 : Int) * (0 % 4294967296) = 0 by decide, Int.add_zero]
        exact (Int.emod_bmod lo 4294967296).symm
    · simp only [mov_reg_large_imm, show ¬ ((8:Nat) = 4) by decide, if_false, Res.ok.injEq] at h
      subst h
      exact key8 rfl _ _ (imm64_sgn lo hi rest)

/-- On i386 a literal that needs more than 32 bits is refused. -/
theorem C31_large_immediate_refused (d : Nat) (lo hi : Int) (h : hi ≠ 0) : mov_reg_large_imm 4 d (.big lo hi) = .fatal := by simp [mov_reg_large_imm, h]


/-- **C31, addition of a label.** The bytes before the label operand of `add_reg_lbl`, with the 4 bytes of the operand behind them, are an addition of the operand to the register. -/
theorem C31_add_reg_lbl (w : Nat) (hw : w = 4 ∨ w = 8) (d : Nat) (hd : Reg w d) (n : Int) (hn : I32 n) (rest : List Nat) :
    decode w (add_reg_lbl_head w d ++ i32le n ++ rest) = some (.addImm w d n, rest) :=
  C31_encoding_partial w hw (.add_reg_imm d n) ⟨hd, hn⟩ rest

/-- **C31, sequences.** The bytes of a sequence of emitter calls decode to the sequence of the intended
instructions. -/
theorem C31_sequence_partial (w : Nat) (hw : w = 4 ∨ w = 8) (es : List Emit) (h : ∀ e ∈ es, e.ok w) :
    Decodes w (es.flatMap (Emit.bytes w)) (es.map (Emit.intended w)) := by
  induction es with
  | nil => exact .nil
  | cons e es ih =>
    rw [List.flatMap_cons, List.map_cons]
    exact .cons (C31_encoding_partial w hw e (h e (by simp)) _)
      (ih (fun e he => h e (List.mem_cons_of_mem _ he)))

/-- State whose registers hold `w`-byte words. -/
def Wf (w : Nat) (s : MS) : Prop := ∀ r, sgn w (s.reg r) = s.reg r

theorem sgn_lo (w : Nat) (x : Int) (h : sgn w x = x) : x < 2 ^ (8 * w) := by
  have hp : (0:Nat) < 2 ^ (8 * w) := Nat.pow_pos (by decide)
  have := @Int.bmod_lt x (2 ^ (8 * w)) hp
  unfold sgn at h
  rw [h] at this
  have h2 : ((2 ^ (8 * w) : Nat) : Int) = 2 ^ (8 * w) := by simp
  rw [← h2]
  omega

theorem sgn_hi (w : Nat) (x : Int) (h : sgn w x = x) : -2 ^ (8 * w) ≤ x := by
  have hp : (0:Nat) < 2 ^ (8 * w) := Nat.pow_pos (by decide)
  have := @Int.le_bmod x (2 ^ (8 * w)) hp
  unfold sgn at h
  rw [h] at this
  have h2 : ((2 ^ (8 * w) : Nat) : Int) = 2 ^ (8 * w) := by simp
  rw [← h2]
  omega

/-- DX:AX after `cdq/cqo` is the sign-extended AX. -/
theorem dxax (w : Nat) (x : Int) (h : sgn w x = x) :
    (if x < 0 then (-1:Int) else 0) * 2 ^ (8 * w) + uns w x = x := by
  have hl := sgn_lo w x h
  have hh := sgn_hi w x h
  have h2 : ((2 ^ (8 * w) : Nat) : Int) = 2 ^ (8 * w) := by simp
  unfold uns
  rw [h2]
  split
  · have : x % (2 ^ (8 * w) : Int) = x + 2 ^ (8 * w) := by
      rw [← Int.add_emod_right]
      exact Int.emod_eq_of_lt (by omega) (by omega)
    omega
  · rw [Int.emod_eq_of_lt (by omega) hl]; omega

/-- The frame of a composite: other registers, memory unchanged. -/
def Frame (s s' : MS) (changed : List Nat) : Prop :=
  s'.mem = s.mem ∧ ∀ r, r ∉ changed → s'.reg r = s.reg r

/-- **C31, idiv_reg_reg.** For operands whose quotient is representable and a divisor register other
than AX and DX, the emitted code leaves the truncated quotient in `dst`; only AX, DX and `dst`
change. -/
theorem C31_idiv_reg_reg (w : Nat) (hw : w = 4 ∨ w = 8) (dst src : Nat) (hd : Reg w dst)
    (hs : Reg w src) (hsrc : src ≠ 0 ∧ src ≠ 2) (s : MS) (hwf : Wf w s)
    (h0 : s.reg src ≠ 0) (hq : sgn w ((s.reg dst).tdiv (s.reg src)) = (s.reg dst).tdiv (s.reg src)) :
    ∃ is s', Decodes w (idiv_reg_reg w dst src) is ∧ execs w s is = some s' ∧
      s'.reg dst = (s.reg dst).tdiv (s.reg src) ∧ Frame s s' [0, 2, dst] := by
  have r0 : Reg w 0 := by rcases hw with rfl | rfl <;> simp [Reg]
  have r2 : Reg w 2 := by rcases hw with rfl | rfl <;> simp [Reg]
  have d := C31_sequence_partial w hw
    [.mov_reg_reg 0 dst, .cdq_cqo, .idiv_reg src, .mov_reg_reg dst 0] (by simp [Emit.ok, hd, hs, r0, r2])
  have hx := dxax w (s.reg dst) (hwf dst)
  refine ⟨_, setReg (setReg (setReg (setReg (setReg s 0 (s.reg dst)) 2 (if s.reg dst < 0 then -1 else 0))
    0 ((s.reg dst).tdiv (s.reg src))) 2 ((s.reg dst).tmod (s.reg src))) dst ((s.reg dst).tdiv (s.reg src)),
    by simpa [Emit.bytes, idiv_reg_reg] using d, ?_, by simp [setReg], rfl, ?_⟩
  · simp [Emit.intended, execs, exec1, setReg, hsrc.1, hsrc.2, h0, hx, hq]
  · intro r hr
    simp at hr
    simp [setReg, hr]

/-- **C31, irem_reg_reg.** As above for the remainder. -/
theorem C31_irem_reg_reg (w : Nat) (hw : w = 4 ∨ w = 8) (dst src : Nat) (hd : Reg w dst)
    (hs : Reg w src) (hsrc : src ≠ 0 ∧ src ≠ 2) (s : MS) (hwf : Wf w s)
    (h0 : s.reg src ≠ 0) (hq : sgn w ((s.reg dst).tdiv (s.reg src)) = (s.reg dst).tdiv (s.reg src)) :
    ∃ is s', Decodes w (irem_reg_reg w dst src) is ∧ execs w s is = some s' ∧
      s'.reg dst = (s.reg dst).tmod (s.reg src) ∧ Frame s s' [0, 2, dst] := by
  have r0 : Reg w 0 := by rcases hw with rfl | rfl <;> simp [Reg]
  have r2 : Reg w 2 := by rcases hw with rfl | rfl <;> simp [Reg]
  have d := C31_sequence_partial w hw
    [.mov_reg_reg 0 dst, .cdq_cqo, .idiv_reg src, .mov_reg_reg dst 2] (by simp [Emit.ok, hd, hs, r0, r2])
  have hx := dxax w (s.reg dst) (hwf dst)
  refine ⟨_, setReg (setReg (setReg (setReg (setReg s 0 (s.reg dst)) 2 (if s.reg dst < 0 then -1 else 0))
    0 ((s.reg dst).tdiv (s.reg src))) 2 ((s.reg dst).tmod (s.reg src))) dst ((s.reg dst).tmod (s.reg src)),
    by simpa [Emit.bytes, irem_reg_reg] using d, ?_, by simp [setReg], rfl, ?_⟩
  · simp [Emit.intended, execs, exec1, setReg, hsrc.1, hsrc.2, h0, hx, hq]
  · intro r hr
    simp at hr
    simp [setReg, hr]

theorem uns_bound (w : Nat) (x : Int) : 0 ≤ uns w x ∧ uns w x < 2 ^ (8 * w) := by
  have h2 : ((2 ^ (8 * w) : Nat) : Int) = 2 ^ (8 * w) := by simp
  have hp : (0:Int) < 2 ^ (8 * w) := Int.pow_pos (by decide)
  unfold uns
  rw [h2]
  exact ⟨Int.emod_nonneg _ (by omega), Int.emod_lt_of_pos _ hp⟩

theorem uns_idem (w : Nat) (x : Int) (h0 : 0 ≤ x) (h : x < 2 ^ (8 * w)) : uns w x = x := by
  have h2 : ((2 ^ (8 * w) : Nat) : Int) = 2 ^ (8 * w) := by simp
  unfold uns
  rw [h2]
  exact Int.emod_eq_of_lt h0 h

theorem sgn_zero (w : Nat) : sgn w 0 = 0 := by
  unfold sgn; exact Int.zero_bmod ..

/-- **C31, div_reg_reg** (unsigned quotient). -/
theorem C31_div_reg_reg (w : Nat) (hw : w = 4 ∨ w = 8) (dst src : Nat) (hd : Reg w dst)
    (hs : Reg w src) (hsrc : src ≠ 0 ∧ src ≠ 2) (s : MS) (h0 : uns w (s.reg src) ≠ 0) :
    ∃ is s', Decodes w (div_reg_reg w dst src) is ∧ execs w s is = some s' ∧
      s'.reg dst = sgn w (uns w (s.reg dst) / uns w (s.reg src)) ∧ Frame s s' [0, 2, dst] := by
  have r0 : Reg w 0 := by rcases hw with rfl | rfl <;> simp [Reg]
  have r2 : Reg w 2 := by rcases hw with rfl | rfl <;> simp [Reg]
  have d := C31_sequence_partial w hw
    [.mov_reg_reg 0 dst, .mov_reg_imm 2 0, .div_reg src, .mov_reg_reg dst 0]
    (by simp [Emit.ok, hd, hs, r0, r2, I32])
  have hb := uns_bound w (s.reg dst)
  have hq : uns w (uns w (s.reg dst) / uns w (s.reg src)) = uns w (s.reg dst) / uns w (s.reg src) := by
    apply uns_idem
    · exact Int.ediv_nonneg hb.1 (uns_bound w _).1
    · exact Int.lt_of_le_of_lt (Int.ediv_le_self _ hb.1) hb.2
  have z : uns w 0 = 0 := uns_idem w 0 (by omega) (Int.pow_pos (by decide))
  refine ⟨_, setReg (setReg (setReg (setReg (setReg s 0 (s.reg dst)) 2 0)
    0 (sgn w (uns w (s.reg dst) / uns w (s.reg src)))) 2 (sgn w (uns w (s.reg dst) % uns w (s.reg src))))
    dst (sgn w (uns w (s.reg dst) / uns w (s.reg src))),
    by simpa [Emit.bytes, div_reg_reg] using d, ?_, by simp [setReg], rfl, ?_⟩
  · simp [Emit.intended, execs, exec1, setReg, hsrc.1, hsrc.2, h0, hq, sgn_zero, z]
  · intro r hr
    simp at hr
    simp [setReg, hr]

/-- **C31, rem_reg_reg** (unsigned remainder). -/
theorem C31_rem_reg_reg (w : Nat) (hw : w = 4 ∨ w = 8) (dst src : Nat) (hd : Reg w dst)
    (hs : Reg w src) (hsrc : src ≠ 0 ∧ src ≠ 2) (s : MS) (h0 : uns w (s.reg src) ≠ 0) :
    ∃ is s', Decodes w (rem_reg_reg w dst src) is ∧ execs w s is = some s' ∧
      s'.reg dst = sgn w (uns w (s.reg dst) % uns w (s.reg src)) ∧ Frame s s' [0, 2, dst] := by
  have r0 : Reg w 0 := by rcases hw with rfl | rfl <;> simp [Reg]
  have r2 : Reg w 2 := by rcases hw with rfl | rfl <;> simp [Reg]
  have d := C31_sequence_partial w hw
    [.mov_reg_reg 0 dst, .mov_reg_imm 2 0, .div_reg src, .mov_reg_reg dst 2]
    (by simp [Emit.ok, hd, hs, r0, r2, I32])
  have hb := uns_bound w (s.reg dst)
  have hq : uns w (uns w (s.reg dst) / uns w (s.reg src)) = uns w (s.reg dst) / uns w (s.reg src) := by
    apply uns_idem
    · exact Int.ediv_nonneg hb.1 (uns_bound w _).1
    · exact Int.lt_of_le_of_lt (Int.ediv_le_self _ hb.1) hb.2
  have z : uns w 0 = 0 := uns_idem w 0 (by omega) (Int.pow_pos (by decide))
  refine ⟨_, setReg (setReg (setReg (setReg (setReg s 0 (s.reg dst)) 2 0)
    0 (sgn w (uns w (s.reg dst) / uns w (s.reg src)))) 2 (sgn w (uns w (s.reg dst) % uns w (s.reg src))))
    dst (sgn w (uns w (s.reg dst) % uns w (s.reg src))),
    by simpa [Emit.bytes, rem_reg_reg] using d, ?_, by simp [setReg], rfl, ?_⟩
  · simp [Emit.intended, execs, exec1, setReg, hsrc.1, hsrc.2, h0, hq, sgn_zero, z]
  · intro r hr
    simp at hr
    simp [setReg, hr]

/-- **C31, shifts.** For `dst` other than CX, the code of `s_l_reg_reg`, `sar_reg_reg`, `shr_reg_reg`
shifts `dst` by `src` (modulo the word size in bits), left, right arithmetically, right logically. -/
theorem C31_shift_reg_reg (w : Nat) (hw : w = 4 ∨ w = 8) (dst src : Nat) (hd : Reg w dst)
    (hs : Reg w src) (hdst : dst ≠ 1) (s : MS) :
    let c := (s.reg src % (8 * w : Nat)).toNat
    ∃ i1 i2 i3 s1 s2 s3,
      (Decodes w (s_l_reg_reg w dst src) i1 ∧ execs w s i1 = some s1 ∧
        s1.reg dst = sgn w (s.reg dst * 2 ^ c) ∧ Frame s s1 [1, dst]) ∧
      (Decodes w (sar_reg_reg w dst src) i2 ∧ execs w s i2 = some s2 ∧
        s2.reg dst = s.reg dst / 2 ^ c ∧ Frame s s2 [1, dst]) ∧
      (Decodes w (shr_reg_reg w dst src) i3 ∧ execs w s i3 = some s3 ∧
        s3.reg dst = sgn w (uns w (s.reg dst) / 2 ^ c) ∧ Frame s s3 [1, dst]) := by
  have r1 : Reg w 1 := by rcases hw with rfl | rfl <;> simp [Reg]
  have d1 := C31_sequence_partial w hw [.mov_reg_reg 1 src, .s_l_reg_cl dst] (by simp [Emit.ok, *])
  have d2 := C31_sequence_partial w hw [.mov_reg_reg 1 src, .sar_reg_cl dst] (by simp [Emit.ok, *])
  have d3 := C31_sequence_partial w hw [.mov_reg_reg 1 src, .shr_reg_cl dst] (by simp [Emit.ok, *])
  simp only [Emit.bytes, Emit.intended, List.flatMap_cons, List.flatMap_nil, List.append_nil,
    List.map_cons, List.map_nil] at d1 d2 d3
  intro c
  refine ⟨_, _, _, setReg (setReg s 1 (s.reg src)) dst (sgn w (s.reg dst * 2 ^ c)),
    setReg (setReg s 1 (s.reg src)) dst (s.reg dst / 2 ^ c),
    setReg (setReg s 1 (s.reg src)) dst (sgn w (uns w (s.reg dst) / 2 ^ c)),
    ⟨d1, ?_, ?_, ?_⟩, ⟨d2, ?_, ?_, ?_⟩, ⟨d3, ?_, ?_, ?_⟩⟩
  all_goals simp [execs, exec1, setReg, Frame, hdst, c]
  all_goals
    intro r h1 h2
    simp [h1, h2]

/-! Where the full property fails. -/

/-- `push_reg(R8)` encodes `pop` of AX: no REX prefix is emitted for the registers above 7. -/
theorem C31_push_high_false : decode 8 (push_reg 8) = some (.pop 0, []) := by decide +kernel

/-- `call_reg(R8)` encodes a call through AX. -/
theorem C31_call_reg_high_false : decode 8 (call_reg 8) = some (.callr 0, []) := by decide +kernel

/-- A 32-bit store with a base above R7 uses the wrong base. -/
theorem C31_store32_high_false :
    decode 8 (mov_mem32_reg 8 8 0 1) = some (.store 4 0 0 1, []) := by decide +kernel

/-- On i386 `mov_reg_mem32_sign_ext` does not encode a load (63 is ARPL). -/
theorem C31_movsxd_i386_false : decode 4 (mov_reg_mem32_sign_ext 4 0 3 0) = none := by decide +kernel

/-- `s_l_reg_reg` with `dst = CX` does not shift `dst` by `src`. -/
theorem C31_shift_cx_false : ∃ (s : MS) (is : List Insn) (s' : MS), Wf 8 s ∧
    Decodes 8 (s_l_reg_reg 8 1 0) is ∧ execs 8 s is = some s' ∧
    s'.reg 1 ≠ sgn 8 (s.reg 1 * 2 ^ (s.reg 0 % 64).toNat) := by
  have r : ∀ n, n < 16 → Reg 8 n := fun n h => .inr ⟨rfl, h⟩
  have d1 := C31_sequence_partial 8 (.inr rfl) [.mov_reg_reg 1 0, .s_l_reg_cl 1]
    (by simp [Emit.ok, r])
  simp only [Emit.bytes, Emit.intended, List.flatMap_cons, List.flatMap_nil, List.append_nil,
    List.map_cons, List.map_nil] at d1
  exact ⟨⟨fun n => if n = 1 then 5 else if n = 0 then 3 else 0, fun _ => 0, 0, 0, []⟩, _, _,
    fun n => by by_cases h : n = 1 <;> by_cases h' : n = 0 <;> simp [h, h'] <;> decide, d1, rfl, by decide +kernel⟩

/-! Non-vacuity: concrete operands. -/
example : (Emit.mov_mem64_reg 12 (-8) 15).ok 8 ∧
    decode 8 ((Emit.mov_mem64_reg 12 (-8) 15).bytes 8) = some (.store 8 12 (-8) 15, []) := by
  refine ⟨by simp [Emit.ok, I32], by decide +kernel⟩
example : (Emit.mov_reg_mem8_sign_ext 2 4 300).ok 4 ∧
    decode 4 ((Emit.mov_reg_mem8_sign_ext 2 4 300).bytes 4) = some (.loadx true 1 4 2 4 300, []) := by
  refine ⟨by simp [Emit.ok, I32, Reg], by decide +kernel⟩
/-- `mov rax, rcx` then `cqo; idiv`: -7 / 2 with the operands in CX and BX. -/
example : ∃ s : MS, Wf 8 s ∧ s.reg 1 = -7 ∧ s.reg 3 = 2 ∧ s.reg 3 ≠ 0 ∧
    sgn 8 ((s.reg 1).tdiv (s.reg 3)) = -3 :=
  ⟨⟨fun n => if n = 1 then -7 else if n = 3 then 2 else 0, fun _ => 0, 0, 0, []⟩,
    fun n => by by_cases h : n = 1 <;> by_cases h' : n = 3 <;> simp [h, h'] <;> decide, rfl, rfl, by decide, by decide⟩
end Verif.X86
