import Verif.Base
/-! Model of the instruction emitters of x86.c (x86.c:30-640).

Every emitter of x86.c ends in calls `emit_i8(a)`; `emit_i8` stores `a & 0xff` (exe.c:11-17).  An
emitter is modelled as the list of bytes it appends, `b8 a` being the byte `a & 0xff`.  The word size
`w` (4 for i386, 8 for x86-64) replaces the `#if WORD_SIZE` conditionals. Registers are the numbers
of x86.c:31-47 (0..15). -/
namespace Verif.X86

/-- `a & 0xff` as stored by `emit_i8` (exe.c:11-17). -/
def b8 (a : Int) : Nat := (a % 256).toNat

/-- `emit_i32_le` (exe.c:29-31): `n`, `n >> 8`, `n >> 16`, `n >> 24`, each masked by `emit_i8`.
`>>` on a negative int is the arithmetic shift (floor division). -/
def i32le (n : Int) : List Nat := [b8 n, b8 (n / 2^8), b8 (n / 2^16), b8 (n / 2^24)]

/-- `emit_i64_le` (exe.c:33-37). -/
def i64le (n : Int) : List Nat := i32le n ++ i32le (n / 2^31)

/-- `rex_prefix` (x86.c:56-64): nothing on i386. -/
def rex_prefix (w reg1 reg2 : Nat) : List Nat :=
  if w = 8 then [b8 (0x48 + 0x04 * (if reg1 ≥ 8 then 1 else 0) + 0x01 * (if reg2 ≥ 8 then 1 else 0))]
  else []

/-- `mod_rm` (x86.c:69-95). `(reg & 7) << 3` is `(reg % 8) * 8`. -/
def mod_rm (reg1 reg2 : Nat) : List Nat := [b8 (0xc0 + ((reg1 % 8 : Nat) * 8 : Int) + (reg2 % 8 : Nat))]

/-- `op_reg_reg` (x86.c:101-108). -/
def op_reg_reg (w opcode dst src width : Nat) : List Nat :=
  (if width = 2 then [b8 0x66] else []) ++
  (if width = 8 then rex_prefix w src dst else []) ++ [b8 opcode] ++ mod_rm src dst

/-- `op_reg_slash_digit` (x86.c:111-115). -/
def op_reg_slash_digit (w opcode digit reg : Nat) : List Nat :=
  rex_prefix w 0 reg ++ [b8 opcode] ++ mod_rm digit reg

/-- `add_reg_reg` (x86.c:139-145). -/
def add_reg_reg (w dst src : Nat) := op_reg_reg w 0x01 dst src w
/-- `or_reg_reg` (x86.c:147-153). -/
def or_reg_reg (w dst src : Nat) := op_reg_reg w 0x09 dst src w
/-- `and_reg_reg` (x86.c:155-161). -/
def and_reg_reg (w dst src : Nat) := op_reg_reg w 0x21 dst src w
/-- `sub_reg_reg` (x86.c:163-169). -/
def sub_reg_reg (w dst src : Nat) := op_reg_reg w 0x29 dst src w
/-- `xor_reg_reg` (x86.c:171-177). -/
def xor_reg_reg (w dst src : Nat) := op_reg_reg w 0x31 dst src w
/-- `cmp_reg_reg` (x86.c:179-186). -/
def cmp_reg_reg (w dst src : Nat) := op_reg_reg w 0x39 dst src w
/-- `mov_reg_reg` (x86.c:188-194). -/
def mov_reg_reg (w dst src : Nat) := op_reg_reg w 0x89 dst src w

/-- `mov_reg_imm` (x86.c:196-210). -/
def mov_reg_imm (w dst : Nat) (imm : Int) : List Nat :=
  rex_prefix w 0 dst ++ [b8 (0xb8 + (dst % 8 : Nat))] ++ (if w = 4 then i32le imm else i64le imm)

/-- `add_reg_imm` (x86.c:231-240). -/
def add_reg_imm (w dst : Nat) (imm : Int) : List Nat :=
  rex_prefix w 0 dst ++ [b8 0x81] ++ mod_rm 0 dst ++ i32le imm

/-- The bytes of `add_reg_lbl` (x86.c:242-251) that precede the label operand. -/
def add_reg_lbl_head (w dst : Nat) : List Nat := rex_prefix w 0 dst ++ [b8 0x81] ++ mod_rm 0 dst

/-- `mov_memory` (x86.c:253-266). -/
def mov_memory (w op reg base : Nat) (offset : Int) (width : Nat) : List Nat :=
  (if width = 2 then [b8 0x66] else []) ++
  (if width = 8 then rex_prefix w reg base else []) ++ [b8 op] ++
  [b8 (0x80 + ((reg % 8 : Nat) * 8 : Int) + (base % 8 : Nat))] ++
  (if base = 4 ∨ base = 12 then [b8 0x24] else []) ++ i32le offset

/-- `mov_memory_extend` (x86.c:268-283). -/
def mov_memory_extend (w op reg base : Nat) (offset : Int) (include_0f : Bool) : List Nat :=
  rex_prefix w reg base ++ (if include_0f then [b8 0x0f] else []) ++ [b8 op] ++
  [b8 (0x80 + ((reg % 8 : Nat) * 8 : Int) + (base % 8 : Nat))] ++
  (if base = 4 ∨ base = 12 then [b8 0x24] else []) ++ i32le offset

/-- `mov_mem8_reg` (x86.c:285-298) without the `SAFE_MODE` check on `src`. -/
def mov_mem8_reg (w base : Nat) (offset : Int) (src : Nat) := mov_memory w 0x88 src base offset 1
/-- `mov_mem16_reg` (x86.c:300-306). -/
def mov_mem16_reg (w base : Nat) (offset : Int) (src : Nat) := mov_memory w 0x89 src base offset 2
/-- `mov_mem32_reg` (x86.c:308-314). -/
def mov_mem32_reg (w base : Nat) (offset : Int) (src : Nat) := mov_memory w 0x89 src base offset 4
/-- `mov_mem64_reg` (x86.c:316-322). -/
def mov_mem64_reg (w base : Nat) (offset : Int) (src : Nat) := mov_memory w 0x89 src base offset 8
/-- `mov_reg_mem8` (x86.c:324-330). -/
def mov_reg_mem8 (w dst base : Nat) (offset : Int) := mov_memory_extend w 0xb6 dst base offset true
/-- `mov_reg_mem16` (x86.c:332-338). -/
def mov_reg_mem16 (w dst base : Nat) (offset : Int) := mov_memory_extend w 0xb7 dst base offset true
/-- `mov_reg_mem32` (x86.c:340-348). -/
def mov_reg_mem32 (w dst base : Nat) (offset : Int) := mov_memory w 0x8b dst base offset 4
/-- `mov_reg_mem8_sign_ext` (x86.c:350-356). -/
def mov_reg_mem8_sign_ext (w dst base : Nat) (offset : Int) :=
  mov_memory_extend w 0xbe dst base offset true
/-- `mov_reg_mem16_sign_ext` (x86.c:358-364). -/
def mov_reg_mem16_sign_ext (w dst base : Nat) (offset : Int) :=
  mov_memory_extend w 0xbf dst base offset true
/-- `mov_reg_mem32_sign_ext` (x86.c:366-372). -/
def mov_reg_mem32_sign_ext (w dst base : Nat) (offset : Int) :=
  mov_memory_extend w 0x63 dst base offset false
/-- `mov_reg_mem64` (x86.c:374-380). -/
def mov_reg_mem64 (w dst base : Nat) (offset : Int) := mov_memory w 0x8b dst base offset 8

/-- `imul_reg_reg` (x86.c:382-390); `mul_reg_reg` (x86.c:392-398) is the same. -/
def imul_reg_reg (w dst src : Nat) : List Nat :=
  rex_prefix w dst src ++ [b8 0x0f, b8 0xaf] ++ mod_rm dst src
/-- `idiv_reg` (x86.c:400-406). -/
def idiv_reg (w src : Nat) := op_reg_slash_digit w 0xf7 7 src
/-- `div_reg` (x86.c:408-414). -/
def div_reg (w src : Nat) := op_reg_slash_digit w 0xf7 6 src
/-- `cdq_cqo` (x86.c:416-424). -/
def cdq_cqo (w : Nat) : List Nat := rex_prefix w 0 0 ++ [b8 0x99]
/-- `s_l_reg_cl` (x86.c:482-488). -/
def s_l_reg_cl (w dst : Nat) := op_reg_slash_digit w 0xd3 4 dst
/-- `sar_reg_cl` (x86.c:505-511). -/
def sar_reg_cl (w dst : Nat) := op_reg_slash_digit w 0xd3 7 dst
/-- `shr_reg_cl` (x86.c:524-530). -/
def shr_reg_cl (w dst : Nat) := op_reg_slash_digit w 0xd3 5 dst

/-- `idiv_reg_reg` (x86.c:426-437). -/
def idiv_reg_reg (w dst src : Nat) :=
  mov_reg_reg w 0 dst ++ cdq_cqo w ++ idiv_reg w src ++ mov_reg_reg w dst 0
/-- `irem_reg_reg` (x86.c:439-450). -/
def irem_reg_reg (w dst src : Nat) :=
  mov_reg_reg w 0 dst ++ cdq_cqo w ++ idiv_reg w src ++ mov_reg_reg w dst 2
/-- `div_reg_reg` (x86.c:452-467), without the `SAFE_MODE` check. -/
def div_reg_reg (w dst src : Nat) :=
  mov_reg_reg w 0 dst ++ mov_reg_imm w 2 0 ++ div_reg w src ++ mov_reg_reg w dst 0
/-- `rem_reg_reg` (x86.c:469-480). -/
def rem_reg_reg (w dst src : Nat) :=
  mov_reg_reg w 0 dst ++ mov_reg_imm w 2 0 ++ div_reg w src ++ mov_reg_reg w dst 2
/-- `s_l_reg_reg` (x86.c:490-503), without the `SAFE_MODE` check. -/
def s_l_reg_reg (w dst src : Nat) := mov_reg_reg w 1 src ++ s_l_reg_cl w dst
/-- `sar_reg_reg` (x86.c:513-522). -/
def sar_reg_reg (w dst src : Nat) := mov_reg_reg w 1 src ++ sar_reg_cl w dst
/-- `shr_reg_reg` (x86.c:532-541). -/
def shr_reg_reg (w dst src : Nat) := mov_reg_reg w 1 src ++ shr_reg_cl w dst

/-- `push_reg` (x86.c:543-549). -/
def push_reg (src : Nat) : List Nat := [b8 (0x50 + src)]
/-- `pop_reg` (x86.c:551-557). -/
def pop_reg (dst : Nat) : List Nat := [b8 (0x58 + dst)]
/-- `jump_rel` (x86.c:568-575); `jump` (x86.c:559-566) emits the same opcode, then the label. -/
def jump_rel (offset : Int) : List Nat := [b8 0xe9] ++ i32le offset
/-- `call` (x86.c:577-584), the label operand being the displacement `offset`. -/
def call_rel (offset : Int) : List Nat := [b8 0xe8] ++ i32le offset
/-- `call_reg` (x86.c:586-593). -/
def call_reg (reg : Nat) : List Nat := [b8 0xff] ++ mod_rm 2 reg
/-- `ret` (x86.c:595-601). -/
def ret : List Nat := [b8 0xc3]
/-- `jump_cond` (x86.c:616-624), the label operand being the displacement `offset`. -/
def jump_cond_rel (cond : Nat) (offset : Int) : List Nat :=
  [b8 0x0f, b8 (0x80 + cond)] ++ i32le offset
/-- `int_i8` (x86.c:631-637). -/
def int_i8 (n : Int) : List Nat := [b8 0xcd, b8 n]
/-- `syscall_` (x86.c:778-785). -/
def syscall_ : List Nat := [b8 0x0f, b8 0x05]

/-- The operand of `mov_reg_large_imm`: a small number (`imm_obj <= 0` stands for `-imm_obj`) or the two 32-bit halves of a large one. -/
inductive LargeImm where
  | small (n : Nat)
  | big (lo hi : Int)

/-- `mov_reg_large_imm` (x86.c:212-229) with `emit_i32_le_large_imm` and `emit_i64_le_large_imm` (exe.c:40-58). -/
def mov_reg_large_imm (w dst : Nat) : LargeImm → Res (List Nat)
  | .small n => .ok (rex_prefix w 0 dst ++ [b8 (0xb8 + (dst % 8 : Nat))] ++ (if w = 4 then i32le n else i64le n))
  | .big lo hi =>
    if w = 4 then if hi ≠ 0 then .fatal else .ok (rex_prefix w 0 dst ++ [b8 (0xb8 + (dst % 8 : Nat))] ++ i32le lo)
    else .ok (rex_prefix w 0 dst ++ [b8 (0xb8 + (dst % 8 : Nat))] ++ (i32le lo ++ i32le hi))

end Verif.X86
