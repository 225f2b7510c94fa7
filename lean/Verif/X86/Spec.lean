/-! Independent specification for C31: a decoder for the part of the instruction set used by pnut,
written from the tables of the Intel manual (Vol. 2: instruction format, ModR/M and SIB tables 2-2/2-3,
REX prefixes, opcode entries), for 32-bit mode (`w = 4`) and 64-bit mode (`w = 8`).  It does not refer
to the emitters.  An instruction outside the subset decodes to `none`. -/
namespace Verif.X86.Spec

inductive RR where | add | or | and | sub | xor | cmp | mov
  deriving DecidableEq, Repr
inductive Sh where | shl | shr | sar
  deriving DecidableEq, Repr

/-- Abstract instructions; `sz` is the operand size in bytes, registers are numbered 0..15
(0 = AX, 1 = CX, 2 = DX, 3 = BX, 4 = SP, 5 = BP, 6 = SI, 7 = DI, 8.. = R8..). -/
inductive Insn where
  | rr (op : RR) (sz dst src : Nat)                 -- op dst, src
  | addImm (sz dst : Nat) (imm : Int)               -- add dst, imm
  | movImm (sz dst : Nat) (imm : Int)               -- mov dst, imm
  | store (sz base : Nat) (disp : Int) (src : Nat)  -- mov [base+disp], src
  | load (sz dst base : Nat) (disp : Int)           -- mov dst, [base+disp]
  | loadx (signed : Bool) (msz sz dst base : Nat) (disp : Int)  -- movsx / movzx dst, [base+disp]
  | imul (sz dst src : Nat)                         -- imul dst, src
  | idiv (sz src : Nat)
  | div (sz src : Nat)
  | cxq (sz : Nat)                                  -- cdq / cqo
  | shift (op : Sh) (sz dst : Nat)                  -- shl/shr/sar dst, cl
  | push (r : Nat)
  | pop (r : Nat)
  | jmp (rel : Int)
  | call (rel : Int)
  | callr (r : Nat)
  | ret
  | jcc (cc : Nat) (rel : Int)
  | int (n : Nat)
  | syscall
  deriving DecidableEq, Repr

/-- Value of 4 bytes, least significant first, as a two's complement number. -/
def s32 (b0 b1 b2 b3 : Nat) : Int :=
  let u := b0 + 256 * b1 + 65536 * b2 + 16777216 * b3
  if u < 2147483648 then (u : Int) else (u : Int) - 4294967296

/-- Value of 8 bytes, least significant first, as a two's complement number. -/
def s64 (b0 b1 b2 b3 b4 b5 b6 b7 : Nat) : Int :=
  let u := b0 + 256 * b1 + 65536 * b2 + 16777216 * b3 +
    4294967296 * (b4 + 256 * b5 + 65536 * b6 + 16777216 * b7)
  if u < 9223372036854775808 then (u : Int) else (u : Int) - 18446744073709551616

def imm32 : List Nat → Option (Int × List Nat)
  | b0 :: b1 :: b2 :: b3 :: t => some (s32 b0 b1 b2 b3, t)
  | _ => none

def imm64 : List Nat → Option (Int × List Nat)
  | b0 :: b1 :: b2 :: b3 :: b4 :: b5 :: b6 :: b7 :: t => some (s64 b0 b1 b2 b3 b4 b5 b6 b7, t)
  | _ => none

/-- An r/m operand. -/
inductive Rm where
  | reg (r : Nat)
  | mem (base : Nat) (disp : Int)
  deriving DecidableEq, Repr

/-- ModR/M (and SIB, displacement): the `reg` field extended by REX.R, and the r/m operand, its
register or base extended by REX.B.  Tables 2-2 and 2-3.  mod 00 with r/m 101 (absolute or
RIP-relative) and SIB bytes with an index are outside the subset. -/
def modrm (R X B : Nat) : List Nat → Option (Nat × Rm × List Nat)
  | m :: t =>
    let md := m / 64
    let reg := m / 8 % 8 + 8 * R
    let rm := m % 8
    if md = 3 then some (reg, .reg (rm + 8 * B), t)
    else
      let withBase (base : Nat) (t : List Nat) : Option (Nat × Rm × List Nat) :=
        if md = 2 then
          match imm32 t with
          | some (d, t) => some (reg, .mem base d, t)
          | none => none
        else if md = 1 then
          match t with
          | b :: t => some (reg, .mem base (if b < 128 then (b : Int) else (b : Int) - 256), t)
          | [] => none
        else if base % 8 = 5 then none
        else some (reg, .mem base 0, t)
      if rm = 4 then
        match t with
        | sib :: t => if sib / 8 % 8 = 4 ∧ X = 0 then withBase (sib % 8 + 8 * B) t else none
        | [] => none
      else withBase (rm + 8 * B) t
  | [] => none

/-- The instruction after the prefixes; `sz` is the effective operand size, `hasRex` tells whether
there was a REX prefix (without one, byte registers 4..7 are AH, CH, DH, BH: outside the subset). -/
def body (w sz : Nat) (hasRex : Bool) (R X B : Nat) : List Nat → Option (Insn × List Nat)
  | [] => none
  | op :: t =>
    let rr (o : RR) : Option (Insn × List Nat) :=
      match modrm R X B t with
      | some (r, .reg d, t) => some (.rr o sz d r, t)
      | _ => none
    if op = 0x01 then rr .add
    else if op = 0x09 then rr .or
    else if op = 0x21 then rr .and
    else if op = 0x29 then rr .sub
    else if op = 0x31 then rr .xor
    else if op = 0x39 then rr .cmp
    else if op = 0x89 then
      match modrm R X B t with
      | some (r, .reg d, t) => some (.rr .mov sz d r, t)
      | some (r, .mem b d, t) => some (.store sz b d r, t)
      | none => none
    else if op = 0x88 then
      match modrm R X B t with
      | some (r, .mem b d, t) => if hasRex ∨ r < 4 then some (.store 1 b d r, t) else none
      | _ => none
    else if op = 0x8b then
      match modrm R X B t with
      | some (r, .mem b d, t) => some (.load sz r b d, t)
      | _ => none
    else if op = 0x63 ∧ w = 8 then       -- MOVSXD; in 32-bit mode 63 is ARPL
      match modrm R X B t with
      | some (r, .mem b d, t) => some (.loadx true 4 sz r b d, t)
      | _ => none
    else if op = 0x81 then
      match modrm R X B t with
      | some (r, .reg d, t) =>
        if r % 8 = 0 ∧ sz ≠ 2 then
          match imm32 t with
          | some (i, t) => some (.addImm sz d i, t)
          | none => none
        else none
      | _ => none
    else if 0xb8 ≤ op ∧ op < 0xc0 then
      if sz = 8 then
        match imm64 t with
        | some (i, t) => some (.movImm 8 (op - 0xb8 + 8 * B) i, t)
        | none => none
      else if sz = 4 then
        match imm32 t with
        | some (i, t) => some (.movImm 4 (op - 0xb8 + 8 * B) i, t)
        | none => none
      else none
    else if op = 0xf7 then
      match modrm R X B t with
      | some (r, .reg d, t) =>
        if r % 8 = 7 then some (.idiv sz d, t) else if r % 8 = 6 then some (.div sz d, t) else none
      | _ => none
    else if op = 0xd3 then
      match modrm R X B t with
      | some (r, .reg d, t) =>
        if r % 8 = 4 then some (.shift .shl sz d, t)
        else if r % 8 = 5 then some (.shift .shr sz d, t)
        else if r % 8 = 7 then some (.shift .sar sz d, t) else none
      | _ => none
    else if op = 0x99 then some (.cxq sz, t)
    else if 0x50 ≤ op ∧ op < 0x58 then some (.push (op - 0x50 + 8 * B), t)
    else if 0x58 ≤ op ∧ op < 0x60 then some (.pop (op - 0x58 + 8 * B), t)
    else if op = 0xe9 then
      match imm32 t with
      | some (i, t) => some (.jmp i, t)
      | none => none
    else if op = 0xe8 then
      match imm32 t with
      | some (i, t) => some (.call i, t)
      | none => none
    else if op = 0xff then
      match modrm R X B t with
      | some (r, .reg d, t) => if r % 8 = 2 then some (.callr d, t) else none
      | _ => none
    else if op = 0xc3 then some (.ret, t)
    else if op = 0xcd then
      match t with
      | n :: t => some (.int n, t)
      | [] => none
    else if op = 0x0f then
      match t with
      | [] => none
      | op2 :: t =>
        let ldx (s : Bool) (msz : Nat) : Option (Insn × List Nat) :=
          match modrm R X B t with
          | some (r, .mem b d, t) => some (.loadx s msz sz r b d, t)
          | _ => none
        if op2 = 0xaf then
          match modrm R X B t with
          | some (r, .reg s, t) => some (.imul sz r s, t)
          | _ => none
        else if op2 = 0xb6 then ldx false 1
        else if op2 = 0xb7 then ldx false 2
        else if op2 = 0xbe then ldx true 1
        else if op2 = 0xbf then ldx true 2
        else if 0x80 ≤ op2 ∧ op2 < 0x90 then
          match imm32 t with
          | some (i, t) => some (.jcc (op2 - 0x80) i, t)
          | none => none
        else if op2 = 0x05 ∧ w = 8 then some (.syscall, t)
        else none
    else none

/-- REX prefix (64-bit mode only) and operand size. -/
def afterOpSize (w : Nat) (p66 : Bool) : List Nat → Option (Insn × List Nat)
  | [] => none
  | b :: t =>
    if w = 8 ∧ 0x40 ≤ b ∧ b < 0x50 then
      body w (if b / 8 % 2 = 1 then 8 else if p66 then 2 else 4) true (b / 4 % 2) (b / 2 % 2) (b % 2) t
    else body w (if p66 then 2 else 4) false 0 0 0 (b :: t)

/-- Decode one instruction: legacy operand-size prefix, REX prefix, opcode, operands. -/
def decode (w : Nat) : List Nat → Option (Insn × List Nat)
  | [] => none
  | b :: t => if b = 0x66 then afterOpSize w true t else afterOpSize w false (b :: t)

end Verif.X86.Spec
