import Verif.Code.Model
/-! Model of elf.c.  The output file is the list of bytes written so far.  The two `#ifdef` variants
are distinguished by the word size `w` (4: i386, 8: x86-64). -/
namespace Verif.Elf
open Verif.Code (write_i8 write_i32_le)

/-- `write_2_i8` (exe.c:66-69). -/
def write_2_i8 (a b : Int) (out : List Int) : List Int := write_i8 b (write_i8 a out)
/-- `write_4_i8` (exe.c:71-74). -/
def write_4_i8 (a b c d : Int) (out : List Int) : List Int := write_2_i8 c d (write_2_i8 a b out)

/-- `write_elf_e_header` for i386 (elf.c:8-25). -/
def e_header32 (o : List Int) : List Int :=
  let o := write_4_i8 0x7f 0x45 0x4c 0x46 o
  let o := write_4_i8 0x01 0x01 0x01 0x00 o
  let o := write_4_i8 0x00 0x00 0x00 0x00 o
  let o := write_4_i8 0x00 0x00 0x00 0x00 o
  let o := write_2_i8 0x02 0x00 o
  let o := write_2_i8 0x03 0x00 o
  let o := write_4_i8 0x01 0x00 0x00 0x00 o
  let o := write_4_i8 0x54 0x80 0x04 0x08 o
  let o := write_4_i8 0x34 0x00 0x00 0x00 o
  let o := write_4_i8 0x00 0x00 0x00 0x00 o
  let o := write_4_i8 0x00 0x00 0x00 0x00 o
  let o := write_2_i8 0x34 0x00 o
  let o := write_2_i8 0x20 0x00 o
  let o := write_2_i8 0x01 0x00 o
  let o := write_2_i8 0x00 0x00 o
  let o := write_2_i8 0x00 0x00 o
  write_2_i8 0x00 0x00 o

/-- `write_elf_p_header` for i386 (elf.c:27-36). -/
def p_header32 (code_alloc : Int) (o : List Int) : List Int :=
  let o := write_i32_le 1 o
  let o := write_i32_le 0 o
  let o := write_i32_le 0x08048000 o
  let o := write_i32_le 0x08048000 o
  let o := write_i32_le (0x54 + code_alloc) o
  let o := write_i32_le (0x54 + code_alloc) o
  let o := write_i32_le 5 o
  write_i32_le 0x1000 o

/-- `write_elf_e_header` for x86-64 (elf.c:50-71). -/
def e_header64 (o : List Int) : List Int :=
  let o := write_4_i8 0x7f 0x45 0x4c 0x46 o
  let o := write_4_i8 0x02 0x01 0x01 0x00 o
  let o := write_4_i8 0x00 0x00 0x00 0x00 o
  let o := write_4_i8 0x00 0x00 0x00 0x00 o
  let o := write_2_i8 0x02 0x00 o
  let o := write_2_i8 0x3e 0x00 o
  let o := write_4_i8 0x01 0x00 0x00 0x00 o
  let o := write_4_i8 0x78 0x00 0x00 0x40 o
  let o := write_4_i8 0x00 0x00 0x00 0x00 o
  let o := write_4_i8 0x40 0x00 0x00 0x00 o
  let o := write_4_i8 0x00 0x00 0x00 0x00 o
  let o := write_4_i8 0x00 0x00 0x00 0x00 o
  let o := write_4_i8 0x00 0x00 0x00 0x00 o
  let o := write_4_i8 0x00 0x00 0x00 0x00 o
  let o := write_2_i8 0x40 0x00 o
  let o := write_2_i8 0x38 0x00 o
  let o := write_2_i8 0x01 0x00 o
  let o := write_2_i8 0x00 0x00 o
  let o := write_2_i8 0x00 0x00 o
  write_2_i8 0x00 0x00 o

/-- `write_elf_p_header` for x86-64 (elf.c:73-88). -/
def p_header64 (code_alloc : Int) (o : List Int) : List Int :=
  let o := write_i32_le 1 o
  let o := write_i32_le 5 o
  let o := write_i32_le 0 o
  let o := write_i32_le 0 o
  let o := write_i32_le 0x40000000 o
  let o := write_i32_le 0x00000000 o
  let o := write_i32_le 0x40000000 o
  let o := write_i32_le 0x00000000 o
  let o := write_i32_le (0x78 + code_alloc) o
  let o := write_i32_le 0 o
  let o := write_i32_le (0x78 + code_alloc) o
  let o := write_i32_le 0 o
  let o := write_i32_le 0x200000 o
  write_i32_le 0 o

/-- The loop of `generate_exe` (elf.c:99-102) from index `i` on; `fuel` is the number of remaining
bytes. -/
def write_code (code : Nat → Int) : Nat → Nat → List Int → List Int
  | 0, _, o => o
  | fuel + 1, i, o => write_code code fuel (i + 1) (write_i8 (code i) o)

/-- `generate_exe` (elf.c:93-103). -/
def generate_exe (w : Nat) (code : Nat → Int) (code_alloc : Nat) : List Int :=
  if w = 4 then write_code code code_alloc 0 (p_header32 code_alloc (e_header32 []))
  else write_code code code_alloc 0 (p_header64 code_alloc (e_header64 []))

end Verif.Elf
