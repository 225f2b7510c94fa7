import Verif.Elf.Model
/-! Model of mach-o.c (x86-64 macOS).  The output file is the list of bytes written so far. -/
namespace Verif.MachO
open Verif.Code (write_i8 write_i32_le)
open Verif.Elf (write_4_i8 write_code)

/-- `write_mach_o_header_64` (mach-o.c:4-13). -/
def write_mach_o_header_64 (o : List Int) : List Int :=
  let o := write_4_i8 0xcf 0xfa 0xed 0xfe o
  let o := write_4_i8 0x07 0x00 0x00 0x01 o
  let o := write_4_i8 0x03 0x00 0x00 0x80 o
  let o := write_4_i8 0x02 0x00 0x00 0x00 o
  let o := write_4_i8 0x03 0x00 0x00 0x00 o
  let o := write_4_i8 0x48 0x01 0x00 0x00 o
  let o := write_4_i8 0x01 0x00 0x00 0x00 o
  write_4_i8 0x00 0x00 0x00 0x00 o

/-- `write_pagezero` (mach-o.c:15-34). -/
def write_pagezero (o : List Int) : List Int :=
  let o := write_4_i8 0x19 0x00 0x00 0x00 o
  let o := write_4_i8 0x48 0x00 0x00 0x00 o
  let o := write_4_i8 0x5f 0x5f 0x50 0x41 o
  let o := write_4_i8 0x47 0x45 0x5a 0x45 o
  let o := write_4_i8 0x52 0x4f 0x00 0x00 o
  let o := write_4_i8 0x00 0x00 0x00 0x00 o
  let o := write_4_i8 0x00 0x00 0x00 0x00 o
  let o := write_4_i8 0x00 0x00 0x00 0x00 o
  let o := write_4_i8 0x00 0x00 0x00 0x00 o
  let o := write_4_i8 0x01 0x00 0x00 0x00 o
  let o := write_4_i8 0x00 0x00 0x00 0x00 o
  let o := write_4_i8 0x00 0x00 0x00 0x00 o
  let o := write_4_i8 0x00 0x00 0x00 0x00 o
  let o := write_4_i8 0x00 0x00 0x00 0x00 o
  let o := write_4_i8 0x00 0x00 0x00 0x00 o
  let o := write_4_i8 0x00 0x00 0x00 0x00 o
  let o := write_4_i8 0x00 0x00 0x00 0x00 o
  write_4_i8 0x00 0x00 0x00 0x00 o

/-- `write_text_section` (mach-o.c:36-57). -/
def write_text_section (code_alloc : Int) (o : List Int) : List Int :=
  let o := write_4_i8 0x19 0x00 0x00 0x00 o
  let o := write_4_i8 0x48 0x00 0x00 0x00 o
  let o := write_4_i8 0x5f 0x5f 0x54 0x45 o
  let o := write_4_i8 0x58 0x54 0x00 0x00 o
  let o := write_4_i8 0x00 0x00 0x00 0x00 o
  let o := write_4_i8 0x00 0x00 0x00 0x00 o
  let o := write_i32_le 0x00000000 o
  let o := write_i32_le 0x00000001 o
  let o := write_i32_le code_alloc o
  let o := write_i32_le 0x00000000 o
  let o := write_i32_le 0x00000000 o
  let o := write_i32_le 0x00000000 o
  let o := write_i32_le code_alloc o
  let o := write_i32_le 0x00000000 o
  let o := write_4_i8 0x07 0x00 0x00 0x00 o
  let o := write_4_i8 0x05 0x00 0x00 0x00 o
  let o := write_4_i8 0x00 0x00 0x00 0x00 o
  write_4_i8 0x00 0x00 0x00 0x00 o

/-- `write_unix_thread` (mach-o.c:59-106). -/
def write_unix_thread (o : List Int) : List Int :=
  let o := write_4_i8 0x05 0x00 0x00 0x00 o
  let o := write_4_i8 0xb8 0x00 0x00 0x00 o
  let o := write_4_i8 0x04 0x00 0x00 0x00 o
  let o := write_4_i8 0x2a 0x00 0x00 0x00 o
  let o := write_4_i8 0x00 0x00 0x00 0x00 o
  let o := write_4_i8 0x00 0x00 0x00 0x00 o
  let o := write_4_i8 0x00 0x00 0x00 0x00 o
  let o := write_4_i8 0x00 0x00 0x00 0x00 o
  let o := write_4_i8 0x00 0x00 0x00 0x00 o
  let o := write_4_i8 0x00 0x00 0x00 0x00 o
  let o := write_4_i8 0x00 0x00 0x00 0x00 o
  let o := write_4_i8 0x00 0x00 0x00 0x00 o
  let o := write_4_i8 0x00 0x00 0x00 0x00 o
  let o := write_4_i8 0x00 0x00 0x00 0x00 o
  let o := write_4_i8 0x00 0x00 0x00 0x00 o
  let o := write_4_i8 0x00 0x00 0x00 0x00 o
  let o := write_4_i8 0x00 0x00 0x00 0x00 o
  let o := write_4_i8 0x00 0x00 0x00 0x00 o
  let o := write_4_i8 0x00 0x00 0x00 0x00 o
  let o := write_4_i8 0x00 0x00 0x00 0x00 o
  let o := write_4_i8 0x00 0x00 0x00 0x00 o
  let o := write_4_i8 0x00 0x00 0x00 0x00 o
  let o := write_4_i8 0x00 0x00 0x00 0x00 o
  let o := write_4_i8 0x00 0x00 0x00 0x00 o
  let o := write_4_i8 0x00 0x00 0x00 0x00 o
  let o := write_4_i8 0x00 0x00 0x00 0x00 o
  let o := write_4_i8 0x00 0x00 0x00 0x00 o
  let o := write_4_i8 0x00 0x00 0x00 0x00 o
  let o := write_4_i8 0x00 0x00 0x00 0x00 o
  let o := write_4_i8 0x00 0x00 0x00 0x00 o
  let o := write_4_i8 0x00 0x00 0x00 0x00 o
  let o := write_4_i8 0x00 0x00 0x00 0x00 o
  let o := write_4_i8 0x00 0x00 0x00 0x00 o
  let o := write_4_i8 0x00 0x00 0x00 0x00 o
  let o := write_4_i8 0x00 0x00 0x00 0x00 o
  let o := write_4_i8 0x00 0x00 0x00 0x00 o
  let o := write_4_i8 0x68 0x01 0x00 0x00 o
  let o := write_4_i8 0x01 0x00 0x00 0x00 o
  let o := write_4_i8 0x00 0x00 0x00 0x00 o
  let o := write_4_i8 0x00 0x00 0x00 0x00 o
  let o := write_4_i8 0x00 0x00 0x00 0x00 o
  let o := write_4_i8 0x00 0x00 0x00 0x00 o
  let o := write_4_i8 0x00 0x00 0x00 0x00 o
  let o := write_4_i8 0x00 0x00 0x00 0x00 o
  let o := write_4_i8 0x00 0x00 0x00 0x00 o
  write_4_i8 0x00 0x00 0x00 0x00 o

/-- The filling loop of `generate_exe` (mach-o.c:123-127) from `file_size` on; `fuel` is the number of
rounds left. -/
def fill : Nat → Nat → List Int → List Int
  | 0, _, o => o
  | fuel + 1, file_size, o => if file_size < 4096 then fill fuel (file_size + 1) (write_i8 0 o) else o

/-- `generate_exe` (mach-o.c:107-130). `file_size` starts at 56, not at the size of the headers. -/
def generate_exe (code : Nat → Int) (code_alloc : Nat) : List Int :=
  fill 4096 (56 + code_alloc)
    (write_code code code_alloc 0
      (write_unix_thread (write_text_section code_alloc (write_pagezero (write_mach_o_header_64 [])))))

end Verif.MachO
