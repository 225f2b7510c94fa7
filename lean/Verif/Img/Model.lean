import Verif.Sys.Model
import Verif.Code.Model
import Verif.Elf.Model
/-! Model of the way from the items of code to the file: each item of code makes calls of `emit_i8`, `use_label` and `def_label` (exe.c:11-17, 431-471), and `generate_exe` (elf.c:93-103) writes
the headers and the code.

Simplification: the labels are numbers, all of the generic kind, as `goto` is not modelled here. -/
namespace Verif.Img
open Verif Verif.Cg Verif.Code

/-- What the emitters do with the code buffer: `jump` (x86.c:559-566), `call` (x86.c:577-584), `ret` (x86.c:595-601), `jump_cond` (x86.c:616-624), the loop of `codegen_string`
(exe.c:1351-1366), `def_label` (exe.c:449-471); the emitters without label operand append their bytes. -/
def asmOps (w : Nat) : Asm → List Op
  | .ins e => (e.bytes w).map fun (b : Nat) => .emit (b : Int)
  | .lbl n => [.defl n]
  | .jmp n => [.emit 0xe9, .use n]
  | .jcc cc n => [.emit 0x0f, .emit (0x80 + (cc : Int)), .use n]
  | .call n => [.emit 0xe8, .use n]
  | .ret => [.emit 0xc3]
  | .data _ bs => bs.map (fun (b : Nat) => .emit (b : Int)) ++ [.emit 0]

/-- The operations of a piece of code, in order (exe.c:11-17, 431-471). -/
def codeOps (w : Nat) (P : List Asm) : List Op := P.flatMap (asmOps w)

/-- The code buffer after the whole program (exe.c:11-17, 431-471). -/
def assemble (w : Nat) (P : List Asm) : Res S := Code.run w (fun _ => .generic) (codeOps w P) S.init

/-- The file that `generate_exe` writes (elf.c:93-103). -/
def executable (w : Nat) (P : List Asm) : Res (List Int) := (assemble w P).bind fun s => .ok (Elf.generate_exe w s.code s.n)

end Verif.Img
