import Verif.Goto.Model
/-! Specification: where the code of each event is. -/
namespace Verif.Goto.Spec
open Verif Verif.Code

/-- The number of bytes of code of an event: a label operand is 4 bytes; a goto is an `add sp, imm32` (6 bytes, 7 with the REX prefix) and a `jmp rel32` (5 bytes). -/
def bytes (w : Nat) : Ev → Nat
  | .emit _ => 1
  | .use _ => 4
  | .goto _ => if w = 8 then 12 else 11
  | _ => 0

/-- The position of the code behind these events. -/
def pos (w : Nat) (es : List Ev) : Nat := (es.map (bytes w)).sum

/-- The frame size (`cgc_fs`) behind these events. -/
def frame : List Ev → Int
  | es => es.foldl (fun v e => match e with | .setfs v' => v' | _ => v) 0

end Verif.Goto.Spec
