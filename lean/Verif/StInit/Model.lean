import Verif.Sys.Props2
/-! The code of a program whose functions have initialised `static` variables. -/
namespace Verif.StInit
open Verif Verif.Cg Verif.Sys

/-- A part of the code of a program, in the order of the text: code (of a function or of a part of one), the initial value of a variable of the file
scope (`codegen_glo_var_decl`, exe.c:1985-1990), or the declaration, somewhere in a function, of a static variable with an initial value
(`codegen_static_local_var_decl`, exe.c:2021-2039); `c` is the code of `codegen_initializer`, `l` the new `init_next_lbl`, `skip` the label of
exe.c:2032. -/
inductive Item where
  | code (c : List Asm)
  | var (l : Nat) (c : List Asm)
  | static (skip l : Nat) (c : List Asm)

/-- The code of the parts, and the last `init_next_lbl`. -/
def gen (init_next : Nat) : List Item → List Asm × Nat
  | [] => ([], init_next)
  | .code c :: r => let x := gen init_next r; (c ++ x.1, x.2)
  | .var l c :: r => let x := gen l r; ([.lbl init_next] ++ (c ++ ([.jmp l] ++ x.1)), x.2)
  | .static skip l c :: r => let x := gen l r; ([.jmp skip] ++ ([.lbl init_next] ++ (c ++ ([.jmp l] ++ ([.lbl skip] ++ x.1)))), x.2)

/-- A whole program (exe.c:1735, 2429-2455, 2534-2667). -/
def whole (w : Nat) (L : Labels) (global_alloc : Int) (main_returns : Bool) (items : List Item) : List Asm :=
  [.jmp L.setup] ++ ((gen L.init_start items).1 ++ codegen_end w L global_alloc main_returns)

end Verif.StInit
