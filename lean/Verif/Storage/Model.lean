import Verif.Env.Proofs
/-! Where a whole program's variables with static storage duration are: `codegen_begin`,
`codegen_glo_decl` for every declaration (the model of `Verif.Env`) and `codegen_end`. -/
namespace Verif.Storage
open Verif Verif.Env

/-- The declarations of the built-in functions in `codegen_begin` (exe.c:1685-1733): identifier, label
and type. -/
def builtins (e : Env) : List (Int × Int × Int) → Res Env
  | [] => .ok e
  | (x, lbl, ty) :: r => (add_global_fun e x lbl ty).bind fun e => builtins e r

/-- `codegen_begin` (exe.c:1667-1735): two words for the heap of the run-time library, then the built-in
functions `bs`. `top`: the heap in use before it; the type nodes and labels that it allocates are
not represented. -/
def codegen_begin (w : Nat) (heap : Nat → Int) (top : Nat) (bs : List (Int × Int × Int)) : Res Env :=
  builtins { start heap top with galloc := 2 * w } bs

/-- A compilation: the uses of identifiers in the order of the text, and the argument of the first
`os_allocate_memory` in `codegen_end` (exe.c:2537-2550), the size of the memory of the globals. -/
def compile (w : Nat) (heap : Nat → Int) (top : Nat) (bs : List (Int × Int × Int)) (gs : List Glo) :
    Res (Int × List Out) :=
  (codegen_begin w heap top bs).bind fun e => (glos e gs).bind fun (e, os) => .ok (e.galloc, os)

end Verif.Storage
