import Verif.EvalConst.Model
import Verif.Code.Model
/-! Model of `parse_enum` (pnut.c:2623-2696), of `codegen_enum` (exe.c:1740-1757) and of the value loaded
for an enumeration constant.  An enumerator is its name and the expression after `=`, if any; the
parsing of names, commas and expressions is not repeated here. -/
namespace Verif.Enum
open Verif Verif.EvalConst

/-- `non_parenthesized_operand` (pnut.c:1275-1279): strips parentheses. -/
def unparen : Expr → Expr
  | .parens e => unparen e
  | e => e

/-- The value of an `INTEGER` node stored for an enumerator with an initialiser, `base` being
`PARSE_NUMERIC_LITERAL_WITH_BASE` (pnut.c:2659-2671): then a literal is kept as it is. -/
def initVal (base : Bool) (e : Expr) : Res Int :=
  if base then
    match unparen e with
    | .int s => .ok s
    | e => (eval false e).bind fun v => chk (-v)
  else (eval false e).bind fun v => chk (-v)

/-- The loop of `parse_enum` (pnut.c:2623-2696): names with the number stored in the node of the value.
`next` is `next_value`. -/
def parse_enum (base : Bool) (next : Int) : List (Nat × Option Expr) → Res (List (Nat × Int))
  | [] => .ok []
  | (x, some e) :: r =>
    (initVal base e).bind fun s => (chk (s - 1)).bind fun next =>
    (parse_enum base next r).bind fun l => .ok ((x, s) :: l)
  | (x, none) :: r =>
    (chk (next - 1)).bind fun n =>
    (parse_enum base n r).bind fun l => .ok ((x, next) :: l)

/-- `mov_reg_imm(reg_X, -get_val(…))` for an enumeration constant without 64-bit literals
(exe.c:1427-1434): the 32-bit immediate. -/
def load32 (s : Int) : Res Int := chk (-s)

/-- `mov_reg_large_imm(reg_X, get_val(…))` with 64-bit literals (exe.c:1427-1434, x86.c:213-228,
exe.c:50-57): the two 32-bit halves. -/
def load64 (heap : Nat → Int) (s : Int) : Int × Int :=
  if s ≤ 0 then (-s, (-s) / 2 ^ 31) else (heap s.toNat, heap (s.toNat + 1))

end Verif.Enum
