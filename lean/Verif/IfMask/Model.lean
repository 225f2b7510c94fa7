import Verif.Base
/-! Model of conditional compilation in pnut.c: the mask stack driven by directives. -/
namespace Verif.IfMask
open Verif

/-- pnut.c:687 `IFDEF_DEPTH_MAX`, the number of cells of `if_macro_stack`. -/
def IFDEF_DEPTH_MAX : Nat := 20

/-- Which names are currently macros (the `MACRO` kind in cell 2 of an identifier). -/
abbrev Macros := Nat → Bool

/-- A condition of `#if`/`#elif`: its value may depend on the macros; `none` means that evaluating
it is rejected with a diagnostic (syntax error, unsupported operator...). -/
abbrev Cond := Macros → Option Bool

/-- The events seen by `get_tok`/`handle_preprocessor_directive` (pnut.c:1449-1553, 2022-2476).
Directives other than conditionals are represented by `#define` and `#undef` of names, which can
change the outcome of later conditions. -/
inductive Ev where
  | tok (a : Nat)
  | define (n : Nat)
  | undef (n : Nat)
  | ifdef (n : Nat)
  | ifndef (n : Nat)
  | ifc (c : Cond)
  | elifc (c : Cond)
  | elsed
  | endif

/-- Globals of pnut.c:688-691.  `out` collects the tokens that `get_tok` returns. -/
structure St where
  stack : Nat → Bool
  ix : Nat
  mask : Bool
  executed : Bool
  macros : Macros
  out : List Nat

/-- pnut.c:688-691. -/
def init (m : Macros) : St :=
  { stack := fun _ => false, ix := 0, mask := true, executed := false, macros := m, out := [] }

/-- pnut.c:712-714 `prev_macro_mask`. -/
def prevMask (s : St) : Bool := s.ix == 0 || s.stack (s.ix - 2)

/-- pnut.c:716-731 `push_if_macro_mask`.  A write outside the array would be `ub`. -/
def push (s : St) (newMask : Bool) : Res St :=
  if s.ix ≥ IFDEF_DEPTH_MAX then .fatal
  else if s.ix + 1 ≥ IFDEF_DEPTH_MAX then .ub
  else
    let nm := s.mask && newMask
    .ok { s with stack := upd (upd s.stack s.ix s.mask) (s.ix + 1) s.executed, ix := s.ix + 2,
                 mask := nm, executed := nm }

/-- pnut.c:732-739 `pop_if_macro_mask`. -/
def pop (s : St) : Res St :=
  if s.ix = 0 then .fatal
  else .ok { s with ix := s.ix - 2, mask := s.stack (s.ix - 2), executed := s.stack (s.ix - 2 + 1) }

/-- pnut.c:1464-1474 (`#elif` case of `handle_preprocessor_directive`). -/
def elifStep (s : St) (temp : Bool) : St :=
  if prevMask s && !s.executed then
    { s with executed := s.executed || temp, mask := temp }
  else { s with mask := false }

/-- pnut.c:1475-1483 (`#else`). -/
def elseStep (s : St) : St :=
  if prevMask s then { s with mask := !s.executed, executed := true }
  else { s with mask := false }

/-- One event.  Tokens are dropped while the mask is off (outer loop of `get_tok`,
pnut.c:2037-2462); `#define`/`#undef` act only under the mask (pnut.c:1487-1530); conditions are
evaluated even when masked (pnut.c:1403-1418 saves and restores the mask). -/
def step (s : St) : Ev → Res St
  | .tok a => .ok (if s.mask then { s with out := s.out ++ [a] } else s)
  | .define n => .ok (if s.mask then { s with macros := upd s.macros n true } else s)
  | .undef n => .ok (if s.mask then { s with macros := upd s.macros n false } else s)
  | .ifdef n => push s (s.macros n)
  | .ifndef n => push s (!s.macros n)
  | .ifc c => match c s.macros with
    | none => .fatal
    | some b => push s b
  | .elifc c => match c s.macros with
    | none => .fatal
    | some b => .ok (elifStep s b)
  | .elsed => .ok (elseStep s)
  | .endif => pop s

def run (s : St) : List Ev → Res St
  | [] => .ok s
  | e :: es => (step s e).bind fun s' => run s' es

/-- A whole source.  At the end of input `get_tok` returns `EOF` only if the mask is on; otherwise
the loop `do ... while (!if_macro_mask)` (pnut.c:2037, 2462) reads `EOF` forever. -/
def compile (m : Macros) (es : List Ev) : Res St :=
  (run (init m) es).bind fun s => if s.mask then .ok s else .diverge

end Verif.IfMask
