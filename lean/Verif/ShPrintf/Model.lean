import Verif.ShIO.Model
import Verif.ShStr.Model
/-! Model of the compile-time expansion of `printf`, `puts`, `putstr` and `putchar`
(sh.c:1527-1763): `comp_putchar_inline`, `printf_call`, `handle_printf_call` and the part of
`comp_fun_call_code` that selects them. -/
namespace Verif.ShPrintf
open Verif

/-- An argument of the call: the character constant it is, if it is one, its value and, if it is a
pointer to a string, the string.  (The value and the string are what the argument means when the
script runs; the compiler only looks at `chr`.) -/
structure Arg where
  chr : Option Nat
  val : Int
  str : List Nat
  deriving DecidableEq, Repr

/-- A word after the format of a generated `printf`: an argument's value (`$x`, `$((…))`), or the text
printed by `"$(_put_pstr __ arg)"`. -/
inductive W where
  | val (a : Arg)
  | sub (a : Arg)
  deriving DecidableEq, Repr

/-- A generated command: `printf "text" words…` (`printf -- "text"` when the format starts with `-`),
with `text` as printed between the quotes; `printf \\$((c/64))$((c/8%8))$((c%8))`; `_put_pstr __ p`. -/
inductive Cmd where
  | printf (dashes : Bool) (text : List Nat) (args : List W)
  | octal (a : Arg)
  | pstr (a : Arg)
  deriving DecidableEq, Repr

/-- sh.c:1527-1553 `comp_putchar_inline`. The hoisting of side effects to a fresh variable
(sh.c:1537-1540) is not modelled: arguments have no side effects here. -/
def compPutcharInline (a : Arg) : Cmd :=
  match a.chr with
  | some c => if 32 ≤ c ∧ c ≤ 126 then .printf false (ShStr.escapeChar true c) [] else .octal a
  | none => .octal a

/-- sh.c:1558-1568 `printf_call`: nothing for an empty format. -/
def printfCall (fmt : List Nat) (params : List W) (escape : Bool) : List Cmd :=
  match fmt with
  | [] => []
  | c :: _ => [.printf (decide (c = 45)) (ShStr.escapeString escape fmt) params]

/-- The variables of `handle_printf_call` (sh.c:1581-1593): the commands appended so far, the text from
`format_start` to `specifier_start` (to `format_str` when `mod` is false), the text from
`specifier_start` to `format_str` (when `mod`), the parameters not consumed (`param` and `params`: a
parameter is fetched at the top of each round, so `param` is the head of the list), `params_text`,
`width_text`, `precision_text`, `mod`, `has_width`, `has_precision`, `state`. -/
structure H where
  out : List Cmd
  piece : List Nat
  spec : List Nat
  params : List Arg
  ptext : List W
  wtext : List W
  prtext : List W
  mod : Bool
  hasW : Bool
  hasP : Bool
  st : Nat

def isFlag (c : Nat) : Bool := c = 32 ∨ c = 35 ∨ c = 43 ∨ c = 45 ∨ c = 48
def isDig (c : Nat) : Bool := 48 ≤ c ∧ c ≤ 57
def isIntConv (c : Nat) : Bool := c = 100 ∨ c = 105 ∨ c = 111 ∨ c = 117 ∨ c = 120 ∨ c = 88

/-- The case of an integer conversion (sh.c:1670-1676), after the `l`s: the specifier stays in the
format, its words are appended to `params_text`. `text` is what is read in this round. -/
def intConv (text : List Nat) (s : H) : Res H :=
  match s.params with
  | [] => .fatal
  | a :: ps => .ok { s with ptext := s.ptext ++ s.wtext ++ s.prtext ++ [.val a], params := ps, mod := false,
                            piece := s.piece ++ s.spec ++ text, spec := [] }

/-- sh.c:1595-1718, the loop of `handle_printf_call`. -/
def loop : Nat → List Nat → H → Res H
  | 0, _, _ => .diverge
  | _ + 1, [], s => .ok s
  | n + 1, c :: t, s =>
    if s.mod then
      if isFlag c then
        if s.st ≠ 0 then .fatal else loop n t { s with spec := s.spec ++ [c] }
      else if isDig c then
        if s.st ≠ 0 ∧ s.st ≠ 2 then .fatal
        else
          let ds := (c :: t).takeWhile isDig
          loop n ((c :: t).dropWhile isDig) { s with
            spec := s.spec ++ ds, st := s.st + 1,
            hasW := if s.st = 0 then true else s.hasW,
            hasP := if s.st = 2 then true else s.hasP }
      else if c = 46 then
        if s.st ≥ 2 then .fatal else loop n t { s with spec := s.spec ++ [c], st := 2 }
      else if c = 42 then
        match s.params with
        | [] => .fatal
        | a :: ps =>
          if s.st = 0 then loop n t { s with spec := s.spec ++ [c], wtext := [.val a], hasW := true, params := ps }
          else if s.st = 2 then loop n t { s with spec := s.spec ++ [c], prtext := [.val a], hasP := true, params := ps }
          else .fatal
      else if c = 37 then
        if s.st ≠ 0 then .fatal
        else loop n t { s with mod := false, piece := s.piece ++ s.spec ++ [c], spec := [] }
      else if c = 108 then
        let ls := (c :: t).takeWhile (· = 108)
        match (c :: t).dropWhile (· = 108) with
        | [] => .fatal
        | d :: t' =>
          if isIntConv d then (intConv (ls ++ [d]) s).bind fun s' => loop n t' s' else .fatal
      else if isIntConv c then (intConv [c] s).bind fun s' => loop n t s'
      else if c = 99 then
        match s.params with
        | [] => .fatal
        | a :: ps =>
          if s.hasW then .fatal
          else loop n t { s with
            out := s.out ++ printfCall s.piece s.ptext false ++ [compPutcharInline a],
            piece := [], spec := [], params := ps, ptext := [], mod := false }
      else if c = 115 then
        match s.params with
        | [] => .fatal
        | a :: ps =>
          if s.hasW ∨ s.hasP then
            loop n t { s with ptext := s.ptext ++ s.wtext ++ s.prtext ++ [.sub a], params := ps, mod := false,
                              piece := s.piece ++ s.spec ++ [c], spec := [] }
          else
            loop n t { s with
              out := s.out ++ printfCall s.piece s.ptext false ++ [.pstr a],
              piece := [], spec := [], params := ps, mod := false }
      else .fatal
    else if c = 37 then
      loop n t { s with mod := true, spec := [37], wtext := [], prtext := [], hasW := false, hasP := false, st := 0 }
    else loop n t { s with piece := s.piece ++ [c] }

/-- sh.c:1581-1724 `handle_printf_call`: the commands generated for `printf(fmt, args…)`. -/
def handlePrintfCall (fmt : List Nat) (args : List Arg) : Res (List Cmd) :=
  (loop (fmt.length + 1) fmt ⟨[], [], [], args, [], [], [], false, false, false, 0⟩).bind fun s =>
    .ok (s.out ++ printfCall (s.piece ++ s.spec) s.ptext false)

/-- The functions treated at compile time. -/
inductive Fn where
  | puts | putstr | printf
  deriving DecidableEq, Repr

/-- sh.c:1734-1743, `comp_fun_call_code` for a call whose result is not used and whose first argument
is the string constant `fmt`, followed by `args`; `none` when the call is compiled as an ordinary call. -/
def compCall (f : Fn) (fmt : List Nat) (args : List Arg) : Option (Res (List Cmd)) :=
  if args = [] then some (.ok (printfCall fmt [] true))
  else if f = .printf then some (handlePrintfCall fmt args)
  else none

end Verif.ShPrintf
