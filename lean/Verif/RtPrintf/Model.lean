import Verif.RtPrintf.Layout
/-! Model of `printf` in the shell runtime (sh-runtime.c:574-704): `put_pstr`, `read_int`, `pad`,
`printf_invalid_format_error`, `printf_reset` and `_printf`, in the generated shell code. -/
namespace Verif.RtPrintf

/-- What becomes of a piece of the script: it goes on, it exits with a status after printing `out`, it is
stopped by the shell (`set -u`: an unset cell or positional parameter is used), it gives the shell's
`printf` utility something POSIX does not define, or it is still running. -/
inductive R (α : Type) where
  | ok (a : α)
  | exit (code : Nat) (out : List Nat)
  | abort
  | unspec
  | diverge
  deriving DecidableEq, Repr

def R.bind {α β : Type} (x : R α) (f : α → R β) : R β :=
  match x with
  | .ok a => f a
  | .exit c o => .exit c o
  | .abort => .abort
  | .unspec => .unspec
  | .diverge => .diverge

/-- The memory: the cell at an address, the shell variable `_N`, if it is set. -/
abbrev Mem := Int → Option Int

/-- `printf \\$((c/64))$((c/8%8))$((c%8))` (sh-runtime.c:584, 645, 696): the escape is the byte `c` for
`c` from 0 to 255; it is not an escape of the utility for other values. -/
def octal (c : Int) : Option Nat :=
  if 0 ≤ c ∧ c ≤ 255 then some (c.toNat / 64 * 64 + c.toNat / 8 % 8 * 8 + c.toNat % 8) else none

/-- sh-runtime.c:578-588 `_put_pstr`: what it prints. -/
def putPstr : Nat → Mem → Int → R (List Nat)
  | 0, _, _ => .diverge
  | n + 1, m, a =>
    match m a with
    | none => .abort
    | some c =>
      if c = 0 then .ok []
      else
        match octal c with
        | none => .unspec
        | some b => (putPstr n m (a + 1)).bind fun o => .ok (b :: o)

/-- sh-runtime.c:594-600 `read_int`: `__int` and `__fmt_ptr`. -/
def readInt : Nat → Mem → Int → List Nat → R (List Nat × Int)
  | 0, _, _, _ => .diverge
  | n + 1, m, p, acc =>
    match m p with
    | none => .abort
    | some c => if c ≠ 0 ∧ 48 ≤ c ∧ c ≤ 57 then readInt n m (p + 1) (acc ++ showInt (c - 48)) else .ok (acc, p)

/-- The integer denoted by a shell word in an arithmetic expansion: decimal digits, with a sign.
(A leading 0 would make it octal: no text used here has one.) -/
def wordVal (t : List Nat) : Int :=
  match t with
  | 45 :: ds => - (decVal ds : Int)
  | _ => decVal t

/-- sh-runtime.c:602-606 `pad`: what `printf "%$(($1 - 1))s" ""` prints. -/
def pad (w : Int) : List Nat := if w - 1 ≥ 1 then List.replicate (w - 1).toNat 32 else []

/-- The text after the `%` read by the `printf` utility: flags, digits of the width, `.` and digits of the
precision, conversion. (POSIX XCU printf, XBD 5; environment.) -/
def utilParse (t : List Nat) : Option (Flags × Nat × Option Nat × Nat) :=
  let fl := t.takeWhile isFlag
  let t1 := t.dropWhile isFlag
  let w := t1.takeWhile isDigit
  match t1.dropWhile isDigit with
  | 46 :: t2 =>
    match t2.dropWhile isDigit with
    | [ch] => some (Flags.of fl, decVal w, some (decVal (t2.takeWhile isDigit)), ch)
    | _ => none
  | [ch] => some (Flags.of fl, decVal w, none, ch)
  | _ => none

/-- `printf "%…"` of the utility with an integer conversion: it computes on 64 bits. `#` is undefined for
`d`, `i` and `u`. (environment) -/
def utilInt (t : List Nat) (v : Int) : Option (List Nat) :=
  match utilParse t with
  | none => none
  | some (fl, w, p, ch) =>
    if isSigned ch then
      if fl.alt then none else some (layInt fl w p ch (decide (v < 0)) v.natAbs)
    else if isUnsigned ch then
      if fl.alt ∧ ch = 117 then none else some (layInt fl w p ch false (v % 2 ^ 64).toNat)
    else none

/-- `printf "%…s"` of the utility: the flags other than `-` are undefined. (environment) -/
def utilStr (t : List Nat) (s : List Nat) : Option (List Nat) :=
  match utilParse t with
  | none => none
  | some (fl, w, p, ch) =>
    if ch = 115 ∧ fl.plus = false ∧ fl.space = false ∧ fl.alt = false ∧ fl.zero = false then some (layStr fl w p s)
    else none

/-- `"$(command)"`: the output of the command without its trailing newlines. (environment) -/
def stripNl (s : List Nat) : List Nat := (s.reverse.dropWhile (· = 10)).reverse

/-- The variables of `_printf`: memory, `__fmt_ptr`, `__mod`, `__mod_start`, `__flags`, `__width`,
`__precision` (texts), the positional parameters (the values of the arguments), what has been printed. -/
structure St where
  mem : Mem
  ptr : Int
  mod : Bool
  start : Int
  flags : List Nat
  width : List Nat
  prec : List Nat
  args : List Int
  out : List Nat

/-- sh-runtime.c:616-621 `printf_reset`. -/
def reset (s : St) : St := { s with mod := false, flags := [], width := [], prec := [] }

/-- "Invalid format specifier. %" -/
def invalidMsg : List Nat :=
  [73, 110, 118, 97, 108, 105, 100, 32, 102, 111, 114, 109, 97, 116, 32, 115, 112, 101, 99, 105, 102, 105,
   101, 114, 46, 32, 37]

/-- "4: Unknown format specifier %" -/
def unknownMsg : List Nat :=
  [52, 58, 32, 85, 110, 107, 110, 111, 119, 110, 32, 102, 111, 114, 109, 97, 116, 32, 115, 112, 101, 99,
   105, 102, 105, 101, 114, 32, 37]

/-- sh-runtime.c:608-614 `printf_invalid_format_error`: ends the format at `__fmt_ptr` and prints it from
`__mod_start`. -/
def invalid {α : Type} (n : Nat) (s : St) : R α :=
  (putPstr n (fun a => if a = s.ptr then some 0 else s.mem a) s.start).bind fun o =>
    .exit 1 (s.out ++ invalidMsg ++ o ++ [10])

/-- sh-runtime.c:631-632: `__head_char`, by a command substitution (a newline is lost). -/
def headChar (h : Nat) : List Nat := stripNl [h]

/-- sh-runtime.c:633-692: the `case` after a `%`. `h` is `__head`. -/
def modCase (n : Nat) (h : Nat) (s : St) : R St :=
  if h = 37 then
    if s.flags ++ s.width ++ s.prec ≠ [] then invalid n s else .ok (reset { s with out := s.out ++ [37] })
  else if isSigned h ∨ isUnsigned h then
    match s.args with
    | [] => .abort
    | v :: vs =>
      match utilInt (s.flags ++ s.width ++ s.prec ++ headChar h) v with
      | none => .unspec
      | some o => .ok (reset { s with out := s.out ++ o, args := vs })
  else if h = 99 then
    match s.args with
    | [] => .abort
    | v :: vs =>
      match octal v with
      | none => .unspec
      | some b =>
        let sp := pad (wordVal (if s.width = [] then [48] else s.width))
        if 45 ∈ s.flags then .ok (reset { s with out := s.out ++ [b] ++ sp, args := vs })
        else .ok (reset { s with out := s.out ++ sp ++ [b], args := vs })
  else if h = 115 then
    match s.args with
    | [] => .abort
    | v :: vs =>
      -- the test `[ -z "{__flags}${__width}{__precision}" ]` (sh-runtime.c:656): two `$` are missing
      if ([123] : List Nat) ++ s.width = [] then
        (putPstr n s.mem v).bind fun o => .ok (reset { s with out := s.out ++ o, args := vs })
      else
        (putPstr n s.mem v).bind fun o =>
          match utilStr (s.flags ++ s.width ++ s.prec ++ [115]) (stripNl o) with
          | none => .unspec
          | some o' => .ok (reset { s with out := s.out ++ o', args := vs })
  else if isFlag h then
    if s.width ++ s.prec ≠ [] then invalid n s else .ok { s with flags := s.flags ++ headChar h }
  else if isDigit h then
    if s.width ++ s.prec ≠ [] then invalid n s
    else (readInt n s.mem s.ptr []).bind fun r => .ok { s with width := headChar h ++ r.1, ptr := r.2 }
  else if h = 42 then
    if s.width ++ s.prec ≠ [] then invalid n s
    else
      match s.args with
      | [] => .abort
      | v :: vs => .ok { s with width := showInt v, args := vs }
  else if h = 46 then
    match s.mem s.ptr with
    | none => .abort
    | some c =>
      if c = 42 then
        match s.args with
        | [] => .abort
        | v :: vs => .ok { s with ptr := s.ptr + 1, prec := 46 :: showInt v, args := vs }
      else if 48 ≤ c ∧ c ≤ 57 then
        (readInt n s.mem s.ptr []).bind fun r => .ok { s with prec := 46 :: r.1, ptr := r.2 }
      else invalid n s
  else .exit 1 (s.out ++ unknownMsg ++ headChar h ++ [10])

/-- sh-runtime.c:629-697: one round of the loop of `_printf`, after `__head` was found not to be 0. -/
def round (n : Nat) (c : Int) (s : St) : R St :=
  match octal c with
  | none => .unspec
  | some h =>
    if s.mod then modCase n h { s with ptr := s.ptr + 1 }
    else if c = 37 then .ok { s with ptr := s.ptr + 1, mod := true, start := s.ptr + 1 }
    else .ok { s with ptr := s.ptr + 1, out := s.out ++ [h] }

/-- sh-runtime.c:628-698: the loop of `_printf`. -/
def loop : Nat → St → R St
  | 0, _ => .diverge
  | n + 1, s =>
    match s.mem s.ptr with
    | none => .abort
    | some c => if c = 0 then .ok s else (round n c s).bind (loop n)

/-- What a call of `_printf` leaves: the value of the variable for the result, the memory, the output. -/
structure Done where
  ret : Int
  mem : Mem
  out : List Nat

/-- sh-runtime.c:623-699 `_printf`, called with the format's address and the arguments. -/
def printf (n : Nat) (mem : Mem) (words : List Int) : R Done :=
  match words with
  | [] => .abort
  | f :: args =>
    (loop n (reset ⟨mem, f, false, 0, [], [], [], args, []⟩)).bind fun s => .ok ⟨0, s.mem, s.out⟩

end Verif.RtPrintf
