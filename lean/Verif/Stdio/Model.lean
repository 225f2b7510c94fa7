import Verif.Base
/-! Model of the formatted output of portable_libc/src/stdio.c: `fputc`, `_fputstr`, `fputs`,
`_int_to_str`, `vfprintf` (and so `printf`, `fprintf`), `vsnprintf` (and so `snprintf`, `sprintf`).

`int` has 32 bits.  A stream is what has been written to it, the system call `write` always
succeeds.  The variable arguments are a list; taking an argument of the wrong type or one too many is
`ub`, so is reading a format past its terminator.  `fopen`, `fseek`, `fread` are not modelled. -/
namespace Verif.Stdio
open Verif

/-- A variable argument: an `int`, or a string (its bytes without the terminator). -/
inductive Arg where
  | int (n : Int)
  | str (bs : List Nat)

/-- `_num_buf[SIZEOF_NUM_BUF]` (stdio.c:113-114): the part of the buffer from `out` to its end;
`*--out = c` beyond the start of the buffer is `ub`. -/
def push (c : Nat) (out : List Nat) : Res (List Nat) := if out.length < 100 then .ok (c :: out) else .ub

/-- `digits[k]` (stdio.c:121). -/
def digit (k : Int) : Nat := ("0123456789abcdef".toList.map Char.toNat)[k.toNat]!

/-- The digit loop of `_int_to_str` (stdio.c:127-130); `%` and `/` truncate. -/
def digit_loop (base : Int) : Nat → Int → List Nat → Res (Int × List Nat)
  | 0, _, _ => .diverge
  | fuel + 1, n, out =>
    if n ≤ -base then
      (push (digit (-(n.tmod base))) out).bind fun out => digit_loop base fuel (n.tdiv base) out
    else .ok (n, out)

/-- A padding loop (stdio.c:137-139, 145-147): `while (_num_buf + SIZEOF_NUM_BUF - out <= lim)`. -/
def pad (c : Nat) (lim : Int) : Nat → List Nat → Res (List Nat)
  | 0, _ => .diverge
  | fuel + 1, out => if (out.length : Int) ≤ lim then (push c out).bind (pad c lim fuel) else .ok out

/-- `_int_to_str` (stdio.c:116-151): the characters from the returned pointer to the end of the buffer
(with the terminator). Loops get the fuel 101. -/
def int_to_str (n base width : Int) (force_0 force_plus : Bool) : Res (List Nat) :=
  let neg : Bool := n < 0
  let has_sign : Bool := neg || force_plus
  let n := if neg then n else -n
  (push 0 []).bind fun out =>
  (digit_loop base 101 n out).bind fun (n, out) =>
  (push (digit (-(n.tmod base))) out).bind fun out =>
  let width := if width ≥ 100 then 99 else width
  (if force_0 then pad 48 (width - (if has_sign then 1 else 0)) 101 out else .ok out).bind fun out =>
  (if has_sign then push (if neg then 45 else 43) out else .ok out).bind fun out =>
  if !force_0 then pad 32 width 101 out else .ok out

/-- `_fputstr` (stdio.c:91-99) of the bytes `s` up to the terminator. -/
def fputstr {σ} (put : σ → Nat → σ) : List Nat → σ → σ
  | [], st => st
  | 0 :: _, st => st
  | c :: s, st => fputstr put s (put st c)

/-- Number of characters `_fputstr` counts (stdio.c:91-99). -/
def fputstr_count : List Nat → Nat
  | [] => 0
  | 0 :: _ => 0
  | _ :: s => fputstr_count s + 1

/-- `while (c >= '0' && c <= '9')` (stdio.c:170-173): the width, the next character, the rest of the
format; a width that overflows `int` is `ub`. -/
def read_width : Int → List Nat → Res (Int × Nat × List Nat)
  | _, [] => .ub
  | w, c :: f =>
    if c ≥ 48 ∧ c ≤ 57 then
      if w * 10 + (c - 48) < 2 ^ 31 then read_width (w * 10 + (c - 48)) f else .ub
    else .ok (w, c, f)

/-- `while (c == 'l' || c == 'L')` (stdio.c:174-176). -/
def skip_l : Nat → List Nat → Res (Nat × List Nat)
  | c, [] => if c = 108 ∨ c = 76 then .ub else .ok (c, [])
  | c, d :: f => if c = 108 ∨ c = 76 then skip_l d f else .ok (c, d :: f)

/-- The conversion (stdio.c:177-190): new stream, count, remaining arguments. -/
def convert {σ} (put : σ → Nat → σ) (c : Nat) (width : Int) (force_0 : Bool) (args : List Arg) (st : σ) (result : Int) :
    Res (σ × Int × List Arg) :=
  if c = 99 then
    match args with
    | .int n :: args => .ok (put st (n % 256).toNat, result + 1, args)
    | _ => .ub
  else if c = 100 ∨ c = 117 ∨ c = 111 ∨ c = 120 then
    match args with
    | .int n :: args =>
      (int_to_str n (if c = 120 then 16 else if c = 111 then 8 else 10) width force_0 false).bind fun s =>
      .ok (fputstr put s st, result + fputstr_count s, args)
    | _ => .ub
  else if c = 115 then
    match args with
    | .str s :: args => .ok (fputstr put s st, result + fputstr_count s, args)
    | _ => .ub
  else .ok (put (put (put st 63) 63) 63, result + 3, args)

/-- `vfprintf` (stdio.c:153-199): `put` is `fputc`, the format is given without its terminator. -/
def vfprintf {σ} (put : σ → Nat → σ) : Nat → List Nat → List Arg → σ → Int → Res (σ × Int)
  | 0, _, _, _, _ => .diverge
  | _ + 1, [], _, st, result => .ok (st, result)
  | fuel + 1, c :: f, args, st, result =>
    if c = 37 then
      match f with
      | [] => .ub
      | c :: f =>
        if c = 37 then vfprintf put fuel f args (put st c) (result + 1)
        else
          let force_0 : Bool := c = 48
          (if force_0 then read_width 0 f else read_width 0 (c :: f)).bind fun (width, c, f) =>
          (skip_l c f).bind fun (c, f) =>
          (convert put c width force_0 args st result).bind fun (st, result, args) =>
          vfprintf put fuel f args st result
    else vfprintf put fuel f args (put st c) (result + 1)

/-- `fputc` on a file (stdio.c:67-78). -/
def fputc (file : List Nat) (c : Nat) : List Nat := file ++ [c]

/-- `fprintf`, `printf` (stdio.c:201-225): what is written, and the result. -/
def fprintf (format : List Nat) (args : List Arg) : Res (List Nat × Int) :=
  vfprintf fputc (format.length + 1) format args [] 0

/-- `fputc` on the string FILE (stdio.c:69-73): `_string_output_buf[0.._string_output_len)`. -/
def sputc (size : Nat) (buf : List Nat) (c : Nat) : List Nat :=
  if buf.length + 1 < size then buf ++ [c] else buf

/-- `vsnprintf` (stdio.c:227-240) and `snprintf`: the bytes stored at `str`, and the result. -/
def snprintf (size : Nat) (format : List Nat) (args : List Arg) : Res (List Nat × Int) :=
  (vfprintf (sputc size) (format.length + 1) format args [] 0).bind fun (buf, result) =>
  .ok (buf ++ [0], result)

/-- `fputs` (stdio.c:101-105): what is written for the string `s`. -/
def fputs (s : List Nat) : List Nat := fputc (fputstr fputc s []) 10

end Verif.Stdio
