import Verif.ShHeap.Model
/-! Model of the input/output runtime of a generated script (sh-runtime.c:514-590 and 706-935):
`_putchar`, `_put_pstr`, `_getchar`, `_open`, `_close`, `read_byte`, `_read`, `_write`, `_fopen`,
`_fclose`, `_fgetc`, on top of the heap of `Verif.ShHeap`.  Input contains no NUL bytes (the `read`
of the shells drops them). -/
namespace Verif.ShIO
open Verif Verif.ShHeap

/-- A descriptor of the shell process: closed, or open for reading with the bytes still to come, or
open for writing with the bytes written through it. -/
inductive Chan where
  | closed
  | rd (rest : List Nat)
  | wr (done : List Nat)
  deriving DecidableEq, Repr

/-- The variables of `_getchar` (sh-runtime.c:521-530): `__stdin_buf`, `__stdin_buf16`,
`__stdin_buf256`, `__stdin_line_ending`, `__stdin_end`. -/
structure GC where
  buf : List Nat
  b16 : List Nat
  b256 : List Nat
  ending : Int
  fin : Bool
  deriving DecidableEq, Repr

/-- State of the script: the heap, `__state_fdN`, `__buffer_fdN`, `__cursor_fdN`, `__buflen_fdN`, the
descriptors themselves and the variables of `_getchar`. -/
structure IO where
  h : S
  state : Nat → Int
  buffer : Nat → Option Int
  cursor : Nat → Option Int
  buflen : Nat → Option Int
  chan : Nat → Chan
  gc : GC

/-- Parameters: runtime configuration, `printf "%d" "'c"` for a character, and for no character. -/
structure Env where
  c : Cfg
  ord : Nat → Int
  ord0 : Int

/-- The scratch variables `__`, `__buffer`, `__file`. -/
def dummyVar : Nat := 2
def bufferVar : Nat := 3
def fileVar : Nat := 4

/-- Initialisations made where `open`/`getchar` are included (sh-runtime.c:521-530, 708-727). -/
def init (e : Env) (stdin : List Nat) : IO :=
  let h1 := malloc e.c start (.var bufferVar) 1000
  let b := (h1.var bufferVar).getD 0
  { h := { h1 with cell := updI h1.cell b (some 0) },
    state := fun d => if d < 3 then (d : Int) else -1,
    buffer := fun d => if d = 0 then some b else none,
    cursor := fun d => if d = 0 then some 0 else none,
    buflen := fun d => if d = 0 then some 1000 else none,
    chan := fun d => if d = 0 then .rd stdin else if d < 3 then .wr [] else .closed,
    gc := { buf := [], b16 := [], b256 := [], ending := 0, fin := true } }

/-! ### Output -/

/-- Decimal text of an arithmetic expansion `$((n))`. -/
def decimal (n : Int) : List Nat :=
  if n < 0 then 45 :: (Nat.toDigits 10 n.natAbs).map Char.toNat
  else (Nat.toDigits 10 n.natAbs).map Char.toNat

/-- The word `\\$((c/64))$((c/8%8))$((c%8))` of `_putchar` after expansion (sh-runtime.c:514-519);
shell division truncates. -/
def octalWord (c : Int) : List Nat :=
  92 :: (decimal (c.tdiv 64) ++ decimal ((c.tdiv 8).tmod 8) ++ decimal (c.tmod 8))

/-- `_put_pstr` (sh-runtime.c:572-590): the words handed to `printf`, one for each character up to
the first 0 (an unset cell is an error under `set -u`). -/
def putPstr (strict : Bool) (cell : Int → Option Int) : Nat → Int → Res (List (List Nat))
  | 0, _ => .diverge
  | fuel + 1, a =>
    (expand strict (cell a)).bind fun v =>
      if v = 0 then .ok []
      else (putPstr strict cell fuel (a + 1)).bind fun ws => .ok (octalWord v :: ws)

/-- The loop of `_write` (sh-runtime.c:869-880): the words handed to `printf`. -/
def writeLoop (strict : Bool) (cell : Int → Option Int) : Nat → Int → Res (List (List Nat))
  | 0, _ => .ok []
  | n + 1, a =>
    (expand strict (cell a)).bind fun v =>
      (writeLoop strict cell n (a + 1)).bind fun ws => .ok (octalWord v :: ws)

/-! ### Reading lines -/

/-- `IFS= read -r x`: the line without its newline, whether a newline was found (the exit status), and
the rest of the input. -/
def readLine : List Nat → List Nat × Bool × List Nat
  | [] => ([], false, [])
  | b :: t => if b = 10 then ([], true, t)
    else let (l, o, r) := readLine t
      (b :: l, o, r)

/-- `extract_first_char` on a string variable (sh-runtime.c:29-62); on an empty one, `char_to_int`
gets an empty argument. -/
def headChar (e : Env) : List Nat → Int
  | [] => if e.ord0 > 0 then e.ord0 else 256 + e.ord0
  | b :: _ => firstChar e.c e.ord b

/-- `_getchar` (sh-runtime.c:521-569) without `OPTIMIZE_LONG_LINES`. `rest` is what remains on the
standard input; gives the variables, the remaining input and the result. -/
def getcharShort (e : Env) (g : GC) (rest : List Nat) : GC × List Nat × Int :=
  let next (g : GC) (rest : List Nat) : GC × List Nat × Int :=
    ({ g with buf := g.buf.tail }, rest, headChar e g.buf)
  if g.buf = [] then
    if g.ending ≠ 0 then ({ g with ending := 0 }, rest, g.ending)
    else
      let (l, o, r) := readLine rest
      if o then
        if l = [] then ({ g with buf := l }, r, 10)
        else next { g with buf := l, ending := 10 } r
      else
        if l = [] then ({ g with buf := l }, r, -1)
        else next { g with buf := l, ending := -1 } r
  else next g rest

/-- The end of `_getchar` with `OPTIMIZE_LONG_LINES` (sh-runtime.c:559-563): refill the buffers of 256
and 16 characters, take a character. -/
def takeLong (e : Env) (g : GC) (rest : List Nat) : GC × List Nat × Int :=
  let p := ShStr.extractHead 256 g.b256 g.buf
  let q := ShStr.extractHead 16 g.b16 p.1
  let fin := if g.b16 = [] ∧ p.1.length < 16 then true else g.fin
  ({ g with buf := p.2, b256 := q.2, b16 := q.1.tail, fin := fin }, rest, headChar e q.1)

/-- `_getchar` (sh-runtime.c:521-569) with `OPTIMIZE_LONG_LINES`. -/
def getcharLong (e : Env) (g : GC) (rest : List Nat) : GC × List Nat × Int :=
  if g.b16 = [] ∧ g.fin then
    if g.ending ≠ 0 then ({ g with ending := 0 }, rest, g.ending)
    else
      let (l, o, r) := readLine rest
      let g := { g with fin := false, buf := l }
      if o then
        if l = [] then (g, r, 10) else takeLong e { g with ending := 10 } r
      else
        if l = [] then (g, r, -1) else takeLong e { g with ending := -1 } r
  else takeLong e g rest

/-- `_getchar` on the script's state (it reads descriptor 0). -/
def getchar (e : Env) (io : IO) : Res (IO × Int) :=
  match io.chan 0 with
  | .rd rest =>
    let (g, r, v) := if e.c.long then getcharLong e io.gc rest else getcharShort e io.gc rest
    .ok ({ io with gc := g, chan := upd io.chan 0 (.rd r) }, v)
  | _ => .ub

/-! ### Files -/

/-- The loop `while [ ! -z "$buf" ]` writing the characters of a string variable
(sh-runtime.c:786-789, 796-800): the values written. -/
def drain (e : Env) : List Nat → List Int
  | [] => []
  | b :: t => firstChar e.c e.ord b :: drain e t

/-- The loop of the long-line `unpack_line` (sh-runtime.c:790-802), driven by `__continue`. -/
def lineChunks (e : Env) : Nat → List Nat → List Nat → List Nat → Res (List Int)
  | 0, _, _, _ => .diverge
  | fuel + 1, b16, b256, buf =>
    let p := ShStr.extractHead 256 b256 buf
    let q := ShStr.extractHead 16 b16 p.1
    if b16 = [] ∧ p.1.length < 16 then .ok (drain e q.1)
    else (lineChunks e fuel [] q.2 p.2).bind fun ws => .ok (drain e q.1 ++ ws)

/-- `unpack_line` (sh-runtime.c:780-810): the characters, a newline unless the line ended with the end
of the file, and 0.  The long-line version also clears `__stdin_buf256`, a variable of `_getchar`. -/
def unpackLine (e : Env) (io : IO) (line : List Nat) (buffer : Int) (eof : Bool) : Res IO :=
  (if e.c.long then lineChunks e (line.length + 1) [] [] line else .ok (drain e line)).bind fun vs =>
    let gc := if e.c.long then { io.gc with b256 := [] } else io.gc
    let m := writeAll io.h.cell buffer (vs ++ (if eof then [0] else [10, 0]))
    .ok { io with h := { io.h with cell := m }, gc := gc }

/-- `refill_buffer` (sh-runtime.c:812-833). -/
def refill (e : Env) (io : IO) (fd : Nat) : Res IO :=
  (expand e.c.strict (io.buffer fd)).bind fun buffer =>
    match io.chan fd with
    | .rd rest =>
      let (line, o, r) := readLine rest
      let io1 := { io with chan := upd io.chan fd (.rd r) }
      (expand e.c.strict (io1.buflen fd)).bind fun bl =>
        if (line.length : Int) > bl - 2 then
          let nl : Int := line.length * 2
          (free e.c io1.h (.var dummyVar) buffer).bind fun h1 =>
            let h2 := malloc e.c h1 (.var bufferVar) nl
            (expand e.c.strict (h2.var bufferVar)).bind fun nb =>
              let io2 := { io1 with h := h2, buffer := upd io1.buffer fd (some nb),
                                    buflen := upd io1.buflen fd (some nl) }
              unpackLine e io2 line nb (!o)
        else unpackLine e io1 line buffer (!o)
    | _ => .ub

/-- `read_byte` (sh-runtime.c:835-851). -/
def readByte (e : Env) (io : IO) (fd : Nat) : Res (IO × Int) :=
  (expand e.c.strict (io.buffer fd)).bind fun buffer =>
  (expand e.c.strict (io.cursor fd)).bind fun cursor =>
  (expand e.c.strict (io.h.cell (buffer + cursor))).bind fun v =>
    if v = 0 then
      (refill e io fd).bind fun io1 =>
        (expand e.c.strict (io1.buffer fd)).bind fun buffer1 =>
        (expand e.c.strict (io1.h.cell (buffer1 + 0))).bind fun v1 =>
          if v1 = 0 then .ok (io1, -1)
          else .ok ({ io1 with cursor := upd io1.cursor fd (some (0 + 1)) }, v1)
    else .ok ({ io with cursor := upd io.cursor fd (some (cursor + 1)) }, v)

/-- The loop of `_read` (sh-runtime.c:854-867), from index `i` with `n` iterations left; the result is
the final index. -/
def readLoop (e : Env) (fd : Nat) (buf : Int) : Nat → Int → IO → Res (IO × Int)
  | 0, i, io => .ok (io, i)
  | n + 1, i, io => (readByte e io fd).bind fun (io1, v) =>
      if v < 0 then .ok (io1, i)
      else readLoop e fd buf n (i + 1) { io1 with h := { io1.h with cell := updI io1.h.cell (buf + i) (some v) } }

/-- The search for a free descriptor in `_open` (sh-runtime.c:729-737). -/
def findFd (state : Nat → Int) : Nat → Nat → Nat
  | 0, fd => fd
  | n + 1, fd => if fd < 10 then (if state fd < 0 then fd else findFd state n (fd + 1)) else fd

/-- `_open` (sh-runtime.c:728-773).  The name is given as a string (in the script it is read from
memory by `_put_pstr`), `fs` is the content of the files; a failing `exec` redirection ends the
script. -/
def openFile (e : Env) (fs : List Nat → Option (List Nat)) (io : IO) (name : List Nat) (flags : Int) :
    Res (IO × Int) :=
  let fd := findFd io.state 11 0
  if fd > 9 then .fatal
  else
    let h1 := malloc e.c io.h (.var addrVar) 1000
    (expand e.c.strict (h1.var addrVar)).bind fun addr =>
      let io1 : IO := { io with
        h := { h1 with cell := updI h1.cell addr (some 0) },
        buffer := upd io.buffer fd (some addr),
        cursor := upd io.cursor fd (some 0),
        buflen := upd io.buflen fd (some 1000),
        state := upd io.state fd flags }
      if flags = 0 then
        match fs name with
        | some bytes => .ok ({ io1 with chan := upd io1.chan fd (.rd bytes) }, fd)
        | none => .fatal
      else if flags = 1 ∨ flags = 2 then .ok ({ io1 with chan := upd io1.chan fd (.wr []) }, fd)
      else .fatal

/-- `_close` (sh-runtime.c:897-913). -/
def closeFile (e : Env) (io : IO) (fd : Nat) : Res (IO × Int) :=
  (expand e.c.strict (io.buffer fd)).bind fun buf =>
    (free e.c io.h (.var dummyVar) buf).bind fun h1 =>
      .ok ({ io with h := h1, state := upd io.state fd (-1), chan := upd io.chan fd .closed }, 0)

/-- `_fopen` (sh-runtime.c:884-895); `w` tells whether the mode starts with `w`. -/
def fopen (e : Env) (fs : List Nat → Option (List Nat)) (io : IO) (name : List Nat) (w : Bool) :
    Res (IO × Int) :=
  (openFile e fs io name (if w then 1 else 0)).bind fun (io1, fd) =>
    let h1 := malloc e.c io1.h (.var fileVar) 1
    (expand e.c.strict (h1.var fileVar)).bind fun file =>
      .ok ({ io1 with h := { h1 with cell := updI h1.cell file (some fd) } }, file)

/-- `_fclose` (sh-runtime.c:915-924). -/
def fclose (e : Env) (io : IO) (file : Int) : Res (IO × Int) :=
  (expand e.c.strict (io.h.cell file)).bind fun fd =>
    (free e.c io.h (.var dummyVar) file).bind fun h1 =>
      closeFile e { io with h := h1 } fd.toNat

/-- `_fgetc` (sh-runtime.c:926-933). -/
def fgetc (e : Env) (io : IO) (file : Int) : Res (IO × Int) :=
  (expand e.c.strict (io.h.cell file)).bind fun fd => readByte e io fd.toNat

/-- `_write` (sh-runtime.c:869-880): each word goes through `printf` (`fmt`) to the descriptor. -/
def write (e : Env) (fmt : List Nat → Option (List Nat)) (io : IO) (fd : Nat) (buf : Int) (n : Nat) :
    Res (IO × Int) :=
  (writeLoop e.c.strict io.h.cell n buf).bind fun ws =>
    match io.chan fd, (ws.mapM fmt) with
    | .wr done, some outs => .ok ({ io with chan := upd io.chan fd (.wr (done ++ outs.flatten)) }, n)
    | _, _ => .ub

/-- `_putchar` (sh-runtime.c:514-519). -/
def putchar (fmt : List Nat → Option (List Nat)) (io : IO) (c : Int) : Res (IO × Int) :=
  match io.chan 1, fmt (octalWord c) with
  | .wr done, some out => .ok ({ io with chan := upd io.chan 1 (.wr (done ++ out)) }, 0)
  | _, _ => .ub

/-- An action of the program. -/
inductive Op where
  /-- an action on memory (`malloc`, `free`, stores, …) -/
  | mem (a : Act)
  | getchar
  | putchar (c : Int)
  | openFile (name : List Nat) (flags : Int)
  | closeFile (fd : Nat)
  | readByte (fd : Nat)
  | write (fd : Nat) (buf : Int) (n : Nat)
  | read (fd : Nat) (buf : Int) (n : Nat)
  | fopen (name : List Nat) (w : Bool)
  | fclose (file : Int)
  | fgetc (file : Int)

/-- Running one action; the result is what the call returns (0 for memory actions, whose results are
described in `Verif.ShHeap`). -/
def step (e : Env) (fs : List Nat → Option (List Nat)) (fmt : List Nat → Option (List Nat)) (io : IO) :
    Op → Res (IO × Int)
  | .mem a => (ShHeap.step e.c e.ord io.h a).bind fun h => .ok ({ io with h := h }, 0)
  | .getchar => getchar e io
  | .putchar c => putchar fmt io c
  | .openFile name flags => openFile e fs io name flags
  | .closeFile fd => closeFile e io fd
  | .readByte fd => readByte e io fd
  | .write fd buf n => write e fmt io fd buf n
  | .read fd buf n => readLoop e fd buf n 0 io
  | .fopen name w => fopen e fs io name w
  | .fclose f => fclose e io f
  | .fgetc f => fgetc e io f

end Verif.ShIO
