import Verif.Base
/-! Model of how a string literal travels through the generated script:
`print_escaped_char`/`print_escaped_string` (sh.c:222-259) in the compiler, then at run time
`defstr`, `unpack_escaped_string`, `char_to_int`, `_malloc` (sh-runtime.c).
Characters are byte codes; a shell string is a list of bytes (the script sets `LC_ALL=C`, sh.c:2513). -/
namespace Verif.ShStr
open Verif

/-! ### Compiler side -/

/-- sh.c:222-245 `print_escaped_char(c, for_printf)`. -/
def escapeChar (forPrintf : Bool) (c : Nat) : List Nat :=
  if c = 0 then [92, 48]
  else if c = 7 then [92, 97]
  else if c = 8 then [92, 98]
  else if c = 12 then [92, 102]
  else if c = 10 then [92, 110]
  else if c = 13 then [92, 114]
  else if c = 9 then [92, 116]
  else if c = 11 then [92, 118]
  else if c = 92 then [92, 92, 92, 92]
  else if c = 36 then [92, 36]
  else if c = 96 then [92, 96]
  else if c = 34 then [92, 34]
  else if c = 37 ∧ forPrintf then [37, 37]
  else [c]

/-- sh.c:247-259 `print_escaped_string` (start/end form). -/
def escapeString (forPrintf : Bool) : List Nat → List Nat
  | [] => []
  | c :: cs => escapeChar forPrintf c ++ escapeString forPrintf cs

/-! ### Run-time side -/

/-- sh-runtime.c:114-175: the lookup table `__c2i_*` (`RT_USE_LOOKUP_TABLE`), keyed by character. -/
def c2i : List (Nat × Int) :=
  [(48, 48), (49, 49), (50, 50), (51, 51), (52, 52), (53, 53), (54, 54), (55, 55), (56, 56),
    (57, 57), (97, 97), (98, 98), (99, 99), (100, 100), (101, 101), (102, 102), (103, 103),
    (104, 104), (105, 105), (106, 106), (107, 107), (108, 108), (109, 109), (110, 110),
    (111, 111), (112, 112), (113, 113), (114, 114), (115, 115), (116, 116), (117, 117),
    (118, 118), (119, 119), (120, 120), (121, 121), (122, 122), (65, 65), (66, 66), (67, 67),
    (68, 68), (69, 69), (70, 70), (71, 71), (72, 72), (73, 73), (74, 74), (75, 75), (76, 76),
    (77, 77), (78, 78), (79, 79), (80, 80), (81, 81), (82, 82), (83, 83), (84, 84), (85, 85),
    (86, 86), (87, 87), (88, 88), (89, 89), (90, 90)]

/-- sh-runtime.c:237-269: the remaining `case` arms of `char_to_int`. -/
def punct : List (Nat × Int) :=
  [(32, 32), (33, 33), (34, 34), (35, 35), (36, 36), (37, 37), (38, 38), (39, 39), (40, 40),
    (41, 41), (42, 42), (43, 43), (44, 44), (45, 45), (46, 46), (47, 47), (58, 58), (59, 59),
    (60, 60), (61, 61), (62, 62), (63, 63), (64, 64), (91, 91), (92, 92), (93, 93), (94, 94),
    (95, 95), (96, 96), (123, 123), (124, 124), (125, 125), (126, 126)]

/-- `[[:alnum:]]` in the POSIX locale. -/
def isAlnum (c : Nat) : Bool :=
  (48 ≤ c && c ≤ 57) || (65 ≤ c && c ≤ 90) || (97 ≤ c && c ≤ 122)

/-- sh-runtime.c:111-276 `char_to_int`.  `ord c` is the number `printf "%d" "'c"` prints; shells
disagree on its sign for bytes above 127, hence sh-runtime.c:271. An unset `__c2i_x` would be 0. -/
def charToInt (ord : Nat → Int) (c : Nat) : Int :=
  if isAlnum c then (c2i.lookup c).getD 0
  else match punct.lookup c with
    | some v => v
    | none => if ord c > 0 then ord c else 256 + ord c

/-- sh-runtime.c:417-431: meaning of the character after a backslash, `none` is the error exit. -/
def escCode (e : Nat) : Option Int :=
  if e = 48 then some 0
  else if e = 97 then some 7
  else if e = 98 then some 8
  else if e = 102 then some 12
  else if e = 110 then some 10
  else if e = 114 then some 13
  else if e = 116 then some 9
  else if e = 118 then some 11
  else if e = 92 then some 92
  else if e = 34 then some 34
  else if e = 39 then some 39
  else if e = 63 then some 63
  else if e = 36 then some 36
  else none

/-- The three string variables `__us_buf16`, `__us_buf256`, `__str`. -/
structure Bufs where
  b16 : List Nat
  b256 : List Nat
  str : List Nat
  deriving DecidableEq, Repr

/-- sh-runtime.c:68-79 `extract_line_head`: when the small buffer is empty, move `len` characters
(or everything when fewer remain) from the big one. -/
def extractHead (len : Nat) (small big : List Nat) : List Nat × List Nat :=
  if small = [] then
    (if big.length ≥ len then (big.take len, big.drop len) else (big, []))
  else (small, big)

/-- sh-runtime.c:452-455 `next_sub_buffer`. -/
def nextSub (b : Bufs) : Bufs :=
  let p := extractHead 256 b.b256 b.str
  let q := extractHead 16 b.b16 p.1
  { b16 := q.1, b256 := q.2, str := p.2 }

/-- sh-runtime.c:410-445 `handle_escaped_chars` with `OPTIMIZE_LONG_LINES`: consumes one source
character or escape and gives `__c`. `fatal` is the script's own error exit. -/
def handleEscaped (ord : Nat → Int) (b : Bufs) : Res (Int × Bufs) :=
  match b.b16 with
  | [] => .ub
  | c :: t =>
    if c = 92 then
      let b1 : Bufs := { b with b16 := t }
      let b2 := if t = [] then nextSub b1 else b1
      match b2.b16 with
      | [] => .fatal
      | e :: t' => match escCode e with
        | some v => .ok (v, { b2 with b16 := t' })
        | none => .fatal
    else .ok (charToInt ord c, { b with b16 := t })

/-- sh-runtime.c:468-472: inner loop `while [ ! -z "$__us_buf16" ]`. -/
def inner (ord : Nat → Int) : Nat → Bufs → Res (List Int × Bufs)
  | 0, _ => .diverge
  | fuel + 1, b =>
    if b.b16 = [] then .ok ([], b)
    else (handleEscaped ord b).bind fun (v, b') =>
      (inner ord fuel b').bind fun (vs, b'') => .ok (v :: vs, b'')

/-- sh-runtime.c:466-473: outer loop. -/
def outer (ord : Nat → Int) : Nat → Bufs → Res (List Int)
  | 0, _ => .diverge
  | fuel + 1, b =>
    if b.str = [] ∧ b.b256 = [] then .ok []
    else (inner ord (fuel + 1) (nextSub b)).bind fun (vs, b') =>
      (outer ord fuel b').bind fun ws => .ok (vs ++ ws)

/-- The values written, in order, by the long-line version of `unpack_escaped_string`. -/
def unpackLong (ord : Nat → Int) (s : List Nat) : Res (List Int) :=
  outer ord (s.length + 1) { b16 := [], b256 := [], str := s }

/-- The values written by the simple version (sh-runtime.c:475-479, `OPTIMIZE_LONG_LINES` off). -/
def unpackShort (ord : Nat → Int) : List Nat → Res (List Int)
  | [] => .ok []
  | c :: t =>
    if c = 92 then
      match t with
      | [] => .fatal
      | e :: t' => match escCode e with
        | some v => (unpackShort ord t').bind fun vs => .ok (v :: vs)
        | none => .fatal
    else (unpackShort ord t).bind fun vs => .ok (charToInt ord c :: vs)

/-- Script memory: the cells `_1`, `_2`, ... and `__ALLOC`. -/
structure Mem where
  cell : Nat → Int
  alloc : Nat

/-- sh-runtime.c:280-291 `_malloc` (`RT_FREE_UNSETS_VARS`): size header then the object. -/
def malloc (m : Mem) (size : Nat) : Mem × Nat :=
  ({ cell := upd m.cell m.alloc size, alloc := m.alloc + (size + 1) }, m.alloc + 1)

/-- sh-runtime.c:456-486 `unpack_escaped_string s [size]`: allocate, write the decoded values,
then fill with zeros up to and including `__end`. -/
def unpackEscaped (ord : Nat → Int) (long : Bool) (m : Mem) (s : List Nat) (size? : Option Nat) :
    Res (Mem × Nat) :=
  let size := size?.getD (s.length + 1)
  let (m1, addr) := malloc m size
  (if long then unpackLong ord s else unpackShort ord s).bind fun vs =>
    let ptr := addr + vs.length
    let stop := addr + size
    let zeros := List.replicate (stop + 1 - ptr) (0 : Int)
    .ok ({ m1 with cell := writeList m1.cell addr (vs ++ zeros) }, addr)

/-- sh-runtime.c:488-503 `defstr var s [size]`; `var` is the current value of the variable (unset
variables evaluate to 0). Returns the memory and the new value of the variable. -/
def defstr (ord : Nat → Int) (long : Bool) (m : Mem) (var : Nat) (s : List Nat)
    (size? : Option Nat) : Res (Mem × Nat) :=
  if var = 0 then unpackEscaped ord long m s size? else .ok (m, var)

end Verif.ShStr
