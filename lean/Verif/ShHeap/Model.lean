import Verif.Base
import Verif.ShStr.Model
/-! Model of the memory of a generated script: the cells `_1`, `_2`, … , the allocator and the runtime
functions that allocate (sh-runtime.c).  Shell integers are modelled as unbounded integers: the total
of all allocations is assumed to stay below 2^63. -/
namespace Verif.ShHeap
open Verif Verif.ShStr

/-- Compile-time options of pnut that change the runtime (pnut.c:37-112).
`hdr` is `RT_FREE_UNSETS_VARS`, `strict` is the absence of `RT_UNSAFE_HEAP` (the script then runs with
`set -u`, sh.c:2505-2511), `long` is `OPTIMIZE_LONG_LINES`, `compact` is `RT_COMPACT`, `noInit` is
`RT_NO_INIT_GLOBALS`. -/
structure Cfg where
  hdr : Bool
  strict : Bool
  long : Bool
  compact : Bool
  noInit : Bool
  deriving DecidableEq, Repr

/-- Where a runtime function puts its result (its argument `$1`): a shell variable or a cell `_N`. -/
inductive Dst where
  | var (i : Nat)
  | cell (a : Int)
  deriving DecidableEq, Repr

/-- Memory of the script; an unset variable is `none`. -/
structure S where
  cell : Int → Option Int
  var : Nat → Option Int
  alloc : Int

/-- Assignment to the cell `_a`. -/
def updI (m : Int → Option Int) (a : Int) (v : Option Int) : Int → Option Int :=
  fun x => if x = a then v else m x

/-- `: $((d = v))`. -/
def S.put (s : S) (d : Dst) (v : Int) : S :=
  match d with
  | .var i => { s with var := upd s.var i (some v) }
  | .cell a => { s with cell := updI s.cell a (some v) }

/-- The variable or cell itself. -/
def S.get (s : S) (d : Dst) : Option Int :=
  match d with
  | .var i => s.var i
  | .cell a => s.cell a

/-- Reading a possibly unset variable in an arithmetic expansion: an error under `set -u`
(sh.c:2505-2511), 0 otherwise. -/
def expand (strict : Bool) : Option Int → Res Int
  | some v => .ok v
  | none => if strict then .fatal else .ok 0

/-- State when the script starts: `__ALLOC=1` (sh-runtime.c:279). -/
def start : S := { cell := fun _ => none, var := fun _ => none, alloc := 1 }

/-- `_malloc` (sh-runtime.c:278-291). -/
def malloc (c : Cfg) (s : S) (d : Dst) (size : Int) : S :=
  if c.hdr then
    let s1 := { s with cell := updI s.cell s.alloc (some size) }
    let s2 := s1.put d (s1.alloc + 1)
    { s2 with alloc := s2.alloc + (size + 1) }
  else
    let s1 := s.put d s.alloc
    { s1 with alloc := s1.alloc + size }

/-- The loop writing a list of values at `ptr`, `ptr+1`, … . -/
def writeAll (m : Int → Option Int) (ptr : Int) : List Int → (Int → Option Int)
  | [] => m
  | v :: vs => writeAll (updI m ptr (some v)) (ptr + 1) vs

/-- The loop `while [ $p -lt $end ]; do : $((_$p = 0)); p += 1` running `n` times. -/
def zeroFrom (m : Int → Option Int) (ptr : Int) : Nat → (Int → Option Int)
  | 0 => m
  | n + 1 => zeroFrom (updI m ptr (some 0)) (ptr + 1) n

/-- `initialize` (sh-runtime.c:293-312): write the elements, then zeros up to the length. -/
def initMem (c : Cfg) (s : S) (d : Dst) (len : Int) (elems : List Int) : Res S :=
  (expand c.strict (s.get d)).bind fun ptr =>
    let m1 := writeAll s.cell ptr elems
    let i := (elems.length : Int)
    .ok { s with cell := zeroFrom m1 (ptr + i) (len - i).toNat }

/-- `defarr` (sh-runtime.c:314-331).  Without `RT_NO_INIT_GLOBALS` it calls `initialize_memory`, a
command that does not exist: `set -e` ends the script. -/
def defarr (c : Cfg) (s : S) (d : Dst) (len : Int) (elems : List Int) : Res S :=
  let s1 := malloc c s d len
  if c.noInit then
    (if elems.length > 0 then initMem c s1 d len elems else .ok s1)
  else .fatal

/-- The `unset` loop of `_free` running `n` times. -/
def unsetFrom (m : Int → Option Int) (ptr : Int) : Nat → (Int → Option Int)
  | 0 => m
  | n + 1 => unsetFrom (updI m ptr none) (ptr + 1) n

/-- `_free` (sh-runtime.c:340-352).  `$((__ptr + _$__ptr))` for a negative `__ptr` (that is
`free(NULL)`) is not a variable reference; it is modelled as an undefined outcome. -/
def free (c : Cfg) (s : S) (d : Dst) (obj : Int) : Res S :=
  if c.hdr then
    let ptr := obj - 1
    if ptr < 0 then .ub
    else (expand c.strict (s.cell ptr)).bind fun size =>
      let fin := ptr + size
      let s1 := { s with cell := unsetFrom s.cell ptr (fin - ptr).toNat }
      .ok (s1.put d 0)
  else .ok (s.put d 0)

/-- `call_char_to_int` (sh-runtime.c:18-22). -/
def charVal (c : Cfg) (ord : Nat → Int) (ch : Nat) : Int :=
  if c.compact then (if ord ch > 0 then ord ch else 256 + ord ch) else charToInt ord ch

/-- The arms of `extract_first_char_fast` (sh-runtime.c:29-51). -/
def fastArms : List (Nat × Int) :=
  [(32, 32), (101, 101), (61, 61), (116, 116), (59, 59), (105, 105), (41, 41), (40, 40), (110, 110),
   (115, 115), (108, 108), (43, 43), (112, 112), (97, 97), (114, 114), (102, 102), (100, 100), (42, 42)]

/-- `extract_first_char` (sh-runtime.c:29-62). -/
def firstChar (c : Cfg) (ord : Nat → Int) (ch : Nat) : Int :=
  if c.compact then charVal c ord ch
  else match fastArms.lookup ch with
    | some v => v
    | none => charVal c ord ch

/-- The loop `while [ ! -z "$__us_buf16" ]` of `unpack_string` (sh-runtime.c:368-374). -/
def drain16 (c : Cfg) (ord : Nat → Int) : List Nat → List Int
  | [] => []
  | ch :: t => firstChar c ord ch :: drain16 c ord t

/-- The outer loop of the long-line `unpack_string` (sh-runtime.c:363-375): refill the small buffers
(`extract_line_head`), then drain. -/
def unpackChunks (c : Cfg) (ord : Nat → Int) : Nat → Bufs → Res (List Int)
  | 0, _ => .diverge
  | fuel + 1, b =>
    if b.str = [] ∧ b.b256 = [] then .ok []
    else
      let b1 := nextSub b
      (unpackChunks c ord fuel { b1 with b16 := [] }).bind fun ws => .ok (drain16 c ord b1.b16 ++ ws)

/-- The loop of the plain `unpack_string` (sh-runtime.c:376-390). -/
def unpackPlain (c : Cfg) (ord : Nat → Int) : List Nat → List Int
  | [] => []
  | ch :: t => charVal c ord ch :: unpackPlain c ord t

/-- `unpack_string` (sh-runtime.c:355-392). -/
def unpackString (c : Cfg) (ord : Nat → Int) (s : S) (d : Dst) (str : List Nat) : Res S :=
  let s1 := malloc c s d ((str.length : Int) + 1)
  (expand c.strict (s1.get d)).bind fun ptr =>
    (if c.long then unpackChunks c ord (str.length + 1) { b16 := [], b256 := [], str := str }
     else .ok (unpackPlain c ord str)).bind fun vs =>
      let m := writeAll s1.cell ptr vs
      .ok { s1 with cell := updI m (ptr + vs.length) (some 0) }

/-- The variable `__argv` (a reserved name of the script). -/
def argvVar : Nat := 0
/-- The variable `__addr`. -/
def addrVar : Nat := 1

/-- The loop of `make_argv` (sh-runtime.c:401-405). -/
def argvLoop (c : Cfg) (ord : Nat → Int) : S → Int → List (List Nat) → Res S
  | s, _, [] => .ok s
  | s, ptr, a :: as =>
    (unpackString c ord s (.cell ptr) a).bind fun s1 => argvLoop c ord s1 (ptr + 1) as

/-- `make_argv` (sh-runtime.c:394-407), called with `$# + 1` and all arguments (sh.c:2536-2538). -/
def makeArgv (c : Cfg) (ord : Nat → Int) (s : S) (args : List (List Nat)) : Res S :=
  let s1 := malloc c s (.var argvVar) args.length
  (expand c.strict (s1.var argvVar)).bind fun p => argvLoop c ord s1 p args

/-- `unpack_escaped_string` (sh-runtime.c:447-486); the decoding loop is `ShStr.unpackLong` /
`ShStr.unpackShort` (`RT_COMPACT`'s shorter `char_to_int` is not distinguished here). -/
def unpackEsc (c : Cfg) (ord : Nat → Int) (s : S) (str : List Nat) (size? : Option Int) : Res S :=
  let size := size?.getD ((str.length : Int) + 1)
  let s1 := malloc c s (.var addrVar) size
  (expand c.strict (s1.var addrVar)).bind fun addr =>
    let fin := addr + size
    (if c.long then unpackLong ord str else unpackShort ord str).bind fun vs =>
      let m := writeAll s1.cell addr vs
      let p := addr + vs.length
      .ok { s1 with cell := zeroFrom m p (fin + 1 - p).toNat }

/-- `defstr` (sh-runtime.c:488-505); the test is made under `set +u`. -/
def defstr (c : Cfg) (ord : Nat → Int) (s : S) (v : Nat) (str : List Nat) (size? : Option Int) : Res S :=
  (expand false (s.var v)).bind fun x =>
    if x = 0 then
      (unpackEsc c ord s str size?).bind fun s1 =>
        (expand false (s1.var addrVar)).bind fun a => .ok (s1.put (.var v) a)
    else .ok s

/-- One action of a running script. -/
inductive Act where
  /-- `d = malloc(n)` -/
  | malloc (d : Dst) (n : Int)
  /-- `free(p)`, result (0) in `d` -/
  | free (d : Dst) (p : Int)
  /-- definition of a global array -/
  | defarr (v : Nat) (len : Int) (elems : List Int)
  /-- definition of a string constant or of a `char` array initialised with a string -/
  | defstr (v : Nat) (str : List Nat) (size? : Option Int)
  /-- conversion of a shell string to a C string -/
  | unpack (d : Dst) (str : List Nat)
  /-- the program's arguments -/
  | argv (args : List (List Nat))
  /-- the program stores `x` in cell `a` -/
  | store (a x : Int)
  /-- the program assigns a variable -/
  | setVar (i : Nat) (x : Int)

/-- Running one action (the functions above; sh-runtime.c:278-505). -/
def step (c : Cfg) (ord : Nat → Int) (s : S) : Act → Res S
  | .malloc d n => .ok (malloc c s d n)
  | .free d p => free c s d p
  | .defarr v len elems => defarr c s (.var v) len elems
  | .defstr v str size? => defstr c ord s v str size?
  | .unpack d str => unpackString c ord s d str
  | .argv args => makeArgv c ord s args
  | .store a x => .ok { s with cell := updI s.cell a (some x) }
  | .setVar i x => .ok (s.put (.var i) x)

/-! ### The compiler side: which definitions are emitted -/

/-- The initialiser of a global array declaration. -/
inductive Init where
  | none
  | str (bytes : List Nat)
  | list (elems : List Int)

/-- `comp_glo_var_decl` (sh.c:2285-2363), the array cases: the `defstr`/`defarr` line emitted for the
variable `v`, or the error.  `arrLen = 0` means that the declaration gives no length. -/
def compArray (v : Nat) (arrLen : Nat) (esc : List Nat → List Nat) : Init → Res Act
  | .str bytes =>
    let initLen := bytes.length + 1
    if arrLen ≠ 0 ∧ arrLen < initLen then .fatal
    else .ok (.defstr v (esc bytes) (some ((if arrLen ≠ 0 then arrLen else initLen : Nat) : Int)))
  | .list elems =>
    if arrLen = 0 then
      (if elems.length = 0 then .fatal else .ok (.defarr v elems.length elems))
    else if arrLen < elems.length then .fatal
    else .ok (.defarr v arrLen elems)
  | .none => if arrLen = 0 then .fatal else .ok (.defarr v arrLen [])

end Verif.ShHeap
