import Verif.Base
/-! Model of integer-literal scanning (pnut.c:965-1045 and the number case of `get_tok`,
pnut.c:2148-2211), in both configurations: plain 32-bit `int` accumulation (shell backend and 32-bit
backends) and `SUPPORT_64_BIT_LITERALS` (x86-64 backends).

The input is the list of characters still to be read; its head is the C global `ch` and the empty
list stands for `ch == EOF`.  `get_ch` is dropping the head (include switching and line
continuations are in `Verif.Chars`). -/
namespace Verif.Lit
open Verif

/-- pnut.c:1020-1027: the digit denoted by the current character, 99 when it is none. -/
def digitOf (c : Nat) : Nat :=
  if 48 ≤ c ∧ c ≤ 57 then c - 48
  else if 65 ≤ c ∧ c ≤ 90 then c - 65 + 10
  else if 97 ≤ c ∧ c ≤ 122 then c - 97 + 10
  else 99

/-- `digit` for the current character, EOF (-1) is not a digit. -/
def curDigit : List Nat → Nat
  | [] => 99
  | c :: _ => digitOf c

/-- Token kinds of integers (pnut.c:2152-2206). -/
inductive Kind where
  | int | hex | oct | intL | intLL | intU | intUL | intULL
  deriving DecidableEq, Repr

/-! ### 32-bit configuration -/

/-- Signed overflow of `int` is undefined behaviour. -/
def chk32 (v : Int) : Res Int :=
  if -2147483648 ≤ v ∧ v ≤ 2147483647 then .ok v else .ub

/-- pnut.c:1040 `val = val * base - digit` on `int`. -/
def accum32 (base : Nat) (val : Int) (d : Nat) : Res Int :=
  (chk32 (val * base)).bind fun m => chk32 (m - d)

/-- pnut.c:2161, 2166, 2177 `while (accum_digit(base));` with pnut.c:1019-1045 inlined. -/
def loop32 (base : Nat) (val : Int) : List Nat → Res (Int × List Nat)
  | [] => .ok (val, [])
  | c :: inp =>
    if digitOf c ≥ base then .ok (val, c :: inp)
    else (accum32 base val (digitOf c)).bind fun v => loop32 base v inp

/-- The number case of `get_tok`, pnut.c:2150-2178, without 64-bit literals.
`withBase` is `PARSE_NUMERIC_LITERAL_WITH_BASE`. Returns token kind, `val`, remaining input. -/
def number32 (withBase : Bool) (inp : List Nat) : Res (Kind × Int × List Nat) :=
  match inp with
  | 48 :: inp1 =>
    match inp1 with
    | 120 :: inp2 | 88 :: inp2 =>
      if curDigit inp2 ≥ 16 then .fatal
      else (loop32 16 0 inp2).bind fun (v, r) => .ok (if withBase then .hex else .int, v, r)
    | _ => (loop32 8 0 inp1).bind fun (v, r) =>
        .ok (if withBase then (if v = 0 then .int else .oct) else .int, v, r)
  | _ => (loop32 10 0 inp).bind fun (v, r) => .ok (.int, v, r)

/-! ### 64-bit configuration

`int` is 32 bits wide.  The code relies on wrap-around of `int` (e.g. `x[1] * y`, and the left shift
into the sign bit); C leaves this undefined, all targets of pnut and the usual compilers wrap.  The
model wraps (`BitVec 32`). -/

/-- `val_32` -/
structure U64 where
  lo : BitVec 32
  hi : BitVec 32
  deriving DecidableEq, Repr

/-- pnut.c:974 `I32_LOGICAL_RSHIFT_16(x)`: `((x >> 16) & 0xffff)` with arithmetic `>>`. -/
def lsr16 (x : BitVec 32) : BitVec 32 := (x.sshiftRight 16) &&& 0xffff#32

/-- pnut.c:970-987 `u64_mul_u32`. -/
def mul (x : U64) (y : BitVec 32) : U64 :=
  let xlo := x.lo &&& 0xffff#32
  let xhi := lsr16 x.lo
  let ylo := y &&& 0xffff#32
  let yhi := lsr16 y
  let lo := xlo * ylo
  let m1 := xlo * yhi + lo.sshiftRight 16
  let m2 := xhi * ylo
  let m3 := (m1 &&& 0xffff#32) + (m2 &&& 0xffff#32)
  let hi := xhi * yhi + lsr16 m1 + lsr16 m2 + lsr16 m3
  { lo := ((m3 &&& 0xffff#32) <<< 16) + (lo &&& 0xffff#32), hi := x.hi * y + hi }

/-- pnut.c:990-995 `u64_add_u32`; `x < 0` on `int` is the sign bit. -/
def add (x : U64) (y : BitVec 32) : U64 :=
  let lo := x.lo + y
  { lo := lo, hi := x.hi + (if x.lo.msb != lo.msb then 1#32 else 0#32) }

/-- pnut.c:1037-1038 -/
def accum64 (base : Nat) (v : U64) (d : Nat) : U64 :=
  add (mul v (BitVec.ofNat 32 base)) (BitVec.ofNat 32 d)

def loop64 (base : Nat) (v : U64) : List Nat → U64 × List Nat
  | [] => (v, [])
  | c :: inp =>
    if digitOf c ≥ base then (v, c :: inp) else loop64 base (accum64 base v (digitOf c)) inp

/-- pnut.c:1002-1010 `u64_to_obj`: the bump-allocated heap object; a small int is stored negated,
a large one as the (positive) index of a two-word object. -/
structure Heap where
  mem : Nat → Int
  alloc : Nat

/-- pnut.c:326 -/
def heapSize : Nat := 2000000

def toObj (h : Heap) (x : U64) : Res (Heap × Int) :=
  if 0 ≤ x.lo.toInt ∧ x.hi = 0#32 then .ok (h, - x.lo.toInt)
  else if h.alloc + 2 > heapSize then .fatal
  else .ok ({ mem := writeList h.mem h.alloc [x.lo.toInt, x.hi.toInt], alloc := h.alloc + 2 },
        (h.alloc : Int))

/-- exe.c:50-57 `emit_i64_le_large_imm` / x86.c `mov_reg_large_imm`: the 64-bit word an integer
object stands for in the generated code. -/
def objWord (h : Heap) (obj : Int) : BitVec 64 :=
  if obj ≤ 0 then BitVec.ofInt 64 (-obj)
  else BitVec.ofInt 32 (h.mem (obj.toNat + 1)) ++ BitVec.ofInt 32 (h.mem obj.toNat)

/-- Suffix parsing pnut.c:2188-2208 (`u l` in either case). -/
def isU : List Nat → Bool
  | c :: _ => c == 117 || c == 85
  | [] => false
def isL : List Nat → Bool
  | c :: _ => c == 108 || c == 76
  | [] => false

def suffix (inp : List Nat) : Kind × List Nat :=
  if isU inp then
    let i1 := inp.drop 1
    if isL i1 then
      let i2 := i1.drop 1
      if isL i2 then (.intULL, i2.drop 1) else (.intUL, i2)
    else (.intU, i1)
  else if isL inp then
    let i1 := inp.drop 1
    let (k, i2) := if isL i1 then (Kind.intLL, i1.drop 1) else (Kind.intL, i1)
    if isU i2 then (if k = .intLL then .intULL else .intUL, i2.drop 1) else (k, i2)
  else (.int, inp)

/-- The number case of `get_tok`, pnut.c:2150-2208, with `SUPPORT_64_BIT_LITERALS` and
`PARSE_NUMERIC_LITERAL_SUFFIX` (the x86-64 backends). -/
def number64 (h : Heap) (inp : List Nat) : Res (Heap × Kind × Int × List Nat) :=
  let scanned : Res (U64 × List Nat) :=
    match inp with
    | 48 :: inp1 =>
      match inp1 with
      | 120 :: inp2 | 88 :: inp2 =>
        if curDigit inp2 ≥ 16 then .fatal else .ok (loop64 16 ⟨0, 0⟩ inp2)
      | _ => .ok (loop64 8 ⟨0, 0⟩ inp1)
    | _ => .ok (loop64 10 ⟨0, 0⟩ inp)
  scanned.bind fun (v, r) =>
    (toObj h v).bind fun (h', obj) => let (k, r') := suffix r; .ok (h', k, obj, r')

end Verif.Lit
