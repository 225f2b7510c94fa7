import Verif.Base
/-! Model of portable_libc/src/string.c, of malloc, strtol and atoi in stdlib.c, and of ctype.c.

Memory is an array of bytes (values 0..255) indexed by addresses, address 0 being NULL.  A `char` is
signed or unsigned according to `sg`.  Loops over a string have a fuel argument, `diverge` when it is
exhausted.  Sizes are natural numbers: the wrap-around of `size_t` is modelled in `malloc` only. -/
namespace Verif.Libc
open Verif

abbrev Mem := Nat → Nat

/-- The value of a `char` with byte `b`. -/
def chr (sg : Bool) (b : Nat) : Int := if sg ∧ 128 ≤ b then (b : Int) - 256 else b

/-- `memset` (string.c:3-14); `*s = c` stores the low byte of `c`. -/
def memset (m : Mem) (s : Nat) (c : Int) : Nat → Mem
  | 0 => m
  | n + 1 => memset (upd m s (c % 256).toNat) (s + 1) c n

/-- `memcpy` (string.c:16-29). -/
def memcpy (m : Mem) (d s : Nat) : Nat → Mem
  | 0 => m
  | n + 1 => memcpy (upd m d (m s)) (d + 1) (s + 1) n

/-- The second loop of `memmove` (string.c:44-47). -/
def copy_down (m : Mem) (d s : Nat) : Nat → Mem
  | 0 => m
  | n + 1 => copy_down (upd m (d + n) (m (s + n))) d s n

/-- `memmove` (string.c:31-51). -/
def memmove (m : Mem) (d s n : Nat) : Mem := if d < s then memcpy m d s n else copy_down m d s n

/-- `memcmp` (string.c:53-65); `x & 255` of a `char` is its byte. -/
def memcmp (sg : Bool) (m : Mem) (l r : Nat) : Nat → Int
  | 0 => 0
  | n + 1 => if chr sg (m l) = chr sg (m r) then memcmp sg m (l + 1) (r + 1) n else (m l : Int) - m r

/-- The loop of `strlen` (string.c:67-74). -/
def str_end (m : Mem) : Nat → Nat → Res Nat
  | 0, _ => .diverge
  | fuel + 1, e => if m e ≠ 0 then str_end m fuel (e + 1) else .ok e

/-- `strlen` (string.c:67-74). -/
def strlen (m : Mem) (fuel s : Nat) : Res Nat := (str_end m fuel s).bind fun e => .ok (e - s)

/-- `strcpy` (string.c:76-87): the memory after it (the result is `dest`). -/
def strcpy (m : Mem) : Nat → Nat → Nat → Res Mem
  | 0, _, _ => .diverge
  | fuel + 1, d, s =>
    let m' := upd m d (m s)
    if m' d ≠ 0 then strcpy m' fuel (d + 1) (s + 1) else .ok m'

/-- `strcat` (string.c:89-92). -/
def strcat (m : Mem) (fuel dest src : Nat) : Res Mem :=
  (strlen m fuel dest).bind fun n => strcpy m fuel (dest + n) src

/-- `strchr` (string.c:94-102). -/
def strchr (sg : Bool) (m : Mem) : Nat → Nat → Int → Res Nat
  | 0, _, _ => .diverge
  | fuel + 1, s, c =>
    if m s ≠ 0 then if chr sg (m s) = c then .ok s else strchr sg m fuel (s + 1) c
    else .ok (if c = 0 then s else 0)

/-- `strrchr` (string.c:104-114), `result` being the value of that variable. -/
def strrchr (sg : Bool) (m : Mem) : Nat → Nat → Int → Nat → Res Nat
  | 0, _, _, _ => .diverge
  | fuel + 1, s, c, result =>
    if m s ≠ 0 then strrchr sg m fuel (s + 1) c (if chr sg (m s) = c then s else result)
    else .ok (if c = 0 then s else result)

/-- `strcmp` (string.c:116-124). -/
def strcmp (sg : Bool) (m : Mem) : Nat → Nat → Nat → Res Int
  | 0, _, _ => .diverge
  | fuel + 1, l, r =>
    if chr sg (m l) = chr sg (m r) ∧ m l ≠ 0 then strcmp sg m fuel (l + 1) (r + 1)
    else .ok ((m l : Int) - m r)

/-- `HEAP_SIZE` of the libc (stdlib.c:3). -/
def HEAP_SIZE : Nat := 1000000

/-- `malloc` (stdlib.c:8-13), with `size_t` of `bits` bits: the result as an offset in `_heap` and the
new `_heap_alloc` (an `int`; the conversion back from `size_t` keeps the value modulo `2^32`). -/
def malloc (bits : Nat) (heap_alloc : Int) (size : Nat) : Option Int × Int :=
  if (heap_alloc + size) % 2 ^ bits > HEAP_SIZE then (none, heap_alloc)
  else (some heap_alloc, Int.bmod ((heap_alloc + size) % 2 ^ bits) (2 ^ 32))

/-- `while (*probe && *probe <= ' ') probe++;` (stdlib.c:45). -/
def skip_spaces (sg : Bool) (m : Mem) : Nat → Nat → Res Nat
  | 0, _ => .diverge
  | fuel + 1, p => if chr sg (m p) ≠ 0 ∧ chr sg (m p) ≤ 32 then skip_spaces sg m fuel (p + 1) else .ok p

/-- The value of a digit (stdlib.c:66-74). -/
def digit (d : Int) : Int :=
  if d ≥ 48 ∧ d ≤ 57 then d - 48 else if d ≥ 65 ∧ d ≤ 90 then d - 65 + 10
  else if d ≥ 97 ∧ d ≤ 122 then d - 97 + 10 else 99

/-- The digit loop (stdlib.c:64-78): `probe` is not advanced. The state is `n` and `nb_digits`. -/
def digits (sg : Bool) (m : Mem) (p : Nat) (base : Int) : Nat → Int → Int → Res (Int × Int)
  | 0, _, _ => .diverge
  | fuel + 1, n, nb =>
    let d := digit (chr sg (m p))
    if d ≥ base then .ok (n, nb) else digits sg m p base fuel (n * base - d) (nb + 1)

/-- The prefix `0`, `0x` (stdlib.c:51-62): new probe, digit count and base. -/
def base_prefix (m : Mem) (p : Nat) (base : Int) : Nat × Int × Int :=
  if m p = 48 then
    if base = 0 ∨ base = 16 then
      if m (p + 1) = 120 then (p + 2, 0, 16) else if base = 0 then (p + 1, 1, 8) else (p + 1, 1, base)
    else (p + 1, 1, base)
  else (p, 0, base)

/-- `strtol` (stdlib.c:37-90): the result and `*endptr`. -/
def strtol (sg : Bool) (m : Mem) (fuel str : Nat) (base : Int) : Res (Int × Nat) :=
  (skip_spaces sg m fuel str).bind fun p =>
  let neg := m p = 45
  let p := if neg ∨ m p = 43 then p + 1 else p
  let (p, nb, base) := base_prefix m p base
  (digits sg m p base fuel 0 nb).bind fun (n, nb) =>
  .ok (if neg then n else -n, if nb = 0 then str else p)

/-- ctype.c:3-5. -/
def isdigit (c : Int) : Bool := c ≥ 48 && c ≤ 57
/-- ctype.c:7-9. -/
def isxdigit (c : Int) : Bool := isdigit c || (c ≥ 97 && c ≤ 102) || (c ≥ 65 && c ≤ 70)
/-- ctype.c:23-25. -/
def islower (c : Int) : Bool := c ≥ 97 && c ≤ 122
/-- ctype.c:27-29. -/
def isupper (c : Int) : Bool := c ≥ 65 && c ≤ 90
/-- ctype.c:31-33 (`|` of two truth values). -/
def isalpha (c : Int) : Bool := islower c || isupper c
/-- ctype.c:35-37. -/
def isalnum (c : Int) : Bool := isdigit c || isalpha c
/-- ctype.c:39-43. -/
def tolower (c : Int) : Int := if isupper c then c + (97 - 65) else c
/-- ctype.c:45-49. -/
def toupper (c : Int) : Int := if islower c then c + (65 - 97) else c
/-- ctype.c:55-57. -/
def iscntrl (c : Int) : Bool := c ≥ 0 && c < 32
/-- ctype.c:59-61. -/
def isgraph (c : Int) : Bool := c > 32 && c < 127
/-- ctype.c:63-65. -/
def isprint (c : Int) : Bool := c ≥ 32 && c < 127
/-- ctype.c:67-69. -/
def isspace (c : Int) : Bool :=
  if c > 32 then false else c == 32 || c == 10 || c == 9 || c == 11 || c == 12 || c == 13
/-- ctype.c:71-73. -/
def ispunct (c : Int) : Bool := isprint c && !isspace c && !isalnum c
/-- ctype.c:51-53. -/
def isascii (c : Int) : Bool := c ≥ 0 && c ≤ 127
/-- `isnumber` (ctype.c:11-21). -/
def isnumber (c base : Int) : Bool :=
  if c ≥ 48 then
    if base = 2 then c ≤ 49 else if base = 8 then c ≤ 55 else if base = 10 then c ≤ 57 else isxdigit c
  else isxdigit c

/-- `realloc` (stdlib.c:18-20): the result (0: the null pointer) and `_heap_alloc`. -/
def realloc (heap_alloc : Int) (_ptr : Nat) (_size : Nat) : Nat × Int := (0, heap_alloc)

end Verif.Libc
