import Verif.RtPrintf.Layout
/-! C's `printf` (C99 7.19.6.1) for the conversions `d i o u x X c s %`. -/
namespace Verif.RtPrintf

/-- A width or a precision: absent, digits, or `*`. -/
inductive Num where
  | no
  | lit (ds : List Nat)
  | star
  deriving DecidableEq, Repr

/-- A conversion specification; `dot` tells whether there is a `.`, `longs` counts the length modifiers
`l`. -/
structure Spec where
  flags : List Nat
  width : Num
  dot : Bool
  prec : Num
  longs : Nat
  ch : Nat
  deriving DecidableEq, Repr

/-- Reading a `*` or digits. -/
def parseNum (t : List Nat) : Num × List Nat :=
  match t with
  | 42 :: t' => (.star, t')
  | _ => if t.takeWhile isDigit = [] then (.no, t) else (.lit (t.takeWhile isDigit), t.dropWhile isDigit)

/-- Reading the precision. -/
def parsePrec (t : List Nat) : Bool × Num × List Nat :=
  match t with
  | 46 :: t' => (true, parseNum t')
  | _ => (false, .no, t)

/-- Reading what follows a `%`. -/
def parseSpec (t : List Nat) : Option (Spec × List Nat) :=
  let w := parseNum (t.dropWhile isFlag)
  let p := parsePrec w.2
  match p.2.2.dropWhile (· = 108) with
  | [] => none
  | c :: r => some (⟨t.takeWhile isFlag, w.1, p.1, p.2.1, (p.2.2.takeWhile (· = 108)).length, c⟩, r)

/-- An argument of the call: an integer or (a pointer to) a string. -/
inductive Arg where
  | int (v : Int)
  | str (s : List Nat)
  deriving DecidableEq, Repr

/-- The width: a negative argument for `*` is a `-` flag and a width. -/
def cWidth (fl : Flags) (w : Num) (args : List Arg) : Option (Flags × Nat × List Arg) :=
  match w with
  | .no => some (fl, 0, args)
  | .lit ds => some (fl, decVal ds, args)
  | .star =>
    match args with
    | .int v :: r => if v < 0 then some ({ fl with minus := true }, v.natAbs, r) else some (fl, v.natAbs, r)
    | _ => none

/-- The precision: `.` alone is 0, a negative argument for `*` is as no precision. -/
def cPrec (dot : Bool) (p : Num) (args : List Arg) : Option (Option Nat × List Arg) :=
  match dot, p with
  | false, _ => some (none, args)
  | true, .no => some (some 0, args)
  | true, .lit ds => some (some (decVal ds), args)
  | true, .star =>
    match args with
    | .int v :: r => if v < 0 then some (none, r) else some (some v.natAbs, r)
    | _ => none

/-- The number of bits of an `int`, or of a `long` or `long long`. -/
def bits (longs : Nat) : Nat := if longs = 0 then 32 else 64

/-- One conversion, of an argument: `none` where C gives no meaning (a `#` for `d i u`, flags other than
`-` for `c` and `s`, a precision for `c`, an argument of another type, other conversions). -/
def cConv (fl : Flags) (w : Nat) (p : Option Nat) (longs ch : Nat) (a : Arg) : Option (List Nat) :=
  match a with
  | .int v =>
    if longs > 2 then none
    else if isSigned ch then
      if fl.alt = false ∧ - 2 ^ (bits longs - 1) ≤ v ∧ v < 2 ^ (bits longs - 1) then
        some (layInt fl w p ch (decide (v < 0)) v.natAbs)
      else none
    else if isUnsigned ch then
      if fl.alt ∧ ch = 117 then none else some (layInt fl w p ch false (v % 2 ^ bits longs).toNat)
    else if ch = 99 ∧ longs = 0 ∧ p = none ∧ fl.plus = false ∧ fl.space = false ∧ fl.alt = false ∧ fl.zero = false then
      some (field fl false w [] [(v % 256).toNat])
    else none
  | .str s =>
    if ch = 115 ∧ longs = 0 ∧ fl.plus = false ∧ fl.space = false ∧ fl.alt = false ∧ fl.zero = false then
      some (layStr fl w p s)
    else none

/-- A conversion specification: its text and the arguments that remain. -/
def cSpec (sp : Spec) (args : List Arg) : Option (List Nat × List Arg) :=
  (cWidth (Flags.of sp.flags) sp.width args).bind fun w =>
    (cPrec sp.dot sp.prec w.2.2).bind fun p =>
      match p.2 with
      | [] => none
      | a :: rest => (cConv w.1 w.2.1 p.1 sp.longs sp.ch a).bind fun o => some (o, rest)

/-- C's `printf`: what is printed, and the arguments not used. `none`: undefined behaviour or a
conversion not described here. -/
def cPrintf : Nat → List Nat → List Arg → Option (List Nat × List Arg)
  | 0, _, _ => none
  | _ + 1, [], args => some ([], args)
  | n + 1, c :: t, args =>
    if c ≠ 37 then (cPrintf n t args).bind fun r => some (c :: r.1, r.2)
    else if t.head? = some 37 then (cPrintf n t.tail args).bind fun r => some (37 :: r.1, r.2)
    else
      (parseSpec t).bind fun q =>
        (cSpec q.1 args).bind fun x =>
          (cPrintf n q.2 x.2).bind fun r => some (x.1 ++ r.1, r.2)

/-- The output of C's `printf(fmt, args…)`. -/
def cOutput (fmt : List Nat) (args : List Arg) : Option (List Nat) :=
  (cPrintf (fmt.length + 1) fmt args).map (·.1)

end Verif.RtPrintf
