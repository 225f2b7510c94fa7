import Verif.ShPrintf.Model
import Verif.ShStr.Spec
import Verif.ShIO.Spec
/-! C's `printf` (C99 7.19.6.1) and the `printf` utility of the shell (POSIX XCU printf), on formats of
bytes.  How an integer or a padded string is laid out for given flags, width and precision is a
parameter, the same for both. -/
namespace Verif.ShPrintf
open Verif

/-- A width or a precision: absent, digits, or `*`. -/
inductive Num where
  | no
  | lit (ds : List Nat)
  | star
  deriving DecidableEq, Repr

/-- A conversion specification. `dot` tells whether there is a `.`. -/
structure Spec where
  flags : List Nat
  width : Num
  dot : Bool
  prec : Num
  longs : Nat
  ch : Nat
  deriving DecidableEq, Repr

def isFlagChar (c : Nat) : Bool := c = 32 ∨ c = 35 ∨ c = 43 ∨ c = 45 ∨ c = 48
def isDigit (c : Nat) : Bool := 48 ≤ c ∧ c ≤ 57

/-- Reading a `*` or digits. -/
def parseNum (t : List Nat) : Num × List Nat :=
  match t with
  | 42 :: t' => (.star, t')
  | _ => if t.takeWhile isDigit = [] then (.no, t) else (.lit (t.takeWhile isDigit), t.dropWhile isDigit)

/-- Reading the precision. -/
def parsePrec (t : List Nat) : Bool × Num × List Nat :=
  match t with
  | 46 :: t' => (true, parseNum t')
  | _ => (false, .no, t)

/-- Reading what follows a `%`. -/
def parseSpec (t : List Nat) : Option (Spec × List Nat) :=
  let fl := t.takeWhile isFlagChar
  let w := parseNum (t.dropWhile isFlagChar)
  let p := parsePrec w.2
  let ls := p.2.2.takeWhile (· = 108)
  match p.2.2.dropWhile (· = 108) with
  | [] => none
  | c :: r => some (⟨fl, w.1, p.1, p.2.1, ls.length, c⟩, r)

/-- Number of arguments taken by the `*`s. -/
def Spec.stars (s : Spec) : Nat := (if s.width = .star then 1 else 0) + (if s.prec = .star then 1 else 0)

/-- Conversions to integers. -/
def intCh (c : Nat) : Bool := c = 100 ∨ c = 105 ∨ c = 111 ∨ c = 117 ∨ c = 120 ∨ c = 88

/-- How values are laid out: an integer for a specification and the values of its `*`s; likewise a
string, which is left as it is without width and precision. -/
structure Lay where
  int : Spec → List Int → Int → List Nat
  str : Spec → List Int → List Nat → List Nat
  plain : ∀ s x, s.width = .no → s.dot = false → str s [] x = x

/-- C's `printf`: the output, or `none` if the behaviour is undefined or not described here (`%c` with a
width, other conversions). -/
def cPrintf (L : Lay) : Nat → List Nat → List Arg → Option (List Nat)
  | 0, _, _ => none
  | _ + 1, [], _ => some []
  | n + 1, c :: t, args =>
    if c = 37 then
      match t with
      | 37 :: t' => (cPrintf L n t' args).map (37 :: ·)
      | _ =>
        match parseSpec t with
        | none => none
        | some (sp, r) =>
          match args.drop sp.stars with
          | [] => none
          | a :: rest =>
            let out : Option (List Nat) :=
              if intCh sp.ch then some (L.int sp ((args.take sp.stars).map Arg.val) a.val)
              else if sp.longs ≠ 0 then none
              else if sp.ch = 99 then (if sp.width = .no ∧ sp.dot = false then some [(a.val % 256).toNat] else none)
              else if sp.ch = 115 then some (L.str sp ((args.take sp.stars).map Arg.val) a.str)
              else none
            match out with
            | none => none
            | some o => (cPrintf L n r rest).map (o ++ ·)
    else (cPrintf L n t args).map (c :: ·)

/-- C's `printf(fmt, args…)`. -/
def cOut (L : Lay) (fmt : List Nat) (args : List Arg) : Option (List Nat) := cPrintf L (fmt.length + 1) fmt args

/-! ### The shell -/

/-- A word given to the `printf` utility. -/
inductive Word where
  | num (v : Int)
  | text (s : List Nat)
  deriving DecidableEq, Repr

def Word.int : Word → Int
  | .num v => v
  | .text _ => 0
def Word.bytes : Word → List Nat
  | .num v => ShIO.decimal v
  | .text s => s

/-- The byte of `\c` in a format; octal escapes (`\d`) are not described here. -/
def escByte (c : Nat) : Option Nat :=
  if c = 97 then some 7 else if c = 98 then some 8 else if c = 102 then some 12 else if c = 110 then some 10
  else if c = 114 then some 13 else if c = 116 then some 9 else if c = 118 then some 11
  else if c = 92 then some 92 else none

/-- One pass of the `printf` utility over its format: output and words left; missing words count as 0 or
the empty string. -/
def shPass (L : Lay) : Nat → List Nat → List Word → Option (List Nat × List Word)
  | 0, _, _ => none
  | _ + 1, [], ws => some ([], ws)
  | n + 1, c :: t, ws =>
    if c = 92 then
      match t with
      | [] => none
      | e :: t' =>
        match escByte e with
        | none => none
        | some b => (shPass L n t' ws).map fun p => (b :: p.1, p.2)
    else if c = 37 then
      match t with
      | 37 :: t' => (shPass L n t' ws).map fun p => (37 :: p.1, p.2)
      | _ =>
        match parseSpec t with
        | none => none
        | some (sp, r) =>
          let st := (ws.take sp.stars).map Word.int
          let a := (ws.drop sp.stars).headD (.text [])
          if intCh sp.ch then
            (shPass L n r (ws.drop (sp.stars + 1))).map fun p => (L.int sp st a.int ++ p.1, p.2)
          else if sp.ch = 115 ∧ sp.longs = 0 then
            (shPass L n r (ws.drop (sp.stars + 1))).map fun p => (L.str sp st a.bytes ++ p.1, p.2)
          else none
    else (shPass L n t ws).map fun p => (c :: p.1, p.2)

/-- The `printf` utility: the format is reused as long as words remain, unless a pass takes none. -/
def shPrintf (L : Lay) : Nat → List Nat → List Word → Option (List Nat)
  | 0, _, _ => none
  | n + 1, fmt, ws =>
    match shPass L (fmt.length + 1) fmt ws with
    | none => none
    | some (o, ws') =>
      if ws' = [] ∨ ws'.length = ws.length then some o else (shPrintf L n fmt ws').map (o ++ ·)

/-- Command substitution removes the newlines at the end. -/
def chomp (s : List Nat) : List Nat := (s.reverse.dropWhile (· = 10)).reverse

/-- The word an argument gives. -/
def W.word : W → Word
  | .val a => .num a.val
  | .sub a => .text (chomp a.str)

/-- Output of a generated command.  The text between double quotes must be a literal, and without `--` it
must not look like an option. -/
def Cmd.out (L : Lay) : Cmd → Option (List Nat)
  | .printf dashes text args =>
    match ShStr.Spec.dquoted (text ++ [34]) with
    | some (fmt, []) =>
      if dashes = false ∧ fmt.head? = some 45 ∧ fmt ≠ [45] then none
      else shPrintf L (args.length + 1) fmt (args.map W.word)
    | _ => none
  | .octal a => ShIO.printfOut (ShIO.octalWord a.val)
  | .pstr a => some a.str

/-- Output of a list of commands. -/
def outs (L : Lay) : List Cmd → Option (List Nat)
  | [] => some []
  | c :: cs => (c.out L).bind fun o => (outs L cs).map (o ++ ·)

/-! ### What the partial theorem assumes of the format -/

/-- The specifications of a format, each with the argument it converts. -/
def uses : Nat → List Nat → List Arg → List (Spec × Arg)
  | 0, _, _ => []
  | _ + 1, [], _ => []
  | n + 1, c :: t, args =>
    if c = 37 then
      match t with
      | 37 :: t' => uses n t' args
      | _ =>
        match parseSpec t with
        | none => []
        | some (sp, r) =>
          match args.drop sp.stars with
          | [] => []
          | a :: rest => (sp, a) :: uses n r rest
    else uses n t args

/-- A conversion that is expanded correctly: `%c` of a byte, and for `%s` with a width or a precision, a
string that does not end with a newline and a precision that is not a lone `.`. -/
def GoodUse (u : Spec × Arg) : Prop :=
  (u.1.ch = 99 → 0 ≤ u.2.val ∧ u.2.val < 256) ∧
  (u.1.ch = 115 → u.1.width ≠ .no ∨ u.1.dot = true → chomp u.2.str = u.2.str) ∧
  (u.1.ch = 115 → u.1.width = .no → u.1.dot = true → u.1.prec ≠ .no)

/-- No `%s` without width and precision comes after an integer (or a padded string) unless a `%c` stands between them. -/
def NoStale : Bool → List Spec → Prop
  | _, [] => True
  | pend, s :: ss =>
    if s.ch = 99 then NoStale false ss
    else if s.ch = 115 ∧ s.width = .no ∧ s.dot = false then pend = false ∧ NoStale false ss
    else NoStale true ss

end Verif.ShPrintf
