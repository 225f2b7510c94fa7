import Verif.Cli.Model
import Verif.Inc.Spec
/-! Specification of pnut's command line. -/
namespace Verif.Cli.Spec
open Verif Verif.Inc

/-- An option: `-D`, `-U`, `-I`, `-o`, or a source file. -/
inductive Opt where
  | define (n : Name) (v : Val)
  | undef (n : Name)
  | search (d : Path)
  | output (f : Path)
  | file (f : Path)

/-- The value of a string of decimal digits. -/
inductive Decimal : List Nat → Nat → Prop
  | one {d} : d ≤ 9 → Decimal [48 + d] d
  | more {s n d} : Decimal s n → d ≤ 9 → Decimal (s ++ [48 + d]) (10 * n + d)

/-- What stands behind `-D`: `name` is the integer 1, `name=` no token, `name=n` with a decimal constant of C (no leading 0, except for 0 itself) that fits in an `int`, `name="s"` with a string literal without escape
sequences. The name contains no `=`. -/
inductive DefText : List Nat → Name → Val → Prop
  | one {n} : 61 ∉ n → n ≠ [] → DefText n n (.int 1)
  | empty {n} : 61 ∉ n → n ≠ [] → DefText (n ++ [61]) n .empty
  | int {n s k} : 61 ∉ n → n ≠ [] → Decimal s k → (s.head? = some 48 → s = [48]) → k < 2 ^ 31 → DefText (n ++ 61 :: s) n (.int k)
  | str {n s} : 61 ∉ n → n ≠ [] → 34 ∉ s → 92 ∉ s → DefText (n ++ 61 :: 34 :: (s ++ [34])) n (.str s)

/-- An option and its operand are one argument, or two. -/
inductive Attach (letter : Nat) (s : List Nat) : List Path → Prop
  | one : s ≠ [] → Attach letter s [45 :: letter :: s]
  | two : Attach letter s [[45, letter], s]

/-- How an option is written on the command line of the native compilers. -/
inductive Written : Opt → List Path → Prop
  | define {s n v args} : DefText s n v → Attach 68 s args → Written (.define n v) args
  | undef {n args} : Attach 85 n args → Written (.undef n) args
  | search {d args} : Attach 73 d args → Written (.search d) args
  | output {f args} : Attach 111 f args → Written (.output f) args
  | file {f} : f.head? ≠ some 45 → Written (.file f) [f]

/-- How an option is written on the command line of `pnut-sh`: `-Dname` is the only form of `-D`, and there is no `-o`. -/
inductive WrittenSh : Opt → List Path → Prop
  | define {n} : 61 ∉ n → n ≠ [] → WrittenSh (.define n (.int 1)) [45 :: 68 :: n]
  | undef {n args} : Attach 85 n args → WrittenSh (.undef n) args
  | search {d args} : Attach 73 d args → WrittenSh (.search d) args
  | file {f} : f.head? ≠ some 45 → WrittenSh (.file f) [f]

/-- A command line. -/
inductive Line (written : Opt → List Path → Prop) : List Opt → List Path → Prop
  | nil : Line written [] []
  | cons {o os a as} : written o a → Line written os as → Line written (o :: os) (a ++ as)

/-- The command lines of a target. -/
def CmdLine (t : Target) (opts : List Opt) (args : List Path) : Prop := if t = .sh then Line WrittenSh opts args else Line Written opts args

def files : List Opt → List Path
  | [] => []
  | .file f :: r => f :: files r
  | _ :: r => files r

def searches : List Opt → List Path
  | [] => []
  | .search d :: r => d :: searches r
  | _ :: r => searches r

def outputs : List Opt → List Path
  | [] => []
  | .output f :: r => f :: outputs r
  | _ :: r => outputs r

/-- What an option says about a name. -/
def says (n : Name) : Opt → Option Entry
  | .define m v => if m = n then some (.macro v) else none
  | .undef m => if m = n then some .ident else none
  | _ => none

/-- The last option that says something about the name decides what it is; otherwise it is what it was. -/
def Means (base : Tab) (opts : List Opt) (n : Name) (e : Entry) : Prop :=
  (∃ a o b, opts = a ++ o :: b ∧ says n o = some e ∧ ∀ q ∈ b, says n q = none) ∨ ((∀ q ∈ opts, says n q = none) ∧ e = base n)

/-- The keywords of C89, and `inline`: auto break case char const continue default do double else enum extern float for goto if inline int long register return short signed sizeof static struct switch typedef union unsigned void volatile while. -/
def keywords : List Name :=
  [[97, 117, 116, 111],
   [98, 114, 101, 97, 107],
   [99, 97, 115, 101],
   [99, 104, 97, 114],
   [99, 111, 110, 115, 116],
   [99, 111, 110, 116, 105, 110, 117, 101],
   [100, 101, 102, 97, 117, 108, 116],
   [100, 111],
   [100, 111, 117, 98, 108, 101],
   [101, 108, 115, 101],
   [101, 110, 117, 109],
   [101, 120, 116, 101, 114, 110],
   [102, 108, 111, 97, 116],
   [102, 111, 114],
   [103, 111, 116, 111],
   [105, 102],
   [105, 110, 108, 105, 110, 101],
   [105, 110, 116],
   [108, 111, 110, 103],
   [114, 101, 103, 105, 115, 116, 101, 114],
   [114, 101, 116, 117, 114, 110],
   [115, 104, 111, 114, 116],
   [115, 105, 103, 110, 101, 100],
   [115, 105, 122, 101, 111, 102],
   [115, 116, 97, 116, 105, 99],
   [115, 116, 114, 117, 99, 116],
   [115, 119, 105, 116, 99, 104],
   [116, 121, 112, 101, 100, 101, 102],
   [117, 110, 105, 111, 110],
   [117, 110, 115, 105, 103, 110, 101, 100],
   [118, 111, 105, 100],
   [118, 111, 108, 97, 116, 105, 108, 101],
   [119, 104, 105, 108, 101]]

/-- The predefined macros: `PNUT_CC`, `__DATE__`, `__TIME__`, `__TIMESTAMP__` (constants), `__FILE__`, `__LINE__` (whose values here are never used) and those of the target. -/
def predefined : Target → List (Name × Val)
  | .sh =>
    [([80, 78, 85, 84, 95, 67, 67], .int 1),
     ([95, 95, 68, 65, 84, 69, 95, 95], .str [74, 97, 110, 32, 32, 49, 32, 49, 57, 55, 48]),
     ([95, 95, 84, 73, 77, 69, 95, 95], .str [48, 48, 58, 48, 48, 58, 48, 48]),
     ([95, 95, 84, 73, 77, 69, 83, 84, 65, 77, 80, 95, 95], .str [74, 97, 110, 32, 32, 49, 32, 49, 57, 55, 48, 32, 48, 48, 58, 48, 48, 58, 48, 48]),
     ([95, 95, 70, 73, 76, 69, 95, 95], .str [60, 117, 110, 107, 110, 111, 119, 110, 62]),
     ([95, 95, 76, 73, 78, 69, 95, 95], .int 0),
     ([80, 78, 85, 84, 95, 83, 72], .int 1)]
  | .i386 =>
    [([80, 78, 85, 84, 95, 67, 67], .int 1),
     ([95, 95, 68, 65, 84, 69, 95, 95], .str [74, 97, 110, 32, 32, 49, 32, 49, 57, 55, 48]),
     ([95, 95, 84, 73, 77, 69, 95, 95], .str [48, 48, 58, 48, 48, 58, 48, 48]),
     ([95, 95, 84, 73, 77, 69, 83, 84, 65, 77, 80, 95, 95], .str [74, 97, 110, 32, 32, 49, 32, 49, 57, 55, 48, 32, 48, 48, 58, 48, 48, 58, 48, 48]),
     ([95, 95, 70, 73, 76, 69, 95, 95], .str [60, 117, 110, 107, 110, 111, 119, 110, 62]),
     ([95, 95, 76, 73, 78, 69, 95, 95], .int 0),
     ([80, 78, 85, 84, 95, 69, 88, 69], .int 1),
     ([80, 78, 85, 84, 95, 69, 88, 69, 95, 51, 50], .int 1),
     ([80, 78, 85, 84, 95, 73, 51, 56, 54], .int 1),
     ([80, 78, 85, 84, 95, 73, 51, 56, 54, 95, 76, 73, 78, 85, 88], .int 1)]
  | .x64 =>
    [([80, 78, 85, 84, 95, 67, 67], .int 1),
     ([95, 95, 68, 65, 84, 69, 95, 95], .str [74, 97, 110, 32, 32, 49, 32, 49, 57, 55, 48]),
     ([95, 95, 84, 73, 77, 69, 95, 95], .str [48, 48, 58, 48, 48, 58, 48, 48]),
     ([95, 95, 84, 73, 77, 69, 83, 84, 65, 77, 80, 95, 95], .str [74, 97, 110, 32, 32, 49, 32, 49, 57, 55, 48, 32, 48, 48, 58, 48, 48, 58, 48, 48]),
     ([95, 95, 70, 73, 76, 69, 95, 95], .str [60, 117, 110, 107, 110, 111, 119, 110, 62]),
     ([95, 95, 76, 73, 78, 69, 95, 95], .int 0),
     ([80, 78, 85, 84, 95, 69, 88, 69], .int 1),
     ([80, 78, 85, 84, 95, 69, 88, 69, 95, 54, 52], .int 1),
     ([80, 78, 85, 84, 95, 88, 56, 54, 95, 54, 52], .int 1),
     ([80, 78, 85, 84, 95, 88, 56, 54, 95, 54, 52, 95, 76, 73, 78, 85, 88], .int 1)]
  | .mac =>
    [([80, 78, 85, 84, 95, 67, 67], .int 1),
     ([95, 95, 68, 65, 84, 69, 95, 95], .str [74, 97, 110, 32, 32, 49, 32, 49, 57, 55, 48]),
     ([95, 95, 84, 73, 77, 69, 95, 95], .str [48, 48, 58, 48, 48, 58, 48, 48]),
     ([95, 95, 84, 73, 77, 69, 83, 84, 65, 77, 80, 95, 95], .str [74, 97, 110, 32, 32, 49, 32, 49, 57, 55, 48, 32, 48, 48, 58, 48, 48, 58, 48, 48]),
     ([95, 95, 70, 73, 76, 69, 95, 95], .str [60, 117, 110, 107, 110, 111, 119, 110, 62]),
     ([95, 95, 76, 73, 78, 69, 95, 95], .int 0),
     ([80, 78, 85, 84, 95, 69, 88, 69], .int 1),
     ([80, 78, 85, 84, 95, 69, 88, 69, 95, 54, 52], .int 1),
     ([80, 78, 85, 84, 95, 88, 56, 54, 95, 54, 52], .int 1),
     ([80, 78, 85, 84, 95, 88, 56, 54, 95, 54, 52, 95, 77, 65, 67], .int 1)]

/-- The symbol table before the options are read. -/
def Initial (t : Target) (tab : Tab) : Prop :=
  (∀ n, tab n = .keyword ↔ n ∈ keywords) ∧ (∀ n v, tab n = .macro v ↔ (n, v) ∈ predefined t)

/-- The text of the source: the files from the last to the first, each but the first followed by a newline (that belongs to the file read next). -/
def joined (fs : FS) : List Path → List Inc.Spec.Ch
  | [] => []
  | [f] => Inc.Spec.annot f 1 ((fs f).getD [])
  | f :: g :: r => Inc.Spec.annot f 1 ((fs f).getD []) ++ (10, g, 1) :: joined fs (g :: r)

/-- The files after those in `outs` have been emptied. -/
def emptied (outs : List Path) (fs : FS) : FS := fun p => if p ∈ outs then some [] else fs p

/-- Arguments that are refused, behind some options that are accepted. -/
inductive Refused (t : Target) (fs : FS) (before : List Opt) : List Path → Prop
  | dash {rest} : Refused t fs before ([45] :: rest)
  | letter {c s rest} : c ∉ [68, 85, 73, 111] → Refused t fs before ((45 :: c :: s) :: rest)
  | output {s rest} : t = .sh → Refused t fs before ((45 :: 111 :: s) :: rest)
  | search {a rest} : searches before ≠ [] → Refused t fs before ((45 :: 73 :: a) :: rest)
  | file {f rest} : f.head? ≠ some 45 → f ∉ outputs before → fs f = none → Refused t fs before (f :: rest)
  /-- a value that is neither a number, nor a string, nor empty -/
  | value {n c s as rest} : t ≠ .sh → 61 ∉ n → c ≠ 34 → ¬ (48 ≤ c ∧ c ≤ 57) → Attach 68 (n ++ 61 :: c :: s) as → Refused t fs before (as ++ rest)
  /-- a number that is followed by something else -/
  | number {n s k c r as rest} : t ≠ .sh → 61 ∉ n → Decimal s k → k < 2 ^ 31 → ¬ (48 ≤ c ∧ c ≤ 57) → Attach 68 (n ++ 61 :: (s ++ c :: r)) as → Refused t fs before (as ++ rest)
  | unterminated {n s as rest} : t ≠ .sh → 61 ∉ n → 34 ∉ s → Attach 68 (n ++ 61 :: 34 :: s) as → Refused t fs before (as ++ rest)

/-- The paths that a reading program tries to open in a run. -/
def opened {α : Type} (fs : FS) : Prog α → Inc.St → List Path
  | .ret _, _ => []
  | .get k, st =>
    match get_ch st with
    | .ok (c, st) => opened fs (k c st.fp_filepath st.line_number) st
    | _ => []
  | .inc how name k, st =>
    match relative how st with
    | .ok rel =>
      source_path name rel ::
      match include_file fs name rel st with
      | .ok st => opened fs k st
      | _ => []
    | _ => []

/-- The paths that the compiler tries to open because of `#include`. -/
def included {α : Type} (t : Target) (fs : FS) (args : List Path) (body : Tab → Option Path → Option Path → Prog α) : List Path :=
  match options (t == .sh) args (start t fs) with
  | .ok st => opened st.fs (body st.tab st.search st.out) st.inc
  | _ => []

end Verif.Cli.Spec
