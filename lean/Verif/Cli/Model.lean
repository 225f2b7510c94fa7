import Verif.Inc.Model
/-! Model of pnut's command line: `main` (pnut.c:4000-4118) up to the point where the source is read, `handle_macro_D` (pnut.c:3954-3997), and the tables it starts from:
`init_ident_table`, `init_builtin_*_macro` and `init_pnut_macros` (pnut.c:1590-1726). Reading the source and compiling it is any program over the include stack (`Verif.Inc.Prog`). -/
namespace Verif.Cli
open Verif Verif.Inc

abbrev Name := List Nat

/-- The token list of an object-like macro: `[(INTEGER, -n)]`, `[(STRING, s)]` or none (pnut.c:1679-1696). -/
inductive Val where
  | int (n : Nat)
  | str (s : List Nat)
  | empty
  deriving DecidableEq, Repr

/-- The kind of token of a name: `heap[i+2]`, with `heap[i+3]` for a macro. -/
inductive Entry where
  | ident
  | keyword
  | macro (v : Val)
  deriving DecidableEq, Repr

/-- The symbol table; a name that has not occurred yet becomes an identifier when it does (`end_ident`, pnut.c:630-680). The limit on the total length of names (`string_pool`) is not modelled. -/
abbrev Tab := Name → Entry

/-- The four configurations of `init_pnut_macros`. -/
inductive Target where
  | sh | i386 | x64 | mac
  deriving DecidableEq, Repr

/-- `init_ident` (pnut.c:1590-1594), with the macro's value where there is one. -/
def Tab.set (tab : Tab) (n : Name) (e : Entry) : Tab := fun m => if m = n then e else tab m

/-- The keywords that `init_ident_table` enters (pnut.c:1605-1637). -/
def keywordInits : List Name :=
  [[97, 117, 116, 111],
   [98, 114, 101, 97, 107],
   [99, 97, 115, 101],
   [99, 104, 97, 114],
   [99, 111, 110, 115, 116],
   [99, 111, 110, 116, 105, 110, 117, 101],
   [100, 101, 102, 97, 117, 108, 116],
   [100, 111],
   [100, 111, 117, 98, 108, 101],
   [101, 108, 115, 101],
   [101, 110, 117, 109],
   [101, 120, 116, 101, 114, 110],
   [102, 108, 111, 97, 116],
   [102, 111, 114],
   [103, 111, 116, 111],
   [105, 102],
   [105, 110, 108, 105, 110, 101],
   [105, 110, 116],
   [108, 111, 110, 103],
   [114, 101, 103, 105, 115, 116, 101, 114],
   [114, 101, 116, 117, 114, 110],
   [115, 104, 111, 114, 116],
   [115, 105, 103, 110, 101, 100],
   [115, 105, 122, 101, 111, 102],
   [115, 116, 97, 116, 105, 99],
   [115, 116, 114, 117, 99, 116],
   [115, 119, 105, 116, 99, 104],
   [116, 121, 112, 101, 100, 101, 102],
   [117, 110, 105, 111, 110],
   [117, 110, 115, 105, 103, 110, 101, 100],
   [118, 111, 105, 100],
   [118, 111, 108, 97, 116, 105, 108, 101],
   [119, 104, 105, 108, 101]]

/-- The identifiers that `init_ident_table` enters (pnut.c:1641-1675); the order of the entries is irrelevant to the table. -/
def identInits : List Name :=
  [[105, 102, 100, 101, 102],
   [105, 102, 110, 100, 101, 102],
   [101, 108, 105, 102],
   [101, 110, 100, 105, 102],
   [100, 101, 102, 105, 110, 101],
   [119, 97, 114, 110, 105, 110, 103],
   [101, 114, 114, 111, 114],
   [117, 110, 100, 101, 102],
   [105, 110, 99, 108, 117, 100, 101],
   [100, 101, 102, 105, 110, 101, 100],
   [105, 110, 99, 108, 117, 100, 101, 95, 115, 104, 101, 108, 108],
   [97, 114, 103, 118],
   [97, 114, 103, 118, 95],
   [73, 70, 83],
   [109, 97, 105, 110],
   [112, 117, 116, 99, 104, 97, 114],
   [103, 101, 116, 99, 104, 97, 114],
   [101, 120, 105, 116],
   [109, 97, 108, 108, 111, 99],
   [102, 114, 101, 101],
   [112, 114, 105, 110, 116, 102],
   [102, 111, 112, 101, 110],
   [102, 99, 108, 111, 115, 101],
   [102, 103, 101, 116, 99],
   [112, 117, 116, 115, 116, 114],
   [112, 117, 116, 115],
   [114, 101, 97, 100],
   [119, 114, 105, 116, 101],
   [111, 112, 101, 110],
   [99, 108, 111, 115, 101],
   [78, 79, 84, 95, 83, 85, 80, 80, 79, 82, 84, 69, 68]]

/-- The macros that `init_pnut_macros` defines for every target (pnut.c:1699-1705). -/
def commonInits : List (Name × Val) :=
  [([80, 78, 85, 84, 95, 67, 67], .int 1),
   ([95, 95, 68, 65, 84, 69, 95, 95], .str [74, 97, 110, 32, 32, 49, 32, 49, 57, 55, 48]),
   ([95, 95, 84, 73, 77, 69, 95, 95], .str [48, 48, 58, 48, 48, 58, 48, 48]),
   ([95, 95, 84, 73, 77, 69, 83, 84, 65, 77, 80, 95, 95], .str [74, 97, 110, 32, 32, 49, 32, 49, 57, 55, 48, 32, 48, 48, 58, 48, 48, 58, 48, 48]),
   ([95, 95, 70, 73, 76, 69, 95, 95], .str [60, 117, 110, 107, 110, 111, 119, 110, 62]),
   ([95, 95, 76, 73, 78, 69, 95, 95], .int 0)]

/-- The macros that `init_pnut_macros` defines for one target (pnut.c:1707-1723). -/
def targetInits : Target → List (Name × Val)
  | .sh => [([80, 78, 85, 84, 95, 83, 72], .int 1)]
  | .i386 => [([80, 78, 85, 84, 95, 69, 88, 69], .int 1), ([80, 78, 85, 84, 95, 69, 88, 69, 95, 51, 50], .int 1), ([80, 78, 85, 84, 95, 73, 51, 56, 54], .int 1), ([80, 78, 85, 84, 95, 73, 51, 56, 54, 95, 76, 73, 78, 85, 88], .int 1)]
  | .x64 => [([80, 78, 85, 84, 95, 69, 88, 69], .int 1), ([80, 78, 85, 84, 95, 69, 88, 69, 95, 54, 52], .int 1), ([80, 78, 85, 84, 95, 88, 56, 54, 95, 54, 52], .int 1), ([80, 78, 85, 84, 95, 88, 56, 54, 95, 54, 52, 95, 76, 73, 78, 85, 88], .int 1)]
  | .mac => [([80, 78, 85, 84, 95, 69, 88, 69], .int 1), ([80, 78, 85, 84, 95, 69, 88, 69, 95, 54, 52], .int 1), ([80, 78, 85, 84, 95, 88, 56, 54, 95, 54, 52], .int 1), ([80, 78, 85, 84, 95, 88, 56, 54, 95, 54, 52, 95, 77, 65, 67], .int 1)]

/-- The table that `init_ident_table` empties (pnut.c:1600-1603). -/
def noTab : Tab := fun _ => .ident

/-- Several `init_ident` in turn (pnut.c:1590-1594). -/
def Tab.sets (tab : Tab) : List (Name × Entry) → Tab
  | [] => tab
  | (n, e) :: r => (tab.set n e).sets r

/-- `init_ident_table` (pnut.c:1596-1677) followed by `init_pnut_macros` (pnut.c:1698-1726). -/
def initTab (t : Target) : Tab :=
  (((noTab.sets (keywordInits.map fun n => (n, .keyword))).sets (identInits.map fun n => (n, .ident))).sets
    (commonInits.map fun p => (p.1, .macro p.2))).sets ((targetInits t).map fun p => (p.1, .macro p.2))

/-- The first loop of `handle_macro_D` (pnut.c:3959): the name and what follows it, from the `=` on. -/
def splitEq : List Nat → List Nat × List Nat
  | [] => ([], [])
  | c :: r => if c = 61 then ([], c :: r) else ((c :: (splitEq r).1), (splitEq r).2)

/-- The loop over a string literal (pnut.c:3970-3971): up to the next quote. -/
def untilQuote : List Nat → Option (List Nat)
  | [] => none
  | c :: r => if c = 34 then some [] else (untilQuote r).map (c :: ·)

/-- The loop over an integer (pnut.c:3979-3983); `int` overflow is undefined. The result is `acc` and the rest. -/
def decimal : Nat → List Nat → Res (Nat × List Nat)
  | acc, [] => .ok (acc, [])
  | acc, c :: r =>
    if 48 ≤ c ∧ c ≤ 57 then
      if 2147483647 < acc * 10 + (c - 48) then .ub else decimal (acc * 10 + (c - 48)) r
    else .ok (acc, c :: r)

/-- `handle_macro_D` (pnut.c:3954-3997): the macro that is defined. -/
def handle_macro_D (opt : List Nat) : Res (Name × Val) :=
  match (splitEq opt).2 with
  | [] => .ok ((splitEq opt).1, .int 1)
  | _ :: [] => .ok ((splitEq opt).1, .empty)
  | _ :: c :: r =>
    if c = 34 then
      match untilQuote r with
      | none => .fatal
      | some s => .ok ((splitEq opt).1, .str s)
    else if 48 ≤ c ∧ c ≤ 57 then
      (decimal 0 (c :: r)).bind fun (acc, rest) => if rest ≠ [] then .fatal else .ok ((splitEq opt).1, .int acc)
    else .fatal

/-- What the options change: the symbol table, `include_search_path`, the file of `output_fd`, the files (`-o` empties one) and the include stack. -/
structure St where
  tab : Tab
  search : Option Path
  out : Option Path
  fs : FS
  inc : Inc.St

/-- `argv[i] + 2`, or `argv[i + 1]` when that is empty; and whether `i` was increased. `none`: `argv[argc]`, the null pointer. -/
def operand : Path → Option Path → Option (Path × Bool)
  | [], some b => some (b, true)
  | [], none => none
  | c :: r, _ => some (c :: r, false)

/-- `open(f, O_WRONLY | O_CREAT | O_TRUNC)` (pnut.c:4024-4027): the file is emptied, also for those who have opened it already (nothing has been read yet). It is assumed to succeed; pnut does not check it.
Different paths are taken to be different files. -/
def openOut (f : Path) (st : St) : St :=
  { st with
    out := some f
    fs := fun p => if p = f then some [] else st.fs p
    inc := { st.inc with stack := st.inc.stack.map fun (fr : Frame) => if fr.filepath = f then { fr with rest := [] } else fr } }

/-- The `switch` in `main` (pnut.c:4014-4066) at the letter `c`, `opnd` being what follows it and `next` the next argument; and whether `i` was increased. -/
def flag (sh : Bool) (c : Nat) (opnd : Path) (next : Option Path) (st : St) : Res (St × Bool) :=
  if c = 111 ∧ sh = false then
    match operand opnd next with
    | none => .ub
    | some (f, used) => .ok (openOut f st, used)
  else if c = 68 ∧ sh = false then
    match operand opnd next with
    | none => .ub
    | some (s, used) => (handle_macro_D s).bind fun (n, v) => .ok ({ st with tab := st.tab.set n (.macro v) }, used)
  else if c = 68 then .ok ({ st with tab := st.tab.set opnd (.macro (.int 1)) }, false)
  else if c = 85 then
    match operand opnd next with
    | none => .ub
    | some (n, used) => .ok ({ st with tab := st.tab.set n .ident }, used)
  else if c = 73 then
    if st.search ≠ none then .fatal
    else
      match operand opnd next with
      | none => .ok (st, true)
      | some (d, used) => .ok ({ st with search := some d }, used)
  else .fatal

/-- One turn of the option loop (pnut.c:4012-4070) at the argument `a`, `next` being the following one. Arguments contain no 0 (that of `-` alone is the terminator). -/
def option (sh : Bool) (a : Path) (next : Option Path) (st : St) : Res (St × Bool) :=
  match a with
  | [45] => .fatal
  | 45 :: c :: opnd => flag sh c opnd next st
  | f => (include_file st.fs f none st.inc).bind fun inc => .ok ({ st with inc := inc }, false)

/-- The loop over the arguments (pnut.c:4012-4070). -/
def options (sh : Bool) : List Path → St → Res St
  | [], st => .ok st
  | [a], st => (option sh a none st).bind fun (st, _) => .ok st
  | a :: b :: rest, st => (option sh a (some b) st).bind fun (st, used) => if used then options sh rest st else options sh (b :: rest) st

/-- The state before the loop. -/
def start (t : Target) (fs : FS) : St := ⟨initTab t, none, none, fs, ⟨[], [], 1, 0⟩⟩

/-- `main` (pnut.c:4000-4118): `body` is the rest of the compiler, which reads characters and includes files, and may use the symbol table, the search path and the output. -/
def main {α : Type} (t : Target) (fs : FS) (args : List Path) (body : Tab → Option Path → Option Path → Prog α) : Res α :=
  (options (t == .sh) args (start t fs)).bind fun st =>
    if st.inc.stack = [] then .fatal else run st.fs (body st.tab st.search st.out) st.inc

end Verif.Cli
