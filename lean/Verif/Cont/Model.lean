import Verif.Front.Props
/-! Model of `get_ch` with `SUPPORT_LINE_CONTINUATION` (pnut.c:794-862): the reading of characters of one file, with `INCLUDE_LINE_NUMBER_ON_ERROR`.
Simplification: one file (what happens at the end of an included one is in C20). -/
namespace Verif.Cont
open Verif

/-- `line_continutation_prev_char` (pnut.c:800): -2 is `none`, EOF is `some none`; the rest of the file; `line_number` and `column_number` (pnut.c:143-146). -/
structure S where
  saved : Option (Option Nat)
  rest : List Nat
  line : Nat
  col : Nat
  deriving DecidableEq, Repr

/-- The start. -/
def start (file : List Nat) : S := ⟨none, file, 1, 0⟩

/-- `get_ch_` (pnut.c:827-862): the character read, `none` is EOF. -/
def get_ch_ (s : S) : Option Nat × S :=
  match s.rest with
  | [] => (none, s)
  | c :: r => if c = 10 then (some c, { s with rest := r, line := s.line + 1, col := 0 }) else (some c, { s with rest := r, col := s.col + 1 })

/-- The loop of `get_ch` (pnut.c:803-819); each round but the last one takes two characters of the file. -/
def loop : Nat → S → Res (Option Nat × S)
  | 0, _ => .diverge
  | n + 1, s =>
    let (c, s1) := get_ch_ s
    if c = some 92 then
      let (d, s2) := get_ch_ s1
      if d = some 10 then loop n s2 else .ok (some 92, { s2 with saved := some d })
    else .ok (c, s1)

/-- `get_ch` (pnut.c:801-825). -/
def get_ch (s : S) : Res (Option Nat × S) :=
  match s.saved with
  | none => loop (s.rest.length + 1) s
  | some c => .ok (c, { s with saved := none })

/-- Calls of `get_ch` up to the end of the file: the characters that the rest of the program sees. -/
def streamF : Nat → S → Res (List Nat)
  | 0, _ => .diverge
  | n + 1, s => (get_ch s).bind fun (c, s) => match c with
    | none => .ok []
    | some c => (streamF n s).bind fun cs => .ok (c :: cs)

def stream (file : List Nat) : Res (List Nat) := streamF (file.length + 2) (start file)

/-- `n` calls of `get_ch`: the last character and the state. -/
def calls : Nat → S → Res (Option Nat × S)
  | 0, s => .ok (some 10, s)
  | n + 1, s => (calls n s).bind fun (_, s) => get_ch s

/-- The lexical analysis of a file (C21), by way of `get_ch`. -/
def tokens (sh : Bool) (file : List Nat) : Res (List Lex.Tok) := (stream file).bind fun cs => Lex.tokens sh cs

/-- The front end of C52, by way of `get_ch`. -/
def front (sh : Bool) (t : Cli.Target) (more : Nat → List Intern.Op) (file : List Nat) : Res (Option (PStmt.St × List PStmt.Tok)) :=
  (stream file).bind fun cs => Front.front sh t more cs

end Verif.Cont
