import Verif.Lex.Tok
import Verif.Base
/-! Model of macro definition and expansion: `handle_define` and `read_macro_tokens` (pnut.c:1185-1272), `macro_parse_argument` …
`paste_tokens` (pnut.c:1728-2020) and the parts of `get_tok` that replay tokens (pnut.c:2043-2094) and start an expansion (pnut.c:2125-2146).

The file is the list of its tokens (see `Verif.Lex`), where `newline` stands for white space with a newline in it; it contains no directives, so that the
macros do not change during the expansion.  An identifier is its name; its kind `heap[val + 2]` is `MACRO` when the table has an entry.  `__FILE__` and
`__LINE__` (pnut.c:1886-1894) are not modelled. -/
namespace Verif.Macro
open Verif Verif.Lex

abbrev Name := List Nat

/-- A token to replay: a token or `MACRO_ARG` with the number of a parameter. -/
inductive BTok where
  | tok (t : Tok)
  | arg (ix : Nat)
  deriving DecidableEq, Repr

/-- `heap[macro + 3]`: the tokens, and the number of arguments or -1 (`none`). -/
structure Macro where
  body : List BTok
  argc : Option Nat
  deriving DecidableEq, Repr

abbrev Table := Name → Option Macro

/-! ## Definitions -/

/-- `lookup_macro_token` (pnut.c:1185-1201). `args` are the parameters in reverse order. Parameters are not keywords. -/
def lookup_macro_token (args : List Name) (t : Tok) : BTok :=
  match t with
  | .ident x => if x ∈ args then .arg (args.idxOf x) else .tok t
  | t => .tok t

/-- The tokens up to the end of the line. -/
def line : List Tok → List Tok
  | [] => []
  | .newline :: _ => []
  | t :: r => t :: line r

/-- `read_macro_tokens` (pnut.c:1203-1226). -/
def read_macro_tokens (args : List Name) (toks : List Tok) : Res (List BTok) :=
  let b := (line toks).map (lookup_macro_token args)
  if b.head? = some (.tok (.op .hashHash)) ∨ b.getLast? = some (.tok (.op .hashHash)) then .fatal else .ok b

/-- The parameter loop of `handle_define` (pnut.c:1249-1264): the parameters in reverse order and the tokens behind `)`.  The name is taken from `val` after the next
token has been read; it is still the name of the parameter when that token is `,` or `)`, otherwise the list is malformed. -/
def params : List Tok → List Name → Res (List Name × List Tok)
  | .op (.ch 44) :: r, args => params r args
  | .op (.ch 41) :: r, args => .ok (args, r)
  | .ident x :: .op (.ch 44) :: r, args => params r (x :: args)
  | .ident x :: .op (.ch 41) :: r, args => .ok (x :: args, r)
  | [], args => .ok (args, [])
  | .newline :: r, args => .ok (args, .newline :: r)
  | _, _ => .ub

/-- `handle_define` (pnut.c:1232-1272), after the name: `paren` tells whether the character behind the name is `(`, in which case it is the first token. -/
def handle_define (paren : Bool) (toks : List Tok) : Res Macro :=
  if paren then (params toks.tail []).bind fun (args, r) => (read_macro_tokens args r).bind fun b => .ok ⟨b, some args.length⟩
  else (read_macro_tokens [] toks).bind fun b => .ok ⟨b, none⟩

/-! ## Expansion -/

/-- `macro_tok_lst`, `macro_args` (reversed) and `macro_ident` (pnut.c:706-708). -/
structure Frame where
  toks : List BTok
  args : List (List BTok)
  ident : Option Name
  deriving DecidableEq, Repr

/-- The file, the current frame, `macro_stack` (the top first), `paste_last_token` and `expand_macro_arg`. -/
structure St where
  input : List Tok
  cur : Frame
  stack : List Frame
  paste : Bool
  argExp : Bool
  deriving DecidableEq, Repr

/-- `get_tok`, given `expand_macro` and `skip_newlines`. -/
abbrev GT := Bool → Bool → St → Res (BTok × St)

/-- `macro_is_already_expanding` (pnut.c:1848-1860). -/
def already (m : Name) (st : St) : Bool :=
  match st.cur.ident with
  | none => false
  | some c => c == m || st.stack.any fun f => f.ident == some m

/-- `begin_macro_expansion` (pnut.c:1826-1839). -/
def begin_exp (id : Option Name) (toks : List BTok) (args : List (List BTok)) (st : St) : Res St :=
  if 3 * st.stack.length + 3 ≥ 180 then .fatal else .ok { st with cur := ⟨toks, args, id⟩, stack := st.cur :: st.stack }

/-- `return_to_parent_macro` (pnut.c:1815-1822). -/
def ret_parent (st : St) : Res St :=
  match st.stack with
  | [] => .fatal
  | f :: r => .ok { st with cur := f, stack := r }

/-- `get_macro_arg` (pnut.c:1803-1811). -/
def get_macro_arg (ix : Nat) (st : St) : Res (List BTok) :=
  match st.cur.args[ix]? with
  | some a => .ok a
  | none => if ix = st.cur.args.length then .ub else .fatal

/-- `macro_parse_argument` (pnut.c:1732-1752): `t` is the current token; the argument, the token behind it. -/
def parse_arg (gt : GT) (skip : Bool) : Nat → Nat → BTok → List BTok → St → Res (List BTok × BTok × St)
  | 0, _, _, _, _ => .diverge
  | n + 1, d, t, acc, st =>
    if (0 < d ∨ (t ≠ .tok (.op (.ch 44)) ∧ t ≠ .tok (.op (.ch 41)))) ∧ t ≠ .tok .eof then
      (gt false skip st).bind fun (t', st') =>
        parse_arg gt skip n (if t = .tok (.op (.ch 40)) then d + 1 else if t = .tok (.op (.ch 41)) then d - 1 else d) t' (acc ++ [t]) st'
    else .ok (acc, t, st)

/-- The loop of `get_macro_args_toks` (pnut.c:1774-1790) and what follows it. -/
def macro_args (gt : GT) (skip : Bool) : Nat → Bool → BTok → List (List BTok) → St → Res (List (List BTok) × St)
  | 0, _, _, _, _ => .diverge
  | n + 1, prev, t, args, st =>
    if t = .tok (.op (.ch 41)) then .ok (if prev then [] :: args else args, st)
    else if t = .tok .eof then .fatal
    else if t = .tok (.op (.ch 44)) then
      (gt false skip st).bind fun (t', st') => macro_args gt skip n true t' (if prev then [] :: args else args) st'
    else (parse_arg gt skip n 0 t [] st).bind fun (a, t', st') => macro_args gt skip n false t' (a :: args) st'

/-- `get_macro_args_toks` (pnut.c:1768-1801), called when the current token is `(`, and `check_macro_arity` (pnut.c:1754-1763). -/
def get_macro_args_toks (gt : GT) (skip : Bool) (n : Nat) (argc : Nat) (st : St) : Res (List (List BTok) × St) :=
  (gt false skip st).bind fun (t, st) => (macro_args gt skip n false t [] st).bind fun (args, st) =>
    if args.length = argc then .ok (args, st) else .fatal

/-- `attempt_macro_expansion` (pnut.c:1875-1905): `none` when the macro is expanded, otherwise the token.  `undo_token` (pnut.c:1864-1868) is the last
line. -/
def attempt (gt : GT) (n : Nat) (em skip : Bool) (m : Name) (mac : Macro) (st : St) : Res (Option BTok × St) :=
  if already m st then .ok (some (.tok (.ident m)), st)
  else match mac.argc with
    | none => (begin_exp (some m) mac.body [] st).bind fun st => .ok (none, st)
    | some k => (gt em skip st).bind fun (t, st) =>
      if t = .tok (.op (.ch 40)) then
        (get_macro_args_toks gt skip n k st).bind fun (args, st) => (begin_exp (some m) mac.body args st).bind fun st => .ok (none, st)
      else (begin_exp none [t] [] st).bind fun st => .ok (some (.tok (.ident m)), st)

/-- `accum_string_integer` (pnut.c:613-627) of a nonnegative number. -/
def decF : Nat → Nat → List Nat
  | 0, _ => []
  | f + 1, n => (if 9 < n then decF f (n / 10) else []) ++ [48 + n % 10]
def dec (n : Nat) : List Nat := decF (n + 1) n

/-- The value of an integer token that can be pasted (integers are stored negated, and large ones are positive). -/
def small (v : Int) : Res Nat := if 0 < v then .fatal else if v ≤ -2147483648 then .ub else .ok (-v).toNat

/-- The loop of `paste_integers` (pnut.c:1935-1938). -/
def shiftF : Nat → Nat → Nat → Nat
  | 0, l, _ => l
  | f + 1, l, r => if 0 < r then shiftF f (l * 10) (r / 10) else l

/-- `paste_integers` (pnut.c:1929-1940). -/
def paste_integers (l r : Nat) : Res Nat :=
  if shiftF (r + 1) l r + r < 2147483648 then .ok (shiftF (r + 1) l r + r) else .ub

/-- Tokens with a code up to `WHILE_KW` that are no keywords: they are taken for keywords, with a meaningless value. -/
def lowCode : BTok → Bool
  | .tok (.op (.ch _)) => true
  | .tok .newline => true
  | .tok .eof => true
  | _ => false

/-- The second half of `paste_tokens` (pnut.c:1961-2019). -/
def paste_vals : BTok → BTok → Res BTok
  | .tok (.ident a), .tok (.ident b) => .ok (.tok (.ident (a ++ b)))
  | .tok (.ident a), .tok (.int _ v) => (small v).bind fun v => .ok (.tok (.ident (a ++ dec v)))
  | .tok (.int _ v), .tok (.int k w) => (small v).bind fun v => (small w).bind fun w =>
      (paste_integers v w).bind fun r => .ok (.tok (.int k (-(r : Int))))
  | .tok (.int _ v), .tok (.ident b) => (small v).bind fun v => .ok (.tok (.ident (dec v ++ b)))
  | l, r => if lowCode l || lowCode r then .ub else .fatal

/-- `paste_tokens` (pnut.c:1943-2020). -/
def paste_tokens (gt : GT) (l : BTok) (st : St) : Res (BTok × St) :=
  (gt false false { st with argExp := false }).bind fun (t, st) =>
    let st := { st with argExp := true }
    match t with
    | .arg i => (get_macro_arg i st).bind fun a =>
      if a = [] then .ok (l, st)
      else (begin_exp none a [] st).bind fun st => (gt false false st).bind fun (r, st) =>
        (paste_vals l r).bind fun v => .ok (v, st)
    | .tok r => (paste_vals l (.tok r)).bind fun v => .ok (v, st)

/-- The name `NOT_SUPPORTED` (pnut.c:1922). -/
def notSupported : List Nat := [78, 79, 84, 95, 83, 85, 80, 80, 79, 82, 84, 69, 68]

/-- `stringify` (pnut.c:1908-1925). -/
def stringify (gt : GT) (st : St) : Res (BTok × St) :=
  (gt false false { st with argExp := false }).bind fun (t, st) =>
    let st := { st with argExp := true }
    match t with
    | .arg i => (get_macro_arg i st).bind fun a =>
      match a with
      | [] => .ub
      | [.tok (.ident x)] => .ok (.tok (.str x), st)
      | _ => .ok (.tok (.str notSupported), st)
    | .tok _ => .fatal

/-- Is the token a macro or a macro argument? -/
def isMacro (D : Table) : BTok → Bool
  | .tok (.ident m) => (D m).isSome
  | .arg _ => true
  | _ => false

/-- Token pasting in `get_tok` (pnut.c:2057-2079), the token has been removed from the list. -/
def paste_step (D : Table) (gt : GT) (t : BTok) (st : St) : Res (BTok × St) :=
  match st.cur.toks with
  | [] => if st.paste then (ret_parent st).bind fun st => paste_tokens gt t { st with paste := false } else .ok (t, st)
  | h :: r =>
    if h = .tok (.op .hashHash) then
      let st := { st with cur := { st.cur with toks := r } }
      if isMacro D t then .ok (t, { st with paste := true }) else paste_tokens gt t st
    else .ok (t, st)

/-- An identifier that is a macro (pnut.c:2081-2085, 2131-2142): `gt` continues the loop. -/
def expand_ident (D : Table) (gt : GT) (n : Nat) (em skip : Bool) (m : Name) (st : St) : Res (BTok × St) :=
  match D m with
  | none => .ok (.tok (.ident m), st)
  | some mac => (attempt gt n em skip m mac st).bind fun (o, st) =>
    match o with
    | none => gt em skip st
    | some t => .ok (t, st)

/-- Replaying a token (pnut.c:2081-2093), after pasting. -/
def replay (D : Table) (gt : GT) (n : Nat) (em skip : Bool) (t : BTok) (st : St) : Res (BTok × St) :=
  match t with
  | .tok (.ident m) => expand_ident D gt n em skip m st
  | .arg i => if st.argExp then (get_macro_arg i st).bind fun a => (begin_exp none a [] st).bind fun st => gt em skip st else .ok (t, st)
  | .tok (.op (.ch 35)) => stringify gt st
  | t => .ok (t, st)

/-- `get_tok` (pnut.c:2022-2476). `n` bounds the number of iterations and the depth of the recursion. -/
def get_tok (D : Table) : Nat → GT
  | 0, _, _, _ => .diverge
  | n + 1, em, skip, st =>
    match st.cur.toks with
    | t :: r => (paste_step D (get_tok D n) t { st with cur := { st.cur with toks := r } }).bind fun (t, st) =>
        replay D (get_tok D n) n em skip t st
    | [] =>
      match st.stack with
      | f :: r => get_tok D n em skip { st with cur := f, stack := r }
      | [] =>
        match st.input with
        | [] => .ok (.tok .eof, st)
        | t :: r =>
          match t with
          | .newline => if skip then get_tok D n em skip { st with input := r } else .ok (.tok .newline, { st with input := r })
          | .ident m => if em then expand_ident D (get_tok D n) n em skip m { st with input := r }
            else .ok (.tok t, { st with input := r })
          | t => .ok (.tok t, { st with input := r })

/-- The state at the start of a file. -/
def start (src : List Tok) : St := ⟨src, ⟨[], [], none⟩, [], false, true⟩

/-- The tokens that the parser gets. -/
def expandF (D : Table) : Nat → St → Res (List Tok)
  | 0, _ => .diverge
  | n + 1, st => (get_tok D n true true st).bind fun (t, st) =>
    match t with
    | .arg _ => .fatal
    | .tok .eof => .ok []
    | .tok t => (expandF D n st).bind fun ts => .ok (t :: ts)

/-- The token stream of a file: the result of any sufficiently long run. -/
def Expands (D : Table) (src : List Tok) (r : Res (List Tok)) : Prop := ∃ N, ∀ n, N ≤ n → expandF D n (start src) = r

end Verif.Macro
