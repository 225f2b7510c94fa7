import Verif.Base
/-! Model of the translation of statements to shell commands (sh.c:1809-2183, 2192-2290).

Simplifications.  A simple statement (expression, assignment, call, declaration with initialiser) is a
list of numbers, one for each simple command line that its translation appends (possibly none); the
same numbers stand for the effect of these parts in C.  Conditions and `switch` operands are numbers as
well.  (The translation of expressions is the subject of C11 and C37.)  The end-of-loop lines that
`comp_loop` appends, undoes and replays later (C24) are kept as a list in the loop's binding.  Text and
indentation of the lines are dropped. -/
namespace Verif.Stmt
open Verif

mutual
/-- Statements, as `parse_statement` (pnut.c:3754-3889) builds them. -/
inductive St where
  /-- `;` or `{}` (node 0) -/
  | empty
  | act (ls : List Nat)
  | ite (c : Nat) (a b : St)
  | while_ (c : Nat) (s : St)
  | do_ (s : St) (c : Nat)
  | for_ (init : List Nat) (c : Option Nat) (step : List Nat) (s : St)
  /-- `switch (e) { … }` -/
  | switch (e : Nat) (b : Sts)
  /-- `switch (e) s` with another statement than a block -/
  | switch1 (e : Nat) (s : St)
  | break_
  | continue_
  | ret (ls : List Nat)
  | block (b : Sts)
  | label (s : St)
  | goto
  | case_ (v : Int) (s : St)
  | default_ (s : St)
/-- Chains of `{` nodes. -/
inductive Sts where
  | nil
  | cons (s : St) (r : Sts)
end

def St.isIte : St → Bool
  | .ite .. => true
  | _ => false

def St.isEmpty : St → Bool
  | .empty => true
  | .block .nil => true
  | _ => false

def St.isCase : St → Bool
  | .case_ .. => true
  | _ => false

def Sts.isNil : Sts → Bool
  | .nil => true
  | _ => false

/-- Patterns of a `case` command: a number or `*`. -/
inductive Pat where
  | num (v : Int)
  | star
  deriving DecidableEq, Repr

/-- Generated lines. -/
inductive Line where
  | simple (a : Nat)
  /-- `:` -/
  | colon
  /-- `# label:` -/
  | comment
  /-- `let v1; let v2; …` -/
  | save
  /-- `endlet $1 v2 v1 …` -/
  | restore
  /-- `return` -/
  | ret
  /-- `break n` -/
  | brk (n : Nat)
  | cont
  /-- `test || break` -/
  | orBreak (c : Nat)
  | ifL (c : Nat)
  | elifL (c : Nat)
  | elseL
  | fi
  /-- `while test; do`; `none` is `while :; do` -/
  | whileL (c : Option Nat)
  | done
  | caseL (e : Nat)
  | pat (ps : List Pat)
  | dsemi
  | esac
  deriving DecidableEq, Repr

/-- `BINDING_LOOP` with the end-of-loop lines, `BINDING_SWITCH` with the tail-position flag
(env.c:136-153); other bindings play no role here. -/
inductive Bind where
  | loop (endl : List Nat)
  | sw (tail : Bool)

/-- `cgc_lookup_enclosing_loop` (env.c:70-72). -/
def lookup_loop : List Bind → Option (List Nat)
  | [] => none
  | .loop l :: _ => some l
  | .sw _ :: r => lookup_loop r

/-- `cgc_loop_depth` (env.c:108-116). -/
def loop_depth : List Bind → Nat
  | [] => 0
  | .loop _ :: r => loop_depth r + 1
  | .sw _ :: r => loop_depth r

/-- `any_active_glo_decls` (sh.c:412-418): a `restore` line is still an empty fixup at that time. -/
def any_active (ls : List Line) : Bool := ls.any fun l => l != .restore && l != .save

/-- `comp_break` (sh.c:2020-2027). -/
def comp_break : List Bind → Res (List Line)
  | [] => .fatal
  | .loop _ :: _ => .ok [.brk 1]
  | .sw _ :: _ => .ok []

/-- `comp_continue` (sh.c:2029-2036). -/
def comp_continue (env : List Bind) : Res (List Line) :=
  match lookup_loop env with
  | none => .fatal
  | some l => .ok (l.map .simple ++ [.cont])

/-- The flag of the binding found by `cgc_lookup_enclosing_loop_or_switch` (env.c:78-86) if it is a
`switch` (sh.c:2058-2060). -/
def switch_tail : List Bind → Bool
  | .sw t :: _ => t
  | _ => false

/-- `comp_return` (sh.c:2038-2081), second part: the control flow.  Returns `in_tail_position`. -/
def comp_return (env : List Bind) (tail : Bool) : Bool × List Line :=
  let tail := tail || switch_tail env
  match env with
  | [] => if tail then (tail, []) else (tail, [.restore, .ret])
  | _ :: _ =>
    if tail then
      if loop_depth env ≥ 2 then (tail, [.brk (loop_depth env)])
      else if loop_depth env = 1 then (tail, [.brk 1])
      else (tail, [])
    else (tail, [.restore, .ret])

/-- The lines of a block with the `:` that replaces an empty one (sh.c:1949, 1960, 2011). -/
def fill (ls : List Line) : List Line := if any_active ls then ls else ls ++ [.colon]

/-- The lines of the `else` branch `b` of an `if` (sh.c:1952-1963), compiled to `l`. -/
def elsePart (b : St) (l : List Line) : List Line :=
  if b.isEmpty then [] else if b.isIte then l else .elseL :: fill l

/-- The last part of `comp_if` (sh.c:1929-1973): `early` is `STMT_CTX_SWITCH`. -/
def if_end (inSwitch t1 t2 : Bool) : Res Bool :=
  if inSwitch && (t1 != t2) then .fatal else .ok (t1 && t2)

/-- Results: "always returns", `in_tail_position`, the appended lines. -/
abbrev Out := Res (Bool × Bool × List Line)

/-- The lines of a loop (sh.c:2003-2014): `always` is the result for the body, `last` the last line. -/
def comp_loop (c : Option Nat) (colonCond : Bool) (last : List Line) (step : List Nat) (body : Out) : Out :=
  body.bind fun (always, tail, ls) =>
  .ok (colonCond && always, tail,
    .whileL c :: fill (ls ++ last ++ step.map .simple) ++ [.done])

/-- The pattern line of a conditional block: `pre` holds the labels met by `make_switch_pattern`
(sh.c:1833-1858), `none` outside of it. -/
def withPat : Option (List Pat) → Out → Out
  | none, o => o
  | some [], _ => .fatal
  | some ps, o => o.bind fun (t, tail, ls) => .ok (t, tail, .pat ps :: ls)

mutual
/-- `comp_statement` (sh.c:2113-2190), and with `pre = some _` `make_switch_pattern` (sh.c:1833-1858)
followed by the compilation of the statement it leaves in `last_stmt`.  `elseIf` and `inSwitch` are the
bits of `stmt_ctx`, `tail` is `in_tail_position`. -/
def comp_statement : St → (pre : Option (List Pat)) → (elseIf inSwitch : Bool) → List Bind → (tail : Bool) → Out
  | .empty, pre, _, _, _, tail => withPat pre <| .ok (false, tail, [])
  | .act ls, pre, _, _, _, tail => withPat pre <| .ok (false, tail, ls.map .simple)
  -- `comp_if` (sh.c:1929-1973)
  | .ite c a b, pre, elseIf, inSwitch, env, tail => withPat pre <|
    (comp_statement a none false inSwitch env tail).bind fun (t1, tail, l1) =>
    (comp_statement b none b.isIte inSwitch env tail).bind fun (t2, tail, l2) =>
    (if_end inSwitch t1 t2).bind fun t =>
    .ok (t, tail, (if elseIf then .elifL c else .ifL c) :: fill l1 ++ elsePart b l2 ++ (if elseIf then [] else [.fi]))
  -- `comp_loop` (sh.c:1979-2018)
  | .while_ c s, pre, _, inSwitch, env, tail => withPat pre <|
    comp_loop (some c) false [] [] (comp_statement s none false inSwitch (.loop [] :: env) tail)
  | .do_ s c, pre, _, inSwitch, env, tail => withPat pre <|
    comp_loop none false [.orBreak c] [] (comp_statement s none false inSwitch (.loop [] :: env) tail)
  | .for_ init c step s, pre, _, inSwitch, env, tail => withPat pre <|
    (comp_loop c c.isNone [] step (comp_statement s none false inSwitch (.loop step :: env) tail)).bind fun (t, tail, ls) =>
    .ok (t, tail, init.map .simple ++ ls)
  -- `comp_switch` (sh.c:1860-1927)
  | .switch e b, pre, _, _, env, tail => withPat pre <|
    if b.isNil then .fatal
    else (comp_switch_body b false (.sw tail :: env) tail).bind fun (_, tail, ls) =>
    .ok (false, tail, .caseL e :: ls ++ [.esac])
  | .switch1 e s, pre, _, _, env, tail => withPat pre <|
    if s.isCase then
      (comp_statement s (some []) false true (.sw tail :: env) false).bind fun (_, tail, ls) =>
      .ok (false, tail, .caseL e :: ls ++ [.dsemi, .esac])
    else .fatal
  | .break_, pre, _, _, env, tail => withPat pre <| (comp_break env).bind fun ls => .ok (true, tail, ls)
  | .continue_, pre, _, _, env, tail => withPat pre <| (comp_continue env).bind fun ls => .ok (false, tail, ls)
  | .ret ls, pre, _, _, env, tail => withPat pre <|
    .ok (true, (comp_return env tail).1, ls.map .simple ++ (comp_return env tail).2)
  -- `comp_body` (sh.c:1809-1824); node 0 is the empty statement
  | .block b, pre, _, inSwitch, env, tail => withPat pre <|
    if b.isNil then .ok (false, tail, []) else comp_body b inSwitch env tail false
  | .label s, pre, elseIf, inSwitch, env, tail => withPat pre <|
    (comp_statement s none elseIf inSwitch env tail).bind fun (t, tail, ls) => .ok (t, tail, .comment :: ls)
  | .goto, _, _, _, _, _ => .fatal
  | .case_ v s, pre, elseIf, inSwitch, env, tail =>
    match pre with
    | none => .fatal
    | some ps => comp_statement s (some (ps ++ [.num v])) elseIf inSwitch env tail
  | .default_ s, pre, elseIf, inSwitch, env, tail =>
    match pre with
    | none => .fatal
    | some _ => comp_statement s (some [.star]) elseIf inSwitch env tail

/-- The loop of `comp_body` (sh.c:1809-1824): `start` is `start_in_tail_position`. -/
def comp_body : Sts → (inSwitch : Bool) → List Bind → (start tail : Bool) → Out
  | .nil, _, _, _, tail => .ok (false, tail, [])
  | .cons s r, inSwitch, env, start, tail =>
    (comp_statement s none false inSwitch env (if r.isNil then start else tail)).bind fun (t, tail, ls) =>
    if t then .ok (true, tail, ls)
    else (comp_body r inSwitch env start tail).bind fun (t, tail, ls') => .ok (t, tail, ls ++ ls')

/-- The two nested loops of `comp_switch` (sh.c:1860-1927): `inCase` tells which of them is running. -/
def comp_switch_body : Sts → (inCase : Bool) → List Bind → (tail : Bool) → Out
  | .nil, inCase, _, tail => .ok (false, tail, if inCase then [.dsemi] else [])
  | .cons s r, inCase, env, tail =>
    (comp_statement s (if inCase then none else some []) false true env (inCase && tail)).bind fun (t, tail, ls) =>
    (comp_switch_body r (!t) env tail).bind fun (_, tail, ls') =>
    .ok (false, tail, ls ++ (if t then [.dsemi] else []) ++ ls')
end

/-- `comp_glo_fun_decl` (sh.c:2192-2283), the lines between `f() {` and `}`.  `locals` tells whether the
function has variables to save; `params` are the lines that initialise the parameters (empty with
`SH_INITIALIZE_PARAMS_WITH_LET`). -/
def comp_glo_fun_decl (locals : Bool) (params : List Nat) (body : St) : Res (List Line) :=
  (match body with
   | .block b => comp_body b false [] true false
   | _ => .fatal : Out).bind fun (_, _, ls) =>
  let ls := (if locals then [.save] else []) ++ params.map .simple ++ ls ++ (if locals then [.restore] else [])
  .ok (if ls.any fun l => l != .restore && l != .save || locals then ls else ls ++ [.colon])

end Verif.Stmt
