import Verif.Base
/-! Model of the hoisting of function calls (sh.c:895-1058, 1141-1158, 1385-1428, 1503-1515, 1727-1807, 2038-2051, 2142-2180).

Simplifications.  Identifiers, operators and functions are numbers.  `x++`-like operators are `opassign` (prefix) and `post` (postfix); `a[i]` is `*(a + i)` and `p->m` is `*(p + m)`; unary `+` is a pair of
parentheses (sh.c:1246-1248 treats them alike); string literals and `sizeof` are left out (they are constants here).  The texts of arithmetic expansions are kept as trees (their printing is C11). -/
namespace Verif.Hoist
open Verif

mutual
/-- Expressions (AST nodes) before and after `handle_side_effects`. -/
inductive Expr where
  | lit (v : Int)
  | var (x : Nat)
  /-- `IDENTIFIER_INTERNAL`: the temporary `__tk` -/
  | tmp (k : Nat)
  | un (o : Nat) (e : Expr)
  | deref (e : Expr)
  | paren (e : Expr)
  | cast (e : Expr)
  /-- `cmp`: a comparison -/
  | bin (cmp : Bool) (o : Nat) (a b : Expr)
  | comma (a b : Expr)
  | assign (l r : Expr)
  | opassign (o : Nat) (l r : Expr)
  | post (o : Nat) (l : Expr)
  | call (f : Nat) (args : Args)
  /-- `&&` (`isAnd`) and `||` with two children -/
  | logic (isAnd : Bool) (a b : Expr)
  /-- … with four children: the calls to make before each operand -/
  | logic4 (isAnd : Bool) (a b : Expr) (la lb : Calls)
  | cond (c a b : Expr)
inductive Args where
  | nil
  | cons (e : Expr) (r : Args)
/-- `replaced_fun_calls`, `conditional_fun_calls`: lists of `dest = f(args)`. -/
inductive Calls where
  | nil
  | cons (dest : Expr) (f : Nat) (args : Args) (r : Calls)
end

def Calls.append : Calls → Calls → Calls
  | .nil, b => b
  | .cons d f as r, b => .cons d f as (r.append b)

def Calls.isNil : Calls → Bool
  | .nil => true
  | _ => false

/-- `gensym_ix`, `replaced_fun_calls`, `conditional_fun_calls`, `contains_side_effects`. -/
structure St where
  g : Nat
  repl : Calls
  cond : Calls
  side : Bool

/-- sh.c:928-937: add a call to one of the two lists. -/
def push (flag : Bool) (d : Expr) (f : Nat) (as : Args) (st : St) : St :=
  if flag then { st with cond := st.cond.append (.cons d f as .nil) } else { st with repl := st.repl.append (.cons d f as .nil) }

mutual
/-- `handle_side_effects_go` (sh.c:947-1050) with `handle_fun_call_side_effect` (sh.c:902-941); `flag` is `executes_conditionally`. -/
def handle (flag : Bool) : Expr → St → Res (Expr × St)
  | .lit v, st => .ok (.lit v, st)
  | .var x, st => .ok (.var x, st)
  | .tmp k, st => .ok (.tmp k, st)
  | .un o e, st => (handle flag e st).bind fun (e, st) => .ok (.un o e, st)
  | .deref e, st => (handle flag e st).bind fun (e, st) => .ok (.deref e, st)
  | .paren e, st => (handle flag e st).bind fun (e, st) => .ok (.paren e, st)
  | .cast e, st => (handle flag e st).bind fun (e, st) => .ok (.cast e, st)
  | .bin c o a b, st => (handle flag a st).bind fun (a, st) => (handle flag b st).bind fun (b, st) => .ok (.bin c o a b, st)
  | .comma a b, st => (handle flag a st).bind fun (a, st) => (handle flag b st).bind fun (b, st) => .ok (.comma a b, st)
  | .assign l (.call f as), st =>
    let start := st.g
    (handleArgs flag as st).bind fun (as, st) => .ok (l, push flag l f as { st with g := start })
  | .assign l r, st => (handle flag l st).bind fun (l, st) => (handle flag r st).bind fun (r, st) => .ok (.assign l r, st)
  | .opassign o l r, st => (handle flag l { st with side := true }).bind fun (l, st) => (handle flag r st).bind fun (r, st) => .ok (.opassign o l r, st)
  | .post o l, st => (handle flag l { st with side := true }).bind fun (l, st) => .ok (.post o l, st)
  | .call f as, st =>
    -- fresh_ident, then `gensym_ix -= 1` while the arguments are handled
    let k := st.g + 1
    (handleArgs flag as st).bind fun (as, st) => .ok (.tmp k, push flag (.tmp k) f as { st with g := k })
  | .logic i a b, st =>
    let start := st.g
    let prev := st.cond
    (handle true a { st with cond := .nil }).bind fun (a, st) =>
      let la := st.cond
      (handle true b { st with g := start, cond := .nil }).bind fun (b, st) =>
        let lb := st.cond
        .ok (.logic4 i a b la lb, { st with g := start, cond := prev })
  | .cond c a b, st =>
    (handle true a { st with cond := .nil }).bind fun (a, st) =>
      let la := st.cond
      (handle true b { st with cond := .nil }).bind fun (b, st) =>
        if la.isNil && st.cond.isNil then (handle flag c st).bind fun (c, st) => .ok (.cond c a b, st) else .fatal
  | .logic4 .., _ => .fatal
def handleArgs (flag : Bool) : Args → St → Res (Args × St)
  | .nil, st => .ok (.nil, st)
  | .cons e r, st => (handle flag e st).bind fun (e, st) => (handleArgs flag r st).bind fun (r, st) => .ok (.cons e r, st)
end

/-! ## The generated commands -/

/-- Where a call puts its result. -/
inductive Dest where
  | none
  | tmp (k : Nat)
  | var (x : Nat)
  /-- the cell at the address that this expression gives -/
  | cell (e : Expr)

/-- The command `_f dest arg…`; the arguments are arithmetic expansions. -/
structure Line where
  dest : Dest
  f : Nat
  args : List Expr

/-- `comp_rvalue_go` accepts the expression outside of a test (sh.c:1370-1377). -/
def arithOk : Expr → Bool
  | .lit _ | .var _ | .tmp _ => true
  | .un _ e | .deref e | .paren e | .cast e | .post _ e => arithOk e
  | .bin _ _ a b | .comma a b | .assign a b | .opassign _ a b => arithOk a && arithOk b
  | .logic4 _ a b la lb => la.isNil && lb.isNil && arithOk a && arithOk b
  | .cond c a b => arithOk c && arithOk a && arithOk b
  | .logic .. | .call .. => false

/-- What `comp_rvalue` yields for a value: the commands it appends, the expression of the expansion, `gensym_ix`, `contains_side_effects`. -/
structure Rv where
  lines : List Line
  e : Expr
  g : Nat
  side : Bool

/-- `fun_call_params` (sh.c:1503-1515). -/
def compArgs (rv : Expr → Nat → Res Rv) : Args → Nat → Res (List Line × List Expr × Nat)
  | .nil, g => .ok ([], [], g)
  | .cons e r, g => (rv e g).bind fun p => (compArgs rv r p.g).bind fun (ls, es, g) => .ok (p.lines ++ ls, p.e :: es, g)

/-- `comp_lvalue` (sh.c:1476-1501) for the result of a call. -/
def compDest (rv : Expr → Nat → Res Rv) : Option Expr → Nat → Res (List Line × Dest × Nat)
  | none, g => .ok ([], .none, g)
  | some (.tmp k), g => .ok ([], .tmp k, g)
  | some (.var x), g => .ok ([], .var x, g)
  | some (.deref e), g => (rv e g).bind fun p => .ok (p.lines, .cell p.e, p.g)
  | some _, _ => .fatal

/-- `comp_fun_call_code` and `comp_fun_call` (sh.c:1727-1782). -/
def compCall (rv : Expr → Nat → Res Rv) (d : Option Expr) (f : Nat) (as : Args) (g : Nat) : Res (List Line × Nat) :=
  (compDest rv d g).bind fun (l1, d, g) => (compArgs rv as g).bind fun (l2, es, g) => .ok (l1 ++ l2 ++ [⟨d, f, es⟩], g)

/-- The loop over the hoisted calls (sh.c:1410-1414, 1145-1152). -/
def compCalls (rv : Expr → Nat → Res Rv) : Calls → Nat → Res (List Line × Nat)
  | .nil, g => .ok ([], g)
  | .cons d f as r, g => (compCall rv (some d) f as g).bind fun (l1, g) => (compCalls rv r g).bind fun (l2, g) => .ok (l1 ++ l2, g)

/-- `comp_rvalue` (sh.c:1385-1428) outside of a test. The fuel bounds the nesting of `comp_rvalue` in the arguments. -/
def compRv : Nat → Expr → Nat → Res Rv
  | 0, _, _ => .diverge
  | n + 1, e, g => (handle false e ⟨g, .nil, .nil, false⟩).bind fun (s, st) => (compCalls (compRv n) st.repl st.g).bind fun (ls, g) =>
    if arithOk s then .ok ⟨ls, s, g, st.side⟩ else .fatal

/-- A condition: `{ calls; [ … ]; }`, and `&&`, `||` of conditions. -/
inductive Test where
  | leaf (calls : List Line) (e : Expr)
  | logic (isAnd : Bool) (a b : Test)

/-- `comp_rvalue_go` in a test, `c` is `test_side_effects` (sh.c:1201-1380). -/
def goTest (rv : Expr → Nat → Res Rv) (g : Nat) : Expr → Calls → Res Test
  | .paren e, c => goTest rv g e c
  | .cast e, _ => goTest rv g e .nil
  | .logic4 i a b la lb, _ => (goTest rv g a la).bind fun a => (goTest rv g b lb).bind fun b => .ok (.logic i a b)
  | e, c => if arithOk e then (compCalls rv c g).bind fun (ls, _) => .ok (.leaf ls e) else .fatal

/-- `comp_rvalue` (sh.c:1385-1428) in a test: the commands that are put in front, and the condition. -/
def compTest (n : Nat) (e : Expr) (g : Nat) : Res (List Line × Test) :=
  (handle false e ⟨g, .nil, .nil, false⟩).bind fun (s, st) => (compCalls (compRv n) st.repl st.g).bind fun (ls, _) =>
    (goTest (compRv n) st.g s .nil).bind fun t => .ok (ls, t)

/-- The commands of a simple statement: calls, and at most one expansion. -/
inductive Cmd where
  | line (l : Line)
  /-- `: $((e))` -/
  | eval (e : Expr)
  /-- `x=$((e))` -/
  | setVar (x : Nat) (e : Expr)
  /-- `: $((_cell = e))` -/
  | setCell (a e : Expr)

/-- `comp_statement` (sh.c:2113-2183) for an expression statement; `gensym_ix` starts from 0. -/
def compStmt (n : Nat) : Expr → Res (List Cmd)
  | .call f as => (compCall (compRv n) none f as 0).bind fun (ls, _) => .ok (ls.map .line)
  | .assign l (.call f as) => (compCall (compRv n) (some l) f as 0).bind fun (ls, _) => .ok (ls.map .line)
  | .assign (.var x) r => (compRv n r 0).bind fun p => .ok (p.lines.map .line ++ [.setVar x p.e])
  | .assign (.deref a) r => (compRv n a 0).bind fun pa => (compRv n r pa.g).bind fun p => .ok ((pa.lines ++ p.lines).map .line ++ [.setCell pa.e p.e])
  | .assign _ _ => .fatal
  | e => (compRv n e 0).bind fun p => .ok (p.lines.map .line ++ (if p.side then [.eval p.e] else []))

/-! ## What the shell does -/

/-- What variables, memory, operators and functions do. `none`: an error, or no end. -/
structure Machine where
  W : Type
  read : Nat → W → Int
  write : Nat → Int → W → W
  load : Int → W → Option Int
  store : Int → Int → W → Option W
  un : Nat → Int → Option Int
  bin : Nat → Int → Int → Option Int
  call : Nat → List Int → W → Option (Int × W)

/-- The value of an lvalue of arithmetic. -/
def Machine.get (M : Machine) : Expr → M.W → Option Int
  | .var x, w => some (M.read x w)
  | .deref (.lit a), w => M.load a w
  | _, _ => none

def Machine.set (M : Machine) : Expr → Int → M.W → Option M.W
  | .var x, v, w => some (M.write x v w)
  | .deref (.lit a), v, w => M.store a v w
  | _, _, _ => none

def ofBool (b : Bool) : Int := if b then 1 else 0

/-- Arithmetic inside `$((…))`, from left to right, with the side effects at once. -/
def ev (M : Machine) : Expr → M.W → Option (Int × M.W)
  | .lit v, w => some (v, w)
  | .var x, w => some (M.read x w, w)
  | .un o e, w => (ev M e w).bind fun (v, w) => (M.un o v).map fun r => (r, w)
  | .deref e, w => (ev M e w).bind fun (a, w) => (M.load a w).map fun r => (r, w)
  | .paren e, w => ev M e w
  | .cast e, w => ev M e w
  | .bin _ o a b, w => (ev M a w).bind fun (x, w) => (ev M b w).bind fun (y, w) => (M.bin o x y).map fun r => (r, w)
  | .comma a b, w => (ev M a w).bind fun (_, w) => ev M b w
  | .assign l r, w => (ev M r w).bind fun (v, w) => (M.set l v w).map fun w => (v, w)
  | .opassign o l r, w => (ev M r w).bind fun (v, w) => (M.get l w).bind fun x => (M.bin o x v).bind fun y => (M.set l y w).map fun w => (y, w)
  | .post o l, w => (M.get l w).bind fun x => (M.bin o x 1).bind fun y => (M.set l y w).map fun w => (x, w)
  | .logic i a b, w => (ev M a w).bind fun (x, w) => if (x != 0) = i then (ev M b w).map fun (y, w) => (ofBool (y != 0), w) else some (ofBool (x != 0), w)
  | .cond c a b, w => (ev M c w).bind fun (x, w) => if x ≠ 0 then ev M a w else ev M b w
  | _, _ => none

/-- Before `$((…))` is evaluated, the expansions inside it (`_$((address))`) are, from left to right; temporaries have their values `T`. -/
def expand (M : Machine) (T : Nat → Int) : Expr → M.W → Option (Expr × M.W)
  | .lit v, w => some (.lit v, w)
  | .var x, w => some (.var x, w)
  | .tmp k, w => some (.lit (T k), w)
  | .un o e, w => (expand M T e w).map fun (e, w) => (.un o e, w)
  | .deref e, w => (expand M T e w).bind fun (e, w) => (ev M e w).map fun (a, w) => (.deref (.lit a), w)
  | .paren e, w => (expand M T e w).map fun (e, w) => (.paren e, w)
  | .cast e, w => (expand M T e w).map fun (e, w) => (.cast e, w)
  | .bin c o a b, w => (expand M T a w).bind fun (a, w) => (expand M T b w).map fun (b, w) => (.bin c o a b, w)
  | .comma a b, w => (expand M T a w).bind fun (a, w) => (expand M T b w).map fun (b, w) => (.comma a b, w)
  | .assign l r, w => (expand M T l w).bind fun (l, w) => (expand M T r w).map fun (r, w) => (.assign l r, w)
  | .opassign o l r, w => (expand M T l w).bind fun (l, w) => (expand M T r w).map fun (r, w) => (.opassign o l r, w)
  | .post o l, w => (expand M T l w).map fun (l, w) => (.post o l, w)
  | .logic4 i a b _ _, w => (expand M T a w).bind fun (a, w) => (expand M T b w).map fun (b, w) => (.logic i a b, w)
  | .cond c a b, w => (expand M T c w).bind fun (c, w) => (expand M T a w).bind fun (a, w) => (expand M T b w).map fun (b, w) => (.cond c a b, w)
  | .call .., _ | .logic .., _ => none

/-- `$((e))`. -/
def arith (M : Machine) (T : Nat → Int) (e : Expr) (w : M.W) : Option (Int × M.W) := (expand M T e w).bind fun (e, w) => ev M e w

def ariths (M : Machine) (T : Nat → Int) : List Expr → M.W → Option (List Int × M.W)
  | [], w => some ([], w)
  | e :: r, w => (arith M T e w).bind fun (v, w) => (ariths M T r w).map fun (vs, w) => (v :: vs, w)

/-- Temporaries and the rest of the world. -/
structure State (M : Machine) where
  T : Nat → Int
  w : M.W

def setTmp (T : Nat → Int) (k : Nat) (v : Int) : Nat → Int := fun i => if i = k then v else T i

/-- The word that names the result. -/
def destAddr (M : Machine) (T : Nat → Int) : Dest → M.W → Option (Option Int × M.W)
  | .cell e, w => (arith M T e w).map fun (a, w) => (some a, w)
  | _, w => some (none, w)

/-- The function puts its result there (sh.c:2030-2060; C12). -/
def putResult (M : Machine) (d : Dest) (a : Option Int) (v : Int) (s : State M) : Option (State M) :=
  match d, a with
  | .none, _ => some s
  | .tmp k, _ => some { s with T := setTmp s.T k v }
  | .var x, _ => some { s with w := M.write x v s.w }
  | .cell _, some a => (M.store a v s.w).map fun w => { s with w := w }
  | .cell _, none => none

/-- `_f dest arg…`: the words are expanded from left to right, then the function is called. Calls keep the temporaries of the caller (C12). -/
def runLine (M : Machine) (l : Line) (s : State M) : Option (State M) :=
  (destAddr M s.T l.dest s.w).bind fun (a, w) => (ariths M s.T l.args w).bind fun (vs, w) => (M.call l.f vs w).bind fun (r, w) => putResult M l.dest a r { s with w := w }

def runLines (M : Machine) : List Line → State M → Option (State M)
  | [], s => some s
  | l :: r, s => (runLine M l s).bind (runLines M r)

/-- `[ e != 0 ]`, or `[ a op b ]` for a comparison. -/
def runLeaf (M : Machine) (T : Nat → Int) (e : Expr) (w : M.W) : Option (Bool × M.W) :=
  match e with
  | .bin true o a b => (arith M T a w).bind fun (x, w) => (arith M T b w).bind fun (y, w) => (M.bin o x y).map fun r => (r != 0, w)
  | e => (arith M T e w).map fun (v, w) => (v != 0, w)

def runTest (M : Machine) : Test → State M → Option (Bool × State M)
  | .leaf ls e, s => (runLines M ls s).bind fun s => (runLeaf M s.T e s.w).map fun (b, w) => (b, { s with w := w })
  | .logic i a b, s => (runTest M a s).bind fun (x, s) => if x = i then runTest M b s else some (x, s)

def runCmd (M : Machine) : Cmd → State M → Option (State M)
  | .line l, s => runLine M l s
  | .eval e, s => (arith M s.T e s.w).map fun (_, w) => { s with w := w }
  | .setVar x e, s => (arith M s.T e s.w).map fun (v, w) => { s with w := M.write x v w }
  | .setCell a e, s => (arith M s.T (.assign (.deref a) e) s.w).map fun (_, w) => { s with w := w }

def runCmds (M : Machine) : List Cmd → State M → Option (State M)
  | [], s => some s
  | l :: r, s => (runCmd M l s).bind (runCmds M r)

end Verif.Hoist
