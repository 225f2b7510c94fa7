import Verif.Frame.Spec
import Verif.Hoist.Model
/-! Model of the shell functions generated for a whole program: the statements (sh.c:1809-2183) with the commands of their expressions (C37: sh.c:895-1058, 1385-1428, 1727-1807), the variables that a function
saves and restores (C12: sh.c:632-790), the control flow (C13), the call of a function by another one.

Simplifications.  Identifiers are resolved: the identifier `2 * i` is local variable `i` of the function, `2 * i + 1` is global variable `i` (names and scopes are the subject of C14 and C24).  The cells of memory are the
shell variables `_a`, `a` a number; an access to an address that `valid` does not allow is undefined in C and has no meaning here (`none`, as for failing operators).  What run-time functions do to globals, memory and the
outside world (`X`: files, the heap's bounds, …) is a parameter (see C15, C18, C28, C35, C38).  Variables hold integers, an unset one counts as 0. -/
namespace Verif.ShProg
open Verif Verif.Stmt Verif.Frame
open Verif.Hoist (Expr Args Rv Dest Cmd Machine)

/-- Global variables, memory and the outside world. -/
structure Glob (X : Type) where
  var : Nat → Int
  mem : Nat → Int
  x : X

/-- What operators, memory and the run-time library do. -/
structure Lang where
  X : Type
  un : Nat → Int → Option Int
  bin : Nat → Int → Int → Option Int
  /-- the addresses of objects -/
  valid : Int → X → Bool
  nonneg : ∀ a x, valid a x = true → 0 ≤ a
  /-- functions that the program does not define; their result is optional -/
  builtin : Nat → List Int → Glob X → Option (Option Int × Glob X)

/-! ## C programs -/

mutual
/-- Statements, as `parse_statement` (pnut.c:3754-3889) builds them. A declaration with an initialiser is an assignment (`comp_var_decls`, sh.c:2083-2110). -/
inductive CSt where
  | empty
  /-- `int x;` -/
  | decl (x : Nat)
  | expr (e : Expr)
  | ite (c : Expr) (a b : CSt)
  | while_ (c : Expr) (s : CSt)
  | do_ (s : CSt) (c : Expr)
  | for_ (init c step : Option Expr) (s : CSt)
  | switch (e : Expr) (b : CSts)
  | break_
  | continue_
  | ret (e : Option Expr)
  | block (b : CSts)
  | case_ (v : Int) (s : CSt)
  | default_ (s : CSt)
inductive CSts where
  | nil
  | cons (s : CSt) (r : CSts)
end

/-- A function definition: parameters, other local variables, body. -/
structure FDef where
  params : List Nat
  vars : List Nat
  body : CSts

/-! ## The generated commands -/

/-- Simple commands of a function. -/
inductive Act where
  | cmd (c : Cmd)
  /-- `: $(($1 = e))` (sh.c:2049-2053) -/
  | ret (e : Expr)
  /-- `_f $1 args` (sh.c:2046-2047) -/
  | retcall (f : Nat) (args : List Expr)

/-- The simple commands, conditions and operands of `switch` of a function, in the order of their numbers. -/
structure Tab where
  acts : List Act
  tests : List (List Hoist.Line × Hoist.Test)
  sels : List Rv

/-- New simple commands: their numbers. -/
def Tab.add (t : Tab) (as : List Act) : List Nat × Tab := (List.range' t.acts.length as.length, { t with acts := t.acts ++ as })

/-- The commands for the value of `return` (sh.c:2042-2054). -/
def compRet (n : Nat) : Option Expr → Res (List Act)
  | none => .ok []
  | some (.call f as) => (Hoist.compArgs (Hoist.compRv n) as 0).bind fun (ls, es, _) => .ok (ls.map (fun l => .cmd (.line l)) ++ [.retcall f es])
  | some e => (Hoist.compRv n e 0).bind fun p => .ok (p.lines.map (fun l => .cmd (.line l)) ++ [.ret p.e])

/-- The commands of an optional expression statement (of `for`). -/
def compOpt (n : Nat) : Option Expr → Res (List Cmd)
  | none => .ok []
  | some e => Hoist.compStmt n e

/-- A condition (sh.c:1385-1428 in a test). `gensym_ix` starts from 0 (in the condition of `for` it starts, in the code, from what the initialisation has left: the temporaries have other numbers). -/
def Tab.test (n : Nat) (c : Expr) (t : Tab) : Res (Nat × Tab) := (Hoist.compTest n c 0).bind fun p => .ok (t.tests.length, { t with tests := t.tests ++ [p] })

def Tab.sel (n : Nat) (e : Expr) (t : Tab) : Res (Nat × Tab) := (Hoist.compRv n e 0).bind fun p => .ok (t.sels.length, { t with sels := t.sels ++ [p] })

/-- An optional condition. -/
def Tab.testOpt (n : Nat) (c : Option Expr) (t : Tab) : Res (Option Nat × Tab) :=
  match c with
  | none => .ok (none, t)
  | some c => (t.test n c).bind fun (k, t) => .ok (some k, t)

mutual
/-- The commands of the expressions of a statement (`comp_statement`, sh.c:2113-2190), with the statement that contains their numbers: what remains to be done is the control flow (`Stmt.comp_statement`). -/
def num (n : Nat) : CSt → Tab → Res (St × Tab)
  | .empty, t => .ok (.empty, t)
  | .decl _, t => .ok (.act [], t)
  | .expr e, t => (Hoist.compStmt n e).bind fun cs => .ok (.act (t.add (cs.map .cmd)).1, (t.add (cs.map .cmd)).2)
  | .ite c a b, t => (t.test n c).bind fun (k, t) => (num n a t).bind fun (a, t) => (num n b t).bind fun (b, t) => .ok (.ite k a b, t)
  | .while_ c s, t => (t.test n c).bind fun (k, t) => (num n s t).bind fun (s, t) => .ok (.while_ k s, t)
  | .do_ s c, t => (t.test n c).bind fun (k, t) => (num n s t).bind fun (s, t) => .ok (.do_ s k, t)
  | .for_ i c p s, t =>
    (compOpt n i).bind fun i =>
    ((t.add (i.map .cmd)).2.testOpt n c).bind fun (k, t1) =>
    (compOpt n p).bind fun p =>
    (num n s (t1.add (p.map .cmd)).2).bind fun (s, t2) =>
    .ok (.for_ (t.add (i.map .cmd)).1 k (t1.add (p.map .cmd)).1 s, t2)
  | .switch e b, t => (t.sel n e).bind fun (k, t) => (nums n b t).bind fun (b, t) => .ok (.switch k b, t)
  | .break_, t => .ok (.break_, t)
  | .continue_, t => .ok (.continue_, t)
  | .ret e, t => (compRet n e).bind fun as => .ok (.ret (t.add as).1, (t.add as).2)
  | .block b, t => (nums n b t).bind fun (b, t) => .ok (.block b, t)
  | .case_ v s, t => (num n s t).bind fun (s, t) => .ok (.case_ v s, t)
  | .default_ s, t => (num n s t).bind fun (s, t) => .ok (.default_ s, t)
def nums (n : Nat) : CSts → Tab → Res (Sts × Tab)
  | .nil, t => .ok (.nil, t)
  | .cons s r, t => (num n s t).bind fun (s, t) => (nums n r t).bind fun (r, t) => .ok (.cons s r, t)
end

/-- The temporaries that receive results, up to the highest number: `fun_gensym_ix` (sh.c:538-547). -/
def destTemp : Dest → Nat
  | .tmp k => k
  | _ => 0
def cmdTemp : Cmd → Nat
  | .line l => destTemp l.dest
  | _ => 0
def linesTemp (ls : List Hoist.Line) : Nat := ls.foldr (fun l m => max (destTemp l.dest) m) 0
def testTemp : Hoist.Test → Nat
  | .leaf ls _ => linesTemp ls
  | .logic _ a b => max (testTemp a) (testTemp b)
def actTemp : Act → Nat
  | .cmd c => cmdTemp c
  | _ => 0
def Tab.temps (t : Tab) : Nat :=
  max (t.acts.foldr (fun a m => max (actTemp a) m) 0) (max (t.tests.foldr (fun p m => max (max (linesTemp p.1) (testTemp p.2)) m) 0) (t.sels.foldr (fun p m => max (linesTemp p.lines) m) 0))

/-- A generated function. -/
structure CFn where
  params : List Nat
  vars : Vars
  body : St
  code : Shs
  tab : Tab

/-- As a function of C12 (only its variables matter). -/
def CFn.frame (f : CFn) : Fn := ⟨f.params, f.vars, f.body, f.code, fun _ => .prim id, fun _ => ⟨[], fun s => (s, 0)⟩⟩

def CFn.locals (f : CFn) : Bool := f.frame.locals

/-! ### Identifiers are declared -/

mutual
/-- The identifiers of an expression satisfy `ok`. -/
def names (ok : Nat → Bool) : Expr → Bool
  | .lit _ => true
  | .tmp _ | .logic4 .. => false
  | .var x => ok x
  | .un _ e | .deref e | .paren e | .cast e | .post _ e => names ok e
  | .bin _ _ a b | .comma a b | .assign a b | .opassign _ a b | .logic _ a b => names ok a && names ok b
  | .cond c a b => names ok c && names ok a && names ok b
  | .call _ as => namesArgs ok as
def namesArgs (ok : Nat → Bool) : Args → Bool
  | .nil => true
  | .cons e r => names ok e && namesArgs ok r
end

def namesOpt (ok : Nat → Bool) : Option Expr → Bool
  | none => true
  | some e => names ok e

mutual
def namesSt (ok : Nat → Bool) : CSt → Bool
  | .empty | .decl _ | .break_ | .continue_ => true
  | .expr e => names ok e
  | .ite c a b => names ok c && namesSt ok a && namesSt ok b
  | .while_ c s => names ok c && namesSt ok s
  | .do_ s c => names ok c && namesSt ok s
  | .for_ i c p s => namesOpt ok i && namesOpt ok c && namesOpt ok p && namesSt ok s
  | .switch e b => names ok e && namesSts ok b
  | .ret e => namesOpt ok e
  | .block b => namesSts ok b
  | .case_ _ s | .default_ s => namesSt ok s
def namesSts (ok : Nat → Bool) : CSts → Bool
  | .nil => true
  | .cons s r => namesSt ok s && namesSts ok r
end

/-- The identifier is a parameter or local variable of the function, or a global variable. -/
def FDef.declared (fd : FDef) (x : Nat) : Bool := x % 2 = 1 || fd.params.contains (x / 2) || fd.vars.contains (x / 2)

/-- `comp_glo_fun_decl` (sh.c:2192-2283): the function `f` is generated for the definition `fd`. `n` bounds the nesting of calls in arguments. -/
structure Compiled (n : Nat) (fd : FDef) (f : CFn) : Prop where
  params : f.params = fd.params
  /-- the parameters are added to the table (sh.c:560-583), then the variables in the order of their declarations -/
  vars : f.vars = ⟨fd.vars.foldl (fun e x => add_local_var e x false) (fd.params.foldl (fun e x => add_local_var e x true) []), f.tab.temps⟩
  /-- no parameter is repeated (sh.c:560-583) -/
  nodup : fd.params.Nodup
  body : num n (.block fd.body) ⟨[], [], []⟩ = .ok (f.body, f.tab)
  /-- the identifiers are declared -/
  names : namesSts fd.declared fd.body = true
  lines : comp_glo_fun_decl f.locals [] f.body = .ok (funLines f.locals [] f.code)

/-! ## What the shell does -/

/-- The shell variables, and the outside world. -/
structure Sh (X : Type) where
  s : Store
  x : X

/-- Global variable `i`. -/
def gv (i : Nat) : Name := .glob (2 * i + 1)
/-- Memory cell `_a`. -/
def mc (a : Nat) : Name := .glob (2 * a + 2)

/-- The shell variable of an identifier. -/
def nm (x : Nat) : Name := if x % 2 = 0 then .loc (x / 2) else gv (x / 2)

def Sh.set {X : Type} (S : Sh X) (x : Name) (v : Int) : Sh X := { S with s := Frame.set S.s x v }

/-- Arithmetic on shell variables. -/
@[reducible] def shM (L : Lang) : Machine where
  W := Sh L.X
  read x S := S.s (nm x)
  write x v S := S.set (nm x) v
  load a S := if L.valid a S.x then some (S.s (mc a.toNat)) else none
  store a v S := if L.valid a S.x then some (S.set (mc a.toNat) v) else none
  un := L.un
  bin := L.bin
  call _ _ _ := none

/-- The temporaries. -/
def Sh.T {X : Type} (S : Sh X) : Nat → Int := fun k => S.s (.temp k)

/-- What run-time functions see. -/
def getG {X : Type} (S : Sh X) : Glob X := ⟨fun i => S.s (gv i), fun a => S.s (mc a), S.x⟩

def putG {X : Type} (S : Sh X) (g : Glob X) : Sh X :=
  ⟨fun y => match y with
    | .glob n => if n = 0 then S.s y else if n % 2 = 1 then g.var (n / 2) else g.mem (n / 2 - 1)
    | _ => S.s y, g.x⟩

variable {L : Lang}

/-- How functions are called: number, arguments, name of the variable for the result. -/
abbrev CallFn (L : Lang) := Nat → List Int → Name → Sh L.X → Option (Sh L.X)

/-- The name that is the first word of a call; for a cell also its address. -/
def destName (d : Dest) (S : Sh L.X) : Option ((Name × Option Int) × Sh L.X) :=
  match d with
  | .none => some ((.glob 0, none), S)
  | .tmp k => some ((.temp k, none), S)
  | .var x => some ((nm x, none), S)
  | .cell e => (Hoist.arith (shM L) S.T e S).map fun (a, S) => ((mc a.toNat, some a), S)

/-- Storing in a cell that does not exist has no meaning. -/
def storeOk (a : Option Int) (S : Sh L.X) : Bool :=
  match a with
  | none => true
  | some a => L.valid a S.x

/-- `_f dest arg…`. -/
def sline (call : CallFn L) (l : Hoist.Line) (S : Sh L.X) : Option (Sh L.X) :=
  (destName l.dest S).bind fun (d, S1) => (Hoist.ariths (shM L) S.T l.args S1).bind fun (vs, S2) => (call l.f vs d.1 S2).bind fun S3 => if storeOk d.2 S3 then some S3 else none

def slines (call : CallFn L) : List Hoist.Line → Sh L.X → Option (Sh L.X)
  | [], S => some S
  | l :: r, S => (sline call l S).bind (slines call r)

/-- `[ … ]`. -/
def sleaf (e : Expr) (S : Sh L.X) : Option (Bool × Sh L.X) := Hoist.runLeaf (shM L) S.T e S

def stest (call : CallFn L) : Hoist.Test → Sh L.X → Option (Bool × Sh L.X)
  | .leaf ls e, S => (slines call ls S).bind fun S => sleaf e S
  | .logic i a b, S => (stest call a S).bind fun (x, S) => if x = i then stest call b S else some (x, S)

/-- A simple command of a function called with `$1 = ret`. -/
def sact (call : CallFn L) (ret : Name) (a : Act) (S : Sh L.X) : Option (Sh L.X) :=
  match a with
  | .cmd (.line l) => sline call l S
  | .cmd (.eval e) => (Hoist.arith (shM L) S.T e S).map Prod.snd
  | .cmd (.setVar x e) => (Hoist.arith (shM L) S.T e S).map fun (v, S) => S.set (nm x) v
  | .cmd (.setCell a e) => (Hoist.arith (shM L) S.T (.assign (.deref a) e) S).map Prod.snd
  | .ret e => (Hoist.arith (shM L) S.T e S).map fun (v, S) => S.set ret v
  | .retcall f es => (Hoist.ariths (shM L) S.T es S).bind fun (vs, S) => call f vs ret S

/-- The numbered commands of `f`, called with arguments `args` and `$1 = ret`. -/
def shI (call : CallFn L) (f : CFn) (args : List Int) (ret : Name) : Interp (Sh L.X) where
  act a S := (f.tab.acts[a]?).bind fun a => sact call ret a S
  test c S := (f.tab.tests[c]?).bind fun p => (slines call p.1 S).bind fun S => (stest call p.2 S).map fun (b, S) => (S, b)
  sel c S := (f.tab.sels[c]?).bind fun p => (slines call p.lines S).bind fun S => (Hoist.arith (shM L) S.T p.e S).map fun (v, S) => (S, v)
  save := if f.locals then fun S => { S with s := enter f.frame args S.s } else id
  restore := if f.locals then fun S => { S with s := endlet ret (restore_local_vars f.vars) S.s } else id

/-- A run-time function puts its result, if any, in `$1`. -/
def setRes (ret : Name) (v : Option Int) (S : Sh L.X) : Sh L.X :=
  match v with
  | none => S
  | some v => S.set ret v

/-- A call `_f ret args` of function number `k`, with at most `d` nested calls and `n` iterations of each loop. -/
def scall (L : Lang) (Q : Nat → Option CFn) (n : Nat) : Nat → CallFn L
  | 0, _, _, _, _ => none
  | d + 1, k, args, ret, S =>
    match Q k with
    | some f => sfun (shI (scall L Q n d) f args ret) n f.locals [] f.code S
    | none => (L.builtin k args (getG S)).map fun (v, g) => setRes ret v (putG S g)

end Verif.ShProg
