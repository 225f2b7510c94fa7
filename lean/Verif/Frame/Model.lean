import Verif.Stmt.Spec
/-! Model of the shell functions generated for C functions: saving, initialising and restoring variables
(`let`, `endlet`, sh-runtime.c:83-108; `let_params`, `save_local_vars`, `restore_local_vars`,
sh.c:632-790), calls (`comp_fun_call_code`, sh.c:1727-1777) and returned values (`comp_return`,
sh.c:2038-2081; `comp_assignment`, sh.c:1784-1807).

Simplifications.  Shell variables are `Name`s (the texts are the subject of C14) holding integers, an
unset variable counts as 0 (as it does in arithmetic).  Simple statements other than calls and returns,
tests and `switch` operands are arbitrary functions of the variables that the function can name: its own
ones and the global ones (global variables and heap cells). -/
namespace Verif.Frame
open Verif Verif.Stmt

/-- Shell variables. -/
inductive Name where
  /-- a local variable or parameter -/
  | loc (n : Nat)
  /-- `__t1`, `__t2`, … -/
  | temp (n : Nat)
  /-- a global variable, a heap cell `_n`, or `__` -/
  | glob (n : Nat)
  /-- `__1`, `__2`, …: the stack of saved values -/
  | stk (k : Int)
  /-- `__SP` -/
  | sp
  /-- `__tmp` -/
  | tmp
  deriving DecidableEq, Repr

abbrev Store := Name → Int

def set (s : Store) (x : Name) (v : Int) : Store := fun y => if y = x then v else s y

/-- `let x v` (sh-runtime.c:89-92): push the value of `x`, then initialise it. -/
def let_ (x : Name) (v : Int) (s : Store) : Store :=
  let s := set s .sp (s .sp + 1)
  let s := set s (.stk (s .sp)) (s x)
  set s x v

/-- The loop of `endlet` (sh-runtime.c:100-103). -/
def pops : List Name → Store → Store
  | [], s => s
  | x :: r, s =>
    let s := set s .sp (s .sp - 1)
    pops r (set s x (s (.stk (s .sp + 1))))

/-- `endlet ret x1 x2 …` (sh-runtime.c:96-105). -/
def endlet (ret : Name) (xs : List Name) (s : Store) : Store :=
  let s := set s .tmp (s ret)
  let s := pops xs s
  set s ret (s .tmp)

/-- The variables of a function: `cgc_locals_fun` holds them newest first, each with a flag
"is a parameter"; `temps` is `fun_gensym_ix`. -/
structure Vars where
  locals_fun : List (Nat × Bool)
  temps : Nat

/-- Adding a parameter or a local variable (`cgc_add_local_var`, env.c:126-134). -/
def add_local_var (env : List (Nat × Bool)) (x : Nat) (param : Bool) : List (Nat × Bool) :=
  if env.any (fun p => p.1 == x) then env else (x, param) :: env

/-- `let_params` (sh.c:711-727): `let p1 $2; let p2 $3; …`; `i` is the number of the argument. -/
def let_params : List Nat → Nat → List (Name × Nat)
  | [], _ => []
  | p :: r, i => (.loc p, i) :: let_params r (i + 1)

/-- First loop of `save_local_vars` (sh.c:730-761): each temporary is put in front. -/
def save_temps : Nat → List Name → List Name
  | 0, res => res
  | n + 1, res => save_temps n (.temp (n + 1) :: res)

/-- Second loop of `save_local_vars` (sh.c:730-761). -/
def save_env : List (Nat × Bool) → List Name → List Name
  | [], res => res
  | (x, param) :: r, res => save_env r (if param then res else .loc x :: res)

/-- `save_local_vars` (sh.c:730-761): the variables in the order of their `let`. -/
def save_local_vars (f : Vars) : List Name := save_env f.locals_fun (save_temps f.temps [])

/-- First loop of `restore_local_vars` (sh.c:765-794). -/
def restore_temps : Nat → List Name
  | 0 => []
  | n + 1 => .temp (n + 1) :: restore_temps n

/-- `restore_local_vars` (sh.c:765-794): the variables in the order given to `endlet`. -/
def restore_local_vars (f : Vars) : List Name := restore_temps f.temps ++ f.locals_fun.map fun p => .loc p.1

/-- Effects of simple commands. `Dst` is where a result goes. -/
inductive Act where
  /-- a command that is not a call -/
  | prim (g : Store → Store)
  /-- `_f dst args`: the destination may be computed (`_$((p + i))`) -/
  | call (f : Nat) (dst : Store → Name) (args : Store → List Int)
  /-- `: $(($1 = e))` (sh.c:2049-2053) -/
  | ret (e : Store → Int)
  /-- `_f $1 args` (sh.c:2046-2047) -/
  | retcall (f : Nat) (args : Store → List Int)

/-- A test or operand: commands that precede it (hoisted calls), then a function of the variables. -/
structure Test where
  pre : List Nat
  fn : Store → Store × Int

/-- A generated function: parameters, variables, C body, shell commands. -/
structure Fn where
  params : List Nat
  vars : Vars
  body : St
  code : Shs
  acts : Nat → Act
  tests : Nat → Test

/-- Does the function have lines `let`/`endlet`? -/
def Fn.locals (f : Fn) : Bool := !f.params.isEmpty || !(restore_local_vars f.vars).isEmpty

/-- The variables a function can name: its own ones and the global ones. -/
def Fn.owns (f : Fn) (x : Name) : Bool :=
  match x with
  | .glob _ => true
  | .loc _ | .temp _ => (restore_local_vars f.vars).contains x
  | _ => false

/-- What the function can see of the store. -/
def view (f : Fn) (s : Store) : Store := fun x => if f.owns x then s x else 0

/-- Change what the function can see. -/
def put (f : Fn) (s v : Store) : Store := fun x => if f.owns x then v x else s x

/-- `let` commands on entry (`$2` is `args[0]`, a missing argument gives 0, sh-runtime.c:91). -/
def enter (f : Fn) (args : List Int) (s : Store) : Store :=
  let s := (let_params f.params 0).foldl (fun s p => let_ p.1 (args.getD p.2 0) s) s
  (save_local_vars f.vars).foldl (fun s x => let_ x 0 s) s

/-- A simple command of function `f`, called with `$1 = ret`; `call` runs the called function. -/
def sact (call : Nat → List Int → Name → Store → Option Store) (f : Fn) (ret : Name) (a : Act) (s : Store) : Option Store :=
  match a with
  | .prim g => some (put f s (g (view f s)))
  | .call k dst args => call k (args (view f s)) (dst (view f s)) s
  | .ret e => some (set s ret (e (view f s)))
  | .retcall k args => call k (args (view f s)) ret s

def sacts (call : Nat → List Int → Name → Store → Option Store) (f : Fn) (ret : Name) : List Nat → Store → Option Store
  | [], s => some s
  | a :: r, s => (sact call f ret (f.acts a) s).bind (sacts call f ret r)

/-- A test or operand. -/
def stest (call : Nat → List Int → Name → Store → Option Store) (f : Fn) (ret : Name) (t : Test) (s : Store) : Option (Store × Int) :=
  (sacts call f ret t.pre s).map fun s => (put f s (t.fn (view f s)).1, (t.fn (view f s)).2)

/-- The interpretation of the lines of `f` called with arguments `args` and destination `ret`. -/
def shI (call : Nat → List Int → Name → Store → Option Store) (f : Fn) (args : List Int) (ret : Name) : Interp Store where
  act a := sact call f ret (f.acts a)
  test c s := (stest call f ret (f.tests c) s).map fun (s, v) => (s, v ≠ 0)
  sel c := stest call f ret (f.tests c)
  save := if f.locals then enter f args else id
  restore := if f.locals then endlet ret (restore_local_vars f.vars) else id

/-- A call of function number `k` of the program, with at most `d` nested calls and `n` iterations of
each loop. -/
def scall (prog : Nat → Option Fn) (n : Nat) : Nat → Nat → List Int → Name → Store → Option Store
  | 0, _, _, _, _ => none
  | d + 1, k, args, ret, s =>
    match prog k with
    | none => none
    | some f => sfun (shI (scall prog n d) f args ret) n f.locals [] f.code s

end Verif.Frame
