import Verif.Frame.Model
/-! Specification for C12: C functions with their own variables.  Each call has new variables — the
parameters hold the arguments, the others 0 — that nothing else can see and that vanish at the end; the
globals are shared; the result is stored by the caller. -/
namespace Verif.Frame
open Verif Verif.Stmt

/-- State of an activation: its variables and the globals, and the value returned. -/
structure CS where
  env : Store
  rv : Option Int

/-- The variables at the start of a call. -/
def start (f : Fn) (args : List Int) (globals : Store) : Store := fun x =>
  match x with
  | .glob _ => globals x
  | .loc v => match f.params.findIdx? (· == v) with
    | some i => args.getD i 0
    | none => 0
  | _ => 0

/-- Replace the globals. -/
def withGlobals (e g : Store) : Store := fun x => match x with | .glob _ => g x | _ => e x

/-- A simple statement.  Nothing is executed after the value of `return` (`none`).  A call whose result
is not used has the destination `__` (`.glob 0`), which is not a variable of the C program. -/
def cact (call : Nat → List Int → Store → Option (Store × Option Int)) (f : Fn) (a : Act) (c : CS) : Option CS :=
  if c.rv.isSome then none else
  match a with
  | .prim g => some { c with env := view f (g (view f c.env)) }
  | .call k dst args =>
    (call k (args (view f c.env)) c.env).bind fun (g, v) =>
      match v with
      | some v => some { c with env := set (withGlobals c.env g) (dst (view f c.env)) v }
      -- no value: the statement must not use it
      | none => if dst (view f c.env) = .glob 0 then some { c with env := withGlobals c.env g } else none
  | .ret e => some { c with rv := some (e (view f c.env)) }
  | .retcall k args =>
    (call k (args (view f c.env)) c.env).bind fun (g, v) =>
      match v with
      | some v => some ⟨withGlobals c.env g, some v⟩
      | none => none

def cacts (call : Nat → List Int → Store → Option (Store × Option Int)) (f : Fn) : List Nat → CS → Option CS
  | [], s => some s
  | a :: r, s => (cact call f (f.acts a) s).bind (cacts call f r)

def ctest (call : Nat → List Int → Store → Option (Store × Option Int)) (f : Fn) (t : Test) (c : CS) : Option (CS × Int) :=
  (cacts call f t.pre c).bind fun c =>
    if c.rv.isSome then none
    else some ({ c with env := view f (t.fn (view f c.env)).1 }, (t.fn (view f c.env)).2)

def cI (call : Nat → List Int → Store → Option (Store × Option Int)) (f : Fn) : Interp CS where
  act a := cact call f (f.acts a)
  test c s := (ctest call f (f.tests c) s).map fun (s, v) => (s, v ≠ 0)
  sel c := ctest call f (f.tests c)
  save := id
  restore := id

/-- A call in C: globals and result. -/
def ccall (prog : Nat → Option Fn) (n : Nat) : Nat → Nat → List Int → Store → Option (Store × Option Int)
  | 0, _, _, _ => none
  | d + 1, k, args, g =>
    match prog k with
    | none => none
    | some f => (cexec (cI (ccall prog n d) f) n f.body ⟨start f args g, none⟩).map fun (_, c) => (c.env, c.rv)

/-- The variable table of a function, as built by the compiler: parameters first, then the other
variables, each name once. -/
def Fn.wf (f : Fn) : Prop :=
  f.params.Nodup ∧ ∃ others : List Nat, (f.params ++ others).Nodup ∧
    f.vars.locals_fun = (others.map fun x => (x, false)).reverse ++ (f.params.map fun x => (x, true)).reverse

/-- Destinations of calls are variables that the function can name. -/
def Fn.dsts (f : Fn) : Prop := ∀ a k dst args, f.acts a = .call k dst args → ∀ v, f.owns (dst v) = true

/-- The code of a function is what the compiler generates for its body. -/
def Fn.compiled (f : Fn) : Prop := f.body.ok = true ∧ comp_glo_fun_decl f.locals [] f.body = .ok (funLines f.locals [] f.code)

end Verif.Frame
