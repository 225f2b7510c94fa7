import Verif.ShTop.Model
import Verif.ShHeap.Model
import Verif.ShStr.Spec
/-! Running the lines of a script (`ShTop.Cmd`) up to the call of `main`: the state of the shell, and what
each kind of line does to it.  The memory and the runtime functions that allocate are those of `ShHeap`.

Simplifications.  Shell arithmetic is modelled with unbounded integers.  Of the runtime's own variables
only those of `ShTop.H` exist; the scratch variables of the runtime functions (`__ptr`, `__i`, `__str`, …)
do not.  The environment in which the script is started defines none of its variables. -/
namespace Verif.ShGlob
open Verif Verif.ShTop

/-- The parameters of a run: the options of the compiler, those that only concern the heap (`hdr` is
`RT_FREE_UNSETS_VARS`, `strict` the absence of `RT_UNSAFE_HEAP`), the printed name of each variable (as a
number: `num`), what `printf %d "'c"` prints (`ord`), and the words `"$0" "$@"`. -/
structure Env where
  c : ShTop.Cfg
  hdr : Bool
  strict : Bool
  num : Nm → Nat
  ord : Nat → Int
  args : List (List Nat)

/-- The options as `ShHeap` knows them. -/
def Env.heap (e : Env) : ShHeap.Cfg := ⟨e.hdr, e.strict, e.c.long, e.c.compact, e.c.noInit⟩

/-- The state of the shell: variables and memory cells, the functions defined (the last definition first),
with the names their bodies refer to, and the readonly variables. -/
structure Sh where
  mem : ShHeap.S
  fns : List (Nm × List Need)
  ro : List Nm

/-- The state in which a script starts. -/
def start : Sh := ⟨ShHeap.start, [], []⟩

/-- The value of a variable. -/
def Sh.var (s : Sh) (e : Env) (n : Nm) : Option Int := s.mem.var (e.num n)

/-- `n=v`: an error if `n` is readonly. -/
def Sh.assign (s : Sh) (e : Env) (n : Nm) (v : Int) : Res Sh :=
  if n ∈ s.ro then .fatal
  else .ok { s with mem := s.mem.put (.var (e.num n)) v }

/-- `: $((a = b = … = 0))`. -/
def Sh.zero (e : Env) : Sh → List Nm → Res Sh
  | s, [] => .ok s
  | s, n :: ns => (s.assign e n 0).bind fun s1 => Sh.zero e s1 ns

/-- The value of a right-hand side; an unset variable is an error under `set -u` (sh.c:2505-2511). -/
def evalRv (e : Env) (s : Sh) : Rv → Res Int
  | .int v => .ok v
  | .var n => ShHeap.expand e.strict (s.var e n)
  | .neg a => (evalRv e s a).bind fun x => .ok (-x)
  | .add a b => (evalRv e s a).bind fun x => (evalRv e s b).bind fun y => .ok (x + y)
  | .sub a b => (evalRv e s a).bind fun x => (evalRv e s b).bind fun y => .ok (x - y)
  | .mul a b => (evalRv e s a).bind fun x => (evalRv e s b).bind fun y => .ok (x * y)

/-- The arguments of a command. -/
def evalArgs (e : Env) (s : Sh) : List Rv → Res (List Int)
  | [] => .ok []
  | a :: as => (evalRv e s a).bind fun x => (evalArgs e s as).bind fun xs => .ok (x :: xs)

/-- Calling functions that are not all defined ends the script (`set -e`, sh.c:2505-2511). -/
def Sh.calls (s : Sh) (ns : List Nm) (k : Res Sh) : Res Sh :=
  if ns.all fun n => (s.fns.lookup n).isSome then k else .fatal

/-- The result of a runtime function goes to the variable `n`: an error if it is readonly. -/
def Sh.into (s : Sh) (n : Nm) (r : Res ShHeap.S) : Res Sh :=
  if n ∈ s.ro then .fatal else r.bind fun m => .ok { s with mem := m }

/-- What `char_to_int` and the long-line buffers need (sh-runtime.c:18-22, 448-486). -/
def charFns (c : ShTop.Cfg) : List Nm := if c.compact then [] else [.rt .char_to_int]

/-- The functions behind `defstr` (sh-runtime.c:448-505). -/
def strFns (c : ShTop.Cfg) : List Nm :=
  [.rt .defstr, .rt .unpack_escaped_string, .g idMalloc] ++ charFns c ++
    (if c.long then [.rt .next_sub_buffer] else [])

/-- The functions behind `make_argv` (sh-runtime.c:355-408). -/
def argvFns (c : ShTop.Cfg) : List Nm :=
  [.rt .make_argv, .rt .unpack_string, .g idMalloc] ++ charFns c

/-- The call `defarr n len args…` (sh-runtime.c:314-331).  Three texts of `defarr` exist: with
`initialize_memory`, which is defined nowhere (so the call ends the script); with a call of `initialize` if
there are initial values; and without. -/
def Sh.defarr (e : Env) (s : Sh) (n : Nm) (len : Nat) (vals : List Int) : Res Sh :=
  match s.fns.lookup (.rt .defarr) with
  | none => .fatal
  | some text =>
    if text.contains (.fn (.rt .initialize_memory)) then .fatal
    else if text.contains (.fn (.rt .initialize)) then
      s.calls [.g idMalloc, .rt .initialize] (s.into n (ShHeap.defarr e.heap s.mem (.var (e.num n)) len vals))
    else
      s.calls [.g idMalloc] (s.into n (.ok (ShHeap.malloc e.heap s.mem (.var (e.num n)) len)))

/-- The call `defstr n "…" size`: the shell reads the double-quoted text the compiler printed (C09), then
`defstr` runs (sh-runtime.c:488-505). -/
def Sh.defstr (e : Env) (s : Sh) (n : Nm) (bytes : List Nat) (size : Option Nat) : Res Sh :=
  match ShStr.Spec.dquoted (ShStr.escapeString false bytes ++ [34]) with
  | some (w, []) => s.calls (strFns e.c)
      (s.into n (ShHeap.defstr e.heap e.ord s.mem (e.num n) w (size.map Int.ofNat)))
  | _ => .fatal

/-- `__argc_for_main=$(($# + 1)); make_argv $__argc_for_main "$0" "$@"; __argv_for_main=$__argv`
(sh.c:2536-2539). -/
def Sh.argv (e : Env) (s : Sh) : Res Sh :=
  (s.assign e (.rt .argc_for_main) e.args.length).bind fun s1 =>
    s1.calls (argvFns e.c)
      ((ShHeap.makeArgv e.heap e.ord s1.mem e.args).bind fun m =>
        (ShHeap.expand e.strict (m.var ShHeap.argvVar)).bind fun a =>
          ({ s1 with mem := m } : Sh).assign e (.rt .argv_for_main) a)

/-- One line of the script.  The call of `main` is not executed here. -/
def exec (e : Env) (s : Sh) : Cmd → Res Sh
  | .defun n ds => .ok { s with fns := (n, ds) :: s.fns }
  | .set n v => if n = .rt .alloc then .ok { s with mem := { s.mem with alloc := v } } else s.assign e n v
  | .zero ns => s.zero e ns
  | .assign n r => (evalRv e s r).bind fun v => s.assign e n v
  | .readonly n r => (evalRv e s r).bind fun v => (s.assign e n v).bind fun s1 => .ok { s1 with ro := n :: s1.ro }
  | .malloc n size => s.calls [.g idMalloc] (s.into n (.ok (ShHeap.malloc e.heap s.mem (.var (e.num n)) size)))
  | .defarr n len args => (evalArgs e s args).bind fun vs => s.defarr e n len vs
  | .defstr n bytes size => s.defstr e n bytes size
  | .argv => s.argv e
  | .callMain _ _ => .ok s

/-- The lines up to the call of `main`. -/
def run (e : Env) : Sh → List Cmd → Res Sh
  | s, [] => .ok s
  | s, .callMain _ _ :: _ => .ok s
  | s, x :: l => (exec e s x).bind fun s1 => run e s1 l

/-- Compile, then run up to the call of `main`. -/
def launch (e : Env) (p : List Top) : Res Sh := (script e.c p).bind (run e start)

end Verif.ShGlob
