import Verif.Base
/-! Model of `env.c` (exe version) and of the way `exe.c` uses it: binding lists in the heap, scopes.

The statements are reduced to what concerns names and enclosing constructs (`St`).  Not represented:
the two mutable words of a switch binding that CASE and DEFAULT use (exe.c:2245-2288), goto labels,
the code emitted.  Allocations made by the rest of the compiler between the operations are
represented by `St.alloc`. -/
namespace Verif.Env
open Verif

/-- Heap size (pnut.c:326). -/
def HEAP_SIZE : Nat := 2000000

/-- `enum BINDING` (env.c:11-27). -/
def PARAM_LOCAL : Int := 0
def VAR_LOCAL : Int := 1
def VAR_GLOBAL : Int := 2
def ENUM_CST : Int := 3
def LOOP : Int := 4
def SWITCH : Int := 5
def FUN : Int := 6

/-- The heap and the globals of env.c (env.c:1-9). -/
structure Env where
  heap : Nat → Int
  top : Nat
  fs : Int
  locals : Nat
  globals : Nat
  galloc : Int

/-- `alloc_obj` (pnut.c:332-343) followed by the stores of the fields. -/
def alloc_obj (e : Env) (fields : List Int) : Res (Nat × Env) :=
  if e.top + fields.length > HEAP_SIZE then .fatal
  else .ok (e.top, { e with heap := writeList e.heap e.top fields, top := e.top + fields.length })

/-- The loop common to the lookups (env.c:36-116): follow `binding_next` (a pointer: the C code never
stores a negative one) until `p` holds. -/
def walk (h : Nat → Int) (p : Nat → Bool) : Nat → Nat → Res Nat
  | 0, _ => .diverge
  | fuel + 1, b =>
    if b = 0 then .ok 0
    else if p b then .ok b
    else walk h p fuel (h b).toNat

/-- `cgc_lookup_binding_ident` (env.c:36-44). -/
def lookup_binding_ident (h : Nat → Int) (fuel : Nat) (kind ident : Int) (b : Nat) : Res Nat :=
  walk h (fun b => h (b + 1) = kind && h (b + 2) = ident) fuel b

/-- `cgc_lookup_last_binding` (env.c:46-54). -/
def lookup_last_binding (h : Nat → Int) (fuel : Nat) (kind : Int) (b : Nat) : Res Nat :=
  walk h (fun b => h (b + 1) = kind) fuel b

/-- `cgc_lookup_var` (env.c:56-64). -/
def lookup_var (h : Nat → Int) (fuel : Nat) (ident : Int) (b : Nat) : Res Nat :=
  walk h (fun b => h (b + 1) ≤ VAR_GLOBAL && h (b + 2) = ident) fuel b

/-- `cgc_lookup_enclosing_loop_or_switch` (env.c:78-86). -/
def lookup_loop_or_switch (h : Nat → Int) (fuel : Nat) (b : Nat) : Res Nat :=
  walk h (fun b => h (b + 1) = LOOP || h (b + 1) = SWITCH) fuel b

/-- `cgc_add_local` (env.c:118-126) as called by `cgc_add_local_param` (env.c:155-158). -/
def add_local_param (e : Env) (ident : Int) (width : Nat) (ty : Int) : Res Env :=
  (alloc_obj e [e.locals, PARAM_LOCAL, ident, e.fs, ty]).bind fun (b, e) =>
  .ok { e with locals := b, fs := e.fs - width }

/-- `cgc_add_local_var`, exe version (env.c:160-163). -/
def add_local_var (e : Env) (ident : Int) (width : Nat) (ty : Int) : Res Env :=
  let e := { e with fs := e.fs + width }
  (alloc_obj e [e.locals, VAR_LOCAL, ident, e.fs, ty]).bind fun (b, e) =>
  .ok { e with locals := b }

/-- `cgc_add_enclosing_loop`, exe version (env.c:165-173). -/
def add_enclosing_loop (e : Env) (fs brk cont : Int) : Res Env :=
  (alloc_obj e [e.locals, LOOP, fs, brk, cont]).bind fun (b, e) => .ok { e with locals := b }

/-- `cgc_add_enclosing_switch`, exe version (env.c:175-184). -/
def add_enclosing_switch (e : Env) (fs brk next : Int) : Res Env :=
  (alloc_obj e [e.locals, SWITCH, fs, brk, next, 0]).bind fun (b, e) => .ok { e with locals := b }

/-- `cgc_add_global` (env.c:186-199). -/
def add_global (e : Env) (ident : Int) (width : Nat) (ty : Int) (static_local : Bool) : Res Env :=
  (alloc_obj e [if static_local then e.locals else e.globals, VAR_GLOBAL, ident, e.galloc, ty]).bind fun (b, e) =>
  let e := { e with galloc := e.galloc + width }
  .ok (if static_local then { e with locals := b } else { e with globals := b })

/-- `cgc_add_global_fun` (env.c:201-210). -/
def add_global_fun (e : Env) (ident label ty : Int) : Res Env :=
  (alloc_obj e [e.globals, FUN, ident, 0, label, ty]).bind fun (b, e) => .ok { e with globals := b }

/-- `cgc_add_enum` (env.c:212-219). -/
def add_enum (e : Env) (ident value : Int) : Res Env :=
  (alloc_obj e [e.globals, ENUM_CST, ident, value]).bind fun (b, e) => .ok { e with globals := b }

/-- `resolve_identifier` (exe.c:803-819). -/
def resolve_identifier (e : Env) (ident : Int) : Res Nat :=
  (lookup_var e.heap (e.top + 1) ident e.locals).bind fun b => if b ≠ 0 then .ok b else
  (lookup_var e.heap (e.top + 1) ident e.globals).bind fun b => if b ≠ 0 then .ok b else
  (lookup_binding_ident e.heap (e.top + 1) FUN ident e.globals).bind fun b => if b ≠ 0 then .ok b else
  (lookup_binding_ident e.heap (e.top + 1) ENUM_CST ident e.globals).bind fun b => if b ≠ 0 then .ok b else
  .fatal

mutual
/-- What the statements of a function body (exe.c:2087-2346) do with names. `decl` and `static` are
local declarations (size in words, in bytes; the type node), `use` is a reference to an identifier,
`loop` a WHILE, FOR or DO with its break and continue labels, `switch` with its break label and
first case label, `alloc` any other allocation in the heap. -/
inductive St where
  | decl (x : Int) (size : Nat) (ty : Int)
  | static (x : Int) (size : Nat) (ty : Int)
  | use (x : Int)
  | block (b : Sts)
  | loop (brk cont : Int) (b : Sts)
  | switch (brk next : Int) (b : Sts)
  | brk
  | cont
  | alloc (cells : List Int)
inductive Sts where
  | nil
  | cons (s : St) (r : Sts)
end

/-- What the code generator gets or emits: the kind of binding found with its two data words (stack
position or address and type for a variable; value for an enumeration constant; label for a
function), or the stack adjustment in words and the target of a jump. -/
inductive Out where
  | param (pos ty : Int)
  | var (pos ty : Int)
  | global (addr ty : Int)
  | fn (label : Int)
  | const (v : Int)
  | jump (words lbl : Int)
deriving DecidableEq, Repr

/-- The switch on `binding_kind` in `codegen_rvalue` (exe.c:1368-1665). -/
def use_binding (e : Env) (b : Nat) : Res Out :=
  let k := e.heap (b + 1)
  if k = PARAM_LOCAL then .ok (.param (e.heap (b + 3)) (e.heap (b + 4)))
  else if k = VAR_LOCAL then .ok (.var (e.heap (b + 3)) (e.heap (b + 4)))
  else if k = VAR_GLOBAL then .ok (.global (e.heap (b + 3)) (e.heap (b + 4)))
  else if k = ENUM_CST then .ok (.const (e.heap (b + 3)))
  else if k = FUN then .ok (.fn (e.heap (b + 4)))
  else .fatal

mutual
/-- `codegen_statement` (exe.c:2087-2346) and the declarations of `codegen_body`
(exe.c:2066-2085). -/
def stmt (e : Env) : St → Res (Env × List Out)
  | .decl x size ty => (add_local_var e x size ty).bind fun e => .ok (e, [])
  | .static x size ty => (add_global e x size ty true).bind fun e => .ok (e, [])
  | .use x => (resolve_identifier e x).bind fun b => (use_binding e b).bind fun o => .ok (e, [o])
  | .block b =>
    (stmts e b).bind fun (e', os) => .ok ({ e' with fs := e.fs, locals := e.locals }, os)
  | .loop brk cont b =>
    (add_enclosing_loop e e.fs brk cont).bind fun e1 =>
    (stmts e1 b).bind fun (e', os) => .ok ({ e' with fs := e.fs, locals := e.locals }, os)
  | .switch brk next b =>
    (add_enclosing_switch e e.fs brk next).bind fun e1 =>
    (stmts { e1 with fs := e1.fs + 1 } b).bind fun (e', os) =>
    .ok ({ e' with fs := e.fs, locals := e.locals }, os)
  | .brk =>
    (lookup_loop_or_switch e.heap (e.top + 1) e.locals).bind fun b =>
    if b ≠ 0 then .ok (e, [.jump (e.heap (b + 2) - e.fs) (e.heap (b + 3))]) else .fatal
  | .cont =>
    (lookup_last_binding e.heap (e.top + 1) LOOP e.locals).bind fun b =>
    if b ≠ 0 ∧ e.heap (b + 4) ≠ 0 then .ok (e, [.jump (e.heap (b + 2) - e.fs) (e.heap (b + 4))])
    else .fatal
  | .alloc cells => (alloc_obj e cells).bind fun (_, e) => .ok (e, [])
/-- A statement list. -/
def stmts (e : Env) : Sts → Res (Env × List Out)
  | .nil => .ok (e, [])
  | .cons s r => (stmt e s).bind fun (e, os) => (stmts e r).bind fun (e, os') => .ok (e, os ++ os')
end

/-- `add_params` (exe.c:2348-2365). -/
def add_params (e : Env) : List (Int × Nat × Int) → Res Env
  | [] => .ok e
  | (x, width, ty) :: ps =>
    (lookup_var e.heap (e.top + 1) x e.locals).bind fun b =>
    if b ≠ 0 then .fatal else (add_local_param e x width ty).bind fun e => add_params e ps

/-- Declarations at file scope: variables (`codegen_glo_var_decl` (exe.c:1964-1992): a second
declaration of the same variable allocates nothing; `init` lists the identifiers of the initialiser), functions (`codegen_glo_fun_decl` (exe.c:2367-2416)) with
label, type, parameters and body, enumeration constants (`codegen_enum` (exe.c:1740-1757)). -/
inductive Glo where
  | var (x : Int) (size : Nat) (ty : Int) (init : List Int)
  | fn (x lbl ty : Int) (params : List (Int × Nat × Int)) (body : Sts)
  | enum (x v : Int)

/-- The identifiers of an initialiser. -/
def uses (e : Env) : List Int → Res (List Out)
  | [] => .ok []
  | x :: xs => (resolve_identifier e x).bind fun b => (use_binding e b).bind fun o =>
      (uses e xs).bind fun os => .ok (o :: os)

/-- `codegen_glo_decl` (exe.c:2429-2455) on these declarations. `cgc_locals` is not reset after a
function. -/
def glo (e : Env) : Glo → Res (Env × List Out)
  | .var x size ty init =>
    (lookup_var e.heap (e.top + 1) x e.globals).bind fun b =>
    (if b ≠ 0 then .ok e else add_global e x size ty false).bind fun e =>
    (uses e init).bind fun os => .ok (e, os)
  | .fn x lbl ty ps body =>
    (lookup_binding_ident e.heap (e.top + 1) FUN x e.globals).bind fun b =>
    (if b = 0 then add_global_fun e x lbl ty else .ok e).bind fun e =>
    (add_params { e with fs := -1, locals := 0 } ps).bind fun e =>
    (stmts { e with fs := 0 } body).bind fun (e', os) => .ok ({ e' with fs := 0, locals := e.locals }, os)
  | .enum x v => (add_enum e x v).bind fun e => .ok (e, [])

/-- A translation unit. -/
def glos (e : Env) : List Glo → Res (Env × List Out)
  | [] => .ok (e, [])
  | g :: gs => (glo e g).bind fun (e, os) => (glos e gs).bind fun (e, os') => .ok (e, os ++ os')

/-- State at the start of code generation, with the heap in use up to `top`. -/
def start (heap : Nat → Int) (top : Nat) : Env := ⟨heap, top, 0, 0, 0, 0⟩

end Verif.Env
