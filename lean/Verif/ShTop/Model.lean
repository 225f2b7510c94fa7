import Verif.Base
/-! Model of the top level of the shell backend: which runtime functions end up in the script and when
(sh-runtime.c, `produce_runtime`), how each top-level declaration is turned into commands
(`comp_glo_decl` and the functions it calls, sh.c:2192-2504), and how the script ends (`epilogue`).

Scripts are lists of structured commands, not text; the printing of texts is C23/C24.  The names of the
script are kept apart by family (`Nm`): that the printed names of different families differ is C14. -/
namespace Verif.ShTop
open Verif

/-- C identifiers, interned (C01). -/
abbrev Id := Nat

/-! Identifiers the shell backend knows (pnut.c:1596-1677). -/
def idMain : Id := 0
def idPutchar : Id := 1
def idGetchar : Id := 2
def idExit : Id := 3
def idMalloc : Id := 4
def idFree : Id := 5
def idPrintf : Id := 6
def idFopen : Id := 7
def idFclose : Id := 8
def idFgetc : Id := 9
def idRead : Id := 10
def idWrite : Id := 11
def idOpen : Id := 12
def idClose : Id := 13
/-- `put_pstr`: not a C function, but the runtime defines `_put_pstr` (sh-runtime.c:577). -/
def idPutPstr : Id := 14
def idPuts : Id := 15
def idPutstr : Id := 16

/-- Compile-time options (pnut.c:43-130). `compact` is `RT_COMPACT`, `long` `OPTIMIZE_LONG_LINES`,
`noInit` `RT_NO_INIT_GLOBALS`, `rtInlinePc` `RT_INLINE_PUTCHAR`, `saveSet` `SH_SAVE_VARS_WITH_SET`
(otherwise `SH_INITIALIZE_PARAMS_WITH_LET`), `avoidPrintf` `SH_AVOID_PRINTF_USE`, `inlinePc`
`SH_INLINE_PUTCHAR`, `inlineExit` `SH_INLINE_EXIT`, `inlineChar` `SH_INLINE_CHAR_LITERAL`.
`SUPPORT_ADDRESS_OF_OP` is off, as in every build of the repository. -/
structure Cfg where
  compact : Bool
  long : Bool
  noInit : Bool
  rtInlinePc : Bool
  saveSet : Bool
  avoidPrintf : Bool
  inlinePc : Bool
  inlineExit : Bool
  inlineChar : Bool
  deriving DecidableEq, Repr

/-- Names of the runtime that are not of the form `_x`: helper functions and variables. -/
inductive H where
  | defarr | initialize | initialize_memory | unpack_string | make_argv | next_sub_buffer
  | unpack_escaped_string | defstr | char_to_int | let_ | endlet | read_int | pad
  | printf_invalid_format_error | printf_reset | unpack_line | refill_buffer | read_byte
  /-- `__ALLOC` -/
  | alloc
  /-- `__` -/
  | under
  | sp | c2i | stdin_buf | stdin_line_ending | stdin_buf16 | stdin_buf256 | stdin_end
  | buffer_fd0 | cursor_fd0 | buflen_fd0
  | state_fd (k : Nat)
  | argc_for_main | argv_for_main | code
  deriving DecidableEq, Repr

/-- Names of the script, by family (sh.c:472-536, 835-893). -/
inductive Nm where
  /-- `_x`: C functions, global variables, enumeration constants -/
  | g (x : Id)
  /-- `x`: parameters and local variables -/
  | loc (x : Id)
  /-- `__tK`: temporaries -/
  | tmp (k : Nat)
  /-- `__str_K`: string constants -/
  | str (k : Nat)
  /-- `__a__`, `__NEWLINE__`, …: character constants -/
  | chr (c : Nat)
  /-- `__m`: structure members -/
  | mem (m : Id)
  /-- `__sizeof__s` -/
  | szof (s : Id)
  /-- the runtime's own names -/
  | rt (h : H)
  deriving DecidableEq, Repr

/-- What a command or a function body refers to: it calls a function, or reads a variable. -/
inductive Need where
  | fn (n : Nm)
  | var (n : Nm)
  deriving DecidableEq, Repr

/-- Right-hand sides of the assignments at the top level: `5`, `$_A`, `$((…))`. -/
inductive Rv where
  | int (v : Int)
  | var (n : Nm)
  | neg (a : Rv)
  | add (a b : Rv)
  | sub (a b : Rv)
  | mul (a b : Rv)
  deriving DecidableEq, Repr

/-- One line of the script (a function definition is one line, with what its body refers to). -/
inductive Cmd where
  | defun (n : Nm) (needs : List Need)
  /-- `n=v` of the runtime -/
  | set (n : Nm) (v : Int)
  /-- `: $((a = b = 0))` -/
  | zero (ns : List Nm)
  /-- `n=rhs` -/
  | assign (n : Nm) (rhs : Rv)
  /-- `readonly n=rhs` -/
  | readonly (n : Nm) (rhs : Rv)
  /-- `_malloc n size` -/
  | malloc (n : Nm) (size : Nat)
  /-- `defarr n len args…` -/
  | defarr (n : Nm) (len : Nat) (args : List Rv)
  /-- `defstr n "bytes" size` -/
  | defstr (n : Nm) (bytes : List Nat) (size : Option Nat)
  /-- `__argc_for_main=…; make_argv …; __argv_for_main=…` -/
  | argv
  /-- `_main __code …; exit $__code` (`ret`) or `_main __ …` -/
  | callMain (ret args : Bool)
  deriving DecidableEq, Repr

/-! ### The runtime library -/

/-- The runtime functions (`DEFINE_RUNTIME_FUN`, sh-runtime.c:83-933). -/
inductive Rt where
  | local_vars | char_to_int | malloc | initialize | defarr | free | unpack_string | make_argv
  | unpack_escaped_string | defstr | exit | putchar | getchar | put_pstr | printf | open_ | read_byte
  | read | write | fopen | close | fclose | fgetc
  deriving DecidableEq, Repr

/-- State of the compiler: the flags `runtime_X_defined` and `runtime_use_X` (sh-runtime.c:9-13), the
characters used (`characters_useds`, sh.c:350), the tags and counter of string constants (sh.c:347, 549-558),
the flags about `main` (sh.c:353-354), the script printed so far and the commands of the current
declaration not printed yet (`glo_decls`, sh.c:341). -/
structure E where
  defined : Rt → Bool
  use : Rt → Bool
  chars : Nat → Bool
  tag : List Nat → Nat
  counter : Nat
  mainDefined : Bool
  mainReturns : Bool
  out : List Cmd
  pend : List Cmd

/-- `runtime_X_defined = true`. -/
def E.markDefined (s : E) (f : Rt) : E := { s with defined := fun g => if g = f then true else s.defined g }
/-- `runtime_use_X = true`. -/
def E.setUse (s : E) (f : Rt) : E := { s with use := fun g => if g = f then true else s.use g }
/-- Printing commands directly (`putstr`). -/
def E.put (s : E) (cs : List Cmd) : E := { s with out := s.out ++ cs }
/-- `append_glo_decl` (sh.c:374). -/
def E.append (s : E) (c : Cmd) : E := { s with pend := s.pend ++ [c] }

/-- `DEFINE_RUNTIME_FUN … DEPENDS_ON … END_RUNTIME_FUN` (sh-runtime.c:9-16): nothing if defined already;
otherwise mark it defined, run the dependencies, print the text. -/
def once (f : Rt) (deps : E → E) (text : E → List Cmd) (s : E) : E :=
  if s.defined f then s
  else
    let s1 := deps (s.markDefined f)
    s1.put (text s1)

/-- `call_char_to_int` (sh-runtime.c:18-22). -/
def charCall (c : Cfg) : List Need := if c.compact then [] else [.fn (.rt .char_to_int)]

/-- `runtime_local_vars` (sh-runtime.c:83-107). -/
def rtLocalVars (c : Cfg) : E → E := once .local_vars id fun _ =>
  .set (.rt .under) 0 ::
  (if c.saveSet then []
   else [.set (.rt .sp) 0,
         .defun (.rt .let_) [.var (.rt .sp)],
         .defun (.rt .endlet) [.var (.rt .sp), .var (.rt .under)]])

/-- `runtime_char_to_int` (sh-runtime.c:111-275); the table `__c2i_X` is one name here. -/
def rtCharToInt (c : Cfg) : E → E := once .char_to_int id fun _ =>
  if c.compact then []
  else [.set (.rt .c2i) 0, .defun (.rt .char_to_int) [.var (.rt .c2i)]]

/-- `runtime_malloc` (sh-runtime.c:278-291). -/
def rtMalloc : E → E := once .malloc id fun _ =>
  [.set (.rt .alloc) 1, .defun (.g idMalloc) [.var (.rt .alloc)]]

/-- `runtime_initialize` (sh-runtime.c:293-312). -/
def rtInitialize : E → E := once .initialize id fun _ => [.defun (.rt .initialize) []]

/-- `runtime_defarr` (sh-runtime.c:314-331). -/
def rtDefarr (c : Cfg) : E → E := once .defarr
  (fun s =>
    let s := rtMalloc s
    if c.noInit then (if s.use .initialize then rtInitialize s else s)
    else rtInitialize s)
  (fun s =>
    if c.noInit then
      (if s.use .initialize then [.defun (.rt .defarr) [.fn (.g idMalloc), .fn (.rt .initialize)]]
       else [.defun (.rt .defarr) [.fn (.g idMalloc)]])
    else [.defun (.rt .defarr) [.fn (.g idMalloc), .fn (.rt .initialize_memory)]])

/-- `runtime_free` (sh-runtime.c:340-352). -/
def rtFree : E → E := once .free id fun _ => [.defun (.g idFree) []]

/-- `runtime_unpack_string` (sh-runtime.c:355-392). -/
def rtUnpackString (c : Cfg) : E → E := once .unpack_string (fun s => rtCharToInt c (rtMalloc s)) fun _ =>
  [.defun (.rt .unpack_string) (.fn (.g idMalloc) :: charCall c)]

/-- `runtime_make_argv` (sh-runtime.c:394-408). -/
def rtMakeArgv (c : Cfg) : E → E := once .make_argv (fun s => rtUnpackString c (rtMalloc s)) fun _ =>
  [.defun (.rt .make_argv) [.fn (.g idMalloc), .fn (.rt .unpack_string)]]

/-- `runtime_unpack_escaped_string` (sh-runtime.c:448-486). -/
def rtUnpackEscaped (c : Cfg) : E → E :=
  once .unpack_escaped_string (fun s => rtCharToInt c (rtMalloc s)) fun _ =>
    (if c.long then [Cmd.defun (.rt .next_sub_buffer) []] else []) ++
    [.defun (.rt .unpack_escaped_string)
      (.fn (.g idMalloc) :: charCall c ++ (if c.long then [.fn (.rt .next_sub_buffer)] else []))]

/-- `runtime_defstr` (sh-runtime.c:488-505). -/
def rtDefstr (c : Cfg) : E → E := once .defstr (rtUnpackEscaped c) fun _ =>
  [.defun (.rt .defstr) [.fn (.rt .unpack_escaped_string)]]

/-- `runtime_exit` (sh-runtime.c:507-511). -/
def rtExit : E → E := once .exit id fun _ => [.defun (.g idExit) []]

/-- `runtime_putchar` (sh-runtime.c:514-519). -/
def rtPutchar : E → E := once .putchar id fun _ => [.defun (.g idPutchar) []]

/-- `runtime_getchar` (sh-runtime.c:521-569). -/
def rtGetchar (c : Cfg) : E → E := once .getchar (rtCharToInt c) fun _ =>
  [.set (.rt .stdin_buf) 0, .set (.rt .stdin_line_ending) 0] ++
  (if c.long then [.set (.rt .stdin_buf16) 0, .set (.rt .stdin_buf256) 0, .set (.rt .stdin_end) 1] else []) ++
  [.defun (.g idGetchar)
    ([.var (.rt .stdin_buf), .var (.rt .stdin_line_ending)] ++
     (if c.long then [.var (.rt .stdin_buf16), .var (.rt .stdin_buf256), .var (.rt .stdin_end)] else []) ++
     charCall c)]

/-- `runtime_put_pstr` (sh-runtime.c:572-588). -/
def rtPutPstr (c : Cfg) : E → E := once .put_pstr (if c.rtInlinePc then id else rtPutchar) fun _ =>
  [.defun (.g idPutPstr) (if c.rtInlinePc then [] else [.fn (.g idPutchar)])]

/-- `runtime_printf` (sh-runtime.c:592-704). -/
def rtPrintf (c : Cfg) : E → E := once .printf (rtPutPstr c) fun _ =>
  [.defun (.rt .read_int) [],
   .defun (.rt .pad) [],
   .defun (.rt .printf_invalid_format_error) [.fn (.g idPutPstr)],
   .defun (.rt .printf_reset) [],
   .defun (.g idPrintf) [.fn (.rt .printf_reset), .fn (.rt .printf_invalid_format_error), .fn (.rt .pad),
     .fn (.g idPutPstr), .fn (.rt .read_int)]]

/-- `runtime_open` (sh-runtime.c:706-774). -/
def rtOpen (c : Cfg) : E → E := once .open_ (fun s => rtPutPstr c (rtMalloc s)) fun _ =>
  [.malloc (.rt .buffer_fd0) 1000, .set (.rt .cursor_fd0) 0, .set (.rt .buflen_fd0) 1000,
   .set (.rt (.state_fd 0)) 0, .set (.rt (.state_fd 1)) 1, .set (.rt (.state_fd 2)) 2,
   .set (.rt (.state_fd 3)) (-1), .set (.rt (.state_fd 4)) (-1), .set (.rt (.state_fd 5)) (-1),
   .set (.rt (.state_fd 6)) (-1), .set (.rt (.state_fd 7)) (-1), .set (.rt (.state_fd 8)) (-1),
   .set (.rt (.state_fd 9)) (-1),
   .defun (.g idOpen)
     [.var (.rt (.state_fd 0)), .var (.rt (.state_fd 1)), .var (.rt (.state_fd 2)), .var (.rt (.state_fd 3)),
      .var (.rt (.state_fd 4)), .var (.rt (.state_fd 5)), .var (.rt (.state_fd 6)), .var (.rt (.state_fd 7)),
      .var (.rt (.state_fd 8)), .var (.rt (.state_fd 9)), .fn (.g idMalloc), .fn (.g idPutPstr)]]

/-- `runtime_read_byte` (sh-runtime.c:776-852). -/
def rtReadByte (c : Cfg) : E → E :=
  once .read_byte (fun s => rtCharToInt c (rtFree (rtMalloc s))) fun _ =>
    [.defun (.rt .unpack_line) (charCall c),
     .defun (.rt .refill_buffer) [.fn (.g idFree), .fn (.g idMalloc), .fn (.rt .unpack_line)],
     .defun (.rt .read_byte) [.fn (.rt .refill_buffer)]]

/-- `runtime_read` (sh-runtime.c:854-867); reading descriptor 0 uses its buffer. -/
def rtRead (c : Cfg) : E → E := once .read (fun s => rtOpen c (rtReadByte c s)) fun _ =>
  [.defun (.g idRead) [.fn (.rt .read_byte), .var (.rt .buffer_fd0), .var (.rt .cursor_fd0),
    .var (.rt .buflen_fd0)]]

/-- `runtime_write` (sh-runtime.c:869-880). -/
def rtWrite (c : Cfg) : E → E := once .write (rtOpen c) fun _ => [.defun (.g idWrite) []]

/-- `runtime_fopen` (sh-runtime.c:884-895). -/
def rtFopen (c : Cfg) : E → E := once .fopen (fun s => rtOpen c (rtMalloc s)) fun _ =>
  [.defun (.g idFopen) [.fn (.g idOpen), .fn (.g idMalloc)]]

/-- `runtime_close` (sh-runtime.c:897-913); closing descriptor 0 releases its buffer. -/
def rtClose (c : Cfg) : E → E := once .close (fun s => rtFree (rtOpen c s)) fun _ =>
  [.defun (.g idClose) [.var (.rt .buffer_fd0), .fn (.g idFree)]]

/-- `runtime_fclose` (sh-runtime.c:915-924). -/
def rtFclose (c : Cfg) : E → E := once .fclose (fun s => rtClose c (rtFree s)) fun _ =>
  [.defun (.g idFclose) [.fn (.g idFree), .fn (.g idClose)]]

/-- `runtime_fgetc` (sh-runtime.c:926-933). -/
def rtFgetc (c : Cfg) : E → E := once .fgetc (rtReadByte c) fun _ =>
  [.defun (.g idFgetc) [.fn (.rt .read_byte)]]

/-- `if (runtime_use_X) runtime_X();`. -/
def ifUse (f : Rt) (r : E → E) (s : E) : E := if s.use f then r s else s

/-- `produce_runtime` (sh-runtime.c:935-954).  `unpack_string` is only asked for by `#include_shell`
(sh.c:5-26), which is not modelled. -/
def produceRuntime (c : Cfg) (s : E) : E :=
  let s := ifUse .defstr (rtDefstr c) s
  let s := ifUse .putchar rtPutchar s
  let s := ifUse .getchar (rtGetchar c) s
  let s := ifUse .exit rtExit s
  let s := ifUse .malloc rtMalloc s
  let s := ifUse .free rtFree s
  let s := ifUse .put_pstr (rtPutPstr c) s
  let s := ifUse .printf (rtPrintf c) s
  let s := ifUse .fopen (rtFopen c) s
  let s := ifUse .fclose (rtFclose c) s
  let s := ifUse .fgetc (rtFgetc c) s
  let s := ifUse .read (rtRead c) s
  let s := ifUse .write (rtWrite c) s
  let s := ifUse .open_ (rtOpen c) s
  let s := ifUse .close (rtClose c) s
  let s := ifUse .make_argv (rtMakeArgv c) s
  let s := ifUse .local_vars (rtLocalVars c) s
  ifUse .unpack_string (rtUnpackString c) s

/-! ### The C program, as far as the top level is concerned -/

/-- The arguments of a call, as far as the compiler's special cases look at them: a single string
literal; a string literal followed by at least one argument (`hasS`: the format has a `%s`); a single
other argument; anything else. -/
inductive Args where
  | lit
  | fmt (hasS : Bool)
  | one
  | other
  deriving DecidableEq, Repr

/-- What a function body mentions, in the order in which the compiler meets it. -/
inductive Ev where
  /-- a call; `drop` if its value is not used (the call is a statement) -/
  | call (f : Id) (drop : Bool) (args : Args)
  /-- a string literal that is not the format of a translated `printf` -/
  | str (s : List Nat)
  | chr (c : Nat)
  | var (x : Id)
  | member (m : Id)
  | sizeofStruct (s : Id)
  deriving DecidableEq, Repr

/-- A function definition; `temps` is the number of temporaries its body needs (`fun_gensym_ix`). -/
structure FunDef where
  name : Id
  params : List Id
  locals : List Id
  temps : Nat
  void : Bool
  body : List Ev
  deriving DecidableEq, Repr

/-- A constant expression, as initialiser of a scalar. -/
inductive IE where
  | int (v : Int)
  | chr (c : Nat)
  | name (x : Id)
  | str (s : List Nat)
  | neg (a : IE)
  | add (a b : IE)
  | sub (a b : IE)
  | mul (a b : IE)
  deriving DecidableEq, Repr

/-- An element of an initialiser list: a number, a character, a string, or anything else (which the
shell backend refuses). -/
inductive El where
  | int (v : Int)
  | chr (c : Nat)
  | str (s : List Nat)
  | other
  deriving DecidableEq, Repr

/-- The initialiser of an array declaration. -/
inductive AInit where
  | none
  | str (s : List Nat)
  | list (es : List El)
  | other
  deriving DecidableEq, Repr

/-- The declared thing of one declarator of a global declaration (`len = 0`: no length given). -/
inductive Decl where
  | scalar (x : Id) (init : Option IE)
  | array (x : Id) (len : Nat) (init : AInit)
  | proto (f : Id)
  deriving DecidableEq, Repr

/-- The type of a member, as far as `comp_struct` looks at it. -/
inductive MTy where
  | scalar | array | struct
  deriving DecidableEq, Repr

/-- A type specifier.  An empty list of cases or members stands for a mere reference to the tag
(`parse_enum`, `parse_struct_or_union`, pnut.c:2640-2641, 2717-2718). -/
inductive TySpec where
  | basic
  | enum (tag : Option Id) (cases : List (Id × Int))
  | struct (tag : Option Id) (members : List (Id × MTy))
  | union
  deriving DecidableEq, Repr

/-- A declaration at the top level. -/
inductive Top where
  | decls (spec : TySpec) (ext : Bool) (ds : List Decl)
  | fn (f : FunDef)
  | proto
  | tag (spec : TySpec)
  | typedef (spec : TySpec)
  deriving DecidableEq, Repr

/-! ### Function bodies -/

/-- `character_ident` has a name for the character (sh.c:841-893). -/
def charOk (c : Nat) : Bool :=
  c == 0 || (7 ≤ c && c ≤ 13) || (32 ≤ c && c ≤ 126)

/-- `character_ident` (sh.c:841-893): mark the character as used. -/
def charIdent (s : E) (c : Nat) : Res E :=
  if charOk c then .ok { s with chars := fun d => if d = c then true else s.chars d } else .fatal

/-- `fresh_string_ident` (sh.c:549-558).  The first string gets the tag 0, which also means "none". -/
def freshString (s : E) (str : List Nat) : E × Nat :=
  let s1 := if s.tag str = 0 then
      { s with counter := s.counter + 1, tag := fun t => if t = str then s.counter else s.tag t }
    else s
  (s1, s1.tag str)

/-- The chain of `runtime_use_X = true` for called functions (sh.c:1758-1770). -/
def useOf : Id → Option Rt
  | 1 => some .putchar
  | 2 => some .getchar
  | 3 => some .exit
  | 4 => some .malloc
  | 5 => some .free
  | 6 => some .printf
  | 7 => some .fopen
  | 8 => some .fclose
  | 9 => some .fgetc
  | 10 => some .read
  | 11 => some .write
  | 12 => some .open_
  | 13 => some .close
  | _ => none

/-- `list_singleton(params) != 0`. -/
def Args.single : Args → Bool
  | .lit | .one => true
  | _ => false

/-- Mark the runtime function behind a called name (sh.c:1758-1770). -/
def markUse (s : E) (f : Id) : E :=
  match useOf f with
  | some r => s.setUse r
  | none => s

/-- `comp_fun_call_code` (sh.c:1727-1777): the new state and what the emitted code refers to.  The
arguments are compiled separately (they are other events of the body). -/
def compCall (c : Cfg) (s : E) (f : Id) (drop : Bool) (args : Args) : E × List Need :=
  if c.avoidPrintf && drop && (f == idPuts || f == idPutstr || f == idPrintf) && args == .lit then (s, [])
  else if c.avoidPrintf && drop && f == idPrintf && args == .fmt true then
    (s.setUse .put_pstr, [.fn (.g idPutPstr)])
  else if c.avoidPrintf && drop && f == idPrintf && args == .fmt false then (s, [])
  else if c.avoidPrintf && drop && c.inlinePc && f == idPutchar && args.single then (s, [])
  else if c.avoidPrintf && drop && c.inlineExit && f == idExit && args.single then (s, [])
  else (markUse s f, [.fn (.g f)])

/-- One thing mentioned in a body (sh.c:1060-1087, 1201-1233, 1266-1279, 1727-1777).  `env` are the
parameters and local variables: other names are global (`env_var_with_prefix`, sh.c:513-528). -/
def compEv (c : Cfg) (env : List Id) (s : E) : Ev → Res (E × List Need)
  | .call f drop args => .ok (compCall c s f drop args)
  | .str t =>
    let (s1, _) := freshString s t
    .ok (s1.setUse .defstr, [.fn (.rt .defstr)])
  | .chr ch =>
    if c.inlineChar then .ok (s, [])
    else (charIdent s ch).bind fun s1 => .ok (s1, [.var (.chr ch)])
  | .var x => .ok (s, [.var (if env.contains x then .loc x else .g x)])
  | .member m => .ok (s, [.var (.mem m)])
  | .sizeofStruct t => .ok (s, [.var (.szof t)])

/-- A body (`comp_body`, sh.c:1809-1826). -/
def compEvs (c : Cfg) (env : List Id) : E → List Ev → Res (E × List Need)
  | s, [] => .ok (s, [])
  | s, e :: es =>
    (compEv c env s e).bind fun r =>
      (compEvs c env r.1 es).bind fun r' => .ok (r'.1, r.2 ++ r'.2)

/-- The temporaries `__t1` … `__tN`. -/
def tmps (n : Nat) : List Nm := (List.range n).map fun i => .tmp (i + 1)

/-- Everything saved and restored around a body (sh.c:630-795). -/
def FunDef.vars (f : FunDef) : List Nm := tmps f.temps ++ (f.locals ++ f.params).map .loc

/-- What the code saving and restoring the local variables refers to (`let_params`, `save_local_vars`,
`restore_local_vars`, sh.c:630-795). -/
def saveNeeds (c : Cfg) (vs : List Nm) : List Need :=
  if vs.isEmpty then []
  else if c.saveSet then .var (.rt .under) :: vs.map .var
  else [.fn (.rt .let_), .fn (.rt .endlet)] ++ vs.map .var

/-- `comp_glo_fun_decl` (sh.c:2192-2283). -/
def compFun (c : Cfg) (s : E) (f : FunDef) : Res E :=
  let s1 := if f.name = idMain then
      let s := { s with mainDefined := true }
      let s := if f.params.isEmpty then s else s.setUse .make_argv
      if f.void then s else { s with mainReturns := true }
    else s
  (compEvs c (f.locals ++ f.params) s1 f.body).bind fun r =>
    let s2 := if f.vars.isEmpty then r.1 else r.1.setUse .local_vars
    .ok (s2.append (.defun (.g f.name) (saveNeeds c f.vars ++ r.2)))

/-! ### Global variables -/

/-- `comp_defstr` at the top level (sh.c:1060-1087): the runtime function is printed at once. -/
def compDefstr (c : Cfg) (s : E) (n : Nm) (str : List Nat) (size : Option Nat) : E :=
  (rtDefstr c s).append (.defstr n str size)

/-- The strings of an expression, in the order of `literals_inits` (a stack: the last one first,
sh.c:964-968, 1397-1401), each with its identifier. -/
def litInits : E → IE → E × List (Nat × List Nat)
  | s, .str t => let r := freshString s t; (r.1, [(r.2, t)])
  | s, .neg a => litInits s a
  | s, .add a b => let r := litInits s a; let q := litInits r.1 b; (q.1, q.2 ++ r.2)
  | s, .sub a b => let r := litInits s a; let q := litInits r.1 b; (q.1, q.2 ++ r.2)
  | s, .mul a b => let r := litInits s a; let q := litInits r.1 b; (q.1, q.2 ++ r.2)
  | s, _ => (s, [])

/-- The code of a constant expression at the top level (`comp_rvalue_go`, sh.c:1201-1383).  The
identifiers of strings are handed out by `litInits`; `ids` lists them from the left. -/
def compRv (c : Cfg) : E → List Nat → IE → Res (E × List Nat × Rv)
  | s, ids, .int v => .ok (s, ids, .int v)
  | s, ids, .chr ch =>
    if c.inlineChar then .ok (s, ids, .int ch)
    else (charIdent s ch).bind fun s1 => .ok (s1, ids, .var (.chr ch))
  | s, ids, .name x => .ok (s, ids, .var (.g x))
  | s, [], .str _ => .ok (s, [], .int 0)
  | s, k :: ids, .str _ => .ok (s, ids, .var (.str k))
  | s, ids, .neg a => (compRv c s ids a).bind fun r => .ok (r.1, r.2.1, .neg r.2.2)
  | s, ids, .add a b =>
    (compRv c s ids a).bind fun r => (compRv c r.1 r.2.1 b).bind fun q => .ok (q.1, q.2.1, .add r.2.2 q.2.2)
  | s, ids, .sub a b =>
    (compRv c s ids a).bind fun r => (compRv c r.1 r.2.1 b).bind fun q => .ok (q.1, q.2.1, .sub r.2.2 q.2.2)
  | s, ids, .mul a b =>
    (compRv c s ids a).bind fun r => (compRv c r.1 r.2.1 b).bind fun q => .ok (q.1, q.2.1, .mul r.2.2 q.2.2)

/-- The `defstr` lines for the literals of an expression (sh.c:1397-1401). -/
def defLits (c : Cfg) : E → List (Nat × List Nat) → E
  | s, [] => s
  | s, (k, t) :: r => defLits c (compDefstr c s (.str k) t none) r

/-- `comp_assignment(name, init)` at the top level (sh.c:1784-1807). -/
def compAssign (c : Cfg) (s : E) (x : Id) (e : IE) : Res E :=
  let r := litInits s e
  let s1 := defLits c r.1 r.2
  (compRv c s1 (r.2.map (·.1)).reverse e).bind fun q => .ok (q.1.append (.assign (.g x) q.2.2))

/-- `comp_initializer_list` (sh.c:1096-1132).  Characters are written as numbers here. -/
def compInitList (c : Cfg) : E → List El → Res (E × List Rv)
  | s, [] => .ok (s.setUse .initialize, [])
  | s, e :: es =>
    let s := s.setUse .initialize
    match e with
    | .int v => (compInitList c s es).bind fun r => .ok (r.1, .int v :: r.2)
    | .chr ch => (compInitList c s es).bind fun r => .ok (r.1, .int ch :: r.2)
    | .str t =>
      let r := freshString s t
      let s1 := compDefstr c r.1 (.str r.2) t none
      (compInitList c s1 es).bind fun q => .ok (q.1, .var (.str r.2) :: q.2)
    | .other => .fatal

/-- The `defarr` line (sh.c:2330-2345). -/
def emitDefarr (c : Cfg) (s : E) (x : Id) (len : Nat) (args : List Rv) : Res E :=
  if len = 0 then .fatal
  else .ok ((rtDefarr c s).append (.defarr (.g x) len args))

/-- `comp_glo_var_decl` (sh.c:2285-2363). -/
def compDecl (c : Cfg) (s : E) : Decl → Res E
  | .proto _ => .ok s
  | .scalar x init => compAssign c s x (init.getD (.int 0))
  | .array x len (.str t) =>
    let initLen := t.length + 1
    if len ≠ 0 ∧ len < initLen then .fatal
    else .ok (compDefstr c s (.g x) t (some (if len ≠ 0 then len else initLen)))
  | .array x len (.list es) =>
    (compInitList c (s.setUse .initialize) es).bind fun r =>
      if len = 0 then emitDefarr c r.1 x es.length r.2
      else if len < es.length then .fatal
      else emitDefarr c r.1 x len r.2
  | .array x len .none => emitDefarr c s x len []
  | .array _ _ .other => .fatal

/-- All declarators of a declaration (sh.c:2483-2487). -/
def compDecls (c : Cfg) : E → List Decl → Res E
  | s, [] => .ok s
  | s, d :: ds => (compDecl c s d).bind fun s1 => compDecls c s1 ds

/-- `comp_enum_cases` (sh.c:2369-2386). -/
def compEnum : E → List (Id × Int) → E
  | s, [] => s
  | s, (x, v) :: r => compEnum (s.append (.readonly (.g x) (.int v))) r

/-- The loop of `comp_struct` (sh.c:2423-2435). -/
def compMembers : E → Nat → List (Id × MTy) → Res (E × Nat)
  | s, off, [] => .ok (s, off)
  | s, off, (m, t) :: r =>
    if t = .array ∨ t = .struct then .fatal
    else compMembers (s.append (.readonly (.mem m) (.int off))) (off + 1) r

/-- `comp_struct` (sh.c:2414-2442). -/
def compStruct (s : E) (tag : Option Id) (ms : List (Id × MTy)) : Res E :=
  (compMembers s 0 ms).bind fun r =>
    .ok (match tag with
      | some t => r.1.append (.readonly (.szof t) (.int r.2))
      | none => r.1)

/-- `handle_enum_struct_union_type_decl` (sh.c:2444-2454). -/
def compTySpec (s : E) : TySpec → Res E
  | .basic => .ok s
  | .enum _ cases => .ok (compEnum s cases)
  | .struct tag ms => compStruct s tag ms
  | .union => .fatal

/-- `comp_glo_decl` (sh.c:2473-2504).  The type specifier of a variable declaration is not looked at
(`handle_enum_struct_union_type_decl` is commented out, sh.c:2295). -/
def compTop (c : Cfg) (s : E) : Top → Res E
  | .decls _ ext ds => if ext then .fatal else compDecls c s ds
  | .fn f => compFun c s f
  | .proto => .ok s
  | .tag spec => compTySpec s spec
  | .typedef spec => compTySpec s spec

/-- The variables `initialize_function_variables` sets to 0 before the declaration (sh.c:2554-2581). -/
def initVars : Top → List Nm
  | .fn f => f.vars
  | _ => []

/-- `codegen_glo_decl` (sh.c:2590-2601): compile, print the initialisations, print the lines. -/
def codegenTop (c : Cfg) (s : E) (t : Top) : Res E :=
  (compTop c { s with pend := [] } t).bind fun s1 =>
    let z := if (initVars t).isEmpty then [] else [Cmd.zero (initVars t)]
    .ok { s1.put (z ++ s1.pend) with pend := [] }

/-- All declarations (pnut.c:4103-4111). -/
def codegen (c : Cfg) : E → List Top → Res E
  | s, [] => .ok s
  | s, t :: ts => (codegenTop c s t).bind fun s1 => codegen c s1 ts

/-- The lines for the character constants (sh.c:2521-2529). -/
def charLines (s : E) : List Cmd :=
  ((List.range 256).filter s.chars).map fun c => .readonly (.chr c) (.int c)

/-- `epilogue` (sh.c:2516-2551). -/
def epilogue (c : Cfg) (s : E) : E :=
  let s1 := produceRuntime c (s.put (charLines s))
  if s1.mainDefined then
    let s2 := if s1.use .make_argv then s1.put [.argv] else s1
    if s2.mainReturns then
      s2.put [.set (.rt .code) 0, .callMain true (s2.use .make_argv)]
    else s2.put [.callMain false (s2.use .make_argv)]
  else s1

/-- The state in which compilation starts (sh.c:340-372; sh-runtime.c:3-7 without
`INCLUDE_ALL_RUNTIME`). -/
def start : E where
  defined := fun _ => false
  use := fun _ => false
  chars := fun _ => false
  tag := fun _ => 0
  counter := 0
  mainDefined := false
  mainReturns := false
  out := []
  pend := []

/-- The script of a program (`codegen_begin`, declarations, `codegen_end`). -/
def script (c : Cfg) (p : List Top) : Res (List Cmd) :=
  (codegen c start p).bind fun s => .ok (epilogue c s).out

end Verif.ShTop
