import Verif.Layout.Model
/-! Model of aggregate initialisation in `exe.c`.

The emitted instructions are represented by their effect on memory (bytes indexed by addresses;
their encoding and their effect are the subject of C31).  The value of an initialiser expression is
given (evaluation of expressions is C29), and does not depend on the object being initialised. -/
namespace Verif.Layout
open Verif

abbrev Mem := Nat → Nat

/-- Effect of `mov_mem8_reg`, `mov_mem16_reg`, `mov_mem32_reg`, `mov_mem64_reg` (x86.c:285-322): the low `k` bytes of `v`,
little-endian. -/
def store (m : Mem) (a : Nat) (v : Int) : Nat → Mem
  | 0 => m
  | k + 1 => store (fun x => if x = a then (v % 256).toNat else m x) (a + 1) (v / 256) k

/-- The `k` bytes at `a`, little-endian. -/
def load (m : Mem) (a : Nat) : Nat → Nat
  | 0 => 0
  | k + 1 => m a % 256 + 256 * load m (a + 1) k

mutual
/-- Initialisers as `parse_initializer` (pnut.c:3130-3136) and `parse_initializer_list`
(pnut.c:3106-3128) build them: a scalar expression with value `v`, an expression of struct or union
type that designates the object at address `src`, a string literal, a braced list. -/
inductive Init where
  | expr (v : Int)
  | obj (src : Nat)
  | str (bs : List Nat)
  | list (is : Inits)
inductive Inits where
  | nil
  | cons (x : Init) (rest : Inits)
end

/-- `write_mem_location` (exe.c:176-188). -/
def write_mem_location (w : Nat) (m : Mem) (a : Nat) (v : Int) (width : Nat) : Res Mem :=
  if width > w then .fatal
  else if width = 1 ∨ width = 2 ∨ width = 4 ∨ width = 8 then .ok (store m a v width)
  else .fatal

/-- The first loop of `initialize_memory` (exe.c:206-215), `n` words to go. -/
def zero_words (w : Nat) (m : Mem) (a : Nat) : Nat → Mem
  | 0 => m
  | n + 1 => zero_words w (store m a 0 w) (a + w) n
/-- The second loop of `initialize_memory` (exe.c:206-215), `n` bytes to go. -/
def zero_bytes (m : Mem) (a : Nat) : Nat → Mem
  | 0 => m
  | n + 1 => zero_bytes (store m a 0 1) (a + 1) n
/-- `initialize_memory` (exe.c:206-215) with value 0. -/
def initialize_memory (w : Nat) (m : Mem) (a width : Nat) : Mem :=
  zero_bytes (zero_words w m a (width / w)) (a + (width - width % w)) (width % w)

/-- The first loop of `copy_obj` (exe.c:190-203). -/
def copy_words (w : Nat) (m : Mem) (dst src : Nat) : Nat → Mem
  | 0 => m
  | n + 1 => copy_words w (store m dst (load m src w) w) (dst + w) (src + w) n
/-- The second loop of `copy_obj` (exe.c:190-203). -/
def copy_bytes (m : Mem) (dst src : Nat) : Nat → Mem
  | 0 => m
  | n + 1 => copy_bytes (store m dst (load m src 1) 1) (dst + 1) (src + 1) n
/-- `copy_obj` (exe.c:190-203). -/
def copy_obj (w : Nat) (m : Mem) (dst src width : Nat) : Mem :=
  copy_bytes (copy_words w m dst src (width / w)) (dst + (width - width % w)) (src + (width - width % w)) (width % w)

/-- The loop of `codegen_initializer_string` (exe.c:1798-1822): `n` bytes to go, from the string
and then zeros. -/
def string_go (m : Mem) (a : Nat) (bs : List Nat) : Nat → Mem
  | 0 => m
  | n + 1 => string_go (store m a (bs.headD 0) 1) (a + 1) bs.tail n

/-- `codegen_initializer_string` (exe.c:1798-1822); `sp bs` is the address of the string literal.
Pointers are opaque in the model: all are treated as `char *`. -/
def init_string (w : Nat) (sp : List Nat → Int) (bs : List Nat) (T : Ty) (off : Nat) (m : Mem) : Res Mem :=
  match T with
  | .arr n .char => if bs.length > n then .fatal else .ok (string_go m off bs n)
  | .ptr => .ok (store m off (sp bs) w)
  | _ => .fatal

/-- The second loop of the struct case of `codegen_initializer` (exe.c:1825-1928): members without
initialiser. -/
def zero_rest (w : Nat) : Ms → Nat → Mem → Res Mem
  | .nil, _, m => .ok m
  | .cons _ t rest, off, m => (type_width w t).bind fun k =>
      zero_rest w rest (off + k) (initialize_memory w m off k)

mutual
/-- `codegen_initializer` (exe.c:1825-1928). `loc` is its parameter `local`. Reading the head or
the tail of an empty list is `ub`. -/
def init_go (w : Nat) (sp : List Nat → Int) (loc : Bool) : Init → Ty → Nat → Mem → Res Mem
  | .str bs, T, off, m => init_string w sp bs T off m
  | .list is, T, off, m =>
    match T with
    | .arr n e => (type_width w e).bind fun k => arr_go w sp loc is e k n off m
    | .agg false ms => struct_go w sp loc is ms off m
    | .agg true ms => union_go w sp loc is ms off m
    | T => (type_width w T).bind fun k =>
      match is with
      | .nil => .ub
      | .cons _ (.cons _ _) => .fatal
      | .cons (.list _) .nil => .fatal
      | .cons (.expr v) .nil => write_mem_location w m off v k
      | .cons (.str bs) .nil => write_mem_location w m off (sp bs) k
      | .cons (.obj _) .nil => .ub
  | .obj src, T, off, m =>
    match T with
    | .agg _ _ => (type_width3 w T true true).bind fun k => .ok (copy_obj w m off src k)
    | .arr _ _ => .fatal
    | _ => .ub
  | .expr v, T, off, m =>
    match T with
    | .agg _ _ => .fatal
    | .arr _ _ => .fatal
    | T => (type_width w T).bind fun k => write_mem_location w m off v k
/-- The array case of `codegen_initializer` (exe.c:1825-1928): `n` elements of `k` bytes left. -/
def arr_go (w : Nat) (sp : List Nat → Int) (loc : Bool) : Inits → Ty → Nat → Nat → Nat → Mem → Res Mem
  | .nil, _, k, n, off, m => .ok (if loc ∧ n > 0 then initialize_memory w m off (k * n) else m)
  | .cons x is, e, k, n, off, m =>
    if n = 0 then .fatal
    else (init_go w sp loc x e off m).bind fun m => arr_go w sp loc is e k (n - 1) (off + k) m
/-- The struct case of `codegen_initializer` (exe.c:1825-1928). -/
def struct_go (w : Nat) (sp : List Nat → Int) (loc : Bool) : Inits → Ms → Nat → Mem → Res Mem
  | .nil, ms, off, m => if loc then zero_rest w ms off m else .ok m
  | .cons _ _, .nil, _, m => .ok m
  | .cons x is, .cons _ t rest, off, m =>
    (init_go w sp loc x t off m).bind fun m =>
    (type_width w t).bind fun k => struct_go w sp loc is rest (off + k) m
/-- The union case of `codegen_initializer` (exe.c:1825-1928). -/
def union_go (w : Nat) (sp : List Nat → Int) (loc : Bool) : Inits → Ms → Nat → Mem → Res Mem
  | .nil, _, _, _ => .ub
  | .cons _ (.cons _ _), _, _, _ => .fatal
  | .cons _ .nil, .nil, _, _ => .fatal
  | .cons x .nil, .cons _ t _, off, m => init_go w sp loc x t off m
end

end Verif.Layout
