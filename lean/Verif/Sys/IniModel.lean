import Verif.Sys.Model
import Verif.Cg.Model
/-! Model of the initial values of global variables: `codegen_initializer` (exe.c:1825-1928) with `local = false`, `codegen_initializer_string` (exe.c:1798-1822),
`codegen_glo_var_decl` (exe.c:1964-1992) and the loop over the declarations (exe.c:2429-2455).

Simplifications: initial values that are whole structs (exe.c:1907-1912) are not modelled (`fatal`); the
functions and initial values are compiled with the tables that all declarations make, not only those before them. -/
namespace Verif.Sys
open Verif Verif.Gen Verif.X86 Verif.Cg

/-- Initialisers as `parse_initializer` builds them (pnut.c:3106-3136): an expression that is not a string literal, a string literal (its identity and its bytes, as in `E.str`), a braced list (`nil`/`cons`). -/
inductive Ini where
  | expr (e : E)
  | str (k : Nat) (bs : List Nat)
  | list (is : Ini)
  | nil
  | cons (x : Ini) (rest : Ini)

/-- The loop of `codegen_initializer_string` (exe.c:1798-1822): `n` bytes to go. The code is the same for both signs of `char` as only the low byte is stored. -/
def string_code (w : Nat) (off : Int) (bs : List Nat) : Nat → Res (List Emit)
  | 0 => .ok []
  | n + 1 =>
    (write_mem_location w 3 off 0 1).bind fun st =>
    (string_code w (off + 1) bs.tail n).bind fun r => .ok ([.mov_reg_imm 0 (bs.headD 0)] ++ st ++ r)

/-- The scalar case of `codegen_initializer` (exe.c:1825-1928, 1913-1917). -/
def scalar_code (w : Nat) (T : Tags) (Γ : Env) (e : E) (t : CTy) (off : Int) (l : Nat) : Res (List Asm × Nat) :=
  (codegen_rvalue w T Γ e 0 l).bind fun (c, _, l) =>
  (type_width w T t true).bind fun k =>
  (write_mem_location w 3 off 0 k).bind fun st => .ok (c ++ I [.pop_reg 0] ++ I st, l)

mutual
/-- `codegen_initializer` (exe.c:1825-1928) for a global variable; `mm` gives the names of the members of a struct or union in order. -/
def init_code (w : Nat) (T : Tags) (mm : Nat → List Nat) (Γ : Env) : Ini → CTy → Int → Nat → Res (List Asm × Nat)
  | .str k bs, t, off, l =>
    match t with
    | .arr n (.char _) => if bs.length > n then .fatal else (string_code w off bs n).bind fun c => .ok (I c, l)
    | .ptr (.char _) => scalar_code w T Γ (.str k bs) t off l -- the store is of a word (exe.c:1814-1818), which is the width of a pointer
    | _ => .fatal
  | .list is, t, off, l =>
    match t with
    | .arr n e => (type_width w T e true).bind fun k => init_elems w T mm Γ is e k n off l
    | .agg false tag => init_members w T mm Γ is tag (mm tag) off l
    | .agg true tag => init_union w T mm Γ is tag (mm tag) off l
    | t => init_scalar w T mm Γ is t off l
  | .expr e, t, off, l =>
    match t with
    | .agg _ _ => .fatal -- not modelled: struct copies
    | .arr _ _ => .fatal
    | t => if isStr e then .fatal else scalar_code w T Γ e t off l
  | _, _, _, _ => .fatal
/-- The array case of `codegen_initializer` (exe.c:1825-1928): `n` elements of `k` bytes left. -/
def init_elems (w : Nat) (T : Tags) (mm : Nat → List Nat) (Γ : Env) : Ini → CTy → Nat → Nat → Int → Nat → Res (List Asm × Nat)
  | .nil, _, _, _, _, l => .ok ([], l)
  | .cons x is, e, k, n, off, l =>
    if n = 0 then .fatal
    else
      (init_code w T mm Γ x e off l).bind fun (c, l) =>
      (init_elems w T mm Γ is e k (n - 1) (off + k) l).bind fun (cs, l) => .ok (c ++ cs, l)
  | _, _, _, _, _, _ => .fatal
/-- The struct case of `codegen_initializer` (exe.c:1825-1928); values without a member are left out silently. -/
def init_members (w : Nat) (T : Tags) (mm : Nat → List Nat) (Γ : Env) : Ini → Nat → List Nat → Int → Nat → Res (List Asm × Nat)
  | .nil, _, _, _, l => .ok ([], l)
  | .cons x is, tag, ms, off, l =>
    match ms with
    | [] => .ok ([], l)
    | m :: ms =>
      match T.mem tag m with
      | none => .ub
      | some t =>
        (init_code w T mm Γ x t off l).bind fun (c, l) =>
        (type_width w T t true).bind fun k =>
        (init_members w T mm Γ is tag ms (off + k) l).bind fun (cs, l) => .ok (c ++ cs, l)
  | _, _, _, _, _ => .fatal
/-- The union case of `codegen_initializer` (exe.c:1825-1928). -/
def init_union (w : Nat) (T : Tags) (mm : Nat → List Nat) (Γ : Env) : Ini → Nat → List Nat → Int → Nat → Res (List Asm × Nat)
  | .cons x .nil, tag, ms, off, l =>
    match ms with
    | [] => .fatal
    | m :: _ =>
      match T.mem tag m with
      | none => .ub
      | some t => init_code w T mm Γ x t off l
  | .nil, _, _, _, _ => .ub
  | _, _, _, _, _ => .fatal
/-- The scalar case with braces (exe.c:1903-1912). -/
def init_scalar (w : Nat) (T : Tags) (mm : Nat → List Nat) (Γ : Env) : Ini → CTy → Int → Nat → Res (List Asm × Nat)
  | .cons (.expr e) .nil, t, off, l => scalar_code w T Γ e t off l
  | .cons (.str k bs) .nil, t, off, l => scalar_code w T Γ (.str k bs) t off l
  | .nil, _, _, _ => .ub
  | _, _, _, _ => .fatal
end

/-- A top-level declaration with code: a function, or a global variable (name, type) with its initial value. -/
inductive Top where
  | fn (f : Fun)
  | var (x : Nat) (t : CTy) (init : Option Ini)

/-- `codegen_glo_decl` (exe.c:2429-2455) for every declaration, with `codegen_glo_var_decl` (exe.c:1964-1992); `offs` gives the places of the global variables. -/
def genTops (w : Nat) (T : Tags) (mm : Nat → List Nat) (Γ : Env) : List Top → Nat → Res (List Decl × Nat)
  | [], l => .ok ([], l)
  | .fn f :: ts, l =>
    (codegen_glo_fun_decl w T Γ f l).bind fun (c, l) =>
    (genTops w T mm Γ ts l).bind fun (ds, l) => .ok (.code c :: ds, l)
  | .var _ _ none :: ts, l => genTops w T mm Γ ts l
  | .var x t (some i) :: ts, l =>
    match Γ.globals.find? (·.1 = x) with
    | none => .ub
    | some (_, off, _) =>
      (init_code w T mm Γ i t off (l + 1)).bind fun (c, l') =>
      (genTops w T mm Γ ts l').bind fun (ds, l') => .ok (.init l c :: ds, l')

end Verif.Sys
