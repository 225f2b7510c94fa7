import Verif.Frame.Model
/-! Model of the functions generated with `SH_SAVE_VARS_WITH_SET` (sh.c:630-706): the variables are
saved as extra positional parameters, `set $@ $a $b …`, and restored with
`: $((__tmp = $1)) $((a = $4)) $((b = $5)) … $(($1 = __tmp))`.

Simplifications as in `Model.lean`.  The positional parameters of an activation do not change after the
`set` command, so they are an argument of the interpretation.  All saved variables hold integers:
`initialize_function_variables` (sh.c:2553-2580) sets all of them at the start of the script, so none of
the words `$a` expands to nothing.  The lines that initialise the parameters (sh.c:2248-2261) are part
of `save`. -/
namespace Verif.Frame
open Verif Verif.Stmt

/-- First loop of `save_local_vars` (sh.c:632-659). -/
def set_env : List (Nat × Bool) → List Name → List Name
  | [], res => res
  | (x, _) :: r, res => set_env r (.loc x :: res)

/-- Second loop of `save_local_vars` (sh.c:632-659); `n` is `fun_gensym_ix`. -/
def set_temps (n : Nat) : (counter : Nat) → List Name → List Name
  | 0, res => res
  | c + 1, res => set_temps n c (res ++ [.temp (n - (c + 1) + 1)])

/-- `save_local_vars` with `SH_SAVE_VARS_WITH_SET` (sh.c:632-659): the words after `set $@`. -/
def save_with_set (f : Vars) : List Name := set_temps f.temps f.temps (set_env f.locals_fun [])

/-- Second loop of `restore_local_vars` (sh.c:662-705): variables and numbers of positional parameters. -/
def unset_env (params_count size : Nat) : List (Nat × Bool) → (pos : Nat) → List (Name × Nat) → List (Name × Nat)
  | [], _, res => res
  | (x, _) :: r, pos, res => unset_env params_count size r (pos + 1) ((.loc x, params_count + size - pos) :: res)

/-- Third loop of `restore_local_vars` (sh.c:662-705). -/
def unset_temps (params_count n : Nat) : (counter pos : Nat) → List (Name × Nat) → List (Name × Nat)
  | 0, _, res => res
  | c + 1, pos, res => unset_temps params_count n c (pos + 1) (res ++ [(.temp (n - (c + 1) + 1), params_count + pos + 1)])

/-- `restore_local_vars` with `SH_SAVE_VARS_WITH_SET` (sh.c:662-706). -/
def restore_with_set (f : Vars) (params_count : Nat) : List (Name × Nat) :=
  unset_temps params_count f.temps f.temps f.locals_fun.length
    (unset_env params_count f.locals_fun.length f.locals_fun 0 [])

/-- `$k` for `k ≥ 2`; `pos` holds `$2`, `$3`, … -/
def dollar (pos : List Int) (k : Nat) : Int := pos.getD (k - 2) 0

/-- The positional parameters from `$2` on, after `set $@ …`. -/
def positions (f : Fn) (args : List Int) (s : Store) : List Int := args ++ (save_with_set f.vars).map s

/-- The initialisation of the parameters (sh.c:2248-2261). -/
def init_params (f : Fn) (pos : List Int) (s : Store) : Store :=
  (let_params f.params 2).foldl (fun s p => set s p.1 (dollar pos p.2)) s

/-- The restore command (sh.c:703). -/
def restore_set (f : Fn) (pos : List Int) (ret : Name) (s : Store) : Store :=
  let s := set s .tmp (s ret)
  let s := (restore_with_set f.vars (1 + f.params.length)).foldl (fun s p => set s p.1 (dollar pos p.2)) s
  set s ret (s .tmp)

/-- The interpretation of the lines of `f`; `pos` are the positional parameters after `set`. -/
def shI2 (call : Nat → List Int → Name → Store → Option Store) (f : Fn) (pos : List Int) (ret : Name) : Interp Store :=
  { shI call f [] ret with
    save := if f.locals then init_params f pos else id
    restore := if f.locals then restore_set f pos ret else id }

/-- A call (`comp_fun_call_code`, sh.c:1727-1777) of function number `k`. -/
def scall2 (prog : Nat → Option Fn) (n : Nat) : Nat → Nat → List Int → Name → Store → Option Store
  | 0, _, _, _, _ => none
  | d + 1, k, args, ret, s =>
    match prog k with
    | none => none
    | some f => sfun (shI2 (scall2 prog n d) f (positions f args s) ret) n f.locals [] f.code s

end Verif.Frame
