import Verif.Text.Model
/-! Model of the list of generated lines (sh.c:339-464). `glo_decls` holds three cells per line: nesting
level, activity, text. Nothing checks the capacity `GLO_DECL_SIZE`: storing beyond it is `ub`. -/
namespace Verif.Text
open Verif

/-- `glo_decls`, `glo_decl_ix`, `nest_level` (sh.c:340-343). -/
structure GD where
  cells : Nat → Int
  ix : Nat
  nest : Int

def GD.init : GD := ⟨fun _ => 0, 0, 0⟩

/-- Three stores at `glo_decl_ix` and its increment (sh.c:375-378, 382-385). -/
def push3 (a b c : Int) (g : GD) : Res GD :=
  if g.ix + 3 ≤ 100000 then .ok { g with cells := writeList g.cells g.ix [a, b, c], ix := g.ix + 3 } else .ub

/-- `append_glo_decl` (sh.c:374-379). -/
def append_glo_decl (decl : Int) (g : GD) : Res GD := push3 g.nest 1 decl g

/-- `append_glo_decl_fixup` (sh.c:381-387): the index of the line and the new state. -/
def append_glo_decl_fixup (g : GD) : Res (Nat × GD) :=
  (push3 (-g.nest) 1 0 g).bind fun g => .ok (g.ix - 3, g)

/-- `fixup_glo_decl` (sh.c:389-394). -/
def fixup_glo_decl (fixup_ix : Nat) (decl : Int) (g : GD) : Res GD :=
  if g.cells fixup_ix ≥ 0 then .fatal
  else .ok { g with cells := upd (upd g.cells fixup_ix (-g.cells fixup_ix)) (fixup_ix + 2) decl }

/-- `undo_glo_decls` (sh.c:403-408); `n` bounds the number of iterations. -/
def undo_glo_decls : Nat → Nat → GD → GD
  | 0, _, g => g
  | n + 1, start, g =>
    if start < g.ix then undo_glo_decls n (start + 3) { g with cells := upd g.cells (start + 1) (g.cells (start + 1) - 1) } else g

/-- `any_active_glo_decls` (sh.c:412-418). -/
def any_active_glo_decls : Nat → Nat → GD → Bool
  | 0, _, _ => false
  | n + 1, start, g =>
    if start < g.ix then
      if g.cells (start + 1) ≠ 0 ∧ g.cells (start + 2) ≠ 0 then true else any_active_glo_decls n (start + 3) g
    else false

/-- `replay_glo_decls` (sh.c:424-432). -/
def replay_glo_decls (reindent : Bool) : Nat → Nat → Nat → GD → Res GD
  | 0, _, _, g => .ok g
  | n + 1, start, stop, g =>
    if start < stop then
      (if g.cells (start + 1) = 0 then
        (append_glo_decl (g.cells (start + 2)) g).bind fun g =>
        .ok (if !reindent then { g with cells := upd g.cells (g.ix - 3) (g.cells start) } else g)
       else .ok g).bind fun g => replay_glo_decls reindent n (start + 3) stop g
    else .ok g

/-- `replay_glo_decls_inline` (sh.c:434-445), first part: the concatenation. `semi` is the text of the
literal "; ", allocated anew for each line by the code: here `wrap_str_lit` at the address `lit`. -/
def replay_inline_go (g : GD) (lit : Int) : Nat → Nat → Nat → Int → TP → Res (Int × TP)
  | 0, _, _, res, tp => .ok (res, tp)
  | n + 1, start, stop, res, tp =>
    if start < stop then
      (if g.cells (start + 1) = 0 then
        (wrap_str_lit lit tp).bind fun (semi, tp) => concatenate_strings_with res (g.cells (start + 2)) semi tp
       else .ok (res, tp)).bind fun (res, tp) => replay_inline_go g lit n (start + 3) stop res tp
    else .ok (res, tp)

/-- `replay_glo_decls_inline` (sh.c:434-445). -/
def replay_glo_decls_inline (g : GD) (lit : Int) (start stop : Nat) (tp : TP) : Res (Int × TP) :=
  (replay_inline_go g lit (stop + 1) start stop 0 tp).bind fun (res, tp) =>
  if res ≠ 0 then (wrap_str_lit lit tp).bind fun (semi, tp) => string_concat [res, semi] tp else .ok (res, tp)

/-- `print_glo_decls` (sh.c:447-464): the characters printed, `pt` being `print_text`. -/
def print_glo_decls (pt : Int → Res (List Nat)) : Nat → Nat → GD → Res (List Nat)
  | 0, _, _ => .ok []
  | n + 1, i, g =>
    if i < g.ix then
      (if g.cells (i + 1) = 1 then
        if g.cells (i + 2) ≠ 0 then
          (pt (g.cells (i + 2))).bind fun s =>
          .ok (List.replicate (2 * (g.cells i).toNat) 32 ++ s ++ [10])
        else .ok []
       else .ok []).bind fun s => (print_glo_decls pt n (i + 3) g).bind fun rest => .ok (s ++ rest)
    else .ok []

end Verif.Text
