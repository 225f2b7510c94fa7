import Verif.Text.Lines
/-! What a code generator does with lines: it emits them, nests blocks, compiles code that it keeps for
later, emits kept code, and leaves gaps that are filled at the end. -/
namespace Verif.Text.Spec
open Verif Verif.Text

inductive Prog where
  /-- nothing more -/
  | done
  /-- a line with the text `t` -/
  | line (t : Int) (k : Prog)
  /-- `body` one level deeper -/
  | block (body k : Prog)
  /-- compile `body` for later use: in `k` it is the kept code number 0 -/
  | keep (body k : Prog)
  /-- emit the kept code number `i`, at the current level if `reindent` -/
  | emit (i : Nat) (reindent : Bool) (k : Prog)
  /-- a line whose text is supplied at the end -/
  | gap (k : Prog)

/-- A line: nesting level and text. -/
abbrev Line := Int × Int

/-- The lines the program means; `fill n` is the text of gap number `n`. `level` is the current
nesting, `kept` the kept code, `gaps` the number of gaps so far. -/
def Prog.lines (fill : Nat → Int) : Prog → Int → List (List Line) → Nat → List Line × Nat
  | .done, _, _, gaps => ([], gaps)
  | .line t k, level, kept, gaps =>
    let r := k.lines fill level kept gaps
    ((level, t) :: r.1, r.2)
  | .block body k, level, kept, gaps =>
    let b := body.lines fill (level + 1) kept gaps
    let r := k.lines fill level kept b.2
    (b.1 ++ r.1, r.2)
  | .keep body k, level, kept, gaps =>
    let b := body.lines fill level kept gaps
    k.lines fill level (b.1 :: kept) b.2
  | .emit i reindent k, level, kept, gaps =>
    let code := (kept[i]?).getD []
    let r := k.lines fill level kept gaps
    ((if reindent then code.map (fun l => (level, l.2)) else code) ++ r.1, r.2)
  | .gap k, level, kept, gaps =>
    let r := k.lines fill level kept (gaps + 1)
    ((level, fill gaps) :: r.1, r.2)

/-- The text of the script: each line on its own, indented by two blanks per level; a line with the
empty text is not printed. -/
def script (render : Int → List Nat) (ls : List Line) : List Nat :=
  ls.flatMap fun l => if l.2 = 0 then [] else List.replicate (2 * l.1.toNat) 32 ++ render l.2 ++ [10]

/-- No gaps in kept code, and gaps only inside a block (`inBlock`). -/
def Prog.GapsOk : Prog → (inBlock inKeep : Bool) → Prop
  | .done, _, _ => True
  | .line _ k, b, c => k.GapsOk b c
  | .block body k, b, c => body.GapsOk true c ∧ k.GapsOk b c
  | .keep body k, b, c => body.GapsOk b true ∧ k.GapsOk b c
  | .emit _ _ k, b, c => k.GapsOk b c
  | .gap k, b, c => b = true ∧ c = false ∧ k.GapsOk b c

/-- The code generator at work, with the functions of sh.c: kept code is undone and its range of indices
remembered (as comp_loop does, sh.c:1997-2009); the indices of the gaps are collected. -/
def Prog.exec : Prog → List (Nat × Nat) → List Nat → GD → Res (List Nat × GD)
  | .done, _, gaps, g => .ok (gaps, g)
  | .line t k, kept, gaps, g => (append_glo_decl t g).bind fun g => k.exec kept gaps g
  | .block body k, kept, gaps, g =>
    (body.exec kept gaps { g with nest := g.nest + 1 }).bind fun (gaps, g) =>
    k.exec kept gaps { g with nest := g.nest - 1 }
  | .keep body k, kept, gaps, g =>
    (body.exec kept gaps g).bind fun (gaps, g') =>
    let g' := undo_glo_decls (g'.ix + 1) g.ix g'
    k.exec ((g.ix, g'.ix) :: kept) gaps g'
  | .emit i reindent k, kept, gaps, g =>
    let r := (kept[i]?).getD (0, 0)
    (replay_glo_decls reindent (r.2 + 1) r.1 r.2 g).bind fun g => k.exec kept gaps g
  | .gap k, kept, gaps, g =>
    (append_glo_decl_fixup g).bind fun (i, g) => k.exec kept (gaps ++ [i]) g

/-- Filling the gaps (sh.c:2271-2276). -/
def fillGaps (fill : Nat → Int) : Nat → List Nat → GD → Res GD
  | _, [], g => .ok g
  | n, i :: is, g => (fixup_glo_decl i (fill n) g).bind fun g => fillGaps fill (n + 1) is g

end Verif.Text.Spec
