import Verif.IfMask.Model
/-! Specification of conditional inclusion: nested groups and the text they select
(C standard 6.10.1). -/
namespace Verif.IfMask.Spec
open Verif.IfMask (Ev Macros Cond)

/-- The opening line of a group. -/
inductive Head where
  | ifdef (n : Nat)
  | ifndef (n : Nat)
  | ifc (c : Cond)

mutual
/-- A properly nested piece of source. -/
inductive Src where
  | nil
  | tok (a : Nat) (rest : Src)
  | define (n : Nat) (rest : Src)
  | undef (n : Nat) (rest : Src)
  | group (h : Head) (body : Src) (tail : Tail) (rest : Src)
/-- What follows the first branch: `#elif`s, then an optional `#else`, then `#endif`. -/
inductive Tail where
  | endif
  | elif (c : Cond) (body : Src) (tail : Tail)
  | els (body : Src)
end

def Head.ev : Head → Ev
  | .ifdef n => .ifdef n
  | .ifndef n => .ifndef n
  | .ifc c => .ifc c

/-- Does the opening condition hold?  `none`: the condition cannot be evaluated. -/
def Head.holds (m : Macros) : Head → Option Bool
  | .ifdef n => some (m n)
  | .ifndef n => some (!m n)
  | .ifc c => c m

mutual
/-- The source text, as a sequence of lines. -/
def Src.lines : Src → List Ev
  | .nil => []
  | .tok a r => .tok a :: r.lines
  | .define n r => .define n :: r.lines
  | .undef n r => .undef n :: r.lines
  | .group h b t r => h.ev :: (b.lines ++ (t.lines ++ r.lines))
def Tail.lines : Tail → List Ev
  | .endif => [.endif]
  | .elif c b t => .elifc c :: (b.lines ++ t.lines)
  | .els b => .elsed :: (b.lines ++ [.endif])
end

mutual
/-- The tokens selected and the macros afterwards. -/
def Src.select (m : Macros) : Src → List Nat × Macros
  | .nil => ([], m)
  | .tok a r => let (o, m') := r.select m; (a :: o, m')
  | .define n r => r.select (upd m n true)
  | .undef n r => r.select (upd m n false)
  | .group h b t r =>
    let (o1, m1) := if h.holds m = some true then b.select m else t.select m
    let (o2, m2) := r.select m1
    (o1 ++ o2, m2)
/-- Selection among the remaining branches when no earlier branch was selected: the first branch
whose condition holds, else the `#else` branch, else nothing. -/
def Tail.select (m : Macros) : Tail → List Nat × Macros
  | .endif => ([], m)
  | .elif c b t => if c m = some true then b.select m else t.select m
  | .els b => b.select m
end

mutual
/-- Nesting depth. -/
def Src.depth : Src → Nat
  | .nil => 0
  | .tok _ r | .define _ r | .undef _ r => r.depth
  | .group _ b t r => max (max (b.depth + 1) t.depth) r.depth
def Tail.depth : Tail → Nat
  | .endif => 0
  | .elif _ b t => max (b.depth + 1) t.depth
  | .els b => b.depth + 1
end

/-- A condition that can be evaluated under any macros. -/
def Cond.Total (c : Cond) : Prop := ∀ m, c m ≠ none

mutual
/-- All conditions of a source can be evaluated. -/
def Src.Total : Src → Prop
  | .nil => True
  | .tok _ r | .define _ r | .undef _ r => r.Total
  | .group h b t r =>
    (match h with | .ifc c => Cond.Total c | _ => True) ∧ b.Total ∧ t.Total ∧ r.Total
def Tail.Total : Tail → Prop
  | .endif => True
  | .elif c b t => Cond.Total c ∧ b.Total ∧ t.Total
  | .els b => b.Total
end

end Verif.IfMask.Spec
