import Verif.Env.Model
/-! Specification: lexical scoping with a functional environment.  What a name denotes is described by
`Out` (the same observable as in the model).  A block is processed in its own extension of the
environment, which is simply dropped at its end. -/
namespace Verif.Env.Spec
open Verif.Env

/-- Meaning of names. -/
abbrev Scope := Int → Option Out
def Scope.set (ρ : Scope) (x : Int) (o : Out) : Scope := fun y => if y = x then some o else ρ y

/-- Where `break` and `continue` go: stack depth and label of the target. -/
structure Jumps where
  brk : Option (Int × Int)
  cont : Option (Int × Int)

/-- Scope, depth of the stack frame in words, next free static address. -/
structure Ctx where
  ρ : Scope
  d : Int
  g : Int

mutual
/-- A statement in the file scope `G`, inside constructs with jump targets `J`. `none`: undeclared name,
or a jump outside of a loop or switch. -/
def stmt (G : Scope) (J : Jumps) (c : Ctx) : St → Option (Ctx × List Out)
  | .decl x size ty => some (⟨c.ρ.set x (.var (c.d + size) ty), c.d + size, c.g⟩, [])
  | .static x size ty => some (⟨c.ρ.set x (.global c.g ty), c.d, c.g + size⟩, [])
  | .use x =>
    match c.ρ x with
    | some o => some (c, [o])
    | none => match G x with
      | some o => some (c, [o])
      | none => none
  | .block b => inner c (stmts G J c b)
  | .loop brk cont b => inner c (stmts G ⟨some (c.d, brk), some (c.d, cont)⟩ c b)
  | .switch brk _ b => inner c (stmts G ⟨some (c.d, brk), J.cont⟩ ⟨c.ρ, c.d + 1, c.g⟩ b)
  | .brk => match J.brk with
    | some (d, l) => some (c, [.jump (d - c.d) l])
    | none => none
  | .cont => match J.cont with
    | some (d, l) => some (c, [.jump (d - c.d) l])
    | none => none
  | .alloc _ => some (c, [])
def stmts (G : Scope) (J : Jumps) (c : Ctx) : Sts → Option (Ctx × List Out)
  | .nil => some (c, [])
  | .cons s r => match stmt G J c s with
    | none => none
    | some (c, os) => match stmts G J c r with
      | none => none
      | some (c, os') => some (c, os ++ os')
/-- Leave a construct: scope and depth are those from before it. -/
def inner (c : Ctx) : Option (Ctx × List Out) → Option (Ctx × List Out)
  | none => none
  | some (c', os) => some (⟨c.ρ, c.d, c'.g⟩, os)
end

/-- Parameters, in order, from stack position -1 down; no name twice. -/
def params (ρ : Scope) (pos : Int) : List (Int × Nat × Int) → Option Scope
  | [] => some ρ
  | (x, width, ty) :: ps =>
    if ρ x = none then params (ρ.set x (.param pos ty)) (pos - width) ps else none

/-- All names must be declared. -/
def uses (G : Scope) : List Int → Option (List Out)
  | [] => some []
  | x :: xs => match G x, uses G xs with
    | some o, some os => some (o :: os)
    | _, _ => none

/-- Declarations at file scope. A variable or a function keeps its first declaration. -/
def unit (G : Scope) (g : Int) : List Glo → Option (List Out)
  | [] => some []
  | .var x size ty init :: r =>
    let G' := if G x = none then G.set x (.global g ty) else G
    let g' := if G x = none then g + size else g
    match uses G' init, unit G' g' r with
    | some os, some os' => some (os ++ os')
    | _, _ => none
  | .fn x lbl _ ps body :: r =>
    let G' := if G x = none then G.set x (.fn lbl) else G
    match params (fun _ => none) (-1) ps with
    | none => none
    | some ρ => match stmts G' ⟨none, none⟩ ⟨ρ, 0, g⟩ body with
      | none => none
      | some (c, os) => match unit G' c.g r with
        | none => none
        | some os' => some (os ++ os')
  | .enum x v :: r => unit (G.set x (.const v)) g r

/-- File-scope names are used consistently: a name is declared as one kind of entity only, an
enumeration constant only once (C11 6.7p3, 6.2.3). -/
def OneMeaning (G : Scope) : List Glo → Prop
  | [] => True
  | .var x _ ty _ :: r => (G x = none ∨ ∃ a t, G x = some (.global a t)) ∧ OneMeaning (G.set x (.global 0 ty)) r
  | .fn x lbl _ _ _ :: r => (G x = none ∨ ∃ l, G x = some (.fn l)) ∧ OneMeaning (G.set x (.fn lbl)) r
  | .enum x v :: r => G x = none ∧ OneMeaning (G.set x (.const v)) r

/-- No initialiser at file scope names a parameter of the function defined last before it. -/
def NoStale (ps : List Int) : List Glo → Prop
  | [] => True
  | .var _ _ _ init :: r => (∀ x ∈ init, x ∉ ps) ∧ NoStale ps r
  | .fn _ _ _ ps' _ :: r => NoStale (ps'.map Prod.fst) r
  | .enum _ _ :: r => NoStale ps r

mutual
/-- `continue` labels are not 0 (labels are heap addresses, exe.c:419-429). -/
def Labels : St → Prop
  | .block b | .switch _ _ b => LabelsS b
  | .loop _ cont b => cont ≠ 0 ∧ LabelsS b
  | _ => True
def LabelsS : Sts → Prop
  | .nil => True
  | .cons s r => Labels s ∧ LabelsS r
end

mutual
/-- Heap cells the statement takes. -/
def cells : St → Nat
  | .decl _ _ _ | .static _ _ _ => 5
  | .use _ | .brk | .cont => 0
  | .block b => cellsS b
  | .loop _ _ b => 5 + cellsS b
  | .switch _ _ b => 6 + cellsS b
  | .alloc l => l.length
def cellsS : Sts → Nat
  | .nil => 0
  | .cons s r => cells s + cellsS r
end
def cellsG : List Glo → Nat
  | [] => 0
  | .var _ _ _ _ :: r => 5 + cellsG r
  | .fn _ _ _ ps b :: r => 6 + 5 * ps.length + cellsS b + cellsG r
  | .enum _ _ :: r => 4 + cellsG r
def LabelsG : List Glo → Prop
  | [] => True
  | .fn _ _ _ _ b :: r => LabelsS b ∧ LabelsG r
  | _ :: r => LabelsG r

end Verif.Env.Spec
