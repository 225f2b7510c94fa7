import Verif.ShProg.Model
import Verif.Hoist.Spec
/-! What a C program may do.  Expressions are evaluated as in C37 (operands and arguments in any order, calls one at a time); each call has its own local variables, which hold the arguments or anything (indeterminate);
statements as in C99 6.8. -/
namespace Verif.ShProg.Spec
open Verif Verif.ShProg
open Verif.Hoist (Expr Machine)

/-- The variables of the function that is executed, and the globals. -/
structure CW (X : Type) where
  loc : Nat → Int
  g : Glob X


/-- The value of the variable with the identifier `x`. -/
def CW.read {X : Type} (x : Nat) (w : CW X) : Int := if x % 2 = 0 then w.loc (x / 2) else w.g.var (x / 2)

def CW.write {X : Type} (x : Nat) (v : Int) (w : CW X) : CW X :=
  if x % 2 = 0 then { w with loc := upd w.loc (x / 2) v } else { w with g := { w.g with var := upd w.g.var (x / 2) v } }

def CW.load (L : Lang) (a : Int) (w : CW L.X) : Option Int := if L.valid a w.g.x then some (w.g.mem a.toNat) else none

def CW.store (L : Lang) (a v : Int) (w : CW L.X) : Option (CW L.X) :=
  if L.valid a w.g.x then some { w with g := { w.g with mem := upd w.g.mem a.toNat v } } else none

/-- Variables and memory in C; `call` is what functions do. -/
@[reducible] def cM (L : Lang) (call : Nat → List Int → CW L.X → Option (Int × CW L.X)) : Machine where
  W := CW L.X
  read := CW.read
  write := CW.write
  load := CW.load L
  store := CW.store L
  un := L.un
  bin := L.bin
  call := call

/-- Calls: function, arguments, globals before, result, globals after. -/
abbrev Calls (L : Lang) := Nat → List Int → Glob L.X → Int → Glob L.X → Prop

variable {L : Lang}

/-- Functions that do, when they are called, one of the things that `C` allows; they do not touch the variables of the caller. -/
def Obeys (C : Calls L) (call : Nat → List Int → CW L.X → Option (Int × CW L.X)) : Prop :=
  ∀ f vs w r w', call f vs w = some (r, w') → C f vs w.g r w'.g ∧ w'.loc = w.loc

/-- One step of an evaluation (at most one call is made in it, which does something that `C` allows). -/
def Step (C : Calls L) (e : Expr) (w : CW L.X) (e' : Expr) (w' : CW L.X) : Prop :=
  ∃ call, Obeys C call ∧ Hoist.Spec.Step (cM L call) e w e' w'

inductive Steps (C : Calls L) : Expr → CW L.X → Expr → CW L.X → Prop
  | refl {e w} : Steps C e w e w
  | step {e w e' w' e'' w''} : Step C e w e' w' → Steps C e' w' e'' w'' → Steps C e w e'' w''

/-- The value of an expression. -/
def Evals (C : Calls L) (e : Expr) (w : CW L.X) (v : Int) (w' : CW L.X) : Prop := Steps C e w (.lit v) w'

/-- An expression statement has been executed: what is left of the expression, if anything, has no effects. -/
def Done (C : Calls L) (e : Expr) (w w' : CW L.X) : Prop := ∃ e', Steps C e w e' w' ∧ Hoist.Spec.noEffect e' = true ∧ Hoist.Spec.noCall e' = true

/-- How a statement ends. -/
inductive Out where
  | norm | brk | cont
  | ret (v : Option Int)

/-- The condition of `for` may be missing. -/
def Cond (C : Calls L) (c : Option Expr) (w : CW L.X) (b : Bool) (w' : CW L.X) : Prop :=
  match c with
  | none => b = true ∧ w' = w
  | some c => ∃ v, Evals C c w v w' ∧ b = (v != 0)

def DoneOpt (C : Calls L) (e : Option Expr) (w w' : CW L.X) : Prop :=
  match e with
  | none => w' = w
  | some e => Done C e w w'

/-- The statement has the label `case v:`. -/
def hasCase (v : Int) : CSt → Bool
  | .case_ u s => v == u || hasCase v s
  | .default_ s => hasCase v s
  | _ => false

/-- The statement has the label `default:`. -/
def hasDefault : CSt → Bool
  | .case_ _ s => hasDefault s
  | .default_ _ => true
  | _ => false

def anySt (p : CSt → Bool) : CSts → Bool
  | .nil => false
  | .cons s r => p s || anySt p r

/-- The statement that `switch` jumps to. -/
def target (v : Int) (b : CSts) : CSt → Bool := if anySt (hasCase v) b then hasCase v else hasDefault

/-- After `switch`, `break` is done. -/
def Out.unbreak : Out → Out
  | .brk => .norm
  | o => o

/-- Does a loop go on? -/
def Out.next : Out → Bool
  | .norm | .cont => true
  | _ => false

mutual
inductive Exec (C : Calls L) : CSt → CW L.X → Out → CW L.X → Prop
  | empty {w} : Exec C .empty w .norm w
  /-- the value is indeterminate -/
  | decl {x v w} : Exec C (.decl x) w .norm { w with loc := upd w.loc x v }
  | expr {e w w'} : Done C e w w' → Exec C (.expr e) w .norm w'
  | iteT {c a b v w w1 o w'} : Evals C c w v w1 → v ≠ 0 → Exec C a w1 o w' → Exec C (.ite c a b) w o w'
  | iteF {c a b v w w1 o w'} : Evals C c w v w1 → v = 0 → Exec C b w1 o w' → Exec C (.ite c a b) w o w'
  | while_ {c s w o w'} : Loop C (some c) none s w o w' → Exec C (.while_ c s) w o w'
  | doStop {s c w o w'} : Exec C s w o w' → o.next = false → Exec C (.do_ s c) w o.unbreak w'
  | doEnd {s c w o w1 v w'} : Exec C s w o w1 → o.next = true → Evals C c w1 v w' → v = 0 → Exec C (.do_ s c) w .norm w'
  | doNext {s c w o w1 v w2 o' w'} : Exec C s w o w1 → o.next = true → Evals C c w1 v w2 → v ≠ 0 → Exec C (.do_ s c) w2 o' w' → Exec C (.do_ s c) w o' w'
  | for_ {i c p s w w1 o w'} : DoneOpt C i w w1 → Loop C c p s w1 o w' → Exec C (.for_ i c p s) w o w'
  | switch {e b v w w1 o w'} : Evals C e w v w1 → From C (target v b) b w1 o w' → Exec C (.switch e b) w o.unbreak w'
  | break_ {w} : Exec C .break_ w .brk w
  | continue_ {w} : Exec C .continue_ w .cont w
  | ret {w} : Exec C (.ret none) w (.ret none) w
  | retE {e v w w'} : Evals C e w v w' → Exec C (.ret (some e)) w (.ret (some v)) w'
  | block {b w o w'} : Seq C b w o w' → Exec C (.block b) w o w'
  | case_ {v s w o w'} : Exec C s w o w' → Exec C (.case_ v s) w o w'
  | default_ {s w o w'} : Exec C s w o w' → Exec C (.default_ s) w o w'
/-- Loops: condition, what is done after each iteration, body. -/
inductive Loop (C : Calls L) : Option Expr → Option Expr → CSt → CW L.X → Out → CW L.X → Prop
  | done {c p s w w'} : Cond C c w false w' → Loop C c p s w .norm w'
  | stop {c p s w w1 o w'} : Cond C c w true w1 → Exec C s w1 o w' → o.next = false → Loop C c p s w o.unbreak w'
  | next {c p s w w1 o w2 w3 o' w'} : Cond C c w true w1 → Exec C s w1 o w2 → o.next = true → DoneOpt C p w2 w3 → Loop C c p s w3 o' w' → Loop C c p s w o' w'
/-- Statements in sequence. -/
inductive Seq (C : Calls L) : CSts → CW L.X → Out → CW L.X → Prop
  | nil {w} : Seq C .nil w .norm w
  | cons {s r w w1 o w'} : Exec C s w .norm w1 → Seq C r w1 o w' → Seq C (.cons s r) w o w'
  | stop {s r w o w'} : Exec C s w o w' → o ≠ .norm → Seq C (.cons s r) w o w'
/-- Statements in sequence, from the first one that satisfies `p`. -/
inductive From (C : Calls L) : (CSt → Bool) → CSts → CW L.X → Out → CW L.X → Prop
  | nil {p w} : From C p .nil w .norm w
  | skip {p s r w o w'} : p s = false → From C p r w o w' → From C p (.cons s r) w o w'
  | here {p s r w o w'} : p s = true → Seq C (.cons s r) w o w' → From C p (.cons s r) w o w'
end

/-- The value that a call yields: any value if the function does not return one (the caller must not use it). -/
def Result (o : Out) (r : Int) : Prop :=
  match o with
  | .norm | .ret none => True
  | .ret (some v) => r = v
  | .brk | .cont => False

/-- **What a call may do**, with at most `d` nested calls: with the globals `g` and arguments `args` function `k` may return `r` and leave `g'`. -/
def May (L : Lang) (P : Nat → Option FDef) : Nat → Calls L
  | 0, _, _, _, _, _ => False
  | d + 1, k, args, g, r, g' =>
    match P k with
    | some fd => ∃ loc o w', (∀ (i : Nat) p a, fd.params[i]? = some p → args[i]? = some a → loc p = a) ∧ Exec (May L P d) (.block fd.body) ⟨loc, g⟩ o w' ∧ w'.g = g' ∧ Result o r
    | none => ∃ v, L.builtin k args g = some (v, g') ∧ ∀ x, v = some x → r = x

/-! ## The programs covered -/

/-- Expressions of `return`. -/
def fragRet : Option Expr → Bool
  | none => true
  | some (.call _ as) => Hoist.Spec.fragArgs as
  | some e => Hoist.Spec.frag e && Hoist.Spec.orderOk e

def fragOpt (p : Expr → Bool) : Option Expr → Bool
  | none => true
  | some e => p e

mutual
/-- The expressions are those of C37. -/
def frag : CSt → Bool
  | .empty | .decl _ | .break_ | .continue_ => true
  | .expr e => Hoist.Spec.fragStmt e
  | .ite c a b => Hoist.Spec.fragTop c && frag a && frag b
  | .while_ c s => Hoist.Spec.fragTop c && frag s
  | .do_ s c => Hoist.Spec.fragTop c && frag s
  | .for_ i c p s => fragOpt Hoist.Spec.fragStmt i && fragOpt Hoist.Spec.fragTop c && fragOpt Hoist.Spec.fragStmt p && frag s
  | .switch e b => Hoist.Spec.frag e && Hoist.Spec.orderOk e && frags b
  | .ret e => fragRet e
  | .block b => frags b
  | .case_ _ s => frag s
  | .default_ s => frag s
def frags : CSts → Bool
  | .nil => true
  | .cons s r => frag s && frags r
end

/-- The functions of the program `P` and of the script `Q` correspond; their statements are those of C13 (`St.ok`), their expressions those of C37. -/
structure Script (P : Nat → Option FDef) (Q : Nat → Option CFn) : Prop where
  some : ∀ k f, Q k = some f → ∃ fd n, P k = some fd ∧ Compiled n fd f ∧ f.body.ok = true ∧ frags fd.body = true
  none : ∀ k, Q k = none → P k = none

end Verif.ShProg.Spec
