import Verif.Hoist.Model
/-! C's rules for the evaluation of expressions with calls (C99 6.5): the operands of an operator and the arguments of a call are evaluated in any order, also interleaved, the calls one at a time; `&&`, `||`,
`?:` and `,` evaluate their first operand first, and the other one only if it is needed. -/
namespace Verif.Hoist.Spec
open Verif Verif.Hoist

def values : Args → Option (List Int)
  | .nil => some []
  | .cons (.lit v) r => (values r).map (v :: ·)
  | _ => none

/-- The value of a comparison or of a logical operator (C99 6.5.13). -/
def truth (b : Bool) : Int := if b then 1 else 0

mutual
/-- One step of the evaluation; a value is a literal. -/
inductive Step (M : Machine) : Expr → M.W → Expr → M.W → Prop
  | var {x w} : Step M (.var x) w (.lit (M.read x w)) w
  | un {o v r w} : M.un o v = some r → Step M (.un o (.lit v)) w (.lit r) w
  | unIn {o e e' w w'} : Step M e w e' w' → Step M (.un o e) w (.un o e') w'
  | deref {a v w} : M.load a w = some v → Step M (.deref (.lit a)) w (.lit v) w
  | derefIn {e e' w w'} : Step M e w e' w' → Step M (.deref e) w (.deref e') w'
  | paren {v w} : Step M (.paren (.lit v)) w (.lit v) w
  | parenIn {e e' w w'} : Step M e w e' w' → Step M (.paren e) w (.paren e') w'
  /-- conversions are not modelled -/
  | cast {v w} : Step M (.cast (.lit v)) w (.lit v) w
  | castIn {e e' w w'} : Step M e w e' w' → Step M (.cast e) w (.cast e') w'
  | bin {c o x y r w} : M.bin o x y = some r → Step M (.bin c o (.lit x) (.lit y)) w (.lit r) w
  | binL {c o a a' b w w'} : Step M a w a' w' → Step M (.bin c o a b) w (.bin c o a' b) w'
  | binR {c o a b b' w w'} : Step M b w b' w' → Step M (.bin c o a b) w (.bin c o a b') w'
  | comma {x b w} : Step M (.comma (.lit x) b) w b w
  | commaL {a a' b w w'} : Step M a w a' w' → Step M (.comma a b) w (.comma a' b) w'
  /-- the object on the left is a variable or `*address` -/
  | assign {l v w w'} : M.set l v w = some w' → Step M (.assign l (.lit v)) w (.lit v) w'
  | assignL {e e' r w w'} : Step M e w e' w' → Step M (.assign (.deref e) r) w (.assign (.deref e') r) w'
  | assignR {l r r' w w'} : Step M r w r' w' → Step M (.assign l r) w (.assign l r') w'
  | opassign {o l v x y w w'} : M.get l w = some x → M.bin o x v = some y → M.set l y w = some w' → Step M (.opassign o l (.lit v)) w (.lit y) w'
  | opassignL {o e e' r w w'} : Step M e w e' w' → Step M (.opassign o (.deref e) r) w (.opassign o (.deref e') r) w'
  | opassignR {o l r r' w w'} : Step M r w r' w' → Step M (.opassign o l r) w (.opassign o l r') w'
  | post {o l x y w w'} : M.get l w = some x → M.bin o x 1 = some y → M.set l y w = some w' → Step M (.post o l) w (.lit x) w'
  | postL {o e e' w w'} : Step M e w e' w' → Step M (.post o (.deref e)) w (.post o (.deref e')) w'
  | call {f as vs r w w'} : values as = some vs → M.call f vs w = some (r, w') → Step M (.call f as) w (.lit r) w'
  | callIn {f as as' w w'} : StepArgs M as w as' w' → Step M (.call f as) w (.call f as') w'
  | logicL {i a a' b w w'} : Step M a w a' w' → Step M (.logic i a b) w (.logic i a' b) w'
  /-- the second operand decides -/
  | logicR {i x b b' w w'} : (x != 0) = i → Step M b w b' w' → Step M (.logic i (.lit x) b) w (.logic i (.lit x) b') w'
  | logicEnd {i x y w} : (x != 0) = i → Step M (.logic i (.lit x) (.lit y)) w (.lit (truth (y != 0))) w
  | logicSkip {i x b w} : (x != 0) ≠ i → Step M (.logic i (.lit x) b) w (.lit (truth (x != 0))) w
  | condL {c c' a b w w'} : Step M c w c' w' → Step M (.cond c a b) w (.cond c' a b) w'
  | condT {x a b w} : x ≠ 0 → Step M (.cond (.lit x) a b) w a w
  | condF {x a b w} : x = 0 → Step M (.cond (.lit x) a b) w b w
/-- One step in one of the arguments. -/
inductive StepArgs (M : Machine) : Args → M.W → Args → M.W → Prop
  | head {e e' r w w'} : Step M e w e' w' → StepArgs M (.cons e r) w (.cons e' r) w'
  | tail {e r r' w w'} : StepArgs M r w r' w' → StepArgs M (.cons e r) w (.cons e r') w'
end

/-- Evaluation: any number of steps. -/
inductive Steps (M : Machine) : Expr → M.W → Expr → M.W → Prop
  | refl {e w} : Steps M e w e w
  | step {e w e' w' e'' w''} : Step M e w e' w' → Steps M e' w' e'' w'' → Steps M e w e'' w''

/-- C may evaluate `e` in `w` to the value `v`, leaving `w'`. -/
def Evals (M : Machine) (e : Expr) (w : M.W) (v : Int) (w' : M.W) : Prop := Steps M e w (.lit v) w'

/-- Nothing fails and every call returns. -/
structure Total (M : Machine) : Prop where
  load : ∀ a w, ∃ v, M.load a w = some v
  store : ∀ a v w, ∃ w', M.store a v w = some w'
  un : ∀ o v, ∃ r, M.un o v = some r
  bin : ∀ o x y, ∃ r, M.bin o x y = some r
  call : ∀ f vs w, ∃ p, M.call f vs w = some p

/-! ## The expressions covered -/

/-- No call. -/
def noCall : Expr → Bool
  | .lit _ | .var _ | .tmp _ => true
  | .un _ e | .deref e | .paren e | .cast e | .post _ e => noCall e
  | .bin _ _ a b | .comma a b | .assign a b | .opassign _ a b | .logic _ a b => noCall a && noCall b
  | .logic4 .. => false
  | .cond c a b => noCall c && noCall a && noCall b
  | .call .. => false

/-- No assignment outside of the arguments of calls. -/
def noEffect : Expr → Bool
  | .lit _ | .var _ | .tmp _ | .call .. => true
  | .un _ e | .deref e | .paren e | .cast e => noEffect e
  | .bin _ _ a b | .comma a b | .logic _ a b | .logic4 _ a b _ _ => noEffect a && noEffect b
  | .cond c a b => noEffect c && noEffect a && noEffect b
  | .assign .. | .opassign .. | .post .. => false

/-- No access to memory outside of the arguments of calls. -/
def noDeref : Expr → Bool
  | .lit _ | .var _ | .tmp _ | .call .. => true
  | .un _ e | .paren e | .cast e | .post _ e => noDeref e
  | .bin _ _ a b | .comma a b | .logic _ a b | .logic4 _ a b _ _ | .assign a b | .opassign _ a b => noDeref a && noDeref b
  | .cond c a b => noDeref c && noDeref a && noDeref b
  | .deref _ => false

/-- No access to memory in an operand that `&&`, `||`, `?:`, `,` evaluate later. -/
def noLateDeref : Expr → Bool
  | .lit _ | .var _ | .tmp _ | .call .. => true
  | .un _ e | .deref e | .paren e | .cast e | .post _ e => noLateDeref e
  | .bin _ _ a b | .assign a b | .opassign _ a b => noLateDeref a && noLateDeref b
  | .comma a b | .logic _ a b | .logic4 _ a b _ _ => noLateDeref a && noDeref b
  | .cond c a b => noLateDeref c && noDeref a && noDeref b

/-- The address expressions are expanded before the rest of the expression is evaluated: there is no assignment, or no address where the order matters. -/
def orderOk (e : Expr) : Bool := noEffect e || noLateDeref e

def isLv : Expr → Bool
  | .var _ | .deref _ => true
  | _ => false

def isCall : Expr → Bool
  | .call .. => true
  | _ => false

mutual
/-- The expressions (of a C program) covered by the theorems: no call in the second operand of `,`, in `&&` and `||`, in the branches of `?:`, and none directly at the right of an inner assignment. -/
def frag : Expr → Bool
  | .lit _ | .var _ => true
  | .tmp _ | .logic4 .. => false
  | .un _ e | .deref e | .paren e | .cast e => frag e
  | .post _ l => isLv l && frag l
  | .bin _ _ a b => frag a && frag b
  | .comma a b => frag a && frag b && noCall b
  | .assign l r => isLv l && frag l && frag r && !isCall r
  | .opassign _ l r => isLv l && frag l && frag r
  | .logic _ a b => frag a && frag b && noCall a && noCall b
  | .cond c a b => frag c && frag a && frag b && noCall a && noCall b
  | .call _ as => fragArgs as
def fragArgs : Args → Bool
  | .nil => true
  | .cons e r => frag e && orderOk e && fragArgs r
end

mutual
/-- No `&&` and `||` … -/
def noLogic : Expr → Bool
  | .lit _ | .var _ | .tmp _ => true
  | .un _ e | .deref e | .paren e | .cast e | .post _ e => noLogic e
  | .bin _ _ a b | .comma a b | .assign a b | .opassign _ a b => noLogic a && noLogic b
  | .logic .. | .logic4 .. => false
  | .cond c a b => noLogic c && noLogic a && noLogic b
  | .call _ as => noLogicArgs as
/-- … also in the arguments of calls. -/
def noLogicArgs : Args → Bool
  | .nil => true
  | .cons e r => noLogic e && noLogicArgs r
end

/-- No `&&` and `||` in the arguments of calls. -/
def argsPlain : Expr → Bool
  | .lit _ | .var _ | .tmp _ => true
  | .un _ e | .deref e | .paren e | .cast e | .post _ e => argsPlain e
  | .bin _ _ a b | .comma a b | .assign a b | .opassign _ a b | .logic _ a b | .logic4 _ a b _ _ => argsPlain a && argsPlain b
  | .cond c a b => argsPlain c && argsPlain a && argsPlain b
  | .call _ as => noLogicArgs as

mutual
/-- No conditional expression outside of the arguments of calls … -/
def noCond : Expr → Bool
  | .lit _ | .var _ | .tmp _ => true
  | .un _ e | .deref e | .paren e | .cast e | .post _ e => noCond e
  | .bin _ _ a b | .comma a b | .assign a b | .opassign _ a b | .logic _ a b => noCond a && noCond b
  | .logic4 .. => false
  | .cond .. => false
  | .call _ as => noCondArgs as
/-- … and inside. -/
def noCondArgs : Args → Bool
  | .nil => true
  | .cons e r => noCond e && noCondArgs r
end

/-- No `?:` in the operands of `&&` and `||` and in the branches of `?:`. -/
def flat : Expr → Bool
  | .lit _ | .var _ | .call .. => true
  | .tmp _ | .logic4 .. => false
  | .un _ e | .deref e | .paren e | .cast e | .post _ e => flat e
  | .bin _ _ a b | .comma a b | .assign a b | .opassign _ a b => flat a && flat b
  | .logic _ a b => noCond a && noCond b
  | .cond c a b => flat c && noCond a && noCond b

/-- A call that C may skip: in an operand of `&&` or `||`, or in a branch of `?:`. -/
def mayskip : Expr → Bool
  | .lit _ | .var _ | .tmp _ | .call .. | .logic4 .. => false
  | .un _ e | .deref e | .paren e | .cast e | .post _ e => mayskip e
  | .bin _ _ a b | .comma a b | .assign a b | .opassign _ a b => mayskip a || mayskip b
  | .logic _ a b => !noCall a || !noCall b
  | .cond c a b => mayskip c || !noCall a || !noCall b

/-- Operands of `&&` and `||` in a condition, which may have calls: no call, or no `?:` and no cast in front. -/
def fragTest : Expr → Bool
  | .paren e => fragTest e
  | .logic _ a b => fragTest a && fragTest b
  | .cast e => fragTest e && frag e && noCall e
  | e => frag e && orderOk e && (noCall e || noCond e)

/-- Conditions. -/
def fragTop : Expr → Bool
  | .paren e | .cast e => fragTop e
  | .logic _ a b => fragTest a && fragTest b
  | e => frag e && orderOk e

/-- No plain assignment outside of the arguments of calls. -/
def noPlain : Expr → Bool
  | .lit _ | .var _ | .tmp _ | .call .. => true
  | .un _ e | .deref e | .paren e | .cast e | .post _ e => noPlain e
  | .bin _ _ a b | .comma a b | .logic _ a b | .logic4 _ a b _ _ | .opassign _ a b => noPlain a && noPlain b
  | .cond c a b => noPlain c && noPlain a && noPlain b
  | .assign .. => false

/-- Expression statements. -/
def fragStmt : Expr → Bool
  | .call _ as => fragArgs as
  | .assign (.var _) (.call _ as) => fragArgs as
  | .assign (.deref a) (.call _ as) => frag a && orderOk a && fragArgs as
  | .assign (.var _) r => frag r && orderOk r
  | .assign (.deref a) r => frag a && frag r && orderOk (.assign (.deref a) r)
  | e => frag e && orderOk e && noPlain e

/-- The statement has been executed: what is left of the expression, if anything, has no effects. -/
def Done (M : Machine) (e : Expr) (w w' : M.W) : Prop := ∃ e', Steps M e w e' w' ∧ noEffect e' = true ∧ noCall e' = true

end Verif.Hoist.Spec
