import Verif.Arith.Model
import Verif.Parse.Spec
/-! Specification side of C11: the meaning of C expressions over 32-bit `int`s, and the meaning of
shell arithmetic text (POSIX XCU 2.6.4: parsed with the precedences of ISO C, evaluated on signed
64-bit integers; nested expansions are performed first, left to right). -/
namespace Verif.Arith.Spec
open Verif Verif.Arith
open Verif.Parse (P Tok E parse)

/-- Memory: the value of each variable and of each heap cell. -/
structure State where
  var : Nat → Int
  cell : Int → Int

def State.get (σ : State) : LV → Int
  | .var x => σ.var x
  | .cell a => σ.cell a

def State.set (σ : State) : LV → Int → State
  | .var x, v => { σ with var := fun y => if y = x then v else σ.var y }
  | .cell a, v => { σ with cell := fun b => if b = a then v else σ.cell b }

/-- Effectful evaluation; `none` is undefined behaviour / an error. -/
abbrev M (α : Type) := State → Option (α × State)

def M.ret {α} (a : α) : M α := fun σ => some (a, σ)
def M.bnd {α β} (m : M α) (f : α → M β) : M β := fun σ =>
  match m σ with
  | some (a, σ') => f a σ'
  | none => none
def M.lift {α} (o : Option α) : M α := fun σ => o.map fun a => (a, σ)

def b2i (b : Bool) : Int := if b then 1 else 0

/-! ### C -/

def in32 (v : Int) : Prop := -2147483648 ≤ v ∧ v ≤ 2147483647
instance (v : Int) : Decidable (in32 v) := inferInstanceAs (Decidable (_ ∧ _))

def chk (v : Int) : Option Int := if in32 v then some v else none

/-- C binary operators on `int`; `none` is undefined behaviour. -/
def op32 : P → Int → Int → Option Int
  | .plus, a, b => chk (a + b)
  | .minus, a, b => chk (a - b)
  | .star, a, b => chk (a * b)
  | .slash, a, b => if b = 0 then none else chk (a.tdiv b)
  | .percent, a, b => if b = 0 then none else (chk (a.tdiv b)).map fun _ => a.tmod b
  | .amp, a, b => some (BitVec.ofInt 32 a &&& BitVec.ofInt 32 b).toInt
  | .bar, a, b => some (BitVec.ofInt 32 a ||| BitVec.ofInt 32 b).toInt
  | .caret, a, b => some (BitVec.ofInt 32 a ^^^ BitVec.ofInt 32 b).toInt
  | .shl, a, b => if 0 ≤ b ∧ b < 32 ∧ 0 ≤ a then chk (a * 2 ^ b.toNat) else none
  | .shr, a, b => if 0 ≤ b ∧ b < 32 then some (a / 2 ^ b.toNat) else none
  | .eqeq, a, b => some (b2i (a == b))
  | .ne, a, b => some (b2i (a != b))
  | .lt, a, b => some (b2i (decide (a < b)))
  | .gt, a, b => some (b2i (decide (a > b)))
  | .le, a, b => some (b2i (decide (a ≤ b)))
  | .ge, a, b => some (b2i (decide (a ≥ b)))
  | _, _, _ => none

/-- The operator of a compound assignment. -/
def compound : P → Option P
  | .pluseq => some .plus | .minuseq => some .minus | .stareq => some .star
  | .slasheq => some .slash | .percenteq => some .percent | .shleq => some .shl
  | .shreq => some .shr | .ampeq => some .amp | .careteq => some .caret | .bareq => some .bar
  | _ => none

/-- Value stored by an assignment operator, from the operation `f`, the old value and the operand. -/
def assignVal (f : P → Int → Int → Option Int) (q : P) (old v : Int) : Option Int :=
  if q = .eq then some v else (compound q).bind fun o => f o old v

mutual
/-- The C value of an expression and the assignments it performs (operands left to right, one of
the orders C allows; undefined behaviour is `none`).  Addresses count cells. -/
def evalC : X → M Int
  | .int v => M.lift (chk v)
  | .hex v => M.lift (chk v)
  | .var x => fun σ => some (σ.var x, σ)
  | .deref e => (evalC e).bnd fun a σ => some (σ.cell a, σ)
  | .plus e => evalC e
  | .parens e => evalC e
  | .neg e => (evalC e).bnd fun v => M.lift (chk (-v))
  | .bnot e => (evalC e).bnd fun v => M.ret (-v - 1)
  | .lnot e => (evalC e).bnd fun v => M.ret (b2i (v == 0))
  | .preinc l => (lvalC l).bnd fun x σ => (chk (σ.get x + 1)).map fun v => (v, σ.set x v)
  | .predec l => (lvalC l).bnd fun x σ => (chk (σ.get x - 1)).map fun v => (v, σ.set x v)
  | .postinc l => (lvalC l).bnd fun x σ => (chk (σ.get x + 1)).map fun v => (σ.get x, σ.set x v)
  | .postdec l => (lvalC l).bnd fun x σ => (chk (σ.get x - 1)).map fun v => (σ.get x, σ.set x v)
  | .addr l => (lvalC l).bnd fun x =>
      match x with
      | .cell a => M.ret a
      | .var _ => fun _ => none
  | .bin .andand a b => (evalC a).bnd fun x =>
      if x = 0 then M.ret 0 else (evalC b).bnd fun y => M.ret (b2i (y != 0))
  | .bin .oror a b => (evalC a).bnd fun x =>
      if x ≠ 0 then M.ret 1 else (evalC b).bnd fun y => M.ret (b2i (y != 0))
  | .bin q a b => (evalC a).bnd fun x => (evalC b).bnd fun y => M.lift (op32 q x y)
  | .comma a b => (evalC a).bnd fun _ => evalC b
  | .cond c a b => (evalC c).bnd fun x => if x ≠ 0 then evalC a else evalC b
  | .assign q l e => (lvalC l).bnd fun x => (evalC e).bnd fun v σ =>
      (assignVal op32 q (σ.get x) v).map fun w => (w, σ.set x w)
  | .index a b => (evalC a).bnd fun x => (evalC b).bnd fun y =>
      (M.lift (chk (x + y))).bnd fun p σ => some (σ.cell p, σ)
  | .arrow a off => (evalC a).bnd fun x =>
      (M.lift (chk (x + off))).bnd fun p σ => some (σ.cell p, σ)
  | .cast e => evalC e

/-- The location an lvalue designates. -/
def lvalC : X → M LV
  | .var x => M.ret (.var x)
  | .deref e => (evalC e).bnd fun a => M.ret (.cell a)
  | .index a b => (evalC a).bnd fun x => (evalC b).bnd fun y =>
      (M.lift (chk (x + y))).bnd fun p => M.ret (.cell p)
  | .arrow a off => (evalC a).bnd fun x =>
      (M.lift (chk (x + off))).bnd fun p => M.ret (.cell p)
  | .cast l => lvalC l
  | .parens l => lvalC l
  | _ => fun _ => none
end

/-! ### Shell -/

/-- Signed 64-bit wrap-around. -/
def wrap (v : Int) : Int := v.bmod (2 ^ 64)

def op64 : P → Int → Int → Option Int
  | .plus, a, b => some (wrap (a + b))
  | .minus, a, b => some (wrap (a - b))
  | .star, a, b => some (wrap (a * b))
  | .slash, a, b => if b = 0 then none else some (wrap (a.tdiv b))
  | .percent, a, b => if b = 0 then none else some (a.tmod b)
  | .amp, a, b => some (BitVec.ofInt 64 a &&& BitVec.ofInt 64 b).toInt
  | .bar, a, b => some (BitVec.ofInt 64 a ||| BitVec.ofInt 64 b).toInt
  | .caret, a, b => some (BitVec.ofInt 64 a ^^^ BitVec.ofInt 64 b).toInt
  | .shl, a, b => if 0 ≤ b ∧ b < 64 then some (wrap (a * 2 ^ b.toNat)) else none
  | .shr, a, b => if 0 ≤ b ∧ b < 64 then some (a / 2 ^ b.toNat) else none
  | .eqeq, a, b => some (b2i (a == b))
  | .ne, a, b => some (b2i (a != b))
  | .lt, a, b => some (b2i (decide (a < b)))
  | .gt, a, b => some (b2i (decide (a > b)))
  | .le, a, b => some (b2i (decide (a ≤ b)))
  | .ge, a, b => some (b2i (decide (a ≥ b)))
  | _, _, _ => none

/-- Binary operators, `&&` and `||` short-circuiting. -/
def binSem (q : P) (A B : M Int) : M Int :=
  match q with
  | .andand => A.bnd fun x => if x = 0 then M.ret 0 else B.bnd fun y => M.ret (b2i (y != 0))
  | .oror => A.bnd fun x => if x ≠ 0 then M.ret 1 else B.bnd fun y => M.ret (b2i (y != 0))
  | q => A.bnd fun x => B.bnd fun y => M.lift (op64 q x y)

/-- Evaluation of a parsed arithmetic expression by the shell. -/
def evalSh : E → M Int
  | .num v => M.ret v
  | .ident n => fun σ => some (σ.get (dec n), σ)
  | .parens e => evalSh e
  | .unary .minus e => (evalSh e).bnd fun v => M.ret (wrap (-v))
  | .unary .plus e => evalSh e
  | .unary .tilde e => (evalSh e).bnd fun v => M.ret (-v - 1)
  | .unary .excl e => (evalSh e).bnd fun v => M.ret (b2i (v == 0))
  | .preinc (.ident n) => fun σ => let v := wrap (σ.get (dec n) + 1); some (v, σ.set (dec n) v)
  | .predec (.ident n) => fun σ => let v := wrap (σ.get (dec n) - 1); some (v, σ.set (dec n) v)
  | .bin q a b => binSem q (evalSh a) (evalSh b)
  | .cond c a b => (evalSh c).bnd fun x => if x ≠ 0 then evalSh a else evalSh b
  | .assign q (.ident n) e => (evalSh e).bnd fun v σ =>
      (assignVal op64 q (σ.get (dec n)) v).map fun w => (w, σ.set (dec n) w)
  | .comma a b => (evalSh a).bnd fun _ => evalSh b
  | _ => fun _ => none

/-- A number as arithmetic text. -/
def numToks (v : Int) : List Tok := if v < 0 then [.p .minus, .num (-v)] else [.num v]

mutual
/-- Expansion of one piece of arithmetic text. -/
def expandP : Piece → M (List Tok)
  | .tok t => M.ret [t]
  | .cell w => (word w).bnd fun a => M.ret [.ident (enc (.cell a))]
  | .dollar x => fun σ => some (numToks (σ.var x), σ)
  | .exp ps => ((expandL ps).bnd fun ts =>
      match parse ts with
      | .ok (t, []) => evalSh t
      | _ => fun _ => none).bnd fun v => M.ret (numToks v)
/-- Expansion of arithmetic text, left to right. -/
def expandL : List Piece → M (List Tok)
  | [] => M.ret []
  | p :: ps => (expandP p).bnd fun t => (expandL ps).bnd fun ts => M.ret (t ++ ts)
/-- Value of a word: digits, `$x` or `$(( … ))`. -/
def word : List Piece → M Int
  | [.tok (.num v)] => M.ret v
  | [.dollar x] => fun σ => some (σ.var x, σ)
  | [.exp ps] => (expandL ps).bnd fun ts =>
      match parse ts with
      | .ok (t, []) => evalSh t
      | _ => fun _ => none
  | _ => fun _ => none
end

/-- The value of `$(( ps ))`: expand, parse with the ISO C grammar, evaluate. -/
def arith (ps : List Piece) : M Int := word [.exp ps]

/-! ### The expressions for which the emitted text is shown correct

`ok e m` excludes the shapes the printer gets wrong (each has a counterexample in `Props.lean`).
`m` is the loosest binary level (1 multiplicative … 10 logical OR) at which a text printed without
parentheses is harmless in the position of `e`. -/

/-- Top operator, through parentheses and unary plus, is the comma. -/
def isComma : X → Bool
  | .plus e => isComma e
  | .parens e => isComma e
  | .comma _ _ => true
  | _ => false

/-- Top operator, through parentheses and unary plus, is the binary operator `q`. -/
def isBin (q : P) : X → Bool
  | .plus e => isBin q e
  | .parens e => isBin q e
  | .bin q' _ _ => q' == q
  | _ => false

/-- The text starts with a minus sign: a negation, through parentheses, unary plus and casts. -/
def isNeg : X → Bool
  | .plus e => isNeg e
  | .parens e => isNeg e
  | .cast e => isNeg e
  | .neg _ => true
  | _ => false

/-- A negated decimal literal, through parentheses, unary plus and casts. -/
def isNegLit : X → Bool
  | .plus e => isNegLit e
  | .parens e => isNegLit e
  | .cast e => isNegLit e
  | .neg (.int _) => true
  | _ => false

/-- Level of the text printed for `e` without outer parentheses: 0 unary, k binary level k,
11 conditional, 12 assignment, 13 comma. -/
def top : X → Nat
  | .plus e => top e
  | .parens e => top e
  | .cast _ => 2
  | .preinc _ => 12
  | .predec _ => 12
  | .postinc _ => 2
  | .postdec _ => 2
  | .addr _ => 2
  | .bin q _ _ => Parse.Spec.isoLevel q
  | .comma _ _ => 13
  | .cond _ _ _ => 11
  | .assign _ _ _ => 12
  | _ => 0

/-- A literal operand of `~` or `!`. -/
def isInt : X → Bool
  | .int _ => true
  | _ => false

mutual
def ok : X → Nat → Bool
  | .int _, _ => true
  | .hex _, _ => true
  | .var _, _ => true
  -- address words that are negative literals are ill-formed
  | .deref e, _ => ok e 13 && !isNegLit e
  | .plus e, m => ok e m
  | .parens e, m => ok e m
  | .cast e, m => ok e m
  -- `- -x` is printed `--x`
  | .neg e, _ => isInt e || (ok e 0 && !isNeg e)
  -- `~5` and `!5` are printed `-5`
  | .bnot e, _ => !isInt e && ok e 0
  | .lnot e, _ => !isInt e && ok e 0
  | .preinc l, _ => okL l
  | .predec l, _ => okL l
  -- `x++` is printed `(x += 1) - 1`, without outer parentheses
  | .postinc l, m => okL l && decide (2 ≤ m)
  | .postdec l, m => okL l && decide (2 ≤ m)
  -- `&a[i]` is printed `a + i`, with no parentheses at all
  | .addr (.index a b), m =>
    decide (2 ≤ m) && ok a 2 && ok b 2 && decide (top a ≤ 2) && decide (top b ≤ 2)
  | .addr (.arrow a _), m => decide (2 ≤ m) && ok a 2 && decide (top a ≤ 2)
  | .addr _, _ => false
  -- `a == (b == c)` is printed `a == b == c`
  | .bin q a b, _ =>
    decide (1 ≤ Parse.Spec.isoLevel q) && ok a (Parse.Spec.isoLevel q) &&
      ok b (if q = .plus then 2 else Parse.Spec.isoLevel q - 1) && !(q == .eqeq && isBin .eqeq b)
  | .comma a b, _ => ok a 10 && ok b 10
  | .cond c a b, _ => ok c 10 && ok a 10 && ok b 10
  -- `x = (a, b)` is printed `x = a, b`
  | .assign q l e, _ => decide (q ∈ Parse.Spec.isoAssign) && okL l && ok e 10 &&
      !(q == .eq && isComma e)
  | .index a b, _ => ok a 2 && ok b 2
  | .arrow a _, _ => ok a 2
/-- Lvalues: an index or pointer expression is printed without parentheres, a parenthesised lvalue
is printed as its address. -/
def okL : X → Bool
  | .var _ => true
  | .deref e => ok e 13 && !isNegLit e
  | .index a b => ok a 2 && ok b 2 && decide (top a ≤ 2) && decide (top b ≤ 2)
  | .arrow a _ => ok a 2 && decide (top a ≤ 2)
  | .cast l => okL l
  | _ => false
end

/-! Cell numbers (`_$((…))`) are expanded by the shell before the enclosing expression is evaluated.
`ord e` says that this makes no difference: no assignment of the enclosing expression comes before
an address, what an address assigns is not read before it, and an address that C evaluates only
conditionally has no effect and cannot fail. -/

mutual
/-- No heap access in the text of `e`. -/
def addrFree : X → Bool
  | .deref _ => false
  | .index _ _ => false
  | .arrow _ _ => false
  | .plus e => addrFree e
  | .parens e => addrFree e
  | .cast e => addrFree e
  | .neg e => addrFree e
  | .bnot e => addrFree e
  | .lnot e => addrFree e
  | .preinc l => lFree l
  | .predec l => lFree l
  | .postinc l => lFree l
  | .postdec l => lFree l
  | .addr (.index a b) => addrFree a && addrFree b
  | .addr (.arrow a _) => addrFree a
  | .addr _ => false
  | .bin _ a b => addrFree a && addrFree b
  | .comma a b => addrFree a && addrFree b
  | .cond c a b => addrFree c && addrFree a && addrFree b
  | .assign _ l e => lFree l && addrFree e
  | _ => true
def lFree : X → Bool
  | .var _ => true
  | .cast l => lFree l
  | _ => false
end

/-- `e` assigns something outside the addresses it contains. -/
def bWrites : X → Bool
  | .plus e => bWrites e
  | .parens e => bWrites e
  | .cast e => bWrites e
  | .neg e => bWrites e
  | .bnot e => bWrites e
  | .lnot e => bWrites e
  | .preinc _ => true
  | .predec _ => true
  | .postinc _ => true
  | .postdec _ => true
  | .addr (.index a b) => bWrites a || bWrites b
  | .addr (.arrow a _) => bWrites a
  | .bin _ a b => bWrites a || bWrites b
  | .comma a b => bWrites a || bWrites b
  | .cond c a b => bWrites c || bWrites a || bWrites b
  | .assign _ _ _ => true
  | _ => false

/-- Variables occurring outside the addresses of `e`. -/
def lVars : X → List Nat
  | .var x => [x]
  | .cast l => lVars l
  | _ => []

def bVars : X → List Nat
  | .var x => [x]
  | .plus e => bVars e
  | .parens e => bVars e
  | .cast e => bVars e
  | .neg e => bVars e
  | .bnot e => bVars e
  | .lnot e => bVars e
  | .preinc l => lVars l
  | .predec l => lVars l
  | .postinc l => lVars l
  | .postdec l => lVars l
  | .addr (.index a b) => bVars a ++ bVars b
  | .addr (.arrow a _) => bVars a
  | .bin _ a b => bVars a ++ bVars b
  | .comma a b => bVars a ++ bVars b
  | .cond c a b => bVars c ++ bVars a ++ bVars b
  | .assign _ l e => lVars l ++ bVars e
  | _ => []

/-- Variables assigned anywhere in `e`. -/
def wr : X → List Nat
  | .deref e => wr e
  | .plus e => wr e
  | .parens e => wr e
  | .cast e => wr e
  | .neg e => wr e
  | .bnot e => wr e
  | .lnot e => wr e
  | .preinc l => lVars l ++ wr l
  | .predec l => lVars l ++ wr l
  | .postinc l => lVars l ++ wr l
  | .postdec l => lVars l ++ wr l
  | .addr l => wr l
  | .bin _ a b => wr a ++ wr b
  | .comma a b => wr a ++ wr b
  | .cond c a b => wr c ++ wr a ++ wr b
  | .assign _ l e => lVars l ++ wr l ++ wr e
  | .index a b => wr a ++ wr b
  | .arrow a _ => wr a
  | _ => []

/-- All assignments in `e` are to variables. -/
def noCellWr : X → Bool
  | .deref e => noCellWr e
  | .plus e => noCellWr e
  | .parens e => noCellWr e
  | .cast e => noCellWr e
  | .neg e => noCellWr e
  | .bnot e => noCellWr e
  | .lnot e => noCellWr e
  | .preinc l => lFree l
  | .predec l => lFree l
  | .postinc l => lFree l
  | .postdec l => lFree l
  | .addr l => noCellWr l
  | .bin _ a b => noCellWr a && noCellWr b
  | .comma a b => noCellWr a && noCellWr b
  | .cond c a b => noCellWr c && noCellWr a && noCellWr b
  | .assign _ l e => lFree l && noCellWr e
  | .index a b => noCellWr a && noCellWr b
  | .arrow a _ => noCellWr a
  | _ => true

/-- Variables assigned inside the addresses of `e`. -/
def aWr : X → List Nat
  | .deref e => wr e
  | .index a b => wr a ++ wr b
  | .arrow a _ => wr a
  | .plus e => aWr e
  | .parens e => aWr e
  | .cast e => aWr e
  | .neg e => aWr e
  | .bnot e => aWr e
  | .lnot e => aWr e
  | .preinc l => aWr l
  | .predec l => aWr l
  | .postinc l => aWr l
  | .postdec l => aWr l
  | .addr (.index a b) => aWr a ++ aWr b
  | .addr (.arrow a _) => aWr a
  | .bin _ a b => aWr a ++ aWr b
  | .comma a b => aWr a ++ aWr b
  | .cond c a b => aWr c ++ aWr a ++ aWr b
  | .assign _ l e => aWr l ++ aWr e
  | _ => []

/-- No assignment, no division and no shift. -/
def pureTotal : X → Bool
  | .deref e => pureTotal e
  | .plus e => pureTotal e
  | .parens e => pureTotal e
  | .cast e => pureTotal e
  | .neg e => pureTotal e
  | .bnot e => pureTotal e
  | .lnot e => pureTotal e
  | .addr (.index a b) => pureTotal a && pureTotal b
  | .addr (.arrow a _) => pureTotal a
  | .bin q a b => !(q ∈ [P.slash, .percent, .shl, .shr]) && pureTotal a && pureTotal b
  | .comma a b => pureTotal a && pureTotal b
  | .cond c a b => pureTotal c && pureTotal a && pureTotal b
  | .index a b => pureTotal a && pureTotal b
  | .arrow a _ => pureTotal a
  | .int _ => true
  | .hex _ => true
  | .var _ => true
  | _ => false

/-- Every address in `e` is `pureTotal`. -/
def condAddr : X → Bool
  | .deref e => pureTotal e
  | .index a b => pureTotal a && pureTotal b
  | .arrow a _ => pureTotal a
  | .plus e => condAddr e
  | .parens e => condAddr e
  | .cast e => condAddr e
  | .neg e => condAddr e
  | .bnot e => condAddr e
  | .lnot e => condAddr e
  | .preinc l => condAddr l
  | .predec l => condAddr l
  | .postinc l => condAddr l
  | .postdec l => condAddr l
  | .addr (.index a b) => condAddr a && condAddr b
  | .addr (.arrow a _) => condAddr a
  | .addr _ => false
  | .bin _ a b => condAddr a && condAddr b
  | .comma a b => condAddr a && condAddr b
  | .cond c a b => condAddr c && condAddr a && condAddr b
  | .assign _ l e => condAddr l && condAddr e
  | _ => true

/-- Evaluating the addresses of `b` before the rest of `a` makes no difference. -/
def commute (a b : X) : Bool :=
  addrFree b || (!bWrites a && (aWr b).all fun x => decide (x ∉ bVars a))

mutual
def ord : X → Bool
  | .deref e => ord e && noCellWr e
  | .index a b => ord a && ord b && commute a b && noCellWr a && noCellWr b
  | .arrow a _ => ord a && noCellWr a
  | .plus e => ord e
  | .parens e => ord e
  | .cast e => ord e
  | .neg e => ord e
  | .bnot e => ord e
  | .lnot e => ord e
  | .preinc l => ordL l
  | .predec l => ordL l
  | .postinc l => ordL l
  | .postdec l => ordL l
  | .addr (.index a b) => ord a && ord b && commute a b
  | .addr (.arrow a _) => ord a
  | .addr _ => false
  | .bin .andand a b => ord a && ord b && condAddr b && (addrFree b || !bWrites a)
  | .bin .oror a b => ord a && ord b && condAddr b && (addrFree b || !bWrites a)
  | .bin _ a b => ord a && ord b && commute a b
  | .comma a b => ord a && ord b && commute a b
  | .cond c a b => ord c && ord a && ord b && condAddr a && condAddr b &&
      ((addrFree a && addrFree b) || !bWrites c)
  | .assign _ l e => ordL l && ord e
  | _ => true
def ordL : X → Bool
  | .var _ => true
  | .deref e => ord e && noCellWr e
  | .index a b => ord a && ord b && commute a b && noCellWr a && noCellWr b
  | .arrow a _ => ord a && noCellWr a
  | .cast l => ordL l
  | _ => false
end

/-- All values in memory are C `int`s. -/
def InR (σ : State) : Prop := (∀ x, in32 (σ.var x)) ∧ ∀ a, in32 (σ.cell a)

end Verif.Arith.Spec
