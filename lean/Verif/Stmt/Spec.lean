import Verif.Stmt.Model
/-! Specification for C13: the meaning of C statements and of shell commands over the same effects.

`I.act`, `I.test`, `I.sel` give the effect of simple statements, conditions and `switch` operands on an
arbitrary state (which may record observable actions); `none` means that the effect does not come back
(it ends the program, fails or diverges).  Loops are run with a bound `n` on the number of iterations of
each loop; running out of it gives `none`.  A program terminates iff some `n` gives a result. -/
namespace Verif.Stmt

structure Interp (σ : Type) where
  act : Nat → σ → Option σ
  test : Nat → σ → Option (σ × Bool)
  sel : Nat → σ → Option (σ × Int)
  /-- effect of saving the caller's variables on entry of a function -/
  save : σ → σ
  /-- effect of restoring them -/
  restore : σ → σ

variable {σ : Type}

/-- A sequence of effects. -/
def Interp.acts (I : Interp σ) : List Nat → σ → Option σ
  | [], s => some s
  | a :: r, s => (I.act a s).bind (I.acts r)

/-! ### C -/

/-- How a C statement ends. -/
inductive CO where
  | norm | brk | cont | ret
  deriving DecidableEq, Repr

/-- `while (test) body` with `step` executed after each iteration (also after `continue`). -/
def cloop (test : σ → Option (σ × Bool)) (body : σ → Option (CO × σ)) (step : σ → Option σ) : Nat → σ → Option (CO × σ)
  | 0, _ => none
  | n + 1, s => (test s).bind fun (s, b) =>
    if b then (body s).bind fun (o, s) =>
      match o with
      | .norm | .cont => (step s).bind (cloop test body step n)
      | .brk => some (.norm, s)
      | .ret => some (.ret, s)
    else some (.norm, s)

/-- `do body while (test)`. -/
def cdo (test : σ → Option (σ × Bool)) (body : σ → Option (CO × σ)) : Nat → σ → Option (CO × σ)
  | 0, _ => none
  | n + 1, s => (body s).bind fun (o, s) =>
    match o with
    | .norm | .cont => (test s).bind fun (s, b) => if b then cdo test body n s else some (.norm, s)
    | .brk => some (.norm, s)
    | .ret => some (.ret, s)

/-- Is the statement labelled with `case v:` / `default:`? -/
def St.hasCase (v : Int) : St → Bool
  | .case_ w s => v == w || s.hasCase v
  | .default_ s => s.hasCase v
  | _ => false

def St.hasDefault : St → Bool
  | .case_ _ s => s.hasDefault
  | .default_ _ => true
  | _ => false

def Sts.any (p : St → Bool) : Sts → Bool
  | .nil => false
  | .cons s r => p s || r.any p

/-- The statement that `switch` jumps to: the one with the label `case v:`, if there is one, otherwise
the one labelled `default:`. -/
def target (v : Int) (b : Sts) : St → Bool :=
  if b.any (St.hasCase v) then St.hasCase v else St.hasDefault

/-- After a `switch`: `break` is done. -/
def endSwitch : Option (CO × σ) → Option (CO × σ)
  | some (.brk, s) => some (.norm, s)
  | r => r

mutual
/-- C statements.  (Labels nested in other statements of a `switch` body are not given a meaning: the
compiler rejects them.) -/
def cexec (I : Interp σ) (n : Nat) : St → σ → Option (CO × σ)
  | .empty, s => some (.norm, s)
  | .act ls, s => (I.acts ls s).map fun s => (.norm, s)
  | .ite c a b, s => (I.test c s).bind fun (s, v) => if v then cexec I n a s else cexec I n b s
  | .while_ c b, s => cloop (I.test c) (cexec I n b) some n s
  | .do_ b c, s => cdo (I.test c) (cexec I n b) n s
  | .for_ init c step b, s => (I.acts init s).bind fun s =>
    cloop (match c with | some c => I.test c | none => fun s => some (s, true)) (cexec I n b) (I.acts step) n s
  | .switch e b, s => (I.sel e s).bind fun (s, v) => endSwitch (cfrom I n (target v b) b s)
  | .switch1 e b, s => (I.sel e s).bind fun (s, v) =>
    if target v (.cons b .nil) b then endSwitch (cexec I n b s) else some (.norm, s)
  | .break_, s => some (.brk, s)
  | .continue_, s => some (.cont, s)
  | .ret ls, s => (I.acts ls s).map fun s => (.ret, s)
  | .block b, s => cseq I n b s
  | .label b, s => cexec I n b s
  | .goto, _ => none
  | .case_ _ b, s => cexec I n b s
  | .default_ b, s => cexec I n b s
/-- Statements in sequence. -/
def cseq (I : Interp σ) (n : Nat) : Sts → σ → Option (CO × σ)
  | .nil, s => some (.norm, s)
  | .cons a r, s => (cexec I n a s).bind fun (o, s) =>
    match o with
    | .norm => cseq I n r s
    | o => some (o, s)
/-- Statements in sequence, starting from the first one that satisfies `p`. -/
def cfrom (I : Interp σ) (n : Nat) (p : St → Bool) : Sts → σ → Option (CO × σ)
  | .nil, s => some (.norm, s)
  | .cons a r, s =>
    if p a then (cexec I n a s).bind fun (o, s) =>
      match o with
      | .norm => cseq I n r s
      | o => some (o, s)
    else cfrom I n p r s
end

/-- Running a function in C terms: its variables are set up, the body runs, and — however the body
ends — the variables are put back once. -/
def cfun (I : Interp σ) (n : Nat) (params : List Nat) (body : St) (s : σ) : Option σ :=
  (I.acts params (I.save s)).bind fun s => (cexec I n body s).map fun (_, s) => I.restore s

/-! ### Shell -/

mutual
/-- Shell commands (the fragment that is generated). -/
inductive Sh where
  | simple (a : Nat)
  | colon
  /-- `endlet …` followed by `return` -/
  | ret
  | brk (n : Nat)
  | cont
  | orBreak (c : Nat)
  | ite (c : Nat) (a : Shs) (b : Els)
  | while_ (c : Option Nat) (b : Shs)
  | case_ (e : Nat) (b : Cases)
inductive Shs where
  | nil
  | cons (c : Sh) (r : Shs)
inductive Els where
  | none
  | els (b : Shs)
  | elif (c : Nat) (a : Shs) (b : Els)
inductive Cases where
  | nil
  | cons (ps : List Pat) (b : Shs) (r : Cases)
end

/-- How a command ends: `break n` and `continue` on their way out. -/
inductive SO where
  | norm | brk (n : Nat) | cont | ret
  deriving DecidableEq, Repr

/-- `while test; do body; done`. -/
def sloop (test : σ → Option (σ × Bool)) (body : σ → Option (SO × σ)) : Nat → σ → Option (SO × σ)
  | 0, _ => none
  | n + 1, s => (test s).bind fun (s, b) =>
    if b then (body s).bind fun (o, s) =>
      match o with
      | .norm | .cont => sloop test body n s
      | .brk k => some (if k ≤ 1 then .norm else .brk (k - 1), s)
      | .ret => some (.ret, s)
    else some (.norm, s)

def Pat.matches (v : Int) : Pat → Bool
  | .num w => v == w
  | .star => true

mutual
def sexec (I : Interp σ) (n : Nat) : Sh → σ → Option (SO × σ)
  | .simple a, s => (I.act a s).map fun s => (.norm, s)
  | .colon, s => some (.norm, s)
  | .ret, s => some (.ret, I.restore s)
  | .brk k, s => some (.brk k, s)
  | .cont, s => some (.cont, s)
  | .orBreak c, s => (I.test c s).map fun (s, b) => (if b then .norm else .brk 1, s)
  | .ite c a b, s => (I.test c s).bind fun (s, v) => if v then sseq I n a s else selse I n b s
  | .while_ c b, s =>
    sloop (match c with | some c => I.test c | none => fun s => some (s, true)) (sseq I n b) n s
  | .case_ e b, s => (I.sel e s).bind fun (s, v) => scases I n v b s
def sseq (I : Interp σ) (n : Nat) : Shs → σ → Option (SO × σ)
  | .nil, s => some (.norm, s)
  | .cons c r, s => (sexec I n c s).bind fun (o, s) =>
    match o with
    | .norm => sseq I n r s
    | o => some (o, s)
def selse (I : Interp σ) (n : Nat) : Els → σ → Option (SO × σ)
  | .none, s => some (.norm, s)
  | .els b, s => sseq I n b s
  | .elif c a b, s => (I.test c s).bind fun (s, v) => if v then sseq I n a s else selse I n b s
/-- The first alternative one of whose patterns matches. -/
def scases (I : Interp σ) (n : Nat) (v : Int) : Cases → σ → Option (SO × σ)
  | .nil, s => some (.norm, s)
  | .cons ps b r, s => if ps.any (Pat.matches v) then sseq I n b s else scases I n v r s
end

mutual
/-- The lines of a command. -/
def Sh.lines : Sh → List Line
  | .simple a => [.simple a]
  | .colon => [.colon]
  | .ret => [.restore, .ret]
  | .brk n => [.brk n]
  | .cont => [.cont]
  | .orBreak c => [.orBreak c]
  | .ite c a b => .ifL c :: a.lines ++ b.lines ++ [.fi]
  | .while_ c b => .whileL c :: b.lines ++ [.done]
  | .case_ e b => .caseL e :: b.lines ++ [.esac]
def Shs.lines : Shs → List Line
  | .nil => []
  | .cons c r => c.lines ++ r.lines
def Els.lines : Els → List Line
  | .none => []
  | .els b => .elseL :: b.lines
  | .elif c a b => .elifL c :: a.lines ++ b.lines
def Cases.lines : Cases → List Line
  | .nil => []
  | .cons ps b r => .pat ps :: b.lines ++ .dsemi :: r.lines
end

def Shs.isNil : Shs → Bool
  | .nil => true
  | _ => false

mutual
/-- The grammar's demand that the bodies of `if`, `else` and `while` and pattern lists are not empty. -/
def Sh.wf : Sh → Bool
  | .ite _ a b => !a.isNil && a.wf && b.wf
  | .while_ _ b => !b.isNil && b.wf
  | .case_ _ b => b.wf
  | _ => true
def Shs.wf : Shs → Bool
  | .nil => true
  | .cons c r => c.wf && r.wf
def Els.wf : Els → Bool
  | .none => true
  | .els b => !b.isNil && b.wf
  | .elif _ a b => !a.isNil && a.wf && b.wf
def Cases.wf : Cases → Bool
  | .nil => true
  | .cons ps b r => !ps.isEmpty && b.wf && r.wf
end

/-- The lines of a function with commands `body`: `let …`, the parameters, the body, `endlet …`. -/
def funLines (locals : Bool) (params : List Nat) (body : Shs) : List Line :=
  (if locals then [.save] else []) ++ params.map .simple ++ body.lines ++ (if locals then [.restore] else [])

/-- Calling a function with these lines: the last `restore` is not reached if the body has returned. -/
def sfun (I : Interp σ) (n : Nat) (locals : Bool) (params : List Nat) (body : Shs) (s : σ) : Option σ :=
  (I.acts params (if locals then I.save s else s)).bind fun s => (sseq I n body s).map fun (o, s) =>
    match o with
    | .ret => s
    | _ => if locals then I.restore s else s

/-! ### What is supported -/

mutual
/-- The statement contains a `continue` of the enclosing loop. -/
def St.conts : St → Bool
  | .ite _ a b => a.conts || b.conts
  | .switch _ b => b.conts
  | .switch1 _ b => b.conts
  | .continue_ => true
  | .block b => b.conts
  | .label s => s.conts
  | .case_ _ s => s.conts
  | .default_ s => s.conts
  | _ => false
def Sts.conts : Sts → Bool
  | .nil => false
  | .cons s r => s.conts || r.conts
end

mutual
/-- The statement contains a `break` of the enclosing loop (or `switch`). -/
def St.breaks : St → Bool
  | .ite _ a b => a.breaks || b.breaks
  | .break_ => true
  | .block b => b.breaks
  | .label s => s.breaks
  | .case_ _ s => s.breaks
  | .default_ s => s.breaks
  | _ => false
def Sts.breaks : Sts → Bool
  | .nil => false
  | .cons s r => s.breaks || r.breaks
end

mutual
/-- The statement visibly ends with `break` or `return` on every path. -/
def St.ends : St → Bool
  | .ite _ a b => a.ends && b.ends
  | .for_ _ none _ b => b.ends
  | .break_ => true
  | .ret _ => true
  | .block b => b.ends
  | .label s => s.ends
  | .case_ _ s => s.ends
  | .default_ s => s.ends
  | _ => false
def Sts.ends : Sts → Bool
  | .nil => false
  | .cons s r => s.ends || r.ends
end

/-- No `case` label after the group that contains `default:`. -/
def defaultLast : Sts → Bool
  | .nil => true
  | .cons s r => (if s.hasDefault then !(r.any fun s => s.hasDefault || s.isCase) else true) && defaultLast r

mutual
/-- The statements of the theorem: no `continue` in `do … while`, no `for (;;)` loop with a
`break` whose body always ends with `break` or `return`, `default:` last in a `switch`, no `goto` labels. -/
def St.ok : St → Bool
  | .ite _ a b => a.ok && b.ok
  | .while_ _ b => b.ok
  | .do_ b _ => !b.conts && b.ok
  | .for_ _ c _ b => (c.isSome || !(b.breaks && b.ends)) && b.ok
  | .switch _ b => defaultLast b && b.ok
  | .switch1 _ b => b.ok
  | .block b => b.ok
  | .label _ => false
  | .case_ _ s => s.ok
  | .default_ s => s.ok
  | _ => true
def Sts.ok : Sts → Bool
  | .nil => true
  | .cons s r => s.ok && r.ok
end

end Verif.Stmt
