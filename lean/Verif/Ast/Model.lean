import Verif.Base
/-! Model of the AST node store of pnut.c (integer heap, bump allocation). -/
namespace Verif.Ast
open Verif

/-- pnut.c:326 `HEAP_SIZE`. -/
def HEAP_SIZE : Nat := 2000000

/-- pnut.c:327-328: `heap` and `heap_alloc`. -/
structure St where
  heap : Nat → Int
  alloc : Nat

/-- pnut.c:328: the first 1009 cells are the hash buckets. -/
def init : St := { heap := fun _ => 0, alloc := 1009 }

/-- pnut.c:332-343 `alloc_obj`. -/
def allocObj (s : St) (size : Nat) : Res (Nat × St) :=
  if s.alloc + size > HEAP_SIZE then .fatal
  else .ok (s.alloc, { s with alloc := s.alloc + size })

/-- pnut.c:345-347 `get_op`: `heap[node] & 1023`.  On a two's complement machine this is the
remainder by 1024. -/
def getOp (s : St) (node : Nat) : Int := s.heap node % 1024
/-- pnut.c:349-351 `get_nb_children`: `heap[node] >> 10`. -/
def getNbChildren (s : St) (node : Nat) : Int := s.heap node / 1024
/-- pnut.c:452-454 `get_val`. -/
def getVal (s : St) (node : Nat) : Int := s.heap (node + 1)
/-- pnut.c:460-462 `get_child`. -/
def getChild (s : St) (node i : Nat) : Int := s.heap (node + i + 1)
/-- pnut.c:456-458 `set_val`. -/
def setVal (s : St) (node : Nat) (v : Int) : St := { s with heap := upd s.heap (node + 1) v }
/-- pnut.c:464-466 `set_child`. -/
def setChild (s : St) (node i : Nat) (v : Int) : St :=
  { s with heap := upd s.heap (node + i + 1) v }

/-- pnut.c:477-485 `new_ast0`. -/
def newAst0 (s : St) (op val : Int) : Res (Nat × St) :=
  (allocObj s 2).bind fun (r, s) =>
    let s := { s with heap := upd s.heap r op }
    .ok (r, setVal s r val)
/-- pnut.c:487-495 `new_ast1`. -/
def newAst1 (s : St) (op c0 : Int) : Res (Nat × St) :=
  (allocObj s 2).bind fun (r, s) =>
    let s := { s with heap := upd s.heap r (op + 1024) }
    .ok (r, setChild s r 0 c0)
/-- pnut.c:497-506 `new_ast2`. -/
def newAst2 (s : St) (op c0 c1 : Int) : Res (Nat × St) :=
  (allocObj s 3).bind fun (r, s) =>
    let s := { s with heap := upd s.heap r (op + 2048) }
    .ok (r, setChild (setChild s r 0 c0) r 1 c1)
/-- pnut.c:508-518 `new_ast3`. -/
def newAst3 (s : St) (op c0 c1 c2 : Int) : Res (Nat × St) :=
  (allocObj s 4).bind fun (r, s) =>
    let s := { s with heap := upd s.heap r (op + 3072) }
    .ok (r, setChild (setChild (setChild s r 0 c0) r 1 c1) r 2 c2)
/-- pnut.c:520-531 `new_ast4`. -/
def newAst4 (s : St) (op c0 c1 c2 c3 : Int) : Res (Nat × St) :=
  (allocObj s 5).bind fun (r, s) =>
    let s := { s with heap := upd s.heap r (op + 4096) }
    .ok (r, setChild (setChild (setChild (setChild s r 0 c0) r 1 c1) r 2 c2) r 3 c3)

/-- pnut.c:542-546, the copying loop of `clone_ast`: children `i .. i+k-1`. -/
def cloneLoop (s : St) (dst src : Nat) (i : Nat) : Nat → St
  | 0 => s
  | k + 1 => cloneLoop (setChild s dst i (getChild s src i)) dst src (i + 1) k

/-- pnut.c:533-549 `clone_ast`. -/
def cloneAst (s : St) (orig : Nat) : Res (Nat × St) :=
  let nb := (getNbChildren s orig).toNat
  let nb := if nb = 0 then 1 else nb
  (allocObj s (nb + 1)).bind fun (r, s) =>
    let s := { s with heap := upd s.heap r (s.heap orig) }
    .ok (r, cloneLoop s r orig 0 nb)

/-- The operations on nodes.  Nodes are designated by their creation rank. -/
inductive Op where
  | new0 (op val : Int)
  | new1 (op c0 : Int)
  | new2 (op c0 c1 : Int)
  | new3 (op c0 c1 c2 : Int)
  | new4 (op c0 c1 c2 c3 : Int)
  | set (node i : Nat) (v : Int)
  | clone (node : Nat)

structure World where
  st : St
  /-- addresses of the nodes, in creation order -/
  nodes : List Nat

def World.init : World := ⟨Ast.init, []⟩

def World.push (w : World) (r : Res (Nat × St)) : Res World :=
  r.bind fun (a, s) => .ok ⟨s, w.nodes ++ [a]⟩

/-- One operation; designating a node that does not exist is not something the code can do and is
a no-op. -/
def step (w : World) : Op → Res World
  | .new0 op v => w.push (newAst0 w.st op v)
  | .new1 op a => w.push (newAst1 w.st op a)
  | .new2 op a b => w.push (newAst2 w.st op a b)
  | .new3 op a b c => w.push (newAst3 w.st op a b c)
  | .new4 op a b c d => w.push (newAst4 w.st op a b c d)
  | .set n i v =>
    match w.nodes[n]? with
    | some a => .ok ⟨setChild w.st a i v, w.nodes⟩
    | none => .ok w
  | .clone n =>
    match w.nodes[n]? with
    | some a => w.push (cloneAst w.st a)
    | none => .ok w

def run (w : World) : List Op → Res World
  | [] => .ok w
  | o :: os => (step w o).bind fun w' => run w' os

end Verif.Ast
