import Verif.Gen.Types
/-! Abstract syntax of expressions and statements: the AST nodes the parser of pnut.c builds
(pnut.c:3255-3990), by `get_op`.  Identifiers, struct tags and members are numbers.

Simplifications: function pointers, casts written as lvalues, assignment and
passing of whole structs, initializer lists, static locals and `goto` are not represented. -/
namespace Verif.Cg
open Verif.Gen

/-- Binary operators that also exist as compound assignments, and comparisons. -/
inductive Bop where
  | add | sub | mul | div | mod | band | bor | bxor | shl | shr
  | lt | gt | le | ge | eq | ne
deriving DecidableEq, Repr

def Bop.isCmp : Bop → Bool
  | .lt | .gt | .le | .ge | .eq | .ne => true
  | _ => false

/-- Expressions; an argument list (`LIST` nodes) is `anil`/`acons`. -/
inductive E where
  | num (v : Nat)            -- INTEGER, the value (the node holds it negated)
  | chr (v : Int)            -- CHARACTER
  | str (k : Nat) (bs : List Nat) -- STRING: its bytes; `k` tells the string literals of the program apart
  | var (x : Nat)            -- IDENTIFIER
  | deref (e : E) | addr (e : E) | neg (e : E) | bnot (e : E) | lnot (e : E) | plus (e : E)
  | paren (e : E)
  | incdec (post dec : Bool) (e : E)
  | sizeofT (t : CTy) | sizeofE (e : E)
  | bin (op : Bop) (a b : E) | comma (a b : E) | index (a b : E)
  | assign (a b : E) | opassign (op : Bop) (a b : E)
  | land (a b : E) | lor (a b : E) | cond (c a b : E)
  | cast (t : CTy) (e : E)
  | dot (e : E) (m : Nat) | arrow (e : E) (m : Nat)
  | call (f : Nat) (args : E)
  | anil | acons (e : E) (es : E)
deriving DecidableEq, Repr

/-- Statements; a compound statement is a list `bnil`/`bstmt`/`bdecl`. -/
inductive St where
  | skip                     -- no node (`else` or `for` part left out), or the empty statement
  | expr (e : E)
  | ifte (c : E) (a b : St)
  | whil (c : E) (b : St)
  | forr (i : St) (c : Option E) (p : St) (b : St)
  | doW (b : St) (c : E)
  | switch (e : E) (b : St)
  | case (e : E) (s : St)
  | dflt (s : St)
  | brk | cont
  | ret (e : Option E)
  | blk (b : St)
  | bnil
  | bstmt (s rest : St)
  | bdecl (x : Nat) (t : CTy) (init : Option E) (rest : St)
deriving DecidableEq, Repr

/-- A function definition. -/
structure Fun where
  name : Nat
  params : List (Nat × CTy)
  ret : CTy
  body : St

end Verif.Cg
