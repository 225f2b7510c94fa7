import Verif.ShTop.Model
/-! What C45 and C46 talk about: when a script has everything it uses, and which programs are meant.
Nothing here depends on how the compiler decides what to emit. -/
namespace Verif.ShTop.Spec
open Verif Verif.ShTop

/-! ### Running a script: what is defined when -/

/-- The variables a line gives a value to. -/
def sets : Cmd → List Nm
  | .set n _ => [n]
  | .zero ns => ns
  | .assign n _ => [n]
  | .readonly n _ => [n]
  | .malloc n _ => [n]
  | .defarr n _ _ => [n]
  | .defstr n _ _ => [n]
  | .argv => [.rt .argc_for_main, .rt .argv_for_main]
  | _ => []

/-- The variables a right-hand side reads. -/
def rvVars : Rv → List Nm
  | .int _ => []
  | .var n => [n]
  | .neg a => rvVars a
  | .add a b => rvVars a ++ rvVars b
  | .sub a b => rvVars a ++ rvVars b
  | .mul a b => rvVars a ++ rvVars b

/-- What a line itself needs when the shell executes it (defining a function executes nothing). -/
def needs : Cmd → List Need
  | .assign _ r => (rvVars r).map .var
  | .readonly _ r => (rvVars r).map .var
  | .malloc _ _ => [.fn (.g idMalloc)]
  | .defarr _ _ as => .fn (.rt .defarr) :: (as.flatMap rvVars).map .var
  | .defstr _ _ _ => [.fn (.rt .defstr)]
  | .argv => [.fn (.rt .make_argv)]
  | .callMain ret args => .fn (.g idMain) :: (if ret then [.var (.rt .code)] else []) ++
      (if args then [.var (.rt .argc_for_main), .var (.rt .argv_for_main)] else [])
  | _ => []

/-- The lines executed so far define the function, or have given the variable a value. -/
def Met (l : List Cmd) : Need → Prop
  | .fn n => ∃ ds, Cmd.defun n ds ∈ l
  | .var n => ∃ c ∈ l, n ∈ sets c

/-- Whatever calling `d` may lead to, with the functions defined by the lines `l`. -/
inductive Reach (l : List Cmd) : Need → Need → Prop
  | refl (d) : Reach l d d
  | step {n ds d e} : Cmd.defun n ds ∈ l → d ∈ ds → Reach l d e → Reach l (.fn n) e

/-- The shell can execute the line after the lines `l`: everything it uses, directly or through the
functions it calls, is there. -/
def Runs (l : List Cmd) (c : Cmd) : Prop := ∀ d ∈ needs c, ∀ e, Reach l d e → Met l e

/-- Every line finds what it uses among the lines before it. -/
def Complete (l : List Cmd) : Prop := ∀ pre c post, l = pre ++ c :: post → Runs pre c

/-- The functions a script defines, in order. -/
def defNames (l : List Cmd) : List Nm :=
  l.filterMap fun c => match c with | .defun n _ => some n | _ => none

/-- The constants a line makes readonly. -/
def ro (l : List Cmd) : List Nm :=
  l.filterMap fun c => match c with | .readonly n _ => some n | _ => none

/-- The variables a line sets without making them readonly. -/
def writes : Cmd → List Nm
  | .readonly _ _ => []
  | c => sets c

def wr (l : List Cmd) : List Nm := l.flatMap writes

/-- No line sets a variable that an earlier line made readonly (the shell would stop there). -/
def NoClash (l : List Cmd) : Prop :=
  ∀ pre c post, l = pre ++ c :: post → ∀ n ∈ sets c, ∀ r, Cmd.readonly n r ∉ pre

/-- No line calls `main`. -/
def NoCall (l : List Cmd) : Prop := ∀ ret args, Cmd.callMain ret args ∉ l

/-! ### Programs -/

/-- The C functions pnut provides. -/
def provided : List Id :=
  [idPutchar, idGetchar, idExit, idMalloc, idFree, idPrintf, idFopen, idFclose, idFgetc, idRead, idWrite,
   idOpen, idClose]

/-- Names a program must not give to its own functions: the provided ones, and `put_pstr`. -/
def reserved : List Id := provided ++ [idPutPstr]

/-- The functions defined in a program. -/
def funs (p : List Top) : List Id :=
  p.filterMap fun t => match t with | .fn f => some f.name | _ => none

/-- The variables and constants a type specifier standing alone declares. -/
def specObjs : TySpec → List Id
  | .enum _ cs => cs.map (·.1)
  | _ => []

/-- The name a declarator declares. -/
def declObjs : Decl → List Id
  | .scalar x _ => [x]
  | .array x _ _ => [x]
  | .proto _ => []

/-- The global variables and enumeration constants a declaration declares.  (Constants of an `enum`
inside a variable declaration are left out: see `C45_inline_enum_false`.) -/
def topObjs : Top → List Id
  | .decls _ _ ds => ds.flatMap declObjs
  | .tag sp => specObjs sp
  | .typedef sp => specObjs sp
  | _ => []

def objs (p : List Top) : List Id := p.flatMap topObjs

def specMembers : TySpec → List Id
  | .struct _ ms => ms.map (·.1)
  | _ => []

def topMembers : Top → List Id
  | .tag sp => specMembers sp
  | .typedef sp => specMembers sp
  | _ => []

def members (p : List Top) : List Id := p.flatMap topMembers

def specTags : TySpec → List Id
  | .struct (some t) _ => [t]
  | _ => []

def topTags : Top → List Id
  | .tag sp => specTags sp
  | .typedef sp => specTags sp
  | _ => []

def tags (p : List Top) : List Id := p.flatMap topTags

/-- The constants of a type specifier standing alone: enumeration constants, members, sizes. -/
def specConsts : TySpec → List Nm
  | .enum _ cs => cs.map fun x => .g x.1
  | .struct tag ms => (ms.map fun x => .mem x.1) ++
      (match tag with | some t => [.szof t] | none => [])
  | _ => []

def topConsts : Top → List Nm
  | .tag sp => specConsts sp
  | .typedef sp => specConsts sp
  | _ => []

def consts (p : List Top) : List Nm := p.flatMap topConsts

/-- The global variables of a declaration. -/
def topVars : Top → List Id
  | .decls _ _ ds => ds.flatMap declObjs
  | _ => []

def vars (p : List Top) : List Id := p.flatMap topVars

/-- The compiler replaces the call by a use of the shell's own commands (`printf("…")`, `puts("…")`). -/
def literalOutput (c : Cfg) (drop : Bool) (args : Args) : Prop :=
  c.avoidPrintf = true ∧ drop = true ∧ args = .lit

/-- What a body mentions is declared: functions are defined in the program or provided (`puts` and
`putstr` only with a literal), variables are local or global, members and structures exist. -/
def EvOk (c : Cfg) (p : List Top) (env : List Id) : Ev → Prop
  | .call f drop args => f ∈ funs p ∨ f ∈ provided ∨ ((f = idPuts ∨ f = idPutstr) ∧ literalOutput c drop args)
  | .var x => x ∈ env ∨ x ∈ objs p
  | .member m => m ∈ members p
  | .sizeofStruct t => t ∈ tags p
  | _ => True

/-- An initialiser only uses names declared before it, and no character constant (unless characters
are written as numbers). -/
def IEOk (c : Cfg) (before : List Id) : IE → Prop
  | .int _ => True
  | .chr _ => c.inlineChar = true
  | .name x => x ∈ before
  | .str _ => True
  | .neg a => IEOk c before a
  | .add a b => IEOk c before a ∧ IEOk c before b
  | .sub a b => IEOk c before a ∧ IEOk c before b
  | .mul a b => IEOk c before a ∧ IEOk c before b

/-- Declarators, each with the names declared before. -/
def DeclsOk (c : Cfg) : List Id → List Decl → Prop
  | _, [] => True
  | before, d :: ds =>
    (match d with
     | .scalar _ (some e) => IEOk c before e
     | .array _ _ (.str _) => True
     | .array _ _ _ => c.noInit = true
     | _ => True) ∧ DeclsOk c (before ++ declObjs d) ds

/-- The program: all names used are declared, functions are defined once and under names of their own,
arrays only with `RT_NO_INIT_GLOBALS`. -/
structure Ok (c : Cfg) (p : List Top) : Prop where
  bodies : ∀ f, Top.fn f ∈ p → ∀ e ∈ f.body, EvOk c p (f.locals ++ f.params) e
  inits : ∀ pre sp ext ds post, p = pre ++ Top.decls sp ext ds :: post → DeclsOk c (objs pre) ds
  distinct : (funs p).Nodup
  own : ∀ f ∈ funs p, f ∉ reserved

end Verif.ShTop.Spec
