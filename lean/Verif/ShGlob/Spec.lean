import Verif.ShGlob.Model
import Verif.ShTop.Spec
import Verif.ShHeap.Spec
/-! What C46 says: when `main` starts, every global variable and constant has the value C gives it. -/
namespace Verif.ShGlob.Spec
open Verif Verif.ShTop Verif.ShGlob

/-- The value of a constant expression, given the variables and the memory: a string denotes the address
of its bytes followed by a 0, in one of the blocks `K` of the string constants; a name denotes the value of the
constant or variable. -/
inductive Val (e : Env) (s : Sh) (K : Int → Nat → Prop) : IE → Int → Prop
  | int (v) : Val e s K (.int v) v
  | chr (c : Nat) : Val e s K (.chr c) c
  | name {x w} : s.var e (.g x) = some w → Val e s K (.name x) w
  | str {t b} : 0 < b → K b (t.length + 1) → ShHeap.StrAt s.mem b t → Val e s K (.str t) b
  | neg {a x} : Val e s K a x → Val e s K (.neg a) (-x)
  | add {a b x y} : Val e s K a x → Val e s K b y → Val e s K (.add a b) (x + y)
  | sub {a b x y} : Val e s K a x → Val e s K b y → Val e s K (.sub a b) (x - y)
  | mul {a b x y} : Val e s K a x → Val e s K b y → Val e s K (.mul a b) (x * y)

/-- An element of an initialiser list as an expression. -/
def elIE : El → Option IE
  | .int v => some (.int v)
  | .chr c => some (.chr c)
  | .str t => some (.str t)
  | .other => none

/-- Reading the cell gives 0: it holds 0, or it is unset (then reading it is an error under `set -u`). -/
def Zero (s : Sh) (a : Int) : Prop := s.mem.cell a = some 0 ∨ s.mem.cell a = none

/-- The length of an array. -/
def arrLen (len : Nat) : AInit → Nat
  | .str t => if len = 0 then t.length + 1 else len
  | .list es => if len = 0 then es.length else len
  | _ => len

/-- What the elements of an array are. -/
def Elems (e : Env) (s : Sh) (K : Int → Nat → Prop) (b : Int) (len : Nat) : AInit → Prop
  | .none => ∀ i : Nat, i < len → Zero s (b + i)
  | .str t => t.length < arrLen len (.str t) ∧ (∀ i (h : i < t.length), s.mem.cell (b + i) = some (t[i] : Int)) ∧
      ∀ i : Nat, t.length ≤ i → i < arrLen len (.str t) → s.mem.cell (b + i) = some 0
  | .list es => es.length ≤ arrLen len (.list es) ∧
      (∀ i (h : i < es.length), ∃ ie w, elIE es[i] = some ie ∧ Val e s K ie w ∧ s.mem.cell (b + i) = some w) ∧
      ∀ i : Nat, es.length ≤ i → i < arrLen len (.list es) →
        Zero s (b + i) ∧ (es ≠ [] → s.mem.cell (b + i) = some 0)
  | .other => False

/-- A declared variable has its value; arrays are blocks of their own (one of `L`). -/
def Init (e : Env) (s : Sh) (K : Int → Nat → Prop) (L : List ShHeap.Obj) : Decl → Prop
  | .proto _ => True
  | .scalar x none => s.var e (.g x) = some 0
  | .scalar x (some ie) => ∃ w, s.var e (.g x) = some w ∧ Val e s K ie w
  | .array x len a => ∃ b, s.var e (.g x) = some b ∧ ⟨b, arrLen len a⟩ ∈ L ∧ Elems e s K b len a

/-- The constants of a type specifier standing alone: enumeration constants have their values, members the
index of their cell, a structure as many cells as members. -/
def Consts (e : Env) (s : Sh) : TySpec → Prop
  | .enum _ cs => ∀ x v, (x, v) ∈ cs → s.var e (.g x) = some v
  | .struct tag ms => (∀ i (h : i < ms.length), s.var e (.mem ms[i].1) = some (i : Int)) ∧
      ∀ t, tag = some t → s.var e (.szof t) = some (ms.length : Int)
  | _ => True

/-- The value of everything a declaration declares. -/
def TopInit (e : Env) (s : Sh) (K : Int → Nat → Prop) (L : List ShHeap.Obj) : Top → Prop
  | .decls _ _ ds => ∀ d ∈ ds, Init e s K L d
  | .tag sp => Consts e s sp
  | .typedef sp => Consts e s sp
  | _ => True

/-- The arrays of a program and their lengths. -/
def declArrays : Decl → List (Id × Nat)
  | .array x len a => [(x, arrLen len a)]
  | _ => []

def arrays (p : List Top) : List (Id × Nat) :=
  p.flatMap fun t => match t with | .decls _ _ ds => ds.flatMap declArrays | _ => []

/-- The cells `b`, …, `b + i - 1` and `d`, …, `d + j - 1` are different. -/
def Disjoint (b : Int) (i : Nat) (d : Int) (j : Nat) : Prop := b + i ≤ d ∨ d + j ≤ b

/-- Arrays share no cell with each other and with string constants. -/
def Separate (e : Env) (s : Sh) (K : Int → Nat → Prop) (p : List Top) : Prop :=
  ∀ x i b, (x, i) ∈ arrays p → s.var e (.g x) = some b →
    (∀ y j d, (y, j) ∈ arrays p → x ≠ y → s.var e (.g y) = some d → Disjoint b i d j) ∧
    ∀ d j, K d j → Disjoint b i d j

/-- `argc` and `argv` for a `main` with parameters. -/
def Args (e : Env) (s : Sh) : Prop :=
  s.var e (.rt .argc_for_main) = some (e.args.length : Int) ∧
  ∃ a, s.var e (.rt .argv_for_main) = some a ∧ ShHeap.ArgvAt s.mem a e.args

/-! ### The programs and shells meant -/

/-- Different variables have different printed names (C14), none of them a scratch variable of the runtime;
`printf %d "'c"` prints codes of characters; arguments hold bytes other than NUL. -/
structure EnvOk (e : Env) : Prop where
  inj : ∀ m n, e.num m = e.num n → m = n
  addr : ∀ n, e.num n ≠ ShHeap.addrVar ∧ e.num n ≠ ShHeap.argvVar
  ord : ShStr.Spec.OrdOk e.ord
  args : ∀ a ∈ e.args, ∀ ch ∈ a, 1 ≤ ch ∧ ch < 256

/-- Strings hold bytes. -/
def Bytes (t : List Nat) : Prop := ∀ b ∈ t, b < 256

def IEBytes : IE → Prop
  | .str t => Bytes t
  | .neg a => IEBytes a
  | .add a b => IEBytes a ∧ IEBytes b
  | .sub a b => IEBytes a ∧ IEBytes b
  | .mul a b => IEBytes a ∧ IEBytes b
  | _ => True

def ElBytes : El → Prop
  | .str t => Bytes t
  | _ => True

def DeclBytes : Decl → Prop
  | .scalar _ (some ie) => IEBytes ie
  | .array _ _ (.str t) => Bytes t
  | .array _ _ (.list es) => ∀ x ∈ es, ElBytes x
  | _ => True

/-- The array declarations without a string initialiser, in order: whether they have an initialiser list. -/
def declLists : Decl → List Bool
  | .array _ _ .none => [false]
  | .array _ _ (.list _) => [true]
  | _ => []

def topLists : Top → List Bool
  | .decls _ _ ds => ds.flatMap declLists
  | _ => []

def lists (p : List Top) : List Bool := p.flatMap topLists

/-- The programs meant: those of C45, each variable and constant declared once, no member or structure name
used twice, and if an array has an initialiser list then so has the first array of the program. -/
structure Ok (e : Env) (p : List Top) : Prop where
  base : ShTop.Spec.Ok e.c p
  once : (ShTop.Spec.objs p).Nodup
  consts : (ShTop.Spec.consts p).Nodup
  bytes : ∀ sp ext ds, Top.decls sp ext ds ∈ p → ∀ d ∈ ds, DeclBytes d
  first : (lists p).head? = some false → true ∉ lists p

end Verif.ShGlob.Spec
