import Verif.ShHeap.Model
/-! What the allocation property talks about: objects, observed only through the addresses the script
hands to the program and the sizes it was asked for. -/
namespace Verif.ShHeap
open Verif Verif.ShStr

/-- A block of memory given to the program. -/
structure Obj where
  base : Int
  size : Int
  deriving DecidableEq, Repr

/-- The cell `a` belongs to the object. -/
def Obj.has (o : Obj) (a : Int) : Prop := o.base ≤ a ∧ a < o.base + o.size

/-- No common cell. -/
def Apart (o p : Obj) : Prop := ∀ a, ¬ (o.has a ∧ p.has a)

/-- The strings of `argv`: the `i`-th is where cell `argv + i` points. -/
def argvObjs (s' : S) (argv : Int) : List (List Nat) → List Obj
  | [] => []
  | a :: as => ⟨(s'.cell argv).getD 0, a.length + 1⟩ :: argvObjs s' (argv + 1) as

/-- The objects an action created, in terms of the state before and after: the address now in the
destination and the size asked for. -/
def created (s s' : S) : Act → List Obj
  | .malloc d n => [⟨(s'.get d).getD 0, n⟩]
  | .defarr v len _ => [⟨(s'.var v).getD 0, len⟩]
  | .defstr v str size? =>
    if (s.var v).getD 0 = 0 then [⟨(s'.var v).getD 0, size?.getD (str.length + 1)⟩] else []
  | .unpack d str => [⟨(s'.get d).getD 0, str.length + 1⟩]
  | .argv args => ⟨(s'.var argvVar).getD 0, args.length⟩ ::
      argvObjs s' ((s'.var argvVar).getD 0) args
  | _ => []

/-- A result may go to any variable, or to a cell of an object. -/
def DstOk (L : List Obj) : Dst → Prop
  | .var _ => True
  | .cell a => ∃ o ∈ L, o.has a

/-- What a C program (and the compiler) may do: sizes are not negative, initialisers fit, stores and
results stay inside objects, `free` gets the address of an object not freed yet (`F` lists the freed
addresses). -/
def Allowed (ord : Nat → Int) (L : List Obj) (F : List Int) : Act → Prop
  | .malloc d n => DstOk L d ∧ 0 ≤ n
  | .free d p => DstOk L d ∧ (∃ o ∈ L, o.base = p) ∧ p ∉ F
  | .defarr _ len elems => (elems.length : Int) ≤ len
  | .defstr _ str size? => ∀ n, size? = some n → ∃ vs, unpackShort ord str = .ok vs ∧ (vs.length : Int) ≤ n
  | .unpack d _ => DstOk L d
  | .argv _ => True
  | .store a _ => ∃ o ∈ L, o.has a
  | .setVar _ _ => True

/-- The address an action frees. -/
def freed : Act → List Int
  | .free _ p => [p]
  | _ => []

/-- States a script can reach, with the objects created and the addresses freed so far. -/
inductive Reach (c : Cfg) (ord : Nat → Int) : S → List Obj → List Int → Prop
  | start : Reach c ord start [] []
  | act {s L F s'} (a : Act) : Reach c ord s L F → Allowed ord L F a → step c ord s a = .ok s' →
      Reach c ord s' (created s s' a ++ L) (freed a ++ F)

/-- The cells of earlier objects an action is meant to change. -/
def Touches (L : List Obj) : Act → Int → Prop
  | .malloc (.cell d) _, a => a = d
  | .free d p, a => d = .cell a ∨ ∃ o ∈ L, o.base = p ∧ o.has a
  | .unpack (.cell d) _, a => a = d
  | .store d _, a => a = d
  | _, _ => False

/-- A C string at an address: its characters, then 0. -/
def StrAt (s : S) (b : Int) (str : List Nat) : Prop :=
  (∀ i (h : i < str.length), s.cell (b + i) = some (str[i] : Int)) ∧ s.cell (b + str.length) = some 0

/-- `argv[0]`, `argv[1]`, … point to the arguments. -/
def ArgvAt (s : S) (argv : Int) (args : List (List Nat)) : Prop :=
  ∀ i (h : i < args.length), ∃ b, s.cell (argv + i) = some b ∧ StrAt s b args[i]

end Verif.ShHeap
