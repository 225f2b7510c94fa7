import Verif.Sys.IniModel
import Verif.Cg.ProgSpec
/-! Specification: the initial values of the global variables (C11 6.7.9).  The values are stored in the order in which they are written, into memory that is zero before. -/
namespace Verif.Sys.Spec
open Verif Verif.Gen Verif.Gen.Spec Verif.Cg Verif.Cg.Spec

/-- Store the bytes of a string and zeros after it, `n` bytes in all. -/
def storeStr (M : Mem) (a : Int) (bs : List Nat) : Nat → Option Mem
  | 0 => some M
  | n + 1 => (storeN M a (bs.headD 0) 1).bind fun M => storeStr M (a + 1) bs.tail n

mutual
/-- Initialise the object of type `t` at address `a`; `ev` evaluates an expression. -/
def initObj (C : Ctx) (mm : Nat → List Nat) (ev : E → Mem → Option (Int × Mem)) : Ini → CTy → Int → Mem → Option Mem
  | .expr e, t, a, M => (ev e M).bind fun (v, M) => storeT C M a t (conv C t v)
  | .str _ bs, .arr n (.char _), a, M => if bs.length ≤ n then storeStr M a bs n else none
  | .str k bs, .ptr t, a, M => (ev (.str k bs) M).bind fun (v, M) => storeT C M a (.ptr t) (conv C (.ptr t) v)
  | .list is, .arr n t, a, M => initElems C mm ev is t n a M
  | .list is, .agg false tag, a, M => initMembers C mm ev is tag (mm tag) a M
  | .list is, .agg true tag, a, M => initFirst C mm ev is tag (mm tag) a M
  | .list is, t, a, M => initOne C mm ev is t a M
  | _, _, _, _ => none
/-- The elements of an array, `n` elements left. -/
def initElems (C : Ctx) (mm : Nat → List Nat) (ev : E → Mem → Option (Int × Mem)) : Ini → CTy → Nat → Int → Mem → Option Mem
  | .nil, _, _, _, M => some M
  | .cons x is, t, n + 1, a, M => (initObj C mm ev x t a M).bind fun M => initElems C mm ev is t n (a + sizeof C.w C.T t) M
  | _, _, _, _, _ => none
/-- The members of the struct at `a`, in their order. -/
def initMembers (C : Ctx) (mm : Nat → List Nat) (ev : E → Mem → Option (Int × Mem)) : Ini → Nat → List Nat → Int → Mem → Option Mem
  | .nil, _, _, _, M => some M
  | .cons x is, tag, m :: ms, a, M =>
    (C.T.mem tag m).bind fun t => (C.T.off tag m).bind fun o =>
    (initObj C mm ev x t (a + o) M).bind fun M => initMembers C mm ev is tag ms a M
  | _, _, _, _, _ => none
/-- The first member of a union. -/
def initFirst (C : Ctx) (mm : Nat → List Nat) (ev : E → Mem → Option (Int × Mem)) : Ini → Nat → List Nat → Int → Mem → Option Mem
  | .cons x .nil, tag, m :: _, a, M => (C.T.mem tag m).bind fun t => (C.T.off tag m).bind fun o => initObj C mm ev x t (a + o) M
  | _, _, _, _, _ => none
/-- A scalar with braces. -/
def initOne (C : Ctx) (mm : Nat → List Nat) (ev : E → Mem → Option (Int × Mem)) : Ini → CTy → Int → Mem → Option Mem
  | .cons (.expr e) .nil, t, a, M => (ev e M).bind fun (v, M) => storeT C M a t (conv C t v)
  | .cons (.str k bs) .nil, t, a, M => (ev (.str k bs) M).bind fun (v, M) => storeT C M a t (conv C t v)
  | _, _, _, _ => none
end

/-- All initial values, in the order of the declarations. -/
def initAll (C : Ctx) (p : Program) (mm : Nat → List Nat) (ev : E → Mem → Option (Int × Mem)) (G : Int) : List Top → Mem → Option Mem
  | [], M => some M
  | .var x t (some i) :: ts, M =>
    match p.globals.find? (·.1 = x) with
    | some (_, o, _) => (initObj C mm ev i t (G + o) M).bind fun M => initAll C p mm ev G ts M
    | none => none
  | _ :: ts, M => initAll C p mm ev G ts M

/-- The functions among the declarations. -/
def funsOf : List Top → List Fun
  | [] => []
  | .fn f :: ts => f :: funsOf ts
  | _ :: ts => funsOf ts

/-- The program before `main`: all initial values stored, expressions (they may call functions) evaluated with the stack pointer `sp`. -/
def Initialises (C : Ctx) (p : Program) (mm : Nat → List Nat) (G sp : Int) (ts : List Top) (M M' : Mem) : Prop :=
  ∃ n, initAll C p mm (fun e M => evalE C (call C p.fn (p.env G) n) (p.env G) e sp M) G ts M = some M'

end Verif.Sys.Spec
