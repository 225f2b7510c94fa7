import Verif.Env.Model
/-! Specification: the objects with static storage duration of a program (C11 6.2.4p3), in the order of
their declarations: the variables of the file scope, each once, and every variable declared `static`
in a block. -/
namespace Verif.Storage.Spec
open Verif.Env

/-- An object: the type given at its declaration and its size in bytes. -/
abbrev Obj := Int × Nat

mutual
/-- The objects of a statement. -/
def objS : St → List Obj
  | .static _ size ty => [(ty, size)]
  | .block b | .loop _ _ b | .switch _ _ b => objL b
  | _ => []
def objL : Sts → List Obj
  | .nil => []
  | .cons s r => objS s ++ objL r
end

/-- The objects of a translation unit; `seen`: the variables of the file scope declared before it. -/
def objects (seen : List Int) : List Glo → List Obj
  | [] => []
  | .var x size ty _ :: r => if x ∈ seen then objects seen r else (ty, size) :: objects (x :: seen) r
  | .fn _ _ _ _ body :: r => objL body ++ objects seen r
  | .enum _ _ :: r => objects seen r

/-- Bytes of a list of objects. -/
def bytes (l : List Obj) : Nat := (l.map Prod.snd).sum

end Verif.Storage.Spec
