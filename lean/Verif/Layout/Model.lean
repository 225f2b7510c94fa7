import Verif.Base
/-! Model of the layout functions of `exe.c`: sizes of types, alignment, member offsets.

Simplifications: tags are already resolved (`canonicalize_type` (exe.c:671-692) is the identity on
this representation: a struct that contains itself by value is not a C type), pointers and function
types are opaque, `int` arithmetic on sizes is not bounded, and an anonymous member is a struct or
a union (the parser, `parse_struct_or_union` (pnut.c:2699-2768), also lets an anonymous `enum`
through; that is not modelled). -/
namespace Verif.Layout
open Verif

mutual
/-- Type nodes, by `get_op` (exe.c:622-657). `agg false` is `STRUCT_KW`, `agg true` `UNION_KW`;
`enum` is `ENUM_KW`. -/
inductive Ty where
  | void | char | short | int | long | enum | ptr
  | arr (n : Nat) (t : Ty)
  | agg (isUnion : Bool) (ms : Ms)
/-- Member list of a struct or union: child 2 of the node, a list of `DECL`s; `none` is an
anonymous member. -/
inductive Ms where
  | nil
  | cons (name : Option Nat) (t : Ty) (rest : Ms)
end

deriving instance DecidableEq for Ty, Ms

/-- `align_to` (exe.c:350-352); division by 0 is undefined behaviour. -/
def align_to (mul n : Nat) : Res Nat :=
  if mul = 0 then .ub else .ok ((n + mul - 1) / mul * mul)

/-- `word_size_align` (exe.c:346-348) for `WORD_SIZE = w`. -/
def word_size_align (w n : Nat) : Nat := (n + w - 1) / w * w

/-- Loop state of `struct_union_size` (exe.c:712-738). -/
structure Acc where
  sum : Nat
  max : Nat
  largest : Nat
deriving DecidableEq

mutual
/-- `type_width` (exe.c:622-658) with `array_value = true`, `word_align = false`. -/
def type_width (w : Nat) : Ty → Res Nat
  | .arr n t => (type_width w t).bind fun k => .ok (n * k)
  | .ptr => .ok w
  | .void => .ok 1
  | .char => .ok 1
  | .short => .ok 2
  | .int => .ok 4
  | .long => if w = 8 then .ok 8 else .fatal
  | .agg u ms => (size_go w ms ⟨0, 0, 0⟩).bind fun a =>
      (align_to a.largest a.sum).bind fun s =>
      (align_to a.largest a.max).bind fun m => .ok (if u then m else s)
  | .enum => .ok w
/-- `type_largest_member` (exe.c:697-709); the global `struct_union_size_largest_member` that
`struct_union_size` sets last is the loop's largest member. -/
def type_largest_member (w : Nat) : Ty → Res Nat
  | .agg _ ms => (size_go w ms ⟨0, 0, 0⟩).bind fun a =>
      (align_to a.largest a.sum).bind fun _ =>
      (align_to a.largest a.max).bind fun _ => .ok a.largest
  | .arr _ t => type_largest_member w t
  | .ptr => .ok w
  | .void => .ok 1
  | .char => .ok 1
  | .short => .ok 2
  | .int => .ok 4
  | .long => if w = 8 then .ok 8 else .fatal
  | .enum => .ok w
/-- The loop of `struct_union_size` (exe.c:712-738). -/
def size_go (w : Nat) : Ms → Acc → Res Acc
  | .nil, a => .ok a
  | .cons _ t rest, a =>
    (type_width w t).bind fun sz =>
    (type_largest_member w t).bind fun lg =>
    (if sz ≠ 0 then align_to lg a.sum else .ok a.sum).bind fun sum =>
    size_go w rest ⟨sum + sz, if sz > a.max then sz else a.max, if a.largest < lg then lg else a.largest⟩
end

/-- `type_width` (exe.c:622-658) with its three arguments. -/
def type_width3 (w : Nat) (t : Ty) (array_value word_align : Bool) : Res Nat :=
  (match t with
   | .arr _ _ => if array_value then type_width w t else .ok w
   | _ => type_width w t).bind fun k => .ok (if word_align then word_size_align w k else k)

/-- `struct_member_offset_go` (exe.c:741-769); `none` is the result `-1`. The loop over the members
is `offset_go`. -/
def offset_go (w : Nat) (isUnion : Bool) : Ms → Nat → Nat → Res (Option Nat)
  | .nil, _, _ => .ok none
  | .cons name t rest, offset, member =>
    (match name, t with
     | none, .agg u ms => (offset_go w u ms 0 member).bind fun
        | some sub => .ok (some (offset + sub))
        | none => .ok none
     | none, _ => .ub
     | some n, _ => if member = n then .ok (some offset) else .ok none : Res (Option Nat)).bind fun
    | some r => .ok (some r)
    | none =>
      if isUnion then offset_go w isUnion rest offset member
      else
        (type_width w t).bind fun sz =>
        (if sz ≠ 0 then (type_largest_member w t).bind fun lg => align_to lg offset
         else .ok offset).bind fun off =>
        offset_go w isUnion rest (off + sz) member

/-- `struct_member_offset` (exe.c:771-775). -/
def struct_member_offset (w : Nat) (t : Ty) (member : Nat) : Res Nat :=
  match t with
  | .agg u ms => (offset_go w u ms 0 member).bind fun
      | some o => .ok o
      | none => .fatal
  | _ => .ub

/-- `struct_member_go` (exe.c:778-795): the type of the member's `DECL`; `none` is `-1`. -/
def member_go : Ms → Nat → Res (Option Ty)
  | .nil, _ => .ok none
  | .cons name t rest, member =>
    (match name, t with
     | none, .agg _ ms => member_go ms member
     | none, _ => .ub
     | some n, _ => if member = n then .ok (some t) else .ok none : Res (Option Ty)).bind fun
    | some r => .ok (some r)
    | none => member_go rest member

/-- `struct_member` (exe.c:797-801), then child 1 of the `DECL`. -/
def struct_member (t : Ty) (member : Nat) : Res Ty :=
  match t with
  | .agg _ ms => (member_go ms member).bind fun
      | some o => .ok o
      | none => .fatal
  | _ => .ub

/-- One step of an access expression: `.name` or `[i]`. -/
inductive Step where
  | mem (name : Nat)
  | idx (i : Nat)
deriving DecidableEq, Repr

/-- The displacement that `codegen_lvalue` (exe.c:1235-1349) adds for one step to the address of an
object of type `t`, and the type of the part. `.name` adds the member offset only on a struct;
`[i]` adds `i` times `ref_type_width` (exe.c:661-663), i.e. `type_width` with
`array_value = false`. -/
def lval_step (w : Nat) (t : Ty) : Step → Res (Nat × Ty)
  | .mem a =>
    match t with
    | .agg false _ =>
      (struct_member_offset w t a).bind fun o => (struct_member t a).bind fun t' => .ok (o, t')
    | .agg true _ => (struct_member t a).bind fun t' => .ok (0, t')
    | _ => .fatal
  | .idx i =>
    match t with
    | .arr _ e => (type_width3 w e false false).bind fun k => .ok (i * k, e)
    | _ => .fatal

/-- `codegen_lvalue` (exe.c:1235-1349) on an access expression `x.a[i].b...` whose root `x` has
type `t`: the displacement from the address of `x`. An index applied to the result of an index
(`x[i][j]`) does not compute an address: `codegen_rvalue` (exe.c:1368-1665) of `x[i]` loads a word
from the array, which is then used as a pointer; that is `ub` here. -/
def lval_off (w : Nat) (t : Ty) (afterIdx : Bool) : List Step → Res (Nat × Ty)
  | [] => .ok (0, t)
  | .mem a :: ss => (lval_step w t (.mem a)).bind fun (o, t') =>
      (lval_off w t' false ss).bind fun (o', t'') => .ok (o + o', t'')
  | .idx i :: ss =>
      if afterIdx then .ub
      else (lval_step w t (.idx i)).bind fun (o, t') =>
        (lval_off w t' true ss).bind fun (o', t'') => .ok (o + o', t'')

end Verif.Layout
