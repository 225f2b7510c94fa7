import Verif.Base
/-! Model of the type functions of `exe.c` used by the code generator.

Simplifications: a struct or union is referred to by its tag, and what the layout functions
(modelled in `Verif.Layout`, C25) compute for the tag is given by a table `Tags`; type qualifiers and
storage classes are not represented; `float` and `double` are left out (`pnut` has no code
generation for floating point). -/
namespace Verif.Gen
open Verif

/-- Type nodes by `get_op`; the flag of the integer types is the `unsigned` specifier (exe.c:604-616). -/
inductive CTy where
  | void
  | char (unsigned : Bool) | short (unsigned : Bool) | int (unsigned : Bool) | long (unsigned : Bool)
  | enum
  | ptr (t : CTy)
  | arr (n : Nat) (t : CTy)
  | agg (isUnion : Bool) (tag : Nat)
  | fn (ret : CTy)
deriving DecidableEq, Repr

/-- What is known of the structs and unions of the program: size, member offset, member type. -/
structure Tags where
  size : Nat → Nat
  off : Nat → Nat → Option Nat
  mem : Nat → Nat → Option CTy

/-- `is_pointer_type` (exe.c:559-562). -/
def is_pointer_type : CTy → Bool
  | .arr _ _ | .ptr _ => true
  | _ => false

/-- `is_function_type` (exe.c:564-572). -/
def is_function_type : CTy → Bool
  | .fn _ | .ptr (.fn _) => true
  | _ => false

/-- `is_struct_or_union_type` (exe.c:574-577). -/
def is_struct_or_union_type : CTy → Bool
  | .agg _ _ => true
  | _ => false

/-- `is_aggregate_type` (exe.c:580-583). -/
def is_aggregate_type : CTy → Bool
  | .arr _ _ | .agg _ _ => true
  | _ => false

/-- `is_numeric_type` (exe.c:589-602). -/
def is_numeric_type : CTy → Bool
  | .char _ | .int _ | .short _ | .long _ | .enum => true
  | _ => false

/-- `is_signed_numeric_type` (exe.c:604-616). -/
def is_signed_numeric_type : CTy → Bool
  | .char u | .int u | .short u | .long u => !u
  | _ => true

/-- `dereference_type` (exe.c:542-553). -/
def dereference_type : CTy → Res CTy
  | .arr _ t => .ok t
  | .ptr t => .ok t
  | _ => .fatal

/-- `type_width` (exe.c:622-658) with `word_align = false`. The default case covers `ENUM_KW` and
function types. -/
def type_width (w : Nat) (T : Tags) : CTy → (array_value : Bool) → Res Nat
  | .arr n t, av => if av then (type_width w T t true).bind fun k => .ok (n * k) else .ok w
  | .ptr _, _ => .ok w
  | .void, _ => .ok 1
  | .char _, _ => .ok 1
  | .short _, _ => .ok 2
  | .int _, _ => .ok 4
  | .long _, _ => if w = 8 then .ok 8 else .fatal
  | .agg _ tag, _ => .ok (T.size tag)
  | .enum, _ => .ok w
  | .fn _, _ => .ok w

/-- `ref_type_width` (exe.c:661-663). -/
def ref_type_width (w : Nat) (T : Tags) (t : CTy) : Res Nat :=
  (dereference_type t).bind fun t => type_width w T t false

end Verif.Gen
