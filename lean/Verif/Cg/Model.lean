import Verif.Cg.Syntax
import Verif.Cg.Asm
/-! Model of the code generator of exe.c: expressions, statements, functions (exe.c:803-2416).

The compile-time state is threaded explicitly: `fs` is `cgc_fs`, `l` the next unused label (labels
are numbers, `alloc_label` takes the next one; exe.c:399-422), and the environment `Env`
holds the bindings reachable from `cgc_locals` and `cgc_globals`.  The result is the list of emitted
items. Registers: `reg_X` = 0 (AX), `reg_Y` = 1 (CX), `reg_Z` = 2 (DX), `reg_glo` = 3 (BX),
`reg_SP` = 4 (x86.c:49-53). `SAFE_MODE` checks and `SUPPORT_64_BIT_LITERALS` are off. -/
namespace Verif.Cg
open Verif Verif.Gen Verif.X86

/-- A local variable or parameter (env.c:118-134, 155-164). -/
structure Local where
  name : Nat
  pos : Int
  ty : CTy
  param : Bool

/-- `BINDING_LOOP` (`cont = some`) and `BINDING_SWITCH` (`cont = none`) (env.c:166-188). -/
structure Loop where
  fs : Int
  brk : Nat
  cont : Option Nat

/-- The environment: `cgc_locals` (variables and enclosing loops separately, both searched from the
innermost) and `cgc_globals`, by kind.  Simplification: the global tables are complete before
the functions are compiled (pnut fills them as it meets the declarations, and stops if a name is not
declared yet). -/
structure Env where
  locals : List Local
  loops : List Loop
  globals : List (Nat × Int × CTy)
  funs : List (Nat × Nat × CTy)
  enums : List (Nat × Int)

/-- A binding found by `resolve_identifier`. -/
inductive Bnd where
  | loc (b : Local)
  | glo (off : Int) (t : CTy)
  | fn (lbl : Nat) (ret : CTy)
  | cst (v : Int)

/-- `cgc_lookup_fun` (env.c:64-66). -/
def lookup_fun (Γ : Env) (x : Nat) : Option (Nat × CTy) :=
  (Γ.funs.find? (·.1 = x)).map (·.2)

/-- `resolve_identifier` (exe.c:803-819). -/
def resolve (Γ : Env) (x : Nat) : Res Bnd :=
  match Γ.locals.find? (·.name = x) with
  | some b => .ok (.loc b)
  | none => match Γ.globals.find? (·.1 = x) with
    | some (_, o, t) => .ok (.glo o t)
    | none => match lookup_fun Γ x with
      | some (l, r) => .ok (.fn l r)
      | none => match Γ.enums.find? (·.1 = x) with
        | some (_, v) => .ok (.cst v)
        | none => .fatal

/-- `int_type` (exe.c:1679). -/
def int_type : CTy := .int false
/-- `char_type` (exe.c:1681). -/
def char_type : CTy := .char false

/-- `string_type` (exe.c:1681). -/
def string_type : CTy := .ptr (.char false)

/-- `struct_member` (exe.c:797-801) through the table of C25. -/
def member_type (T : Tags) (tag m : Nat) : Res CTy :=
  match T.mem tag m with
  | some t => .ok t
  | none => .fatal

/-- The displacement added for a member: `struct_member_offset` (exe.c:771-775) for a struct, 0 for a
union (exe.c:1311-1313). -/
def member_off (T : Tags) (isUnion : Bool) (tag m : Nat) : Res (Option Nat) :=
  if isUnion then .ok none
  else match T.off tag m with
    | some o => .ok (some o)
    | none => .fatal

/-- `value_type` (exe.c:822-989). -/
def value_type (T : Tags) (Γ : Env) : E → Res CTy
  | .num _ => .ok int_type
  | .chr _ => .ok char_type
  | .str _ _ => .ok string_type
  | .var x => (resolve Γ x).bind fun
    | .loc b => .ok b.ty
    | .glo _ t => .ok t
    | .cst _ => .ok int_type
    | .fn _ r => .ok (.fn r)
  | .deref e => (value_type T Γ e).bind fun t =>
      if is_function_type t then .ok t else dereference_type t
  | .addr e => (value_type T Γ e).bind fun t => .ok (.ptr t)
  | .lnot _ => .ok int_type
  | .plus e | .neg e | .bnot e | .paren e | .incdec _ _ e => value_type T Γ e
  | .sizeofT _ | .sizeofE _ => .ok int_type
  | .bin op a b =>
    if op.isCmp then .ok int_type
    else (value_type T Γ a).bind fun lt => (value_type T Γ b).bind fun rt =>
      if is_pointer_type lt && is_pointer_type rt && op = .sub then .ok int_type
      else if is_pointer_type lt then .ok lt
      else .ok rt
  | .comma _ b => value_type T Γ b
  | .index a b => (value_type T Γ a).bind fun lt => (value_type T Γ b).bind fun rt =>
      if is_pointer_type lt then dereference_type lt
      else if is_pointer_type rt then dereference_type rt
      else .fatal
  | .assign a _ | .opassign _ a _ => value_type T Γ a
  | .land a _ | .lor a _ => value_type T Γ a
  | .call f _ => match lookup_fun Γ f with
    | some (_, r) => .ok r
    | none => .fatal
  | .dot e m => (value_type T Γ e).bind fun
    | .agg _ tag => member_type T tag m
    | _ => .fatal
  | .arrow e m => (value_type T Γ e).bind fun
    | .ptr (.agg _ tag) => member_type T tag m
    | _ => .fatal
  | .cast t _ => .ok t
  | .cond _ a _ => value_type T Γ a
  | .anil | .acons _ _ => .fatal

/-- `is_signed` of `codegen_binop` (exe.c:1002-1003). -/
def both_signed (lt rt : CTy) : Bool := is_signed_numeric_type lt && is_signed_numeric_type rt

/-- The condition code of a comparison (exe.c:1008-1013; codes x86.c:605-614). -/
def cmp_cond (signed : Bool) : Bop → Option Nat
  | .lt => some (if signed then 0xc else 0x2)
  | .gt => some (if signed then 0xf else 0x7)
  | .le => some (if signed then 0xe else 0x6)
  | .ge => some (if signed then 0xd else 0x3)
  | .eq => some 0x4
  | .ne => some 0x5
  | _ => none

/-- `idiv_reg_reg`, `irem_reg_reg`, `div_reg_reg`, `rem_reg_reg` on AX and CX (x86.c:426-480). -/
def div_code (signed : Bool) (res : Nat) : List Emit :=
  if signed then [.mov_reg_reg 0 0, .cdq_cqo, .idiv_reg 1, .mov_reg_reg 0 res]
  else [.mov_reg_reg 0 0, .mov_reg_imm 2 0, .div_reg 1, .mov_reg_reg 0 res]

/-- The instructions of `codegen_binop` (exe.c:1030-1115) between the pops and the push, for the
operators that are not comparisons. -/
def binop_core (w : Nat) (T : Tags) (op : Bop) (lt rt : CTy) : Res (List Emit) :=
  let signed := both_signed lt rt
  let num := is_numeric_type lt && is_numeric_type rt
  match op with
  | .add => binop_add w T lt rt
  | .sub => binop_sub w T lt rt
  | .mul => if num then .ok [.imul_reg_reg 0 1] else .fatal
  | .div => if num then .ok (div_code signed 0) else .fatal
  | .mod => if num then .ok (div_code signed 2) else .fatal
  | .shr => if num then .ok [.mov_reg_reg 1 1, if signed then .sar_reg_cl 0 else .shr_reg_cl 0] else .fatal
  | .shl => if num then .ok [.mov_reg_reg 1 1, .s_l_reg_cl 0] else .fatal
  | .band => if num then .ok [.and_reg_reg 0 1] else .fatal
  | .bor => if num then .ok [.or_reg_reg 0 1] else .fatal
  | .bxor => if num then .ok [.xor_reg_reg 0 1] else .fatal
  | _ => .fatal

/-- `jump_cond_reg_reg` (x86.c:626-629). -/
def jump_cond_reg_reg (cc l r1 r2 : Nat) : List Asm := [.ins (.cmp_reg_reg r1 r2), .jcc cc l]

/-- `codegen_binop` (exe.c:991-1116) for the operators of `Bop`; `lt`, `rt` are the value types of the
operands. -/
def codegen_binop (w : Nat) (T : Tags) (op : Bop) (lt rt : CTy) (l : Nat) : Res (List Asm × Nat) :=
  match cmp_cond (both_signed lt rt) op with
  | some cc => .ok (I [.pop_reg 1, .pop_reg 0] ++ jump_cond_reg_reg cc l 0 1 ++
      I [.xor_reg_reg 0 0] ++ [.jmp (l + 1), .lbl l] ++ I [.mov_reg_imm 0 1] ++ [.lbl (l + 1)] ++
      I [.push_reg 0], l + 2)
  | none => (binop_core w T op lt rt).bind fun es => .ok (I (binop es), l)

/-- `grow_stack` (exe.c:354-356). -/
def grow_stack (w : Nat) (words : Int) : List Asm := I [.add_reg_imm 4 (-words * w)]

/-- The operator `codegen_binop` is called with for `++` and `--` (exe.c:1030, 1042). -/
def incop (dec : Bool) : Bop := if dec then .sub else .add

/-- The value of the variable (or, for arrays, structs and unions, its address) whose address is
`reg_X` (exe.c:1401-1431); `param` tells `BINDING_PARAM_LOCAL`, where an array is a pointer. -/
def load_var (w : Nat) (T : Tags) (t : CTy) (param : Bool) : Res (List Emit) :=
  let isArr := match t with | .arr _ _ => true | _ => false
  if is_struct_or_union_type t || (isArr && !param) then .ok []
  else (type_width w T t false).bind fun k => load_mem_location w 0 0 0 k (is_signed_numeric_type t)

/-- `codegen_string` (exe.c:1351-1366): the call pushes the address of the bytes of the string. -/
def codegen_string (k : Nat) (bs : List Nat) (l : Nat) : List Asm := [.call l, .data k bs, .lbl l]

/-- A string literal (not in parentheses). -/
def isStr : E → Bool
  | .str _ _ => true
  | _ => false
/-- The type `char *`. -/
def isCharPtr : CTy → Bool
  | .ptr (.char _) => true
  | _ => false

mutual
/-- `codegen_rvalue` (exe.c:1368-1665). -/
def codegen_rvalue (w : Nat) (T : Tags) (Γ : Env) : E → Int → Nat → Res (List Asm × Int × Nat)
  | .num v, fs, l => .ok (I [.mov_reg_imm 0 v, .push_reg 0], fs + 1, l)
  | .chr v, fs, l => .ok (I [.mov_reg_imm 0 v, .push_reg 0], fs + 1, l)
  | .str k bs, fs, l => .ok (codegen_string k bs l, fs + 1, l + 1)
  | .var x, fs, l => (resolve Γ x).bind fun
    | .loc b => (load_var w T b.ty b.param).bind fun ld =>
        .ok (I ([.mov_reg_imm 0 ((fs - b.pos) * w), .add_reg_reg 0 4] ++ ld ++ [.push_reg 0]), fs + 1, l)
    | .glo off t => (load_var w T t false).bind fun ld =>
        .ok (I ([.mov_reg_imm 0 off, .add_reg_reg 0 3] ++ ld ++ [.push_reg 0]), fs + 1, l)
    | .cst v => .ok (I [.mov_reg_imm 0 v, .push_reg 0], fs + 1, l)
    | .fn _ _ => .fatal -- not modelled: `mov_reg_lbl`
  | .deref e, fs, l =>
    (value_type T Γ e).bind fun t =>
    (codegen_rvalue w T Γ e fs l).bind fun (c, fs, l) =>
    let fs := fs - 1
    if is_function_type t then .ok (c, fs + 1, l)
    else if is_pointer_type t then
      (ref_type_width w T t).bind fun k => (dereference_type t).bind fun t' =>
      (load_mem_location w 0 0 0 k (is_signed_numeric_type t')).bind fun ld =>
      .ok (c ++ I ([.pop_reg 0] ++ ld ++ [.push_reg 0]), fs + 1, l)
    else .fatal
  | .plus e, fs, l | .paren e, fs, l =>
    (codegen_rvalue w T Γ e fs l).bind fun (c, fs, l) =>
    let fs := fs - 1
    .ok (c, fs + 1, l)
  | .neg e, fs, l =>
    (codegen_rvalue w T Γ e fs l).bind fun (c, fs, l) =>
    let fs := fs - 1
    .ok (c ++ I [.pop_reg 1, .xor_reg_reg 0 0, .sub_reg_reg 0 1, .push_reg 0], fs + 1, l)
  | .bnot e, fs, l =>
    (codegen_rvalue w T Γ e fs l).bind fun (c, fs, l) =>
    let fs := fs - 1
    .ok (c ++ I [.pop_reg 1, .mov_reg_imm 0 (-1), .xor_reg_reg 0 1, .push_reg 0], fs + 1, l)
  | .lnot e, fs, l =>
    let fs := fs + 1
    (codegen_rvalue w T Γ e fs l).bind fun (c, fs, l) =>
    (value_type T Γ e).bind fun t =>
    (codegen_binop w T .eq int_type t l).bind fun (cb, l) =>
    let fs := fs - 2
    .ok (I [.xor_reg_reg 0 0, .push_reg 0] ++ c ++ cb, fs + 1, l)
  | .incdec post dec e, fs, l =>
    (codegen_lvalue w T Γ e fs l).bind fun (c, fs, l, k) =>
    (value_type T Γ e).bind fun t =>
    (load_mem_location w 0 1 0 k (is_signed_numeric_type t)).bind fun ld =>
    (codegen_binop w T (incop dec) t int_type l).bind fun (cb, l) =>
    (write_mem_location w 1 0 0 k).bind fun st =>
    let fs := fs - 1
    if post then
      .ok (c ++ I ([.pop_reg 1] ++ ld ++ [.push_reg 0, .push_reg 1, .push_reg 0, .mov_reg_imm 0 1,
        .push_reg 0]) ++ cb ++ I ([.pop_reg 0, .pop_reg 1] ++ st), fs + 1, l)
    else
      .ok (c ++ I ([.pop_reg 1, .push_reg 1] ++ ld ++ [.push_reg 0, .mov_reg_imm 0 1, .push_reg 0]) ++
        cb ++ I ([.pop_reg 0, .pop_reg 1] ++ st ++ [.push_reg 0]), fs + 1, l)
  | .addr e, fs, l =>
    (codegen_lvalue w T Γ e fs l).bind fun (c, fs, l, _) =>
    let fs := fs - 1
    .ok (c, fs + 1, l)
  | .sizeofT t, fs, l => (type_width w T t true).bind fun k =>
      .ok (I [.mov_reg_imm 0 k, .push_reg 0], fs + 1, l)
  | .sizeofE e, fs, l => (value_type T Γ e).bind fun t => (type_width w T t true).bind fun k =>
      .ok (I [.mov_reg_imm 0 k, .push_reg 0], fs + 1, l)
  | .bin op a b, fs, l =>
    (codegen_rvalue w T Γ a fs l).bind fun (ca, fs, l) =>
    (codegen_rvalue w T Γ b fs l).bind fun (cb, fs, l) =>
    (value_type T Γ a).bind fun lt => (value_type T Γ b).bind fun rt =>
    (codegen_binop w T op lt rt l).bind fun (co, l) =>
    let fs := fs - 2
    .ok (ca ++ cb ++ co, fs + 1, l)
  | .comma a b, fs, l =>
    (codegen_rvalue w T Γ a fs l).bind fun (ca, fs, l) =>
    (codegen_rvalue w T Γ b fs l).bind fun (cb, fs, l) =>
    let fs := fs - 2
    .ok (ca ++ cb ++ I (binop [.mov_reg_reg 0 1]), fs + 1, l)
  | .index a b, fs, l =>
    (codegen_rvalue w T Γ a fs l).bind fun (ca, fs, l) =>
    (codegen_rvalue w T Γ b fs l).bind fun (cb, fs, l) =>
    (value_type T Γ a).bind fun lt => (value_type T Γ b).bind fun rt =>
    (binop_index w T lt rt).bind fun es =>
    let fs := fs - 2
    .ok (ca ++ cb ++ I (binop es), fs + 1, l)
  | .assign a b, fs, l =>
    (value_type T Γ a).bind fun t =>
    (codegen_lvalue w T Γ a fs l).bind fun (ca, fs, l, k) =>
    if is_struct_or_union_type t then .fatal -- not modelled: struct assignment
    else
      (codegen_rvalue w T Γ b fs l).bind fun (cb, fs, l) =>
      (write_mem_location w 1 0 0 k).bind fun st =>
      let fs := fs - 2
      .ok (ca ++ cb ++ I ([.pop_reg 0, .pop_reg 1] ++ st ++ [.push_reg 0]), fs + 1, l)
  | .opassign op a b, fs, l =>
    (codegen_lvalue w T Γ a fs l).bind fun (ca, fs, l, k) =>
    (value_type T Γ a).bind fun t =>
    (load_mem_location w 0 1 0 k (is_signed_numeric_type t)).bind fun ld =>
    let fs := fs + 1
    (codegen_rvalue w T Γ b fs l).bind fun (cb, fs, l) =>
    (value_type T Γ b).bind fun rt =>
    (codegen_binop w T op t rt l).bind fun (co, l) =>
    (write_mem_location w 1 0 0 k).bind fun st =>
    let fs := fs - 3
    .ok (ca ++ I ([.pop_reg 1, .push_reg 1] ++ ld ++ [.push_reg 0]) ++ cb ++ co ++
      I ([.pop_reg 0, .pop_reg 1] ++ st ++ [.push_reg 0]), fs + 1, l)
  | .land a b, fs, l =>
    (codegen_rvalue w T Γ a fs (l + 1)).bind fun (ca, fs, l') =>
    let fs := fs - 1
    (codegen_rvalue w T Γ b fs l').bind fun (cb, fs, l') =>
    let fs := fs - 1
    .ok (ca ++ I [.pop_reg 0, .push_reg 0, .xor_reg_reg 1 1] ++ jump_cond_reg_reg 0x4 l 0 1 ++
      I [.pop_reg 0] ++ cb ++ [.lbl l], fs + 1, l')
  | .lor a b, fs, l =>
    (codegen_rvalue w T Γ a fs (l + 1)).bind fun (ca, fs, l') =>
    let fs := fs - 1
    (codegen_rvalue w T Γ b fs l').bind fun (cb, fs, l') =>
    let fs := fs - 1
    .ok (ca ++ I [.pop_reg 0, .push_reg 0, .xor_reg_reg 1 1] ++ jump_cond_reg_reg 0x5 l 0 1 ++
      I [.pop_reg 0] ++ cb ++ [.lbl l], fs + 1, l')
  | .call f args, fs, l =>
    (resolve Γ f).bind fun
    | .fn lbl _ =>
      (codegen_params w T Γ args fs l).bind fun (c, fs, l, n) =>
      let fs := fs - n
      .ok (c ++ [.call lbl] ++ grow_stack w (-n) ++ I [.push_reg 0], fs + 1, l)
    | _ => .fatal -- not modelled: calls through function pointers
  | .dot e m, fs, l =>
    (value_type T Γ e).bind fun
    | .agg u tag =>
      (member_type T tag m).bind fun t2 =>
      (codegen_lvalue w T Γ e fs l).bind fun (c, fs, l, _) =>
      let fs := fs - 1
      (member_off T u tag m).bind fun off =>
      (if is_aggregate_type t2 then .ok []
       else (type_width w T t2 false).bind fun k =>
        load_mem_location w 1 1 0 k (is_signed_numeric_type t2)).bind fun ld =>
      .ok (c ++ I ([.pop_reg 1] ++ (match off with | some o => [.add_reg_imm 1 o] | none => []) ++ ld ++
        [.push_reg 1]), fs + 1, l)
    | _ => .fatal
  | .arrow e m, fs, l =>
    (value_type T Γ e).bind fun
    | .ptr (.agg u tag) =>
      (member_type T tag m).bind fun t2 =>
      (codegen_rvalue w T Γ e fs l).bind fun (c, fs, l) =>
      let fs := fs - 1
      (member_off T u tag m).bind fun off =>
      (if is_aggregate_type t2 then .ok []
       else (type_width w T t2 false).bind fun k =>
        load_mem_location w 1 1 0 k (is_signed_numeric_type t2)).bind fun ld =>
      .ok (c ++ I ([.pop_reg 1] ++ (match off with | some o => [.add_reg_imm 1 o] | none => []) ++ ld ++
        [.push_reg 1]), fs + 1, l)
    | _ => .fatal
  | .cast t e, fs, l =>
    (codegen_rvalue w T Γ e fs l).bind fun (c, fs, l) =>
    (value_type T Γ e).bind fun te =>
    (type_width w T t false).bind fun k => (type_width w T te false).bind fun ke =>
    (if k < ke then
      (load_mem_location w 0 4 0 k (is_signed_numeric_type t)).bind fun ld =>
      .ok (I ld ++ grow_stack w (-1) ++ I [.push_reg 0])
     else .ok []).bind fun tr =>
    let fs := fs - 1
    .ok (c ++ tr, fs + 1, l)
  | .cond a b d, fs, l =>
    (codegen_rvalue w T Γ a fs (l + 2)).bind fun (ca, fs, l') =>
    let fs := fs - 1
    (codegen_rvalue w T Γ b fs l').bind fun (cb, fs, l') =>
    let fs := fs - 1
    (codegen_rvalue w T Γ d fs l').bind fun (cd, fs, l') =>
    let fs := fs - 1
    .ok (ca ++ I [.pop_reg 0, .xor_reg_reg 1 1] ++ jump_cond_reg_reg 0x4 l 0 1 ++ cb ++
      [.jmp (l + 1), .lbl l] ++ cd ++ [.lbl (l + 1)], fs + 1, l')
  | .anil, _, _ | .acons _ _, _, _ => .fatal

/-- `codegen_lvalue` (exe.c:1235-1348); the last component is the returned width. -/
def codegen_lvalue (w : Nat) (T : Tags) (Γ : Env) : E → Int → Nat → Res (List Asm × Int × Nat × Nat)
  | .var x, fs, l => (resolve Γ x).bind fun
    | .loc b => (type_width w T b.ty true).bind fun k =>
        if k = 0 then .fatal else
        .ok (I [.mov_reg_imm 0 ((fs - b.pos) * w), .add_reg_reg 0 4, .push_reg 0], fs + 1, l, k)
    | .glo off t => (type_width w T t true).bind fun k =>
        if k = 0 then .fatal else
        .ok (I [.mov_reg_imm 0 off, .add_reg_reg 0 3, .push_reg 0], fs + 1, l, k)
    | _ => .fatal -- not modelled: the address of a function
  | .deref e, fs, l =>
    (codegen_rvalue w T Γ e fs l).bind fun (c, fs, l) =>
    let fs := fs - 1
    (value_type T Γ e).bind fun t => (ref_type_width w T t).bind fun k =>
    if k = 0 then .fatal else .ok (c, fs + 1, l, k)
  | .paren e, fs, l =>
    (codegen_lvalue w T Γ e fs l).bind fun (c, fs, l, k) =>
    let fs := fs - 1
    .ok (c, fs + 1, l, k)
  | .index a b, fs, l =>
    (value_type T Γ a).bind fun lt =>
    (codegen_rvalue w T Γ a fs l).bind fun (ca, fs, l) =>
    (codegen_rvalue w T Γ b fs l).bind fun (cb, fs, l) =>
    (value_type T Γ b).bind fun rt =>
    (codegen_binop w T .add lt rt l).bind fun (co, l) =>
    let fs := fs - 2
    (ref_type_width w T lt).bind fun k =>
    if k = 0 then .fatal else .ok (ca ++ cb ++ co, fs + 1, l, k)
  | .dot e m, fs, l =>
    (value_type T Γ e).bind fun
    | .agg u tag =>
      (codegen_lvalue w T Γ e fs l).bind fun (c, fs, l, _) =>
      (member_off T u tag m).bind fun off =>
      let fs := fs - 1
      (member_type T tag m).bind fun t2 => (type_width w T t2 true).bind fun k =>
      if k = 0 then .fatal else
      .ok (c ++ I ([.pop_reg 0] ++ (match off with | some o => [.add_reg_imm 0 o] | none => []) ++
        [.push_reg 0]), fs + 1, l, k)
    | _ => .fatal
  | .arrow e m, fs, l =>
    (value_type T Γ e).bind fun
    | .ptr (.agg u tag) =>
      (codegen_rvalue w T Γ e fs l).bind fun (c, fs, l) =>
      (member_off T u tag m).bind fun off =>
      let fs := fs - 1
      (member_type T tag m).bind fun t2 => (type_width w T t2 true).bind fun k =>
      if k = 0 then .fatal else
      .ok (c ++ I ([.pop_reg 0] ++ (match off with | some o => [.add_reg_imm 0 o] | none => []) ++
        [.push_reg 0]), fs + 1, l, k)
    | _ => .fatal
  | _, _, _ => .fatal

/-- `codegen_params` (exe.c:1141-1172) with `codegen_param` (exe.c:1122-1138): from the last argument
to the first; the last component is the number of words. -/
def codegen_params (w : Nat) (T : Tags) (Γ : Env) : E → Int → Nat → Res (List Asm × Int × Nat × Nat)
  | .anil, fs, l => .ok ([], fs, l, 0)
  | .acons e es, fs, l =>
    (codegen_params w T Γ es fs l).bind fun (cs, fs, l, n) =>
    (value_type T Γ e).bind fun t =>
    if is_struct_or_union_type t then .fatal -- not modelled: struct arguments
    else
      (codegen_rvalue w T Γ e fs l).bind fun (c, fs, l) =>
      (type_width w T t false).bind fun k =>
      .ok (cs ++ c, fs, l, n + ((k + w - 1) / w * w) / w)
  | _, _, _ => .fatal
end

/-- `add_params` (exe.c:2348-2365) with `cgc_add_local_param` (env.c:155-158): from the first parameter
to the last, `cgc_fs` starting at -1. -/
def add_params (w : Nat) (T : Tags) : List (Nat × CTy) → Int → List Local → Res (List Local)
  | [], _, ls => .ok ls
  | (x, t) :: ps, fs, ls =>
    let t := match t with | .arr _ t' => .ptr t' | t => t
    if (ls.find? (·.name = x)).isSome then .fatal
    else (type_width w T t false).bind fun k =>
      add_params w T ps (fs - (((k + w - 1) / w * w) / w : Nat)) (⟨x, fs, t, true⟩ :: ls)

/-- The label fields `heap[binding+4]` and `heap[binding+5]` of the innermost `BINDING_SWITCH`: the
label of the next case and the default label. -/
abbrev Sw := Option (Nat × Option Nat)

/-- Size of a local variable in words: `compute_local_var_decl_size` divided by `WORD_SIZE`
(exe.c:1994-2011). -/
def local_words (w : Nat) (T : Tags) (t : CTy) : Res Nat :=
  if is_aggregate_type t then (type_width w T t true).bind fun k => .ok (((k + w - 1) / w * w) / w)
  else .ok 1

mutual
/-- `codegen_statement` (exe.c:2087-2346). -/
def codegen_statement (w : Nat) (T : Tags) (Γ : Env) :
    St → Int → Nat → Sw → Res (List Asm × Int × Nat × Sw)
  | .skip, fs, l, sw => .ok ([], fs, l, sw)
  | .ifte c a b, fs, l, sw =>
    let l1 := l; let l2 := l + 1
    (codegen_rvalue w T Γ c fs (l + 2)).bind fun (cc, fs, l) =>
    let fs := fs - 1
    (codegen_statement w T Γ a fs l sw).bind fun (ca, fs, l, sw) =>
    (codegen_statement w T Γ b fs l sw).bind fun (cb, fs, l, sw) =>
    .ok (cc ++ I [.pop_reg 0, .xor_reg_reg 1 1] ++ jump_cond_reg_reg 0x4 l1 0 1 ++ ca ++
      [.jmp l2, .lbl l1] ++ cb ++ [.lbl l2], fs, l, sw)
  | .whil c b, fs, l, sw =>
    let l1 := l; let l2 := l + 1
    let save_fs := fs
    let Γ' := { Γ with loops := ⟨fs, l2, some l1⟩ :: Γ.loops }
    (codegen_rvalue w T Γ' c fs (l + 2)).bind fun (cc, fs, l) =>
    let fs := fs - 1
    (codegen_statement w T Γ' b fs l sw).bind fun (cb, _, l, sw) =>
    .ok ([.lbl l1] ++ cc ++ I [.pop_reg 0, .xor_reg_reg 1 1] ++ jump_cond_reg_reg 0x4 l2 0 1 ++ cb ++
      [.jmp l1, .lbl l2], save_fs, l, sw)
  | .forr i c p b, fs, l, sw =>
    let l1 := l; let l2 := l + 1; let l3 := l + 2
    let save_fs := fs
    let Γ' := { Γ with loops := ⟨fs, l2, some l1⟩ :: Γ.loops }
    (codegen_statement w T Γ' i fs (l + 3) sw).bind fun (ci, fs, l, sw) =>
    (codegen_statement w T Γ' p fs l sw).bind fun (cp, fs, l, sw) =>
    (match c with
      | some c => (codegen_rvalue w T Γ' c fs l).bind fun (cc, fs, l) =>
          let fs := fs - 1
          .ok (cc ++ I [.pop_reg 0, .xor_reg_reg 1 1] ++ jump_cond_reg_reg 0x4 l2 0 1, fs, l)
      | none => .ok ([], fs, l) : Res (List Asm × Int × Nat)).bind fun (ct, fs, l) =>
    (codegen_statement w T Γ' b fs l sw).bind fun (cb, _, l, sw) =>
    .ok (ci ++ [.jmp l3, .lbl l1] ++ cp ++ [.lbl l3] ++ ct ++ cb ++ [.jmp l1, .lbl l2], save_fs, l, sw)
  | .doW b c, fs, l, sw =>
    let l1 := l; let l2 := l + 1
    let save_fs := fs
    let Γ' := { Γ with loops := ⟨fs, l2, some l1⟩ :: Γ.loops }
    (codegen_statement w T Γ' b fs (l + 2) sw).bind fun (cb, fs, l, sw) =>
    (codegen_rvalue w T Γ' c fs l).bind fun (cc, _, l) =>
    .ok ([.lbl l1] ++ cb ++ cc ++ I [.pop_reg 0, .xor_reg_reg 1 1] ++ jump_cond_reg_reg 0x5 l1 0 1 ++
      [.lbl l2], save_fs, l, sw)
  | .switch e b, fs, l, sw =>
    let l1 := l; let l2 := l + 1
    let save_fs := fs
    let Γ' := { Γ with loops := ⟨fs, l1, none⟩ :: Γ.loops }
    (codegen_rvalue w T Γ' e fs (l + 2)).bind fun (ce, fs, l) =>
    (codegen_statement w T Γ' b fs l (some (l2, none))).bind fun
    | (cb, _, l, some (nxt, dft)) =>
      let l3 := l
      .ok (ce ++ [.jmp l2] ++ cb ++ [.jmp l3, .lbl nxt] ++
        (match dft with | some d => [.jmp d] | none => []) ++ [.lbl l3] ++ grow_stack w (-1) ++
        [.lbl l1], save_fs, l + 1, sw)
    | _ => .ub
  | .case e s, fs, l, sw =>
    match sw with
    | none => .fatal
    | some (nxt, dft) =>
      let l1 := l; let nxt' := l + 1
      (codegen_rvalue w T Γ e fs (l + 2)).bind fun (ce, fs, l) =>
      let fs := fs - 1
      (codegen_statement w T Γ s fs l (some (nxt', dft))).bind fun (cs, fs, l, sw) =>
      .ok ([.jmp l1, .lbl nxt] ++ ce ++ I [.pop_reg 1,
          if w = 8 then .mov_reg_mem64 0 4 0 else .mov_reg_mem32 0 4 0] ++
        jump_cond_reg_reg 0x4 l1 0 1 ++ [.jmp nxt', .lbl l1] ++ cs, fs, l, sw)
  | .dflt s, fs, l, sw =>
    match sw with
    | none => .fatal
    | some (_, some _) => .fatal
    | some (nxt, none) =>
      (codegen_statement w T Γ s fs (l + 1) (some (nxt, some l))).bind fun (cs, fs, l', sw) =>
      .ok ([.lbl l] ++ cs, fs, l', sw)
  | .brk, fs, l, sw =>
    match Γ.loops with
    | [] => .fatal
    | lp :: _ => .ok (grow_stack w (lp.fs - fs) ++ [.jmp lp.brk], fs, l, sw)
  | .cont, fs, l, sw =>
    match Γ.loops.find? (·.cont.isSome) with
    | some ⟨lfs, _, some lc⟩ => .ok (grow_stack w (lfs - fs) ++ [.jmp lc], fs, l, sw)
    | _ => .fatal
  | .ret e, fs, l, sw =>
    (match e with
      | some e => (codegen_rvalue w T Γ e fs l).bind fun (c, fs, l) =>
          let fs := fs - 1
          .ok (c ++ I [.pop_reg 0], fs, l)
      | none => .ok ([], fs, l) : Res (List Asm × Int × Nat)).bind fun (c, fs, l) =>
    .ok (c ++ grow_stack w (-fs) ++ [.ret], fs, l, sw)
  | .blk b, fs, l, sw =>
    (codegen_items w T Γ b fs l sw).bind fun (c, fs', l, sw) =>
    .ok (c ++ grow_stack w (fs - fs'), fs, l, sw)
  | .expr e, fs, l, sw =>
    (codegen_rvalue w T Γ e fs l).bind fun (c, fs, l) =>
    let fs := fs - 1
    .ok (c ++ I [.pop_reg 0], fs, l, sw)
  | .bnil, _, _, _ | .bstmt _ _, _, _, _ | .bdecl _ _ _ _, _, _, _ => .fatal

/-- The loop of `codegen_body` (exe.c:2066-2085) with `codegen_local_var_decl` (exe.c:2006-2022),
`cgc_add_local_var` (env.c:160-163), the scalar case of `codegen_initializer` (exe.c:1913-1921) and the pointer case of `codegen_initializer_string`
(exe.c:1814-1821). -/
def codegen_items (w : Nat) (T : Tags) (Γ : Env) : St → Int → Nat → Sw → Res (List Asm × Int × Nat × Sw)
  | .bnil, fs, l, sw => .ok ([], fs, l, sw)
  | .bstmt s rest, fs, l, sw =>
    (codegen_statement w T Γ s fs l sw).bind fun (c, fs, l, sw) =>
    (codegen_items w T Γ rest fs l sw).bind fun (cr, fs, l, sw) =>
    .ok (c ++ cr, fs, l, sw)
  | .bdecl x t init rest, fs, l, sw =>
    (local_words w T t).bind fun n =>
    let fs := fs + n
    let Γ' := { Γ with locals := ⟨x, fs, t, false⟩ :: Γ.locals }
    (match init with
      | none => .ok ([], fs, l)
      | some e =>
        if is_aggregate_type t then .fatal -- not modelled: struct initializers
        else if isStr e && !isCharPtr t then .fatal
        else
          (codegen_rvalue w T Γ' e fs l).bind fun (c, fs, l) =>
          let fs := fs - 1
          (type_width w T t true).bind fun k =>
          (write_mem_location w 4 0 0 k).bind fun st =>
          .ok (c ++ I ([.pop_reg 0] ++ st), fs, l) : Res (List Asm × Int × Nat)).bind fun (ci, fs, l) =>
    (codegen_items w T Γ' rest fs l sw).bind fun (cr, fs, l, sw) =>
    .ok (grow_stack w n ++ ci ++ cr, fs, l, sw)
  | _, _, _, _ => .fatal
end

/-- `codegen_glo_fun_decl` (exe.c:2367-2416); the label of the function is in the table. -/
def codegen_glo_fun_decl (w : Nat) (T : Tags) (Γ : Env) (f : Fun) (l : Nat) : Res (List Asm × Nat) :=
  if is_aggregate_type f.ret then .fatal
  else match lookup_fun Γ f.name with
    | none => .ub
    | some (lbl, _) =>
      (add_params w T f.params (-1) []).bind fun ls =>
      let Γ' := { Γ with locals := ls, loops := [] }
      (codegen_statement w T Γ' (.blk f.body) 0 l none).bind fun (c, fs, l, _) =>
      .ok ([.lbl lbl] ++ c ++ grow_stack w (-fs) ++ [.ret], l)

/-- The functions of the program, one after the other. -/
def codegen_funs (w : Nat) (T : Tags) (Γ : Env) : List Fun → Nat → Res (List Asm × Nat)
  | [], l => .ok ([], l)
  | f :: fs, l =>
    (codegen_glo_fun_decl w T Γ f l).bind fun (c, l) =>
    (codegen_funs w T Γ fs l).bind fun (cs, l) => .ok (c ++ cs, l)

end Verif.Cg
