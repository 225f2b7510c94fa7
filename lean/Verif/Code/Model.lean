import Verif.Base
import Verif.X86.Model
/-! Model of the code buffer and the labels of exe.c (exe.c:7-85, 354-356, 366-535). -/
namespace Verif.Code

/-- `MAX_CODE_SIZE` (exe.c:7). -/
def MAX_CODE_SIZE : Nat := 500000

/-- Label kinds (exe.c:367-370), stored in `heap[lbl]`. -/
inductive Kind where | generic | goto
  deriving DecidableEq, Repr

/-- The code buffer `code`, its fill pointer `code_alloc`, the label fields `heap[lbl+1]` (`addr`) and
`heap[lbl+2]` (`lfs`), and `cgc_fs`.  Labels are named by numbers instead of heap indices; the field
`heap[lbl]` is the parameter `kind`. A label starts with address 0 (exe.c:399-430). -/
structure S where
  code : Nat → Int
  n : Nat
  addr : Nat → Int
  lfs : Nat → Int
  fs : Int

/-- The initial state: empty buffer, all labels freshly allocated. -/
def S.init : S := ⟨fun _ => 0, 0, fun _ => 0, fun _ => 0, 0⟩

/-- `emit_i8` (exe.c:11-17). -/
def emit_i8 (a : Int) (s : S) : Res S :=
  if s.n ≥ MAX_CODE_SIZE then .fatal
  else .ok { s with code := upd s.code s.n (a % 256), n := s.n + 1 }

/-- `emit_4_i8` through two `emit_2_i8` (exe.c:19-22). -/
def emit_4_i8 (a b c d : Int) (s : S) : Res S :=
  (emit_i8 a s).bind fun s => (emit_i8 b s).bind fun s => (emit_i8 c s).bind fun s => emit_i8 d s

/-- `emit_i32_le` (exe.c:29-31). -/
def emit_i32_le (n : Int) (s : S) : Res S := emit_4_i8 n (n / 2^8) (n / 2^16) (n / 2^24) s

/-- `emit_i64_le` (exe.c:33-37). -/
def emit_i64_le (n : Int) (s : S) : Res S :=
  (emit_i32_le n s).bind fun s => emit_i32_le (n / 2^31) s

/-- `emit_i32_le_large_imm` (exe.c:40-48); `heap` is the object heap of pnut.c. -/
def emit_i32_le_large_imm (heap : Nat → Int) (imm_obj : Int) (s : S) : Res S :=
  if imm_obj ≤ 0 then emit_i32_le (-imm_obj) s
  else if heap (imm_obj.toNat + 1) ≠ 0 then .fatal
  else emit_i32_le (heap imm_obj.toNat) s

/-- `emit_i64_le_large_imm` (exe.c:50-57). -/
def emit_i64_le_large_imm (heap : Nat → Int) (imm_obj : Int) (s : S) : Res S :=
  if imm_obj ≤ 0 then emit_i64_le (-imm_obj) s
  else (emit_i32_le (heap imm_obj.toNat) s).bind fun s => emit_i32_le (heap (imm_obj.toNat + 1)) s

/-- `write_i8` (exe.c:61-64): one byte appended to the output file (here a list, in order). -/
def write_i8 (n : Int) (out : List Int) : List Int := out ++ [n % 256]

/-- `write_2_i8`, `write_4_i8`, `write_i32_le` (exe.c:76-78). -/
def write_i32_le (n : Int) (out : List Int) : List Int :=
  write_i8 (n / 2^24) (write_i8 (n / 2^16) (write_i8 (n / 2^8) (write_i8 n out)))

/-- A run of `emit_i8`: the bytes of an instruction of x86.c. -/
def emits : List Nat → S → Res S
  | [], s => .ok s
  | b :: bs, s => (emit_i8 b s).bind (emits bs)

/-- `grow_stack` (exe.c:354-356): `add_reg_imm(reg_SP, -words * WORD_SIZE)`. -/
def grow_stack (w : Nat) (words : Int) (s : S) : Res S := emits (X86.add_reg_imm w 4 (-words * w)) s

/-- `use_label` (exe.c:431-447). -/
def use_label (kind : Nat → Kind) (l : Nat) (s : S) : Res S :=
  let addr := s.addr l
  if kind l ≠ .generic then .fatal
  else if addr < 0 then emit_i32_le (-addr - (s.n + 4)) s
  else (emit_i32_le 0 s).bind fun s =>
    .ok { s with code := upd s.code (s.n - 1) addr, addr := upd s.addr l s.n }

/-- The patching loop of `def_label` (exe.c:449-471); `fuel` bounds the number of iterations. The
address is a non-zero index in the buffer (`ub` otherwise). -/
def patch : Nat → Int → Nat → S → Res S
  | 0, _, _, _ => .diverge
  | fuel + 1, addr, label_addr, s =>
    if addr = 0 then .ok s
    else if addr < 4 then .ub
    else
      let next := s.code (addr.toNat - 1)
      (emit_i32_le (label_addr - addr) { s with n := addr.toNat - 4 }).bind fun s =>
        patch fuel next label_addr s

/-- `def_label` (exe.c:449-471). -/
def def_label (kind : Nat → Kind) (l : Nat) (s : S) : Res S :=
  let addr := s.addr l
  let label_addr := s.n
  if kind l ≠ .generic then .fatal
  else if addr < 0 then .fatal
  else
    (patch (s.n + 1) addr label_addr { s with addr := upd s.addr l (-label_addr) }).bind fun s =>
      .ok { s with n := label_addr }

/-- `jump_to_goto_label` (exe.c:476-502).  The dummy `jump_rel(0)` that measures the length of the
jump is emitted too, then overwritten. -/
def jump_to_goto_label (w : Nat) (kind : Nat → Kind) (l : Nat) (s : S) : Res S :=
  let addr := s.addr l
  let lbl_fs := s.lfs l
  let start := s.n
  if kind l ≠ .goto then .fatal
  else if addr < 0 then
    (grow_stack w (lbl_fs - s.fs) s).bind fun s =>
      let start := s.n
      (emits (X86.jump_rel 0) s).bind fun s =>
        let addr := -addr - s.n
        emits (X86.jump_rel addr) { s with n := start }
  else
    (grow_stack w 0 s).bind fun s =>
      (emits (X86.jump_rel 0) s).bind fun s =>
        .ok { s with
          code := upd (upd (upd s.code (s.n - 1) addr) (s.n - 2) s.fs) (s.n - 3) start
          addr := upd s.addr l s.n }

/-- The patching loop of `def_goto_label` (exe.c:504-533). -/
def patch_goto (w : Nat) : Nat → Int → Nat → S → Res S
  | 0, _, _, _ => .diverge
  | fuel + 1, addr, label_addr, s =>
    if addr = 0 then .ok s
    else if addr < 3 then .ub
    else
      let next := s.code (addr.toNat - 1)
      let goto_fs := s.code (addr.toNat - 2)
      let st := s.code (addr.toNat - 3)
      if st < 0 then .ub else
      (grow_stack w (s.fs - goto_fs) { s with n := st.toNat }).bind fun s =>
        let start := s.n
        (emits (X86.jump_rel 0) s).bind fun s =>
          let rel : Int := label_addr - s.n
          (emits (X86.jump_rel rel) { s with n := start }).bind fun s =>
            patch_goto w fuel next label_addr s

/-- `def_goto_label` (exe.c:504-533). -/
def def_goto_label (w : Nat) (kind : Nat → Kind) (l : Nat) (s : S) : Res S :=
  let addr := s.addr l
  let label_addr := s.n
  if kind l ≠ .goto then .fatal
  else if addr < 0 then .fatal
  else
    (patch_goto w (s.n + 1) addr label_addr
      { s with addr := upd s.addr l (-label_addr), lfs := upd s.lfs l s.fs }).bind fun s =>
      .ok { s with n := label_addr }

/-- What the code generator does with the buffer. `setfs` stands for the assignments to `cgc_fs`
(`grow_fs`, exe.c:86, and the direct assignments in the code generator). -/
inductive Op where
  | emit (b : Int)
  | use (l : Nat)
  | defl (l : Nat)
  | goto (l : Nat)
  | defg (l : Nat)
  | setfs (v : Int)
  deriving DecidableEq, Repr

def Op.run (w : Nat) (kind : Nat → Kind) : Op → S → Res S
  | .emit b, s => emit_i8 b s
  | .use l, s => use_label kind l s
  | .defl l, s => def_label kind l s
  | .goto l, s => jump_to_goto_label w kind l s
  | .defg l, s => def_goto_label w kind l s
  | .setfs v, s => .ok { s with fs := v }

def run (w : Nat) (kind : Nat → Kind) : List Op → S → Res S
  | [], s => .ok s
  | o :: os, s => (o.run w kind s).bind (run w kind os)

/-- `assert_all_labels_defined` (exe.c:376-393, `SAFE_MODE`): fails (exit 1) iff some allocated label
has a positive address field. -/
def assert_all_labels_defined (labels : List Nat) (s : S) : Bool := labels.all fun l => !(s.addr l > 0)

end Verif.Code
