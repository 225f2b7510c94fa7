import Verif.Sys.Spec
import Verif.Cg.ProgSpec
/-! Specification: what C (and POSIX) say about the functions of the library, on a system `os`.

The world is determined by the answers of the system and by what has been asked so far (`Mem.io`, the oldest request first).  A call has a meaning only where
C and POSIX define it: the arguments are in the range of their types, the buffers are in objects, the bytes written are initialised,
the result is in the range of the declared type. -/
namespace Verif.Sys.Spec
open Verif Verif.Gen Verif.Gen.Spec Verif.X86 Verif.X86.Spec Verif.Cg Verif.Cg.Spec

/-- The world after one more request. -/
def after {W : Type} (os : OS W) (σ : W) : Event → W
  | .write fd d => (os.serve σ (.write fd d)).1
  | .read fd n => (os.read σ fd n).1
  | .open_ p fl md => (os.serve σ (.open_ p fl md)).1
  | .close fd => (os.serve σ (.close fd)).1
  | .lseek fd off wh => (os.serve σ (.lseek fd off wh)).1
  | .unlink p => (os.serve σ (.unlink p)).1

/-- The world after the requests of a program that started in the world `σ`. -/
def world {W : Type} (os : OS W) (σ : W) (io : List Event) : W := io.foldl (after os) σ

/-- The functions of the library that return. -/
inductive LibFn where
  | putchar | getchar | fgetc | read | write | open_ | close | fclose | lseek | unlink | fopen | malloc | free
deriving DecidableEq

/-- Return types as pnut declares them (exe.c:1693-1730). -/
def LibFn.ret : LibFn → CTy
  | .putchar | .free => .void
  | .getchar => .char false
  | .malloc => .ptr .void
  | _ => .int false

/-- The range of `int`. -/
def inInt (v : Int) : Prop := -2147483648 ≤ v ∧ v < 2147483648
instance (v : Int) : Decidable (inInt v) := inferInstanceAs (Decidable (_ ∧ _))

/-- The memory after a request. -/
def ask (M : Mem) (e : Event) : Mem := { M with io := M.io ++ [e] }

/-- The `n` bytes at `a`, if all are initialised. -/
def loadBytes (M : Mem) (a : Int) : Nat → Option (List Nat)
  | 0 => some []
  | n + 1 => match M a with
    | some (some b) => (loadBytes M (a + 1) n).bind fun l => some (b :: l)
    | _ => none

/-- The string at `a`: the bytes before the first NUL, which comes within `n` bytes. -/
def cstring (M : Mem) (a : Int) : Nat → Option (List Nat)
  | 0 => none
  | n + 1 => match M a with
    | some (some b) => if b = 0 then some [] else (cstring M (a + 1) n).bind fun l => some (b :: l)
    | _ => none

/-- Longest path name with its NUL (`PATH_MAX`). -/
def pathMax : Nat := 4096

/-- The `n` bytes at `a` are in objects. -/
def inObjects (M : Mem) (a : Int) (n : Nat) : Bool := (List.range n).all fun (i : Nat) => (M (a + i)).isSome

/-- Bytes stored from `a` on. -/
def storeBytes (M : Mem) (a : Int) (l : List Nat) : Mem := { M with at_ := fun x => if a ≤ x ∧ x < a + l.length then some l[(x - a).toNat]? else M x }

/-- A result of type `int`. -/
def intResult (v : Int) (M : Mem) : Option (Int × Mem) := if inInt v then some (v, M) else none

/-- The meaning of the calls.  `G` is where the library keeps the start of the heap and the end of its used part (the heap is an
object of which nothing is initialised). -/
def libCall {W : Type} (os : OS W) (σ : W) (w : Nat) (G : Int) : LibFn → List Int → Mem → Option (Int × Mem)
  | .putchar, [c], M => some (0, ask M (.write 1 [(c % 256).toNat]))
  | .getchar, [], M =>
    match (os.read (world os σ M.io) 0 1).2 with
    -- pnut declares `char getchar()`
    | .ok l => if charOrEof (.ok l) < 128 then some (charOrEof (.ok l), ask M (.read 0 1)) else none
    -- after an error of the system C says EOF, pnut 0: no meaning here (`C44_getchar_error_false`)
    | .error _ => none
  | .fgetc, [fd], M =>
    -- descriptors from 256 on: no meaning here (`C44_fgetc_descriptor_false`)
    if 0 ≤ fd ∧ fd < 256 then
      match (os.read (world os σ M.io) fd 1).2 with
      | .ok l => some (charOrEof (.ok l), ask M (.read fd 1))
      | .error _ => none
    else none
  | .read, [fd, a, n], M =>
    if inInt fd ∧ inInt n ∧ 0 ≤ n ∧ inObjects M a n.toNat then
      let r := os.read (world os σ M.io) fd n
      some (readResult r.2, ask (storeBytes M a (readBytes r.2)) (.read fd n))
    else none
  | .write, [fd, a, n], M =>
    if inInt fd ∧ inInt n ∧ 0 ≤ n then
      (loadBytes M a n.toNat).bind fun d => intResult (os.serve (world os σ M.io) (.write fd d)).2 (ask M (.write fd d))
    else none
  | .open_, [a, fl, md], M =>
    if inInt fl ∧ inInt md then
      (cstring M a pathMax).bind fun p => intResult (os.serve (world os σ M.io) (.open_ p fl md)).2 (ask M (.open_ p fl md))
    else none
  | .close, [fd], M | .fclose, [fd], M => if inInt fd then intResult (os.serve (world os σ M.io) (.close fd)).2 (ask M (.close fd)) else none
  | .lseek, [fd, off, wh], M =>
    if inInt fd ∧ inInt off ∧ inInt wh then intResult (os.serve (world os σ M.io) (.lseek fd off wh)).2 (ask M (.lseek fd off wh)) else none
  | .unlink, [a], M => (cstring M a pathMax).bind fun p => intResult (os.serve (world os σ M.io) (.unlink p)).2 (ask M (.unlink p))
  | .fopen, [a, md], M =>
    -- other modes than "r": no meaning here (`C44_fopen_mode_false`)
    if cstring M md pathMax = some [114] then
      (cstring M a pathMax).bind fun p =>
        let r := (os.serve (world os σ M.io) (.open_ p 0 0)).2
        if inInt r then some (if r < 0 then 0 else r, ask M (.open_ p 0 0)) else none
    else none
  | .malloc, [n], M =>
    (loadN M G w).bind fun h0 => (loadN M (G + w) w).bind fun h1 =>
      if inInt n ∧ 0 ≤ n ∧ h1 + n ≤ h0 + 104857600 ∧ h0 ≤ h1 ∧
        -- the heap does not contain the middle of the address space
        (h0 + 104857600 < (2 ^ (8 * w - 1) : Nat) ∨ (2 ^ (8 * w - 1) : Nat) ≤ h0 ∧ h0 + 104857600 < (2 ^ (8 * w) : Nat)) then
        (storeN M (G + w) (h1 + n) w).bind fun M' => some (h1, M')
      else none
  | .free, [_], M => some (0, M)
  | _, _, _ => none

/-- The library as the meaning of identifiers: `what f` is the library function called `f`. -/
def library {W : Type} (os : OS W) (σ : W) (w : Nat) (G : Int) (what : Nat → Option LibFn) (f : Nat) (vs : List Int) (M : Mem) : Option (Int × Mem) :=
  (what f).bind fun F => libCall os σ w G F vs M

end Verif.Sys.Spec
