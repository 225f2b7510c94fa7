import Verif.ShIO.Model
import Verif.ShHeap.Spec
import Verif.ShStr.Spec
/-! What the input/output properties say, independently of buffers and cursors. -/
namespace Verif.ShIO
open Verif Verif.ShHeap Verif.ShStr.Spec

/-! ### POSIX `printf` on a format without arguments -/

def isOct (b : Nat) : Bool := decide (48 ≤ b ∧ b ≤ 55)

/-- The value of up to `n` octal digits, and what follows. -/
def octal : Nat → Nat → List Nat → Nat × List Nat
  | 0, v, t => (v, t)
  | n + 1, v, b :: t => if isOct b then octal n (v * 8 + (b - 48)) t else (v, b :: t)
  | _ + 1, v, [] => (v, [])

/-- Output of `printf fmt` for formats made of octal escapes `\d`, `\dd`, `\ddd` (XBD chapter 5: the
byte with that value, unspecified above 255) and ordinary characters; `none` for anything else. -/
def printfFmt : Nat → List Nat → Option (List Nat)
  | 0, _ => none
  | _ + 1, [] => some []
  | n + 1, b :: t =>
    if b = 92 then
      match t with
      | d :: _ =>
        if isOct d then
          let (v, r) := octal 3 0 t
          if v < 256 then (printfFmt n r).map (v :: ·) else none
        else none
      | [] => none
    else if b = 37 then none
    else (printfFmt n t).map (b :: ·)

/-- Output of `printf fmt`. -/
def printfOut (f : List Nat) : Option (List Nat) := printfFmt (f.length + 1) f

/-! ### Streams -/

/-- The program's view: for each descriptor, the bytes still to be read or the bytes written so far;
what `getchar` has still to deliver; the descriptors behind `FILE *`s. -/
structure Abs where
  input : Nat → Option (List Nat)
  output : Nat → Option (List Nat)
  stdin : List Nat
  file : Int → Option Nat

/-- Descriptor in use. -/
def Abs.used (A : Abs) (d : Nat) : Prop := A.input d ≠ none ∨ A.output d ≠ none

/-- Reading one byte from a stream: the next one, or -1 at the end. -/
def Pop : List Nat → Int → List Nat → Prop
  | [], v, r => v = -1 ∧ r = []
  | b :: t, v, r => v = b ∧ r = t

/-- Update of a map with integer keys. -/
def updZ {α : Type} (f : Int → α) (a : Int) (v : α) : Int → α := fun x => if x = a then v else f x

/-- The effect of a successful `open`: `d` is the lowest descriptor not in use. -/
def Opens (fs : List Nat → Option (List Nat)) (A : Abs) (name : List Nat) (flags : Int) (d : Nat)
    (A' : Abs) : Prop :=
  d < 10 ∧ ¬ A.used d ∧ (∀ x, x < d → A.used x) ∧
  ((flags = 0 ∧ ∃ bytes, fs name = some bytes ∧
      A' = { A with input := upd A.input d (some bytes) }) ∨
   (flags ≠ 0 ∧ A' = { A with output := upd A.output d (some []) }))

/-- Closing a descriptor. -/
def Closes (A : Abs) (d : Nat) (A' : Abs) : Prop :=
  A' = { A with input := upd A.input d none, output := upd A.output d none }

/-- What each call must do, as C's library describes it: the result `v` and the new view.  `cell` is the
memory before the call. -/
def Does (fs : List Nat → Option (List Nat)) (cell : Int → Option Int) (A : Abs) : Op → Int → Abs → Prop
  | .mem _, _, A' => A' = A
  | .getchar, v, A' => ∃ r, Pop A.stdin v r ∧ A' = { A with stdin := r }
  | .putchar c, _, A' => ∃ out, A.output 1 = some out ∧
      A' = { A with output := upd A.output 1 (some (out ++ [c.toNat])) }
  | .openFile name flags, v, A' => ∃ d : Nat, v = d ∧ Opens fs A name flags d A'
  | .closeFile d, _, A' => Closes A d A'
  | .readByte d, v, A' => ∃ s r, A.input d = some s ∧ Pop s v r ∧
      A' = { A with input := upd A.input d (some r) }
  | .write d buf n, v, A' => v = n ∧ ∃ out bytes : List Nat, A.output d = some out ∧ bytes.length = n ∧
      (∀ i (h : i < bytes.length), cell (buf + i) = some (bytes[i] : Int)) ∧
      A' = { A with output := upd A.output d (some (out ++ bytes)) }
  | .read d _ n, v, A' => ∃ s, A.input d = some s ∧ v = (min n s.length : Nat) ∧
      A' = { A with input := upd A.input d (some (s.drop n)) }
  | .fopen name w, v, A' => ∃ d A1, Opens fs A name (if w then 1 else 0) d A1 ∧ A.file v = none ∧ v ≠ 0 ∧
      A' = { A1 with file := updZ A1.file v (some d) }
  | .fclose f, _, A' => ∃ d A1, A.file f = some d ∧ Closes A d A1 ∧ A' = { A1 with file := updZ A1.file f none }
  | .fgetc f, v, A' => ∃ d s r, A.file f = some d ∧ A.input d = some s ∧ Pop s v r ∧
      A' = { A with input := upd A.input d (some r) }

/-- Bytes that can be read: no NUL. -/
def Plain (bs : List Nat) : Prop := ∀ b ∈ bs, 1 ≤ b ∧ b < 256

/-- What a program may call. `L` and `F` are the program's objects and freed addresses.  A program
that uses `getchar` (`g`) does not touch descriptor 0 directly; descriptors 1 and 2 are not closed;
files opened exist and there is a descriptor left. -/
def OpAllowed (ord : Nat → Int) (fs : List Nat → Option (List Nat)) (g : Bool) (cell : Int → Option Int)
    (A : Abs) (L : List Obj) (F : List Int) : Op → Prop
  | .mem a => Allowed ord L F a
  | .getchar => g = true
  | .putchar c => 0 ≤ c ∧ c < 256 ∧ A.output 1 ≠ none
  | .openFile name flags => (flags = 0 → fs name ≠ none) ∧ (flags = 0 ∨ flags = 1 ∨ flags = 2) ∧
      ∃ d, d < 10 ∧ ¬ A.used d
  | .closeFile d => A.used d ∧ d ≠ 1 ∧ d ≠ 2 ∧ (g = true → d ≠ 0) ∧ ∀ f, A.file f ≠ some d
  | .readByte d => A.input d ≠ none ∧ (g = true → d ≠ 0)
  | .write d buf n => A.output d ≠ none ∧ ∀ i : Nat, i < n → ∃ b : Nat, b < 256 ∧ cell (buf + i) = some (b : Int)
  | .read d buf n => A.input d ≠ none ∧ (g = true → d ≠ 0) ∧
      ∃ o ∈ L, ∀ i : Nat, i < n → o.has (buf + i)
  | .fopen name w => (w = false → fs name ≠ none) ∧ ∃ d, d < 10 ∧ ¬ A.used d
  | .fclose f => A.file f ≠ none
  | .fgetc f => ∃ d, A.file f = some d ∧ A.input d ≠ none

/-- Cells of the program that a call may change: for `read`, as many as bytes are delivered. -/
def Writes (A : Abs) : Op → Int → Prop
  | .mem _, _ => True
  | .read d buf n, x => ∃ s k, A.input d = some s ∧ k < min n s.length ∧ x = buf + (k : Nat)
  | _, _ => False

/-- The program's objects and freed addresses after a call. -/
def opObjs (io io' : IO) : Op → List Obj
  | .mem a => created io.h io'.h a
  | _ => []
def opFreed : Op → List Int
  | .mem a => freed a
  | _ => []

/-- The program's view at the start: standard input on descriptor 0 — or reserved to `getchar` —
standard output and standard error. -/
def Abs.init (g : Bool) (stdin : List Nat) : Abs :=
  { input := fun d => if d = 0 then (if g then some [] else some stdin) else none,
    output := fun d => if d = 1 ∨ d = 2 then some [] else none,
    stdin := if g then stdin else [],
    file := fun _ => none }

/-- Histories of a program: starting from the initial state, any sequence of allowed calls; with the
view that the C library's description gives. -/
inductive Hist (e : Env) (fs : List Nat → Option (List Nat)) (g : Bool) (stdin : List Nat) :
    IO → Abs → List Obj → List Int → Prop
  | start : Hist e fs g stdin (init e stdin) (Abs.init g stdin) [] []
  | call {io A L F io' v A'} (op : Op) : Hist e fs g stdin io A L F →
      OpAllowed e.ord fs g io.h.cell A L F op → step e fs printfOut io op = .ok (io', v) →
      Does fs io.h.cell A op v A' → Hist e fs g stdin io' A' (opObjs io io' op ++ L) (opFreed op ++ F)

/-- The results of `n` successive calls. -/
def repeated (e : Env) (fs : List Nat → Option (List Nat)) (op : Op) : Nat → IO → Res (List Int)
  | 0, _ => .ok []
  | n + 1, io => (step e fs printfOut io op).bind fun (io', v) =>
      (repeated e fs op n io').bind fun vs => .ok (v :: vs)

/-- What `n` calls to a function reading a byte must return on the stream `s`: its bytes, then -1. -/
def expected (s : List Nat) (n : Nat) : List Int :=
  (s.map Int.ofNat ++ List.replicate n (-1)).take n

/-- No line of the input has a length that is a multiple of 16 (in particular no line is empty). -/
def NoLine16 (s : List Nat) : Prop :=
  ∀ pre line post, s = pre ++ line ++ post → (pre = [] ∨ ∃ p, pre = p ++ [10]) →
    (post = [] ∧ line ≠ [] ∨ ∃ q, post = 10 :: q) → 10 ∉ line → line.length % 16 ≠ 0

end Verif.ShIO
