import Verif.X86.Spec
/-! Specification of the effect of the decoded instructions (Intel manual, Vol. 2), in 32-bit mode
(`w = 4`) and 64-bit mode (`w = 8`).  A register holds a `w`-byte word, represented by its two's
complement value; memory is an array of bytes indexed by addresses modulo `2^(8w)`.  Instead of the
flag bits, the state keeps the operands of the last `cmp` (jcc consults nothing else in the code
pnut emits). -/
namespace Verif.X86.Spec

/-- Two's complement value of the low `8w` bits of `x`. -/
def sgn (w : Nat) (x : Int) : Int := Int.bmod x (2 ^ (8 * w))
/-- Unsigned value of the low `8w` bits of `x`. -/
def uns (w : Nat) (x : Int) : Int := x % (2 ^ (8 * w) : Nat)

/-- What a program asks of the system it runs on. -/
inductive Event where
  | write (fd : Int) (data : List Nat)
  | read (fd count : Int)
  | open_ (path : List Nat) (flags mode : Int)
  | close (fd : Int)
  | lseek (fd offset whence : Int)
  | unlink (path : List Nat)
  deriving DecidableEq, Repr

/-- `io` is not part of the processor and no instruction looks at it or changes it: it is the record of what has been asked of the
system, which `Verif.Cg.Go` keeps in step with the world outside. -/
structure MS where
  reg : Nat → Int
  mem : Int → Nat
  cmpA : Int
  cmpB : Int
  io : List Event := []

def setReg (s : MS) (r : Nat) (v : Int) : MS :=
  { s with reg := fun x => if x = r then v else s.reg x }

/-- The `k` bytes at address `a`, little-endian, unsigned. -/
def rd (w : Nat) (m : Int → Nat) (a : Int) : Nat → Nat
  | 0 => 0
  | k + 1 => m (uns w a) % 256 + 256 * rd w m (a + 1) k

/-- Store the low `k` bytes of `v` at address `a`, little-endian. -/
def wr (w : Nat) (m : Int → Nat) (a v : Int) : Nat → (Int → Nat)
  | 0 => m
  | k + 1 => wr w (fun x => if x = uns w a then (v % 256).toNat else m x) (a + 1) (v / 256) k

def bits (w : Nat) (op : BitVec (8 * w) → BitVec (8 * w) → BitVec (8 * w)) (a b : Int) : Int :=
  (op (BitVec.ofInt (8 * w) a) (BitVec.ofInt (8 * w) b)).toInt

def exec1 (w : Nat) (s : MS) : Insn → Option MS
  | .rr op sz d r =>
    if sz = w then
      match op with
      | .add => some (setReg s d (sgn w (s.reg d + s.reg r)))
      | .sub => some (setReg s d (sgn w (s.reg d - s.reg r)))
      | .or => some (setReg s d (bits w (· ||| ·) (s.reg d) (s.reg r)))
      | .and => some (setReg s d (bits w (· &&& ·) (s.reg d) (s.reg r)))
      | .xor => some (setReg s d (bits w (· ^^^ ·) (s.reg d) (s.reg r)))
      | .cmp => some { s with cmpA := s.reg d, cmpB := s.reg r }
      | .mov => some (setReg s d (s.reg r))
    else none
  | .addImm sz d i => if sz = w then some (setReg s d (sgn w (s.reg d + i))) else none
  | .movImm sz d i => if sz = w then some (setReg s d (sgn w i)) else none
  | .imul sz d r => if sz = w then some (setReg s d (sgn w (s.reg d * s.reg r))) else none
  | .cxq sz => if sz = w then some (setReg s 2 (if s.reg 0 < 0 then -1 else 0)) else none
  | .idiv sz r =>
    -- the dividend is DX:AX; the quotient must fit
    if sz = w then
      let n := s.reg 2 * 2 ^ (8 * w) + uns w (s.reg 0)
      let d := s.reg r
      if d = 0 then none
      else
        let q := n.tdiv d
        if sgn w q = q then some (setReg (setReg s 0 q) 2 (n.tmod d)) else none
    else none
  | .div sz r =>
    if sz = w then
      let n := uns w (s.reg 2) * 2 ^ (8 * w) + uns w (s.reg 0)
      let d := uns w (s.reg r)
      if d = 0 then none
      else
        let q := n / d
        if uns w q = q then some (setReg (setReg s 0 (sgn w q)) 2 (sgn w (n % d))) else none
    else none
  | .shift op sz d =>
    -- the count is CL masked to 5 (6) bits
    if sz = w then
      let c := (s.reg 1 % (8 * w : Nat)).toNat
      match op with
      | .shl => some (setReg s d (sgn w (s.reg d * 2 ^ c)))
      | .shr => some (setReg s d (sgn w (uns w (s.reg d) / 2 ^ c)))
      | .sar => some (setReg s d (s.reg d / 2 ^ c))
    else none
  | .push r =>
    let a := sgn w (s.reg 4 - w)
    some { setReg s 4 a with mem := wr w s.mem a (s.reg r) w }
  | .pop r =>
    let v := sgn w (rd w s.mem (s.reg 4) w)
    some (setReg (setReg s 4 (sgn w (s.reg 4 + w))) r v)
  | .store sz b d r =>
    if sz ≤ w then some { s with mem := wr w s.mem (s.reg b + d) (s.reg r) sz } else none
  | .load sz d b o =>
    if sz ≤ w then some (setReg s d (sgn w (rd w s.mem (s.reg b + o) sz))) else none
  | .loadx sg msz sz d b o =>
    if sz = w ∧ msz < sz then
      let v := rd w s.mem (s.reg b + o) msz
      some (setReg s d (if sg then Int.bmod v (2 ^ (8 * msz)) else (v : Int)))
    else none
  | _ => none

/-- Execute a straight-line sequence. -/
def execs (w : Nat) : MS → List Insn → Option MS
  | s, [] => some s
  | s, i :: is => match exec1 w s i with
    | some s => execs w s is
    | none => none

/-- Is the condition of `jcc` true after `cmp a, b`? (Intel manual, Vol. 2, Jcc; codes of tttn). -/
def cond (w cc : Nat) (a b : Int) : Option Bool :=
  if cc = 0x2 then some (uns w a < uns w b)
  else if cc = 0x3 then some (uns w a ≥ uns w b)
  else if cc = 0x4 then some (a = b)
  else if cc = 0x5 then some (a ≠ b)
  else if cc = 0x6 then some (uns w a ≤ uns w b)
  else if cc = 0x7 then some (uns w a > uns w b)
  else if cc = 0xc then some (a < b)
  else if cc = 0xd then some (a ≥ b)
  else if cc = 0xe then some (a ≤ b)
  else if cc = 0xf then some (a > b)
  else none

/-- Decode a whole byte sequence. -/
inductive Decodes (w : Nat) : List Nat → List Insn → Prop
  | nil : Decodes w [] []
  | cons {bs i t is} : decode w bs = some (i, t) → Decodes w t is → Decodes w bs (i :: is)

end Verif.X86.Spec
