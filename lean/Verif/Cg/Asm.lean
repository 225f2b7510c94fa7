import Verif.Gen.PtrProps
/-! Specification of the execution of a piece of machine code with labels.

An item of code is an instruction emitted by one of the emitters of x86.c that do not transfer
control, a label definition, a transfer of control to a label, or a string literal (which is never executed).  The straight-line instructions
have the meaning of `Verif.X86.Machine` (proved in C31 to be what the emitted bytes decode to); that the
bytes of a transfer of control lead to the definition of its label is C28. -/
namespace Verif.Cg
open Verif Verif.X86 Verif.X86.Spec

inductive Asm where
  | ins (e : Emit)
  | lbl (n : Nat)
  | jmp (n : Nat)
  | jcc (cc n : Nat)
  | call (n : Nat)
  | ret
  /-- the bytes of string literal `k` and a zero byte -/
  | data (k : Nat) (bs : List Nat)

/-- Number of bytes (x86.c:559-624; string literals: exe.c:1351-1366). -/
def Asm.size (w : Nat) : Asm → Nat
  | .ins e => (e.bytes w).length
  | .lbl _ => 0
  | .jmp _ => 5
  | .jcc _ _ => 6
  | .call _ => 5
  | .ret => 1
  | .data _ bs => bs.length + 1

/-- Address of item `p` when the code is loaded at `base`. -/
def adr (w : Nat) (base : Int) (P : List Asm) (p : Nat) : Int :=
  base + (((P.take p).map (Asm.size w)).sum : Nat)

/-- One step of the machine at item `pc`. A conditional jump consults the operands of the last `cmp`;
`call` pushes the address of the next item; `ret` goes back to the item after the call whose
return address is on top of the stack. -/
inductive Step (w : Nat) (base : Int) (P : List Asm) : Nat × MS → Nat × MS → Prop
  | ins {pc s e s'} : P[pc]? = some (.ins e) → exec1 w s (e.intended w) = some s' →
      Step w base P (pc, s) (pc + 1, s')
  | lbl {pc s n} : P[pc]? = some (.lbl n) → Step w base P (pc, s) (pc + 1, s)
  | jmp {pc s n i} : P[pc]? = some (.jmp n) → P[i]? = some (.lbl n) → Step w base P (pc, s) (i, s)
  | jccT {pc s cc n i} : P[pc]? = some (.jcc cc n) → cond w cc s.cmpA s.cmpB = some true →
      P[i]? = some (.lbl n) → Step w base P (pc, s) (i, s)
  | jccF {pc s cc n} : P[pc]? = some (.jcc cc n) → cond w cc s.cmpA s.cmpB = some false →
      Step w base P (pc, s) (pc + 1, s)
  | call {pc s n i} : P[pc]? = some (.call n) → P[i]? = some (.lbl n) →
      Step w base P (pc, s) (i, { setReg s 4 (sgn w (s.reg 4 - w)) with
        mem := wr w s.mem (sgn w (s.reg 4 - w)) (sgn w (adr w base P (pc + 1))) w })
  | ret {pc s k n} : P[pc]? = some .ret → P[k]? = some (.call n) →
      sgn w (rd w s.mem (s.reg 4) w) = sgn w (adr w base P (k + 1)) →
      Step w base P (pc, s) (k + 1, setReg s 4 (sgn w (s.reg 4 + w)))

/-- Some number of steps. -/
inductive Steps (w : Nat) (base : Int) (P : List Asm) : Nat × MS → Nat × MS → Prop
  | refl {c} : Steps w base P c c
  | head {a b c} : Step w base P a b → Steps w base P b c → Steps w base P a c

theorem Steps.trans {w base P a b c} (h1 : Steps w base P a b) (h2 : Steps w base P b c) :
    Steps w base P a c := by
  induction h1 with
  | refl => exact h2
  | head h _ ih => exact .head h (ih h2)

theorem Steps.one {w base P a b} (h : Step w base P a b) : Steps w base P a b := .head h .refl

/-- No instruction changes the record of what has been asked of the system. -/
theorem exec1_io {w : Nat} {s s' : MS} {i : Insn} (h : exec1 w s i = some s') : s'.io = s.io := by
  cases i <;> simp only [exec1] at h <;> repeat' (first | (cases h <;> rfl) | split at h)

theorem run_io {w : Nat} : ∀ {es : List Emit} {s s' : MS}, Gen.run w s es = some s' → s'.io = s.io := by
  intro es
  induction es with
  | nil => intro s s' h; simp [Gen.run, execs] at h; rw [h]
  | cons e es ih =>
    intro s s' h
    simp only [Gen.run, List.map_cons, execs] at h
    cases he : exec1 w s (e.intended w) with
    | none => rw [he] at h; simp at h
    | some s1 => rw [he] at h; rw [ih h, exec1_io he]

/-- Where the code is loaded, and what else than the steps of the processor happens: `ext` leads from a call of a library
function to its return. -/
structure Mach where
  base : Int
  ext : Nat × MS → Nat × MS → Prop

/-- Some number of steps of the processor and calls of library functions. -/
inductive Go (w : Nat) (K : Mach) (P : List Asm) : Nat × MS → Nat × MS → Prop
  | refl {c} : Go w K P c c
  | head {a b c} : Step w K.base P a b → Go w K P b c → Go w K P a c
  | ext {a b c} : K.ext a b → Go w K P b c → Go w K P a c

theorem Go.trans {w K P a b c} (h1 : Go w K P a b) (h2 : Go w K P b c) : Go w K P a c := by
  induction h1 with
  | refl => exact h2
  | head h _ ih => exact .head h (ih h2)
  | ext h _ ih => exact .ext h (ih h2)

theorem Go.one {w K P a b} (h : Step w K.base P a b) : Go w K P a b := .head h .refl

theorem Steps.go {w K P a b} (h : Steps w K.base P a b) : Go w K P a b := by
  induction h with
  | refl => exact .refl
  | head h _ ih => exact .head h ih

/-- Without library functions only the processor moves. -/
theorem Go.steps {w K P a b} (h : Go w K P a b) (hx : ∀ a b, ¬ K.ext a b) : Steps w K.base P a b := by
  induction h with
  | refl => exact .refl
  | head h _ ih => exact .head h ih
  | ext h _ _ => exact absurd h (hx _ _)

/-- The code `c` lies at item `pc` of the program. -/
def At (P : List Asm) (pc : Nat) (c : List Asm) : Prop := ∀ i, i < c.length → P[pc + i]? = c[i]?

theorem At.left {P pc a b} (h : At P pc (a ++ b)) : At P pc a := by
  intro i hi
  rw [h i (by rw [List.length_append]; omega), List.getElem?_append_left hi]

theorem At.right {P pc a b} (h : At P pc (a ++ b)) : At P (pc + a.length) b := by
  intro i hi
  have := h (a.length + i) (by rw [List.length_append]; omega)
  rw [List.getElem?_append_right (by omega)] at this
  rw [show pc + a.length + i = pc + (a.length + i) by omega, this]
  congr 1; omega

theorem At.head {P pc x c} (h : At P pc (x :: c)) : P[pc]? = some x := by
  have := h 0 (by simp)
  simpa using this

theorem At.tail {P pc x c} (h : At P pc (x :: c)) : At P (pc + 1) c := by
  intro i hi
  have := h (i + 1) (by simp; omega)
  rw [show pc + 1 + i = pc + (i + 1) by omega, this]; simp

/-- Straight-line code. -/
def I (es : List Emit) : List Asm := es.map Asm.ins

theorem I_append (a b : List Emit) : I (a ++ b) = I a ++ I b := by simp [I]
theorem I_length (a : List Emit) : (I a).length = a.length := by simp [I]

theorem steps_run {w : Nat} {base : Int} {P : List Asm} : ∀ {es : List Emit} {pc : Nat} {s s' : MS},
    At P pc (I es) → Gen.run w s es = some s' → Steps w base P (pc, s) (pc + es.length, s') := by
  intro es
  induction es with
  | nil => intro pc s s' _ h; simp [Gen.run, execs] at h; subst h; exact .refl
  | cons e es ih =>
    intro pc s s' hat h
    simp only [Gen.run, List.map_cons, execs] at h
    cases he : exec1 w s (e.intended w) with
    | none => rw [he] at h; simp at h
    | some s1 =>
      rw [he] at h
      have hat' : At P pc (.ins e :: I es) := hat
      have h2 := ih hat'.tail h
      refine .head (.ins hat'.head he) ?_
      rw [List.length_cons, show pc + (es.length + 1) = pc + 1 + es.length by omega]
      exact h2

theorem go_run {w : Nat} {base : Mach} {P : List Asm} {es : List Emit} {pc : Nat} {s s' : MS}
    (hat : At P pc (I es)) (h : Gen.run w s es = some s') : Go w base P (pc, s) (pc + es.length, s') := (steps_run hat h).go

/-- Every label is defined at most once. -/
def Uniq (P : List Asm) : Prop := ∀ i j n : Nat, P[i]? = some (Asm.lbl n) → P[j]? = some (Asm.lbl n) → i = j

theorem adr_mono {w : Nat} {base : Int} {P : List Asm} {i j : Nat} (h : i ≤ j) :
    adr w base P i ≤ adr w base P j := by
  unfold adr
  obtain ⟨d, rfl⟩ := Nat.exists_eq_add_of_le h
  rw [List.take_add, List.map_append, List.sum_append]
  omega

theorem adr_call {w : Nat} {base : Int} {P : List Asm} {k n : Nat} (h : P[k]? = some (.call n)) :
    adr w base P (k + 1) = adr w base P k + 5 := by
  unfold adr
  rw [List.take_add_one, h]
  simp [Asm.size]
  omega

/-- The machine is deterministic, if each label is defined once and the code fits in half the address
space. -/
theorem step_det {w : Nat} {base : Int} {P : List Asm} (hw : w = 4 ∨ w = 8) (hu : Uniq P)
    (h0 : 0 ≤ base) (hfit : adr w base P P.length < (2 ^ (8 * w - 1) : Nat)) {a b c : Nat × MS}
    (h1 : Step w base P a b) (h2 : Step w base P a c) : b = c := by
  have inj : ∀ {k k' n n'}, P[k]? = some (.call n) → P[k']? = some (.call n') →
      sgn w (adr w base P (k + 1)) = sgn w (adr w base P (k' + 1)) → k = k' := by
    intro k k' n n' e e' h
    have hk : k < P.length := by
      rcases Nat.lt_or_ge k P.length with h | h
      · exact h
      · rw [List.getElem?_eq_none h] at e; cases e
    have hk' : k' < P.length := by
      rcases Nat.lt_or_ge k' P.length with h | h
      · exact h
      · rw [List.getElem?_eq_none h] at e'; cases e'
    have m1 : adr w base P (k+1) ≤ adr w base P P.length := adr_mono hk
    have m2 : adr w base P (k'+1) ≤ adr w base P P.length := adr_mono hk'
    have z : ∀ i, base ≤ adr w base P i := by intro i; unfold adr; omega
    rw [sgn_id hw (by have := z (k+1); omega) (by omega),
      sgn_id hw (by have := z (k'+1); omega) (by omega)] at h
    rw [adr_call e, adr_call e'] at h
    rcases Nat.lt_trichotomy k k' with hl | hl | hl
    · have := adr_mono (w := w) (base := base) (P := P) (show k + 1 ≤ k' from hl)
      rw [adr_call e] at this; omega
    · exact hl
    · have := adr_mono (w := w) (base := base) (P := P) (show k' + 1 ≤ k from hl)
      rw [adr_call e'] at this; omega
  cases h1 with
  | ins e1 x1 => cases h2 with
    | ins e2 x2 => rw [e1] at e2; cases e2; rw [x1] at x2; cases x2; rfl
    | _ e2 => rw [e1] at e2; cases e2
  | lbl e1 => cases h2 with
    | lbl e2 => rfl
    | _ e2 => simp [e1] at e2
  | jmp e1 l1 => cases h2 with
    | jmp e2 l2 => rw [e1] at e2; cases e2; rw [hu _ _ _ l1 l2]
    | _ e2 => rw [e1] at e2; cases e2
  | jccT e1 c1 l1 => cases h2 with
    | jccT e2 c2 l2 => rw [e1] at e2; cases e2; rw [hu _ _ _ l1 l2]
    | jccF e2 c2 => rw [e1] at e2; cases e2; rw [c1] at c2; cases c2
    | _ e2 => rw [e1] at e2; cases e2
  | jccF e1 c1 => cases h2 with
    | jccT e2 c2 l2 => rw [e1] at e2; cases e2; rw [c1] at c2; cases c2
    | jccF e2 c2 => rfl
    | _ e2 => simp [e1] at e2
  | call e1 l1 => cases h2 with
    | call e2 l2 => rw [e1] at e2; cases e2; rw [hu _ _ _ l1 l2]
    | _ e2 => rw [e1] at e2; cases e2
  | ret e1 k1 x1 => cases h2 with
    | ret e2 k2 x2 => rw [x1] at x2; rw [inj k1 k2 x2]
    | _ e2 => rw [e1] at e2; cases e2

end Verif.Cg
