import Verif.Sys.Proofs5
/-! The record of events (`MS.io`) is not part of the machine: steps do not depend on it and do not change it. -/
namespace Verif.Sys
open Verif Verif.X86 Verif.X86.Spec Verif.Cg Verif.Rt Spec

/-- The same state with another record. -/
def rec_ (s : MS) (t : List Event) : MS := { s with io := t }

theorem rec_rec (s : MS) (t u : List Event) : rec_ (rec_ s t) u = rec_ s u := rfl
theorem rec_self (s : MS) : rec_ s s.io = s := rfl

theorem exec1_map {w : Nat} (s : MS) (i : Insn) (t : List Event) : exec1 w (rec_ s t) i = (exec1 w s i).map (rec_ · t) := by
  obtain ⟨g, m, c1, c2, io⟩ := s
  cases i <;> try rfl
  case rr op _ _ _ => cases op <;> dsimp only [exec1, rec_, setReg] <;> split <;> rfl
  case shift op _ _ => cases op <;> dsimp only [exec1, rec_, setReg] <;> split <;> rfl
  case idiv => dsimp only [exec1, rec_, setReg]; split <;> (try split) <;> (try split) <;> rfl
  case div => dsimp only [exec1, rec_, setReg]; split <;> (try split) <;> (try split) <;> rfl
  all_goals dsimp only [exec1, rec_, setReg]
  all_goals split <;> rfl

theorem exec1_rec {w : Nat} {s s' : MS} {i : Insn} (t : List Event) (h : exec1 w s i = some s') : exec1 w (rec_ s t) i = some (rec_ s' t) := by
  rw [exec1_map, h]; rfl

theorem step_rec {w : Nat} {base : Int} {P : List Asm} {a b : Nat × MS} (t : List Event) (h : Step w base P a b) :
    Step w base P (a.1, rec_ a.2 t) (b.1, rec_ b.2 t) := by
  cases h with
  | ins h1 h2 => exact .ins h1 (exec1_rec t h2)
  | lbl h1 => exact .lbl h1
  | jmp h1 h2 => exact .jmp h1 h2
  | jccT h1 h2 h3 => exact .jccT h1 h2 h3
  | jccF h1 h2 => exact .jccF h1 h2
  | call h1 h2 => exact .call h1 h2
  | ret h1 h2 h3 => exact .ret h1 h2 h3

theorem step_io {w : Nat} {base : Int} {P : List Asm} {a b : Nat × MS} (h : Step w base P a b) : b.2.io = a.2.io := by
  cases h with
  | ins h1 h2 => exact exec1_io h2
  | _ => rfl

theorem steps_rec {w : Nat} {base : Int} {P : List Asm} {a b : Nat × MS} (t : List Event) (h : Steps w base P a b) :
    Steps w base P (a.1, rec_ a.2 t) (b.1, rec_ b.2 t) := by
  induction h with
  | refl => exact .refl
  | head h _ ih => exact .head (step_rec t h) ih

theorem serves_rec {W : Type} {os : OS W} {w : Nat} {s : MS} {σ : W} {A : Answer W} (t : List Event) (h : Serves os w s σ A) : Serves os w (rec_ s t) σ A := by
  cases h with
  | read h => exact .read (s := rec_ s t) h
  | write h => exact .write (s := rec_ s t) h
  | open_ h h' => exact .open_ (s := rec_ s t) h h'
  | close h => exact .close (s := rec_ s t) h
  | lseek h => exact .lseek (s := rec_ s t) h
  | unlink h h' => exact .unlink (s := rec_ s t) h h'
  | mmap h h1 h2 h3 h4 h5 => exact .mmap (s := rec_ s t) h h1 h2 h3 h4 h5

def Cfg.rec_ {W : Type} (c : Cfg W) (t : List Event) : Cfg W :=
  match c with
  | .run pc s σ => .run pc (Sys.rec_ s t) σ
  | .done n σ => .done n σ

theorem pstep_rec {W : Type} {os : OS W} {w : Nat} {base : Int} {P : List Asm} {a b : Cfg W} (t : List Event) (h : PStep os w base P a b) :
    PStep os w base P (Cfg.rec_ a t) (Cfg.rec_ b t) := by
  cases h with
  | cpu h => exact .cpu (step_rec t h)
  | sys h1 h2 h3 => exact .sys (s := rec_ _ t) h1 h2 (serves_rec t h3)
  | exit h1 h2 h3 => exact .exit (s := rec_ _ t) h1 h2 h3

theorem psteps_rec {W : Type} {os : OS W} {w : Nat} {base : Int} {P : List Asm} {a b : Cfg W} (t : List Event) (h : PSteps os w base P a b) :
    PSteps os w base P (Cfg.rec_ a t) (Cfg.rec_ b t) := by
  induction h with
  | refl => exact .refl
  | head h _ ih => exact .head (pstep_rec t h) ih

/-- Running states keep their record. -/
def ioIs {W : Type} (t : List Event) : Cfg W → Prop
  | .run _ s _ => s.io = t
  | .done _ _ => True

theorem pstep_io {W : Type} {os : OS W} {w : Nat} {base : Int} {P : List Asm} {a b : Cfg W} {t : List Event} (h : PStep os w base P a b) (ha : ioIs t a) : ioIs t b := by
  cases h with
  | cpu h => exact (step_io h).trans ha
  | sys h1 h2 h3 => exact ha
  | exit h1 h2 h3 => trivial

theorem psteps_io {W : Type} {os : OS W} {w : Nat} {base : Int} {P : List Asm} {a b : Cfg W} {t : List Event} (h : PSteps os w base P a b) (ha : ioIs t a) : ioIs t b := by
  induction h with
  | refl => exact ha
  | head h _ ih => exact ih (pstep_io h ha)

end Verif.Sys
