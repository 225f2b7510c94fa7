import Verif.Img.Proofs
/-! Every step of the process at the items of code is made by the bytes. -/
namespace Verif.Img
open Verif Verif.X86 Verif.X86.Spec Verif.Cg Verif.Code Verif.Sys.Spec Verif.Sys

theorem Spec.BSteps.trans {W : Type} {os : OS W} {w : Nat} {img : Int → Nat} {a b c : Spec.Cfg W} (h1 : Spec.BSteps os w img a b) (h2 : Spec.BSteps os w img b c) : Spec.BSteps os w img a c := by
  induction h1 with
  | refl => exact h2
  | head h _ ih => exact .head h (ih h2)

theorem Spec.BSteps.one {W : Type} {os : OS W} {w : Nat} {img : Int → Nat} {a b : Spec.Cfg W} (h1 : Spec.BStep os w img a b) : Spec.BSteps os w img a b := .head h1 .refl

/-- The configuration of the bytes for a configuration of the items. -/
def down {W : Type} (w : Nat) (base : Int) (P : List Asm) : Sys.Spec.Cfg W → Spec.Cfg W
  | .run pc s σ => .run (adr w base P pc) s σ
  | .done n σ => .done n σ

section
variable {W : Type} {os : OS W} {w : Nat} {base : Int} {P : List Asm} {img : Int → Nat} {st : S} (h : InMem w base P img st)
include h

theorem InMem.target (i k : Nat) : uns w (adr w base P k + (adr w base P i - adr w base P k)) = adr w base P i := by
  rw [show adr w base P k + (adr w base P i - adr w base P k) = adr w base P i by omega]
  exact h.uns_adr i

theorem InMem.lbl {pc n : Nat} (ha : P[pc]? = some (.lbl n)) : adr w base P (pc + 1) = adr w base P pc := by
  unfold adr
  rw [List.take_add_one, ha]
  simp [Asm.size]

theorem InMem.step {pc pc' : Nat} {s s' : MS} (hs : Step w base P (pc, s) (pc', s')) (σ : W) : Spec.BSteps os w img (.run (adr w base P pc) s σ) (.run (adr w base P pc') s' σ) := by
  cases hs with
  | ins ha he => exact .one (.ins (h.fetch_ins ha) he)
  | lbl ha => rw [h.lbl ha]; exact .refl
  | jmp ha hi =>
    have := Spec.BStep.jmp (os := os) (σ := σ) (h.fetch_jmp ha hi) (s := s)
    rw [h.target] at this
    exact .one this
  | jccT ha hc hi =>
    have := Spec.BStep.jccT (os := os) (σ := σ) (h.fetch_jcc ha hi) hc
    rw [h.target] at this
    exact .one this
  | jccF ha hc =>
    obtain ⟨rel, hf⟩ := h.fetch_jcc' ha
    exact .one (.jccF hf hc)
  | call ha hi =>
    have := Spec.BStep.call (os := os) (σ := σ) (h.fetch_call ha hi) (s := s)
    rw [h.target] at this
    exact .one this
  | ret ha hk he =>
    have := Spec.BStep.ret (os := os) (σ := σ) (h.fetch_ret ha) (s := s)
    rw [show uns w (rd w s.mem (s.reg 4) w) = adr w base P _ by rw [← uns_sgn, he, uns_sgn, h.uns_adr]] at this
    exact .one this

/-- **C49.** One step at the items of code is no step or one step of the processor at the bytes. -/
theorem InMem.pstep {c c' : Sys.Spec.Cfg W} (hs : PStep os w base P c c') : Spec.BSteps os w img (down w base P c) (down w base P c') := by
  cases hs with
  | cpu hs => exact h.step hs _
  | sys ha he hA => exact .one (.sys (h.fetch_ins ha) he hA)
  | exit ha he hA => exact .one (.exit (h.fetch_ins ha) he hA)

theorem InMem.psteps {c c' : Sys.Spec.Cfg W} (hs : PSteps os w base P c c') : Spec.BSteps os w img (down w base P c) (down w base P c') := by
  induction hs with
  | refl => exact .refl
  | head s _ ih => exact (h.pstep s).trans ih

end

/-! ### determinism -/

theorem fetch_det {w : Nat} {img : Int → Nat} {ip next next' : Int} {i i' : Insn} (h1 : Spec.Fetch w img ip i next) (h2 : Spec.Fetch w img ip i' next') : i = i' ∧ next = next' := by
  obtain ⟨r, e, rfl⟩ := h1
  obtain ⟨r', e', rfl⟩ := h2
  rw [e] at e'
  cases e'
  exact ⟨rfl, rfl⟩

theorem isSys_exec {w : Nat} {i : Insn} {s s' : MS} (h : isSys w i) (h2 : exec1 w s i = some s') : False := by
  rcases h with ⟨rfl, rfl⟩ | ⟨rfl, rfl⟩ <;> cases h2

/-- What the instruction does. -/
inductive Eff {W : Type} (os : OS W) (w : Nat) (next : Int) (s : MS) (σ : W) : Insn → Spec.Cfg W → Prop
  | ins {i s'} : exec1 w s i = some s' → Eff os w next s σ i (.run next s' σ)
  | jmp {rel} : Eff os w next s σ (.jmp rel) (.run (uns w (next + rel)) s σ)
  | jccT {cc rel} : X86.Spec.cond w cc s.cmpA s.cmpB = some true → Eff os w next s σ (.jcc cc rel) (.run (uns w (next + rel)) s σ)
  | jccF {cc rel} : X86.Spec.cond w cc s.cmpA s.cmpB = some false → Eff os w next s σ (.jcc cc rel) (.run next s σ)
  | call {rel} : Eff os w next s σ (.call rel) (.run (uns w (next + rel)) { setReg s 4 (sgn w (s.reg 4 - w)) with
        mem := wr w s.mem (sgn w (s.reg 4 - w)) (sgn w next) w } σ)
  | ret : Eff os w next s σ .ret (.run (uns w (rd w s.mem (s.reg 4) w)) (setReg s 4 (sgn w (s.reg 4 + w))) σ)
  | sys {i A} : isSys w i → Serves os w s σ A → Eff os w next s σ i (.run next
        { s with reg := sysReg w next (os.flags A.world) s A.result, mem := fun x => (A.stores x).getD (s.mem x) } A.world)
  | exit {i} : isSys w i → s.reg 0 = nrExit w → Eff os w next s σ i (.done (arg w s 0 % 256).toNat σ)

theorem bstep_eff {W : Type} {os : OS W} {w : Nat} {img : Int → Nat} {ip : Int} {s : MS} {σ : W} {c : Spec.Cfg W} (h : Spec.BStep os w img (.run ip s σ) c) :
    ∃ i next, Spec.Fetch w img ip i next ∧ Eff os w next s σ i c := by
  cases h with
  | ins f e => exact ⟨_, _, f, .ins e⟩
  | jmp f => exact ⟨_, _, f, .jmp⟩
  | jccT f e => exact ⟨_, _, f, .jccT e⟩
  | jccF f e => exact ⟨_, _, f, .jccF e⟩
  | call f => exact ⟨_, _, f, .call⟩
  | ret f => exact ⟨_, _, f, .ret⟩
  | sys f e A => exact ⟨_, _, f, .sys e A⟩
  | exit f e A => exact ⟨_, _, f, .exit e A⟩

theorem not_sys {w : Nat} {i : Insn} (h : isSys w i) : (∀ r, i ≠ .jmp r) ∧ (∀ c r, i ≠ .jcc c r) ∧ (∀ r, i ≠ .call r) ∧ i ≠ .ret := by
  rcases h with ⟨-, rfl⟩ | ⟨-, rfl⟩ <;> exact ⟨by simp, by simp, by simp, by simp⟩

theorem eff_det {W : Type} {os : OS W} {w : Nat} (hw : w = 4 ∨ w = 8) {next : Int} {s : MS} {σ : W} {i : Insn} {b c : Spec.Cfg W} (h1 : Eff os w next s σ i b) (h2 : Eff os w next s σ i c) : b = c := by
  cases h1 with
  | ins e =>
    cases h2 with
    | ins e' => rw [e] at e'; cases e'; rfl
    | sys x _ => exact (isSys_exec x e).elim
    | exit x _ => exact (isSys_exec x e).elim
    | _ => cases e
  | sys x A =>
    cases h2 with
    | ins e' => exact (isSys_exec x e').elim
    | sys _ B => cases serves_det hw A B; rfl
    | exit _ y => exact (serves_exit hw A y).elim
    | jmp => exact ((not_sys x).1 _ rfl).elim
    | jccT _ => exact ((not_sys x).2.1 _ _ rfl).elim
    | jccF _ => exact ((not_sys x).2.1 _ _ rfl).elim
    | call => exact ((not_sys x).2.2.1 _ rfl).elim
    | ret => exact ((not_sys x).2.2.2 rfl).elim
  | exit x A =>
    cases h2 with
    | ins e' => exact (isSys_exec x e').elim
    | sys _ B => exact (serves_exit hw B A).elim
    | exit _ y => rfl
    | jmp => exact ((not_sys x).1 _ rfl).elim
    | jccT _ => exact ((not_sys x).2.1 _ _ rfl).elim
    | jccF _ => exact ((not_sys x).2.1 _ _ rfl).elim
    | call => exact ((not_sys x).2.2.1 _ rfl).elim
    | ret => exact ((not_sys x).2.2.2 rfl).elim
  | jmp =>
    cases h2 with
    | ins e => cases e
    | jmp => rfl
    | sys x _ => exact ((not_sys x).1 _ rfl).elim
    | exit x _ => exact ((not_sys x).1 _ rfl).elim
  | jccT e =>
    cases h2 with
    | ins e => cases e
    | jccT _ => rfl
    | jccF e' => rw [e] at e'; cases e'
    | sys x _ => exact ((not_sys x).2.1 _ _ rfl).elim
    | exit x _ => exact ((not_sys x).2.1 _ _ rfl).elim
  | jccF e =>
    cases h2 with
    | ins e => cases e
    | jccF _ => rfl
    | jccT e' => rw [e] at e'; cases e'
    | sys x _ => exact ((not_sys x).2.1 _ _ rfl).elim
    | exit x _ => exact ((not_sys x).2.1 _ _ rfl).elim
  | call =>
    cases h2 with
    | ins e => cases e
    | call => rfl
    | sys x _ => exact ((not_sys x).2.2.1 _ rfl).elim
    | exit x _ => exact ((not_sys x).2.2.1 _ rfl).elim
  | ret =>
    cases h2 with
    | ins e => cases e
    | ret => rfl
    | sys x _ => exact ((not_sys x).2.2.2 rfl).elim
    | exit x _ => exact ((not_sys x).2.2.2 rfl).elim

/-- One step of the bytes is determined. -/
theorem bstep_det {W : Type} {os : OS W} {w : Nat} (hw : w = 4 ∨ w = 8) {img : Int → Nat} {a b c : Spec.Cfg W} (h1 : Spec.BStep os w img a b) (h2 : Spec.BStep os w img a c) : b = c := by
  cases a with
  | done n σ => cases h1
  | run ip s σ =>
    obtain ⟨i, n, f, e⟩ := bstep_eff h1
    obtain ⟨i', n', f', e'⟩ := bstep_eff h2
    obtain ⟨rfl, rfl⟩ := fetch_det f f'
    exact eff_det hw e e'

/-- A process has at most one end. -/
theorem bsteps_det {W : Type} {os : OS W} {w : Nat} (hw : w = 4 ∨ w = 8) {img : Int → Nat} {a : Spec.Cfg W} {n n' : Nat} {σ σ' : W} (h1 : Spec.BSteps os w img a (.done n σ))
    (h2 : Spec.BSteps os w img a (.done n' σ')) : n = n' ∧ σ = σ' := by
  generalize hb : Spec.Cfg.done n σ = b at h1
  induction h1 with
  | refl =>
    subst hb
    cases h2 with
    | refl => exact ⟨rfl, rfl⟩
    | head s _ => cases s
  | head s _ ih =>
    subst hb
    cases h2 with
    | refl => cases s
    | head s' r =>
      cases bstep_det hw s s'
      exact ih r rfl

end Verif.Img
