import Verif.Reach.Proofs4
import Verif.Img.Props
/-! From the start of the process to the call of `main`; runs of the process and of the bytes with at least so many steps. -/
namespace Verif.Reach
open Verif Verif.Gen Verif.Gen.Spec Verif.X86 Verif.X86.Spec Verif.Cg Verif.Cg.Spec Verif.Sys Verif.Rt Verif.Sys.Spec Spec

section
variable {W : Type} {os : OS W} {C : Ctx} {L : Labels} {base : Int} {P : List Asm} {ga : Int} {mr : Bool} {ds : List Decl}
variable {p : Program} {lab : Nat → Nat} {what : Nat → Option LibFn} {mm : Nat → List Nat} {ts : List Top} {l0 l1 : Nat} {f : Nat} {r : CTy} {s : MS} {σ σ1 : W} {sp G H : Int} {M M1 : Mem} {vs : List Int}

/-- The library: a call in the machine is a call in the code. -/
def machC (os : OS W) (σ : W) (w : Nat) (base : Int) (P : List Asm) : Mach where
  base := base
  ext a b := (mach os σ w base P).ext a b ∧ (∃ n, P[a.1]? = some (.call n)) ∧ b.1 = a.1 + 1

theorem go_machC {σ : W} {w : Nat} {a b : Nat × MS} (h : Go w (machC os σ w base P) P a b) : Go w (mach os σ w base P) P a b := by
  induction h with
  | refl => exact .refl
  | head h _ ih => exact .head h ih
  | ext h _ ih => exact .ext h.1 ih

theorem lib_machC {σ : W} (h : Library C (mach os σ C.w base P) p lab G P) : Library C (machC os σ C.w base P) p lab G P := by
  refine ⟨h.type, h.objects, ?_⟩
  intro f vs sp M v M' r k s h1 h2 h3 h4 h5 h6 h7 h8 h9
  obtain ⟨s', q1, q2⟩ := h.call f vs sp M v M' r k s h1 h2 h3 h4 h5 h6 h7 h8 h9
  exact ⟨s', ⟨q1, ⟨_, h3⟩, rfl⟩, q2⟩

theorem go_p {σ : W} {w : Nat} {a b : Nat × MS} (t : List Event) (h : Go w (machC os σ w base P) P a b) :
    PSteps os w base P (.run a.1 (rec_ a.2 t) (world os σ a.2.io)) (.run b.1 (rec_ b.2 t) (world os σ b.2.io)) := by
  have := psteps_rec t (go_psteps (go_machC h))
  simpa only [Cfg.rec_, rec_rec] using this

/-- Not at a label. -/
def NonLbl (P : List Asm) : Sys.Spec.Cfg W → Prop
  | .run pc _ _ => ∀ n, P[pc]? ≠ some (.lbl n)
  | .done .. => True

theorem real_p {σ : W} {w : Nat} {a b : Nat × MS} (t : List Event) (h : Real w (machC os σ w base P) P a b) :
    ∃ Y, PStep os w base P (.run a.1 (rec_ a.2 t) (world os σ a.2.io)) Y ∧ NonLbl P (W := W) (.run a.1 (rec_ a.2 t) (world os σ a.2.io)) ∧
      PSteps os w base P Y (.run b.1 (rec_ b.2 t) (world os σ b.2.io)) := by
  rcases h with ⟨h, hn⟩ | h
  · have e := step_io h
    refine ⟨_, pstep_rec t (.cpu h), hn, ?_⟩
    simp only [Cfg.rec_, e]
    exact .refl
  · obtain ⟨h1, ⟨n, h2⟩, h3⟩ := h
    have hp := go_p t (.ext ⟨h1, ⟨n, h2⟩, h3⟩ .refl : Go w (machC os σ w base P) P a b)
    have hne : (Sys.Spec.Cfg.run a.1 (rec_ a.2 t) (world os σ a.2.io)) ≠ .run b.1 (rec_ b.2 t) (world os σ b.2.io) := by
      intro e
      injection e with e1
      omega
    generalize Sys.Spec.Cfg.run b.1 (rec_ b.2 t) (world os σ b.2.io) = B at hp hne ⊢
    cases hp with
    | refl => exact (hne rfl).elim
    | head s1 s2 => exact ⟨_, s1, by intro m; simp [h2], s2⟩

/-- At least `n` instructions of the process. -/
inductive PLong (os : OS W) (w : Nat) (base : Int) (P : List Asm) : Nat → Sys.Spec.Cfg W → Prop
  | zero {a} : PLong os w base P 0 a
  | succ {n a b c} : PSteps os w base P a b → PStep os w base P b c → NonLbl P b → PLong os w base P n c → PLong os w base P (n + 1) a

theorem PLong.pre {w : Nat} {n : Nat} {a b : Sys.Spec.Cfg W} (st : PSteps os w base P a b) (h : PLong os w base P n b) : PLong os w base P n a := by
  cases h with
  | zero => exact .zero
  | succ h1 h2 h3 h4 => exact .succ (st.trans h1) h2 h3 h4

theorem long_p {σ : W} {w : Nat} (t : List Event) {n : Nat} {a : Nat × MS} (h : Long w (machC os σ w base P) P n a) :
    PLong os w base P n (.run a.1 (rec_ a.2 t) (world os σ a.2.io)) := by
  induction h with
  | zero => exact .zero
  | succ h1 _ ih =>
    obtain ⟨c, d, g1, g2, g3⟩ := h1
    obtain ⟨Y, h2, h3, h4⟩ := real_p t g2
    exact .succ (go_p t g1) h2 h3 (ih.pre (h4.trans (go_p t g3)))

end
end Verif.Reach

namespace Verif.Img
open Verif Verif.X86 Verif.X86.Spec Verif.Cg Verif.Code Verif.Sys.Spec Verif.Sys

theorem InMem.real {W : Type} {os : OS W} {w : Nat} {base : Int} {P : List Asm} {img : Int → Nat} {st : S} (h : InMem w base P img st) {c c' : Sys.Spec.Cfg W} (hs : PStep os w base P c c')
    (hn : Reach.NonLbl P c) : Spec.BStep os w img (down w base P c) (down w base P c') := by
  cases hs with
  | sys ha he hA => exact .sys (h.fetch_ins ha) he hA
  | exit ha he hA => exact .exit (h.fetch_ins ha) he hA
  | @cpu pc s pc' s' σ hs =>
    cases hs with
    | ins ha he => exact .ins (h.fetch_ins ha) he
    | lbl ha => exact (hn _ ha).elim
    | jmp ha hi =>
      have := Spec.BStep.jmp (os := os) (σ := σ) (h.fetch_jmp ha hi) (s := s)
      rw [h.target] at this
      exact this
    | jccT ha hc hi =>
      have := Spec.BStep.jccT (os := os) (σ := σ) (h.fetch_jcc ha hi) hc
      rw [h.target] at this
      exact this
    | jccF ha hc =>
      obtain ⟨rel, hf⟩ := h.fetch_jcc' ha
      exact .jccF hf hc
    | call ha hi =>
      have := Spec.BStep.call (os := os) (σ := σ) (h.fetch_call ha hi) (s := s)
      rw [h.target] at this
      exact this
    | ret ha hk he =>
      have := Spec.BStep.ret (os := os) (σ := σ) (h.fetch_ret ha) (s := s)
      rw [show uns w (rd w s.mem (s.reg 4) w) = adr w base P _ by rw [← uns_sgn, he, uns_sgn, h.uns_adr]] at this
      exact this

end Verif.Img

namespace Verif.Reach
open Verif Verif.Gen Verif.Gen.Spec Verif.X86 Verif.X86.Spec Verif.Cg Verif.Cg.Spec Verif.Sys Verif.Rt Verif.Sys.Spec Spec
section
variable {W : Type} {os : OS W} {w : Nat} {img : Int → Nat}

/-- At least `n` steps of the processor. -/
inductive BLong (os : OS W) (w : Nat) (img : Int → Nat) : Nat → Img.Spec.Cfg W → Prop
  | zero {a} : BLong os w img 0 a
  | succ {n a b c} : Img.Spec.BSteps os w img a b → Img.Spec.BStep os w img b c → BLong os w img n c → BLong os w img (n + 1) a

theorem long_b {base : Int} {P : List Asm} {st : Code.S} (h : Img.InMem w base P img st) {n : Nat} {a : Sys.Spec.Cfg W} (hp : PLong os w base P n a) : BLong os w img n (Img.down w base P a) := by
  induction hp with
  | zero => exact .zero
  | succ h1 h2 h3 _ ih => exact .succ (h.psteps h1) (h.real h2 h3) ih

theorem BLong.pre {n : Nat} {a b : Img.Spec.Cfg W} (st : Img.Spec.BSteps os w img a b) (h : BLong os w img n b) : BLong os w img n a := by
  cases h with
  | zero => exact .zero
  | succ h1 h2 h3 => exact .succ (st.trans h1) h2 h3

theorem BLong.less {n : Nat} {a : Img.Spec.Cfg W} (h : BLong os w img (n + 1) a) : BLong os w img n a := by
  cases h with
  | succ h1 h2 h3 => exact h3.pre (h1.trans (.one h2))

theorem blong_done (hw : w = 4 ∨ w = 8) {a b : Img.Spec.Cfg W} (h : Img.Spec.BSteps os w img a b) : ∀ k σ, b = .done k σ → ∃ N, ¬ BLong os w img N a := by
  induction h with
  | refl =>
    rintro k σ rfl
    refine ⟨1, fun h => ?_⟩
    cases h with
    | succ h1 h2 _ =>
      cases h1 with
      | refl => cases h2
      | head h _ => cases h
  | head s _ ih =>
    intro k σ hb
    obtain ⟨N, hN⟩ := ih k σ hb
    refine ⟨N + 1, fun h => ?_⟩
    cases h with
    | succ h1 h2 h3 =>
      cases h1 with
      | refl => cases Img.bstep_det hw s h2; exact hN h3
      | head h4 h5 => cases Img.bstep_det hw s h4; exact hN (BLong.succ h5 h2 h3).less

end
end Verif.Reach
