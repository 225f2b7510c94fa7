import Verif.Cg.Prog
/-! Running code on a concrete machine state, for examples and counterexamples; determinism. -/
namespace Verif.Cg
open Verif Verif.Gen Verif.Gen.Spec Verif.X86 Verif.X86.Spec Spec

/-- Index of the definition of a label. -/
def findLbl (n : Nat) : List Asm → Nat → Option Nat
  | [], _ => none
  | .lbl m :: c, i => if m = n then some i else findLbl n c (i + 1)
  | _ :: c, i => findLbl n c (i + 1)

def isCall : Asm → Bool
  | .call _ => true
  | _ => false

/-- Index of the call with the given return address. -/
def findRet (w : Nat) (a : Int) : List Asm → Int → Nat → Option Nat
  | [], _, _ => none
  | x :: c, b, i => if isCall x && sgn w (b + x.size w) == a then some i else findRet w a c (b + x.size w) (i + 1)

/-- One step, as a function. -/
def stepX (w : Nat) (base : Int) (P : List Asm) (pc : Nat) (s : MS) : Option (Nat × MS) :=
  match P[pc]? with
  | none | some (.data _ _) => none
  | some (.ins e) => (exec1 w s (e.intended w)).map fun s => (pc + 1, s)
  | some (.lbl _) => some (pc + 1, s)
  | some (.jmp n) => (findLbl n P 0).map fun i => (i, s)
  | some (.jcc cc n) => match X86.Spec.cond w cc s.cmpA s.cmpB with
    | some true => (findLbl n P 0).map fun i => (i, s)
    | some false => some (pc + 1, s)
    | none => none
  | some (.call n) => (findLbl n P 0).map fun i => (i, { setReg s 4 (sgn w (s.reg 4 - w)) with
        mem := wr w s.mem (sgn w (s.reg 4 - w)) (sgn w (adr w base P (pc + 1))) w })
  | some .ret => (findRet w (sgn w (rd w s.mem (s.reg 4) w)) P base 0).map fun k => (k + 1, setReg s 4 (sgn w (s.reg 4 + w)))

/-- Steps until item `e`. -/
def runTo (w : Nat) (base : Int) (P : List Asm) (e : Nat) : Nat → Nat → MS → Option MS
  | 0, _, _ => none
  | n + 1, pc, s => if pc = e then some s else (stepX w base P pc s).bind fun (pc, s) => runTo w base P e n pc s

theorem findLbl_ok {n : Nat} : ∀ {P : List Asm} {i j : Nat}, findLbl n P i = some j → ∃ k, j = i + k ∧ P[k]? = some (.lbl n) := by
  intro P
  induction P with
  | nil => intro i j h; cases h
  | cons x P ih =>
    intro i j h
    have rec' : findLbl n P (i + 1) = some j → ∃ k, j = i + k ∧ (x :: P)[k]? = some (.lbl n) := by
      intro h
      obtain ⟨k, h1, h2⟩ := ih h
      exact ⟨k + 1, by omega, by simpa using h2⟩
    cases x with
    | lbl m =>
      simp only [findLbl] at h
      split at h
      · rename_i e; cases h; exact ⟨0, by omega, by simp [e]⟩
      · exact rec' h
    | _ => exact rec' h

theorem findRet_ok {w : Nat} {a : Int} : ∀ {P : List Asm} {b : Int} {i j : Nat}, findRet w a P b i = some j →
    ∃ k m, j = i + k ∧ P[k]? = some (.call m) ∧ a = sgn w (adr w b P (k + 1)) := by
  intro P
  induction P with
  | nil => intro b i j h; cases h
  | cons x P ih =>
    intro b i j h
    simp only [findRet] at h
    split at h
    · rename_i e
      cases h
      simp only [Bool.and_eq_true, beq_iff_eq] at e
      refine ⟨0, ?_⟩
      cases x with
      | call m => exact ⟨m, by omega, by simp, by rw [← e.2]; simp [adr]⟩
      | _ => simp [isCall] at e
    · obtain ⟨k, m, h1, h2, h3⟩ := ih h
      exact ⟨k + 1, m, by omega, by simpa using h2, by rw [h3]; simp [adr]; congr 1; omega⟩

theorem stepX_ok {w : Nat} {base : Int} {P : List Asm} {pc : Nat} {s : MS} {c : Nat × MS} (h : stepX w base P pc s = some c) :
    Step w base P (pc, s) c := by
  unfold stepX at h
  have fl : ∀ {n i}, findLbl n P 0 = some i → P[i]? = some (.lbl n) := by
    intro n i h
    obtain ⟨k, h1, h2⟩ := findLbl_ok h
    rw [h1, Nat.zero_add]; exact h2
  split at h
  · cases h
  · cases h
  · rename_i e hp
    rw [Option.map_eq_some_iff] at h
    obtain ⟨s', h1, rfl⟩ := h
    exact .ins hp h1
  · rename_i hp; cases h; exact .lbl hp
  · rename_i hp
    rw [Option.map_eq_some_iff] at h
    obtain ⟨i, h1, rfl⟩ := h
    exact .jmp hp (fl h1)
  · rename_i hp
    split at h
    · rename_i hc
      rw [Option.map_eq_some_iff] at h
      obtain ⟨i, h1, rfl⟩ := h
      exact .jccT hp hc (fl h1)
    · rename_i hc; cases h; exact .jccF hp hc
    · cases h
  · rename_i hp
    rw [Option.map_eq_some_iff] at h
    obtain ⟨i, h1, rfl⟩ := h
    exact .call hp (fl h1)
  · rename_i hp
    rw [Option.map_eq_some_iff] at h
    obtain ⟨i, h1, rfl⟩ := h
    obtain ⟨k, m, h1, h2, h3⟩ := findRet_ok h1
    rw [Nat.zero_add] at h1; subst h1
    exact .ret hp h2 h3

theorem runTo_ok {w : Nat} {base : Int} {P : List Asm} {e : Nat} : ∀ {n pc : Nat} {s s' : MS}, runTo w base P e n pc s = some s' →
    Steps w base P (pc, s) (e, s') := by
  intro n
  induction n with
  | zero => intro pc s s' h; cases h
  | succ n ih =>
    intro pc s s' h
    simp only [runTo] at h
    split at h
    · rename_i he; cases h; rw [he]; exact .refl
    · rw [Option.bind_eq_some_iff] at h
      obtain ⟨⟨pc', s1⟩, h1, h2⟩ := h
      exact .head (stepX_ok h1) (ih h2)

/-- Two executions from the same state: one is a prefix of the other. -/
theorem steps_det {w : Nat} {base : Int} {P : List Asm} (hw : w = 4 ∨ w = 8) (hu : Uniq P)
    (h0 : 0 ≤ base) (hfit : adr w base P P.length < (2 ^ (8 * w - 1) : Nat)) {a b c : Nat × MS}
    (h1 : Steps w base P a b) (h2 : Steps w base P a c) : Steps w base P b c ∨ Steps w base P c b := by
  induction h1 with
  | refl => exact .inl h2
  | head s1 r1 ih =>
    cases h2 with
    | refl => exact .inr (.head s1 r1)
    | head s2 r2 =>
      have := step_det hw hu h0 hfit s1 s2
      subst this
      exact ih r2

theorem steps_end {w : Nat} {base : Int} {P : List Asm} {e : Nat} {s : MS} {c : Nat × MS} (h : P[e]? = none) (hs : Steps w base P (e, s) c) : c = (e, s) := by
  cases hs with
  | refl => rfl
  | head s1 _ => cases s1 <;> simp_all

/-- The state in which the run ends. -/
theorem run_end {w : Nat} {base : Int} {P : List Asm} (hw : w = 4 ∨ w = 8) (hu : Uniq P)
    (h0 : 0 ≤ base) (hfit : adr w base P P.length < (2 ^ (8 * w - 1) : Nat)) {pc : Nat} {s s1 s2 : MS}
    (h1 : Steps w base P (pc, s) (P.length, s1)) (h2 : Steps w base P (pc, s) (P.length, s2)) : s1 = s2 := by
  have he : P[P.length]? = none := by simp
  rcases steps_det hw hu h0 hfit h1 h2 with h | h
  · have := steps_end he h; cases this; rfl
  · have := steps_end he h; cases this; rfl

theorem findLbl_some {n : Nat} : ∀ {P : List Asm} {i k : Nat}, P[k]? = some (.lbl n) → (findLbl n P i).isSome := by
  intro P
  induction P with
  | nil => intro i k h; simp at h
  | cons x P ih =>
    intro i k h
    cases k with
    | zero => simp at h; subst h; simp [findLbl]
    | succ k =>
      simp at h
      cases x with
      | lbl m => simp only [findLbl]; split; · rfl
                 exact ih h
      | _ => exact ih h

theorem findRet_some {w : Nat} {a : Int} : ∀ {P : List Asm} {b : Int} {i k m : Nat}, P[k]? = some (.call m) → a = sgn w (adr w b P (k + 1)) →
    (findRet w a P b i).isSome := by
  intro P
  induction P with
  | nil => intro b i k m h; simp at h
  | cons x P ih =>
    intro b i k m h ha
    simp only [findRet]
    split
    · rfl
    · rename_i hn
      cases k with
      | zero =>
        simp at h; subst h
        exact absurd (by simp [isCall, ha, adr]) hn
      | succ k =>
        simp at h
        refine ih h ?_
        rw [ha]; simp [adr]; congr 1; omega

theorem stepX_some {w : Nat} {base : Int} {P : List Asm} {pc : Nat} {s : MS} {c : Nat × MS} (h : Step w base P (pc, s) c) :
    (stepX w base P pc s).isSome := by
  unfold stepX
  cases h with
  | ins hp h => simp [hp, h]
  | lbl hp => simp [hp]
  | jmp hp hl => simp [hp, findLbl_some hl]
  | jccT hp hc hl => simp [hp, hc, findLbl_some hl]
  | jccF hp hc => simp [hp, hc]
  | call hp hl => simp [hp, findLbl_some hl]
  | ret hp hk ha => simp [hp, findRet_some hk ha]

/-- The machine gets stuck, not at the end of the code. -/
def stuckIn (w : Nat) (base : Int) (P : List Asm) : Nat → Nat → MS → Bool
  | 0, _, _ => false
  | n + 1, pc, s => decide (pc ≠ P.length) && match stepX w base P pc s with
    | none => true
    | some (pc, s) => stuckIn w base P n pc s

theorem stuckIn_ok {w : Nat} {base : Int} {P : List Asm} (hw : w = 4 ∨ w = 8) (hu : Uniq P)
    (h0 : 0 ≤ base) (hfit : adr w base P P.length < (2 ^ (8 * w - 1) : Nat)) : ∀ {n pc : Nat} {s s' : MS},
    stuckIn w base P n pc s = true → ¬ Steps w base P (pc, s) (P.length, s') := by
  intro n
  induction n with
  | zero => intro pc s s' h; cases h
  | succ n ih =>
    intro pc s s' h hs
    simp only [stuckIn, Bool.and_eq_true, decide_eq_true_eq] at h
    cases hs with
    | refl => exact h.1 rfl
    | head s1 r1 =>
      have := stepX_some s1
      obtain ⟨⟨pc2, s2⟩, e⟩ := Option.isSome_iff_exists.1 this
      rw [e] at h
      have e2 := step_det hw hu h0 hfit s1 (stepX_ok e)
      subst e2
      exact ih h.2 r1

/-- Labels defined once, as a check. -/
def uniqB : List Asm → List Nat → Bool
  | [], _ => true
  | .lbl n :: c, ls => !ls.contains n && uniqB c (n :: ls)
  | _ :: c, ls => uniqB c ls

theorem uniqB_cl {P : List Asm} : ∀ {ls : List Nat}, uniqB P ls = true → ∀ x, cl x P ≤ 1 ∧ (x ∈ ls → cl x P = 0) := by
  induction P with
  | nil => intro ls _ x; simp [cl_nil]
  | cons y P ih =>
    intro ls h x
    cases y with
    | lbl n =>
      simp only [uniqB, Bool.and_eq_true, Bool.not_eq_true', List.contains_eq_mem, decide_eq_false_iff_not] at h
      have := ih h.2 x
      rw [cl_lbl]
      unfold isL
      split
      · rename_i e; subst e
        have h3 := this.2 (by simp)
        exact ⟨by omega, fun hm => absurd hm h.1⟩
      · refine ⟨by omega, fun hm => ?_⟩
        have := this.2 (by simp [hm])
        omega
    | _ => exact ih h x

theorem uniqB_ok {P : List Asm} (h : uniqB P [] = true) : Uniq P := uniq_of_cl fun x => (uniqB_cl h x).1

end Verif.Cg
