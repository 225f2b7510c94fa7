import Verif.Reach.Spec
import Verif.Cg.Main
/-! What the machine does while a C implementation carries out an `Act`: the invariant, and the parts of expressions. -/
namespace Verif.Reach
open Verif Verif.Gen Verif.Gen.Spec Verif.X86 Verif.X86.Spec Verif.Cg Verif.Cg.Spec Spec

variable (C : Ctx) (base : Mach) (P : List Asm) (cs : Nat → Option Fun) (ρ0 : Cg.Spec.Env) (Γ0 : Cg.Env) (G : Int)

/-- The machine is at the code of what is being carried out, in a state that agrees with the memory of the C program. -/
def Match : Act → Nat → MS → Prop
  | .rv ρ e sp M, pc, s => ∃ Γ Γs F md fs l c fs' l', FH C ρ0 Γ0 G Γ Γs ρ F ∧ codegen_rvalue C.w C.T Γ e fs l = .ok (c, fs', l') ∧
      Sup C Γ ρ.kind md e = true ∧ mdOk C md ∧ sp = F - fs * C.w ∧ At P pc c ∧ Rel C G sp M s ∧ MemOk C sp M
  | .lv ρ e sp M, pc, s => ∃ Γ Γs F fs l c fs' l' k, FH C ρ0 Γ0 G Γ Γs ρ F ∧ codegen_lvalue C.w C.T Γ e fs l = .ok (c, fs', l', k) ∧
      SupL C Γ ρ.kind e = true ∧ sp = F - fs * C.w ∧ At P pc c ∧ Rel C G sp M s ∧ MemOk C sp M
  | .ar ρ e sp M, pc, s => ∃ Γ Γs F fs l c fs' l' k, FH C ρ0 Γ0 G Γ Γs ρ F ∧ codegen_params C.w C.T Γ e fs l = .ok (c, fs', l', k) ∧
      SupA C Γ ρ.kind e = true ∧ sp = F - fs * C.w ∧ At P pc c ∧ Rel C G sp M s ∧ MemOk C sp M
  | .st ρ e sp M, pc, s => ∃ lab Γ Γs F fs l sw c fs' l' sw', FH C ρ0 Γ0 G Γ Γs ρ F ∧ codegen_statement C.w C.T Γ e fs l sw = .ok (c, fs', l', sw') ∧
      SupS C ρ.rett e lab Γs ρ.kind = true ∧ sp = F - fs * C.w ∧ 0 ≤ fs ∧ At P pc c ∧ Rel C G sp M s ∧ MemOk C sp M
  | .it ρ e sp M, pc, s => ∃ lab Γ Γs F fs l sw c fs' l' sw', FH C ρ0 Γ0 G Γ Γs ρ F ∧ codegen_items C.w C.T Γ e fs l sw = .ok (c, fs', l', sw') ∧
      SupS C ρ.rett e lab Γs ρ.kind = true ∧ sp = F - fs * C.w ∧ 0 ≤ fs ∧ At P pc c ∧ Rel C G sp M s ∧ MemOk C sp M
  | .lp ρ e p b sp M, pc, s => ∃ Γ Γs F fs l1 l2 l3 lp swp cp fp lp' swp' lt ct ft lt' lb swb cb fb lb' swb' pc0, FH C ρ0 Γ0 G Γ Γs ρ F ∧
      codegen_statement C.w C.T { Γ with loops := ⟨fs, l2, some l1⟩ :: Γ.loops } p fs lp swp = .ok (cp, fp, lp', swp') ∧
      forTest C.w C.T { Γ with loops := ⟨fs, l2, some l1⟩ :: Γ.loops } e fs lt l2 = .ok (ct, ft, lt') ∧
      codegen_statement C.w C.T { Γ with loops := ⟨fs, l2, some l1⟩ :: Γ.loops } b fs lb swb = .ok (cb, fb, lb', swb') ∧
      SupS C ρ.rett p none Γs ρ.kind = true ∧ supTest C Γs ρ.kind e = true ∧ SupS C ρ.rett b none Γs ρ.kind = true ∧
      sp = F - fs * C.w ∧ 0 ≤ fs ∧ At P pc0 ([.lbl l1] ++ cp ++ [.lbl l3] ++ ct ++ cb ++ [.jmp l1, .lbl l2]) ∧ pc = pc0 + ([Asm.lbl l1] ++ cp).length ∧
      Rel C G sp M s ∧ MemOk C sp M
  | .fn f vs sp M, pc, s => ∃ lbl r, resolve Γ0 f = .ok (.fn lbl r) ∧ P[pc]? = some (.call lbl) ∧ Rel C G sp M s ∧ MemOk C (sp + vs.length * C.w) M ∧
      ∀ i (h : i < vs.length), word C.w s.mem (sp + i * C.w) = sgn C.w vs[i]

/-- The machine gets from there to the code of `b`. -/
def Gets (b : Act) (pc : Nat) (s : MS) : Prop := ∃ pc' s', Go C.w base P (pc, s) (pc', s') ∧ Match C P ρ0 Γ0 G b pc' s'

variable {C base P cs ρ0 Γ0 G}

theorem Match.gets {b : Act} {pc : Nat} {s : MS} (h : Match C P ρ0 Γ0 G b pc s) : Gets C base P ρ0 Γ0 G b pc s := ⟨pc, s, .refl, h⟩

theorem Gets.pre {b : Act} {pc pc' : Nat} {s s' : MS} (st : Go C.w base P (pc, s) (pc', s')) (h : Gets C base P ρ0 Γ0 G b pc' s') :
    Gets C base P ρ0 Γ0 G b pc s := by
  obtain ⟨p2, s2, h1, h2⟩ := h
  exact ⟨p2, s2, st.trans h1, h2⟩

/-! ### Runs with at least one instruction -/

/-- A step of the processor that executes an instruction, or a call of the library. -/
def Real (w : Nat) (K : Mach) (P : List Asm) (c d : Nat × MS) : Prop := (Step w K.base P c d ∧ ∀ n, P[c.1]? ≠ some (.lbl n)) ∨ K.ext c d

/-- A run with such a step. -/
def Moves (w : Nat) (K : Mach) (P : List Asm) (a b : Nat × MS) : Prop := ∃ c d, Go w K P a c ∧ Real w K P c d ∧ Go w K P d b

theorem Real.moves {w : Nat} {K : Mach} {P : List Asm} {a b : Nat × MS} (h : Real w K P a b) : Moves w K P a b := ⟨a, b, .refl, h, .refl⟩
theorem Moves.pre {w : Nat} {K : Mach} {P : List Asm} {a b c : Nat × MS} (h : Go w K P a b) (h2 : Moves w K P b c) : Moves w K P a c := by
  obtain ⟨x, y, h3, h4, h5⟩ := h2
  exact ⟨x, y, h.trans h3, h4, h5⟩
theorem Moves.post {w : Nat} {K : Mach} {P : List Asm} {a b c : Nat × MS} (h : Moves w K P a b) (h2 : Go w K P b c) : Moves w K P a c := by
  obtain ⟨x, y, h3, h4, h5⟩ := h
  exact ⟨x, y, h3, h4, h5.trans h2⟩

theorem Real.go {w : Nat} {K : Mach} {P : List Asm} {a b : Nat × MS} (h : Real w K P a b) : Go w K P a b := by
  rcases h with ⟨h, -⟩ | h
  · exact .one h
  · exact .ext h .refl
theorem Moves.go {w : Nat} {K : Mach} {P : List Asm} {a b : Nat × MS} (h : Moves w K P a b) : Go w K P a b := by
  obtain ⟨x, y, h3, h4, h5⟩ := h
  exact h3.trans (h4.go.trans h5)

/-- A run that goes back, or goes over an instruction, has such a step. -/
theorem go_moves {w : Nat} {K : Mach} {P : List Asm} {a b : Nat × MS} (h : Go w K P a b) :
    (b.1 < a.1 → Moves w K P a b) ∧ (∀ i, a.1 ≤ i → i < b.1 → (∀ n, P[i]? ≠ some (.lbl n)) → Moves w K P a b) := by
  induction h with
  | refl => exact ⟨fun h => by omega, fun i h1 h2 _ => by omega⟩
  | @head a b c h1 h2 ih =>
    by_cases hr : ∀ n, P[a.1]? ≠ some (.lbl n)
    · have : Moves w K P a c := (Real.moves (.inl ⟨h1, hr⟩)).post h2
      exact ⟨fun _ => this, fun _ _ _ _ => this⟩
    · have he : b.1 = a.1 + 1 := by
        cases h1 with
        | ins h => exact (hr (by intro n; simp [h])).elim
        | lbl h => rfl
        | jmp h => exact (hr (by intro n; simp [h])).elim
        | jccT h => exact (hr (by intro n; simp [h])).elim
        | jccF h => exact (hr (by intro n; simp [h])).elim
        | call h => exact (hr (by intro n; simp [h])).elim
        | ret h => exact (hr (by intro n; simp [h])).elim
      refine ⟨fun h => (ih.1 (by omega)).pre (.one h1), fun i h3 h4 h5 => ?_⟩
      by_cases hi : i = a.1
      · subst hi; exact (hr h5).elim
      · exact (ih.2 i (by omega) h4 h5).pre (.one h1)
  | ext h1 h2 _ =>
    have := (Real.moves (P := P) (w := w) (.inr h1)).post h2
    exact ⟨fun _ => this, fun _ _ _ _ => this⟩

variable (C base P cs ρ0 Γ0 G) in
/-- The machine gets to the code of `b`, executing at least one instruction. -/
def Gets1 (b : Act) (pc : Nat) (s : MS) : Prop := ∃ pc' s', Moves C.w base P (pc, s) (pc', s') ∧ Match C P ρ0 Γ0 G b pc' s'

theorem Gets1.gets {b : Act} {pc : Nat} {s : MS} (h : Gets1 C base P ρ0 Γ0 G b pc s) : Gets C base P ρ0 Γ0 G b pc s := by
  obtain ⟨p2, s2, h1, h2⟩ := h
  exact ⟨p2, s2, h1.go, h2⟩

/-! ### The code of parts of expressions -/

theorem first_code {w : Nat} {T : Tags} {Γ : Cg.Env} {e a : E} {fs : Int} {l : Nat} {c : List Asm} {fs' : Int} {l' : Nat} (h : firstE e = some a)
    (hc : codegen_rvalue w T Γ e fs l = .ok (c, fs', l')) : ∃ l1 ca f1 l2, codegen_rvalue w T Γ a fs l1 = .ok (ca, f1, l2) ∧ ∃ rest, c = ca ++ rest := by
  cases e <;> simp only [firstE, Option.some.injEq, reduceCtorEq] at h <;> subst h <;> simp only [codegen_rvalue, Res.bind_eq_ok, Res.ok.injEq, Prod.mk.injEq] at hc
  case deref e =>
    obtain ⟨t, -, ⟨c1, f1, l1⟩, h1, hc⟩ := hc
    refine ⟨_, _, _, _, h1, ?_⟩
    split at hc
    · simp only [Res.ok.injEq, Prod.mk.injEq] at hc; exact ⟨[], by simp [hc.1]⟩
    · split at hc
      · simp only [Res.bind_eq_ok, Res.ok.injEq, Prod.mk.injEq] at hc
        obtain ⟨_, -, _, -, ld, -, rfl, -⟩ := hc; exact ⟨_, rfl⟩
      · cases hc
  case arrow e m =>
    obtain ⟨t, -, hc⟩ := hc
    split at hc
    · simp only [Res.bind_eq_ok, Res.ok.injEq, Prod.mk.injEq] at hc
      obtain ⟨_, -, ⟨c1, f1, l1⟩, h1, _, -, _, -, rfl, -⟩ := hc
      exact ⟨_, _, _, _, h1, _, rfl⟩
    · cases hc
  all_goals
    obtain ⟨⟨c1, f1, l1⟩, h1, hc⟩ := hc
    refine ⟨_, _, _, _, h1, ?_⟩
  case plus => exact ⟨[], by rw [List.append_nil]; exact hc.1.symm⟩
  case paren => exact ⟨[], by rw [List.append_nil]; exact hc.1.symm⟩
  case neg => exact ⟨_, hc.1.symm⟩
  case bnot => exact ⟨_, hc.1.symm⟩
  case bin => obtain ⟨_, -, _, -, _, -, _, -, rfl, -⟩ := hc; exact ⟨_, List.append_assoc ..⟩
  case index => obtain ⟨_, -, _, -, _, -, _, -, rfl, -⟩ := hc; exact ⟨_, List.append_assoc ..⟩
  case comma => obtain ⟨_, -, rfl, -⟩ := hc; exact ⟨_, List.append_assoc ..⟩
  case land => obtain ⟨_, -, rfl, -⟩ := hc; simp only [List.append_assoc]; exact ⟨_, rfl⟩
  case lor => obtain ⟨_, -, rfl, -⟩ := hc; simp only [List.append_assoc]; exact ⟨_, rfl⟩
  case cond => obtain ⟨_, -, _, -, rfl, -⟩ := hc; simp only [List.append_assoc]; exact ⟨_, rfl⟩

theorem firstL_code {w : Nat} {T : Tags} {Γ : Cg.Env} {e a : E} {fs : Int} {l : Nat} {c : List Asm} {fs' : Int} {l' : Nat} (h : firstL e = some a)
    (hc : codegen_rvalue w T Γ e fs l = .ok (c, fs', l')) : ∃ l1 ca f1 l2 k, codegen_lvalue w T Γ a fs l1 = .ok (ca, f1, l2, k) ∧ ∃ rest, c = ca ++ rest := by
  cases e <;> simp only [firstL, Option.some.injEq, reduceCtorEq] at h <;> subst h <;> simp only [codegen_rvalue, Res.bind_eq_ok, Res.ok.injEq, Prod.mk.injEq] at hc
  case addr =>
    obtain ⟨⟨c1, f1, l1, k⟩, h1, hc⟩ := hc
    exact ⟨_, _, _, _, _, h1, [], by rw [List.append_nil]; exact hc.1.symm⟩
  case incdec =>
    obtain ⟨⟨c1, f1, l1, k⟩, h1, _, -, _, -, _, -, _, -, hc⟩ := hc
    refine ⟨_, _, _, _, _, h1, ?_⟩
    split at hc <;> simp only [Res.ok.injEq, Prod.mk.injEq] at hc <;> obtain ⟨rfl, -⟩ := hc <;> simp only [List.append_assoc] <;> exact ⟨_, rfl⟩
  case dot =>
    obtain ⟨t, -, hc⟩ := hc
    split at hc
    · simp only [Res.bind_eq_ok, Res.ok.injEq, Prod.mk.injEq] at hc
      obtain ⟨_, -, ⟨c1, f1, l1, k⟩, h1, _, -, _, -, rfl, -⟩ := hc
      exact ⟨_, _, _, _, _, h1, _, rfl⟩
    · cases hc
  case assign =>
    obtain ⟨t, -, ⟨c1, f1, l1, k⟩, h1, hc⟩ := hc
    refine ⟨_, _, _, _, _, h1, ?_⟩
    split at hc
    · cases hc
    simp only [Res.bind_eq_ok, Res.ok.injEq, Prod.mk.injEq] at hc
    obtain ⟨_, -, _, -, rfl, -⟩ := hc
    exact ⟨_, List.append_assoc ..⟩
  case opassign =>
    obtain ⟨⟨c1, f1, l1, k⟩, h1, _, -, _, -, _, -, _, -, _, -, _, -, rfl, -⟩ := hc
    refine ⟨_, _, _, _, _, h1, ?_⟩
    simp only [List.append_assoc]; exact ⟨_, rfl⟩

/-- Both operands: the code of the left one, then that of the right one. -/
theorem both_code {w : Nat} {T : Tags} {Γ : Cg.Env} {e a b : E} {fs : Int} {l : Nat} {c : List Asm} {fs' : Int} {l' : Nat} (h : both e = some (a, b))
    (hc : codegen_rvalue w T Γ e fs l = .ok (c, fs', l')) : ∃ ca f1 l1 cb f2 l2 rest, codegen_rvalue w T Γ a fs l = .ok (ca, f1, l1) ∧
      codegen_rvalue w T Γ b f1 l1 = .ok (cb, f2, l2) ∧ c = ca ++ cb ++ rest := by
  cases e <;> simp only [both, Option.some.injEq, Prod.mk.injEq, reduceCtorEq] at h <;> obtain ⟨rfl, rfl⟩ := h <;>
    simp only [codegen_rvalue, Res.bind_eq_ok, Res.ok.injEq, Prod.mk.injEq] at hc
  case bin => obtain ⟨⟨c1, f1, l1⟩, h1, ⟨c2, f2, l2⟩, h2, _, -, _, -, _, -, rfl, -⟩ := hc; exact ⟨_, _, _, _, _, _, _, h1, h2, rfl⟩
  case index => obtain ⟨⟨c1, f1, l1⟩, h1, ⟨c2, f2, l2⟩, h2, _, -, _, -, _, -, rfl, -⟩ := hc; exact ⟨_, _, _, _, _, _, _, h1, h2, rfl⟩
  case comma => obtain ⟨⟨c1, f1, l1⟩, h1, ⟨c2, f2, l2⟩, h2, rfl, -⟩ := hc; exact ⟨_, _, _, _, _, _, _, h1, h2, rfl⟩

/-! ### Parts of supported expressions are supported -/

theorem first_sup {Γ : Cg.Env} {κ : Nat → Option VK} {md : Md} {e a : E} (h : firstE e = some a) (hm : mdOk C md) (hs : Sup C Γ κ md e = true) :
    ∃ m, mdOk C m ∧ Sup C Γ κ m a = true := by
  have w0 : mdOk C (.low C.w) := Nat.le_refl _
  have z0 : mdOk C (.low 0) := Nat.zero_le _
  have t0 : mdOk C .test := trivial
  cases e <;> simp only [firstE, Option.some.injEq, reduceCtorEq] at h <;> subst h <;> simp only [Sup, Bool.and_eq_true] at hs
  case deref => exact ⟨_, w0, hs.1⟩
  case arrow => exact ⟨_, w0, hs.1⟩
  case plus => exact ⟨_, hm, hs⟩
  case paren => exact ⟨_, hm, hs⟩
  case comma => exact ⟨_, z0, hs.1⟩
  case index => exact ⟨_, w0, hs.1.1⟩
  case land => exact ⟨_, t0, hs.1⟩
  case cond => exact ⟨_, t0, hs.1⟩
  case neg =>
    split at hs
    · split at hs
      · exact ⟨_, hm, (Bool.and_eq_true _ _ ▸ hs).2⟩
      · exact ⟨_, w0, by simp only [Bool.and_eq_true] at hs; exact hs.2.2⟩
    · cases hs
  case bnot =>
    split at hs
    · split at hs
      · exact ⟨_, hm, (Bool.and_eq_true _ _ ▸ hs).2⟩
      · exact ⟨_, w0, by simp only [Bool.and_eq_true] at hs; exact hs.2.2⟩
    · cases hs
  case lor =>
    split at hs <;> simp only [Bool.and_eq_true] at hs
    · exact ⟨_, t0, hs.1⟩
    · exact ⟨_, t0, hs.1⟩
    · exact ⟨_, w0, hs.1.1.2⟩
  case bin =>
    split at hs
    · simp only [Bool.or_eq_true, Bool.and_eq_true] at hs
      rcases hs with hs | hs
      · split at hs
        · simp only [Bool.and_eq_true] at hs; exact ⟨_, hm, hs.1.2⟩
        · cases hs
      · exact ⟨_, w0, hs.1.1⟩
    · cases hs

theorem firstL_sup {Γ : Cg.Env} {κ : Nat → Option VK} {md : Md} {e a : E} (h : firstL e = some a) (hs : Sup C Γ κ md e = true) : SupL C Γ κ a = true := by
  cases e <;> simp only [firstL, Option.some.injEq, reduceCtorEq] at h <;> subst h <;> simp only [Sup, Bool.and_eq_true] at hs
  case addr => exact hs
  all_goals exact hs.1

theorem both_sup {Γ : Cg.Env} {κ : Nat → Option VK} {md : Md} {e a b : E} (h : both e = some (a, b)) (hm : mdOk C md) (hs : Sup C Γ κ md e = true) :
    ∃ ma mb, mdOk C ma ∧ mdOk C mb ∧ Sup C Γ κ ma a = true ∧ Sup C Γ κ mb b = true := by
  have w0 : mdOk C (.low C.w) := Nat.le_refl _
  have z0 : mdOk C (.low 0) := Nat.zero_le _
  cases e <;> simp only [both, Option.some.injEq, Prod.mk.injEq, reduceCtorEq] at h <;> obtain ⟨rfl, rfl⟩ := h <;> simp only [Sup, Bool.and_eq_true] at hs
  case comma => exact ⟨_, _, z0, hm, hs.1, hs.2⟩
  case index => exact ⟨_, _, w0, w0, hs.1.1, hs.1.2⟩
  case bin =>
    split at hs
    · simp only [Bool.or_eq_true, Bool.and_eq_true] at hs
      rcases hs with hs | hs
      · split at hs
        · simp only [Bool.and_eq_true] at hs
          refine ⟨_, _, hm, ?_, hs.1.2, hs.2⟩
          split
          · exact w0
          · exact hm
        · cases hs
      · exact ⟨_, _, w0, w0, hs.1.1, hs.1.2⟩
    · cases hs

theorem inValue_code {w : Nat} {T : Tags} {Γ : Cg.Env} {e a : E} {fs : Int} {l : Nat} {c : List Asm} {fs' : Int} {l' k : Nat} (h : inValue e = some a)
    (hc : codegen_lvalue w T Γ e fs l = .ok (c, fs', l', k)) : ∃ ca f1 l2, codegen_rvalue w T Γ a fs l = .ok (ca, f1, l2) ∧ ∃ rest, c = ca ++ rest := by
  cases e <;> simp only [inValue, Option.some.injEq, reduceCtorEq] at h <;> subst h <;> simp only [codegen_lvalue, Res.bind_eq_ok] at hc
  case deref =>
    obtain ⟨⟨c1, f1, l1⟩, h1, _, -, _, -, hc⟩ := hc
    split at hc
    · cases hc
    simp only [Res.ok.injEq, Prod.mk.injEq] at hc
    exact ⟨_, _, _, h1, [], by simp [hc.1]⟩
  case arrow =>
    obtain ⟨t, -, hc⟩ := hc
    split at hc
    · simp only [Res.bind_eq_ok] at hc
      obtain ⟨⟨c1, f1, l1⟩, h1, _, -, _, -, _, -, hc⟩ := hc
      split at hc
      · cases hc
      simp only [Res.ok.injEq, Prod.mk.injEq] at hc
      exact ⟨_, _, _, h1, _, hc.1.symm⟩
    · cases hc
  case index =>
    obtain ⟨_, -, ⟨c1, f1, l1⟩, h1, ⟨c2, f2, l2⟩, h2, _, -, _, -, _, -, hc⟩ := hc
    split at hc
    · cases hc
    simp only [Res.ok.injEq, Prod.mk.injEq] at hc
    refine ⟨_, _, _, h1, _, hc.1.symm.trans (List.append_assoc ..)⟩

theorem inObject_code {w : Nat} {T : Tags} {Γ : Cg.Env} {e a : E} {fs : Int} {l : Nat} {c : List Asm} {fs' : Int} {l' k : Nat} (h : inObject e = some a)
    (hc : codegen_lvalue w T Γ e fs l = .ok (c, fs', l', k)) : ∃ ca f1 l2 k2, codegen_lvalue w T Γ a fs l = .ok (ca, f1, l2, k2) ∧ ∃ rest, c = ca ++ rest := by
  cases e <;> simp only [inObject, Option.some.injEq, reduceCtorEq] at h <;> subst h <;> simp only [codegen_lvalue, Res.bind_eq_ok] at hc
  case paren =>
    obtain ⟨⟨c1, f1, l1, k1⟩, h1, hc⟩ := hc
    simp only [Res.ok.injEq, Prod.mk.injEq] at hc
    exact ⟨_, _, _, _, h1, [], by simp [hc.1]⟩
  case dot =>
    obtain ⟨t, -, hc⟩ := hc
    split at hc
    · simp only [Res.bind_eq_ok] at hc
      obtain ⟨⟨c1, f1, l1, k1⟩, h1, _, -, _, -, _, -, hc⟩ := hc
      split at hc
      · cases hc
      simp only [Res.ok.injEq, Prod.mk.injEq] at hc
      exact ⟨_, _, _, _, h1, _, hc.1.symm⟩
    · cases hc

theorem inValue_sup {Γ : Cg.Env} {κ : Nat → Option VK} {e a : E} (h : inValue e = some a) (hs : SupL C Γ κ e = true) : Sup C Γ κ (.low C.w) a = true := by
  cases e <;> simp only [inValue, Option.some.injEq, reduceCtorEq] at h <;> subst h <;> simp only [SupL, Bool.and_eq_true] at hs
  case index => exact hs.1.1
  all_goals exact hs.1

theorem inObject_sup {Γ : Cg.Env} {κ : Nat → Option VK} {e a : E} (h : inObject e = some a) (hs : SupL C Γ κ e = true) : SupL C Γ κ a = true := by
  cases e <;> simp only [inObject, Option.some.injEq, reduceCtorEq] at h <;> subst h <;> simp only [SupL, Bool.and_eq_true] at hs
  case paren => exact hs
  all_goals exact hs.1

end Verif.Reach
