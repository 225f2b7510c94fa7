import Verif.Cg.StmtL
/-! Correctness of the code of statements: definitions, `if`, loops, blocks. -/
namespace Verif.Cg
open Verif Verif.Gen Verif.Gen.Spec Verif.X86 Verif.X86.Spec Spec

/-- In the function whose return address is at `F`: the environments of the compiler (`Γ`), of the description of
the supported programs (`Γs`) and of the semantics (`ρ`) agree. -/
structure FH (C : Ctx) (ρ0 : Spec.Env) (Γ0 : Env) (G : Int) (Γ Γs : Env) (ρ : Spec.Env) (F : Int) : Prop where
  env : EnvRel C Γ ρ F G
  ad : AddrOk C ρ
  kfn : KFn ρ ρ0
  ty : TyEq Γ Γs
  fn : ∀ f l r, resolve Γ f = .ok (.fn l r) → resolve Γ0 f = .ok (.fn l r)
  top : F < (2 ^ (8 * C.w) : Nat)

theorem FH.loops {C : Ctx} {ρ0 : Spec.Env} {Γ0 : Env} {G : Int} {Γ Γs : Env} {ρ : Spec.Env} {F : Int} (h : FH C ρ0 Γ0 G Γ Γs ρ F) (lp : List Loop) :
    FH C ρ0 Γ0 G { Γ with loops := lp } Γs ρ F :=
  ⟨⟨h.env.loc, h.env.glo, h.env.cst, h.env.fn⟩, h.ad, h.kfn, h.ty.loops lp, h.fn, h.top⟩

theorem resolve_cons {Γ : Env} {b : Local} (y : Nat) :
    resolve { Γ with locals := b :: Γ.locals } y = if y = b.name then .ok (.loc b) else resolve Γ y := by
  unfold resolve lookup_fun
  simp only [List.find?_cons]
  by_cases h : y = b.name
  · simp [h]
  · simp [h, fun e => h (Eq.symm e), show ¬ b.name = y from fun e => h e.symm]

theorem FH.setLocal {C : Ctx} {ρ0 : Spec.Env} {Γ0 : Env} {G : Int} {Γ Γs : Env} {ρ : Spec.Env} {F : Int} (h : FH C ρ0 Γ0 G Γ Γs ρ F)
    (x : Nat) (pos : Int) (t : CTy) (a : Int) (ha : a = F - pos * C.w) (h0 : 0 ≤ a) (hp : a ≤ F) :
    FH C ρ0 Γ0 G { Γ with locals := ⟨x, pos, t, false⟩ :: Γ.locals } (Verif.Cg.setLocal Γs x t) (ρ.setVar x t a) F := by
  refine ⟨⟨?_, ?_, ?_, ?_⟩, ?_, h.kfn.setVar x t a, h.ty.setLocal x pos t, ?_, h.top⟩
  · intro y b hb
    rw [resolve_cons] at hb
    split at hb
    · rename_i e; cases hb; simp at e; subst e
      simp [Spec.Env.setVar, ha]
    · rename_i e
      have := h.env.loc y b hb
      simpa [Spec.Env.setVar, show y ≠ x from e] using this
  · intro y o u hb
    rw [resolve_cons] at hb
    split at hb
    · cases hb
    · rename_i e
      have := h.env.glo y o u hb
      simpa [Spec.Env.setVar, show y ≠ x from e] using this
  · intro y v hb
    rw [resolve_cons] at hb
    split at hb
    · cases hb
    · rename_i e
      have := h.env.cst y v hb
      simpa [Spec.Env.setVar, show y ≠ x from e] using this
  · intro y l r hb
    rw [resolve_cons] at hb
    split at hb
    · cases hb
    · rename_i e
      have := h.env.fn y l r hb
      simpa [Spec.Env.setVar, show y ≠ x from e] using this
  · intro y u hy
    simp only [Spec.Env.setVar] at hy ⊢
    split at hy
    · rename_i e; rw [if_pos e]; have := h.top; omega
    · rename_i e; rw [if_neg e]; exact h.ad y u hy
  · intro f l r hb
    rw [resolve_cons] at hb
    split at hb
    · cases hb
    · exact h.fn f l r hb

/-- What holds at the end of a statement, for each way it can end: `a` is the state before, `lps` are the enclosing loops. -/
def Fin (C : Ctx) (base : Mach) (P : List Asm) (G F : Int) (rett : CTy) (lps : List Loop) (a : Nat × MS) (pcN : Nat) (spN : Int) (M' : Mem)
    (s' : MS) : Out → Prop
  | .norm => Go C.w base P a (pcN, s') ∧ Rel C G spN M' s'
  | .brk => ∃ lp, lps.head? = some lp ∧ Rel C G (F - lp.fs * C.w) M' s' ∧ ∀ i, P[i]? = some (.lbl lp.brk) → Go C.w base P a (i, s')
  | .cont => ∃ lp lc, lps.find? (·.cont.isSome) = some lp ∧ lp.cont = some lc ∧ Rel C G (F - lp.fs * C.w) M' s' ∧
      ∀ i, P[i]? = some (.lbl lc) → Go C.w base P a (i, s')
  | .ret v => Rel C G F M' s' ∧ (rett ≠ .void → s'.reg 0 = sgn C.w v) ∧ ∃ i, P[i]? = some .ret ∧ Go C.w base P a (i, s')

def Done (C : Ctx) (base : Mach) (P : List Asm) (G F : Int) (rett : CTy) (lps : List Loop) (a : Nat × MS) (pcN : Nat) (spN : Int)
    (sp : Int) (M M' : Mem) (o : Out) : Prop :=
  ∃ s', Outside C M sp a.2 s' ∧ Fin C base P G F rett lps a pcN spN M' s' o

section
variable {C : Ctx} {base : Mach} {P : List Asm} {cs : Nat → Option Fun} {ρ0 : Spec.Env} {Γ0 : Env} {G : Int}
variable {F : Int} {rett : CTy} {lps : List Loop}

theorem Fin.pre {a a0 : Nat × MS} {pcN : Nat} {spN : Int} {M' : Mem} {s' : MS} {o : Out} (hs : Go C.w base P a0 a)
    (h : Fin C base P G F rett lps a pcN spN M' s' o) : Fin C base P G F rett lps a0 pcN spN M' s' o := by
  cases o with
  | norm => exact ⟨hs.trans h.1, h.2⟩
  | brk => obtain ⟨lp, h1, h2, h3⟩ := h; exact ⟨lp, h1, h2, fun i hi => hs.trans (h3 i hi)⟩
  | cont => obtain ⟨lp, lc, h1, h2, h3, h4⟩ := h; exact ⟨lp, lc, h1, h2, h3, fun i hi => hs.trans (h4 i hi)⟩
  | ret v => obtain ⟨h1, h2, i, h3, h4⟩ := h; exact ⟨h1, h2, i, h3, hs.trans h4⟩

/-- Steps before. -/
theorem Done.pre {a a0 : Nat × MS} {pcN : Nat} {spN sp : Int} {M0 M M' : Mem} {o : Out} (hs : Go C.w base P a0 a)
    (ho : Outside C M0 sp a0.2 a.2) (hd : SameDom M0 M) (h : Done C base P G F rett lps a pcN spN sp M M' o) :
    Done C base P G F rett lps a0 pcN spN sp M0 M' o := by
  obtain ⟨s', h1, h2⟩ := h
  exact ⟨s', ho.trans hd h1 (Int.le_refl _) (Int.le_refl _), h2.pre hs⟩

/-- Steps after normal termination. -/
theorem Done.post {a : Nat × MS} {pcN pcN' : Nat} {spN spN' sp : Int} {M M' : Mem} {o : Out} (hd : SameDom M M')
    (h : Done C base P G F rett lps a pcN spN sp M M' o)
    (hs : ∀ s, Rel C G spN M' s → ∃ s', Go C.w base P (pcN, s) (pcN', s') ∧ Rel C G spN' M' s' ∧ Outside C M' sp s s') :
    Done C base P G F rett lps a pcN' spN' sp M M' o := by
  obtain ⟨s1, h1, h2⟩ := h
  cases o with
  | norm =>
    obtain ⟨s2, h3, h4, h5⟩ := hs s1 h2.2
    exact ⟨s2, h1.trans hd h5 (Int.le_refl _) (Int.le_refl _), h2.1.trans h3, h4⟩
  | brk => exact ⟨s1, h1, h2⟩
  | cont => exact ⟨s1, h1, h2⟩
  | ret v => exact ⟨s1, h1, h2⟩

/-- Leaving early: the end does not matter. -/
theorem Done.out {a : Nat × MS} {pcN pcN' : Nat} {spN spN' sp : Int} {M M' : Mem} {o : Out} (ho : o ≠ .norm)
    (h : Done C base P G F rett lps a pcN spN sp M M' o) : Done C base P G F rett lps a pcN' spN' sp M M' o := by
  obtain ⟨s1, h1, h2⟩ := h
  cases o with
  | norm => exact absurd rfl ho
  | brk => exact ⟨s1, h1, h2⟩
  | cont => exact ⟨s1, h1, h2⟩
  | ret v => exact ⟨s1, h1, h2⟩

/-- The facts that hold for the whole program. -/
structure Glob (C : Ctx) (base : Mach) (P : List Asm) (cs : Nat → Option Fun) (ρ0 : Spec.Env) : Prop where
  hw : C.w = 4 ∨ C.w = 8
  ft : FnTy C cs ρ0
  str : StrAt C base.base P

theorem FH.hyp {n : Nat} {Γ Γs : Env} {ρ : Spec.Env} (g : Glob C base P cs ρ0) (h : FH C ρ0 Γ0 G Γ Γs ρ F)
    (hc : CallOk C base P Γ0 G (call C cs ρ0 n)) : Hyp C base P Γ ρ F G (call C cs ρ0 n) :=
  ⟨g.hw, h.env, ((exec_dom g.hw g.ft n).2.2).of h.kfn, h.ad,
    fun f vs sp M v M' lbl r k s hf => hc f vs sp M v M' lbl r k s (h.fn f lbl r hf), g.str⟩

/-- A condition and the jump after it. -/
theorem cond_steps {n : Nat} {Γ Γs : Env} {ρ : Spec.Env} (g : Glob C base P cs ρ0) (h : FH C ρ0 Γ0 G Γ Γs ρ F)
    (hc : CallOk C base P Γ0 G (call C cs ρ0 n)) {e : E} {fs : Int} {l : Nat} {c : List Asm} {fs' : Int} {l' : Nat} {sp : Int} {M M' : Mem} {v : Int}
    {pc : Nat} {s : MS} {cc t : Nat}
    (hg : codegen_rvalue C.w C.T Γ e fs l = .ok (c, fs', l')) (hs : Sup C Γs ρ.kind .test e = true)
    (he : evalE C (call C cs ρ0 n) ρ e sp M = some (v, M')) (hsp : sp = F - fs * C.w)
    (hat : At P pc (c ++ I [.pop_reg 0, .xor_reg_reg 1 1] ++ jump_cond_reg_reg cc t 0 1)) (hcc : cc = 4 ∨ cc = 5)
    (hR : Rel C G sp M s) (hM : MemOk C sp M) :
    ∃ s', Rel C G sp M' s' ∧ Outside C M sp s s' ∧ SameDom M M' ∧ MemOk C sp M' ∧
      ((cc = 4 ↔ v = 0) → ∀ i, P[i]? = some (.lbl t) → Go C.w base P (pc, s) (i, s')) ∧
      (¬ (cc = 4 ↔ v = 0) → Go C.w base P (pc, s) (pc + c.length + 4, s')) := by
  obtain ⟨s1, z, st, o, tz⟩ := (rv_all (h.hyp g hc) e).1 .test fs l c fs' l' sp M v M' pc s hg
    (by rw [(Sup_eq h.ty ρ.kind e).1]; exact hs) trivial he hsp hat.left.left hR hM
  have hat2 : At P (pc + c.length) (I [.pop_reg 0, .xor_reg_reg 1 1] ++ jump_cond_reg_reg cc t 0 1) := by
    rw [List.append_assoc] at hat; exact hat.right
  obtain ⟨s2, r2, o2, j1, j2⟩ := test_steps (base := base) o hat2 hcc
  have tz' : z = 0 ↔ v = 0 := tz
  rw [tz'] at j1 j2
  exact ⟨s2, r2, o2, o.dom, hM.same o.dom, fun h i hi => st.trans (j1 h i hi), fun h => st.trans (j2 h)⟩

/-- An expression whose value is popped. -/
theorem expr_steps {n : Nat} {Γ Γs : Env} {ρ : Spec.Env} (g : Glob C base P cs ρ0) (h : FH C ρ0 Γ0 G Γ Γs ρ F)
    (hc : CallOk C base P Γ0 G (call C cs ρ0 n)) {e : E} {md : Md} {fs : Int} {l : Nat} {c : List Asm} {fs' : Int} {l' : Nat} {sp : Int} {M M' : Mem} {v : Int}
    {pc : Nat} {s : MS} (hmd : mdOk C md)
    (hg : codegen_rvalue C.w C.T Γ e fs l = .ok (c, fs', l')) (hs : Sup C Γs ρ.kind md e = true)
    (he : evalE C (call C cs ρ0 n) ρ e sp M = some (v, M')) (hsp : sp = F - fs * C.w)
    (hat : At P pc (c ++ I [.pop_reg 0])) (hR : Rel C G sp M s) (hM : MemOk C sp M) :
    ∃ s', Rel C G sp M' s' ∧ Outside C M sp s s' ∧ SameDom M M' ∧ MemOk C sp M' ∧ topOk md (s'.reg 0) v ∧ sgn C.w (s'.reg 0) = s'.reg 0 ∧
      Go C.w base P (pc, s) (pc + (c ++ I [.pop_reg 0]).length, s') := by
  obtain ⟨s1, z, st, o, tz⟩ := (rv_all (h.hyp g hc) e).1 md fs l c fs' l' sp M v M' pc s hg
    (by rw [(Sup_eq h.ty ρ.kind e).1]; exact hs) hmd he hsp hat.left hR hM
  obtain ⟨s2, p1, p2, p3, p4⟩ := sl_pop o.rel sp (r := 0) (by decide) (by decide)
  have p1r := p1.rel
  rw [show sp - (C.w : Int) + C.w = sp by omega] at p1 p1r
  have hz : s2.reg 0 = z := by rw [p2, o.top]
  refine ⟨s2, p1r, o.out.trans o.dom p1.scr.out (Int.le_refl _) (Int.le_refl _), o.dom, hM.same o.dom, by rw [hz]; exact tz, by rw [hz]; exact o.sgn, ?_⟩
  have := go_run (base := base) (w := C.w) hat.right p1.run
  simp only [List.length_append, I_length, ← Nat.add_assoc] at this ⊢
  exact st.trans this

/-- `grow_stack`. -/
theorem grow_steps {sp : Int} {M : Mem} {s : MS} {pc : Nat} {k : Int} (hat : At P pc (grow_stack C.w k)) (hR : Rel C G sp M s) :
    ∃ s', Go C.w base P (pc, s) (pc + 1, s') ∧ Rel C G (sp - k * C.w) M s' ∧ s'.mem = s.mem ∧ s'.reg 0 = s.reg 0 := by
  have b1 := sl_grow hR sp (-k * C.w)
  have b1r := b1.rel
  rw [show sp + -k * C.w = sp - k * C.w by rw [Int.neg_mul]; omega] at b1r
  exact ⟨_, go_run (base := base) (w := C.w) (es := [.add_reg_imm 4 (-k * C.w)]) hat b1.run, b1r, rfl, by simp [setReg]⟩

variable (C base P cs ρ0 Γ0 G)

/-- The code of a statement is correct, for executions of depth `n`. -/
def SVs (n : Nat) (s : St) : Prop :=
  ∀ lab Γ Γs ρ F fs l sw c fs' l' sw' sp M o M' pc ms,
    codegen_statement C.w C.T Γ s fs l sw = .ok (c, fs', l', sw') → SupS C ρ.rett s lab Γs ρ.kind = true →
    FH C ρ0 Γ0 G Γ Γs ρ F → exec C cs ρ0 n ρ s sp M = some (o, M') → sp = F - fs * C.w → 0 ≤ fs → At P pc c →
    Rel C G sp M ms → MemOk C sp M →
    Done C base P G F ρ.rett Γ.loops (pc, ms) (pc + c.length) sp sp M M' o
def SV (n : Nat) : Prop := ∀ s, SVs C base P cs ρ0 Γ0 G n s

/-- The same for a list of statements. -/
def IVs (n : Nat) (s : St) : Prop :=
  ∀ lab Γ Γs ρ F fs l sw c fs' l' sw' sp M o M' pc ms,
    codegen_items C.w C.T Γ s fs l sw = .ok (c, fs', l', sw') → SupS C ρ.rett s lab Γs ρ.kind = true →
    FH C ρ0 Γ0 G Γ Γs ρ F → execItems C cs ρ0 n ρ s sp M = some (o, M') → sp = F - fs * C.w → 0 ≤ fs → At P pc c →
    Rel C G sp M ms → MemOk C sp M →
    Done C base P G F ρ.rett Γ.loops (pc, ms) (pc + c.length) (F - fs' * C.w) sp M M' o
def IV (n : Nat) : Prop := ∀ s, IVs C base P cs ρ0 Γ0 G n s

variable {C base P cs ρ0 Γ0 G}

theorem sv_if {n : Nat} (g : Glob C base P cs ρ0) (hc : CallOk C base P Γ0 G (call C cs ρ0 n)) (ih : SV C base P cs ρ0 Γ0 G n)
    (e : E) (a b : St) : SVs C base P cs ρ0 Γ0 G (n + 1) (.ifte e a b) := by
  intro lab Γ Γs ρ F fs l sw c fs' l' sw' sp M o M' pc ms hg hs h hx hsp h0 hat hR hM
  simp only [codegen_statement, Res.bind_eq_ok, Res.ok.injEq, Prod.mk.injEq] at hg
  obtain ⟨⟨ce, f1, l1⟩, h1, ⟨ca, f2, l2, s2⟩, h2, ⟨cb, f3, l3, s3⟩, h3, rfl, rfl, -⟩ := hg
  simp only [exec, Option.bind_eq_some_iff] at hx
  obtain ⟨⟨v, M1⟩, he, hx⟩ := hx
  simp only [SupS, Bool.and_eq_true] at hs
  obtain ⟨⟨hs1, hs2⟩, hs3⟩ := hs
  have e1 := (fs_all g.hw C.T Γ e).1 _ _ _ _ _ h1
  simp only at h2 h3 hx
  have e2 := (fs_stmt g.hw C.T a).1 _ _ _ _ _ _ _ _ h2
  obtain ⟨ms1, r1, o1, d1, m1, j1, j2⟩ := cond_steps g h hc h1 hs1 he hsp hat.left.left.left.left (.inl rfl) hR hM
  have i1 := hat.left.left.right.tail.head
  have i2 := hat.right.head
  split at hx
  · rename_i hv
    have st := j2 (by simp [hv])
    have := ih a none Γ Γs ρ F _ _ _ _ _ _ _ sp M1 o M' _ ms1 h2 hs2 h hx (by rw [e1, hsp]; congr 2; omega) (by omega) hat.left.left.left.right r1 m1
    refine Done.pre ?_ o1 d1 (Done.post ((exec_dom g.hw g.ft n).1 _ _ _ _ _ _ h.kfn hx m1) this ?_)
    · rw [show pc + (ce ++ I [.pop_reg 0, .xor_reg_reg 1 1] ++ jump_cond_reg_reg 0x4 l 0 1).length = pc + ce.length + 4 by simp [I, jump_cond_reg_reg]; omega]
      exact st
    · intro s hs
      refine ⟨s, ?_, hs, Outside.refl _ _ _ _⟩
      have j := Go.head (Step.jmp (w := C.w) (base := base.base) (s := s) hat.left.left.right.head i2) (.one (.lbl i2))
      simp only [List.length_append, List.length_cons, List.length_nil, ← Nat.add_assoc, Nat.zero_add] at j ⊢
      exact j
  · rename_i hv
    have st := (j1 (by simpa using hv) _ i1).trans (.one (.lbl i1))
    have := ih b none Γ Γs ρ F _ _ _ _ _ _ _ sp M1 o M' _ ms1 h3 hs3 h hx (by rw [e2, e1, hsp]; congr 2; omega) (by omega) hat.left.right r1 m1
    refine Done.pre ?_ o1 d1 (Done.post ((exec_dom g.hw g.ft n).1 _ _ _ _ _ _ h.kfn hx m1) this ?_)
    · simp only [List.length_append, List.length_cons, List.length_nil, ← Nat.add_assoc, Nat.zero_add] at st ⊢
      exact st
    · intro s hs
      refine ⟨s, ?_, hs, Outside.refl _ _ _ _⟩
      have j := Go.one (Step.lbl (w := C.w) (base := base.base) (s := s) i2)
      simp only [List.length_append, List.length_cons, List.length_nil, ← Nat.add_assoc, Nat.zero_add] at j ⊢
      exact j

end
end Verif.Cg
