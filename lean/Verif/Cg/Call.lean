import Verif.Cg.Stmt7
/-! Correctness of the code of calls. -/
namespace Verif.Cg
open Verif Verif.Gen Verif.Gen.Spec Verif.X86 Verif.X86.Spec Spec

/-- Storing what is already there. -/
theorem storeN_self {w : Nat} {m : Int → Nat} : ∀ {k : Nat} {M M' : Mem} {a v : Int},
    (∀ x b, M x = some (some b) → m x % 256 = b) → storeN M a v k = some M' → 0 ≤ a → a + k ≤ (2 ^ (8 * w) : Nat) →
    (rd w m a k : Int) = v % (2 ^ (8 * k) : Nat) → ∀ x b, M' x = some (some b) → m x % 256 = b := by
  intro k
  induction k with
  | zero => intro M M' a v ha h h0 h1 hr; simp [storeN] at h; subst h; exact ha
  | succ k ih =>
    intro M M' a v ha h h0 h1 hr
    simp only [storeN] at h
    split at h
    · rw [rd, uns_of_lt h0 (by omega)] at hr
      have e : ((2 ^ (8 * (k + 1)) : Nat) : Int) = 256 * ((2 ^ (8 * k) : Nat) : Int) := by
        rw [show 8 * (k + 1) = 8 + 8 * k by omega, Nat.pow_add, Int.natCast_mul]; rfl
      rw [e] at hr
      have d1 := emod_div256 v ((2 ^ (8 * k) : Nat) : Int)
      have d2 : v % (256 * ((2 ^ (8 * k) : Nat) : Int)) % 256 = v % 256 := Int.emod_emod_of_dvd _ (Int.dvd_mul_right 256 _)
      have p := ptwo_pos (8 * k)
      rw [← hr] at d1 d2
      refine ih ?_ h (by omega) (by omega) (by omega)
      intro x b hx
      by_cases hxa : x = a
      · simp only [hxa, if_true, Option.some.injEq] at hx
        subst hxa
        omega
      · simp only [hxa, if_false] at hx
        exact ha x b hx
    · cases h

/-- The arguments on the stack hold the values of the parameters. -/
theorem bind_agree {C : Ctx} (hw : C.w = 4 ∨ C.w = 8) {m : Int → Nat} : ∀ {ps : List (Nat × CTy)} {vs : List Int} {a : Int} {ρ ρ' : Spec.Env} {M M' : Mem},
    bindParams C ps vs a ρ M = some (ρ', M') → (∀ x b, M x = some (some b) → m x % 256 = b) →
    (∀ i (h : i < vs.length), word C.w m (a + i * C.w) = sgn C.w vs[i]) → 0 ≤ a → a + vs.length * C.w ≤ (2 ^ (8 * C.w) : Nat) →
    ∀ x b, M' x = some (some b) → m x % 256 = b := by
  intro ps
  induction ps with
  | nil =>
    intro vs a ρ ρ' M M' h ha
    cases vs with
    | nil => simp only [bindParams, Option.some.injEq, Prod.mk.injEq] at h; obtain ⟨rfl, rfl⟩ := h; intros; exact ha _ _ (by assumption)
    | cons v vs => cases h
  | cons p ps ih =>
    intro vs a ρ ρ' M M' h ha hv h0 h1
    obtain ⟨x, t⟩ := p
    cases vs with
    | nil => cases h
    | cons v vs =>
      simp only [bindParams, Option.ite_none_right_eq_some, Option.bind_eq_some_iff] at h
      obtain ⟨hs, M1, hst, h⟩ := h
      have hsz := (sizeof_le hw C.T hs).2
      simp only [List.length_cons, Int.natCast_add, Int.natCast_one, Int.add_mul] at h1
      have hn : (0 : Int) ≤ vs.length * C.w := Int.mul_nonneg (by omega) (by omega)
      have hv0 := hv 0 (by simp)
      simp only [List.getElem_cons_zero, Int.natCast_zero, Int.zero_mul, Int.add_zero] at hv0
      refine ih h ?_ ?_ (by omega) (by omega)
      · refine storeN_self (w := C.w) ?_ hst h0 (by omega) ?_
        · intro x b hx
          unfold alloc at hx
          dsimp only at hx
          split at hx
          · cases hx
          · exact ha x b hx
        · have := word_low hv0 hsz
          rw [this]
          exact bmod_emod_dvd (ptwo_dvd (by omega)) v
      · intro i hi
        have := hv (i + 1) (by simp; omega)
        simp only [List.getElem_cons_succ] at this
        rw [← this]
        congr 1
        push_cast
        rw [Int.add_mul]; omega

theorem bind_io {C : Ctx} : ∀ {ps : List (Nat × CTy)} {vs : List Int} {a : Int} {ρ ρ' : Spec.Env} {M M' : Mem},
    bindParams C ps vs a ρ M = some (ρ', M') → M'.io = M.io := by
  intro ps
  induction ps with
  | nil =>
    intro vs a ρ ρ' M M' h
    cases vs with
    | nil => simp only [bindParams, Option.some.injEq, Prod.mk.injEq] at h; rw [h.2]
    | cons v vs => cases h
  | cons p ps ih =>
    intro vs a ρ ρ' M M' h
    obtain ⟨x, t⟩ := p
    cases vs with
    | nil => cases h
    | cons v vs =>
      simp only [bindParams, Option.ite_none_right_eq_some, Option.bind_eq_some_iff] at h
      obtain ⟨_, M1, hst, h⟩ := h
      rw [ih h, storeN_io hst]; rfl

section
variable {C : Ctx} {base : Mach} {P : List Asm} {cs : Nat → Option Fun} {ρ0 : Spec.Env} {Γ0 : Env} {G : Int}

/-- A parameter comes into scope. -/
theorem FH.setParam {Γ Γs : Env} {ρ : Spec.Env} {F : Int} (h : FH C ρ0 Γ0 G Γ Γs ρ F)
    (x : Nat) (pos : Int) (t : CTy) (a : Int) (ha : a = F - pos * C.w) (h0 : 0 ≤ a) (hp : a < (2 ^ (8 * C.w) : Nat)) (hna : ∀ n u, t ≠ .arr n u) :
    FH C ρ0 Γ0 G { Γ with locals := ⟨x, pos, t, true⟩ :: Γ.locals } { Γs with locals := ⟨x, 0, t, true⟩ :: Γs.locals } (ρ.setVar x t a) F := by
  refine ⟨⟨?_, ?_, ?_, ?_⟩, ?_, h.kfn.setVar x t a, ⟨?_, h.ty.glo, h.ty.fn, h.ty.enum⟩, ?_, h.top⟩
  · intro y b hb
    rw [resolve_cons] at hb
    split at hb
    · rename_i e; cases hb; simp at e; subst e
      simp [Spec.Env.setVar, ha]; exact hna
    · rename_i e
      have := h.env.loc y b hb
      simpa [Spec.Env.setVar, show y ≠ x from e] using this
  · intro y o u hb
    rw [resolve_cons] at hb
    split at hb
    · cases hb
    · rename_i e
      have := h.env.glo y o u hb
      simpa [Spec.Env.setVar, show y ≠ x from e] using this
  · intro y v hb
    rw [resolve_cons] at hb
    split at hb
    · cases hb
    · rename_i e
      have := h.env.cst y v hb
      simpa [Spec.Env.setVar, show y ≠ x from e] using this
  · intro y l r hb
    rw [resolve_cons] at hb
    split at hb
    · cases hb
    · rename_i e
      have := h.env.fn y l r hb
      simpa [Spec.Env.setVar, show y ≠ x from e] using this
  · intro y u hy
    simp only [Spec.Env.setVar] at hy ⊢
    split at hy
    · rename_i e; rw [if_pos e]; omega
    · rename_i e; rw [if_neg e]; exact h.ad y u hy
  · simp only [List.map_cons, h.ty.loc, strip]
  · intro f l r hb
    rw [resolve_cons] at hb
    split at hb
    · cases hb
    · exact h.fn f l r hb

theorem decay_not_arr (t : CTy) (n : Nat) (u : CTy) (hs : scalar C.w (decay t) = true) : decay t ≠ .arr n u := by
  intro e; rw [e] at hs; simp [scalar, isInt, isPtr] at hs

theorem add_params_cons (w : Nat) (T : Tags) (x : Nat) (t : CTy) (ps : List (Nat × CTy)) (fs : Int) (ls : List Local) :
    add_params w T ((x, t) :: ps) fs ls = if (ls.find? (·.name = x)).isSome then .fatal else (type_width w T (decay t) false).bind fun k =>
      add_params w T ps (fs - (((k + w - 1) / w * w) / w : Nat)) (⟨x, fs, decay t, true⟩ :: ls) := by
  cases t <;> rfl

/-- The parameters come into scope. -/
theorem FH.params (hw : C.w = 4 ∨ C.w = 8) {F : Int} : ∀ {ps : List (Nat × CTy)} {vs : List Int} {a : Int} {ρ ρ' : Spec.Env} {M M' : Mem} {fs : Int} {ls ls' : List Local} {Γs : Env},
    FH C ρ0 Γ0 G { Γ0 with locals := ls, loops := [] } Γs ρ F → bindParams C ps vs a ρ M = some (ρ', M') →
    add_params C.w C.T ps fs ls = .ok ls' → a = F - fs * C.w → 0 ≤ a → a + ps.length * C.w ≤ (2 ^ (8 * C.w) : Nat) →
    FH C ρ0 Γ0 G { Γ0 with locals := ls', loops := [] } (paramEnv Γs ps) ρ' F ∧ ρ'.kind = paramKind ρ.kind ps := by
  intro ps
  induction ps with
  | nil =>
    intro vs a ρ ρ' M M' fs ls ls' Γs h hb hp ha h0 h1
    cases vs with
    | nil =>
      simp only [bindParams, Option.some.injEq, Prod.mk.injEq] at hb
      obtain ⟨rfl, rfl⟩ := hb
      simp only [add_params, Res.ok.injEq] at hp
      subst hp
      exact ⟨h, rfl⟩
    | cons v vs => cases hb
  | cons p ps ih =>
    intro vs a ρ ρ' M M' fs ls ls' Γs h hb hp ha h0 h1
    obtain ⟨x, t⟩ := p
    cases vs with
    | nil => cases hb
    | cons v vs =>
      simp only [bindParams, Option.ite_none_right_eq_some, Option.bind_eq_some_iff] at hb
      obtain ⟨hs, M1, hst, hb⟩ := hb
      have hsz := sizeof_le hw C.T hs
      simp only [List.length_cons, Int.natCast_add, Int.natCast_one, Int.add_mul] at h1
      have hn : (0 : Int) ≤ ps.length * C.w := Int.mul_nonneg (by omega) (by omega)
      rw [add_params_cons] at hp
      split at hp
      · cases hp
      rw [type_width_scalar C.T hs, Res.bind_ok] at hp
      have e1 : ((sizeof C.w C.T (decay t) + C.w - 1) / C.w * C.w) / C.w = 1 := by
        rcases hw with e | e <;> rw [e] at hsz ⊢ <;> omega
      rw [e1] at hp
      have := ih (h.setParam x fs (decay t) a ha h0 (by omega) (fun n u => decay_not_arr t n u hs)) hb hp
        (by rw [Int.sub_mul]; push_cast; omega) (by omega) (by omega)
      exact ⟨this.1, this.2⟩

/-- What the correctness of calls needs to know about the program: where the code of the functions is. -/
structure Prog (C : Ctx) (base : Mach) (P : List Asm) (cs : Nat → Option Fun) (ρ0 : Spec.Env) (Γ0 : Env) (G : Int) : Prop extends Glob C base P cs ρ0 where
  loc : Γ0.locals = []
  env : EnvRel C Γ0 ρ0 0 G
  ad : AddrOk C ρ0
  code : ∀ f fd lbl r, resolve Γ0 f = .ok (.fn lbl r) → cs f = some fd → lookup_fun Γ0 fd.name = some (lbl, r) ∧ fd.ret = r ∧
    SupF C Γ0 ρ0.kind fd = true ∧ ∃ l c l' i, codegen_glo_fun_decl C.w C.T Γ0 fd l = .ok (c, l') ∧ At P i c

/-- The state after the instruction `call`. -/
theorem push_val {G sp top : Int} {M : Mem} {s : MS} (hw : C.w = 4 ∨ C.w = 8) (h : Rel C G sp M s)
    (hM : MemOk C top M) (hle : sp ≤ top) (hroom : C.lim + C.w ≤ sp) (z : Int) (hz : sgn C.w z = z) :
    Rel C G (sp - C.w) M { setReg s 4 (sgn C.w (s.reg 4 - C.w)) with mem := wr C.w s.mem (sgn C.w (s.reg 4 - C.w)) z C.w } ∧
      word C.w (wr C.w s.mem (sgn C.w (s.reg 4 - C.w)) z C.w) (sp - C.w) = z ∧
      (∀ x, ¬ (sp - C.w ≤ x ∧ x < sp) → wr C.w s.mem (sgn C.w (s.reg 4 - C.w)) z C.w x = s.mem x) := by
  have h0 := hM.lim
  have ht := hM.top
  have e4 : sgn C.w (s.reg 4 - C.w) = sgn C.w (sp - C.w) := by rw [h.sp, sgn_sub_l]
  have em : ∀ x, ¬ (sp - C.w ≤ x ∧ x < sp) → wr C.w s.mem (sgn C.w (s.reg 4 - C.w)) z C.w x = s.mem x := by
    intro x hx
    apply wr_out
    rw [e4, inR_addr (uns_sgn C.w (sp - C.w)), inR_iff (by omega) (by omega)]
    omega
  refine ⟨?_, ?_, em⟩
  · refine h.scr (top := sp) (hM.mono hle) (fun x hx => em x (by omega)) (wf_setReg h.wf 4 (sgn_sgn _ _)) ?_ ?_ rfl
    · simp [setReg, e4]
    · simp [setReg]
  · rw [e4, ← word_sgn, word, rd_wr_word hw, hz]

/-- The calls of library functions are right: from a call with the arguments on the stack, what happens outside the program leads to
the item after the call, with the result and the memory that C prescribes. -/
def LibOk (C : Ctx) (base : Mach) (P : List Asm) (cs : Nat → Option Fun) (Γ0 : Env) (G : Int) : Prop :=
  ∀ f vs sp M v M' lbl r k s, cs f = none → resolve Γ0 f = .ok (.fn lbl r) → P[k]? = some (.call lbl) →
    C.lib f vs M = some (v, M') → Room C sp → sp + 3 * C.w ≤ (2 ^ (8 * C.w) : Nat) → Rel C G sp M s → MemOk C (sp + vs.length * C.w) M →
    (∀ i (h : i < vs.length), word C.w s.mem (sp + i * C.w) = sgn C.w vs[i]) →
    ∃ s', base.ext (k, s) (k + 1, s') ∧ Rel C G sp M' s' ∧ Outside C M (sp + vs.length * C.w) s s' ∧
      (r ≠ .void → s'.reg 0 = sgn C.w v)

theorem call_ok {n : Nat} (p : Prog C base P cs ρ0 Γ0 G) (hlib : LibOk C base P cs Γ0 G) (ihi : IV C base P cs ρ0 Γ0 G n) : CallOk C base P Γ0 G (call C cs ρ0 (n + 1)) := by
  intro f vs sp M v M' lbl r k s hf hk h hR hM hv
  simp only [call] at h
  split at h
  · rename_i hcs
    simp only [Option.ite_none_right_eq_some] at h
    obtain ⟨s', h1, h2⟩ := hlib f vs sp M v M' lbl r k s hcs hf hk h.2 h.1.1 h.1.2 hR hM hv
    exact ⟨s', .ext h1 .refl, h2⟩
  rename_i fd hcs
  simp only [Option.bind_eq_some_iff, Option.ite_none_right_eq_some] at h
  obtain ⟨hl, ⟨ρ, M1⟩, hb, ⟨o, M2⟩, hx, h⟩ := h
  obtain ⟨hlk, hret, hsup, l, c, l', i, hg, hat⟩ := p.code f fd lbl r hf hcs
  obtain ⟨b1, b2, b3, b4⟩ := bind_dom p.hw hb (ρ0 := ρ0) (fun f r h => h)
  have hn : (0 : Int) ≤ fd.params.length * C.w := Int.mul_nonneg (by omega) (by omega)
  have hag := bind_agree p.hw hb (m := s.mem) hR.agree hv (by have := hM.lim; omega) hM.top
  rw [b3] at hM ⊢
  have h0 := hM.lim
  have ht := hM.top
  have hw0 : 0 < C.w := by rcases p.hw with e | e <;> omega
  have hM1 : MemOk C (sp - C.w) M1 := by
    refine ⟨h0, by omega, fun a ha => ?_⟩
    by_cases hin : sp ≤ a ∧ a < sp + fd.params.length * C.w
    · omega
    · rw [b4 a hin] at ha
      have := hM.dom a ha
      omega
  have hno : ∀ x, C.lim ≤ x → x < sp → M1 x = none := by
    intro x h1 h2
    rw [b4 x (by omega)]
    cases em : M x with
    | none => rfl
    | some b => have := (hM.dom x (by rw [em]; simp)).2.2; omega
  -- the code
  unfold codegen_glo_fun_decl at hg
  split at hg
  · cases hg
  rw [hlk] at hg
  simp only [codegen_statement, Res.bind_eq_ok, Res.ok.injEq, Prod.mk.injEq] at hg
  obtain ⟨ls, hls, ⟨cb, f1, l1, s1⟩, ⟨⟨ci, f2, l2, s2⟩, hci, rfl, rfl, rfl, rfl⟩, rfl, rfl⟩ := hg
  have hil := hat.left.left.left.head
  -- the call
  have st0 := Go.one (Step.call (w := C.w) (base := base.base) (s := s) hk hil)
  obtain ⟨q1, q2, q3⟩ := push_val p.hw hR hM (by omega) hl (sgn C.w (adr C.w base.base P (k + 1))) (sgn_sgn _ _)
  generalize hs0 : ({ setReg s 4 (sgn C.w (s.reg 4 - C.w)) with
        mem := wr C.w s.mem (sgn C.w (s.reg 4 - C.w)) (sgn C.w (adr C.w base.base P (k + 1))) C.w } : MS) = s0 at st0 q1
  have hm0 : wr C.w s.mem (sgn C.w (s.reg 4 - C.w)) (sgn C.w (adr C.w base.base P (k + 1))) C.w = s0.mem := by rw [← hs0]
  rw [hm0] at q2 q3
  have r1 : Rel C G (sp - C.w) M1 s0 := by
    refine ⟨q1.wf, q1.sp, q1.glo, fun x b hx => ?_, q1.io.trans (bind_io hb).symm⟩
    by_cases hin : sp - C.w ≤ x ∧ x < sp
    · rw [hno x (by omega) hin.2] at hx; cases hx
    · rw [q3 x hin]; exact hag x b hx
  -- the environment
  have hF : FH C ρ0 Γ0 G { Γ0 with locals := [], loops := [] } { Γ0 with locals := [], loops := [] } { ρ0 with rett := fd.ret } (sp - C.w) := by
    have hr : ∀ x, resolve { Γ0 with locals := [], loops := [] } x = resolve Γ0 x := by
      intro x; unfold resolve lookup_fun; rw [p.loc]
    refine ⟨⟨?_, ?_, ?_, ?_⟩, p.ad, fun f r h => h, ⟨rfl, rfl, rfl, rfl⟩, fun f l r h => by rwa [hr] at h, by omega⟩
    · intro x b hb
      unfold resolve lookup_fun at hb
      simp only [List.find?_nil] at hb
      split at hb
      · cases hb
      · split at hb
        · cases hb
        · split at hb <;> cases hb
    · intro x o t hb; rw [hr] at hb; exact p.env.glo x o t hb
    · intro x o hb; rw [hr] at hb; exact p.env.cst x o hb
    · intro x o t hb; rw [hr] at hb; exact p.env.fn x o t hb
  obtain ⟨hF', hk'⟩ := FH.params p.hw hF hb hls (by omega) (by omega) (by omega)
  -- the body
  have hsb : SupS C ρ.rett fd.body none (paramEnv { Γ0 with locals := [], loops := [] } fd.params) ρ.kind = true := by
    rw [b2, hk']; exact hsup
  have B := ihi fd.body none _ _ ρ (sp - C.w) _ _ _ _ _ _ _ (sp - C.w) M1 o M2 _ s0 hci hsb hF' hx (by omega) (Int.le_refl _)
    hat.left.left.right.left r1 hM1
  -- the return
  have fin : ∀ {s1 : MS} {i : Nat}, Rel C G (sp - C.w) M2 s1 → P[i]? = some .ret → Outside C M1 (sp - C.w) s0 s1 →
      ∃ s', Step C.w base.base P (i, s1) (k + 1, s') ∧ Rel C G sp (free M2 sp (fd.params.length * C.w)) s' ∧
        Outside C M (sp + fd.params.length * C.w) s s' ∧ s'.reg 0 = s1.reg 0 := by
    intro s1 i r2 hi ho
    have hwd : word C.w s1.mem (sp - C.w) = sgn C.w (adr C.w base.base P (k + 1)) := by
      rw [← q2]
      exact word_congr (by omega) (by omega) (fun x h1 h2 => ho x (hno x (by omega) (by omega)) (by omega))
    refine ⟨setReg s1 4 (sgn C.w (s1.reg 4 + C.w)), .ret hi hk ?_, ⟨?_, ?_, ?_, ?_, r2.io⟩, ?_, by simp [setReg]⟩
    · rw [r2.sp]
      rw [← word_sgn] at hwd
      exact hwd
    · exact wf_setReg r2.wf 4 (sgn_sgn _ _)
    · simp only [setReg, if_true]; rw [r2.sp, sgn_add_l]; congr 1; omega
    · simp [setReg, r2.glo]
    · intro a b hab
      unfold free at hab
      dsimp only at hab
      split at hab
      · cases hab
      · exact r2.agree a b hab
    · intro x hx hnx
      show s1.mem x = s.mem x
      rw [ho x (by rw [b4 x (by omega)]; exact hx) (by omega), q3 x (by omega)]
  have stl := st0.trans (.one (.lbl hil))
  cases o with
  | ret v' =>
    simp only [Option.some.injEq, Prod.mk.injEq] at h
    obtain ⟨rfl, rfl⟩ := h
    obtain ⟨s1, k1, k2, k3, j, k4, k5⟩ := B
    obtain ⟨s', e1, e2, e3, e4⟩ := fin k2 k4 k1
    refine ⟨s', stl.trans (k5.trans (.one e1)), e2, e3, fun hr => ?_⟩
    rw [e4]
    exact k3 (by rw [b2]; simpa [hret] using hr)
  | norm =>
    simp only [Option.ite_none_right_eq_some, Option.some.injEq, Prod.mk.injEq] at h
    obtain ⟨hvd, rfl, rfl⟩ := h
    obtain ⟨s1, k1, k5, k2⟩ := B
    obtain ⟨s2, t2, r2, m2, -⟩ := grow_steps (base := base) hat.left.left.right.right k2
    have hat3 := hat.left.right
    obtain ⟨s3, t3, r3, m3, -⟩ := grow_steps (base := base) hat3 r2
    rw [show sp - (C.w : Int) - f2 * C.w - (0 - f2) * C.w - -0 * C.w = sp - C.w by rw [Int.sub_mul]; omega] at r3
    have ho : Outside C M1 (sp - C.w) s0 s3 := fun x h1 h2 => by rw [m3, m2]; exact k1 x h1 h2
    obtain ⟨s', e1, e2, e3, e4⟩ := fin r3 hat.right.head ho
    refine ⟨s', stl.trans (k5.trans (t2.trans ?_)), e2, e3, fun hr => absurd (hret ▸ hvd) hr⟩
    have := t3.trans (.one (by simpa [grow_stack, I, Nat.add_assoc] using e1))
    simpa [grow_stack, I, Nat.add_assoc, Nat.add_comm 1] using this
  | _ => cases h

end
end Verif.Cg
