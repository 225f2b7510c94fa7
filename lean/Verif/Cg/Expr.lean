import Verif.Cg.Fs
/-! Correctness of the code of expressions: definitions and simple expressions. -/
namespace Verif.Cg
open Verif Verif.Gen Verif.Gen.Spec Verif.X86 Verif.X86.Spec Spec

/-- The environments of the compiler and of the semantics agree: `F` is the address of the return address
of the current function, `G` of the global variables. -/
structure EnvRel (C : Ctx) (Γ : Env) (ρ : Spec.Env) (F G : Int) : Prop where
  loc : ∀ x b, resolve Γ x = .ok (.loc b) → ρ.kind x = some (.var b.ty) ∧ ρ.addr x = F - b.pos * C.w ∧
    (b.param = true → ∀ n t, b.ty ≠ .arr n t)
  glo : ∀ x off t, resolve Γ x = .ok (.glo off t) → ρ.kind x = some (.var t) ∧ ρ.addr x = G + off
  cst : ∀ x v, resolve Γ x = .ok (.cst v) → ρ.kind x = some (.cst v)
  fn : ∀ x l r, resolve Γ x = .ok (.fn l r) → ρ.kind x = some (.fn r)

/-- Calls of the functions of the program work. -/
def CallOk (C : Ctx) (base : Mach) (P : List Asm) (Γ : Env) (G : Int) (cf : CallF) : Prop :=
  ∀ f vs sp M v M' lbl r k s, resolve Γ f = .ok (.fn lbl r) → P[k]? = some (.call lbl) →
    cf f vs sp M = some (v, M') → Rel C G sp M s → MemOk C (sp + vs.length * C.w) M →
    (∀ i (h : i < vs.length), word C.w s.mem (sp + i * C.w) = sgn C.w vs[i]) →
    ∃ s', Go C.w base P (k, s) (k + 1, s') ∧ Rel C G sp M' s' ∧ Outside C M (sp + vs.length * C.w) s s' ∧
      (r ≠ .void → s'.reg 0 = sgn C.w v)

/-- The string literals are where the code has them. -/
def StrAt (C : Ctx) (base : Int) (P : List Asm) : Prop := ∀ pc k bs, P[pc]? = some (.data k bs) → C.strAt k = adr C.w base P pc

structure Hyp (C : Ctx) (base : Mach) (P : List Asm) (Γ : Env) (ρ : Spec.Env) (F G : Int) (cf : CallF) : Prop where
  hw : C.w = 4 ∨ C.w = 8
  env : EnvRel C Γ ρ F G
  cfok : CfOk C cf ρ.kind
  ad : AddrOk C ρ
  call : CallOk C base P Γ G cf
  str : StrAt C base.base P

/-- The word `z` is good enough for the use `md` of the value `v`. -/
def topOk (md : Md) (z v : Int) : Prop :=
  match md with
  | .test => z = 0 ↔ v = 0
  | .low n => z % (2 ^ (8 * n) : Nat) = v % (2 ^ (8 * n) : Nat)

def mdOk (C : Ctx) : Md → Prop
  | .test => True
  | .low n => n ≤ C.w

/-- After an expression: `z` has been pushed. -/
structure OutV (C : Ctx) (G sp : Int) (M M' : Mem) (s s' : MS) (z : Int) : Prop where
  rel : Rel C G (sp - C.w) M' s'
  out : Outside C M sp s s'
  top : word C.w s'.mem (sp - C.w) = z
  dom : SameDom M M'

def RV (C : Ctx) (base : Mach) (P : List Asm) (Γ : Env) (ρ : Spec.Env) (F G : Int) (cf : CallF) (e : E) : Prop :=
  ∀ md fs l c fs' l' sp M v M' pc s,
    codegen_rvalue C.w C.T Γ e fs l = .ok (c, fs', l') → Sup C Γ ρ.kind md e = true → mdOk C md →
    evalE C cf ρ e sp M = some (v, M') → sp = F - fs * C.w → At P pc c → Rel C G sp M s → MemOk C sp M →
    ∃ s' z, Go C.w base P (pc, s) (pc + c.length, s') ∧ OutV C G sp M M' s s' z ∧ topOk md z v

def LV (C : Ctx) (base : Mach) (P : List Asm) (Γ : Env) (ρ : Spec.Env) (F G : Int) (cf : CallF) (e : E) : Prop :=
  ∀ fs l c fs' l' k sp M a M' pc s,
    codegen_lvalue C.w C.T Γ e fs l = .ok (c, fs', l', k) → SupL C Γ ρ.kind e = true →
    evalL C cf ρ e sp M = some (a, M') → sp = F - fs * C.w → At P pc c → Rel C G sp M s → MemOk C sp M →
    (∃ t, ctype C ρ.kind e = some t ∧ k = sizeof C.w C.T t) ∧
    ∃ s', Go C.w base P (pc, s) (pc + c.length, s') ∧ OutV C G sp M M' s s' (sgn C.w a)

def PV (C : Ctx) (base : Mach) (P : List Asm) (Γ : Env) (ρ : Spec.Env) (F G : Int) (cf : CallF) (e : E) : Prop :=
  ∀ fs l c fs' l' k sp M vs M' pc s,
    codegen_params C.w C.T Γ e fs l = .ok (c, fs', l', k) → SupA C Γ ρ.kind e = true →
    evalA C cf ρ e sp M = some (vs, M') → sp = F - fs * C.w → At P pc c → Rel C G sp M s → MemOk C sp M →
    ∃ s', Go C.w base P (pc, s) (pc + c.length, s') ∧ Rel C G (sp - nargs e * C.w) M' s' ∧ Outside C M sp s s' ∧
      SameDom M M' ∧ ∀ i (h : i < vs.length), word C.w s'.mem (sp - nargs e * C.w + i * C.w) = sgn C.w vs[i]

theorem topOk_fits {C : Ctx} (hw : C.w = 4 ∨ C.w = 8) {t : CTy} {v : Int} (h : Fits C t v) {md : Md} (hm : mdOk C md) :
    topOk md (sgn C.w v) v := by
  cases md with
  | test => exact conv_zero hw h.1 h.2
  | low n => exact emod_low hm v

theorem topOk_sgn {C : Ctx} {n : Nat} (v : Int) (hm : n ≤ C.w) : topOk (.low n) (sgn C.w v) v := emod_low hm v

theorem topOk_full {C : Ctx} {z v : Int} (hz : sgn C.w z = z) (h : topOk (.low C.w) z v) : z = sgn C.w v := by
  rw [← hz, sgn_eq_iff]; exact h

theorem topOk_le {m : Md} {k : Nat} {z v : Int} (hm : m.le k = true) (h : topOk (.low k) z v) : topOk m z v := by
  cases m with
  | test => cases hm
  | low n =>
    simp only [Md.le, decide_eq_true_eq] at hm
    have hd := ptwo_dvd (show 8 * n ≤ 8 * k by omega)
    show z % (2 ^ (8 * n) : Nat) = v % (2 ^ (8 * n) : Nat)
    rw [← Int.emod_emod_of_dvd z hd, ← Int.emod_emod_of_dvd v hd]
    have h' : z % (2 ^ (8 * k) : Nat) = v % (2 ^ (8 * k) : Nat) := h
    rw [h']

theorem OutV.sgn {C : Ctx} {G sp : Int} {M M' : Mem} {s s' : MS} {z : Int} (h : OutV C G sp M M' s s' z) : sgn C.w z = z := by
  rw [← h.top, sgn_word]

/-- Straight-line code after an expression. -/
theorem OutV.sl {C : Ctx} {G sp : Int} {M M' : Mem} {s s1 s' : MS} {z z' : Int} {es : List Emit} (h : OutV C G sp M M' s s1 z)
    (h1 : SL C G M' sp s1 es (sp - C.w) s') (ht : word C.w s'.mem (sp - C.w) = z') : OutV C G sp M M' s s' z' :=
  ⟨h1.rel, h.out.trans h.dom h1.scr.out (Int.le_refl _) (Int.le_refl _), ht, h.dom⟩

theorem OutV.new {C : Ctx} {G sp : Int} {M : Mem} {s s' : MS} {z' : Int} {es : List Emit}
    (h1 : SL C G M sp s es (sp - C.w) s') (ht : word C.w s'.mem (sp - C.w) = z') : OutV C G sp M M s s' z' :=
  ⟨h1.rel, h1.scr.out, ht, SameDom.refl _⟩

theorem vt_ok {C : Ctx} {Γ : Env} {e : E} {t : CTy} (h : vt C Γ e = some t) : value_type C.T Γ e = .ok t := by
  unfold vt at h
  split at h <;> simp_all

theorem vt_of {C : Ctx} {Γ : Env} {e : E} {t : CTy} (h : value_type C.T Γ e = .ok t) : vt C Γ e = some t := by
  simp [vt, h]

section
variable {C : Ctx} {base : Mach} {P : List Asm} {Γ : Env} {ρ : Spec.Env} {F G : Int} {cf : CallF}

/-- Pushing a constant. -/
theorem rv_const (H : Hyp C base P Γ ρ F G cf) {v : Int} {t : CTy} (hv : Fits C t v) {md : Md} (hm : mdOk C md) {sp : Int} {M : Mem} {pc : Nat} {s : MS}
    (hroom : Room C sp) (hat : At P pc (I [.mov_reg_imm 0 v, .push_reg 0])) (hR : Rel C G sp M s) (hM : MemOk C sp M) :
    ∃ s' z, Go C.w base P (pc, s) (pc + (I [.mov_reg_imm 0 v, .push_reg 0]).length, s') ∧ OutV C G sp M M s s' z ∧ topOk md z v := by
  unfold Room at hroom
  obtain ⟨s', h1, h2, _⟩ := sl_const H.hw hR hM (Int.le_refl _) (by omega) v
  exact ⟨s', _, go_run hat h1.run, OutV.new h1 h2, topOk_fits H.hw hv hm⟩

theorem rv_num (H : Hyp C base P Γ ρ F G cf) (v : Nat) : RV C base P Γ ρ F G cf (.num v) := by
  intro md fs l c fs' l' sp M v' M' pc s hc hs hm he hsp hat hR hM
  simp only [codegen_rvalue, Res.ok.injEq, Prod.mk.injEq] at hc
  simp only [evalE, Option.ite_none_right_eq_some, Option.some.injEq, Prod.mk.injEq] at he
  obtain ⟨rfl, -, -⟩ := hc
  obtain ⟨⟨hr, hv⟩, rfl, rfl⟩ := he
  exact rv_const H (fits_int H.hw (by omega) (by omega)) hm hr hat hR hM

theorem rv_chr (H : Hyp C base P Γ ρ F G cf) (v : Int) : RV C base P Γ ρ F G cf (.chr v) := by
  intro md fs l c fs' l' sp M v' M' pc s hc hs hm he hsp hat hR hM
  simp only [codegen_rvalue, Res.ok.injEq, Prod.mk.injEq] at hc
  simp only [evalE, Option.ite_none_right_eq_some, Option.some.injEq, Prod.mk.injEq] at he
  obtain ⟨rfl, -, -⟩ := hc
  obtain ⟨⟨hr, hv⟩, rfl, rfl⟩ := he
  exact rv_const H (fits_int H.hw (by omega) (by omega)) hm hr hat hR hM

theorem rv_str (H : Hyp C base P Γ ρ F G cf) (k : Nat) (bs : List Nat) : RV C base P Γ ρ F G cf (.str k bs) := by
  intro md fs l c fs' l' sp M v' M' pc s hc hs hm he hsp hat hR hM
  simp only [codegen_rvalue, Res.ok.injEq, Prod.mk.injEq] at hc
  simp only [evalE, Option.ite_none_right_eq_some, Option.some.injEq, Prod.mk.injEq] at he
  obtain ⟨rfl, -, -⟩ := hc
  obtain ⟨⟨hr, hv⟩, rfl, rfl⟩ := he
  unfold Room at hr
  have hl0 := hM.lim; have ht := hM.top
  have e := H.str _ _ _ hat.tail.head
  have hadr : sgn C.w (adr C.w base.base P (pc + 1)) = sgn C.w (C.strAt k) := by rw [e]
  have h4 : sgn C.w (s.reg 4 - C.w) = sgn C.w (sp - C.w) := by rw [hR.sp, sgn_sub_l]
  let s1 : MS := { setReg s 4 (sgn C.w (s.reg 4 - C.w)) with
        mem := wr C.w s.mem (sgn C.w (s.reg 4 - C.w)) (sgn C.w (adr C.w base.base P (pc + 1))) C.w }
  have st : Step C.w base.base P (pc, s) (pc + 2, s1) := .call hat.head hat.tail.tail.head
  have st2 : Step C.w base.base P (pc + 2, s1) (pc + 2 + 1, s1) := .lbl hat.tail.tail.head
  have em : s1.mem = wr C.w s.mem (sp - C.w) (sgn C.w (C.strAt k)) C.w := by
    show wr C.w s.mem (sgn C.w (s.reg 4 - C.w)) (sgn C.w (adr C.w base.base P (pc + 1))) C.w = _
    rw [h4, hadr]; exact (wr_addr C.w _ _ _ _ _ (uns_sgn ..).symm).symm
  have scr : Scr C sp s.mem s1.mem := by
    intro x hx
    rw [em]
    refine wr_out _ _ _ _ _ _ ?_
    rw [inR_iff (by omega) (by omega)]
    omega
  refine ⟨s1, sgn C.w (C.strAt k), .head st (.one st2), ⟨?_, scr.out, ?_, SameDom.refl _⟩, topOk_fits H.hw ((fits_ptr H.hw (t := .void)).2 hv) hm⟩
  · exact hR.scr hM scr (wf_setReg hR.wf 4 (sgn_sgn _ _)) h4 rfl rfl
  · rw [em]
    unfold word
    rw [rd_wr_word H.hw, sgn_sgn]

theorem rv_sizeofT (H : Hyp C base P Γ ρ F G cf) (t : CTy) : RV C base P Γ ρ F G cf (.sizeofT t) := by
  intro md fs l c fs' l' sp M v' M' pc s hc hs hm he hsp hat hR hM
  simp only [codegen_rvalue, Res.bind_eq_ok, Res.ok.injEq, Prod.mk.injEq] at hc
  simp only [evalE, Option.ite_none_right_eq_some, Option.some.injEq, Prod.mk.injEq] at he
  obtain ⟨k, hk, rfl, -, -⟩ := hc
  obtain ⟨⟨hr, hv⟩, rfl, rfl⟩ := he
  rw [type_width_true C.T hk] at hat ⊢
  exact rv_const H (fits_sizeTy H.hw hv) hm hr hat hR hM

theorem rv_sizeofE (H : Hyp C base P Γ ρ F G cf) (e : E) : RV C base P Γ ρ F G cf (.sizeofE e) := by
  intro md fs l c fs' l' sp M v' M' pc s hc hs hm he hsp hat hR hM
  simp only [codegen_rvalue, Res.bind_eq_ok, Res.ok.injEq, Prod.mk.injEq] at hc
  simp only [evalE, Option.ite_none_right_eq_some, Option.bind_eq_some_iff, Option.some.injEq, Prod.mk.injEq] at he
  obtain ⟨p, hp, k, hk, rfl, -, -⟩ := hc
  obtain ⟨hr, t, ht, hv, rfl, rfl⟩ := he
  simp only [Sup, vt_of hp, ht, decide_eq_true_eq] at hs
  rw [type_width_true C.T hk, hs] at hat ⊢
  exact rv_const H (fits_sizeTy H.hw hv) hm hr hat hR hM

theorem rv_plus (e : E) (ih : RV C base P Γ ρ F G cf e) : RV C base P Γ ρ F G cf (.plus e) := by
  intro md fs l c fs' l' sp M v' M' pc s hc hs hm he hsp hat hR hM
  simp only [codegen_rvalue, Res.bind_eq_ok, Res.ok.injEq, Prod.mk.injEq] at hc
  simp only [evalE, Option.ite_none_right_eq_some, Option.bind_eq_some_iff] at he
  simp only [Sup] at hs
  obtain ⟨⟨c1, f1, l1⟩, h1, rfl, -, -⟩ := hc
  obtain ⟨_, t, ht, he⟩ := he
  exact ih _ _ _ _ _ _ _ _ _ _ _ _ h1 hs hm he hsp hat hR hM

theorem rv_paren (e : E) (ih : RV C base P Γ ρ F G cf e) : RV C base P Γ ρ F G cf (.paren e) := by
  intro md fs l c fs' l' sp M v' M' pc s hc hs hm he hsp hat hR hM
  simp only [codegen_rvalue, Res.bind_eq_ok, Res.ok.injEq, Prod.mk.injEq] at hc
  simp only [evalE, Option.ite_none_right_eq_some] at he
  simp only [Sup] at hs
  obtain ⟨⟨c1, f1, l1⟩, h1, rfl, -, -⟩ := hc
  exact ih _ _ _ _ _ _ _ _ _ _ _ _ h1 hs hm he.2 hsp hat hR hM

theorem rv_addr (H : Hyp C base P Γ ρ F G cf) (e : E) (ih : LV C base P Γ ρ F G cf e) : RV C base P Γ ρ F G cf (.addr e) := by
  intro md fs l c fs' l' sp M v' M' pc s hc hs hm he hsp hat hR hM
  simp only [codegen_rvalue, Res.bind_eq_ok, Res.ok.injEq, Prod.mk.injEq] at hc
  simp only [evalE, Option.ite_none_right_eq_some] at he
  simp only [Sup] at hs
  obtain ⟨⟨c1, f1, l1, k1⟩, h1, rfl, -, -⟩ := hc
  obtain ⟨_, s', h2, h3⟩ := ih _ _ _ _ _ _ _ _ _ _ _ _ h1 hs he.2 hsp hat hR hM
  have := ((eval_ty H.hw H.cfok H.ad e).2 _ _ _ _ he.2).2
  exact ⟨s', _, h2, h3, topOk_fits H.hw ((fits_ptr H.hw (t := .void)).2 this) hm⟩

/-- The type of an lvalue load: the machine code loads what C loads. -/
theorem rvalue_load (H : Hyp C base P Γ ρ F G cf) {M : Mem} {a v : Int} {t : CTy} (h : rvalue C M a t = some v)
    (ht : ∀ n t', t ≠ .arr n t') : loadT C M a t = some v := by
  cases t <;> first | exact h | exact absurd rfl (ht _ _)

theorem loadT_scalar {M : Mem} {a v : Int} {t : CTy} (h : loadT C M a t = some v) : scalar C.w t = true := by
  unfold loadT at h
  split at h
  · assumption
  · cases h

/-- `load_var`. -/
theorem load_var_sim (H : Hyp C base P Γ ρ F G cf) {sp top t0 : Int} {M : Mem} {s : MS} {t : CTy} {param : Bool} {ld : List Emit} {a v : Int}
    (hp : param = true → ∀ n t', t ≠ .arr n t') (hl : load_var C.w C.T t param = .ok ld) (hv : rvalue C M a t = some v) (hR : Rel C G sp M s) (hM : MemOk C t0 M)
    (h0 : s.reg 0 = sgn C.w a) : ∃ s', SL C G M top s ld sp s' ∧ s'.reg 0 = sgn C.w v := by
  unfold load_var at hl
  have gen : (∀ n t', t ≠ .arr n t') → ∃ s', SL C G M top s ld sp s' ∧ s'.reg 0 = sgn C.w v := by
    intro hna
    have hv' := rvalue_load H hv hna
    have hs := loadT_scalar hv'
    have e1 : is_struct_or_union_type t = false := by
      cases t <;> first | rfl | (simp [scalar, isInt, isPtr] at hs)
    have e2 : load_mem_location C.w 0 0 0 (sizeof C.w C.T t) (is_signed_numeric_type t) = .ok ld := by
      have e3 := type_width_scalar C.T hs false
      cases t
      case arr n t' => exact absurd rfl (hna n t')
      all_goals simp only [e1, Bool.false_and, Bool.or_self, Bool.false_eq_true, if_false, e3, Res.bind_ok] at hl
      all_goals exact hl
    exact ⟨_, sl_load H.hw hR hM (by decide) (by decide) e2 hv' h0, by simp [setReg]⟩
  cases t
  case arr n t' =>
    have : param = false := by
      cases param
      · rfl
      · exact absurd rfl (hp rfl n t')
    subst this
    simp [is_struct_or_union_type] at hl
    subst hl
    simp [rvalue] at hv
    subst hv
    exact ⟨s, SL.nil hR, h0⟩
  all_goals exact gen (by intros; simp)

theorem rv_var (H : Hyp C base P Γ ρ F G cf) (x : Nat) : RV C base P Γ ρ F G cf (.var x) := by
  intro md fs l c fs' l' sp M v' M' pc s hc hs hm he hsp hat hR hM
  simp only [codegen_rvalue, Res.bind_eq_ok] at hc
  have hty := (eval_ty H.hw H.cfok H.ad _).1 _ _ _ _ he
  simp only [evalE, Option.ite_none_right_eq_some, Option.bind_eq_some_iff] at he
  obtain ⟨b, hb, hc⟩ := hc
  obtain ⟨hr, k, hk, he⟩ := he
  have hr' := hr
  unfold Room at hr'
  have fin : ∀ (off : Int) (r : Nat) (base' : Int) (t : CTy) (param : Bool) (ld : List Emit), r ≠ 0 → s.reg r = sgn C.w base' →
      ρ.addr x = base' + off → (param = true → ∀ n t', t ≠ .arr n t') → load_var C.w C.T t param = .ok ld → ρ.kind x = some (.var t) →
      c = I ([.mov_reg_imm 0 off, .add_reg_reg 0 r] ++ ld ++ [.push_reg 0]) →
      ∃ s' z, Go C.w base P (pc, s) (pc + c.length, s') ∧ OutV C G sp M M' s s' z ∧ topOk md z v' := by
    intro off r base' t param ld hr0 hrb ha hp hl hkt rfl
    rw [hkt] at hk; cases hk
    simp only [Option.bind_eq_some_iff, Option.some.injEq, Prod.mk.injEq] at he
    obtain ⟨v, hv, rfl, rfl⟩ := he
    obtain ⟨s1, a1, a2, _⟩ := sl_addr hR off r hr0 hrb (top := sp)
    rw [← ha] at a2
    obtain ⟨s2, b1, b2⟩ := load_var_sim H hp hl hv a1.rel hM a2 (top := sp)
    obtain ⟨s3, c1, _, c2, _⟩ := sl_push H.hw b1.rel hM (Int.le_refl _) (by omega) 0
    have sl := (a1.trans b1).trans c1
    rw [b2] at c2
    refine ⟨s3, _, by rw [I_length]; exact go_run hat sl.run, OutV.new sl c2, ?_⟩
    obtain ⟨t', h1, h2⟩ := hty
    rcases h2 with ⟨_, h2⟩ | h2
    · cases h2
    · exact topOk_fits H.hw h2 hm
  cases b with
  | loc b =>
    simp only [Res.bind_eq_ok, Res.ok.injEq, Prod.mk.injEq] at hc
    obtain ⟨ld, hl, rfl, -, -⟩ := hc
    obtain ⟨e1, e2, e3⟩ := H.env.loc x b hb
    refine fin _ 4 sp b.ty b.param ld (by decide) hR.sp ?_ e3 hl e1 rfl
    rw [e2, hsp, Int.sub_mul]; omega
  | glo off t =>
    simp only [Res.bind_eq_ok, Res.ok.injEq, Prod.mk.injEq] at hc
    obtain ⟨ld, hl, rfl, -, -⟩ := hc
    obtain ⟨e1, e2⟩ := H.env.glo x off t hb
    exact fin _ 3 G t false ld (by decide) hR.glo e2 (by simp) hl e1 rfl
  | cst v =>
    simp only [Res.ok.injEq, Prod.mk.injEq] at hc
    obtain ⟨rfl, -, -⟩ := hc
    rw [H.env.cst x v hb] at hk; cases hk
    simp only [Option.ite_none_right_eq_some, Option.some.injEq, Prod.mk.injEq] at he
    obtain ⟨hv, rfl, rfl⟩ := he
    exact rv_const H (fits_int H.hw hv.1 hv.2) hm hr hat hR hM
  | fn lbl r => cases hc

theorem lv_var (H : Hyp C base P Γ ρ F G cf) (x : Nat) : LV C base P Γ ρ F G cf (.var x) := by
  intro fs l c fs' l' k sp M v' M' pc s hc hs he hsp hat hR hM
  simp only [codegen_lvalue, Res.bind_eq_ok] at hc
  simp only [evalL, Option.ite_none_right_eq_some, Option.bind_eq_some_iff] at he
  obtain ⟨b, hb, hc⟩ := hc
  obtain ⟨hr, kd, hk, he⟩ := he
  unfold Room at hr
  have fin : ∀ (off : Int) (r : Nat) (base' : Int) (t : CTy), r ≠ 0 → s.reg r = sgn C.w base' →
      ρ.addr x = base' + off → type_width C.w C.T t true = .ok k → ρ.kind x = some (.var t) →
      c = I [.mov_reg_imm 0 off, .add_reg_reg 0 r, .push_reg 0] →
      (∃ t, ctype C ρ.kind (.var x) = some t ∧ k = sizeof C.w C.T t) ∧
      ∃ s', Go C.w base P (pc, s) (pc + c.length, s') ∧ OutV C G sp M M' s s' (sgn C.w v') := by
    intro off r base' t hr0 hrb ha hw' hkt rfl
    rw [hkt] at hk; cases hk
    simp only [Option.some.injEq, Prod.mk.injEq] at he
    obtain ⟨rfl, rfl⟩ := he
    refine ⟨⟨t, by simp [ctype, hkt], type_width_true C.T hw'⟩, ?_⟩
    obtain ⟨s1, a1, a2, _⟩ := sl_addr hR off r hr0 hrb (top := sp)
    rw [← ha] at a2
    obtain ⟨s3, c1, _, c2, _⟩ := sl_push H.hw a1.rel hM (Int.le_refl _) (by omega) 0
    have sl := a1.trans c1
    rw [a2] at c2
    exact ⟨s3, by rw [I_length]; exact go_run hat sl.run, OutV.new sl c2⟩
  cases b with
  | loc b =>
    simp only [Res.bind_eq_ok] at hc
    obtain ⟨k', hw', hc⟩ := hc
    split at hc
    · cases hc
    simp only [Res.ok.injEq, Prod.mk.injEq] at hc
    obtain ⟨rfl, -, -, rfl⟩ := hc
    obtain ⟨e1, e2, e3⟩ := H.env.loc x b hb
    refine fin _ 4 sp b.ty (by decide) hR.sp ?_ hw' e1 rfl
    rw [e2, hsp, Int.sub_mul]; omega
  | glo off t =>
    simp only [Res.bind_eq_ok] at hc
    obtain ⟨k', hw', hc⟩ := hc
    split at hc
    · cases hc
    simp only [Res.ok.injEq, Prod.mk.injEq] at hc
    obtain ⟨rfl, -, -, rfl⟩ := hc
    obtain ⟨e1, e2⟩ := H.env.glo x off t hb
    exact fin _ 3 G t (by decide) hR.glo e2 hw' e1 rfl
  | _ => cases hc

end
end Verif.Cg
