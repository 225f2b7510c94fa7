import Verif.Sys.IniSpec
import Verif.Cg.Props
import Verif.Sys.Props3
/-! The code of the initial values does what the specification says. -/
namespace Verif.Sys
open Verif Verif.Gen Verif.Gen.Spec Verif.X86 Verif.X86.Spec Verif.Cg Verif.Rt Spec Verif.Cg.Spec

mutual
/-- The initialiser is in the fragment: its expressions are, and the places of the members of a struct are the sums of the sizes of the members before (this is what pnut computes; exe.c:1877). -/
def SupI (C : Ctx) (mm : Nat → List Nat) (Γ : Cg.Env) (κ : Nat → Option VK) : Ini → CTy → Bool
  | .expr e, t => Sup C Γ κ (.low (sizeof C.w C.T t)) e
  | .list is, .arr _ t => SupEl C mm Γ κ is t
  | .list is, .agg false tag => SupMs C mm Γ κ is tag (mm tag) 0
  | .list is, .agg true tag => SupU C mm Γ κ is tag (mm tag)
  | .list is, t => Sup1 C mm Γ κ is t
  | _, _ => true
def SupEl (C : Ctx) (mm : Nat → List Nat) (Γ : Cg.Env) (κ : Nat → Option VK) : Ini → CTy → Bool
  | .cons x is, t => SupI C mm Γ κ x t && SupEl C mm Γ κ is t
  | _, _ => true
def SupMs (C : Ctx) (mm : Nat → List Nat) (Γ : Cg.Env) (κ : Nat → Option VK) : Ini → Nat → List Nat → Nat → Bool
  | .cons x is, tag, m :: ms, o =>
    match C.T.mem tag m with
    | some t => decide (C.T.off tag m = some o) && SupI C mm Γ κ x t && SupMs C mm Γ κ is tag ms (o + sizeof C.w C.T t)
    | none => true
  | _, _, _, _ => true
def SupU (C : Ctx) (mm : Nat → List Nat) (Γ : Cg.Env) (κ : Nat → Option VK) : Ini → Nat → List Nat → Bool
  | .cons x _, tag, m :: _ =>
    match C.T.mem tag m with
    | some t => decide (C.T.off tag m = some 0) && SupI C mm Γ κ x t
    | none => true
  | _, _, _ => true
def Sup1 (C : Ctx) (mm : Nat → List Nat) (Γ : Cg.Env) (κ : Nat → Option VK) : Ini → CTy → Bool
  | .cons (.expr e) _, t => Sup C Γ κ (.low (sizeof C.w C.T t)) e
  | _, _ => true
end

section
variable {C : Ctx} {K : Mach} {p : Program} {lab : Nat → Nat} {G sp : Int} {P : List Asm} {mm : Nat → List Nat}

/-- Store to an object at a distance from a register. -/
theorem sl_storeN {t0 : Int} {M M' : Mem} {s : MS} {k : Nat} (h : Rel C G sp M s) (hM : MemOk C t0 M) {o v : Int} {es : List Emit}
    (he : write_mem_location C.w 3 o 0 k = .ok es) (hst : storeN M (G + o) v k = some M') (hv : s.reg 0 % (2 ^ (8 * k) : Nat) = v % (2 ^ (8 * k) : Nat)) :
    ∃ s', Gen.run C.w s es = some s' ∧ Rel C G sp M' s' ∧ (∀ x, M x = none → s'.mem x = s.mem x) := by
  have := storeN_wr h.agree (dom_rng hM) hst hv
  have ea : wr C.w s.mem (s.reg 3 + o) (s.reg 0) k = wr C.w s.mem (G + o) (s.reg 0) k :=
    wr_addr C.w _ _ _ _ _ (by rw [h.glo, ← uns_sgn, sgn_add_l, uns_sgn])
  refine ⟨_, write_run he s, ⟨h.wf, h.sp, h.glo, ?_, h.io.trans (storeN_io hst).symm⟩, ?_⟩
  · intro x y hx
    show wr _ _ _ _ _ x % 256 = y
    rw [ea]; exact this.1 x y hx
  · intro x hx
    show wr _ _ _ _ _ x = _
    rw [ea]; exact this.2 x hx

/-- What the code `c` does. -/
def DoesI (C : Ctx) (K : Mach) (G sp : Int) (P c : List Asm) (M M' : Mem) : Prop :=
  ∀ pc s, At P pc c → Rel C G sp M s → MemOk C sp M →
    SameDom M M' ∧ ∃ s', Go C.w K P (pc, s) (pc + c.length, s') ∧ Rel C G sp M' s' ∧ Outside C M sp s s'

theorem DoesI.nil {M : Mem} : DoesI C K G sp P [] M M := fun _ s _ hR _ => ⟨SameDom.refl _, s, .refl, hR, Outside.refl _ _ _ _⟩

theorem DoesI.append {c1 c2 : List Asm} {M M1 M2 : Mem} (h1 : DoesI C K G sp P c1 M M1) (h2 : DoesI C K G sp P c2 M1 M2) : DoesI C K G sp P (c1 ++ c2) M M2 := by
  intro pc s hat hR hM
  obtain ⟨d1, s1, g1, r1, o1⟩ := h1 pc s hat.left hR hM
  obtain ⟨d2, s2, g2, r2, o2⟩ := h2 _ s1 hat.right r1 (hM.same d1)
  refine ⟨d1.trans d2, s2, ?_, r2, o1.trans d1 o2 (Int.le_refl _) (Int.le_refl _)⟩
  rw [List.length_append, ← Nat.add_assoc]
  exact g1.trans g2

theorem string_sim (hw : C.w = 4 ∨ C.w = 8) : ∀ (n : Nat) (off : Int) (bs : List Nat) (c : List Emit) (M M' : Mem),
    string_code C.w off bs n = .ok c → storeStr M (G + off) bs n = some M' → DoesI C K G sp P (I c) M M' := by
  intro n
  induction n with
  | zero =>
    intro off bs c M M' h hs
    simp only [string_code, Res.ok.injEq] at h
    simp only [storeStr, Option.some.injEq] at hs
    subst h; subst hs
    exact .nil
  | succ n ih =>
    intro off bs c M M' h hs
    simp only [string_code, Res.bind_eq_ok, Res.ok.injEq] at h
    obtain ⟨st, hst, r, hr, rfl⟩ := h
    simp only [storeStr, Option.bind_eq_some_iff] at hs
    obtain ⟨M1, h1, h2⟩ := hs
    rw [I_append]
    refine .append ?_ (ih _ _ _ _ _ hr (by rw [show G + (off + 1) = G + off + 1 by omega]; exact h2))
    intro pc s hat hR hM
    have b1 := sl_set hR sp (exec_movImm s 0 (bs.headD 0)) (by decide) (by decide) (sgn_sgn _ _)
    obtain ⟨s2, q1, q2, q3⟩ := sl_storeN b1.rel hM hst h1 (by
      show sgn C.w _ % _ = _
      exact sgn_emod256 hw _)
    have d : SameDom M M1 := storeN_dom h1
    refine ⟨d, s2, ?_, q2, ?_⟩
    · have := go_run (base := K) (w := C.w) hat (run_append_some b1.run q1)
      rw [I_length]; exact this
    · exact (b1.scr.out (M := M)).trans (SameDom.refl _) (fun a ha _ => q3 a ha) (Int.le_refl _) (Int.le_refl _)

theorem scalar_sim (hl : Loaded C p lab G K.base P) (hlib : Library C K p lab G P) (hs : Supported C p lab) {n : Nat} {e : E} {t : CTy} {off : Int} {l : Nat} {c : List Asm} {l' : Nat} {M M1 M' : Mem} {v : Int}
    (hc : scalar_code C.w C.T (envOf p lab) e t off l = .ok (c, l')) (hsup : Sup C (envOf p lab) p.kind (.low (sizeof C.w C.T t)) e = true)
    (hv : evalE C (call C p.fn (p.env G) n) (p.env G) e sp M = some (v, M1)) (hst : storeT C M1 (G + off) t (conv C t v) = some M') :
    DoesI C K G sp P c M M' := by
  simp only [scalar_code, Res.bind_eq_ok, Res.ok.injEq, Prod.mk.injEq] at hc
  obtain ⟨⟨ce, f1, l1⟩, h1, k, hk, st, hst2, rfl, rfl⟩ := hc
  rw [type_width_true C.T hk] at hst2
  intro pc s hat hR hM
  have hsc := storeT_scalar hst
  have hsz := sizeof_le hl.hw C.T hsc
  have H : Hyp C K P (envOf p lab) (p.env G) sp G (call C p.fn (p.env G) n) := scope_hyp (lp := []) (ls := []) hl hlib hs (F := sp) ⟨by simp, by simp⟩ n
  obtain ⟨s1, z, g1, o, tz⟩ := (rv_all H e).1 (.low (sizeof C.w C.T t)) 0 l ce f1 l1 sp M v M1 pc s h1 hsup (by simp [mdOk]; omega) hv (by omega) hat.left.left hR hM
  obtain ⟨s2, p1, p2, p3, p4⟩ := sl_pop o.rel sp (r := 0) (by decide) (by decide)
  have p1r := p1.rel
  rw [show sp - (C.w : Int) + C.w = sp by omega] at p1 p1r
  have hz : s2.reg 0 = z := by rw [p2, o.top]
  unfold storeT at hst
  rw [if_pos hsc] at hst
  obtain ⟨s3, q1, q2, q3⟩ := sl_storeN p1r (hM.same o.dom) hst2 hst (by rw [hz, conv_emod C t v (Nat.le_refl _)]; exact tz)
  have d3 : SameDom M1 M' := storeN_dom hst
  refine ⟨o.dom.trans d3, s3, ?_, q2, ?_⟩
  · have g2 := go_run (base := K) (w := C.w) hat.left.right p1.run
    have g3 := go_run (base := K) (w := C.w) hat.right q1
    have := g1.trans g2
    simp only [List.length_append, I_length, ← Nat.add_assoc] at this g3 ⊢
    exact this.trans g3
  · refine (o.out.trans o.dom p1.scr.out (Int.le_refl _) (Int.le_refl _)).trans o.dom (fun a ha _ => q3 a ha) (Int.le_refl _) (Int.le_refl _)

theorem init_sim (hl : Loaded C p lab G K.base P) (hlib : Library C K p lab G P) (hs : Supported C p lab) (n : Nat) (i : Ini) :
    (∀ t off l c l' M M', init_code C.w C.T mm (envOf p lab) i t off l = .ok (c, l') → SupI C mm (envOf p lab) p.kind i t = true →
      initObj C mm (fun e M => evalE C (call C p.fn (p.env G) n) (p.env G) e sp M) i t (G + off) M = some M' → DoesI C K G sp P c M M') ∧
    (∀ t k off l c l' M M', init_elems C.w C.T mm (envOf p lab) i t (sizeof C.w C.T t) k off l = .ok (c, l') → SupEl C mm (envOf p lab) p.kind i t = true →
      initElems C mm (fun e M => evalE C (call C p.fn (p.env G) n) (p.env G) e sp M) i t k (G + off) M = some M' → DoesI C K G sp P c M M') ∧
    (∀ tag ms (o : Nat) off l c l' M M', init_members C.w C.T mm (envOf p lab) i tag ms (off + o) l = .ok (c, l') → SupMs C mm (envOf p lab) p.kind i tag ms o = true →
      initMembers C mm (fun e M => evalE C (call C p.fn (p.env G) n) (p.env G) e sp M) i tag ms (G + off) M = some M' → DoesI C K G sp P c M M') ∧
    (∀ tag ms off l c l' M M', init_union C.w C.T mm (envOf p lab) i tag ms off l = .ok (c, l') → SupU C mm (envOf p lab) p.kind i tag ms = true →
      initFirst C mm (fun e M => evalE C (call C p.fn (p.env G) n) (p.env G) e sp M) i tag ms (G + off) M = some M' → DoesI C K G sp P c M M') ∧
    (∀ t off l c l' M M', init_scalar C.w C.T mm (envOf p lab) i t off l = .ok (c, l') → Sup1 C mm (envOf p lab) p.kind i t = true →
      initOne C mm (fun e M => evalE C (call C p.fn (p.env G) n) (p.env G) e sp M) i t (G + off) M = some M' → DoesI C K G sp P c M M') := by
  induction i with
  | expr e =>
    refine ⟨?_, ?_, ?_, ?_, ?_⟩
    · intro t off l c l' M M' h hsup hx
      simp only [initObj, Option.bind_eq_some_iff] at hx
      obtain ⟨⟨v, M1⟩, hv, hst⟩ := hx
      unfold init_code at h
      unfold SupI at hsup
      split at h
      · cases h
      · cases h
      · split at h
        · cases h
        · exact scalar_sim hl hlib hs h hsup hv hst
    all_goals intros; rename_i h; first | (simp [initElems] at h; done) | (simp [initMembers] at h; done) | (simp [initFirst] at h; done) | (simp [initOne] at h; done)
  | str k bs =>
    refine ⟨?_, ?_, ?_, ?_, ?_⟩
    · intro t off l c l' M M' h hsup hx
      unfold init_code at h
      split at h
      · split at h
        · cases h
        · simp only [Res.bind_eq_ok, Res.ok.injEq, Prod.mk.injEq] at h
          obtain ⟨c1, h1, rfl, rfl⟩ := h
          unfold initObj at hx
          split at hx
          · exact string_sim hl.hw _ _ _ _ _ _ h1 hx
          · cases hx
      · simp only [initObj, Option.bind_eq_some_iff] at hx
        obtain ⟨⟨v, M1⟩, hv, hst⟩ := hx
        exact scalar_sim hl hlib hs h (by simp [Sup]) hv hst
      · cases h
    all_goals intros; rename_i h; first | (simp [initElems] at h; done) | (simp [initMembers] at h; done) | (simp [initFirst] at h; done) | (simp [initOne] at h; done)
  | nil =>
    refine ⟨?_, ?_, ?_, ?_, ?_⟩
    · intro t off l c l' M M' h; simp [init_code] at h
    · intro t k off l c l' M M' h hsup hx
      simp only [init_elems, Res.ok.injEq, Prod.mk.injEq] at h
      simp only [initElems, Option.some.injEq] at hx
      obtain ⟨rfl, rfl⟩ := h; subst hx
      exact .nil
    · intro tag ms o off l c l' M M' h hsup hx
      simp only [init_members, Res.ok.injEq, Prod.mk.injEq] at h
      simp only [initMembers, Option.some.injEq] at hx
      obtain ⟨rfl, rfl⟩ := h; subst hx
      exact .nil
    · intro tag ms off l c l' M M' h; simp [init_union] at h
    · intro t off l c l' M M' h; simp [init_scalar] at h
  | list is ih =>
    obtain ⟨-, ih2, ih3, ih4, ih5⟩ := ih
    refine ⟨?_, ?_, ?_, ?_, ?_⟩
    · intro t off l c l' M M' h hsup hx
      cases t with
      | arr k t =>
        simp only [init_code, Res.bind_eq_ok] at h
        obtain ⟨w, hw, h⟩ := h
        rw [type_width_true C.T hw] at h
        exact ih2 _ _ _ _ _ _ _ _ h (by simpa only [SupI] using hsup) (by simpa only [initObj] using hx)
      | agg u tag =>
        cases u with
        | false =>
          simp only [init_code] at h
          exact ih3 tag (mm tag) 0 off l c l' M M' (by simpa using h) (by simpa only [SupI] using hsup) (by simpa only [initObj] using hx)
        | true =>
          simp only [init_code] at h
          exact ih4 _ _ _ _ _ _ _ _ h (by simpa only [SupI] using hsup) (by simpa only [initObj] using hx)
      | _ =>
        simp only [init_code] at h
        exact ih5 _ _ _ _ _ _ _ h (by simpa only [SupI] using hsup) (by simpa only [initObj] using hx)
    all_goals intros; rename_i h; first | (simp [initElems] at h; done) | (simp [initMembers] at h; done) | (simp [initFirst] at h; done) | (simp [initOne] at h; done)
  | cons x is ih1 ih2 =>
    refine ⟨?_, ?_, ?_, ?_, ?_⟩
    · intro t off l c l' M M' h; simp [init_code] at h
    · intro t k off l c l' M M' h hsup hx
      cases k with
      | zero => simp [initElems] at hx
      | succ k =>
        simp only [init_elems, Nat.add_one_ne_zero, if_false, Res.bind_eq_ok, Res.ok.injEq, Prod.mk.injEq, Nat.add_sub_cancel] at h
        obtain ⟨⟨c1, l1⟩, h1, ⟨c2, l2⟩, h2, rfl, rfl⟩ := h
        simp only [initElems, Option.bind_eq_some_iff] at hx
        obtain ⟨M1, x1, x2⟩ := hx
        simp only [SupEl, Bool.and_eq_true] at hsup
        exact .append (ih1.1 _ _ _ _ _ _ _ h1 hsup.1 x1) (ih2.2.1 _ _ _ _ _ _ _ _ h2 hsup.2 (by rw [← Int.add_assoc]; exact x2))
    · intro tag ms o off l c l' M M' h hsup hx
      cases ms with
      | nil => simp [initMembers] at hx
      | cons m ms =>
        simp only [initMembers, Option.bind_eq_some_iff] at hx
        obtain ⟨t, ht, o', ho, M1, x1, x2⟩ := hx
        simp only [init_members, ht, Res.bind_eq_ok, Res.ok.injEq, Prod.mk.injEq] at h
        obtain ⟨⟨c1, l1⟩, h1, k, hk, ⟨c2, l2⟩, h2, rfl, rfl⟩ := h
        rw [type_width_true C.T hk] at h2
        simp only [SupMs, ht, Bool.and_eq_true, decide_eq_true_eq] at hsup
        obtain ⟨⟨e1, s1⟩, s2⟩ := hsup
        rw [ho] at e1; cases e1
        exact .append (ih1.1 _ _ _ _ _ _ _ h1 s1 (by rw [← Int.add_assoc]; exact x1))
          (ih2.2.2.1 tag ms (o + sizeof C.w C.T t) off _ _ _ _ _ (by rw [Int.natCast_add, ← Int.add_assoc]; exact h2) s2 x2)
    · intro tag ms off l c l' M M' h hsup hx
      cases is <;> (try (simp [initFirst] at hx; done))
      cases ms with
      | nil => simp [initFirst] at hx
      | cons m ms =>
        simp only [initFirst, Option.bind_eq_some_iff] at hx
        obtain ⟨t, ht, o', ho, x1⟩ := hx
        simp only [init_union, ht] at h
        simp only [SupU, ht, Bool.and_eq_true, decide_eq_true_eq] at hsup
        obtain ⟨e1, s1⟩ := hsup
        rw [ho] at e1; cases e1
        exact ih1.1 _ _ _ _ _ _ _ h s1 (by simpa using x1)
    · intro t off l c l' M M' h hsup hx
      cases is <;> (try (simp [initOne] at hx; done))
      cases x <;> (try (simp [initOne] at hx; done))
      · simp only [initOne, Option.bind_eq_some_iff] at hx
        obtain ⟨⟨v, M1⟩, hv, hst⟩ := hx
        simp only [init_scalar] at h
        simp only [Sup1] at hsup
        exact scalar_sim hl hlib hs h hsup hv hst
      · simp only [initOne, Option.bind_eq_some_iff] at hx
        obtain ⟨⟨v, M1⟩, hv, hst⟩ := hx
        simp only [init_scalar] at h
        exact scalar_sim hl hlib hs h (by simp [Sup]) hv hst

end
end Verif.Sys
