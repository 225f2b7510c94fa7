import Verif.Cg.Stmt3
/-! Correctness of the code of statements: simple statements, blocks and declarations. -/
namespace Verif.Cg
open Verif Verif.Gen Verif.Gen.Spec Verif.X86 Verif.X86.Spec Spec
section
variable {C : Ctx} {base : Mach} {P : List Asm} {cs : Nat → Option Fun} {ρ0 : Spec.Env} {Γ0 : Env} {G : Int}
variable {F : Int} {rett : CTy} {lps : List Loop}

theorem sv_skip {n : Nat} : SVs C base P cs ρ0 Γ0 G (n + 1) .skip := by
  intro lab Γ Γs ρ F fs l sw c fs' l' sw' sp M o M' pc ms hg hs h hx hsp h0 hat hR hM
  simp only [codegen_statement, Res.ok.injEq, Prod.mk.injEq] at hg
  obtain ⟨rfl, -⟩ := hg
  simp only [exec, Option.some.injEq, Prod.mk.injEq] at hx
  obtain ⟨rfl, rfl⟩ := hx
  exact Done.norm (Outside.refl _ _ _ _) hR .refl

theorem sv_expr {n : Nat} (g : Glob C base P cs ρ0) (hc : CallOk C base P Γ0 G (call C cs ρ0 n)) (e : E) : SVs C base P cs ρ0 Γ0 G (n + 1) (.expr e) := by
  intro lab Γ Γs ρ F fs l sw c fs' l' sw' sp M o M' pc ms hg hs h hx hsp h0 hat hR hM
  simp only [codegen_statement, Res.bind_eq_ok, Res.ok.injEq, Prod.mk.injEq] at hg
  obtain ⟨⟨ce, f1, l1⟩, h1, rfl, -⟩ := hg
  simp only [exec, Option.bind_eq_some_iff, Option.some.injEq, Prod.mk.injEq] at hx
  obtain ⟨⟨v, M1⟩, he, rfl, rfl⟩ := hx
  simp only [SupS] at hs
  obtain ⟨s', r1, o1, d1, m1, -, -, st⟩ := expr_steps g h hc (md := .low 0) (by simp [mdOk]) h1 hs he hsp hat hR hM
  exact Done.norm o1 r1 st

theorem sv_brk {n : Nat} : SVs C base P cs ρ0 Γ0 G (n + 1) .brk := by
  intro lab Γ Γs ρ F fs l sw c fs' l' sw' sp M o M' pc ms hg hs h hx hsp h0 hat hR hM
  simp only [codegen_statement] at hg
  simp only [exec, Option.some.injEq, Prod.mk.injEq] at hx
  obtain ⟨rfl, rfl⟩ := hx
  split at hg
  · cases hg
  · rename_i lp lps e
    simp only [Res.ok.injEq, Prod.mk.injEq] at hg
    obtain ⟨rfl, rfl, -⟩ := hg
    obtain ⟨s1, st, r1, e1, e2⟩ := grow_steps (base := base) hat.left hR
    refine ⟨s1, fun x _ _ => by rw [e1], lp, by rw [e]; rfl, ?_, fun i hi => st.trans (.one (.jmp hat.right.head hi))⟩
    rwa [show sp - (lp.fs - fs) * C.w = F - lp.fs * C.w by rw [hsp, Int.sub_mul]; omega] at r1

theorem sv_cont {n : Nat} : SVs C base P cs ρ0 Γ0 G (n + 1) .cont := by
  intro lab Γ Γs ρ F fs l sw c fs' l' sw' sp M o M' pc ms hg hs h hx hsp h0 hat hR hM
  simp only [codegen_statement] at hg
  simp only [exec, Option.some.injEq, Prod.mk.injEq] at hx
  obtain ⟨rfl, rfl⟩ := hx
  split at hg
  · rename_i lfs lb lc e
    simp only [Res.ok.injEq, Prod.mk.injEq] at hg
    obtain ⟨rfl, rfl, -⟩ := hg
    obtain ⟨s1, st, r1, e1, e2⟩ := grow_steps (base := base) hat.left hR
    refine ⟨s1, fun x _ _ => by rw [e1], ⟨lfs, lb, some lc⟩, lc, e, rfl, ?_, fun i hi => st.trans (.one (.jmp hat.right.head hi))⟩
    rwa [show sp - (lfs - fs) * C.w = F - lfs * C.w by rw [hsp, Int.sub_mul]; omega] at r1
  · cases hg

theorem sv_ret {n : Nat} (g : Glob C base P cs ρ0) (hc : CallOk C base P Γ0 G (call C cs ρ0 n)) (e : Option E) : SVs C base P cs ρ0 Γ0 G (n + 1) (.ret e) := by
  intro lab Γ Γs ρ F fs l sw c fs' l' sw' sp M o M' pc ms hg hs h hx hsp h0 hat hR hM
  cases e with
  | none =>
    simp only [codegen_statement, Res.bind_ok, Res.ok.injEq, Prod.mk.injEq] at hg
    obtain ⟨rfl, rfl, -⟩ := hg
    simp only [exec, Option.ite_none_right_eq_some, Option.some.injEq, Prod.mk.injEq] at hx
    obtain ⟨hv, rfl, rfl⟩ := hx
    obtain ⟨s1, st, r1, e1, e2⟩ := grow_steps (base := base) hat.left.right hR
    refine ⟨s1, fun x _ _ => by rw [e1], ?_, fun h => absurd hv h, _, hat.right.head, st⟩
    rwa [show sp - -fs * C.w = F by rw [hsp, Int.neg_mul]; omega] at r1
  | some e =>
    simp only [codegen_statement, Res.bind_eq_ok, Res.ok.injEq, Prod.mk.injEq] at hg
    obtain ⟨⟨c1, f1, l1⟩, ⟨⟨ce, f2, l2⟩, h1, rfl, rfl, rfl⟩, rfl, rfl, -⟩ := hg
    simp only [exec, Option.ite_none_right_eq_some, Option.bind_eq_some_iff, Option.some.injEq, Prod.mk.injEq] at hx
    obtain ⟨hsc, ⟨v, M1⟩, he, rfl, rfl⟩ := hx
    simp only [SupS, Bool.and_eq_true] at hs
    obtain ⟨hs1, hs2⟩ := hs
    have e0 := (fs_all g.hw C.T Γ e).1 _ _ _ _ _ h1
    obtain ⟨s', r1, o1, d1, m1, tz, sz, st⟩ := expr_steps g h hc (md := .low C.w) (by simp [mdOk]) h1 hs1 he hsp hat.left.left hR hM
    have H := h.hyp g hc
    obtain ⟨te, ht, fb⟩ := val_fits H (low_w H) (by rw [(Sup_eq h.ty ρ.kind e).1]; exact hs1) he
    rw [ht] at hs2
    have zz := topOk_full sz tz
    obtain ⟨s2, st2, r2, e1, e2⟩ := grow_steps (base := base) hat.left.right r1
    refine ⟨s2, fun x h1 h2 => by rw [e1]; exact o1 x h1 h2, ?_, fun _ => ?_, _, hat.right.head, ?_⟩
    · rwa [show sp - -(f2 - 1) * C.w = F by rw [e0, hsp, Int.neg_mul, show fs + 1 - 1 = fs by omega]; omega] at r2
    · rw [e2, zz]
      exact (convOk_val g.hw hs2 fb.1 fb.2).symm
    · have := st.trans st2
      simp only [List.length_append, ← Nat.add_assoc] at this ⊢
      exact this

theorem sv_blk {n : Nat} (g : Glob C base P cs ρ0) (ih : IV C base P cs ρ0 Γ0 G n) (b : St) : SVs C base P cs ρ0 Γ0 G (n + 1) (.blk b) := by
  intro lab Γ Γs ρ F fs l sw c fs' l' sw' sp M o M' pc ms hg hs h hx hsp h0 hat hR hM
  simp only [codegen_statement, Res.bind_eq_ok, Res.ok.injEq, Prod.mk.injEq] at hg
  obtain ⟨⟨cb, f1, l1, s1⟩, h1, rfl, rfl, -⟩ := hg
  simp only [exec] at hx
  simp only [SupS] at hs
  have B := ih b none Γ Γs ρ F _ _ _ _ _ _ _ sp M o M' pc ms h1 hs h hx hsp h0 hat.left hR hM
  refine B.post ((exec_dom g.hw g.ft n).2.1 _ _ _ _ _ _ h.kfn hx hM) fun s hs => ?_
  obtain ⟨s1, st, r1, e1, e2⟩ := grow_steps (base := base) hat.right hs
  refine ⟨s1, ?_, ?_, fun x _ _ => by rw [e1]⟩
  · rw [List.length_append, ← Nat.add_assoc]; exact st
  · rwa [show F - f1 * C.w - (fs - f1) * C.w = sp by rw [hsp, Int.sub_mul]; omega] at r1

theorem iv_nil {n : Nat} : IVs C base P cs ρ0 Γ0 G (n + 1) .bnil := by
  intro lab Γ Γs ρ F fs l sw c fs' l' sw' sp M o M' pc ms hg hs h hx hsp h0 hat hR hM
  simp only [codegen_items, Res.ok.injEq, Prod.mk.injEq] at hg
  obtain ⟨rfl, rfl, -⟩ := hg
  simp only [execItems, Option.some.injEq, Prod.mk.injEq] at hx
  obtain ⟨rfl, rfl⟩ := hx
  exact Done.norm (Outside.refl _ _ _ _) (by rw [← hsp]; exact hR) .refl

theorem iv_stmt {n : Nat} (g : Glob C base P cs ρ0) (ih : SV C base P cs ρ0 Γ0 G n) (ihi : IV C base P cs ρ0 Γ0 G n) (a b : St) :
    IVs C base P cs ρ0 Γ0 G (n + 1) (.bstmt a b) := by
  intro lab Γ Γs ρ F fs l sw c fs' l' sw' sp M o M' pc ms hg hs h hx hsp h0 hat hR hM
  simp only [codegen_items, Res.bind_eq_ok, Res.ok.injEq, Prod.mk.injEq] at hg
  obtain ⟨⟨ca, f1, l1, s1⟩, h1, ⟨cb, f2, l2, s2⟩, h2, rfl, rfl, -⟩ := hg
  have e1 := (fs_stmt g.hw C.T _).1 _ _ _ _ _ _ _ _ h1
  simp only at e1 h2
  subst e1
  simp only [execItems, Option.bind_eq_some_iff] at hx
  obtain ⟨⟨oa, M1⟩, ha, hx⟩ := hx
  simp only [SupS, Bool.and_eq_true] at hs
  have A := ih a lab Γ Γs ρ F _ _ _ _ _ _ _ sp M oa M1 pc ms h1 hs.1 h ha hsp h0 hat.left hR hM
  have d1 := (exec_dom g.hw g.ft n).1 _ _ _ _ _ _ h.kfn ha hM
  cases oa with
  | norm =>
    obtain ⟨s1, k1, k2, k3⟩ := A
    have B := ihi b lab Γ Γs ρ F _ _ _ _ _ _ _ sp M1 o M' _ s1 h2 hs.2 h hx hsp h0 hat.right k3 (hM.same d1)
    rw [List.length_append, ← Nat.add_assoc]
    exact B.pre k2 k1 d1
  | _ =>
    simp only [Option.some.injEq, Prod.mk.injEq] at hx
    obtain ⟨rfl, rfl⟩ := hx
    exact A.out (by simp)

theorem local_words_eq {C : Ctx} (hw : C.w = 4 ∨ C.w = 8) {t : CTy} {n : Nat} (hd : declOk C t = true) (h : local_words C.w C.T t = .ok n) : n = words C t := by
  unfold local_words at h
  unfold words
  split at h
  · simp only [Res.bind_eq_ok, Res.ok.injEq] at h
    obtain ⟨k, hk, rfl⟩ := h
    rw [type_width_true C.T hk]
    rcases hw with e | e <;> rw [e] <;> omega
  · rename_i ha
    simp only [Res.ok.injEq] at h
    subst h
    cases t <;> simp [is_aggregate_type] at ha <;> simp only [sizeof, declOk, decide_eq_true_eq] at hd ⊢ <;> rcases hw with e | e <;> simp [e] at hd ⊢

theorem Fin.free {a : Nat × MS} {pcN : Nat} {spN : Int} {M M' : Mem} {s' : MS} {o : Out} (hio : M.io = M'.io) (hm : ∀ x b, M' x = some (some b) → M x = some (some b))
    (h : Fin C base P G F rett lps a pcN spN M s' o) : Fin C base P G F rett lps a pcN spN M' s' o := by
  have r : ∀ {sp}, Rel C G sp M s' → Rel C G sp M' s' := fun h => ⟨h.wf, h.sp, h.glo, fun x b hx => h.agree x b (hm x b hx), h.io.trans hio⟩
  cases o with
  | norm => exact ⟨h.1, r h.2⟩
  | brk => obtain ⟨lp, h1, h2, h3⟩ := h; exact ⟨lp, h1, r h2, h3⟩
  | cont => obtain ⟨lp, lc, h1, h2, h3, h4⟩ := h; exact ⟨lp, lc, h1, h2, r h3, h4⟩
  | ret v => obtain ⟨h1, h2, h3⟩ := h; exact ⟨r h1, h2, h3⟩

theorem iv_decl {n : Nat} (g : Glob C base P cs ρ0) (hc : CallOk C base P Γ0 G (call C cs ρ0 n)) (ihi : IV C base P cs ρ0 Γ0 G n) (x : Nat) (t : CTy) (init : Option E) (b : St) :
    IVs C base P cs ρ0 Γ0 G (n + 1) (.bdecl x t init b) := by
  intro lab Γ Γs ρ F fs l sw c fs' l' sw' sp M o M' pc ms hg hs h hx hsp h0 hat hR hM
  simp only [codegen_items, Res.bind_eq_ok, Res.ok.injEq, Prod.mk.injEq] at hg
  obtain ⟨k, hk, ⟨ci, f1, l1⟩, h1, ⟨cb, f2, l2, s2⟩, h2, rfl, rfl, -⟩ := hg
  simp only [SupS, Bool.and_eq_true] at hs
  obtain ⟨⟨⟨-, hs1⟩, hs2⟩, hs3⟩ := hs
  have hkw := local_words_eq g.hw hs1 hk
  subst hkw
  simp only [execItems, Option.ite_none_right_eq_some, Option.bind_eq_some_iff, Option.some.injEq, Prod.mk.injEq] at hx
  obtain ⟨hl, M1, hi, ⟨o', M2⟩, hb, rfl, rfl⟩ := hx
  have hwn := words_nonneg C t
  have hwg : (sizeof C.w C.T t : Int) ≤ words C t * C.w := by exact_mod_cast words_ge g.hw t
  have hlim := hM.lim
  have hspF : sp ≤ F := by have : 0 ≤ fs * C.w := Int.mul_nonneg h0 (by omega); omega
  have hsp' : sp - words C t * C.w = F - (fs + words C t) * C.w := by rw [Int.add_mul]; omega
  have h' := h.setLocal x (fs + words C t) t (sp - words C t * C.w) hsp' (by omega) (by omega)
  have hM0 : MemOk C (sp - words C t * C.w) (alloc M (sp - words C t * C.w) (sizeof C.w C.T t)) := by
    have := block_mem (n := words C t * C.w) (k := sizeof C.w C.T t) hM (by push_cast; omega) (by push_cast; omega)
    push_cast at this; exact this
  obtain ⟨s1, st1, r1, e1, e2⟩ := grow_steps (base := base) hat.left.left hR
  have r1' : Rel C G (sp - words C t * C.w) (alloc M (sp - words C t * C.w) (sizeof C.w C.T t)) s1 := by
    refine ⟨r1.wf, r1.sp, r1.glo, fun a b hab => ?_, r1.io⟩
    unfold alloc at hab
    dsimp only at hab
    split at hab
    · cases hab
    · exact r1.agree a b hab
  -- the initializer
  have hi2 : f1 = fs + words C t ∧ ∃ s2, Rel C G (sp - words C t * C.w) M1 s2 ∧ SameDom (alloc M (sp - words C t * C.w) (sizeof C.w C.T t)) M1 ∧
      Outside C (alloc M (sp - words C t * C.w) (sizeof C.w C.T t)) (sp - words C t * C.w) s1 s2 ∧
      Go C.w base P (pc + 1, s1) (pc + 1 + ci.length, s2) := by
    cases init with
    | none =>
      simp only [Res.ok.injEq, Prod.mk.injEq] at h1
      obtain ⟨rfl, rfl, -⟩ := h1
      simp only [Option.some.injEq] at hi
      subst hi
      exact ⟨rfl, s1, r1', SameDom.refl _, Outside.refl _ _ _ _, .refl⟩
    | some e =>
      simp only at h1 hi hs2
      split at h1
      · cases h1
      split at h1
      · cases h1
      simp only [Res.bind_eq_ok, Res.ok.injEq, Prod.mk.injEq] at h1
      obtain ⟨⟨ce, g1, g2⟩, h3, kk, hkk, stc, hst, rfl, rfl, -⟩ := h1
      have e3 := (fs_all g.hw C.T _ e).1 _ _ _ _ _ h3
      simp only [Option.bind_eq_some_iff] at hi
      obtain ⟨⟨v, M3⟩, he, hsto⟩ := hi
      have hsc := storeT_scalar hsto
      have hsz := sizeof_le g.hw C.T hsc
      have hatI : At P (pc + 1) (ce ++ I [.pop_reg 0] ++ I stc) := by
        have := hat.left.right
        rw [I_append, ← List.append_assoc] at this
        exact this
      have hs2' : Sup C (Verif.Cg.setLocal Γs x t) (ρ.setVar x t (sp - words C t * C.w)).kind (.low (sizeof C.w C.T t)) e = true := hs2
      obtain ⟨s2, r2, o2, d2, m2, tz, sz, st2⟩ := expr_steps g h' hc (md := .low (sizeof C.w C.T t)) (by simp [mdOk]; omega) h3 hs2' he hsp' hatI.left r1' hM0
      rw [type_width_true C.T hkk] at hst
      obtain ⟨s3, q1, q2, q3, q4⟩ := sl_store r2 m2 hst hsto r2.sp (by rw [conv_emod C t v (Nat.le_refl _)]; exact tz)
      have d3 : SameDom M3 M1 := by
        unfold storeT at hsto
        rw [if_pos hsc] at hsto
        exact storeN_dom hsto
      refine ⟨by simp only; omega, s3, q2, d2.trans d3, o2.trans d2 (fun a ha _ => q4 a ha) (Int.le_refl _) (Int.le_refl _), ?_⟩
      have st3 := go_run (base := base) (w := C.w) hatI.right q1
      have := st2.trans st3
      simp only [List.length_append, I_length, ← Nat.add_assoc] at this ⊢
      exact this
  obtain ⟨rfl, s2, r2, d2, o2, st2⟩ := hi2
  simp only at h2
  have B := ihi b none _ _ _ F _ _ _ _ _ _ _ (sp - words C t * C.w) M1 o' M2 _ s2 h2 hs3 h' hb hsp' (by omega) hat.right r2 (hM0.same d2)
  obtain ⟨s3, k1, k2⟩ := B
  have o3 := o2.trans d2 k1 (Int.le_refl _) (Int.le_refl _)
  refine ⟨s3, ?_, ?_⟩
  · intro a ha hn
    rw [o3 a (by unfold alloc; dsimp only; rw [if_neg (by omega)]; exact ha) (by omega)]
    show s1.mem a = ms.mem a
    rw [e1]
  · have k3 : Fin C base P G F ρ.rett Γ.loops (pc, ms) _ _ M2 s3 o' := Fin.pre (a0 := (pc, ms)) ?_ k2
    · rw [show pc + (grow_stack C.w (words C t) ++ ci ++ cb).length = pc + (grow_stack C.w (words C t) ++ ci).length + cb.length by simp; omega]
      refine Fin.free ?_ ?_ k3
      · rfl
      intro a b hab
      unfold free at hab
      dsimp only at hab
      split at hab
      · cases hab
      · exact hab
    · have := st1.trans st2
      simpa [grow_stack, I, Nat.add_assoc, Nat.add_comm 1] using this

end
end Verif.Cg
