import Verif.Reach.Proofs3
/-! The machine follows the C program: declarations, calls, and everything together. -/
namespace Verif.Reach
open Verif Verif.Gen Verif.Gen.Spec Verif.X86 Verif.X86.Spec Verif.Cg Verif.Cg.Spec Spec
section
variable {C : Ctx} {base : Mach} {P : List Asm} {cs : Nat → Option Fun} {ρ0 : Cg.Spec.Env} {Γ0 : Cg.Env} {G : Int}
variable {ρ : Cg.Spec.Env} {sp : Int} {M M1 M2 M3 : Mem} {pc : Nat} {s : MS} {n : Nat}

theorem m_decl {x : Nat} {t : CTy} {init : Option E} {b : St} (g : Glob C base P cs ρ0) (hl : C.lim ≤ sp - words C t * C.w)
    (hm : Match C P ρ0 Γ0 G (.it ρ (.bdecl x t init b) sp M) pc s) :
    (∀ e, init = some e → scalar C.w t = true →
      Gets C base P ρ0 Γ0 G (.rv (ρ.setVar x t (sp - words C t * C.w)) e (sp - words C t * C.w) (alloc M (sp - words C t * C.w) (sizeof C.w C.T t))) pc s) ∧
    (∀ M2, (match (generalizing := false) init with
        | none => some (alloc M (sp - words C t * C.w) (sizeof C.w C.T t))
        | some e => (evalE C (call C cs ρ0 n) (ρ.setVar x t (sp - words C t * C.w)) e (sp - words C t * C.w) (alloc M (sp - words C t * C.w) (sizeof C.w C.T t))).bind
            fun r => storeT C r.2 (sp - words C t * C.w) t (conv C t r.1)) = some M2 → CallOk C base P Γ0 G (call C cs ρ0 n) →
      Gets C base P ρ0 Γ0 G (.it (ρ.setVar x t (sp - words C t * C.w)) b (sp - words C t * C.w) M2) pc s) := by
  obtain ⟨lab, Γ, Γs, F, fs, l, sw, c, fs', l', sw', h, hg, hs, hsp, h0, hat, hR, hM⟩ := hm
  simp only [codegen_items, Res.bind_eq_ok, Res.ok.injEq, Prod.mk.injEq] at hg
  obtain ⟨k, hk, ⟨ci, f1, l1⟩, h1, ⟨cb, f2, l2, s2⟩, h2, rfl, rfl, -⟩ := hg
  simp only [SupS, Bool.and_eq_true] at hs
  obtain ⟨⟨⟨-, hs1⟩, hs2⟩, hs3⟩ := hs
  have hkw := local_words_eq g.hw hs1 hk
  subst hkw
  have hwn := words_nonneg C t
  have hwg : (sizeof C.w C.T t : Int) ≤ words C t * C.w := by exact_mod_cast words_ge g.hw t
  have hlim := hM.lim
  have hspF : sp ≤ F := by have : 0 ≤ fs * C.w := Int.mul_nonneg h0 (by omega); omega
  have hsp' : sp - words C t * C.w = F - (fs + words C t) * C.w := by rw [Int.add_mul]; omega
  have h' := h.setLocal x (fs + words C t) t (sp - words C t * C.w) hsp' (by omega) (by omega)
  have hM0 : MemOk C (sp - words C t * C.w) (alloc M (sp - words C t * C.w) (sizeof C.w C.T t)) := by
    have := block_mem (n := words C t * C.w) (k := sizeof C.w C.T t) hM (by push_cast; omega) (by push_cast; omega)
    push_cast at this; exact this
  obtain ⟨s1, st1, r1, e1, e2⟩ := grow_steps (base := base) hat.left.left hR
  have r1' : Rel C G (sp - words C t * C.w) (alloc M (sp - words C t * C.w) (sizeof C.w C.T t)) s1 := by
    refine ⟨r1.wf, r1.sp, r1.glo, fun a b hab => ?_, r1.io⟩
    unfold alloc at hab
    dsimp only at hab
    split at hab
    · cases hab
    · exact r1.agree a b hab
  cases init with
  | none =>
    refine ⟨fun e he => (by cases he), fun M2 hi hc => ?_⟩
    simp only [Res.ok.injEq, Prod.mk.injEq] at h1
    obtain ⟨rfl, rfl, -⟩ := h1
    simp only [Option.some.injEq] at hi
    subst hi
    refine ⟨_, s1, st1, none, _, _, F, _, _, _, _, _, _, _, h', h2, hs3, hsp', by simp only; omega, ?_, r1', hM0⟩
    have := hat.right
    simpa [grow_stack, I] using this
  | some e =>
    simp only at h1 hs2
    split at h1
    · cases h1
    split at h1
    · cases h1
    simp only [Res.bind_eq_ok, Res.ok.injEq, Prod.mk.injEq] at h1
    obtain ⟨⟨ce, g1, g2⟩, h3, kk, hkk, stc, hst, rfl, rfl, -⟩ := h1
    have e3 := (fs_all g.hw C.T _ e).1 _ _ _ _ _ h3
    have hatI : At P (pc + 1) (ce ++ I [.pop_reg 0] ++ I stc) := by
      have := hat.left.right
      rw [I_append, ← List.append_assoc] at this
      exact this
    have hs2' : Sup C (Verif.Cg.setLocal Γs x t) (ρ.setVar x t (sp - words C t * C.w)).kind (.low (sizeof C.w C.T t)) e = true := hs2
    refine ⟨fun e' he hsc => ?_, fun M2 hi hc => ?_⟩
    · cases he
      exact ⟨_, s1, st1, _, _, F, .low (sizeof C.w C.T t), _, _, _, _, _, h', h3, sup_of h' hs2', (sizeof_le g.hw C.T hsc).2, hsp', hatI.left.left, r1', hM0⟩
    · simp only [Option.bind_eq_some_iff] at hi
      obtain ⟨⟨v, M3⟩, he, hsto⟩ := hi
      have hsc := storeT_scalar hsto
      have hsz := sizeof_le g.hw C.T hsc
      obtain ⟨s2, r2, o2, d2, m2, tz, sz, st2⟩ := expr_steps g h' hc (md := .low (sizeof C.w C.T t)) (by simp [mdOk]; omega) h3 hs2' he hsp' hatI.left r1' hM0
      rw [type_width_true C.T hkk] at hst
      obtain ⟨s3, q1, q2, q3, q4⟩ := sl_store r2 m2 hst hsto r2.sp (by rw [conv_emod C t v (Nat.le_refl _)]; exact tz)
      have d3 : SameDom M3 M2 := by
        unfold storeT at hsto
        rw [if_pos hsc] at hsto
        exact storeN_dom hsto
      have st3 := go_run (base := base) (w := C.w) hatI.right q1
      have st4 := st1.trans (st2.trans st3)
      refine ⟨_, s3, st4, none, _, _, F, _, _, _, _, _, _, _, h', h2, hs3, ?_, by simp only; omega, ?_, q2, hM0.same (d2.trans d3)⟩
      · rw [hsp']; congr 2; simp only; omega
      · have := hat.right
        simp only [grow_stack, I, List.length_append, List.length_map, List.length_cons, List.length_nil, List.map_append, List.map_cons, List.map_nil] at this ⊢
        rwa [show pc + 1 + (ce.length + (0 + 1)) + stc.length = pc + (0 + 1 + (ce.length + (0 + 1 + stc.length))) by omega]

/-- A call gets to the body of the function. -/
theorem m_body {f : Nat} {fd : Fun} {vs : List Int} (p : Prog C base P cs ρ0 Γ0 G) (hcs : cs f = some fd) (hl : C.lim + C.w ≤ sp)
    (hb : bindParams C fd.params vs sp { ρ0 with rett := fd.ret } M = some (ρ, M1)) (hm : Match C P ρ0 Γ0 G (.fn f vs sp M) pc s) :
    Gets1 C base P ρ0 Γ0 G (.it ρ fd.body (sp - C.w) M1) pc s := by
  obtain ⟨lbl, r, hf, hk, hR, hM, hv⟩ := hm
  obtain ⟨hlk, hret, hsup, l, c, l', i, hg, hat⟩ := p.code f fd lbl r hf hcs
  obtain ⟨b1, b2, b3, b4⟩ := bind_dom p.hw hb (ρ0 := ρ0) (fun f r h => h)
  have hn : (0 : Int) ≤ fd.params.length * C.w := Int.mul_nonneg (by omega) (by omega)
  have hag := bind_agree p.hw hb (m := s.mem) hR.agree hv (by have := hM.lim; omega) hM.top
  rw [b3] at hM
  have h0 := hM.lim
  have ht := hM.top
  have hw0 : 0 < C.w := by rcases p.hw with e | e <;> omega
  have hM1 : MemOk C (sp - C.w) M1 := by
    refine ⟨h0, by omega, fun a ha => ?_⟩
    by_cases hin : sp ≤ a ∧ a < sp + fd.params.length * C.w
    · omega
    · rw [b4 a hin] at ha
      have := hM.dom a ha
      omega
  have hno : ∀ x, C.lim ≤ x → x < sp → M1 x = none := by
    intro x h1 h2
    rw [b4 x (by omega)]
    cases em : M x with
    | none => rfl
    | some b => have := (hM.dom x (by rw [em]; simp)).2.2; omega
  unfold codegen_glo_fun_decl at hg
  split at hg
  · cases hg
  rw [hlk] at hg
  simp only [codegen_statement, Res.bind_eq_ok, Res.ok.injEq, Prod.mk.injEq] at hg
  obtain ⟨ls, hls, ⟨cb, f1, l1, s1⟩, ⟨⟨ci, f2, l2, s2⟩, hci, rfl, rfl, rfl, rfl⟩, rfl, rfl⟩ := hg
  have hil := hat.left.left.left.head
  have st0 : Moves C.w base P _ _ := Real.moves (.inl ⟨Step.call (w := C.w) (base := base.base) (s := s) hk hil, by intro n; simp [hk]⟩)
  obtain ⟨q1, q2, q3⟩ := push_val p.hw hR hM (by omega) hl (sgn C.w (adr C.w base.base P (pc + 1))) (sgn_sgn _ _)
  generalize hs0 : ({ setReg s 4 (sgn C.w (s.reg 4 - C.w)) with
        mem := wr C.w s.mem (sgn C.w (s.reg 4 - C.w)) (sgn C.w (adr C.w base.base P (pc + 1))) C.w } : MS) = s0 at st0 q1
  have hm0 : wr C.w s.mem (sgn C.w (s.reg 4 - C.w)) (sgn C.w (adr C.w base.base P (pc + 1))) C.w = s0.mem := by rw [← hs0]
  rw [hm0] at q2 q3
  have r1 : Rel C G (sp - C.w) M1 s0 := by
    refine ⟨q1.wf, q1.sp, q1.glo, fun x b hx => ?_, q1.io.trans (bind_io hb).symm⟩
    by_cases hin : sp - C.w ≤ x ∧ x < sp
    · rw [hno x (by omega) hin.2] at hx; cases hx
    · rw [q3 x hin]; exact hag x b hx
  have hF : FH C ρ0 Γ0 G { Γ0 with locals := [], loops := [] } { Γ0 with locals := [], loops := [] } { ρ0 with rett := fd.ret } (sp - C.w) := by
    have hr : ∀ x, resolve { Γ0 with locals := [], loops := [] } x = resolve Γ0 x := by
      intro x; unfold resolve lookup_fun; rw [p.loc]
    refine ⟨⟨?_, ?_, ?_, ?_⟩, p.ad, fun f r h => h, ⟨rfl, rfl, rfl, rfl⟩, fun f l r h => by rwa [hr] at h, by omega⟩
    · intro x b hb
      unfold resolve lookup_fun at hb
      simp only [List.find?_nil] at hb
      split at hb
      · cases hb
      · split at hb
        · cases hb
        · split at hb <;> cases hb
    · intro x o t hb; rw [hr] at hb; exact p.env.glo x o t hb
    · intro x o hb; rw [hr] at hb; exact p.env.cst x o hb
    · intro x o t hb; rw [hr] at hb; exact p.env.fn x o t hb
  obtain ⟨hF', hk'⟩ := FH.params p.hw hF hb hls (by omega) (by omega) (by omega)
  have hsb : SupS C ρ.rett fd.body none (paramEnv { Γ0 with locals := [], loops := [] } fd.params) ρ.kind = true := by
    rw [b2, hk']; exact hsup
  refine ⟨_, s0, st0.post (.one (.lbl hil)), none, _, _, sp - C.w, 0, _, _, _, _, _, _, hF', hci, hsb, by omega, Int.le_refl _, hat.left.left.right.left, r1, hM1⟩

/-- How much text an action has. -/
noncomputable def size : Act → Nat
  | .rv _ e _ _ | .lv _ e _ _ | .ar _ e _ _ => 1 + sizeOf e
  | .st _ s _ _ | .it _ s _ _ => 1 + 2 * sizeOf s
  | .lp _ c p b _ _ => 2 + 2 * (sizeOf c + sizeOf p + sizeOf b)
  | .fn .. => 0

theorem size_first {e a : E} (h : firstE e = some a) {ρ sp M ρ' sp' M'} : size (.rv ρ a sp M) < size (.rv ρ' e sp' M') := by
  cases e <;> simp only [firstE, Option.some.injEq, reduceCtorEq] at h <;> subst h <;> simp [size] <;> omega
theorem size_object {e a : E} (h : firstL e = some a) {ρ sp M ρ' sp' M'} : size (.lv ρ a sp M) < size (.rv ρ' e sp' M') := by
  cases e <;> simp only [firstL, Option.some.injEq, reduceCtorEq] at h <;> subst h <;> simp [size] <;> omega
theorem size_both {e a b : E} (h : both e = some (a, b)) {ρ sp M ρ' sp' M'} : size (.rv ρ b sp M) < size (.rv ρ' e sp' M') := by
  cases e <;> simp only [both, Option.some.injEq, Prod.mk.injEq, reduceCtorEq] at h <;> obtain ⟨rfl, rfl⟩ := h <;> simp [size] <;> omega
theorem size_value {e a : E} (h : inValue e = some a) {ρ sp M ρ' sp' M'} : size (.rv ρ a sp M) < size (.lv ρ' e sp' M') := by
  cases e <;> simp only [inValue, Option.some.injEq, reduceCtorEq] at h <;> subst h <;> simp [size] <;> omega
theorem size_inner {e a : E} (h : inObject e = some a) {ρ sp M ρ' sp' M'} : size (.lv ρ a sp M) < size (.lv ρ' e sp' M') := by
  cases e <;> simp only [inObject, Option.some.injEq, reduceCtorEq] at h <;> subst h <;> simp [size] <;> omega

theorem size_enterCase {is : E → Bool} : ∀ {s s' : St}, enterCase is s = some s' → sizeOf s' < sizeOf s := by
  intro s
  induction s <;> intro s' h <;> simp only [enterCase, reduceCtorEq] at h
  case case e s ih =>
    split at h
    · cases h; simp; omega
    · have := ih h; simp; omega
  case dflt s ih => have := ih h; simp; omega
theorem size_enterDflt : ∀ {s s' : St}, enterDflt s = some s' → sizeOf s' < sizeOf s := by
  intro s
  induction s <;> intro s' h <;> simp only [enterDflt, reduceCtorEq] at h
  case case e s ih => have := ih h; simp; omega
  case dflt s ih => cases h; simp
theorem size_from {f : St → Option St} (hf : ∀ {s s'}, f s = some s' → sizeOf s' < sizeOf s) : ∀ {b b' : St}, fromLabel f b = some b' → sizeOf b' < sizeOf b := by
  intro b
  induction b <;> intro b' h <;> simp only [fromLabel, reduceCtorEq] at h
  case bstmt s rest _ ih =>
    split at h
    · rename_i s1 e
      cases h
      have := hf e
      simp; omega
    · have := ih h; simp; omega
  case bdecl x t i rest ih => have := ih h; simp; omega
theorem size_case {is : E → Bool} {b b' : St} (h : fromLabel (enterCase is) b = some b') {ρ e sp M ρ' sp' M'} : size (.it ρ b' sp M) < size (.st ρ' (.switch e (.blk b)) sp' M') := by
  have := size_from (fun h => size_enterCase h) h
  simp [size]; omega
theorem size_dflt {b b' : St} (h : fromLabel enterDflt b = some b') {ρ e sp M ρ' sp' M'} : size (.it ρ b' sp M) < size (.st ρ' (.switch e (.blk b)) sp' M') := by
  have := size_from (fun h => size_enterDflt h) h
  simp [size]; omega

/-- The machine follows every step. -/
theorem leads1 (M0 : Mem) (p : Prog C base P cs ρ0 Γ0 G) (hlib : LibOk C base P cs Γ0 G) {a b : Act} (h : Leads C cs ρ0 a b) (hm : Match C P ρ0 Γ0 G a pc s) :
    (Gets C base P ρ0 Γ0 G b pc s ∧ size b < size a) ∨ Gets1 C base P ρ0 Γ0 G b pc s := by
  have g := p.toGlob
  have hcl := fun n => (code_ok p hlib n).2.2.2
  have hsv := fun n => (code_ok p hlib n).1
  cases h with
  | first _ h => exact .inl ⟨m_first h hm, size_first h⟩
  | cast _ h => exact .inl ⟨m_cast g h hm, by simp [size] <;> omega⟩
  | object _ h => exact .inl ⟨m_object h hm, size_object h⟩
  | lnot hr => exact .inl ⟨m_lnot g hr hm, by simp [size] <;> omega⟩
  | right _ h he => exact .inl ⟨m_right g (hcl _) h he hm, size_both h⟩
  | assign _ ht hsc he => exact .inl ⟨m_assign g (hcl _) ht hsc he hm, by simp [size] <;> omega⟩
  | opassign hr ht he hva => exact .inl ⟨m_opassign g (hcl _) hr ht he hva hm, by simp [size] <;> omega⟩
  | land hr he hv => exact .inl ⟨m_land g (hcl _) hr he hv hm, by simp [size] <;> omega⟩
  | lor hr he => exact .inl ⟨m_lor g (hcl _) hr he hm, by simp [size] <;> omega⟩
  | condT _ he hv => exact .inl ⟨m_cond g (hcl _) he (by rw [if_neg hv]) hm, by simp [size] <;> omega⟩
  | condF _ he => exact .inl ⟨m_cond g (hcl _) he (by rw [if_pos rfl]) hm, by simp [size] <;> omega⟩
  | args _ => exact .inl ⟨m_args hm, by simp [size] <;> omega⟩
  | call _ he => exact .inl ⟨m_call g (hcl _) he hm, by simp [size] <;> omega⟩
  | value _ h => exact .inl ⟨m_value h hm, size_value h⟩
  | inner _ h => exact .inl ⟨m_inner h hm, size_inner h⟩
  | index _ he => exact .inl ⟨m_index g (hcl _) he hm, by simp [size] <;> omega⟩
  | others => exact .inl ⟨m_others hm, by simp [size] <;> omega⟩
  | arg he => exact .inl ⟨m_arg g (hcl _) he hm, by simp [size] <;> omega⟩
  | expr => exact .inl ⟨m_expr hm, by simp [size] <;> omega⟩
  | ifC => exact .inl ⟨m_ifC hm, by simp [size] <;> omega⟩
  | ifT he hv => exact .inl ⟨m_if g (hcl _) he (by rw [if_neg hv]) hm, by simp [size] <;> omega⟩
  | ifF he => exact .inl ⟨m_if g (hcl _) he (by rw [if_pos rfl]) hm, by simp [size] <;> omega⟩
  | whileC => exact .inl ⟨m_whileC hm, by simp [size] <;> omega⟩
  | whileB he hv => exact .inl ⟨(m_while (M2 := M0) g (hcl _) he hv hm).1, by simp [size] <;> omega⟩
  | whileN he hv hx ho => exact .inr ((m_while g (hcl _) he hv hm).2 (hsv _) _ hx ho)
  | forI => exact .inl ⟨m_forI g hm, by simp [size] <;> omega⟩
  | forL hx => exact .inl ⟨m_forL g (hsv _) hx hm, by simp [size] <;> omega⟩
  | forC => exact .inl ⟨m_forC hm, by simp [size] <;> omega⟩
  | forB he hv => exact .inl ⟨(m_for (M2 := M0) (M3 := M0) g (hcl _) he hv hm).1, by simp [size] <;> omega⟩
  | forS he hv hx ho => exact .inl ⟨((m_for (M3 := M0) g (hcl _) he hv hm).2 (hsv _) _ hx ho).1, by simp [size] <;> omega⟩
  | forN he hv hx ho hp => exact .inr (((m_for g (hcl _) he hv hm).2 (hsv _) _ hx ho).2 hp)
  | doB => exact .inl ⟨m_doB hm, by simp [size] <;> omega⟩
  | doC hx ho => exact .inl ⟨(m_do (M2 := M0) g (hcl _) (hsv _) hx ho hm).1, by simp [size] <;> omega⟩
  | doN hx ho he hv => exact .inr ((m_do g (hcl _) (hsv _) hx ho hm).2 _ he hv)
  | switchE => exact .inl ⟨m_switchE hm, by simp [size] <;> omega⟩
  | switchC hr hte ht he hb => exact .inl ⟨m_switch g (hcl _) hr hte ht he (.inl hb) hm, size_case hb⟩
  | switchD hr hte ht he hb hd => exact .inl ⟨m_switch g (hcl _) hr hte ht he (.inr ⟨hb, hd⟩) hm, size_dflt hd⟩
  | case => exact .inl ⟨m_case g hm, by simp [size] <;> omega⟩
  | dflt => exact .inl ⟨m_dflt hm, by simp [size] <;> omega⟩
  | ret => exact .inl ⟨m_ret hm, by simp [size] <;> omega⟩
  | blk => exact .inl ⟨m_blk hm, by simp [size] <;> omega⟩
  | stmt => exact .inl ⟨m_stmt hm, by simp [size] <;> omega⟩
  | rest hx => exact .inl ⟨m_rest g (hsv _) hx hm, by simp [size] <;> omega⟩
  | init hl hsc => exact .inl ⟨(m_decl (n := 0) g hl hm).1 _ rfl hsc, by simp [size] <;> omega⟩
  | decl hl => exact .inl ⟨(m_decl (n := 0) g hl hm).2 _ rfl (hcl _), by simp [size] <;> omega⟩
  | declI hl he hst => exact .inl ⟨(m_decl g hl hm).2 _ (by show (evalE ..).bind _ = _; rw [he]; exact hst) (hcl _), by simp [size] <;> omega⟩
  | body hcs hl hb => exact .inr (m_body p hcs hl hb hm)

theorem leads (p : Prog C base P cs ρ0 Γ0 G) (hlib : LibOk C base P cs Γ0 G) {a b : Act} (h : Leads C cs ρ0 a b) (hm : Match C P ρ0 Γ0 G a pc s) :
    Gets C base P ρ0 Γ0 G b pc s := by
  rcases leads1 ⟨fun _ => none, []⟩ p hlib h hm with h | h
  · exact h.1
  · exact h.gets

theorem reaches (p : Prog C base P cs ρ0 Γ0 G) (hlib : LibOk C base P cs Γ0 G) {a b : Act} (h : Reaches C cs ρ0 a b) :
    ∀ {pc s}, Match C P ρ0 Γ0 G a pc s → Gets C base P ρ0 Γ0 G b pc s := by
  induction h with
  | here => intro pc s hm; exact hm.gets
  | step h _ ih =>
    intro pc s hm
    obtain ⟨pc', s', st, hm'⟩ := leads p hlib h hm
    exact (ih hm').pre st

/-- At least `n` instructions are executed. -/
inductive Long (w : Nat) (K : Mach) (P : List Asm) : Nat → Nat × MS → Prop
  | zero {a} : Long w K P 0 a
  | succ {n a b} : Moves w K P a b → Long w K P n b → Long w K P (n + 1) a

theorem Long.pre {w : Nat} {K : Mach} {P : List Asm} {n : Nat} {a b : Nat × MS} (st : Go w K P a b) (h : Long w K P n b) : Long w K P n a := by
  cases h with
  | zero => exact .zero
  | succ h1 h2 => exact .succ (h1.pre st) h2

/-- A C program that goes on for ever keeps the machine going. -/
theorem endless (p : Prog C base P cs ρ0 Γ0 G) (hlib : LibOk C base P cs Γ0 G) {f : Nat → Act} (h : ∀ i, Leads C cs ρ0 (f i) (f (i + 1))) :
    ∀ (n k i : Nat), size (f i) ≤ k → ∀ {pc s}, Match C P ρ0 Γ0 G (f i) pc s → Long C.w base P n (pc, s) := by
  intro n
  induction n with
  | zero => intros; exact .zero
  | succ n ih =>
    intro k
    induction k with
    | zero =>
      intro i hk pc s hm
      rcases leads1 ⟨fun _ => none, []⟩ p hlib (h i) hm with ⟨_, h1⟩ | ⟨pc', s', h1, h2⟩
      · omega
      · exact .succ h1 (ih _ _ (Nat.le_refl _) h2)
    | succ k ihk =>
      intro i hk pc s hm
      rcases leads1 ⟨fun _ => none, []⟩ p hlib (h i) hm with ⟨⟨pc', s', h2, h3⟩, h1⟩ | ⟨pc', s', h1, h2⟩
      · exact (ihk (i + 1) (by omega) h3).pre h2
      · exact .succ h1 (ih _ _ (Nat.le_refl _) h2)

end
end Verif.Reach
