import Verif.Cg.Dom
/-! Lemmas for the proof of the code of statements: environments, depth of the stack. -/
namespace Verif.Cg
open Verif Verif.Gen Verif.Gen.Spec Verif.X86 Verif.X86.Spec Spec

/-- A local variable without its position. -/
def strip (b : Local) : Local := { b with pos := 0 }

/-- The same names and types are in scope. -/
structure TyEq (Γ1 Γ2 : Env) : Prop where
  loc : Γ1.locals.map strip = Γ2.locals.map strip
  glo : Γ1.globals = Γ2.globals
  fn : Γ1.funs = Γ2.funs
  enum : Γ1.enums = Γ2.enums

theorem find_strip (x : Nat) (ls : List Local) : (ls.map strip).find? (·.name = x) = (ls.find? (·.name = x)).map strip := by
  rw [List.find?_map]; rfl

theorem resolve_eq {Γ1 Γ2 : Env} (h : TyEq Γ1 Γ2) (x : Nat) :
    (∃ b1 b2, resolve Γ1 x = .ok (.loc b1) ∧ resolve Γ2 x = .ok (.loc b2) ∧ strip b1 = strip b2) ∨ resolve Γ1 x = resolve Γ2 x := by
  have e := find_strip x Γ1.locals
  rw [h.loc, find_strip x Γ2.locals] at e
  unfold resolve lookup_fun
  rw [h.glo, h.fn, h.enum]
  cases e1 : Γ1.locals.find? (·.name = x) with
  | none =>
    cases e2 : Γ2.locals.find? (·.name = x) with
    | none => exact .inr rfl
    | some b => rw [e1, e2] at e; cases e
  | some b =>
    cases e2 : Γ2.locals.find? (·.name = x) with
    | none => rw [e1, e2] at e; cases e
    | some b2 =>
      rw [e1, e2] at e
      simp only [Option.map_some, Option.some.injEq] at e
      exact .inl ⟨b, b2, rfl, rfl, e.symm⟩

theorem value_type_eq {Γ1 Γ2 : Env} (h : TyEq Γ1 Γ2) (T : Tags) (e : E) : value_type T Γ1 e = value_type T Γ2 e := by
  have hf : ∀ f, lookup_fun Γ1 f = lookup_fun Γ2 f := by intro f; unfold lookup_fun; rw [h.fn]
  induction e with
  | var x =>
    simp only [value_type]
    rcases resolve_eq h x with ⟨b1, b2, e1, e2, e3⟩ | e
    · rw [e1, e2]
      have : b1.ty = b2.ty := by have := congrArg Local.ty e3; simpa [strip] using this
      simp [Res.bind, this]
    · rw [e]
  | _ => simp only [value_type, hf, *]

theorem vt_eq {C : Ctx} {Γ1 Γ2 : Env} (h : TyEq Γ1 Γ2) (e : E) : vt C Γ1 e = vt C Γ2 e := by
  unfold vt; rw [value_type_eq h]

theorem Sup_eq {C : Ctx} {Γ1 Γ2 : Env} (h : TyEq Γ1 Γ2) (κ : Nat → Option VK) (e : E) :
    (∀ m, Sup C Γ1 κ m e = Sup C Γ2 κ m e) ∧ SupL C Γ1 κ e = SupL C Γ2 κ e ∧ SupA C Γ1 κ e = SupA C Γ2 κ e := by
  have hv := fun e => vt_eq h e (C := C)
  induction e with
  | land a b iha ihb =>
    refine ⟨fun m => ?_, by simp only [SupL], by simp only [SupA]⟩
    rw [Sup.eq_def, Sup.eq_def C Γ2]; simp only [iha.1, ihb.1]
  | lor a b iha ihb =>
    refine ⟨fun m => ?_, by simp only [SupL], by simp only [SupA]⟩
    rw [Sup.eq_def, Sup.eq_def C Γ2]; simp only [iha.1, ihb.1]
  | _ => 
    refine ⟨fun m => ?_, ?_, ?_⟩ <;> simp only [Sup, SupL, SupA, hv, *]

theorem TyEq.loops {Γ1 Γ2 : Env} (h : TyEq Γ1 Γ2) (lp : List Loop) : TyEq { Γ1 with loops := lp } Γ2 := ⟨h.loc, h.glo, h.fn, h.enum⟩

theorem TyEq.setLocal {Γ1 Γ2 : Env} (h : TyEq Γ1 Γ2) (x : Nat) (pos : Int) (t : CTy) :
    TyEq { Γ1 with locals := ⟨x, pos, t, false⟩ :: Γ1.locals } (setLocal Γ2 x t) :=
  ⟨by simp [Verif.Cg.setLocal, strip, h.loc], h.glo, h.fn, h.enum⟩

/-- The depth of the stack after a statement is that before. -/
theorem fs_stmt {w : Nat} (hw : w = 4 ∨ w = 8) (T : Tags) (s : St) :
    (∀ Γ fs l sw c fs' l' sw', codegen_statement w T Γ s fs l sw = .ok (c, fs', l', sw') → fs' = fs) ∧
    (∀ Γ fs l sw c fs' l' sw', codegen_items w T Γ s fs l sw = .ok (c, fs', l', sw') → fs ≤ fs') := by
  have ee : ∀ {Γ e fs l c fs' l'}, codegen_rvalue w T Γ e fs l = .ok (c, fs', l') → fs' = fs + 1 := fun h => (fs_all hw T _ _).1 _ _ _ _ _ h
  induction s with
  | ifte c a b iha ihb =>
    refine ⟨?_, by intro _ _ _ _ _ _ _ _ h; simp [codegen_items] at h⟩
    intro Γ fs l sw c fs' l' sw' h
    simp only [codegen_statement, Res.bind_eq_ok, Res.ok.injEq, Prod.mk.injEq] at h
    obtain ⟨⟨c1, f1, l1⟩, h1, ⟨c2, f2, l2, s2⟩, h2, ⟨c3, f3, l3, s3⟩, h3, _, rfl, _⟩ := h
    have := ee h1; have := iha.1 _ _ _ _ _ _ _ _ h2; have := ihb.1 _ _ _ _ _ _ _ _ h3
    simp only at *; omega
  | whil c b ih =>
    refine ⟨?_, by intro _ _ _ _ _ _ _ _ h; simp [codegen_items] at h⟩
    intro Γ fs l sw c fs' l' sw' h
    simp only [codegen_statement, Res.bind_eq_ok, Res.ok.injEq, Prod.mk.injEq] at h
    obtain ⟨_, _, _, _, _, rfl, _⟩ := h; rfl
  | forr i c p b _ _ _ =>
    refine ⟨?_, by intro _ _ _ _ _ _ _ _ h; simp [codegen_items] at h⟩
    intro Γ fs l sw c fs' l' sw' h
    simp only [codegen_statement, Res.bind_eq_ok, Res.ok.injEq, Prod.mk.injEq] at h
    obtain ⟨_, _, _, _, _, _, _, _, _, rfl, _⟩ := h; rfl
  | doW b c _ =>
    refine ⟨?_, by intro _ _ _ _ _ _ _ _ h; simp [codegen_items] at h⟩
    intro Γ fs l sw c fs' l' sw' h
    simp only [codegen_statement, Res.bind_eq_ok, Res.ok.injEq, Prod.mk.injEq] at h
    obtain ⟨_, _, _, _, _, rfl, _⟩ := h; rfl
  | switch e b _ =>
    refine ⟨?_, by intro _ _ _ _ _ _ _ _ h; simp [codegen_items] at h⟩
    intro Γ fs l sw c fs' l' sw' h
    simp only [codegen_statement, Res.bind_eq_ok] at h
    obtain ⟨⟨c1, f1, l1⟩, h1, ⟨c2, f2, l2, s2⟩, h2, h⟩ := h
    cases s2 with
    | none => cases h
    | some s2 => simp only [Res.ok.injEq, Prod.mk.injEq] at h; exact h.2.1.symm
  | case e s ih =>
    refine ⟨?_, by intro _ _ _ _ _ _ _ _ h; simp [codegen_items] at h⟩
    intro Γ fs l sw c fs' l' sw' h
    cases sw with
    | none => simp [codegen_statement] at h
    | some sw =>
      simp only [codegen_statement, Res.bind_eq_ok, Res.ok.injEq, Prod.mk.injEq] at h
      obtain ⟨⟨c1, f1, l1⟩, h1, ⟨c2, f2, l2, s2⟩, h2, _, rfl, _⟩ := h
      have := ee h1; have := ih.1 _ _ _ _ _ _ _ _ h2
      simp only at *; omega
  | dflt s ih =>
    refine ⟨?_, by intro _ _ _ _ _ _ _ _ h; simp [codegen_items] at h⟩
    intro Γ fs l sw c fs' l' sw' h
    simp only [codegen_statement] at h
    split at h
    · cases h
    · cases h
    · simp only [Res.bind_eq_ok, Res.ok.injEq, Prod.mk.injEq] at h
      obtain ⟨⟨c2, f2, l2, s2⟩, h2, _, rfl, _⟩ := h
      exact ih.1 _ _ _ _ _ _ _ _ h2
  | ret e =>
    refine ⟨?_, by intro _ _ _ _ _ _ _ _ h; simp [codegen_items] at h⟩
    intro Γ fs l sw c fs' l' sw' h
    simp only [codegen_statement, Res.bind_eq_ok, Res.ok.injEq, Prod.mk.injEq] at h
    obtain ⟨⟨c2, f2, l2⟩, h2, _, rfl, _⟩ := h
    cases e with
    | none => simp only [Res.ok.injEq, Prod.mk.injEq] at h2; exact h2.2.1.symm
    | some e =>
      simp only [Res.bind_eq_ok, Res.ok.injEq, Prod.mk.injEq] at h2
      obtain ⟨⟨c1, f1, l1⟩, h1, _, rfl, _⟩ := h2
      have := ee h1; simp only at *; omega
  | skip => refine ⟨?_, ?_⟩ <;> intro _ _ _ _ _ _ _ _ h <;> simp [codegen_statement, codegen_items] at h; omega
  | brk =>
    refine ⟨?_, by intro _ _ _ _ _ _ _ _ h; simp [codegen_items] at h⟩
    intro Γ fs l sw c fs' l' sw' h
    simp only [codegen_statement] at h
    split at h
    · cases h
    · simp only [Res.ok.injEq, Prod.mk.injEq] at h; exact h.2.1.symm
  | cont =>
    refine ⟨?_, by intro _ _ _ _ _ _ _ _ h; simp [codegen_items] at h⟩
    intro Γ fs l sw c fs' l' sw' h
    simp only [codegen_statement] at h
    split at h
    · simp only [Res.ok.injEq, Prod.mk.injEq] at h; exact h.2.1.symm
    · cases h
  | blk b _ =>
    refine ⟨?_, by intro _ _ _ _ _ _ _ _ h; simp [codegen_items] at h⟩
    intro Γ fs l sw c fs' l' sw' h
    simp only [codegen_statement, Res.bind_eq_ok, Res.ok.injEq, Prod.mk.injEq] at h
    obtain ⟨_, _, _, rfl, _⟩ := h; rfl
  | expr e =>
    refine ⟨?_, by intro _ _ _ _ _ _ _ _ h; simp [codegen_items] at h⟩
    intro Γ fs l sw c fs' l' sw' h
    simp only [codegen_statement, Res.bind_eq_ok, Res.ok.injEq, Prod.mk.injEq] at h
    obtain ⟨⟨c1, f1, l1⟩, h1, _, rfl, _⟩ := h
    have := ee h1; simp only at *; omega
  | bnil => refine ⟨?_, ?_⟩ <;> intro _ _ _ _ _ _ _ _ h <;> simp [codegen_statement, codegen_items] at h; omega
  | bstmt s rest ih1 ih2 =>
    refine ⟨by intro _ _ _ _ _ _ _ _ h; simp [codegen_statement] at h, ?_⟩
    intro Γ fs l sw c fs' l' sw' h
    simp only [codegen_items, Res.bind_eq_ok, Res.ok.injEq, Prod.mk.injEq] at h
    obtain ⟨⟨c1, f1, l1, s1⟩, h1, ⟨c2, f2, l2, s2⟩, h2, _, rfl, _⟩ := h
    have := ih1.1 _ _ _ _ _ _ _ _ h1; have := ih2.2 _ _ _ _ _ _ _ _ h2
    simp only at *; omega
  | bdecl x t init rest ih =>
    refine ⟨by intro _ _ _ _ _ _ _ _ h; simp [codegen_statement] at h, ?_⟩
    intro Γ fs l sw c fs' l' sw' h
    simp only [codegen_items, Res.bind_eq_ok, Res.ok.injEq, Prod.mk.injEq] at h
    obtain ⟨n, _, ⟨c1, f1, l1⟩, h1, ⟨c2, f2, l2, s2⟩, h2, _, rfl, _⟩ := h
    have e1 : f1 = fs + n := by
      cases init with
      | none => simp only [Res.ok.injEq, Prod.mk.injEq] at h1; exact h1.2.1.symm
      | some e =>
        simp only at h1
        split at h1
        · cases h1
        split at h1
        · cases h1
        · simp only [Res.bind_eq_ok, Res.ok.injEq, Prod.mk.injEq] at h1
          obtain ⟨⟨c1, f1, l1⟩, h1, _, _, _, _, _, rfl, _⟩ := h1
          have := ee h1; simp only at *; omega
    have := ih.2 _ _ _ _ _ _ _ _ h2
    simp only at *; omega

/-- A statement without `continue` does not end with it. -/
theorem noCont_exec {C : Ctx} {cs : Nat → Option Fun} {ρ0 : Spec.Env} : ∀ n,
    (∀ ρ s sp M M', noCont s = true → exec C cs ρ0 n ρ s sp M ≠ some (.cont, M')) ∧
    (∀ ρ s sp M M', noCont s = true → execItems C cs ρ0 n ρ s sp M ≠ some (.cont, M')) := by
  have hfl : ∀ {f : St → Option St} {b b' : St}, (∀ s s', f s = some s' → noCont s = true → noCont s' = true) → fromLabel f b = some b' → noCont b = true → noCont b' = true := by
    intro f b
    induction b with
    | bstmt s rest _ ih =>
      intro b' hf h hn
      simp only [noCont, Bool.and_eq_true] at hn
      simp only [fromLabel] at h
      split at h
      · rename_i s' hs
        simp only [Option.some.injEq] at h
        subst h
        simp [noCont, hf _ _ hs hn.1, hn.2]
      · exact ih hf h hn.2
    | bdecl x t i rest ih =>
      intro b' hf h hn
      simp only [noCont] at hn
      exact ih hf h hn
    | _ => intro b' hf h; simp [fromLabel] at h
  have hec : ∀ {is : E → Bool} (s s' : St), enterCase is s = some s' → noCont s = true → noCont s' = true := by
    intro is s
    induction s with
    | case e s ih =>
      intro s' h hn
      simp only [enterCase] at h
      simp only [noCont] at hn
      split at h
      · simp only [Option.some.injEq] at h; subst h; exact hn
      · exact ih _ h hn
    | dflt s ih => intro s' h hn; exact ih _ h hn
    | _ => intro s' h; simp [enterCase] at h
  have hed : ∀ (s s' : St), enterDflt s = some s' → noCont s = true → noCont s' = true := by
    intro s
    induction s with
    | case e s ih => intro s' h hn; exact ih _ h hn
    | dflt s ih => intro s' h hn; simp only [enterDflt, Option.some.injEq] at h; subst h; exact hn
    | _ => intro s' h; simp [enterDflt] at h
  intro n
  induction n with
  | zero => exact ⟨by intros; simp [exec], by intros; simp [execItems]⟩
  | succ n ih =>
    obtain ⟨ih1, ih2⟩ := ih
    -- loops never end with `continue`
    have lp : ∀ m ≤ n + 1, ∀ ρ sp M M', (∀ c b, exec C cs ρ0 m ρ (.whil c b) sp M ≠ some (.cont, M')) ∧
        (∀ i c p b, exec C cs ρ0 m ρ (.forr i c p b) sp M ≠ some (.cont, M')) ∧ (∀ b c, exec C cs ρ0 m ρ (.doW b c) sp M ≠ some (.cont, M')) := by
      intro m
      induction m with
      | zero => intros; simp [exec]
      | succ m ihm =>
        intro hm ρ sp M M'
        have ihm := fun M => ihm (by omega) ρ sp M M'
        refine ⟨?_, ?_, ?_⟩
        · intro c b h
          simp only [exec, Option.bind_eq_some_iff] at h
          obtain ⟨⟨v, M1⟩, _, h⟩ := h
          split at h
          · simp at h
          · simp only [Option.bind_eq_some_iff] at h
            obtain ⟨⟨o1, M2⟩, _, h⟩ := h
            cases o1 with
            | norm => exact (ihm M2).1 c b h
            | cont => exact (ihm M2).1 c b h
            | _ => simp at h
        · intro i c p b h
          cases i with
          | skip =>
            simp only [exec, Option.bind_eq_some_iff] at h
            obtain ⟨⟨v, M1⟩, _, h⟩ := h
            split at h
            · simp at h
            · simp only [Option.bind_eq_some_iff] at h
              obtain ⟨⟨o1, M2⟩, _, h⟩ := h
              cases o1 with
              | norm | cont =>
                simp only [Option.bind_eq_some_iff] at h
                obtain ⟨⟨o3, M3⟩, _, h⟩ := h
                cases o3 with
                | norm => exact (ihm M3).2.1 _ c p b h
                | _ => cases h
              | _ => simp at h
          | _ =>
            simp only [exec, Option.bind_eq_some_iff] at h
            obtain ⟨⟨o3, M3⟩, _, h⟩ := h
            cases o3 with
            | norm => exact (ihm M3).2.1 _ c p b h
            | _ => cases h
        · intro b c h
          simp only [exec, Option.bind_eq_some_iff] at h
          obtain ⟨⟨o1, M2⟩, _, h⟩ := h
          cases o1 with
          | norm | cont =>
            simp only [Option.bind_eq_some_iff] at h
            obtain ⟨⟨v, M1⟩, _, h⟩ := h
            split at h
            · simp at h
            · exact (ihm M1).2.2 b c h
          | _ => simp at h
    constructor
    · intro ρ s sp M M' hn h
      cases s with
      | cont => cases hn
      | whil c b => exact (lp (n + 1) (Nat.le_refl _) ρ sp M M').1 c b h
      | forr i c p b => exact (lp (n + 1) (Nat.le_refl _) ρ sp M M').2.1 i c p b h
      | doW b c => exact (lp (n + 1) (Nat.le_refl _) ρ sp M M').2.2 b c h
      | ifte c a b =>
        simp only [noCont, Bool.and_eq_true] at hn
        simp only [exec, Option.bind_eq_some_iff] at h
        obtain ⟨_, _, h⟩ := h
        split at h
        · exact ih1 _ _ _ _ _ hn.1 h
        · exact ih1 _ _ _ _ _ hn.2 h
      | switch e b =>
        cases b with
        | blk b =>
          simp only [noCont] at hn
          simp only [exec, Option.ite_none_right_eq_some, Option.bind_eq_some_iff] at h
          obtain ⟨_, te, _, t, _, ⟨v, M1⟩, _, ⟨o1, M2⟩, h1, h⟩ := h
          have ho : o1 ≠ .cont := by
            rintro rfl
            split at h1
            · rename_i b' hb; exact ih2 _ _ _ _ _ (hfl hec hb hn) h1
            · split at h1
              · rename_i b' hb; exact ih2 _ _ _ _ _ (hfl hed hb hn) h1
              · simp at h1
          cases o1 <;> simp at h
          exact ho rfl
        | _ => simp [exec] at h
      | case e s => simp only [exec] at h; simp only [noCont] at hn; exact ih1 _ _ _ _ _ hn h
      | dflt s => simp only [exec] at h; simp only [noCont] at hn; exact ih1 _ _ _ _ _ hn h
      | blk b => simp only [exec] at h; simp only [noCont] at hn; exact ih2 _ _ _ _ _ hn h
      | ret e =>
        cases e with
        | none => simp [exec] at h
        | some e => simp [exec, Option.bind_eq_some_iff] at h
      | expr e => simp [exec, Option.bind_eq_some_iff] at h
      | _ => simp [exec] at h
    · intro ρ s sp M M' hn h
      cases s with
      | bstmt s rest =>
        simp only [noCont, Bool.and_eq_true] at hn
        simp only [execItems, Option.bind_eq_some_iff] at h
        obtain ⟨⟨o1, M1⟩, h1, h⟩ := h
        cases o1 with
        | norm => exact ih2 _ _ _ _ _ hn.2 h
        | cont => exact ih1 _ _ _ _ _ hn.1 h1
        | _ => simp at h
      | bdecl x t init rest =>
        simp only [noCont] at hn
        simp only [execItems, Option.ite_none_right_eq_some, Option.bind_eq_some_iff, Option.some.injEq, Prod.mk.injEq] at h
        obtain ⟨_, _, _, ⟨o1, M1⟩, h1, rfl, _⟩ := h
        exact ih2 _ _ _ _ _ hn h1
      | _ => simp [execItems] at h

end Verif.Cg
