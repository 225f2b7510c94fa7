import Verif.Cg.Main
import Verif.Cg.Lab
import Verif.Cg.ProgSpec
/-! The code of a program satisfies `Prog`. -/
namespace Verif.Cg
open Verif Verif.Gen Verif.Gen.Spec Verif.X86 Verif.X86.Spec Spec

/-- The global tables after all declarations (env.c:190-238; library functions: exe.c:1686-1733); `lab` gives the label of a function. -/
def envOf (p : Program) (lab : Nat → Nat) : Env :=
  ⟨[], [], p.globals, (p.funs.map fun f => (f.name, lab f.name, f.ret)) ++ p.libs.map fun f => (f.1, lab f.1, f.2), p.enums⟩

theorem find_map_fun (lab : Nat → Nat) (x : Nat) : ∀ (fds : List Fun),
    ((fds.map fun f => (f.name, lab f.name, f.ret)).find? (·.1 = x)) = (fds.find? (·.name = x)).map fun f => (f.name, lab f.name, f.ret) := by
  intro fds
  rw [List.find?_map]; rfl

theorem fn_name {p : Program} {x : Nat} {f : Fun} (h : p.fn x = some f) : f.name = x ∧ f ∈ p.funs := by
  unfold Program.fn at h
  exact ⟨by simpa using List.find?_some h, List.mem_of_find?_eq_some h⟩

theorem lookup_envOf (p : Program) (lab : Nat → Nat) (x : Nat) :
    lookup_fun (envOf p lab) x = (p.fnTy x).map fun r => (lab x, r) := by
  unfold lookup_fun envOf Program.fnTy
  simp only
  rw [List.find?_append, find_map_fun]
  cases e : p.funs.find? (·.name = x) with
  | some f =>
    have := fn_name (p := p) e
    unfold Program.fn
    rw [e]
    simp [this.1]
  | none =>
    unfold Program.fn
    rw [e]
    simp only [Option.map_none, Option.none_or]
    rw [List.find?_map]
    cases e2 : p.libs.find? (·.1 = x) with
    | none =>
      have : p.libs.find? ((fun f : Nat × Nat × CTy => decide (f.1 = x)) ∘ fun f => (f.1, lab f.1, f.2)) = none := e2
      rw [this]; rfl
    | some g =>
      have : p.libs.find? ((fun f : Nat × Nat × CTy => decide (f.1 = x)) ∘ fun f => (f.1, lab f.1, f.2)) = some g := e2
      have h1 : g.1 = x := by simpa using List.find?_some e2
      rw [this]; simp [h1]

theorem envOf_rel {C : Ctx} {p : Program} {lab : Nat → Nat} {G F : Int} : EnvRel C (envOf p lab) (p.env G) F G := by
  refine ⟨?_, ?_, ?_, ?_⟩
  all_goals
    intro x
    intros
    rename_i h
    simp only [resolve, lookup_envOf] at h
    simp only [envOf, List.find?_nil] at h
    unfold Program.env Program.kind Program.addr
    revert h
    cases hg : p.globals.find? (·.1 = x) with
    | some g =>
      intro h; simp at h
      try (obtain ⟨rfl, rfl⟩ := h; simp [hg])
    | none =>
      cases hf : p.fnTy x with
      | some f => intro h; simp at h; try (simp [hg, hf, h])
      | none =>
        cases he : p.enums.find? (·.1 = x) with
        | some c => intro h; simp at h; try (simp [hg, hf, he, h])
        | none => intro h; simp at h

theorem funs_at {w : Nat} {T : Tags} {Γ : Env} {P : List Asm} : ∀ {fds : List Fun} {l : Nat} {c : List Asm} {l' i : Nat},
    codegen_funs w T Γ fds l = .ok (c, l') → At P i c → ∀ f ∈ fds, ∃ l c l' i, codegen_glo_fun_decl w T Γ f l = .ok (c, l') ∧ At P i c := by
  intro fds
  induction fds with
  | nil => intro l c l' i _ _ f hf; cases hf
  | cons g fds ih =>
    intro l c l' i h hat f hf
    simp only [codegen_funs, Res.bind_eq_ok, Res.ok.injEq, Prod.mk.injEq] at h
    obtain ⟨⟨c1, l1⟩, h1, ⟨c2, l2⟩, h2, rfl, rfl⟩ := h
    rcases List.mem_cons.1 hf with rfl | hf
    · exact ⟨_, _, _, _, h1, hat.left⟩
    · exact ih h2 hat.right f hf

theorem kind_fn {p : Program} {f : Nat} {r : CTy} (h : p.kind f = some (.fn r)) : p.fnTy f = some r := by
  unfold Program.kind at h
  split at h
  · cases h
  · split at h
    · rename_i e; cases h; exact e
    · cases he : p.enums.find? (·.1 = f) <;> rw [he] at h <;> simp at h

theorem prog_of {C : Ctx} {K : Mach} {p : Program} {lab : Nat → Nat} {G : Int} {P : List Asm}
    (hw : C.w = 4 ∨ C.w = 8) (hc : ∀ f ∈ p.funs, ∃ l c l' i, codegen_glo_fun_decl C.w C.T (envOf p lab) f l = .ok (c, l') ∧ At P i c)
    (hs : ∀ f ∈ p.funs, SupF C (envOf p lab) p.kind f = true) (hG : p.InSpace C G)
    (hl1 : ∀ f vs M v M' r, p.fn f = none → C.lib f vs M = some (v, M') → p.kind f = some (.fn r) → r = .void ∨ Fits C r v)
    (hl2 : ∀ f vs M v M', p.fn f = none → C.lib f vs M = some (v, M') → SameDom M M') (hstr : StrAt C K.base P) :
    Prog C K P p.fn (p.env G) (envOf p lab) G := by
  have kf : ∀ f r fd, (p.env G).kind f = some (.fn r) → p.fn f = some fd → fd.ret = r := by
    intro f r fd h hf
    have := kind_fn h
    unfold Program.fnTy at this
    rw [hf] at this
    cases this; rfl
  refine { hw := hw, ft := ⟨?_, hl1, hl2⟩, str := hstr, loc := rfl, env := envOf_rel, ad := ?_, code := ?_ }
  · intro f fd r hf hk
    exact kf f r fd hk hf
  · intro x t hk
    simp only [Program.env, Program.kind] at hk
    simp only [Program.env, Program.addr]
    split at hk
    · rename_i n o u e
      exact hG _ (List.mem_of_find?_eq_some e)
    · split at hk
      · cases hk
      · cases he : p.enums.find? (·.1 = x) <;> rw [he] at hk <;> simp at hk
  · intro f fd lbl r hr hf
    have hk := (envOf_rel (C := C) (F := 0) (G := G) (p := p) (lab := lab)).fn f lbl r hr
    have e2 := kf f r fd hk hf
    have hm := fn_name hf
    refine ⟨?_, e2, hs fd hm.2, hc fd hm.2⟩
    have : lookup_fun (envOf p lab) f = some (lbl, r) := by
      unfold resolve at hr
      split at hr
      · cases hr
      · split at hr
        · cases hr
        · split at hr
          · rename_i e; cases hr; exact e
          · split at hr <;> cases hr
    rw [hm.1]; exact this

end Verif.Cg
