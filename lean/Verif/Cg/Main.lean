import Verif.Cg.Call
/-! Correctness of the code of a program: all statements, all depths. -/
namespace Verif.Cg
open Verif Verif.Gen Verif.Gen.Spec Verif.X86 Verif.X86.Spec Spec
section
variable {C : Ctx} {base : Mach} {P : List Asm} {cs : Nat → Option Fun} {ρ0 : Spec.Env} {Γ0 : Env} {G : Int}

theorem code_ok (p : Prog C base P cs ρ0 Γ0 G) (hlib : LibOk C base P cs Γ0 G) : ∀ n, SV C base P cs ρ0 Γ0 G n ∧ IV C base P cs ρ0 Γ0 G n ∧
    (∀ e q b, FVs C base P cs ρ0 Γ0 G n e q b) ∧ CallOk C base P Γ0 G (call C cs ρ0 n) := by
  intro n
  induction n with
  | zero =>
    refine ⟨?_, ?_, ?_, ?_⟩
    · intro s lab Γ Γs ρ F fs l sw c fs' l' sw' sp M o M' pc ms hg hs h hx; simp [exec] at hx
    · intro s lab Γ Γs ρ F fs l sw c fs' l' sw' sp M o M' pc ms hg hs h hx; simp [execItems] at hx
    · intro e p b Γ Γs ρ F fs l1 l2 l3 lp swp cp fp lp' swp' lt ct ft lt' lb swb cb fb lb' swb' sp M o M' pc ms hp ht hb sp1 sp2 sp3 h hx; simp [exec] at hx
    · intro f vs sp M v M' lbl r k s hf hk h; simp [call] at h
  | succ n ih =>
    obtain ⟨ih1, ih2, ih3, ih4⟩ := ih
    have g := p.toGlob
    have f1 : ∀ e q b, FVs C base P cs ρ0 Γ0 G (n + 1) e q b := fun e q b => fv g ih4 ih1 e q b (ih3 e q b)
    refine ⟨fun s => ?_, fun s => ?_, f1, call_ok p hlib ih2⟩
    · cases s with
      | skip => exact sv_skip
      | expr e => exact sv_expr g ih4 e
      | ifte c a b => exact sv_if g ih4 ih1 c a b
      | whil c b => exact sv_while g ih4 ih1 c b
      | forr i c q b => exact sv_for g ih1 ih3 f1 i c q b
      | doW b c => exact sv_do g ih4 ih1 b c
      | switch e b => exact sv_switch g ih4 ih2 e b
      | case e s => exact sv_case g ih1 e s
      | dflt s => exact sv_dflt ih1 s
      | brk => exact sv_brk
      | cont => exact sv_cont
      | ret e => exact sv_ret g ih4 e
      | blk b => exact sv_blk g ih2 b
      | _ => intro lab Γ Γs ρ F fs l sw c fs' l' sw' sp M o M' pc ms hg hs h hx; simp [exec] at hx
    · cases s with
      | bnil => exact iv_nil
      | bstmt a b => exact iv_stmt g ih1 ih2 a b
      | bdecl x t i b => exact iv_decl g ih4 ih2 x t i b
      | _ => intro lab Γ Γs ρ F fs l sw c fs' l' sw' sp M o M' pc ms hg hs h hx; simp [execItems] at hx

end
end Verif.Cg
