import Verif.Sys.Props4
import Verif.Sys.Examples2
/-! A compiled program with initial values: the hypotheses of `C44_c_program_init_partial` hold. -/
namespace Verif.Sys
open Verif Verif.Gen Verif.X86 Verif.X86.Spec Verif.Cg Verif.Rt Spec

/-- `struct { int a; short b; }` (tag 5, members 70 and 71). -/
def T2 : Tags := ⟨fun _ => 8, fun _ m => if m = 70 then some 0 else if m = 71 then some 4 else none, fun _ m => if m = 70 then some tInt else if m = 71 then some (.short false) else none⟩
def mm2 (_ : Nat) : List Nat := [70, 71]
def C2 : Cg.Spec.Ctx := { w := 8, T := T2, lim := 4096, lib := library os1 σ1 8 2097152 what1 }

def f2 : Fun := ⟨2, [(10, tInt)], tInt, blk [.expr (.call 60 (args [.var 10])), .ret (some (.bin .mul (.var 10) (.num 2)))]⟩
def main2 : Fun := ⟨3, [(10, tInt), (11, .ptr (.ptr tChar))], tInt, blk [.ret (some (.bin .add (.bin .add (.index (.var 51) (.num 1)) (.dot (.var 52) 71)) (.bin .add (.index (.var 50) (.num 1)) (.bin .add (.index (.var 51) (.num 2)) (.var 10)))))]⟩
/-- `int f(int x) { putchar(x); return x * 2; } char s[4] = "Ab"; int a[3] = { 1, f(33) }; struct { int a; short b; } v = { 7, { 9 } }; int n;`
`int main(int argc, char **argv) { return a[1] + v.b + (s[1] + (a[2] + argc)); }` -/
def ts2 : List Top := [.fn f2, .var 50 (.arr 4 tChar) (some (.str 0 [65, 98])), .var 51 (.arr 3 tInt) (some (.list (.cons (.expr (.num 1)) (.cons (.expr (.call 2 (args [.num 33]))) .nil)))),
  .var 52 (.agg false 5) (some (.list (.cons (.expr (.num 7)) (.cons (.list (.cons (.expr (.num 9)) .nil)) .nil)))), .var 53 tInt none, .fn main2]
def p2 : Cg.Spec.Program where
  globals := [(53, 48, tInt), (52, 40, .agg false 5), (51, 24, .arr 3 tInt), (50, 16, .arr 4 tChar)]
  enums := []
  libs := [(60, .void), (61, tChar), (62, tInt), (63, .ptr .void), (64, tInt)]
  funs := funsOf ts2

def ds2 : List Decl := match genTops 8 T2 mm2 (envOf p2 lab1) ts2 1000 with
  | .ok (ds, _) => ds
  | _ => []
def L2 : Labels := { L0 with init_next := (genDecls L0.init_start ds2).2 }
def P2 : List Asm := program 8 L2 56 true ds2
theorem gen2 : ∃ l, genTops 8 T2 mm2 (envOf p2 lab1) ts2 1000 = .ok (ds2, l) := by
  have hne : ds2.isEmpty = false := by decide +kernel
  unfold ds2 at hne ⊢
  split at hne
  · rename_i ds l e
    exact ⟨l, by rw [e]⟩
  · cases hne

theorem compiled2 : Compiled 8 L2 P2 56 true ds2 := ⟨.inr rfl, rfl, rfl⟩
theorem uniq2 : Uniq P2 := uniqB_ok (by decide +kernel)
theorem given2 : Given os1 8 1048576 56 ⟨0, [72, 105, 33], []⟩ 2097152 268435456 σ1 :=
  ⟨rfl, rfl, by decide, by decide, by decide, by decide, by decide⟩
theorem declares2 : Declares p2 lab1 L2 what1 := by
  refine ⟨?_, ?_⟩
  · intro f F r hw hf hk
    unfold what1 at hw
    repeat' (first
      | (split at hw
         · rename_i e; subst e; cases hw; cases hk; rfl)
      | cases hw)
  · intro f F hw _
    unfold lab1
    rw [hw]
    cases F <;> rfl

/-- The global variables, all zero. -/
def M2 : Cg.Spec.Mem := { at_ := fun a => if 2097168 ≤ a ∧ a < 2097208 then some (some 0) else none }

/-- The process writes `!` while the initial values are computed and ends with status 66 + 9 + 98 + 0 + 6. -/
theorem runs2 : PSteps os1 8 4096 P2 (.run 0 s0 ⟨0, [72, 105, 33], []⟩) (.done 179 ⟨2, [72, 105, 33], [33]⟩) := by
  have hv : ((initAll C2 p2 mm2 (fun e M => Cg.Spec.evalE C2 (Cg.Spec.call C2 p2.fn (p2.env 2097152) 100) (p2.env 2097152) e 1048576 M) 2097152 ts2 M2).bind fun M1 =>
    (Cg.Spec.call C2 p2.fn (p2.env 2097152) 100 3 [6, 1048584] (1048576 - 2 * (8 : Nat)) M1).map (fun r => (r.1, r.2.io))) = some (179, [.write 1 [33]]) := by decide +kernel
  simp only [Option.bind_eq_some_iff, Option.map_eq_some_iff] at hv
  obtain ⟨M1, hi, ⟨v, M'⟩, hv, he⟩ := hv
  simp only [Prod.mk.injEq] at he
  obtain ⟨rfl, hio⟩ := he
  have hM : ∀ a b, M2 a = some b → 2097168 ≤ a ∧ a < 2097208 ∧ b = some 0 := by
    intro a b ha
    unfold M2 at ha; dsimp only at ha
    split at ha
    · cases ha; exact ⟨by omega, by omega, rfl⟩
    · cases ha
  obtain ⟨l, hgen⟩ := gen2
  have := C44_c_program_init_partial (os := os1) (base := 4096) (C := C2) compiled2 (p := p2) (lab := lab1) (what := what1) (mm := mm2) (ts := ts2) (f := 3) (r := tInt) (M := M2) (M1 := M1) (M' := M')
    (vs := [6, 1048584]) (sp := 1048576) (G := 2097152) (H := 268435456) (s := s0) (σ1 := σ1) uniq2 (by decide) (by decide +kernel) hgen rfl (by unfold Cg.Spec.Program.InSpace; decide +kernel)
    (by unfold Supported; decide +kernel) (by decide +kernel) declares2 rfl rfl rfl (by decide) (by decide) started0 given2
    (.inr (by decide +kernel)) ⟨by decide, by decide, ?_⟩ rfl ?_ (strAtB_ok (by decide +kernel)) (imageB_ok (by decide +kernel)) ?_ ⟨100, hi⟩ ⟨100, hv⟩
  · rw [hio] at this
    exact this
  · intro a ha
    obtain ⟨b, hb⟩ := Option.ne_none_iff_exists'.1 ha
    have := hM a b hb
    show 0 ≤ a ∧ a < (18446744073709551616 : Int) ∧ ¬ ((4096 : Int) ≤ a ∧ a < 1048576)
    omega
  · intro a h1 h2
    cases e : M2 a with
    | none => rfl
    | some b =>
      have := hM a b e
      have h3 : a < 1048576 + (8 : Nat) := h2
      omega
  · intro a b ha
    have := hM a _ ha
    have h4 : b = 0 := by have := this.2.2; cases this; rfl
    refine .inr (.inl ⟨?_, ?_, h4⟩)
    · show (2097152 : Int) + 2 * (8 : Nat) ≤ a
      omega
    · omega

end Verif.Sys
