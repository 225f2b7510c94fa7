import Verif.Reach.Props
import Verif.Img.Examples
/-! A program that calls `exit` in a function that is called in an endless loop, and a program that prints for ever. -/
namespace Verif.Reach
open Verif Verif.Gen Verif.Gen.Spec Verif.X86 Verif.X86.Spec Verif.Cg Verif.Cg.Spec Verif.Sys Verif.Rt Verif.Sys.Spec Spec

/-- `void die(int n) { putchar('x'); exit(n); }` -/
def die : Fun := ⟨2, [(10, tInt)], .void, blk [.expr (.call 60 (args [.num 120])), .expr (.call 61 (args [.var 10]))]⟩
/-- `void main() { while (1) s }` -/
def loopMain (b : St) : Fun := ⟨3, [], .void, blk [.whil (.num 1) b]⟩
def tsOf (b : St) : List Top := [.fn die, .fn (loopMain b)]
def progOf (b : St) : Program where
  globals := []
  enums := []
  libs := [(60, .void), (61, .void)]
  funs := funsOf (tsOf b)
def what5 (f : Nat) : Option LibFn := if f = 60 then some .putchar else none
def lab5 (f : Nat) : Nat := if f = 60 then L0.putchar else if f = 61 then L0.exit else f + 100
def dsOf (b : St) : List Decl := match genTops 8 T0 mm2 (envOf (progOf b) lab5) (tsOf b) 1000 with
  | .ok (ds, _) => ds
  | _ => []
def LOf (b : St) : Labels := { L0 with init_next := (genDecls L0.init_start (dsOf b)).2 }
def POf (b : St) : List Asm := program 8 (LOf b) 24 false (dsOf b)
def C5 : Ctx := { w := 8, T := T0, lim := 65536, lib := library os1 σ1 8 2097152 what5 }
/-- No objects. -/
def M5 : Mem := ⟨fun _ => none, []⟩

/-- What has to be computed about the program. -/
def okProg (b : St) : Bool :=
  !(dsOf b).isEmpty && decide (∀ f ∈ (progOf b).funs, SupF C5 (envOf (progOf b) lab5) (progOf b).kind f = true) && SupTops C5 mm2 (envOf (progOf b) lab5) (progOf b).kind (tsOf b) && strAtB C5 1073741944 (POf b) &&
  (match Img.executable 8 (POf b) with | .ok _ => true | _ => false) && decide (∀ a ∈ POf b, Img.Spec.Small a)

theorem setting {b : St} (h : okProg b = true) (m : Int → Nat) :
    Setting os1 C5 (LOf b) 1073741944 (POf b) 24 false (dsOf b) (progOf b) lab5 what5 (tsOf b) 3 { s0 with mem := m } ⟨0, [72, 105, 33], []⟩ σ1 1048576 2097152 268435456 M5 [] := by
  simp only [okProg, Bool.and_eq_true, Bool.not_eq_true', decide_eq_true_eq] at h
  obtain ⟨⟨⟨⟨⟨h1, h2⟩, h3⟩, h4⟩, h5⟩, h6⟩ := h
  have hgen : ∃ l, genTops 8 T0 mm2 (envOf (progOf b) lab5) (tsOf b) 1000 = .ok (dsOf b, l) := by
    unfold dsOf at h1 ⊢
    split at h1
    · rename_i ds l e; exact ⟨l, by rw [e]⟩
    · cases h1
  obtain ⟨l, hgen⟩ := hgen
  exact {
    compiled := ⟨.inr rfl, rfl, rfl⟩
    code := ⟨mm2, 1000, l, M5, hgen, h3, ⟨by decide, by decide, fun a ha => (ha rfl).elim⟩, rfl, fun _ _ _ => rfl, fun a c ha => (by cases ha), 1, rfl⟩
    funs := rfl
    space := by intro v hv; cases hv
    supported := h2
    declares := by
      refine ⟨?_, ?_⟩
      · intro f F r hw _ hk
        unfold what5 at hw
        split at hw
        · rename_i e; subst e; cases hw; cases hk; rfl
        · cases hw
      · intro f F hw _
        unfold what5 at hw
        split at hw
        · rename_i e; subst e; cases hw; rfl
        · cases hw
    library := rfl
    main := ⟨.void, rfl⟩
    label := rfl
    size := by decide
    started := ⟨started0.stack, started0.words, started0.low, started0.high⟩
    given := given1
    args := .inl rfl
    strings := strAtB_ok h4
    stack := by decide }

theorem file5 {b : St} (h : okProg b = true) : ∃ m, File 8 (POf b) m 1073741944 := by
  simp only [okProg, Bool.and_eq_true, Bool.not_eq_true', decide_eq_true_eq] at h
  obtain ⟨⟨-, h5⟩, h6⟩ := h
  split at h5
  · rename_i f e
    obtain ⟨m, hl, -⟩ := Img.C49_loadable (.inr rfl) e s0.mem
    exact ⟨m, ⟨f, e, hl⟩, h6⟩
  · cases h5

/-- Ways to go on, for the examples. -/
inductive Way where
  | body | stmt | rest | expr | whil | call

/-- Where a way leads. -/
def take (C : Ctx) (cs : Nat → Option Fun) (ρ0 : Cg.Spec.Env) : Way → Act → Option Act
  | .body, .fn f vs sp M => (cs f).bind fun fd => if C.lim + C.w ≤ sp then (bindParams C fd.params vs sp { ρ0 with rett := fd.ret } M).map fun r => .it r.1 fd.body (sp - C.w) r.2 else none
  | .stmt, .it ρ (.bstmt s _) sp M => some (.st ρ s sp M)
  | .rest, .it ρ (.bstmt s rest) sp M => (exec C cs ρ0 20 ρ s sp M).bind fun r => match r.1 with | .norm => some (.it ρ rest sp r.2) | _ => none
  | .expr, .st ρ (.expr e) sp M => some (.rv ρ e sp M)
  | .whil, .st ρ (.whil c b) sp M => (evalE C (call C cs ρ0 20) ρ c sp M).bind fun r => if r.1 ≠ 0 then some (.st ρ b sp r.2) else none
  | .call, .rv ρ (.call f as) sp M => if Room C sp then (evalA C (call C cs ρ0 20) ρ as sp M).map fun r => .fn f r.1 (sp - nargs as * C.w) r.2 else none
  | _, _ => none

theorem take_leads {C : Ctx} {cs : Nat → Option Fun} {ρ0 : Cg.Spec.Env} {x : Way} {a b : Act} (h : take C cs ρ0 x a = some b) : Leads C cs ρ0 a b := by
  unfold take at h
  split at h
  · simp only [Option.bind_eq_some_iff] at h
    obtain ⟨fd, h1, h⟩ := h
    split at h
    · simp only [Option.map_eq_some_iff] at h
      obtain ⟨⟨ρ, M⟩, h2, rfl⟩ := h
      exact .body h1 (by assumption) h2
    · cases h
  · cases h; exact .stmt
  · simp only [Option.bind_eq_some_iff] at h
    obtain ⟨⟨o, M⟩, h1, h⟩ := h
    split at h
    · cases h; rename_i e; cases e; exact .rest h1
    · cases h
  · cases h; exact .expr
  · simp only [Option.bind_eq_some_iff] at h
    obtain ⟨⟨v, M⟩, h1, h⟩ := h
    split at h
    · cases h; exact .whileB h1 (by assumption)
    · cases h
  · split at h
    · simp only [Option.map_eq_some_iff] at h
      obtain ⟨⟨ρ, M⟩, h2, rfl⟩ := h
      exact .call (by assumption) h2
    · cases h
  · cases h

def takes (C : Ctx) (cs : Nat → Option Fun) (ρ0 : Cg.Spec.Env) : List Way → Act → Option Act
  | [], a => some a
  | x :: xs, a => (take C cs ρ0 x a).bind (takes C cs ρ0 xs)
theorem takes_reaches {C : Ctx} {cs : Nat → Option Fun} {ρ0 : Cg.Spec.Env} : ∀ {xs : List Way} {a b : Act}, takes C cs ρ0 xs a = some b → Reaches C cs ρ0 a b := by
  intro xs
  induction xs with
  | nil => intro a b h; cases h; exact .here
  | cons x xs ih =>
    intro a b h
    simp only [takes, Option.bind_eq_some_iff] at h
    obtain ⟨c, h1, h2⟩ := h
    exact .step (take_leads h1) (ih h2)

def callOf : Act → Option (Nat × List Int × Int × List Event)
  | .fn g vs sp M => some (g, vs, sp, M.io)
  | _ => none

/-! ### `void main() { while (1) die(263); }` -/
def exitBody : St := .expr (.call 2 (args [.num 263]))
theorem ok_exit : okProg exitBody = true := by decide +kernel

/-- `main` has called `die`, which has written `x` and calls `exit(263)`. -/
theorem reaches_exit : ∃ M', M'.io = [.write 1 [120]] ∧ Reaches C5 (progOf exitBody).fn ((progOf exitBody).env 2097152) (.fn 3 [] (1048576 - 2 * (8 : Nat)) M5) (.fn 61 [263] 1048528 M') := by
  have h : ((takes C5 (progOf exitBody).fn ((progOf exitBody).env 2097152) [.body, .stmt, .whil, .expr, .call, .body, .rest, .stmt, .expr, .call] (.fn 3 [] (1048576 - 2 * (8 : Nat)) M5)).bind callOf) =
      some (61, [263], 1048528, [.write 1 [120]]) := by decide +kernel
  simp only [Option.bind_eq_some_iff] at h
  obtain ⟨b, h1, h2⟩ := h
  unfold callOf at h2
  split at h2
  · simp only [Option.some.injEq, Prod.mk.injEq] at h2
    obtain ⟨rfl, rfl, rfl, h3⟩ := h2
    exact ⟨_, h3, takes_reaches h1⟩
  · cases h2

/-- The file ends with status 7 (263 modulo 256), having written `x`. -/
theorem runs_exit : ∃ s, Img.Spec.BSteps os1 8 s.mem (.run 1073741944 s ⟨0, [72, 105, 33], []⟩) (.done 7 ⟨2, [72, 105, 33], [120]⟩) := by
  obtain ⟨m, z⟩ := file5 ok_exit
  obtain ⟨M', hio, hr⟩ := reaches_exit
  have := (C50_executable_exit_partial (setting ok_exit m) z hr rfl (by decide)).1
  rw [hio] at this
  exact ⟨{ s0 with mem := m }, this⟩

/-- `while (1) putchar('x');` -/
def loopBody : St := .expr (.call 60 (args [.num 120]))
theorem ok_loop : okProg loopBody = true := by decide +kernel

def ρL : Cg.Spec.Env := { (progOf loopBody).env 2097152 with rett := .void }
/-- After `n` rounds. -/
def ML (n : Nat) : Mem := ⟨fun _ => none, List.replicate n (.write 1 [120])⟩
/-- The execution: call of `main`, its body, and the rounds of the loop. -/
def FL : Nat → Act
  | 0 => .fn 3 [] (1048576 - 2 * (8 : Nat)) M5
  | 1 => .it ρL (loopMain loopBody).body (1048576 - 3 * (8 : Nat)) M5
  | n + 2 => .st ρL (.whil (.num 1) loopBody) (1048576 - 3 * (8 : Nat)) (ML n)

theorem loop_leads : ∀ i, Leads C5 (progOf loopBody).fn ((progOf loopBody).env 2097152) (FL i) (FL (i + 1))
  | 0 => .body rfl (by decide) rfl
  | 1 => .stmt
  | n + 2 => by
    refine .whileN (n := 5) (v := 1) (M1 := ML n) (o := .norm) rfl (by decide) ?_ rfl
    have : ML (n + 1) = ask (ML n) (.write 1 [120]) := by simp [ML, ask, List.replicate_succ']
    rw [this]
    rfl

/-- The file that prints for ever: it never ends. -/
theorem runs_loop : ∃ s, (∀ n, ∃ c, Times os1 8 s.mem n (.run 1073741944 s ⟨0, [72, 105, 33], []⟩) c) ∧
    (∀ n σ', ¬ Img.Spec.BSteps os1 8 s.mem (.run 1073741944 s ⟨0, [72, 105, 33], []⟩) (.done n σ')) := by
  obtain ⟨m, z⟩ := file5 ok_loop
  exact ⟨{ s0 with mem := m }, C50_executable_endless_partial (setting ok_loop m) z rfl loop_leads⟩

/-- On the way it writes any number of `x`. -/
theorem runs_loop_output (n : Nat) : ∃ (s : MS) (ip : Int) (s' : MS), Img.Spec.BSteps os1 8 s.mem (.run 1073741944 s ⟨0, [72, 105, 33], []⟩) (.run ip s' ⟨2, [72, 105, 33], List.replicate n 120⟩) := by
  obtain ⟨m, z⟩ := file5 ok_loop
  have hr : ∀ k, Reaches C5 (progOf loopBody).fn ((progOf loopBody).env 2097152) (FL 0) (FL k) := by
    have step : ∀ {a b c}, Reaches C5 (progOf loopBody).fn ((progOf loopBody).env 2097152) a b → Leads C5 (progOf loopBody).fn ((progOf loopBody).env 2097152) b c →
        Reaches C5 (progOf loopBody).fn ((progOf loopBody).env 2097152) a c := by
      intro a b c h1 h2
      induction h1 with
      | here => exact .step h2 .here
      | step h _ ih => exact .step h (ih h2)
    intro k
    induction k with
    | zero => exact .here
    | succ k ih => exact step ih (loop_leads k)
  obtain ⟨ip, s', h, -⟩ := C50_executable_reach_partial (setting ok_loop m) z (hr (n + 2))
  refine ⟨{ s0 with mem := m }, ip, s', ?_⟩
  have e : ∀ k (o : List Nat), List.foldl (after os1) (⟨2, [72, 105, 33], o⟩ : W1) (List.replicate k (.write 1 [120])) = ⟨2, [72, 105, 33], o ++ List.replicate k 120⟩ := by
    intro k
    induction k with
    | zero => intro o; simp
    | succ k ih =>
      intro o
      rw [List.replicate_succ, List.foldl_cons]
      show List.foldl _ (⟨2, [72, 105, 33], o ++ [120]⟩ : W1) _ = _
      rw [ih]
      simp [List.replicate_succ]
  have e2 : world os1 σ1 (FL (n + 2)).mem.io = ⟨2, [72, 105, 33], List.replicate n 120⟩ := by
    have := e n []
    simpa [FL, Act.mem, ML, world, σ1] using this
  rw [e2] at h
  exact h

end Verif.Reach
