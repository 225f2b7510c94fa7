import Verif.Cg.Run
import Verif.Cg.Mono
/-! Properties C29 and C30: machine code of expressions, statements and functions.

What is proved: for the supported fragment (`Sup`, `SupS`, a check on the program text) of C, every
execution that C defines (`Spec`) is followed by the machine (`Step`).  What is missing from the full
properties: the constructs that `Syntax` leaves out (`goto`, struct assignment, strings, function
pointers, initializer lists, static locals), executions that do not end or end with `exit`, and the expressions and statements
outside the fragment, some of which pnut compiles wrong (see the theorems named `_false`). -/
namespace Verif.Cg
open Verif Verif.Gen Verif.Gen.Spec Verif.X86 Verif.X86.Spec Spec

/-- The compiled functions of `p` are part of the code `P`. -/
structure Loaded (C : Ctx) (p : Program) (lab : Nat → Nat) (G base : Int) (P : List Asm) : Prop where
  hw : C.w = 4 ∨ C.w = 8
  /-- the functions were compiled with any labels, and their code is somewhere in `P` -/
  code : ∀ f ∈ p.funs, ∃ l c l' i, codegen_glo_fun_decl C.w C.T (envOf p lab) f l = .ok (c, l') ∧ At P i c
  space : p.InSpace C G
  /-- the addresses of the string literals are those of their bytes in the code -/
  strings : StrAt C base P

/-- The functions are in the fragment. -/
def Supported (C : Ctx) (p : Program) (lab : Nat → Nat) : Prop := ∀ f ∈ p.funs, SupF C (envOf p lab) p.kind f = true

/-- The variables in scope as a function is compiled, and where they are when `F` is the address of
the return address: parameters above, local variables below. -/
def frame (C : Ctx) (ls : List Local) (F : Int) : List (Nat × CTy × Int) := ls.map fun b => (b.name, b.ty, F - b.pos * C.w)

structure FrameOk (C : Ctx) (ls : List Local) (F : Int) : Prop where
  space : ∀ b ∈ ls, 0 ≤ F - b.pos * C.w ∧ F - b.pos * C.w < (2 ^ (8 * C.w) : Nat)
  /-- an array parameter is a pointer (exe.c:2355) -/
  par : ∀ b ∈ ls, b.param = true → ∀ n t, b.ty ≠ .arr n t

theorem Loaded.of_funs {C : Ctx} {p : Program} {lab : Nat → Nat} {G base : Int} {P : List Asm} {l l' i : Nat} {c : List Asm}
    (hw : C.w = 4 ∨ C.w = 8) (hc : codegen_funs C.w C.T (envOf p lab) p.funs l = .ok (c, l')) (hat : At P i c)
    (hG : p.InSpace C G) (hstr : StrAt C base P) : Loaded C p lab G base P := ⟨hw, funs_at hc hat, hG, hstr⟩

/-- The library: the results have the declared types, no object begins or ends, and a call of a library function, with the arguments on the stack, leads
to the item after the call, with the result and the memory that the specification `C.lib` of the library says. -/
structure Library (C : Ctx) (K : Mach) (p : Program) (lab : Nat → Nat) (G : Int) (P : List Asm) : Prop where
  type : ∀ f vs M v M' r, p.fn f = none → C.lib f vs M = some (v, M') → p.kind f = some (.fn r) → r = .void ∨ Fits C r v
  objects : ∀ f vs M v M', p.fn f = none → C.lib f vs M = some (v, M') → SameDom M M'
  call : ∀ f vs sp M v M' r k s, p.fn f = none → p.kind f = some (.fn r) → P[k]? = some (.call (lab f)) →
    C.lib f vs M = some (v, M') → Room C sp → sp + 3 * C.w ≤ (2 ^ (8 * C.w) : Nat) → Rel C G sp M s → MemOk C (sp + vs.length * C.w) M →
    (∀ i (h : i < vs.length), word C.w s.mem (sp + i * C.w) = sgn C.w vs[i]) →
    ∃ s', K.ext (k, s) (k + 1, s') ∧ Rel C G sp M' s' ∧ Outside C M (sp + vs.length * C.w) s s' ∧
      (r ≠ .void → s'.reg 0 = sgn C.w v)

/-- No library. -/
def NoLib (C : Ctx) : Prop := ∀ f vs M, C.lib f vs M = none

theorem NoLib.library {C : Ctx} (h : NoLib C) (K : Mach) (p : Program) (lab : Nat → Nat) (G : Int) (P : List Asm) : Library C K p lab G P := by
  refine ⟨?_, ?_, ?_⟩
  · intro f vs M v M' r _ hl; rw [h] at hl; cases hl
  · intro f vs M v M' _ hl; rw [h] at hl; cases hl
  · intro f vs sp M v M' r k s _ _ _ hl; rw [h] at hl; cases hl

/-- The processor alone. -/
def alone (base : Int) : Mach := ⟨base, fun _ _ => False⟩

theorem Loaded.prog {C : Ctx} {K : Mach} {p : Program} {lab : Nat → Nat} {G : Int} {P : List Asm} (h : Loaded C p lab G K.base P) (hl : Library C K p lab G P)
    (hs : Supported C p lab) : Prog C K P p.fn (p.env G) (envOf p lab) G := prog_of h.hw h.code hs h.space hl.type hl.objects h.strings

theorem resolve_fn {p : Program} {lab : Nat → Nat} {f : Nat} {r : CTy} (h : p.kind f = some (.fn r)) :
    resolve (envOf p lab) f = .ok (.fn (lab f) r) := by
  have h1 := kind_fn h
  unfold Program.kind at h
  unfold resolve
  rw [lookup_envOf]
  simp only [envOf, List.find?_nil]
  split at h
  · cases h
  · rename_i e; rw [e, h1]; rfl

theorem Library.ok {C : Ctx} {K : Mach} {p : Program} {lab : Nat → Nat} {G : Int} {P : List Asm} (hl : Library C K p lab G P) : LibOk C K P p.fn (envOf p lab) G := by
  intro f vs sp M v M' lbl r k s hf hr hk h1 h2 h3 h4 h5 h6
  have hk2 := (envOf_rel (C := C) (F := 0) (G := G) (p := p) (lab := lab)).fn f lbl r hr
  have e := resolve_fn (lab := lab) hk2
  rw [e] at hr
  simp only [Res.ok.injEq, Bnd.fn.injEq] at hr
  exact hl.call f vs sp M v M' r k s hf hk2 (by rw [hr.1]; exact hk) h1 h2 h3 h4 h5 h6

theorem scope_find {C : Ctx} (ρ : Spec.Env) (ls : List Local) (F : Int) (x : Nat) :
    (∀ b, ls.find? (·.name = x) = some b → (ρ.scope (frame C ls F)).kind x = some (.var b.ty) ∧ (ρ.scope (frame C ls F)).addr x = F - b.pos * C.w) ∧
    (ls.find? (·.name = x) = none → (ρ.scope (frame C ls F)).kind x = ρ.kind x ∧ (ρ.scope (frame C ls F)).addr x = ρ.addr x) := by
  induction ls with
  | nil => simp [frame, Spec.Env.scope]
  | cons b ls ih =>
    have e : ρ.scope (frame C (b :: ls) F) = (ρ.scope (frame C ls F)).setVar b.name b.ty (F - b.pos * C.w) := rfl
    rw [e]
    simp only [List.find?_cons]
    by_cases hb : b.name = x
    · simp [hb, Spec.Env.setVar]
    · simpa [hb, Spec.Env.setVar, Ne.symm hb] using ih

theorem scope_hyp {C : Ctx} {K : Mach} {p : Program} {lab : Nat → Nat} {G : Int} {P : List Asm} (h : Loaded C p lab G K.base P) (hlib : Library C K p lab G P) (hs : Supported C p lab)
    {ls : List Local} {lp : List Loop} {F : Int} (hf : FrameOk C ls F) (n : Nat) :
    Hyp C K P { envOf p lab with locals := ls, loops := lp } ((p.env G).scope (frame C ls F)) F G (call C p.fn (p.env G) n) := by
  have pr := h.prog hlib hs
  have ck := (code_ok (base := K) pr hlib.ok n).2.2.2
  have key : ∀ x, ls.find? (·.name = x) = none → resolve { envOf p lab with locals := ls, loops := lp } x = resolve (envOf p lab) x := by
    intro x hx
    unfold resolve lookup_fun
    simp only [hx]; rfl
  have inv : ∀ x b, resolve { envOf p lab with locals := ls, loops := lp } x = .ok (.loc b) → ls.find? (·.name = x) = some b := by
    intro x b hb
    unfold resolve at hb
    simp only at hb
    split at hb
    · rename_i e; cases hb; exact e
    · split at hb
      · cases hb
      · split at hb
        · cases hb
        · split at hb <;> cases hb
  have non : ∀ x r, resolve { envOf p lab with locals := ls, loops := lp } x = .ok r → (∀ b, r ≠ .loc b) → ls.find? (·.name = x) = none := by
    intro x r hr hn
    cases e : ls.find? (·.name = x) with
    | none => rfl
    | some b =>
      unfold resolve at hr
      simp only [e] at hr
      cases hr
      exact absurd rfl (hn b)
  have er := envOf_rel (C := C) (p := p) (lab := lab) (G := G) (F := F)
  have sf := fun x => scope_find (C := C) (p.env G) ls F x
  refine ⟨h.hw, ⟨?_, ?_, ?_, ?_⟩, ((exec_dom h.hw pr.ft n).2.2).of ?_, ?_, ?_, h.strings⟩
  · intro x b hb
    have hi := inv x b hb
    obtain ⟨e1, e2⟩ := (sf x).1 b hi
    exact ⟨e1, e2, hf.par b (List.mem_of_find?_eq_some hi)⟩
  · intro x o t hb
    have hn := non x _ hb (fun _ => by simp)
    rw [key x hn] at hb
    rw [((sf x).2 hn).1, ((sf x).2 hn).2]
    exact er.glo x o t hb
  · intro x v hb
    have hn := non x _ hb (fun _ => by simp)
    rw [key x hn] at hb
    rw [((sf x).2 hn).1]
    exact er.cst x v hb
  · intro x l r hb
    have hn := non x _ hb (fun _ => by simp)
    rw [key x hn] at hb
    rw [((sf x).2 hn).1]
    exact er.fn x l r hb
  · intro x r hk
    cases e : ls.find? (·.name = x) with
    | some b => rw [((sf x).1 b e).1] at hk; cases hk
    | none => rwa [((sf x).2 e).1] at hk
  · intro x t hk
    cases e : ls.find? (·.name = x) with
    | some b => rw [((sf x).1 b e).2]; exact hf.space b (List.mem_of_find?_eq_some e)
    | none =>
      rw [((sf x).2 e).1] at hk
      rw [((sf x).2 e).2]
      exact pr.ad x t hk
  · intro f vs sp M v M' lbl r k s hr
    have hn := non f _ hr (fun _ => by simp)
    rw [key f hn] at hr
    exact ck f vs sp M v M' lbl r k s hr

/-- **C29**. The code of an expression, started anywhere in a function of the program (`ls` are the
variables in scope, `fs` the words in use below the return address at `F`), with the stack pointer
at `F - fs * w` and a machine memory that holds the objects of `M`, pushes one word: the C value of the
expression (exactly; or, if only part of the value matters, that part).  It makes the changes
to the objects that C prescribes, and changes no other byte above the stack pointer.  The compiler counts the pushed
word. -/
theorem C29_expression_lib_partial {C : Ctx} {K : Mach} {p : Program} {lab : Nat → Nat} {G : Int} {P : List Asm}
    (hl : Loaded C p lab G K.base P) (hlib : Library C K p lab G P) (hs : Supported C p lab) {ls : List Local} {lp : List Loop} {F : Int} (hf : FrameOk C ls F)
    {e : E} {md : Md} {fs : Int} {l : Nat} {c : List Asm} {fs' : Int} {l' pc : Nat} {n : Nat} {M M' : Mem} {v : Int} {s : MS}
    (hc : codegen_rvalue C.w C.T { envOf p lab with locals := ls, loops := lp } e fs l = .ok (c, fs', l'))
    (hat : At P pc c)
    (hsup : Sup C { envOf p lab with locals := ls, loops := lp } ((p.env G).scope (frame C ls F)).kind md e = true) (hmd : mdOk C md)
    (hR : Rel C G (F - fs * C.w) M s) (hM : MemOk C (F - fs * C.w) M)
    (hv : evalE C (call C p.fn (p.env G) n) ((p.env G).scope (frame C ls F)) e (F - fs * C.w) M = some (v, M')) :
    fs' = fs + 1 ∧ ∃ s', Go C.w K P (pc, s) (pc + c.length, s') ∧
      Rel C G (F - fs * C.w - C.w) M' s' ∧
      Outside C M (F - fs * C.w) s s' ∧
      topOk md (word C.w s'.mem (F - fs * C.w - C.w)) v ∧
      (md = .low C.w → word C.w s'.mem (F - fs * C.w - C.w) = sgn C.w v) := by
  obtain ⟨s', z, h1, h2, h3⟩ := (rv_all (scope_hyp (lp := lp) hl hlib hs hf n) e).1 md fs l c fs' l' _ M v M' pc s hc hsup hmd hv rfl hat hR hM
  refine ⟨(fs_all hl.hw C.T _ e).1 _ _ _ _ _ hc, s', h1, h2.rel, h2.out, by rw [h2.top]; exact h3, ?_⟩
  rintro rfl
  have hz : sgn C.w (word C.w s'.mem (F - fs * C.w - C.w)) = word C.w s'.mem (F - fs * C.w - C.w) := sgn_sgn _ _
  rw [← hz, h2.top]
  unfold topOk at h3
  unfold sgn
  rw [← Int.emod_bmod z, h3, Int.emod_bmod]

/-- **C29**, for programs that do not use the library: the processor alone does it. -/
theorem C29_expression_partial {C : Ctx} {base : Int} {p : Program} {lab : Nat → Nat} {G : Int} {P : List Asm} (hn : NoLib C)
    (hl : Loaded C p lab G base P) (hs : Supported C p lab) {ls : List Local} {lp : List Loop} {F : Int} (hf : FrameOk C ls F)
    {e : E} {md : Md} {fs : Int} {l : Nat} {c : List Asm} {fs' : Int} {l' pc : Nat} {n : Nat} {M M' : Mem} {v : Int} {s : MS}
    (hc : codegen_rvalue C.w C.T { envOf p lab with locals := ls, loops := lp } e fs l = .ok (c, fs', l'))
    (hat : At P pc c)
    (hsup : Sup C { envOf p lab with locals := ls, loops := lp } ((p.env G).scope (frame C ls F)).kind md e = true) (hmd : mdOk C md)
    (hR : Rel C G (F - fs * C.w) M s) (hM : MemOk C (F - fs * C.w) M)
    (hv : evalE C (call C p.fn (p.env G) n) ((p.env G).scope (frame C ls F)) e (F - fs * C.w) M = some (v, M')) :
    fs' = fs + 1 ∧ ∃ s', Steps C.w base P (pc, s) (pc + c.length, s') ∧
      Rel C G (F - fs * C.w - C.w) M' s' ∧
      Outside C M (F - fs * C.w) s s' ∧
      topOk md (word C.w s'.mem (F - fs * C.w - C.w)) v ∧
      (md = .low C.w → word C.w s'.mem (F - fs * C.w - C.w) = sgn C.w v) := by
  obtain ⟨h1, s', h2, h3⟩ := C29_expression_lib_partial (K := alone base) hl (hn.library _ _ _ _ _) hs hf hc hat hsup hmd hR hM hv
  exact ⟨h1, s', h2.steps (fun _ _ h => h), h3⟩

/-- The address of an lvalue: the same with `codegen_lvalue`, and the width returned is the size of the
type of the object. -/
theorem C29_lvalue_lib_partial {C : Ctx} {K : Mach} {p : Program} {lab : Nat → Nat} {G : Int} {P : List Asm}
    (hl : Loaded C p lab G K.base P) (hlib : Library C K p lab G P) (hs : Supported C p lab) {ls : List Local} {lp : List Loop} {F : Int} (hf : FrameOk C ls F)
    {e : E} {fs : Int} {l : Nat} {c : List Asm} {fs' : Int} {l' k pc : Nat} {n : Nat} {M M' : Mem} {a : Int} {s : MS}
    (hc : codegen_lvalue C.w C.T { envOf p lab with locals := ls, loops := lp } e fs l = .ok (c, fs', l', k))
    (hat : At P pc c)
    (hsup : SupL C { envOf p lab with locals := ls, loops := lp } ((p.env G).scope (frame C ls F)).kind e = true)
    (hR : Rel C G (F - fs * C.w) M s) (hM : MemOk C (F - fs * C.w) M)
    (hv : evalL C (call C p.fn (p.env G) n) ((p.env G).scope (frame C ls F)) e (F - fs * C.w) M = some (a, M')) :
    fs' = fs + 1 ∧ (∃ t, ctype C ((p.env G).scope (frame C ls F)).kind e = some t ∧ k = sizeof C.w C.T t) ∧
    ∃ s', Go C.w K P (pc, s) (pc + c.length, s') ∧
      Rel C G (F - fs * C.w - C.w) M' s' ∧ Outside C M (F - fs * C.w) s s' ∧
      word C.w s'.mem (F - fs * C.w - C.w) = sgn C.w a := by
  obtain ⟨ht, s', h1, h2⟩ := (rv_all (scope_hyp (lp := lp) hl hlib hs hf n) e).2.1 fs l c fs' l' k _ M a M' pc s hc hsup hv rfl hat hR hM
  exact ⟨(fs_all hl.hw C.T _ e).2.1 _ _ _ _ _ _ hc, ht, s', h1, h2.rel, h2.out, h2.top⟩

theorem C29_lvalue_partial {C : Ctx} {base : Int} {p : Program} {lab : Nat → Nat} {G : Int} {P : List Asm} (hn : NoLib C)
    (hl : Loaded C p lab G base P) (hs : Supported C p lab) {ls : List Local} {lp : List Loop} {F : Int} (hf : FrameOk C ls F)
    {e : E} {fs : Int} {l : Nat} {c : List Asm} {fs' : Int} {l' k pc : Nat} {n : Nat} {M M' : Mem} {a : Int} {s : MS}
    (hc : codegen_lvalue C.w C.T { envOf p lab with locals := ls, loops := lp } e fs l = .ok (c, fs', l', k))
    (hat : At P pc c)
    (hsup : SupL C { envOf p lab with locals := ls, loops := lp } ((p.env G).scope (frame C ls F)).kind e = true)
    (hR : Rel C G (F - fs * C.w) M s) (hM : MemOk C (F - fs * C.w) M)
    (hv : evalL C (call C p.fn (p.env G) n) ((p.env G).scope (frame C ls F)) e (F - fs * C.w) M = some (a, M')) :
    fs' = fs + 1 ∧ (∃ t, ctype C ((p.env G).scope (frame C ls F)).kind e = some t ∧ k = sizeof C.w C.T t) ∧
    ∃ s', Steps C.w base P (pc, s) (pc + c.length, s') ∧
      Rel C G (F - fs * C.w - C.w) M' s' ∧ Outside C M (F - fs * C.w) s s' ∧
      word C.w s'.mem (F - fs * C.w - C.w) = sgn C.w a := by
  obtain ⟨h1, h0, s', h2, h3⟩ := C29_lvalue_lib_partial (K := alone base) hl (hn.library _ _ _ _ _) hs hf hc hat hsup hR hM hv
  exact ⟨h1, h0, s', h2.steps (fun _ _ h => h), h3⟩

/-- Whatever is compiled, in the fragment or not: an expression counts one word, a list of arguments as many words as
there are arguments, and a statement none. -/
theorem C30_depth {w : Nat} (hw : w = 4 ∨ w = 8) (T : Tags) (Γ : Env) :
    (∀ e fs l c fs' l', codegen_rvalue w T Γ e fs l = .ok (c, fs', l') → fs' = fs + 1) ∧
    (∀ es fs l c fs' l' k, codegen_params w T Γ es fs l = .ok (c, fs', l', k) → fs' = fs + nargs es ∧ k = nargs es) ∧
    (∀ st fs l sw c fs' l' sw', codegen_statement w T Γ st fs l sw = .ok (c, fs', l', sw') → fs' = fs) :=
  ⟨fun e => (fs_all hw T Γ e).1, fun e => (fs_all hw T Γ e).2.2, fun st => (fs_stmt hw T st).1 Γ⟩

/-- A call of a function of the program is right: if `P` has a call of `f` at item `k`, the argument values `vs` are in the words from
the stack pointer on and the machine memory holds the objects of `M`, and C defines the call, then the machine goes (`go`) to the item
after the call with the same stack pointer, holds the objects as C prescribes, has asked the system for what C prescribes, has changed nothing
else above the stack, and has the returned value in AX. -/
def CallsRight (C : Ctx) (go : Nat × MS → Nat × MS → Prop) (p : Program) (lab : Nat → Nat) (G : Int) (P : List Asm) : Prop :=
  ∀ (f : Nat) (r : CTy) (k : Nat) (s : MS) (vs : List Int) (sp : Int) (M : Mem) (v : Int) (M' : Mem), p.kind f = some (.fn r) → P[k]? = some (.call (lab f)) →
    Rel C G sp M s → MemOk C (sp + vs.length * C.w) M →
    (∀ i (h : i < vs.length), word C.w s.mem (sp + i * C.w) = sgn C.w vs[i]) →
    p.calls C G f vs sp M v M' →
    ∃ s', go (k, s) (k + 1, s') ∧ Rel C G sp M' s' ∧
      Outside C M (sp + vs.length * C.w) s s' ∧ (r ≠ .void → s'.reg 0 = sgn C.w v)

/-- The same with the processor alone. -/
def CallRight (C : Ctx) (base : Int) (p : Program) (lab : Nat → Nat) (G : Int) (P : List Asm) : Prop := CallsRight C (Steps C.w base P) p lab G P

/-- **C30**. Calls of compiled functions are right, for every program in the fragment: any nesting of blocks,
conditionals, loops, `switch`, `break`, `continue`, `return`, any depth of recursion, and calls of library functions. -/
theorem C30_call_lib_partial {C : Ctx} {K : Mach} {p : Program} {lab : Nat → Nat} {G : Int} {P : List Asm}
    (hl : Loaded C p lab G K.base P) (hlib : Library C K p lab G P) (hs : Supported C p lab) : CallsRight C (Go C.w K P) p lab G P := by
  intro f r k s vs sp M v M' hk hp hR hM hv ⟨n, hn⟩
  exact (code_ok (base := K) (hl.prog hlib hs) hlib.ok n).2.2.2 f vs sp M v M' (lab f) r k s (resolve_fn hk) hp hn hR hM hv

/-- **C30**, for programs that do not use the library: the processor alone does it. -/
theorem C30_call_partial {C : Ctx} {base : Int} {p : Program} {lab : Nat → Nat} {G : Int} {P : List Asm} (hn : NoLib C)
    (hl : Loaded C p lab G base P) (hs : Supported C p lab) : CallRight C base p lab G P := by
  intro f r k s vs sp M v M' hk hp hR hM hv hc
  obtain ⟨s', h2, h3⟩ := C30_call_lib_partial (K := alone base) hl (hn.library _ _ _ _ _) hs f r k s vs sp M v M' hk hp hR hM hv hc
  exact ⟨s', h2.steps (fun _ _ h => h), h3⟩

/-- The labels of the compiled functions are all different, if the labels of the functions are different and not among
those given out while the functions are compiled. -/
theorem C30_labels {C : Ctx} {p : Program} {lab : Nat → Nat} {l l' : Nat} {c : List Asm}
    (hc : codegen_funs C.w C.T (envOf p lab) p.funs l = .ok (c, l')) (hn : (p.funs.map (·.name)).Nodup)
    (hi : ∀ f ∈ p.funs, ∀ g ∈ p.funs, lab f.name = lab g.name → f.name = g.name)
    (ho : ∀ f ∈ p.funs, lab f.name < l ∨ l' ≤ lab f.name) : Uniq c := by
  apply uniq_of_cl
  intro x
  have h := lab_funs C.w C.T (envOf p lab) x _ _ _ _ hc
  have hl : ∀ f ∈ p.funs, lookup_fun (envOf p lab) f.name = some (lab f.name, ((p.fn f.name).map (·.ret)).getD .void) := by
    intro f hf
    rw [lookup_envOf]
    unfold Program.fnTy
    cases e : p.fn f.name with
    | none =>
      exfalso
      have := List.find?_eq_none.1 e f hf
      simp at this
    | some g => simp
  have key : ∀ fds : List Fun, (∀ f ∈ fds, f ∈ p.funs) → (fds.map (·.name)).Nodup →
      funL (envOf p lab) x fds ≤ 1 ∧ (1 ≤ funL (envOf p lab) x fds → ∃ f ∈ fds, lab f.name = x) := by
    intro fds
    induction fds with
    | nil => intro _ _; simp [funL]
    | cons f fds ih =>
      intro hm hd
      simp only [List.map_cons, List.nodup_cons] at hd
      obtain ⟨i1, i2⟩ := ih (fun g hg => hm g (by simp [hg])) hd.2
      simp only [funL, hl f (hm f (by simp))]
      unfold isL
      split
      · rename_i e
        have : funL (envOf p lab) x fds = 0 := by
          rcases Nat.eq_zero_or_pos (funL (envOf p lab) x fds) with h0 | h0
          · exact h0
          · obtain ⟨g, hg, he⟩ := i2 h0
            have := hi f (hm f (by simp)) g (hm g (by simp [hg])) (by omega)
            exact absurd (List.mem_map.2 ⟨g, hg, this.symm⟩) hd.1
        exact ⟨by omega, fun _ => ⟨f, by simp, e⟩⟩
      · refine ⟨by omega, fun h => ?_⟩
        obtain ⟨g, hg, he⟩ := i2 (by omega)
        exact ⟨g, by simp [hg], he⟩
  obtain ⟨k1, k2⟩ := key p.funs (fun _ h => h) hn
  rcases Nat.eq_zero_or_pos (funL (envOf p lab) x p.funs) with h0 | h0
  · unfold ltL at h; split at h <;> split at h <;> omega
  · obtain ⟨f, hf, he⟩ := k2 h0
    have := ho f hf
    unfold ltL at h; split at h <;> split at h <;> omega

/-- With labels defined once and code below the middle of the address space, the machine is deterministic,
so every execution from the call reaches the item after it, or is on the way to it. -/
theorem C30_every_execution {C : Ctx} {base : Int} {P : List Asm} (hw : C.w = 4 ∨ C.w = 8) (hu : Uniq P)
    (h0 : 0 ≤ base) (hfit : adr C.w base P P.length < (2 ^ (8 * C.w - 1) : Nat)) {a b c : Nat × MS}
    (h1 : Steps C.w base P a b) (h2 : Steps C.w base P a c) : Steps C.w base P c b ∨ Steps C.w base P b c :=
  (steps_det hw hu h0 hfit h1 h2).symm

/-- The meaning of a call does not depend on the bound on the depth of the execution in its definition. -/
theorem C30_spec_fun {p : Program} {C : Ctx} {G : Int} {f : Nat} {vs : List Int} {sp : Int} {M : Mem} {v v' : Int} {M1 M2 : Mem}
    (h : p.calls C G f vs sp M v M1) (h' : p.calls C G f vs sp M v' M2) : v = v' ∧ M1 = M2 := Program.calls_fun h h'

theorem adr_data {w : Nat} {base : Int} {P : List Asm} {pc k : Nat} {bs : List Nat} (h : P[pc]? = some (.data k bs)) :
    adr w base P (pc + 1) = adr w base P pc + (bs.length + 1) := by
  unfold adr
  rw [List.take_add_one, h]
  simp [Asm.size]
  omega

/-- **C29, string literals are apart**: the bytes of a string literal and the zero byte after it share no address with another string literal or with an instruction: there is an
assignment of bytes to addresses that has them all in place. -/
theorem C29_strings_apart {w : Nat} {base : Int} {P : List Asm} {i j k : Nat} {bs : List Nat} (h : P[i]? = some (.data k bs)) (hij : i ≠ j) :
    adr w base P i + (bs.length + 1) ≤ adr w base P j ∨ adr w base P (j + 1) ≤ adr w base P i := by
  rw [← adr_data h]
  rcases Nat.lt_or_ge i j with hlt | hge
  · exact .inl (adr_mono hlt)
  · exact .inr (adr_mono (by omega))

/-- Each string literal therefore can be in memory. -/
theorem C29_strings_memory {w : Nat} {base : Int} (P : List Asm) : ∃ m : Int → Nat, ∀ pc k bs, P[pc]? = some (.data k bs) →
    ∀ i : Nat, i ≤ bs.length → m (adr w base P pc + i) = (bs ++ [0]).getD i 0 := by
  classical
  refine ⟨fun a => if h : ∃ (pc k : Nat) (bs : List Nat) (i : Nat), P[pc]? = some (.data k bs) ∧ i ≤ bs.length ∧ a = adr w base P pc + i then
    (h.choose_spec.choose_spec.choose ++ [0]).getD h.choose_spec.choose_spec.choose_spec.choose 0 else 0, ?_⟩
  intro pc k bs hp i hi
  have h : ∃ (pc' k' : Nat) (bs' : List Nat) (i' : Nat), P[pc']? = some (.data k' bs') ∧ i' ≤ bs'.length ∧ adr w base P pc + (i : Int) = adr w base P pc' + i' :=
    ⟨pc, k, bs, i, hp, hi, rfl⟩
  dsimp only
  rw [dif_pos h]
  have key : ∀ (pc' k' : Nat) (bs' : List Nat) (i' : Nat), P[pc']? = some (.data k' bs') ∧ i' ≤ bs'.length ∧ adr w base P pc + (i : Int) = adr w base P pc' + i' →
      (bs' ++ [0]).getD i' 0 = (bs ++ [0]).getD i 0 := by
    rintro pc' k' bs' i' ⟨h1, h2, h3⟩
    by_cases e : pc = pc'
    · subst e
      rw [hp] at h1
      cases h1
      rw [show i' = i by omega]
    · have a1 := C29_strings_apart (w := w) (base := base) hp e
      rw [adr_data h1] at a1
      omega
  exact key _ _ _ _ h.choose_spec.choose_spec.choose_spec.choose_spec

end Verif.Cg
