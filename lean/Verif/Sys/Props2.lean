import Verif.Sys.Props
import Verif.Sys.Io
import Verif.Cg.Props
/-! # C44: a compiled program from its start to its end -/
namespace Verif.Sys
open Verif Verif.X86 Verif.X86.Spec Verif.Cg Verif.Rt Spec

/-- The pieces of code that store initial values, in the order of the declarations. -/
def initsOf : List Decl → List (List Asm)
  | [] => []
  | .code _ :: ds => initsOf ds
  | .init _ c :: ds => c :: initsOf ds

/-- The piece of code `c`, wherever it is, takes the machine and the world from every state with the property `A` to a state with the property `B`. -/
def Runs {W : Type} (os : OS W) (w : Nat) (base : Int) (P c : List Asm) (A B : MS → W → Prop) : Prop :=
  ∀ i s σ, At P i c → A s σ → ∃ s' σ', PSteps os w base P (.run i s σ) (.run (i + c.length) s' σ') ∧ B s' σ'

/-- One piece after the other. -/
inductive RunsAll {W : Type} (os : OS W) (w : Nat) (base : Int) (P : List Asm) : List (List Asm) → (MS → W → Prop) → (MS → W → Prop) → Prop
  | nil {A B} : (∀ s σ, A s σ → B s σ) → RunsAll os w base P [] A B
  | cons {c cs A B D} : Runs os w base P c A B → RunsAll os w base P cs B D → RunsAll os w base P (c :: cs) A D

theorem chain_sim {W : Type} {os : OS W} {w : Nat} {base : Int} {P : List Asm} {j : Nat} : ∀ (ds : List Decl) (l i : Nat),
    At P i (genDecls l ds).1 → P[j]? = some (.lbl (genDecls l ds).2) →
    ∃ i0, P[i0]? = some (.lbl l) ∧ ∀ {A B : MS → W → Prop}, RunsAll os w base P (initsOf ds) A B → ∀ s σ, A s σ →
      ∃ s' σ', PSteps os w base P (.run i0 s σ) (.run j s' σ') ∧ B s' σ' := by
  intro ds
  induction ds with
  | nil => intro l i _ hj; exact ⟨j, hj, fun h s σ ha => by cases h with | nil h => exact ⟨s, σ, .refl, h s σ ha⟩⟩
  | cons d ds ih =>
    intro l i hat hj
    cases d with
    | code c => exact ih l _ (At.right (show At P i (c ++ (genDecls l ds).1) from hat)) hj
    | init l' c =>
      have hat : At P i ([.lbl l] ++ (c ++ ([.jmp l'] ++ (genDecls l' ds).1))) := hat
      obtain ⟨i1, e1, p1⟩ := ih l' _ hat.right.right.right hj
      refine ⟨i, hat.head, fun h s σ ha => ?_⟩
      cases h with
      | cons h1 h2 =>
        obtain ⟨s1, σ1, q1, b1⟩ := h1 _ s σ hat.right.left ha
        obtain ⟨s2, σ2, q2, b2⟩ := p1 h2 s1 σ1 b1
        exact ⟨s2, σ2, .head (.cpu (.lbl hat.head)) (q1.trans (.head (.cpu (.jmp hat.right.right.head e1)) q2)), b2⟩

section
variable {W : Type} {os : OS W} {w : Nat} {L : Labels} {base : Int} {P : List Asm} {ga : Int} {mr : Bool} {ds : List Decl} (h : Compiled w L P ga mr ds)
include h

/-- **C44, start.** The process starts at the first item. The program asks the system for a block of `ga` bytes for its global variables and for 100 MB of heap and goes
to the initialisation of the global variables: all of them are zero, the heap is empty, the stack is as the system made it. -/
theorem C44_startup {i0 : Nat} {s : MS} {σ σ' : W} {sp G H : Int} (hi0 : P[i0]? = some (.lbl L.init_start)) (hga : 2 * w ≤ ga ∧ ga < 2147483648)
    (hs : Started w sp s) (hg : Given os w sp ga σ G H σ') :
    ∃ s', PSteps os w base P (.run 0 s σ) (.run i0 s' σ') ∧ s'.reg 3 = sgn w G ∧ s'.reg 4 = s.reg 4 ∧ Fresh w sp ga G H s.mem s'.mem := by
  obtain ⟨i, hi⟩ := h.setup
  obtain ⟨s', p, e⟩ := setup_sim (os := os) (base := base) h.w48 hi hi0 hga hs hg
  have h0 : P[0]? = some (.jmp L.setup) := by rw [h.code]; rfl
  exact ⟨s', .head (.cpu (.jmp h0 hi.head)) p, e⟩

/-- The start of the initialisations: the state that `C44_startup` says, in the world `σ1`. -/
structure AtInit (w : Nat) (sp ga G H : Int) (m : Int → Nat) (σ1 : W) (s : MS) (σ : W) : Prop where
  world : σ = σ1
  words : ∀ r, sgn w (s.reg r) = s.reg r
  glo : s.reg 3 = sgn w G
  stack : s.reg 4 = sgn w sp
  fresh : Fresh w sp ga G H m s.mem

/-- The end of the initialisations: the stack is as it was, and the state is `Ready`. -/
structure AtMain (w : Nat) (sp G : Int) (Ready : MS → W → Prop) (s : MS) (σ : W) : Prop where
  glo : s.reg 3 = sgn w G
  stack : s.reg 4 = sgn w sp
  ready : Ready s σ

/-- **C44, whole runs.** Let the initialisations, run in the order of the declarations, take the machine from any fresh state to a state that is `Ready`, with the same
stack; and let `main`, called in such a state with the arguments `argc` (the word that the system left at the start of the stack) and `argv`
(the address after it), return with result `v`. Then the process, from its start, ends with status `v mod 256` (0 if `main` is declared `void`), and the world is as
`main` left it. -/
theorem C44_process {s : MS} {σ σ1 σ3 : W} {sp G H v : Int} {Ready : MS → W → Prop} (hga : 2 * w ≤ ga ∧ ga < 2147483648)
    (hs : Started w sp s) (hg : Given os w sp ga σ G H σ1)
    (hinit : RunsAll os w base P (initsOf ds) (AtInit w sp ga G H s.mem σ1) (AtMain w sp G Ready))
    (hmain : ∀ (k : Nat) (s2 s3 : MS) (σ2 : W), Ready s2 σ2 → Calls w P L.main k (sp - 2 * w) s3 → (∀ r, sgn w (s3.reg r) = s3.reg r) → s3.reg 3 = sgn w G →
      argument w (sp - 2 * w) s3 0 = word w s2.mem sp → argument w (sp - 2 * w) s3 1 = sgn w (sp + w) → (∀ x, ¬ (sp - 2 * w ≤ x ∧ x < sp) → s3.mem x = s2.mem x) →
      ∃ s4, PSteps os w base P (.run k s3 σ2) (.run (k + 1) s4 σ3) ∧ s4.reg 4 = s3.reg 4 ∧ (mr = true → s4.reg 0 = sgn w v)) :
    PSteps os w base P (.run 0 s σ) (.done (if mr then (v % 256).toNat else 0) σ3) := by
  have hw := h.w48
  have low := hs.low; have high := hs.high
  have wp : 0 < w := by rcases hw with rfl | rfl <;> omega
  obtain ⟨j, hj⟩ := h.main
  have hj0 : P[j]? = some (.lbl (genDecls L.init_start ds).2) := by
    rw [← h.init_next]
    unfold mainCode at hj
    simp only [List.append_assoc] at hj
    exact hj.head
  have hds : At P 1 (genDecls L.init_start ds).1 := by
    have := at_self P
    rw [h.code] at this ⊢
    unfold program at this ⊢
    exact this.right.left
  obtain ⟨i, hi⟩ := h.setup
  obtain ⟨i0, hi0, run⟩ := chain_sim (os := os) (base := base) ds L.init_start 1 hds hj0
  obtain ⟨s1, p1, e3, e4, ef⟩ := C44_startup (os := os) (base := base) h hi0 hga hs hg
  have w1 : Wf w s1 := psteps_wf hw (a := .run 0 s σ) hs.words p1
  obtain ⟨s2, σ2, q2, f3, f4, rdy⟩ := run hinit s1 σ1 ⟨rfl, w1, e3, e4.trans hs.stack, ef⟩
  have p2 := p1.trans q2
  obtain ⟨s3, p3, hcall, g4, g3, ga0, ga1, gm⟩ := main_sim (base := base) hw hj f4 low high
  have p3' := p2.trans (PSteps.cpus (os := os) (σ := σ2) p3)
  have w3 : Wf w s3 := psteps_wf hw (a := .run 0 s σ) hs.words p3'
  have e1 : sp - (2 : Int) * w + ((1 : Nat) : Int) * w = sp - w := by omega
  obtain ⟨s4, p4, k4, k0⟩ := hmain (j + 6) s2 s3 σ2 rdy ⟨hcall, g4, w3 3, by omega, by omega⟩ w3 (g3.trans f3)
    (by unfold argument; rw [show sp - (2 : Int) * w + ((0 : Nat) : Int) * w = sp - 2 * w by omega]; exact ga0)
    (by unfold argument; rw [e1]; exact ga1) gm
  have p5 := end_sim (os := os) (σ := σ3) (base := base) hw hj (k4.trans g4) (by omega)
  have : (if mr = true then (s4.reg 0 % 256).toNat else 0) = (if mr = true then (v % 256).toNat else 0) := by
    cases hm : mr with
    | true => simp only [if_true]; rw [k0 hm, sgn_emod256 hw]
    | false => rfl
  rw [this] at p5
  exact p3'.trans (p4.trans p5)

/-- **C44, the result of a run is unique** when no two labels are the same and the code fits in the lower half of the address space. -/
theorem C44_unique (hu : Uniq P) (h0 : 0 ≤ base) (hfit : adr w base P P.length < (2 ^ (8 * w - 1) : Nat)) {s : MS} {σ σ1 σ2 : W} {n1 n2 : Nat}
    (h1 : PSteps os w base P (.run 0 s σ) (.done n1 σ1)) (h2 : PSteps os w base P (.run 0 s σ) (.done n2 σ2)) : n1 = n2 ∧ σ1 = σ2 :=
  psteps_det h.w48 hu h0 hfit h1 h2

/-- **C44 with C30.** A program without initial values and library calls, whose functions are in the fragment of C30 (`C44_c_program_io_partial` is about programs that call the library): if C defines the call of `main` with `argc` and `argv` (or with no parameters),
in a memory of zero global variables, the string literals and whatever else the system put outside the free part of the stack, the process ends with the status that C says. -/
theorem C44_c_program_partial {C : Cg.Spec.Ctx} {p : Cg.Spec.Program} {lab : Nat → Nat} {f : Nat} {r : Gen.CTy} {s : MS} {σ σ1 : W} {sp G H v : Int} {M M' : Cg.Spec.Mem} {vs : List Int}
    (hC : C.w = w) (hn : NoLib C) (hl : Loaded C p lab G base P) (hsup : Supported C p lab) (hf : p.kind f = some (.fn r)) (hlab : lab f = L.main) (hr : mr = true → r ≠ .void)
    (hno : initsOf ds = []) (hga : 2 * w ≤ ga ∧ ga < 2147483648) (hs : Started w sp s) (hg : Given os w sp ga σ G H σ1)
    (hvs : vs = [] ∨ vs = [word w s.mem sp, sp + w])
    (hM : MemOk C (sp - 2 * w + vs.length * w) M)
    (himg : Image w base P s.mem)
    (hbytes : ∀ a b, M a = some (some b) → (G + 2 * w ≤ a ∧ a < G + ga ∧ b = 0) ∨ OtherByte w sp ga G H base P s.mem a b)
    (hcall : p.calls C G f vs (sp - 2 * w) M v M') :
    PSteps os w base P (.run 0 s σ) (.done (if mr then (v % 256).toNat else 0) σ1) := by
  have hw := h.w48
  have low := hs.low; have high := hs.high
  have wp : 0 < w := by rcases hw with rfl | rfl <;> omega
  have hgs := hg.gStack; have hhs := hg.hStack
  subst hC
  refine C44_process (G := G) (H := H) h hga hs hg (Ready := fun s2 σ2 => σ2 = σ1 ∧ Fresh C.w sp ga G H s.mem s2.mem) ?_ ?_
  · rw [hno]
    exact .nil fun s1 σ2 h => ⟨h.glo, h.stack, h.world, h.fresh⟩
  · rintro k s2 s3 σ2 ⟨rfl, hf2⟩ hc w3 e3 a0 a1 hm
    have hargc : word C.w s2.mem sp = word C.w s.mem sp := by
      refine word_congr (w := C.w) (a := sp) (by omega) (by omega) (fun x h1 h2 => hf2.others x (by omega) (by omega) (by omega))
    obtain ⟨s4, q, R, _, e0⟩ := C30_call_partial (base := base) hn hl hsup f r k (rec_ s3 M.io) vs (sp - 2 * C.w) M v M' hf (by rw [hlab]; exact hc.call)
      ⟨w3, hc.stack, e3, by
        intro a b hab
        have hd := (hM.dom a (by rw [hab]; simp))
        rcases hbytes a b hab with ⟨h1, h2, rfl⟩ | h4
        · show s3.mem a % 256 = 0
          rw [hm a (by omega), hf2.globals a h1 h2]
        · show s3.mem a % 256 = b
          have h1 := h4.1
          rw [hm a (by omega), hf2.others a h4.2.1 h4.2.2.1 (by omega), h4.mem himg], rfl⟩
      hM (by
        intro i hi
        rcases hvs with rfl | rfl
        · simp at hi
        · match i, hi with
          | 0, _ => exact a0.trans (hargc.trans (sgn_sgn ..).symm)
          | 1, _ => exact a1) hcall
    exact ⟨rec_ s4 s3.io, PSteps.cpus (os := os) (steps_rec s3.io q), R.sp.trans hc.stack.symm, fun hmr => e0 (hr hmr)⟩

/-- **C44, printf.** `printf` of the built-in library prints a message that it is not supported and ends the process with status 10. -/
theorem C44_printf {k : Nat} {sp : Int} {s : MS} {σ : W} (hc : Calls w P L.printf k sp s) :
    PSteps os w base P (.run k s σ) (.done 10 (prints os σ ("printf is not supported yet.\n".toList.map Char.toNat))) := by
  obtain ⟨i, hi⟩ := h.printf
  have hw := h.w48
  have low := hc.low; have high := hc.high
  have wp : 0 < w := by rcases hw with rfl | rfl <;> omega
  unfold printfFn at hi
  rw [List.append_assoc] at hi
  let s0 : MS := { setReg s 4 (sgn w (sp - w)) with mem := called w base P k s.mem sp }
  have st1 : Step w base P (k, s) (i, s0) := by
    have : Step w base P (k, s) _ := .call hc.call hi.head
    rw [hc.stack, sgn_sub_l] at this
    exact this
  have := crash_sim (os := os) (σ := σ) (base := base) (s := s0) (sp := sp - w) hw (by omega) (by decide) hi.right.left rfl hc.glo
  exact .head (.cpu st1) (.head (.cpu (.lbl hi.head)) this)

/-- A compiled program has `malloc` with the property that C34 needs. -/
theorem Compiled.hasMalloc (hu : Uniq P) (h0 : 0 ≤ base) (hfit : adr w base P P.length < (2 ^ (8 * w - 1) : Nat)) :
    ∃ i, HasMalloc w base P L.malloc i (I (rt_crash w heapMsg)) L.malloc_ok ∧ At P (i + 8) (I (rt_crash w heapMsg)) := by
  obtain ⟨i, hi⟩ := h.malloc
  have hat : At P (i + 8) (I (rt_crash w heapMsg)) := by
    have h2 : At P i ([.lbl L.malloc] ++ (I [mov_reg_mem w 0 4 w, mov_reg_mem w 1 3 w, .add_reg_reg 0 1, mov_reg_mem w 1 3 0,
      .add_reg_imm 1 RT_HEAP_SIZE, .cmp_reg_reg 0 1] ++ ([Asm.jcc 0xe L.malloc_ok] ++ (I (rt_crash w heapMsg) ++ ([.lbl L.malloc_ok] ++
      I [mov_reg_mem w 1 3 w, mov_mem_reg w 3 w 0, .mov_reg_reg 0 1] ++ [.ret]))))) := by
      simpa [Rt.malloc, rt_malloc, jump_cond_reg_reg, I] using hi
    exact h2.right.right.right.left
  exact ⟨i, ⟨h.w48, hi, hu, h0, hfit, fun s c => crash_stay h.w48 hat s c, by intro n hn; unfold I at hn; rw [List.mem_map] at hn; obtain ⟨_, _, e⟩ := hn; cases e⟩, hat⟩

/-- **C44, malloc.** With room in the heap `malloc` returns the start of its unused part; -/
theorem C44_malloc_room (hu : Uniq P) (h0 : 0 ≤ base) (hfit : adr w base P P.length < (2 ^ (8 * w - 1) : Nat)) {k : Nat} {G sp : Int} {s : MS}
    (hc : CallOk w P L.malloc k G sp s) (hroom : cell w s.mem (G + w) + cell w s.mem sp ≤ cell w s.mem G + heapSize) :
    ∃ r, Returns w base P (k + 1) (s.reg 4) (k, s) r ∧ Called w G sp s r := by
  obtain ⟨i, H, _⟩ := h.hasMalloc hu h0 hfit
  exact C34_malloc_room H hc hroom

/-- without room the process prints "Heap overflow" and ends with status 10. -/
theorem C44_malloc_full (hu : Uniq P) (h0 : 0 ≤ base) (hfit : adr w base P P.length < (2 ^ (8 * w - 1) : Nat)) {k : Nat} {G sp : Int} {s : MS} {σ : W}
    (hc : CallOk w P L.malloc k G sp s) (hsp : 3 * w ≤ sp) (hfull : cell w s.mem G + heapSize < cell w s.mem (G + w) + cell w s.mem sp) :
    PSteps os w base P (.run k s σ) (.done 10 (prints os σ ("Heap overflow\n".toList.map Char.toNat))) := by
  obtain ⟨i, H, hat⟩ := h.hasMalloc hu h0 hfit
  have hw := h.w48
  obtain ⟨p0, p1⟩ := hc.sRange
  obtain ⟨c1, c2, c3⟩ := cells_called (base := base) hw hc
  have hb := hc.noOverflow
  have hG : -((2 ^ (8 * w - 1) : Nat) : Int) ≤ cell w s.mem G := (sgn_bounds hw _).1
  obtain ⟨s1, _, e4, er, e0, eA, eB, st, _⟩ := to_jump H hc.call hc.stack hc.glo
  rw [c1, c3, sgn_id hw (by omega) (by omega)] at e0
  rw [c2, sgn_id hw (by unfold heapSize; omega) (by omega)] at eB
  have hj : P[i + 7]? = some (.jcc 0xe L.malloc_ok) := by
    have h2 : At P i ([.lbl L.malloc] ++ (I [mov_reg_mem w 0 4 w, mov_reg_mem w 1 3 w, .add_reg_reg 0 1, mov_reg_mem w 1 3 0,
      .add_reg_imm 1 RT_HEAP_SIZE, .cmp_reg_reg 0 1] ++ ([Asm.jcc 0xe L.malloc_ok] ++ (I (rt_crash w heapMsg) ++ ([.lbl L.malloc_ok] ++
      I [mov_reg_mem w 1 3 w, mov_mem_reg w 3 w 0, .mov_reg_reg 0 1] ++ [.ret]))))) := by
      simpa [Rt.malloc, rt_malloc, jump_cond_reg_reg, I] using H.at'
    exact h2.right.right.left.head
  have stF : Step w base P (i + 7, s1) (i + 8, s1) := by
    refine .jccF hj ?_
    rw [eA, eB, e0]
    simp [X86.Spec.cond]
    omega
  have := crash_sim (os := os) (σ := σ) (base := base) (s := s1) (sp := sp - w) hw (by omega) (by decide) hat e4
    (by rw [er 3 (by omega) (by omega) (by omega), hc.glo, sgn_sgn])
  exact (PSteps.cpus (os := os) (σ := σ) (st.trans (.one stF))).trans this

/-- **C44, the heap.** At the start of the initialisations the history of C34 begins. -/
theorem C44_heap_start {sp G H : Int} {m : Int → Nat} {s : MS} (h3 : s.reg 3 = sgn w G) (hH : -((2 ^ (8 * w - 1) : Nat) : Int) ≤ H ∧ H < (2 ^ (8 * w - 1) : Nat)) (hf : Fresh w sp ga G H m s.mem) :
    Hist w base P L.malloc G H s [] := by
  have e : sgn w H = H := sgn_id h.w48 hH.1 hH.2
  exact .start h3 (hf.heapStart.trans e) (hf.heapUsed.trans e)

end
end Verif.Sys
