import Verif.Reach.Proofs5
/-! # C50: programs that do not return from `main`

The executable does everything that the C program does, also when the calls in progress never return: up to a call of `exit`, up to any point of an execution, and for ever. -/
namespace Verif.Reach
open Verif Verif.Gen Verif.Gen.Spec Verif.X86 Verif.X86.Spec Verif.Cg Verif.Cg.Spec Verif.Sys Verif.Rt Verif.Sys.Spec Spec

/-- A program and a process that is started with it, as in `C44_c_program_init_partial` and `C49_executable_partial`: the code `P` for the functions and initial values `ts` (in the fragment), loaded at `base`, with its string literals;
the state `s` and the world `σ` that the system starts it in, and what it gives (the global variables at `G`, the heap at `H`, the world `σ1`); the memory `M` at the start, and `M1` when the initial values are stored, as C says; and
the arguments `vs` of `main`, which is called `f`. -/
structure Setting {W : Type} (os : OS W) (C : Ctx) (L : Labels) (base : Int) (P : List Asm) (ga : Int) (mr : Bool) (ds : List Decl) (p : Program) (lab : Nat → Nat) (what : Nat → Option LibFn)
    (ts : List Top) (f : Nat) (s : MS) (σ σ1 : W) (sp G H : Int) (M1 : Mem) (vs : List Int) : Prop where
  compiled : Compiled C.w L P ga mr ds
  code : ∃ mm l0 l1 M, genTops C.w C.T mm (envOf p lab) ts l0 = .ok (ds, l1) ∧ SupTops C mm (envOf p lab) p.kind ts = true ∧
    MemOk C sp M ∧ M.io = [] ∧ (∀ a, sp ≤ a → a < sp + C.w → M a = none) ∧
    (∀ a b, M a = some (some b) → (G ≤ a ∧ a < G + 2 * C.w ∧ b = heapByte C.w G H a) ∨ (G + 2 * C.w ≤ a ∧ a < G + ga ∧ b = 0) ∨ OtherByte C.w sp ga G H base P s.mem a b) ∧
    Initialises C p mm G sp ts M M1
  funs : p.funs = funsOf ts
  space : p.InSpace C G
  supported : Supported C p lab
  declares : Declares p lab L what
  library : C.lib = Sys.Spec.library os σ1 C.w G what
  main : ∃ r, p.kind f = some (.fn r)
  label : lab f = L.main
  size : 2 * C.w ≤ ga ∧ ga < 2147483648
  started : Started C.w sp s
  given : Given os C.w sp ga σ G H σ1
  args : vs = [] ∨ vs = [Sys.Spec.word C.w s.mem sp, sp + C.w]
  strings : StrAt C base P
  stack : C.lim ≤ sp - 2 * C.w

/-- The items of code can be executed where they are loaded. -/
structure Fits (w : Nat) (base : Int) (P : List Asm) (m : Int → Nat) : Prop where
  labels : Uniq P
  low : 0 ≤ base
  high : adr w base P P.length < (2 ^ (8 * w - 1) : Nat)
  image : Image w base P m

/-- The memory in which an action starts. -/
def _root_.Verif.Reach.Spec.Act.mem : Act → Mem
  | .rv _ _ _ M | .lv _ _ _ M | .ar _ _ _ M | .st _ _ _ M | .it _ _ _ M | .lp _ _ _ _ _ M | .fn _ _ _ M => M

section
variable {W : Type} {os : OS W} {C : Ctx} {L : Labels} {base : Int} {P : List Asm} {ga : Int} {mr : Bool} {ds : List Decl}
variable {p : Program} {lab : Nat → Nat} {what : Nat → Option LibFn} {ts : List Top} {f : Nat} {s : MS} {σ σ1 : W} {sp G H : Int} {M1 : Mem} {vs : List Int}

theorem Setting.at1 (x : Setting os C L base P ga mr ds p lab what ts f s σ σ1 sp G H M1 vs) : At P 1 (genDecls L.init_start ds).1 := by
  have := at_self P
  rw [x.compiled.code] at this ⊢
  unfold program at this ⊢
  exact this.right.left

theorem Setting.loaded (x : Setting os C L base P ga mr ds p lab what ts f s σ σ1 sp G H M1 vs) : Loaded C p lab G base P := by
  obtain ⟨mm, l0, l1, M, hgen, -⟩ := x.code
  exact ⟨x.compiled.w48, by rw [x.funs]; exact tops_code _ _ _ _ _ _ hgen x.at1, x.space, x.strings⟩

theorem Setting.lib (x : Setting os C L base P ga mr ds p lab what ts f s σ σ1 sp G H M1 vs) {m : Int → Nat} (y : Fits C.w base P m) : Library C (machC os σ1 C.w base P) p lab G P :=
  lib_machC (C44_library_partial x.compiled y.labels y.low y.high x.declares x.library)

/-- The process gets to the call of `main`. -/
theorem Setting.toMain (x : Setting os C L base P ga mr ds p lab what ts f s σ σ1 sp G H M1 vs) (y : Fits C.w base P s.mem) :
    ∃ k s3, PSteps os C.w base P (.run 0 s σ) (.run k s3 (world os σ1 M1.io)) ∧ Match C P (p.env G) (envOf p lab) G (.fn f vs (sp - 2 * C.w) M1) k (rec_ s3 M1.io) := by
  have hl := x.loaded
  have h := x.compiled
  have hs := x.started
  have hg := x.given
  have hga := x.size
  obtain ⟨mm, l0, l1, M, hgen, hsupI, hM, hio, hargc, hbytes, ⟨n, hn⟩⟩ := x.code
  have hw := h.w48
  have low := hs.low; have high := hs.high
  have wp : 0 < C.w := by rcases hw with e | e <;> omega
  have hgs := hg.gStack; have hhs := hg.hStack; have hgsp := hg.gSpace
  have hall := inits_sim (m := s.mem) hl (C44_library_partial h y.labels y.low y.high x.declares x.library) x.supported n ts l0 ds l1 M M1 hgen hsupI hn
  obtain ⟨j, hj⟩ := h.main
  have hj0 : P[j]? = some (.lbl (genDecls L.init_start ds).2) := by
    rw [← h.init_next]
    unfold mainCode at hj
    simp only [List.append_assoc] at hj
    exact hj.head
  obtain ⟨i0, hi0, run⟩ := chain_sim (os := os) (base := base) ds L.init_start 1 x.at1 hj0
  obtain ⟨s1, p1, e3, e4, ef⟩ := C44_startup (os := os) (base := base) h hi0 x.size hs hg
  have w1 : Wf C.w s1 := psteps_wf hw (a := .run 0 s σ) hs.words p1
  obtain ⟨s2, σ2, q2, hI⟩ := run hall s1 σ1 ⟨by rw [hio]; rfl, ⟨w1, e4.trans hs.stack, e3, by
      intro a b hab
      have hd := (hM.dom a (by rw [hab]; simp))
      show s1.mem a % 256 = b
      rcases hbytes a b hab with ⟨h1, h2, rfl⟩ | ⟨h1, h2, rfl⟩ | h4
      · exact fresh_heap hw hgsp.1 (by omega) ef.heapStart ef.heapUsed ⟨h1, h2⟩
      · rw [ef.globals a h1 h2]
      · have h1 := h4.1
        rw [ef.others a h4.2.1 h4.2.2.1 (by omega), h4.mem y.image], rfl⟩, hM, fun a h1 h2 => ⟨hargc a h1 h2, ef.others a (by omega) (by omega) (by omega)⟩⟩
  have p2 := p1.trans q2
  obtain ⟨s3, p3, hcall, g4, g3, ga0, ga1, gm⟩ := main_sim (base := base) (s := s2) hw hj hI.rel.sp low high
  have p3' := p2.trans (PSteps.cpus (os := os) (σ := σ2) p3)
  have w3 : Wf C.w s3 := psteps_wf hw (a := .run 0 s σ) hs.words p3'
  have hw2 : σ2 = _ := hI.world
  subst hw2
  have hM1 := hI.mem
  have hargc : Sys.Spec.word C.w s2.mem sp = Sys.Spec.word C.w s.mem sp :=
    word_congr (w := C.w) (a := sp) (by omega) (by omega) (fun x h1 h2 => (hI.argc x h1 h2).2)
  have hlen : (vs.length : Int) * C.w ≤ 2 * C.w := by
    rcases x.args with rfl | rfl
    · simp; omega
    · simp
  obtain ⟨r, hr⟩ := x.main
  refine ⟨j + 6, s3, p3', L.main, r, by rw [← x.label]; exact resolve_fn hr, hcall, ⟨w3, g4, g3.trans hI.rel.glo, ?_, rfl⟩, hM1.mono (by omega), ?_⟩
  · intro a b hab
    have hd := (hM1.dom a (by rw [hab]; simp))
    have h3 := hM1.lim
    have h4 := x.stack
    show s3.mem a % 256 = b
    rw [gm a (by omega)]
    exact hI.rel.agree a b hab
  · intro i hi
    have e1 : sp - (2 : Int) * C.w + ((1 : Nat) : Int) * C.w = sp - C.w := by omega
    have e0 : sp - (2 : Int) * C.w + ((0 : Nat) : Int) * C.w = sp - 2 * C.w := by omega
    rcases x.args with rfl | rfl
    · simp at hi
    · match i, hi with
      | 0, _ => rw [e0]; exact ga0.trans (hargc.trans (sgn_sgn ..).symm)
      | 1, _ => rw [e1]; exact ga1

/-- What the invariant says about the machine. -/
theorem Match.rel {b : Act} {pc : Nat} {s : MS} {Γ0 : Cg.Env} {ρ0 : Cg.Spec.Env} (h : Match C P ρ0 Γ0 G b pc s) : (∀ a c, b.mem a = some (some c) → s.mem a % 256 = c) ∧ s.io = b.mem.io := by
  cases b with
  | rv => obtain ⟨_, _, _, _, _, _, _, _, _, _, _, _, _, _, _, h, _⟩ := h; exact ⟨h.agree, h.io⟩
  | lv => obtain ⟨_, _, _, _, _, _, _, _, _, _, _, _, _, _, h, _⟩ := h; exact ⟨h.agree, h.io⟩
  | ar => obtain ⟨_, _, _, _, _, _, _, _, _, _, _, _, _, _, h, _⟩ := h; exact ⟨h.agree, h.io⟩
  | st => obtain ⟨_, _, _, _, _, _, _, _, _, _, _, _, _, _, _, _, _, h, _⟩ := h; exact ⟨h.agree, h.io⟩
  | it => obtain ⟨_, _, _, _, _, _, _, _, _, _, _, _, _, _, _, _, _, h, _⟩ := h; exact ⟨h.agree, h.io⟩
  | lp => obtain ⟨_, _, _, _, _, _, _, _, _, _, _, _, _, _, _, _, _, _, _, _, _, _, _, _, _, _, _, _, _, _, _, _, _, _, _, h, _⟩ := h; exact ⟨h.agree, h.io⟩
  | fn => obtain ⟨_, _, _, _, h, _⟩ := h; exact ⟨h.agree, h.io⟩

theorem Setting.follow (x : Setting os C L base P ga mr ds p lab what ts f s σ σ1 sp G H M1 vs) (y : Fits C.w base P s.mem) {b : Act}
    (hr : Reaches C p.fn (p.env G) (.fn f vs (sp - 2 * C.w) M1) b) :
    ∃ k s', PSteps os C.w base P (.run 0 s σ) (.run k s' (world os σ1 b.mem.io)) ∧ Match C P (p.env G) (envOf p lab) G b k (rec_ s' b.mem.io) := by
  obtain ⟨k, s3, q, hm⟩ := x.toMain y
  have hlib := x.lib y
  obtain ⟨k', s', hg, hm'⟩ := reaches (x.loaded.prog hlib x.supported) hlib.ok hr hm
  have hp := go_p s3.io hg
  simp only [rec_rec, rec_self] at hp
  have e := hm'.rel.2
  rw [e] at hp
  refine ⟨k', rec_ s' s3.io, q.trans hp, ?_⟩
  rw [rec_rec, ← e]
  exact hm'

/-- **C50, everything that is reached.** When the C program, started at `main`, comes to carry out `b` — a statement, an expression, a call, in whatever functions that have not returned — with the memory `b.mem`, the process comes to
a state whose memory is that memory, and in which the system has been asked for just what the C program has asked for so far. -/
theorem C50_reach_partial (x : Setting os C L base P ga mr ds p lab what ts f s σ σ1 sp G H M1 vs) (y : Fits C.w base P s.mem) {b : Act}
    (hr : Reaches C p.fn (p.env G) (.fn f vs (sp - 2 * C.w) M1) b) :
    ∃ k s', PSteps os C.w base P (.run 0 s σ) (.run k s' (world os σ1 b.mem.io)) ∧ ∀ a c, b.mem a = some (some c) → s'.mem a % 256 = c := by
  obtain ⟨k, s', q, hm⟩ := x.follow y hr
  exact ⟨k, s', q, hm.rel.1⟩

/-- **C50, calls.** When the C program comes to call the function `g` with the arguments `ws`, the process comes to a call of that function with these arguments. -/
theorem C50_call_partial (x : Setting os C L base P ga mr ds p lab what ts f s σ σ1 sp G H M1 vs) (y : Fits C.w base P s.mem) {g : Nat} {ws : List Int} {sp' : Int} {M' : Mem}
    (hr : Reaches C p.fn (p.env G) (.fn f vs (sp - 2 * C.w) M1) (.fn g ws sp' M')) :
    ∃ k s', PSteps os C.w base P (.run 0 s σ) (.run k s' (world os σ1 M'.io)) ∧ P[k]? = some (.call (lab g)) ∧ s'.reg 4 = sgn C.w sp' ∧ s'.reg 3 = sgn C.w G ∧
      (∀ i (h : i < ws.length), Sys.Spec.argument C.w sp' s' i = sgn C.w ws[i]) ∧ ∀ a c, M' a = some (some c) → s'.mem a % 256 = c := by
  obtain ⟨k, s', q, hm⟩ := x.follow y hr
  obtain ⟨lbl, r, h1, h2, h3, -, h5⟩ := hm
  have hk := (envOf_rel (C := C) (F := 0) (G := G) (p := p) (lab := lab)).fn g lbl r h1
  have e := resolve_fn (lab := lab) hk
  rw [e] at h1
  simp only [Res.ok.injEq, Bnd.fn.injEq] at h1
  refine ⟨k, s', q, by rw [h1.1]; exact h2, h3.sp, h3.glo, h5, h3.agree⟩

/-- **C50, exit.** When the C program comes to call `exit(v)`, in whatever functions, the process ends with the status `v mod 256`, and the system has been asked for just what the C program asked for before. -/
theorem C50_exit_partial (x : Setting os C L base P ga mr ds p lab what ts f s σ σ1 sp G H M1 vs) (y : Fits C.w base P s.mem) {g : Nat} {v sp' : Int} {M' : Mem}
    (hr : Reaches C p.fn (p.env G) (.fn f vs (sp - 2 * C.w) M1) (.fn g [v] sp' M')) (hg : lab g = L.exit) (hroom : 3 * C.w ≤ sp' ∧ sp' + 3 * C.w ≤ (2 ^ (8 * C.w) : Nat)) :
    PSteps os C.w base P (.run 0 s σ) (.done (v % 256).toNat (world os σ1 M'.io)) := by
  obtain ⟨k, s', q, h1, h2, h3, h4, -⟩ := C50_call_partial x y hr
  have hw := x.compiled.w48
  have := C44_exit (os := os) (base := base) (σ := world os σ1 M'.io) x.compiled (k := k) (sp := sp') (s := s') ⟨by rw [← hg]; exact h1, h2, by rw [h3, sgn_sgn], hroom.1, hroom.2⟩
  rw [h4 0 (by simp)] at this
  simp only [List.getElem_cons_zero, sgn_emod256 hw] at this
  exact q.trans this

/-- **C50, printf.** When it comes to call the built-in `printf`, the process prints the message that it is not supported and ends with status 10. -/
theorem C50_printf_partial (x : Setting os C L base P ga mr ds p lab what ts f s σ σ1 sp G H M1 vs) (y : Fits C.w base P s.mem) {g : Nat} {ws : List Int} {sp' : Int} {M' : Mem}
    (hr : Reaches C p.fn (p.env G) (.fn f vs (sp - 2 * C.w) M1) (.fn g ws sp' M')) (hg : lab g = L.printf) (hroom : 3 * C.w ≤ sp' ∧ sp' + 3 * C.w ≤ (2 ^ (8 * C.w) : Nat)) :
    PSteps os C.w base P (.run 0 s σ) (.done 10 (prints os (world os σ1 M'.io) ("printf is not supported yet.\n".toList.map Char.toNat))) := by
  obtain ⟨k, s', q, h1, h2, h3, h4, -⟩ := C50_call_partial x y hr
  exact q.trans (C44_printf (os := os) (base := base) (σ := world os σ1 M'.io) x.compiled (k := k) (sp := sp') (s := s') ⟨by rw [← hg]; exact h1, h2, by rw [h3, sgn_sgn], hroom.1, hroom.2⟩)

/-! ### The bytes of the file -/

/-- Exactly `n` steps of the processor. -/
inductive Times (os : OS W) (w : Nat) (img : Int → Nat) : Nat → Img.Spec.Cfg W → Img.Spec.Cfg W → Prop
  | zero {a} : Times os w img 0 a a
  | succ {n a b c} : Img.Spec.BStep os w img a b → Times os w img n b c → Times os w img (n + 1) a c

theorem times_of {w : Nat} {img : Int → Nat} {a b : Img.Spec.Cfg W} (h : Img.Spec.BSteps os w img a b) : ∃ n, Times os w img n a b := by
  induction h with
  | refl => exact ⟨0, .zero⟩
  | head h _ ih => obtain ⟨n, hn⟩ := ih; exact ⟨n + 1, .succ h hn⟩
theorem Times.trans {w : Nat} {img : Int → Nat} {n m : Nat} {a b c : Img.Spec.Cfg W} (h : Times os w img n a b) (h2 : Times os w img m b c) : Times os w img (n + m) a c := by
  induction h with
  | zero => rwa [Nat.zero_add]
  | succ h _ ih => rw [Nat.add_right_comm]; exact .succ h (ih h2)
theorem Times.take {w : Nat} {img : Int → Nat} {n : Nat} {a b : Img.Spec.Cfg W} (h : Times os w img n a b) : ∀ m, m ≤ n → ∃ c, Times os w img m a c := by
  induction h with
  | zero => intro m hm; obtain rfl : m = 0 := by omega
            exact ⟨_, .zero⟩
  | succ h _ ih =>
    intro m hm
    cases m with
    | zero => exact ⟨_, .zero⟩
    | succ m => obtain ⟨c, hc⟩ := ih m (by omega); exact ⟨c, .succ h hc⟩
theorem times_long {w : Nat} {img : Int → Nat} {n : Nat} {a : Img.Spec.Cfg W} (h : BLong os w img n a) : ∃ m b, n ≤ m ∧ Times os w img m a b := by
  induction h with
  | zero => exact ⟨0, _, Nat.le_refl _, .zero⟩
  | succ h1 h2 _ ih =>
    obtain ⟨m, b, hm, ht⟩ := ih
    obtain ⟨k, hk⟩ := times_of h1
    exact ⟨_, b, by omega, hk.trans (.succ h2 ht)⟩

/-- The file that the compiler writes, loaded. -/
structure File (w : Nat) (P : List Asm) (m : Int → Nat) (entry : Int) : Prop where
  file : ∃ file, Img.executable w P = .ok file ∧ Img.Spec.ExecFile w file m entry
  small : ∀ a ∈ P, Img.Spec.Small a

theorem File.mem (x : Setting os C L base P ga mr ds p lab what ts f s σ σ1 sp G H M1 vs) {m : Int → Nat} (z : File C.w P m base) :
    (∃ st, Img.InMem C.w base P m st) ∧ Fits C.w base P m := by
  obtain ⟨file, hf, hl⟩ := z.file
  obtain ⟨mm, l0, l1, M, hgen, -⟩ := x.code
  have hok := Img.C49_encodable x.compiled hgen z.small
  have hpos : Code.Spec.DefsPositive C.w (Img.codeOps C.w P) := by rw [x.compiled.code]; exact Img.pos_of_jmp
  obtain ⟨st, hm, -⟩ := Img.inMem_of_file x.compiled.w48 hpos hf hl hok
  exact ⟨⟨st, hm⟩, Img.uniq_of_asm hpos hm.asm, hm.nonneg, hm.fit, hm.image hok⟩

/-- **C50, exit, for the file.** The loaded file, executed byte by byte, ends with the status `v mod 256` when the C program comes to call `exit(v)`, in whatever functions, having asked the system for just what the C program
asked for; no other end is possible. -/
theorem C50_executable_exit_partial (x : Setting os C L base P ga mr ds p lab what ts f s σ σ1 sp G H M1 vs) (z : File C.w P s.mem base) {g : Nat} {v sp' : Int} {M' : Mem}
    (hr : Reaches C p.fn (p.env G) (.fn f vs (sp - 2 * C.w) M1) (.fn g [v] sp' M')) (hg : lab g = L.exit) (hroom : 3 * C.w ≤ sp' ∧ sp' + 3 * C.w ≤ (2 ^ (8 * C.w) : Nat)) :
    Img.Spec.BSteps os C.w s.mem (.run base s σ) (.done (v % 256).toNat (world os σ1 M'.io)) ∧
    ∀ n σ', Img.Spec.BSteps os C.w s.mem (.run base s σ) (.done n σ') → n = (v % 256).toNat ∧ σ' = world os σ1 M'.io := by
  obtain ⟨⟨st, hm⟩, y⟩ := z.mem x
  have := hm.psteps (C50_exit_partial x y hr hg hroom)
  rw [show Img.down C.w base P (.run 0 s σ) = .run base s σ by simp [Img.down, adr]] at this
  exact ⟨this, fun n σ' h2 => Img.bsteps_det x.compiled.w48 h2 this⟩

/-- **C50, for the file.** What the C program reaches, the loaded file reaches. -/
theorem C50_executable_reach_partial (x : Setting os C L base P ga mr ds p lab what ts f s σ σ1 sp G H M1 vs) (z : File C.w P s.mem base) {b : Act}
    (hr : Reaches C p.fn (p.env G) (.fn f vs (sp - 2 * C.w) M1) b) :
    ∃ ip s', Img.Spec.BSteps os C.w s.mem (.run base s σ) (.run ip s' (world os σ1 b.mem.io)) ∧ ∀ a c, b.mem a = some (some c) → s'.mem a % 256 = c := by
  obtain ⟨⟨st, hm⟩, y⟩ := z.mem x
  obtain ⟨k, s', q, e⟩ := C50_reach_partial x y hr
  have := hm.psteps q
  rw [show Img.down C.w base P (.run 0 s σ) = .run base s σ by simp [Img.down, adr]] at this
  exact ⟨_, s', this, e⟩

/-- **C50, programs without end.** If the C program goes on for ever, so does the loaded file: it makes any number of steps, and never ends. -/
theorem C50_executable_endless_partial (x : Setting os C L base P ga mr ds p lab what ts f s σ σ1 sp G H M1 vs) (z : File C.w P s.mem base) {F : Nat → Act}
    (h0 : F 0 = .fn f vs (sp - 2 * C.w) M1) (hF : ∀ i, Leads C p.fn (p.env G) (F i) (F (i + 1))) :
    (∀ n, ∃ c, Times os C.w s.mem n (.run base s σ) c) ∧ ∀ n σ', ¬ Img.Spec.BSteps os C.w s.mem (.run base s σ) (.done n σ') := by
  obtain ⟨⟨st, hm⟩, y⟩ := z.mem x
  have hlong : ∀ n, BLong os C.w s.mem n (.run base s σ) := by
    intro n
    obtain ⟨k, s3, q, hmt⟩ := x.toMain y
    have hlib := x.lib y
    rw [← h0] at hmt
    have := long_p s3.io (endless (x.loaded.prog hlib x.supported) hlib.ok hF n _ 0 (Nat.le_refl _) hmt)
    simp only [rec_rec, rec_self] at this
    have hb := long_b hm (this.pre q)
    rwa [show Img.down C.w base P (.run 0 s σ) = .run base s σ by simp [Img.down, adr]] at hb
  refine ⟨fun n => ?_, fun n σ' h => ?_⟩
  · obtain ⟨m, b, h1, h2⟩ := times_long (hlong n)
    exact h2.take n h1
  · obtain ⟨N, hN⟩ := blong_done x.compiled.w48 h n σ' rfl
    exact hN (hlong N)

end
end Verif.Reach
