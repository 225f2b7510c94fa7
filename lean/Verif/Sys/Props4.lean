import Verif.Sys.IniProofs
/-! # C44: programs whose global variables have initial values -/
namespace Verif.Sys
open Verif Verif.Gen Verif.Gen.Spec Verif.X86 Verif.X86.Spec Verif.Cg Verif.Rt Spec Verif.Cg.Spec

/-- The initial values are in the fragment. -/
def SupTops (C : Ctx) (mm : Nat → List Nat) (Γ : Cg.Env) (κ : Nat → Option VK) : List Top → Bool
  | [] => true
  | .var _ t (some i) :: ts => SupI C mm Γ κ i t && SupTops C mm Γ κ ts
  | _ :: ts => SupTops C mm Γ κ ts

theorem tops_code {w : Nat} {T : Tags} {mm : Nat → List Nat} {Γ : Cg.Env} {P : List Asm} : ∀ (ts : List Top) (l : Nat) (ds : List Decl) (l' i l0 : Nat),
    genTops w T mm Γ ts l = .ok (ds, l') → At P i (genDecls l0 ds).1 → ∀ f ∈ funsOf ts, ∃ l c l' i, codegen_glo_fun_decl w T Γ f l = .ok (c, l') ∧ At P i c := by
  intro ts
  induction ts with
  | nil => intro l ds l' i l0 _ _ f hf; cases hf
  | cons t ts ih =>
    intro l ds l' i l0 h hat f hf
    cases t with
    | fn g =>
      simp only [genTops, Res.bind_eq_ok, Res.ok.injEq, Prod.mk.injEq] at h
      obtain ⟨⟨c, l1⟩, h1, ⟨ds', l2⟩, h2, rfl, rfl⟩ := h
      have hat : At P i (c ++ (genDecls l0 ds').1) := hat
      simp only [funsOf, List.mem_cons] at hf
      rcases hf with rfl | hf
      · exact ⟨_, _, _, _, h1, hat.left⟩
      · exact ih _ _ _ _ _ h2 hat.right f hf
    | var x t init =>
      cases init with
      | none => exact ih l ds l' i l0 (by simpa only [genTops] using h) hat f (by simpa only [funsOf] using hf)
      | some ini =>
        simp only [genTops] at h
        split at h
        · cases h
        · simp only [Res.bind_eq_ok, Res.ok.injEq, Prod.mk.injEq] at h
          obtain ⟨⟨c, l1⟩, h1, ⟨ds', l2⟩, h2, rfl, rfl⟩ := h
          have hat : At P i ([.lbl l0] ++ (c ++ ([.jmp l] ++ (genDecls l ds').1))) := hat
          exact ih _ _ _ _ _ h2 hat.right.right.right f (by simpa only [funsOf] using hf)

theorem RunsAll.weaken {W : Type} {os : OS W} {w : Nat} {base : Int} {P : List Asm} {cs : List (List Asm)} {A A' B B' : MS → W → Prop}
    (ha : ∀ s σ, A s σ → A' s σ) (hb : ∀ s σ, B' s σ → B s σ) (h : RunsAll os w base P cs A' B') : RunsAll os w base P cs A B := by
  induction h generalizing A with
  | nil h => exact .nil fun s σ x => hb _ _ (h _ _ (ha _ _ x))
  | cons h1 _ ih => exact .cons (fun i s σ hat x => h1 i s σ hat (ha _ _ x)) (ih (fun _ _ x => x) hb)

theorem call_room {C : Ctx} {p : Program} {G : Int} {f : Nat} {vs : List Int} {sp v : Int} {M M' : Mem} (h : p.calls C G f vs sp M v M') : C.lim ≤ sp := by
  obtain ⟨n, h⟩ := h
  cases n with
  | zero => simp [call] at h
  | succ n =>
    unfold call at h
    split at h
    · split at h
      · rename_i hh; have := hh.1; unfold Room at this; omega
      · cases h
    · split at h
      · omega
      · cases h

section
variable {W : Type} {os : OS W} {C : Ctx} {L : Labels} {base : Int} {P : List Asm} {ga : Int} {mr : Bool} {ds : List Decl}

/-- The machine represents the memory `M`, the world is what the requests made it, and the word at the top of the stack is still there. -/
structure Inv (os : OS W) (C : Ctx) (G sp : Int) (m : Int → Nat) (σ1 : W) (M : Mem) (s : MS) (σ : W) : Prop where
  world : σ = world os σ1 M.io
  rel : Rel C G sp M (rec_ s M.io)
  mem : MemOk C sp M
  argc : ∀ a, sp ≤ a → a < sp + C.w → M a = none ∧ s.mem a = m a

theorem inits_sim {p : Program} {lab : Nat → Nat} {mm : Nat → List Nat} {G sp : Int} {m : Int → Nat} {σ1 : W} (hl : Loaded C p lab G base P)
    (hlib : Library C (mach os σ1 C.w base P) p lab G P) (hs : Supported C p lab) (n : Nat) : ∀ (ts : List Top) (l : Nat) (ds : List Decl) (l' : Nat) (M M' : Mem),
    genTops C.w C.T mm (envOf p lab) ts l = .ok (ds, l') → SupTops C mm (envOf p lab) p.kind ts = true →
    initAll C p mm (fun e M => evalE C (call C p.fn (p.env G) n) (p.env G) e sp M) G ts M = some M' →
    RunsAll os C.w base P (initsOf ds) (Inv os C G sp m σ1 M) (Inv os C G sp m σ1 M') := by
  intro ts
  induction ts with
  | nil =>
    intro l ds l' M M' h _ hx
    simp only [genTops, Res.ok.injEq, Prod.mk.injEq] at h
    obtain ⟨rfl, rfl⟩ := h
    simp only [initAll, Option.some.injEq] at hx
    subst hx
    exact .nil fun _ _ h => h
  | cons t ts ih =>
    intro l ds l' M M' h hsup hx
    cases t with
    | fn g =>
      simp only [genTops, Res.bind_eq_ok, Res.ok.injEq, Prod.mk.injEq] at h
      obtain ⟨⟨c, l1⟩, h1, ⟨ds', l2⟩, h2, rfl, rfl⟩ := h
      show RunsAll _ _ _ _ (initsOf ds') _ _
      exact ih _ _ _ _ _ h2 (by simpa only [SupTops] using hsup) (by simpa only [initAll] using hx)
    | var x t init =>
      cases init with
      | none => exact ih _ _ _ _ _ (by simpa only [genTops] using h) (by simpa only [SupTops] using hsup) (by simpa only [initAll] using hx)
      | some ini =>
        simp only [genTops] at h
        simp only [SupTops, Bool.and_eq_true] at hsup
        simp only [initAll] at hx
        split at h
        · cases h
        · rename_i y o u e
          have e : p.globals.find? (·.1 = x) = some (y, o, u) := e
          rw [e] at hx
          simp only [Option.bind_eq_some_iff] at hx
          obtain ⟨M1, x1, x2⟩ := hx
          simp only [Res.bind_eq_ok, Res.ok.injEq, Prod.mk.injEq] at h
          obtain ⟨⟨c, l1⟩, h1, ⟨ds', l2⟩, h2, rfl, rfl⟩ := h
          refine .cons ?_ (ih _ _ _ _ _ h2 hsup.2 x2)
          intro i s σ hat hI
          obtain ⟨rfl, hR, hM, ha⟩ := hI
          obtain ⟨d, s1, g, r1, o1⟩ := (init_sim hl hlib hs n ini).1 _ _ _ _ _ _ _ h1 hsup.1 x1 i (rec_ s M.io) hat hR hM
          have q := psteps_rec s.io (go_psteps g)
          simp only [Cfg.rec_, rec_rec, rec_self] at q
          rw [r1.io] at q
          refine ⟨rec_ s1 s.io, _, q, rfl, by rw [rec_rec, ← r1.io]; exact r1, hM.same d, fun a h1 h2 => ?_⟩
          have ⟨e1, e2⟩ := ha a h1 h2
          refine ⟨?_, ?_⟩
          · have := d a
            rw [e1] at this
            cases e3 : M1 a with
            | none => rfl
            | some b => rw [e3] at this; cases this
          · show s1.mem a = m a
            rw [o1 a e1 (by omega)]
            exact e2

variable (h : Compiled C.w L P ga mr ds)
include h

/-- **C44 with C26, C29, C30 and the library.** A program whose functions and initial values are in the fragment: if C defines the initial values (in a memory `M` of zero global variables, an unused heap, the string literals and
whatever else the system put outside the free part of the stack), which makes the memory `M1`, and then the call of `main` with `argc` and `argv` (or with no parameters), and the program has in all
asked the system for what `M'.io` records, then the process asks the system for just that and ends with the status that C says, in the world that results. -/
theorem C44_c_program_init_partial {p : Program} {lab : Nat → Nat} {what : Nat → Option LibFn} {mm : Nat → List Nat} {ts : List Top} {l0 l1 : Nat} {f : Nat} {r : CTy} {s : MS} {σ σ1 : W}
    {sp G H v : Int} {M M1 M' : Mem} {vs : List Int}
    (hu : Uniq P) (h0 : 0 ≤ base) (hfit : adr C.w base P P.length < (2 ^ (8 * C.w - 1) : Nat))
    (hgen : genTops C.w C.T mm (envOf p lab) ts l0 = .ok (ds, l1)) (hfuns : p.funs = funsOf ts) (hG : p.InSpace C G)
    (hsup : Supported C p lab) (hsupI : SupTops C mm (envOf p lab) p.kind ts = true) (hd : Declares p lab L what) (hlib : C.lib = library os σ1 C.w G what)
    (hf : p.kind f = some (.fn r)) (hlab : lab f = L.main) (hr : mr = true → r ≠ .void)
    (hga : 2 * C.w ≤ ga ∧ ga < 2147483648) (hs : Started C.w sp s) (hg : Given os C.w sp ga σ G H σ1)
    (hvs : vs = [] ∨ vs = [Spec.word C.w s.mem sp, sp + C.w])
    (hM : MemOk C sp M) (hio : M.io = []) (hargc : ∀ a, sp ≤ a → a < sp + C.w → M a = none)
    (hstr : StrAt C base P) (himg : Image C.w base P s.mem)
    (hbytes : ∀ a b, M a = some (some b) → (G ≤ a ∧ a < G + 2 * C.w ∧ b = heapByte C.w G H a) ∨ (G + 2 * C.w ≤ a ∧ a < G + ga ∧ b = 0) ∨ OtherByte C.w sp ga G H base P s.mem a b)
    (hinit : Initialises C p mm G sp ts M M1) (hcall : p.calls C G f vs (sp - 2 * C.w) M1 v M') :
    PSteps os C.w base P (.run 0 s σ) (.done (if mr then (v % 256).toNat else 0) (world os σ1 M'.io)) := by
  have hw := h.w48
  have low := hs.low; have high := hs.high
  have wp : 0 < C.w := by rcases hw with e | e <;> omega
  have hgs := hg.gStack; have hhs := hg.hStack; have hgsp := hg.gSpace
  have hds : At P 1 (genDecls L.init_start ds).1 := by
    have := at_self P
    rw [h.code] at this ⊢
    unfold program at this ⊢
    exact this.right.left
  have hl : Loaded C p lab G base P := ⟨hw, by rw [hfuns]; exact tops_code _ _ _ _ _ _ hgen hds, hG, hstr⟩
  have hL := C44_library_partial h (base := base) hu h0 hfit hd hlib
  obtain ⟨n, hn⟩ := hinit
  have hall := inits_sim (m := s.mem) hl hL hsup n ts l0 ds l1 M M1 hgen hsupI hn
  refine C44_process (G := G) (H := H) h hga hs hg (Ready := Inv os C G sp s.mem σ1 M1) ?_ ?_
  · refine RunsAll.weaken ?_ ?_ hall
    · intro s1 σ2 hA
      have hf2 := hA.fresh
      refine ⟨by rw [hA.world, hio]; rfl, ⟨hA.words, hA.stack, hA.glo, ?_, rfl⟩, hM, ?_⟩
      · intro a b hab
        have hd := (hM.dom a (by rw [hab]; simp))
        show s1.mem a % 256 = b
        rcases hbytes a b hab with ⟨h1, h2, rfl⟩ | ⟨h1, h2, rfl⟩ | h4
        · exact fresh_heap hw hgsp.1 (by omega) hf2.heapStart hf2.heapUsed ⟨h1, h2⟩
        · rw [hf2.globals a h1 h2]
        · have h1 := h4.1
          rw [hf2.others a h4.2.1 h4.2.2.1 (by omega), h4.mem himg]
      · intro a h1 h2
        exact ⟨hargc a h1 h2, hf2.others a (by omega) (by omega) (by omega)⟩
    · intro s2 σ2 hI
      exact ⟨hI.rel.glo, hI.rel.sp, hI⟩
  · rintro k s2 s3 σ2 hI hc w3 e3 a0 a1 hm
    have hw2 : σ2 = _ := hI.world
    subst hw2
    have hM1 := hI.mem
    have hargc : Spec.word C.w s2.mem sp = Spec.word C.w s.mem sp :=
      word_congr (w := C.w) (a := sp) (by omega) (by omega) (fun x h1 h2 => (hI.argc x h1 h2).2)
    have hlen : (vs.length : Int) * C.w ≤ 2 * C.w := by
      rcases hvs with rfl | rfl
      · simp; omega
      · simp
    obtain ⟨s4, q, R, _, e0⟩ := C30_call_lib_partial hl hL hsup f r k (rec_ s3 M1.io) vs (sp - 2 * C.w) M1 v M' hf (by rw [hlab]; exact hc.call)
      ⟨w3, hc.stack, e3, by
        intro a b hab
        have hd := (hM1.dom a (by rw [hab]; simp))
        have h3 := hM1.lim
        show s3.mem a % 256 = b
        rw [hm a ?_]
        · exact hI.rel.agree a b hab
        · have := call_room hcall
          omega, rfl⟩
      (hM1.mono (by omega)) (by
        intro i hi
        rcases hvs with rfl | rfl
        · simp at hi
        · match i, hi with
          | 0, _ => exact a0.trans (hargc.trans (sgn_sgn ..).symm)
          | 1, _ => exact a1) hcall
    have hp := psteps_rec s3.io (go_psteps q)
    simp only [Cfg.rec_, rec_rec] at hp
    rw [R.io] at hp
    exact ⟨rec_ s4 s3.io, hp, R.sp.trans hc.stack.symm, fun hmr => e0 (hr hmr)⟩

end
end Verif.Sys
