import Verif.Sys.Lib2
/-! # C44 with C30: programs that call the library -/
namespace Verif.Sys
open Verif Verif.Gen Verif.Gen.Spec Verif.X86 Verif.X86.Spec Verif.Cg Verif.Cg.Spec Verif.Rt Spec

theorem int_fits {C : Ctx} (hw : C.w = 4 ∨ C.w = 8) {v : Int} (h : inInt v) : Fits C (.int false) v := by
  unfold inInt at h
  refine fits_of_inTy hw (by simp [scalar, isInt, isPtr]) ?_
  simp [InTy, sizeof, isSigned]
  omega

theorem char_fits {C : Ctx} (hw : C.w = 4 ∨ C.w = 8) {v : Int} (h0 : -128 ≤ v) (h1 : v < 128) : Fits C (.char false) v := by
  refine fits_of_inTy hw (by simp [scalar, isInt, isPtr]) ?_
  simp [InTy, sizeof, isSigned]
  omega

theorem ptr_fits {C : Ctx} (hw : C.w = 4 ∨ C.w = 8) {v : Int} {t : CTy} (h0 : 0 ≤ v) (h1 : v < (2 ^ (8 * C.w) : Nat)) : Fits C (.ptr t) v := by
  refine fits_of_inTy hw (by simp [scalar, isInt, isPtr]) ?_
  simp [InTy, sizeof, isSigned] at h1 ⊢
  omega

theorem charOrEof_ge (l : List Nat) : -1 ≤ charOrEof (.ok l) := by
  cases l with
  | nil => simp [charOrEof]
  | cons b t => simp only [charOrEof]; omega

section
variable {W : Type} {os : OS W} {σ : W} {C : Ctx} {G : Int} {F : LibFn} {vs : List Int} {M M' : Mem} {v : Int}

theorem lib_type (hw : C.w = 4 ∨ C.w = 8) (h : libCall os σ C.w G F vs M = some (v, M')) : F.ret = .void ∨ Fits C F.ret v := by
  unfold libCall at h
  split at h
  · exact .inl rfl
  · split at h
    · split at h
      · rename_i l _ hl
        cases h
        exact .inr (char_fits hw (by have := charOrEof_ge l; omega) hl)
      · cases h
    · cases h
  · split at h
    · split at h
      · rename_i l e
        cases h
        refine .inr (int_fits hw ?_)
        have := charOrEof_ge l
        unfold inInt
        cases l with
        | nil => simp [charOrEof]
        | cons b t =>
          have := os.read_byte _ _ _ _ e b (by simp)
          simp only [charOrEof] at *
          omega
      · cases h
    · cases h
  · split at h
    · rename_i fd a n hh
      cases h
      refine .inr (int_fits hw ?_)
      obtain ⟨_, h2, h3, _⟩ := hh
      unfold inInt at h2 ⊢
      cases e : (os.read (world os σ M.io) fd n).2 with
      | ok l => have := os.read_len _ _ _ _ e; simp only [readResult]; omega
      | error c => have := os.read_err _ _ _ _ e; simp only [readResult]; omega
    · cases h
  · split at h
    · simp only [Option.bind_eq_some_iff] at h
      obtain ⟨d, _, h⟩ := h
      unfold intResult at h
      split at h
      · rename_i hi; cases h; exact .inr (int_fits hw hi)
      · cases h
    · cases h
  · split at h
    · simp only [Option.bind_eq_some_iff] at h
      obtain ⟨d, _, h⟩ := h
      unfold intResult at h
      split at h
      · rename_i hi; cases h; exact .inr (int_fits hw hi)
      · cases h
    · cases h
  · split at h
    · unfold intResult at h
      split at h
      · rename_i hi; cases h; exact .inr (int_fits hw hi)
      · cases h
    · cases h
  · split at h
    · unfold intResult at h
      split at h
      · rename_i hi; cases h; exact .inr (int_fits hw hi)
      · cases h
    · cases h
  · split at h
    · unfold intResult at h
      split at h
      · rename_i hi; cases h; exact .inr (int_fits hw hi)
      · cases h
    · cases h
  · simp only [Option.bind_eq_some_iff] at h
    obtain ⟨d, _, h⟩ := h
    unfold intResult at h
    split at h
    · rename_i hi; cases h; exact .inr (int_fits hw hi)
    · cases h
  · split at h
    · simp only [Option.bind_eq_some_iff] at h
      obtain ⟨d, _, h⟩ := h
      split at h
      · rename_i hi
        cases h
        refine .inr (int_fits hw ?_)
        split
        · unfold inInt; omega
        · exact hi
      · cases h
    · cases h
  · simp only [Option.bind_eq_some_iff] at h
    obtain ⟨h0, _, h1, _, h⟩ := h
    split at h
    · rename_i n _ hh
      simp only [Option.bind_eq_some_iff] at h
      obtain ⟨M1, _, h⟩ := h
      cases h
      obtain ⟨_, k1, k2, k3, k4⟩ := hh
      have : (2 ^ (8 * C.w - 1) : Nat) ≤ 2 ^ (8 * C.w) := Nat.pow_le_pow_right (by decide) (by omega)
      exact .inr (ptr_fits hw (by omega) (by omega))
    · cases h
  · exact .inl rfl
  · cases h

theorem storeBytes_dom {a : Int} {n : Nat} {l : List Nat} (ho : inObjects M a n = true) (hl : l.length ≤ n) : SameDom M (storeBytes M a l) := by
  intro x
  show (if a ≤ x ∧ x < a + l.length then some l[(x - a).toNat]? else M x).isSome = _
  split
  · unfold inObjects at ho
    rw [List.all_eq_true] at ho
    have := ho (x - a).toNat (List.mem_range.2 (by omega))
    rw [show a + ((x - a).toNat : Int) = x by omega] at this
    rw [this]; rfl
  · rfl

theorem lib_dom (h : libCall os σ C.w G F vs M = some (v, M')) : SameDom M M' := by
  unfold libCall at h
  split at h
  · cases h; exact fun _ => rfl
  · split at h
    · split at h
      · cases h; exact fun _ => rfl
      · cases h
    · cases h
  · split at h
    · split at h
      · cases h; exact fun _ => rfl
      · cases h
    · cases h
  · split at h
    · rename_i fd a n hh
      cases h
      have : (readBytes (os.read (world os σ M.io) fd n).2).length ≤ n.toNat := by
        cases e : (os.read (world os σ M.io) fd n).2 with
        | ok l => have := os.read_len _ _ _ _ e; simp only [readBytes]; omega
        | error c => simp [readBytes]
      exact storeBytes_dom hh.2.2.2 this
    · cases h
  · split at h
    · simp only [Option.bind_eq_some_iff, intResult] at h
      obtain ⟨d, _, h⟩ := h
      split at h <;> cases h
      exact fun _ => rfl
    · cases h
  · split at h
    · simp only [Option.bind_eq_some_iff, intResult] at h
      obtain ⟨d, _, h⟩ := h
      split at h <;> cases h
      exact fun _ => rfl
    · cases h
  · split at h
    · unfold intResult at h
      split at h <;> cases h
      exact fun _ => rfl
    · cases h
  · split at h
    · unfold intResult at h
      split at h <;> cases h
      exact fun _ => rfl
    · cases h
  · split at h
    · unfold intResult at h
      split at h <;> cases h
      exact fun _ => rfl
    · cases h
  · simp only [Option.bind_eq_some_iff, intResult] at h
    obtain ⟨d, _, h⟩ := h
    split at h <;> cases h
    exact fun _ => rfl
  · split at h
    · simp only [Option.bind_eq_some_iff] at h
      obtain ⟨d, _, h⟩ := h
      split at h <;> cases h
      exact fun _ => rfl
    · cases h
  · simp only [Option.bind_eq_some_iff] at h
    obtain ⟨h0, _, h1, _, h⟩ := h
    split at h
    · simp only [Option.bind_eq_some_iff] at h
      obtain ⟨M1, hs, h⟩ := h
      cases h
      exact storeN_dom hs
    · cases h
  · cases h; exact fun _ => rfl
  · cases h

/-- Every library call does what the specification says. -/
theorem lib_does {L : Labels} {base : Int} {P : List Asm} {ga : Int} {mr : Bool} {ds : List Decl} {sp : Int} {k : Nat} {s : MS} (hc : Compiled C.w L P ga mr ds)
    (hu : Uniq P) (hb0 : 0 ≤ base) (hfit : adr C.w base P P.length < (2 ^ (8 * C.w - 1) : Nat))
    (hat : At_ os C L base P G sp M F vs k s) (h : libCall os σ C.w G F vs M = some (v, M')) : Does os σ C base P G sp M vs.length k s v M' (F.ret = .void) := by
  unfold libCall at h
  split at h
  · cases h
    obtain ⟨s', h1, h2, h3, _⟩ := lib_putchar (σ := σ) hc hat
    exact ⟨s', h1, h2, h3, fun h => absurd rfl h⟩
  · split at h
    · rename_i l e
      split at h
      · cases h; exact lib_getchar hc hat e
      · cases h
    · cases h
  · split at h
    · rename_i fd _ hfd
      split at h
      · rename_i l e
        cases h; exact lib_fgetc hc hat hfd e
      · cases h
    · cases h
  · split at h
    · rename_i hh
      obtain ⟨h1, h2, h3, h4⟩ := hh
      cases h
      exact lib_read hc hat h4 h1 h2 h3
    · cases h
  · split at h
    · rename_i hh
      simp only [Option.bind_eq_some_iff, intResult] at h
      obtain ⟨d, hd, h⟩ := h
      split at h <;> cases h
      exact lib_write hc hat hd hh.1 hh.2.1 hh.2.2
    · cases h
  · split at h
    · rename_i hh
      simp only [Option.bind_eq_some_iff, intResult] at h
      obtain ⟨d, hd, h⟩ := h
      split at h <;> cases h
      exact lib_open hc hat hd hh.1 hh.2
    · cases h
  · split at h
    · rename_i hh
      unfold intResult at h
      split at h <;> cases h
      exact lib_close hc (.inl rfl) hat hh
    · cases h
  · split at h
    · rename_i hh
      unfold intResult at h
      split at h <;> cases h
      exact lib_close hc (.inr rfl) hat hh
    · cases h
  · split at h
    · rename_i hh
      unfold intResult at h
      split at h <;> cases h
      exact lib_lseek hc hat hh.1 hh.2.1 hh.2.2
    · cases h
  · simp only [Option.bind_eq_some_iff, intResult] at h
    obtain ⟨d, hd, h⟩ := h
    split at h <;> cases h
    exact lib_unlink hc hat hd
  · split at h
    · simp only [Option.bind_eq_some_iff] at h
      obtain ⟨d, hd, h⟩ := h
      split at h
      · rename_i hi
        cases h
        exact lib_fopen hc hat hd hi
      · cases h
    · cases h
  · simp only [Option.bind_eq_some_iff] at h
    obtain ⟨h0, e0, h1, e1, h⟩ := h
    split at h
    · rename_i hh
      simp only [Option.bind_eq_some_iff] at h
      obtain ⟨M1, hs, h⟩ := h
      cases h
      obtain ⟨k1, k2, k3, k4, k5⟩ := hh
      exact lib_malloc hc hu hb0 hfit hat e0 e1 k1 k2 k3 k4 (by omega) hs
    · cases h
  · cases h
    obtain ⟨s', h1, h2, h3, _⟩ := lib_free (σ := σ) hc hat
    exact ⟨s', h1, h2, h3, fun h => absurd rfl h⟩
  · cases h
end

/-- The program declares the library functions as pnut does, and their calls go to the run-time functions. -/
structure Declares (p : Program) (lab : Nat → Nat) (L : Labels) (what : Nat → Option LibFn) : Prop where
  ret : ∀ f F r, what f = some F → p.fn f = none → p.kind f = some (.fn r) → r = F.ret
  label : ∀ f F, what f = some F → p.fn f = none → lab f = L.of F

section
variable {W : Type} {os : OS W} {C : Ctx} {L : Labels} {base : Int} {P : List Asm} {ga : Int} {mr : Bool} {ds : List Decl} (h : Compiled C.w L P ga mr ds)
include h

/-- **C44, the library.** In the compiled program every call of a library function that C defines has the result, the effect on the memory and the requests to
the system that `library` says. -/
theorem C44_library_partial {p : Program} {lab : Nat → Nat} {what : Nat → Option LibFn} {σ : W} {G : Int} (hu : Uniq P) (h0 : 0 ≤ base) (hfit : adr C.w base P P.length < (2 ^ (8 * C.w - 1) : Nat))
    (hd : Declares p lab L what) (hlib : C.lib = library os σ C.w G what) : Library C (mach os σ C.w base P) p lab G P := by
  refine ⟨?_, ?_, ?_⟩
  · intro f vs M v M' r hf hl hk
    rw [hlib] at hl
    simp only [library, Option.bind_eq_some_iff] at hl
    obtain ⟨F, e, hl⟩ := hl
    rw [hd.ret f F r e hf hk]
    exact lib_type h.w48 hl
  · intro f vs M v M' hf hl
    rw [hlib] at hl
    simp only [library, Option.bind_eq_some_iff] at hl
    obtain ⟨F, e, hl⟩ := hl
    exact lib_dom hl
  · intro f vs sp M v M' r k s hf hk hp hl hroom hhigh hR hM hargs
    rw [hlib] at hl
    simp only [library, Option.bind_eq_some_iff] at hl
    obtain ⟨F, e, hl⟩ := hl
    rw [hd.ret f F r e hf hk]
    exact lib_does h hu h0 hfit ⟨h.w48, by rw [← hd.label f F e hf]; exact hp, hroom, hhigh, hR, hM, hargs⟩ hl

/-- A byte of the two words of the run-time system. -/
def heapByte (w : Nat) (G H a : Int) : Nat := (H / (256 ^ ((a - G) % w).toNat : Nat) % 256).toNat

omit h in
theorem rd_nth (w : Nat) (m : Int → Nat) : ∀ (k i : Nat) (a : Int), i < k → rd w m a k / 256 ^ i % 256 = m (uns w (a + i)) % 256 := by
  intro k
  induction k with
  | zero => intro i a hi; omega
  | succ k ih =>
    intro i a hi
    cases i with
    | zero => simp only [rd, Nat.pow_zero, Nat.div_one, Int.natCast_zero, Int.add_zero]; omega
    | succ i =>
      have := ih i (a + 1) (by omega)
      rw [rd, Nat.pow_succ', ← Nat.div_div_eq_div_mul, show (m (uns w a) % 256 + 256 * rd w m (a + 1) k) / 256 = rd w m (a + 1) k by omega, this]
      congr 3
      omega

omit h in
theorem emod_mul_div (v a b : Int) (ha : 0 < a) : v % (a * b) / a = v / a % b := by
  have h2 := Int.emod_def (v / a) b
  have h3 := Int.emod_def v (a * b)
  rw [← Int.ediv_ediv_of_nonneg (by omega : (0:Int) ≤ a)] at h3
  rw [h2, h3, Int.mul_assoc, Int.sub_eq_add_neg, ← Int.mul_neg, Int.add_mul_ediv_left _ _ (by omega)]
  rfl

omit h in
theorem nth_of_mod (x : Int) (n k i : Nat) (hi : i < k) (h : (n : Int) = x % (2 ^ (8 * k) : Nat)) : n / 256 ^ i % 256 = (x / (256 ^ i : Nat) % 256).toNat := by
  have e : (2 ^ (8 * k) : Nat) = 256 ^ i * (256 * 256 ^ (k - i - 1)) := by
    rw [show (256 : Nat) = 2 ^ 8 by decide, ← Nat.pow_mul, ← Nat.pow_mul, ← Nat.pow_add, ← Nat.pow_add]
    congr 1; omega
  have p : 0 < 256 ^ i := Nat.pow_pos (by decide)
  have h2 : ((n / 256 ^ i % 256 : Nat) : Int) = x / (256 ^ i : Nat) % 256 := by
    rw [Int.natCast_emod, Int.natCast_ediv, h, e, Int.natCast_mul, emod_mul_div _ _ _ (by omega), Int.natCast_mul]
    exact Int.emod_emod_of_dvd _ (Int.dvd_mul_right _ _)
  omega

omit h in
theorem fresh_heap {w : Nat} (hw : w = 4 ∨ w = 8) {m : Int → Nat} {G H a : Int} (h0 : 0 ≤ G) (h1 : G + 2 * w ≤ (2 ^ (8 * w) : Nat))
    (e1 : Spec.word w m G = sgn w H) (e2 : Spec.word w m (G + w) = sgn w H) (ha : G ≤ a ∧ a < G + 2 * w) : m a % 256 = heapByte w G H a := by
  have key : ∀ b : Int, Spec.word w m b = sgn w H → b ≤ a → a < b + w → m a % 256 = (H / (256 ^ (a - b).toNat : Nat) % 256).toNat := by
    intro b e hb1 hb2
    have hl := rd_lt w m w b
    have h2 := congrArg (uns w) e
    unfold Spec.word at h2
    rw [uns_sgn, uns_sgn, show uns w (rd w m b w) = (rd w m b w : Int) by unfold uns; exact Int.emod_eq_of_lt (by omega) (by omega)] at h2
    have h3 := rd_nth w m w (a - b).toNat b (by omega)
    rw [nth_of_mod H _ w (a - b).toNat (by omega) h2, show b + ((a - b).toNat : Int) = a by omega,
      show uns w a = a by unfold uns; exact Int.emod_eq_of_lt (by omega) (by omega)] at h3
    exact h3.symm
  unfold heapByte
  by_cases hlt : a < G + w
  · rw [show (a - G) % (w : Int) = a - G from Int.emod_eq_of_lt (by omega) (by omega)]
    exact key G e1 ha.1 hlt
  · rw [show (a - G) % (w : Int) = a - (G + w) by
      rw [show a - G = a - (G + w) + w by omega, Int.add_emod_right]
      exact Int.emod_eq_of_lt (by omega) (by omega)]
    exact key (G + w) e2 (by omega) (by omega)

/-- **C44 with C30 and the library.** A program without initial values, whose functions are in the fragment of C30 and call the library: if C defines the call of `main` with `argc` and `argv`
(or with no parameters), in a memory `M` of zero global variables, an unused heap, the string literals and whatever else the system put outside the free part of the stack, and the program has then
asked the system for what `M'.io` records, then the process asks the system for just that and ends with the status that C says, in the world that results. -/
theorem C44_c_program_io_partial {p : Program} {lab : Nat → Nat} {what : Nat → Option LibFn} {f : Nat} {r : CTy} {s : MS} {σ σ1 : W} {sp G H v : Int} {M M' : Mem} {vs : List Int}
    (hu : Uniq P) (h0 : 0 ≤ base) (hfit : adr C.w base P P.length < (2 ^ (8 * C.w - 1) : Nat))
    (hl : Loaded C p lab G base P) (hsup : Supported C p lab) (hd : Declares p lab L what) (hlib : C.lib = library os σ1 C.w G what)
    (hf : p.kind f = some (.fn r)) (hlab : lab f = L.main) (hr : mr = true → r ≠ .void)
    (hno : initsOf ds = []) (hga : 2 * C.w ≤ ga ∧ ga < 2147483648) (hs : Started C.w sp s) (hg : Given os C.w sp ga σ G H σ1)
    (hvs : vs = [] ∨ vs = [Spec.word C.w s.mem sp, sp + C.w])
    (hM : MemOk C (sp - 2 * C.w + vs.length * C.w) M) (hio : M.io = [])
    (himg : Image C.w base P s.mem)
    (hbytes : ∀ a b, M a = some (some b) → (G ≤ a ∧ a < G + 2 * C.w ∧ b = heapByte C.w G H a) ∨ (G + 2 * C.w ≤ a ∧ a < G + ga ∧ b = 0) ∨ OtherByte C.w sp ga G H base P s.mem a b)
    (hcall : p.calls C G f vs (sp - 2 * C.w) M v M') :
    PSteps os C.w base P (.run 0 s σ) (.done (if mr then (v % 256).toNat else 0) (world os σ1 M'.io)) := by
  have hw := h.w48
  have low := hs.low; have high := hs.high
  have wp : 0 < C.w := by rcases hw with e | e <;> omega
  have hgs := hg.gStack; have hhs := hg.hStack; have hgsp := hg.gSpace
  refine C44_process (G := G) (H := H) h hga hs hg (Ready := fun s2 σ2 => σ2 = σ1 ∧ Fresh C.w sp ga G H s.mem s2.mem) ?_ ?_
  · rw [hno]
    exact .nil fun s1 σ2 h => ⟨h.glo, h.stack, h.world, h.fresh⟩
  · rintro k s2 s3 σ2 ⟨rfl, hf2⟩ hc w3 e3 a0 a1 hm
    have hargc : Spec.word C.w s2.mem sp = Spec.word C.w s.mem sp := by
      refine word_congr (w := C.w) (a := sp) (by omega) (by omega) (fun x h1 h2 => hf2.others x (by omega) (by omega) (by omega))
    obtain ⟨s4, q, R, _, e0⟩ := C30_call_lib_partial hl (C44_library_partial h (base := base) hu h0 hfit hd hlib) hsup f r k (rec_ s3 []) vs (sp - 2 * C.w) M v M' hf (by rw [hlab]; exact hc.call)
      ⟨w3, hc.stack, e3, by
        intro a b hab
        have hd := (hM.dom a (by rw [hab]; simp))
        show s3.mem a % 256 = b
        rcases hbytes a b hab with ⟨h1, h2, rfl⟩ | ⟨h1, h2, rfl⟩ | h4
        · rw [hm a (by omega)]
          exact fresh_heap hw hgsp.1 (by omega) hf2.heapStart hf2.heapUsed ⟨h1, h2⟩
        · rw [hm a (by omega), hf2.globals a h1 h2]
        · have h1 := h4.1
          rw [hm a (by omega), hf2.others a h4.2.1 h4.2.2.1 (by omega), h4.mem himg], hio.symm⟩
      hM (by
        intro i hi
        rcases hvs with rfl | rfl
        · simp at hi
        · match i, hi with
          | 0, _ => exact a0.trans (hargc.trans (sgn_sgn ..).symm)
          | 1, _ => exact a1) hcall
    have hp := psteps_rec s3.io (go_psteps q)
    simp only [Cfg.rec_, rec_rec] at hp
    rw [R.io] at hp
    exact ⟨rec_ s4 s3.io, hp, R.sp.trans hc.stack.symm, fun hmr => e0 (hr hmr)⟩

end
end Verif.Sys
