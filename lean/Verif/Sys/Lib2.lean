import Verif.Sys.Lib
/-! The run-time functions implement the library, function by function. -/
namespace Verif.Sys
open Verif Verif.Gen Verif.Gen.Spec Verif.X86 Verif.X86.Spec Verif.Cg Verif.Cg.Spec Verif.Rt Spec

theorem returns_steps {w : Nat} {base : Int} {P : List Asm} {t : Nat} {sp : Int} {a : Nat × MS} {r : MS} (h : Returns w base P t sp a r) : Steps w base P a (t, r) := by
  induction h with
  | here _ => exact .refl
  | step _ h _ ih => exact .head h ih

theorem loadN_some {M : Mem} : ∀ {k : Nat} {a : Int} {n : Nat}, loadN M a k = some n → ∀ i : Nat, i < k → M (a + i) ≠ none := by
  intro k
  induction k with
  | zero => intro a n _ i hi; omega
  | succ k ih =>
    intro a n h i hi
    simp only [loadN] at h
    split at h
    · rename_i b e
      simp only [Option.bind_eq_some_iff] at h
      obtain ⟨m, h1, _⟩ := h
      cases i with
      | zero => simp [e]
      | succ i =>
        have := ih h1 i (by omega)
        rwa [show a + 1 + (i : Int) = a + ((i + 1 : Nat) : Int) by omega] at this
    · cases h

/-- A memory that holds the objects outside the place of the stored value, and the stored value, holds the objects after the store. -/
theorem storeN_self' {w : Nat} {m : Int → Nat} : ∀ {k : Nat} {M M' : Mem} {a v : Int},
    (∀ x b, M x = some (some b) → ¬ (a ≤ x ∧ x < a + k) → m x % 256 = b) → storeN M a v k = some M' → 0 ≤ a → a + k ≤ (2 ^ (8 * w) : Nat) →
    (rd w m a k : Int) = v % (2 ^ (8 * k) : Nat) → ∀ x b, M' x = some (some b) → m x % 256 = b := by
  intro k
  induction k with
  | zero => intro M M' a v ha h h0 h1 hr x b hx; simp [storeN] at h; subst h; exact ha x b hx (by omega)
  | succ k ih =>
    intro M M' a v ha h h0 h1 hr
    simp only [storeN] at h
    split at h
    · rw [rd, uns_of_lt h0 (by omega)] at hr
      have e : ((2 ^ (8 * (k + 1)) : Nat) : Int) = 256 * ((2 ^ (8 * k) : Nat) : Int) := by
        rw [show 8 * (k + 1) = 8 + 8 * k by omega, Nat.pow_add, Int.natCast_mul]; rfl
      rw [e] at hr
      have d1 := emod_div256 v ((2 ^ (8 * k) : Nat) : Int)
      have d2 : v % (256 * ((2 ^ (8 * k) : Nat) : Int)) % 256 = v % 256 := Int.emod_emod_of_dvd _ (Int.dvd_mul_right 256 _)
      have p := ptwo_pos (8 * k)
      rw [← hr] at d1 d2
      refine ih ?_ h (by omega) (by omega) (by omega)
      intro x b hx hne
      by_cases hxa : x = a
      · simp only [hxa, if_true, Option.some.injEq] at hx
        subst hxa
        omega
      · simp only [hxa, if_false] at hx
        exact ha x b hx (by omega)
    · cases h

/-- What every case has: the call is about to happen in a state that holds the objects, with the arguments on the stack. -/
structure At_ {W : Type} (os : OS W) (C : Ctx) (L : Labels) (base : Int) (P : List Asm) (G sp : Int) (M : Mem) (F : LibFn) (vs : List Int) (k : Nat) (s : MS) : Prop where
  hw : C.w = 4 ∨ C.w = 8
  call : P[k]? = some (.call (L.of F))
  room : Room C sp
  high : sp + 3 * C.w ≤ (2 ^ (8 * C.w) : Nat)
  rel : Rel C G sp M s
  mem : MemOk C (sp + vs.length * C.w) M
  args : ∀ i (h : i < vs.length), Gen.Spec.word C.w s.mem (sp + i * C.w) = sgn C.w vs[i]

/-- What every case gives. -/
def Does {W : Type} (os : OS W) (σ : W) (C : Ctx) (base : Int) (P : List Asm) (G sp : Int) (M : Mem) (n k : Nat) (s : MS) (v : Int) (M' : Mem) (void : Prop) : Prop :=
  ∃ s', (mach os σ C.w base P).ext (k, s) (k + 1, s') ∧ Rel C G sp M' s' ∧ Outside C M (sp + n * C.w) s s' ∧ (¬ void → s'.reg 0 = sgn C.w v)

section
variable {W : Type} {os : OS W} {σ : W} {C : Ctx} {L : Labels} {base : Int} {P : List Asm} {ga : Int} {mr : Bool} {ds : List Decl} {G sp : Int} {M M' : Mem} {vs : List Int}
  {k : Nat} {s : MS} {v : Int} {F : LibFn} {void : Prop}

theorem At_.calls (h : At_ os C L base P G sp M F vs k s) : Calls C.w P (L.of F) k sp s :=
  ⟨h.call, h.rel.sp, h.rel.wf 3, by have := h.room; have := h.mem.lim; unfold Room at *; omega, h.high⟩

theorem At_.arg (h : At_ os C L base P G sp M F vs k s) (i : Nat) (hi : i < vs.length) : argument C.w sp s i = sgn C.w vs[i] := h.args i hi

theorem At_.le (h : At_ os C L base P G sp M F vs k s) : sp ≤ sp + vs.length * C.w := by
  have : (0 : Int) ≤ vs.length * C.w := Int.mul_nonneg (by omega) (by omega)
  omega

theorem At_.asks (h : At_ os C L base P G sp M F vs k s) {e : Event}
    (hc : CallGives os C.w base P k sp s (world os σ M.io) v (after os (world os σ M.io) e) nothing) : Does os σ C base P G sp M vs.length k s v (ask M e) void := by
  obtain ⟨s', h1, h2, h3, h4⟩ := lib_ask h.hw h.rel h.mem h.room hc
  exact ⟨s', h1, h2, h3, fun _ => h4⟩

variable (hc : Compiled C.w L P ga mr ds)
include hc

theorem lib_putchar {c : Int} (h : At_ os C L base P G sp M .putchar [c] k s) : Does os σ C base P G sp M 1 k s 0 (ask M (.write 1 [(c % 256).toNat])) True := by
  have := C44_putchar (os := os) (base := base) hc (σ := world os σ M.io) h.calls
  rw [h.arg 0 (by simp)] at this
  simp only [List.getElem_cons_zero, sgn_emod256 h.hw] at this
  obtain ⟨s', h1, h2, h3, h4⟩ := lib_ask h.hw h.rel h.mem h.room (e := .write 1 [(c % 256).toNat]) this
  exact ⟨s', h1, h2, h3, fun h => absurd trivial h⟩

theorem lib_getchar (h : At_ os C L base P G sp M .getchar [] k s) {l : List Nat} (hok : (os.read (world os σ M.io) 0 1).2 = .ok l) :
    Does os σ C base P G sp M 0 k s (charOrEof (.ok l)) (ask M (.read 0 1)) void :=
  h.asks (C44_getchar_partial (os := os) (base := base) hc h.calls hok)

theorem lib_fgetc {fd : Int} (h : At_ os C L base P G sp M .fgetc [fd] k s) (hfd : 0 ≤ fd ∧ fd < 256) {l : List Nat} (hok : (os.read (world os σ M.io) fd 1).2 = .ok l) :
    Does os σ C base P G sp M 1 k s (charOrEof (.ok l)) (ask M (.read fd 1)) void := by
  have e : argument C.w sp s 0 = fd := (h.arg 0 (by simp)).trans (sgn_lt h.hw hfd.1 (by simpa using (by omega : fd < 1000)))
  have := C44_fgetc_partial (os := os) (base := base) hc (σ := world os σ M.io) h.calls (by rw [e]; exact hfd) (by rw [e]; exact hok)
  rw [e] at this
  exact h.asks this

theorem lib_close {fd : Int} {F : LibFn} (hF : F = .close ∨ F = .fclose) (h : At_ os C L base P G sp M F [fd] k s) (hfd : inInt fd) :
    Does os σ C base P G sp M 1 k s (os.serve (world os σ M.io) (.close fd)).2 (ask M (.close fd)) void := by
  have e : argument C.w sp s 0 = fd := (h.arg 0 (by simp)).trans (int_sgn h.hw hfd)
  have := C44_close (os := os) (base := base) hc (σ := world os σ M.io) (by rcases hF with rfl | rfl <;> simp [Labels.of]) h.calls
  rw [e, int_sgn4 hfd] at this
  exact h.asks this

theorem lib_lseek {fd off wh : Int} (h : At_ os C L base P G sp M .lseek [fd, off, wh] k s) (h1 : inInt fd) (h2 : inInt off) (h3 : inInt wh) :
    Does os σ C base P G sp M 3 k s (os.serve (world os σ M.io) (.lseek fd off wh)).2 (ask M (.lseek fd off wh)) void := by
  have e0 : argument C.w sp s 0 = fd := (h.arg 0 (by simp)).trans (int_sgn h.hw h1)
  have e1 : argument C.w sp s 1 = off := (h.arg 1 (by simp)).trans (int_sgn h.hw h2)
  have e2 : argument C.w sp s 2 = wh := (h.arg 2 (by simp)).trans (int_sgn h.hw h3)
  have := C44_lseek (os := os) (base := base) hc (σ := world os σ M.io) h.calls
  rw [e0, e1, e2, int_sgn4 h1, int_sgn4 h3] at this
  exact h.asks this

theorem lib_unlink {a : Int} (h : At_ os C L base P G sp M .unlink [a] k s) {n : Nat} {p : List Nat} (hp : cstring M a n = some p) :
    Does os σ C base P G sp M 1 k s (os.serve (world os σ M.io) (.unlink p)).2 (ask M (.unlink p)) void := by
  obtain ⟨c1, c2⟩ := cstr_of h.rel h.mem h.le h.room hp
  have e : argument C.w sp s 0 = sgn C.w a := h.arg 0 (by simp)
  have := C44_unlink (os := os) (base := base) hc (σ := world os σ M.io) h.calls (p := p) (by rw [e]; exact c1) (by rw [e]; exact c2)
  exact h.asks this

theorem lib_open {a fl md : Int} (h : At_ os C L base P G sp M .open_ [a, fl, md] k s) {n : Nat} {p : List Nat} (hp : cstring M a n = some p) (h1 : inInt fl) (h2 : inInt md) :
    Does os σ C base P G sp M 3 k s (os.serve (world os σ M.io) (.open_ p fl md)).2 (ask M (.open_ p fl md)) void := by
  obtain ⟨c1, c2⟩ := cstr_of h.rel h.mem h.le h.room hp
  have e : argument C.w sp s 0 = sgn C.w a := h.arg 0 (by simp)
  have e1 : argument C.w sp s 1 = fl := (h.arg 1 (by simp)).trans (int_sgn h.hw h1)
  have e2 : argument C.w sp s 2 = md := (h.arg 2 (by simp)).trans (int_sgn h.hw h2)
  have := C44_open (os := os) (base := base) hc (σ := world os σ M.io) h.calls (p := p) (by rw [e]; exact c1) (by rw [e]; exact c2)
  rw [e1, e2, int_sgn4 h1, int_sgn4 h2] at this
  exact h.asks this

theorem lib_fopen {a md : Int} (h : At_ os C L base P G sp M .fopen [a, md] k s) {n : Nat} {p : List Nat} (hp : cstring M a n = some p) 
    (hr : inInt (os.serve (world os σ M.io) (.open_ p 0 0)).2) :
    Does os σ C base P G sp M 2 k s (if (os.serve (world os σ M.io) (.open_ p 0 0)).2 < 0 then 0 else (os.serve (world os σ M.io) (.open_ p 0 0)).2) (ask M (.open_ p 0 0)) void := by
  obtain ⟨c1, c2⟩ := cstr_of h.rel h.mem h.le h.room hp
  have e : argument C.w sp s 0 = sgn C.w a := h.arg 0 (by simp)
  have := C44_fopen_partial (os := os) (base := base) hc (σ := world os σ M.io) h.calls (p := p) (by rw [e]; exact c1) (by rw [e]; exact c2)
  dsimp only at this
  rw [int_sgn h.hw hr] at this
  exact h.asks this

theorem lib_write {fd a n : Int} (h : At_ os C L base P G sp M .write [fd, a, n] k s) {d : List Nat} (hd : loadBytes M a n.toNat = some d) (h1 : inInt fd) (h2 : inInt n) (h0 : 0 ≤ n) :
    Does os σ C base P G sp M 3 k s (os.serve (world os σ M.io) (.write fd d)).2 (ask M (.write fd d)) void := by
  have e0 : argument C.w sp s 0 = fd := (h.arg 0 (by simp)).trans (int_sgn h.hw h1)
  have e1 : argument C.w sp s 1 = sgn C.w a := h.arg 1 (by simp)
  have e2 : argument C.w sp s 2 = n := (h.arg 2 (by simp)).trans (int_sgn h.hw h2)
  have hl := loadBytes_len hd
  have hg := loadBytes_get hd
  have hcl := clear_of (a := a) (n := d.length) h.mem h.le h.room (fun i hi => by rw [hg i hi]; simp)
  have hb := bytes_of h.rel h.mem hg
  have := C44_write (os := os) (base := base) hc (σ := world os σ M.io) h.calls (by
    rw [e1, e2, int_uns h.hw h2 h0]
    rw [hl, show ((n.toNat : Nat) : Int) = n by omega] at hcl
    exact hcl)
  rw [e0, e1, e2, int_uns h.hw h2 h0, ← hl, hb, int_sgn4 h1] at this
  exact h.asks this

theorem lib_read {fd a n : Int} (h : At_ os C L base P G sp M .read [fd, a, n] k s) (ho : inObjects M a n.toNat = true) (h1 : inInt fd) (h2 : inInt n) (h0 : 0 ≤ n) :
    Does os σ C base P G sp M 3 k s (readResult (os.read (world os σ M.io) fd n).2)
      (ask (storeBytes M a (readBytes (os.read (world os σ M.io) fd n).2)) (.read fd n)) void := by
  have e0 : argument C.w sp s 0 = fd := (h.arg 0 (by simp)).trans (int_sgn h.hw h1)
  have e1 : argument C.w sp s 1 = sgn C.w a := h.arg 1 (by simp)
  have e2 : argument C.w sp s 2 = n := (h.arg 2 (by simp)).trans (int_sgn h.hw h2)
  have hobj : ∀ i : Nat, i < n.toNat → M (a + i) ≠ none := by
    intro i hi
    unfold inObjects at ho
    rw [List.all_eq_true] at ho
    have := ho i (List.mem_range.2 hi)
    rw [Option.isSome_iff_ne_none] at this
    exact this
  have hcl := clear_of (a := a) (n := n.toNat) h.mem h.le h.room hobj
  have := C44_read (os := os) (base := base) hc (σ := world os σ M.io) h.calls (by
    rw [e1, e2, int_uns h.hw h2 h0]
    rw [show ((n.toNat : Nat) : Int) = n by omega] at hcl
    exact hcl)
  rw [e0, e1, e2, int_uns h.hw h2 h0, int_sgn4 h1] at this
  dsimp only at this
  generalize hr : os.read (world os σ M.io) fd n = r at this ⊢
  have hlen : ((readBytes r.2).length : Int) ≤ n := by
    cases e : r.2 with
    | ok l => exact os.read_len _ _ _ _ (by rw [hr]; exact e)
    | error _ => simpa [readBytes] using h0
  have hbyte : ∀ b ∈ readBytes r.2, b < 256 := by
    cases e : r.2 with
    | ok l => exact os.read_byte _ _ _ _ (by rw [hr]; exact e)
    | error _ => simp [readBytes]
  have hst : ∀ x, uns C.w x = x → stored C.w (sgn C.w a) (readBytes r.2) x = if a ≤ x ∧ x < a + (readBytes r.2).length then (readBytes r.2)[(x - a).toNat]? else none := by
    intro x hx
    have eu : uns C.w (x - sgn C.w a) = uns C.w (x - a) := by rw [← uns_sgn, sgn_sub_r, uns_sgn]
    have x0 := uns_nonneg C.w x
    have x1 : uns C.w x < (2 ^ (8 * C.w) : Nat) := by unfold uns; exact Int.emod_lt_of_pos _ (by have := Nat.two_pow_pos (8 * C.w); omega)
    rw [hx] at x0 x1
    unfold stored
    rw [if_pos hx, eu]
    by_cases hz : n = 0
    · have : readBytes r.2 = [] := List.eq_nil_of_length_eq_zero (by omega)
      rw [this]; simp
    · have o1 := h.mem.dom _ (hobj 0 (by omega))
      have o2 := h.mem.dom _ (hobj (n.toNat - 1) (by omega))
      split
      · rw [show uns C.w (x - a) = x - a by unfold uns; exact Int.emod_eq_of_lt (by omega) (by omega)]
      · apply List.getElem?_eq_none
        by_cases hxa : a ≤ x
        · rw [show uns C.w (x - a) = x - a by unfold uns; exact Int.emod_eq_of_lt (by omega) (by omega)]
          omega
        · have : uns C.w (x - a) = x - a + (2 ^ (8 * C.w) : Nat) := by
            unfold uns
            rw [← Int.add_emod_right]
            exact Int.emod_eq_of_lt (by omega) (by omega)
          omega
  have hdom : ∀ x, M x ≠ none → uns C.w x = x := by
    intro x hx
    obtain ⟨d0, d1, _⟩ := h.mem.dom x hx
    unfold uns; exact Int.emod_eq_of_lt d0 d1
  have hin : ∀ x, a ≤ x ∧ x < a + (readBytes r.2).length → M x ≠ none := by
    intro x hx
    have := hobj (x - a).toNat (by omega)
    rwa [show a + ((x - a).toNat : Int) = x by omega] at this
  have hsd : SameDom M (ask (storeBytes M a (readBytes r.2)) (.read fd n)) := by
    intro x
    show (if a ≤ x ∧ x < a + (readBytes r.2).length then some (readBytes r.2)[(x - a).toNat]? else M x).isSome = _
    split
    · rename_i hx
      rw [Option.isSome_some, eq_comm, Option.isSome_iff_ne_none]
      exact hin x hx
    · rfl
  obtain ⟨s', g1, g2, g3, g4⟩ := lib_back (M' := ask (storeBytes M a (readBytes r.2)) (.read fd n)) (n := 3) h.hw h.rel h.mem h.room hsd (by
      have e : world os σ (ask (storeBytes M a (readBytes r.2)) (.read fd n)).io = r.1 := by
        show List.foldl (after os) σ (M.io ++ [.read fd n]) = _
        rw [List.foldl_append]
        show (os.read (world os σ M.io) fd n).1 = _
        rw [hr]
      rw [e]
      exact this) (by
      intro x b hb
      have hx : M x ≠ none := by
        intro hn
        rw [(hsd.none x).2 hn] at hb
        cases hb
      rw [hst x (hdom x hx)]
      have hb : (if a ≤ x ∧ x < a + (readBytes r.2).length then some (readBytes r.2)[(x - a).toNat]? else M x) = some (some b) := hb
      split at hb
      · rename_i hxi
        rw [if_pos hxi]
        simp only [Option.some.injEq] at hb
        rw [hb]
        exact Nat.mod_eq_of_lt (hbyte b (List.mem_of_getElem? hb))
      · rename_i hxi
        rw [if_neg hxi]
        exact h.rel.agree x b hb) (by
      intro x hx
      by_cases hu : uns C.w x = x
      · rw [hst x hu, if_neg]
        intro hxi
        exact hin x hxi hx
      · unfold stored; rw [if_neg hu])
  exact ⟨s', g1, g2, g3, fun _ => g4⟩

theorem lib_free {a : Int} (h : At_ os C L base P G sp M .free [a] k s) : Does os σ C base P G sp M 1 k s 0 M True := by
  have hat : ∃ i, At P i (Rt.free C.w L.free) := by
    obtain ⟨i, hi⟩ := hc.at'; exact ⟨_, hi.right.right.right.right.right.right.right.right.right.right.right.right.right.left⟩
  obtain ⟨i, hi⟩ := hat
  have hrm := h.room; have hlim := h.mem.lim; have hhi := h.high
  unfold Room at hrm
  obtain ⟨r, g1, g2, g3⟩ := C34_free (base := base) h.hw hi h.call h.rel.sp ⟨by omega, by omega⟩
  have hp : PSteps os C.w base P (.run k s (world os σ M.io)) (.run (k + 1) r (world os σ M.io)) := PSteps.cpus (returns_steps g1)
  obtain ⟨s', q1, q2, q3, q4⟩ := lib_back (os := os) (σ := σ) (M' := M) (v := r.reg 0) (n := 1) (stores := nothing) h.hw h.rel h.mem h.room (.refl _)
    ⟨r, hp, ((psteps_wf h.hw (a := .run k s (world os σ M.io)) h.rel.wf hp : Wf C.w r) 0).symm, g3 4 (by decide), g3 3 (by decide), fun x hx => g2 x (by omega)⟩
    (fun a b h' => h.rel.agree a b h') (fun _ _ => rfl)
  exact ⟨s', q1, q2, q3, fun h => absurd trivial h⟩

theorem lib_malloc (hu : Uniq P) (hb0 : 0 ≤ base) (hfit : adr C.w base P P.length < (2 ^ (8 * C.w - 1) : Nat)) {n : Int} (h : At_ os C L base P G sp M .malloc [n] k s) {a0 a1 : Nat}
    (h0 : loadN M G C.w = some a0) (h1 : loadN M (G + C.w) C.w = some a1) (hn : inInt n) (hn0 : 0 ≤ n) (hroom : a1 + n ≤ a0 + 104857600) (hle : a0 ≤ a1)
    (hmid : a0 + 104857600 < 2 ^ (8 * C.w - 1) ∨ 2 ^ (8 * C.w - 1) ≤ a0 ∧ a0 + 104857600 < 2 ^ (8 * C.w))
    (hs : storeN M (G + C.w) (a1 + n) C.w = some M') : Does os σ C base P G sp M 1 k s a1 M' void := by
  have hrm := h.room; have hlim := h.mem.lim; have hhi := h.high
  unfold Room at hrm
  have wp : 0 < C.w := by rcases h.hw with e | e <;> omega
  have hw2 : (2 ^ (8 * C.w) : Nat) = 2 * 2 ^ (8 * C.w - 1) := by
    rw [← Nat.pow_succ']; congr 1; omega
  have hd : ∀ a, M a ≠ none → 0 ≤ a ∧ a < (2 ^ (8 * C.w) : Nat) := fun a ha => ⟨(h.mem.dom a ha).1, (h.mem.dom a ha).2.1⟩
  have r0 : rd C.w s.mem G C.w = a0 := loadN_rd h.rel.agree hd h0
  have r1 : rd C.w s.mem (G + C.w) C.w = a1 := loadN_rd h.rel.agree hd h1
  have hobj : ∀ i : Int, 0 ≤ i → i < 2 * C.w → M (G + i) ≠ none := by
    intro i i0 i1
    by_cases hi : i < C.w
    · have := loadN_some h0 i.toNat (by omega)
      rwa [show G + ((i.toNat : Nat) : Int) = G + i by omega] at this
    · have := loadN_some h1 (i - C.w).toNat (by omega)
      rwa [show G + C.w + (((i - C.w).toNat : Nat) : Int) = G + i by omega] at this
  have o0 := h.mem.dom _ (hobj 0 (by omega) (by omega))
  have o1 := h.mem.dom _ (hobj (2 * C.w - 1) (by omega) (by omega))
  have hap : G + 2 * C.w ≤ C.lim ∨ sp + 1 * C.w ≤ G := by
    by_cases hg : sp + 1 * C.w ≤ G
    · exact .inr hg
    · refine .inl ?_
      by_cases hg2 : G + 2 * C.w ≤ C.lim
      · exact hg2
      · exfalso
        have hm : ((([n] : List Int).length : Nat) : Int) * C.w = 1 * C.w := by simp
        rw [hm] at o0 o1
        have o2 := h.mem.dom _ (hobj (C.lim - G) (by omega) (by omega))
        rw [hm] at o2
        omega
  have e2 : cell C.w s.mem sp = n := by
    have := h.args 0 (by simp)
    rw [show sp + ((0 : Nat) : Int) * C.w = sp by simp] at this
    exact this.trans (int_sgn h.hw hn)
  have c0 : cell C.w s.mem G = sgn C.w a0 := by unfold cell; rw [r0]
  have c1 : cell C.w s.mem (G + C.w) = sgn C.w a1 := by unfold cell; rw [r1]
  have big : ∀ x : Int, (2 ^ (8 * C.w - 1) : Nat) ≤ x → x < (2 ^ (8 * C.w) : Nat) → sgn C.w x = x - (2 ^ (8 * C.w) : Nat) := by
    intro x x0 x1
    have : sgn C.w (x - (2 ^ (8 * C.w) : Nat)) = sgn C.w x := by
      unfold sgn; rw [Int.sub_eq_add_neg, show -((2 ^ (8 * C.w) : Nat) : Int) = ((2 ^ (8 * C.w) : Nat) : Int) * (-1) by omega, Int.add_mul_bmod_self_left]
    rw [← this, sgn_id h.hw (by omega) (by omega)]
  have hsg : ∃ d : Int, (d = 0 ∨ d = (2 ^ (8 * C.w) : Nat)) ∧ sgn C.w a0 = a0 - d ∧ sgn C.w a1 = a1 - d ∧ sgn C.w (a1 + n) = a1 + n - d ∧ (a0 : Int) + 104857600 - d < (2 ^ (8 * C.w - 1) : Nat) ∧
      -((2 ^ (8 * C.w - 1) : Nat) : Int) ≤ a1 + n - d := by
    rcases hmid with hm | ⟨hm1, hm2⟩
    · exact ⟨0, .inl rfl, by rw [sgn_id h.hw (by omega) (by omega)]; omega, by rw [sgn_id h.hw (by omega) (by omega)]; omega,
        by rw [sgn_id h.hw (by omega) (by omega)]; omega, by omega, by omega⟩
    · exact ⟨(2 ^ (8 * C.w) : Nat), .inr rfl, by rw [big _ (by omega) (by omega)], by rw [big _ (by omega) (by omega)],
        by rw [big _ (by omega) (by omega)], by omega, by omega⟩
  obtain ⟨d, _, d0, d1, d2, d3, d4⟩ := hsg
  have hok : CallOk C.w P L.malloc k G sp s := by
    refine ⟨h.call, h.rel.sp, h.rel.glo, ⟨by omega, by omega⟩, ⟨by omega, by omega⟩, by omega, ?_⟩
    rw [c0, c1, e2, d0, d1]
    unfold heapSize
    omega
  obtain ⟨r, g1, g2⟩ := C44_malloc_room (base := base) hc hu hb0 hfit hok (by rw [c0, c1, e2, d0, d1]; unfold heapSize; omega)
  have hp : PSteps os C.w base P (.run k s (world os σ M.io)) (.run (k + 1) r (world os σ M.io)) := PSteps.cpus (returns_steps g1)
  have hio := storeN_io hs
  have hgr := g2.grown
  rw [c1, e2, d1] at hgr
  have hr1 : (rd C.w r.mem (G + C.w) C.w : Int) = (a1 + n) % (2 ^ (8 * C.w) : Nat) := by
    have hl := rd_lt C.w r.mem C.w (G + C.w)
    have : sgn C.w (rd C.w r.mem (G + C.w) C.w) = sgn C.w (a1 + n) := by
      rw [d2]; unfold cell at hgr; omega
    have h2 := congrArg (uns C.w) this
    rw [uns_sgn, uns_sgn] at h2
    rw [show uns C.w (rd C.w r.mem (G + C.w) C.w) = (rd C.w r.mem (G + C.w) C.w : Int) by unfold uns; exact Int.emod_eq_of_lt (by omega) (by omega)] at h2
    exact h2
  have agr : ∀ x b, M x = some (some b) → ¬ (G + C.w ≤ x ∧ x < G + 2 * C.w) → r.mem x % 256 = b := by
    intro x b hx hne
    have hdx := h.mem.dom x (by rw [hx]; simp)
    have : (0 : Int) ≤ (([n] : List Int).length : Nat) * C.w := Int.mul_nonneg (by omega) (by omega)
    rw [g2.mem x hne (by omega)]
    exact h.rel.agree x b hx
  obtain ⟨s', q1, q2, q3, q4⟩ := lib_back (os := os) (σ := σ) (M' := M') (v := a1) (n := 1) (stores := fun x => if G + C.w ≤ x ∧ x < G + 2 * C.w then some (r.mem x) else none)
    h.hw h.rel h.mem h.room (storeN_dom hs)
    ⟨r, by rw [hio]; exact hp, by rw [g2.result, c1], g2.stack, g2.regs 3 (by decide) (by decide), by
      intro x hx
      split
      · rfl
      · rename_i hne
        exact g2.mem x hne (by omega)⟩
    (by
      intro x b hx
      split
      · exact storeN_self' (w := C.w) (fun x b hx hne => agr x b hx (by omega)) hs (by omega) (by omega) hr1 x b hx
      · rename_i hne
        rw [storeN_other hs x (by omega)] at hx
        exact h.rel.agree x b hx)
    (by
      intro x hx
      split
      · rename_i hin
        exact absurd hx (by have := hobj (x - G) (by omega) (by omega); rwa [show G + (x - G) = x by omega] at this)
      · rfl)
  exact ⟨s', q1, q2, q3, fun _ => q4⟩
end

end Verif.Sys
