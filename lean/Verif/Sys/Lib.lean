import Verif.Sys.Props2
import Verif.Sys.LibSpec
/-! The run-time functions implement the library (`LibSpec`): proofs. -/
namespace Verif.Sys
open Verif Verif.Gen Verif.Gen.Spec Verif.X86 Verif.X86.Spec Verif.Cg Verif.Cg.Spec Verif.Rt Spec

/-- Labels of the library functions. -/
def Labels.of (L : Labels) : LibFn → Nat
  | .putchar => L.putchar
  | .getchar => L.getchar
  | .fgetc => L.fgetc
  | .read => L.read
  | .write => L.write
  | .open_ => L.open_
  | .close => L.close
  | .fclose => L.fclose
  | .lseek => L.seek
  | .unlink => L.unlink
  | .fopen => L.fopen
  | .malloc => L.malloc
  | .free => L.free

/-- The processor together with the library: the record of the requests determines the world. -/
def mach {W : Type} (os : OS W) (σ : W) (w : Nat) (base : Int) (P : List Asm) : Mach where
  base := base
  ext a b := ∃ s, PSteps os w base P (.run a.1 a.2 (world os σ a.2.io)) (.run b.1 s (world os σ b.2.io)) ∧ b.2 = rec_ s b.2.io

/-- The runs of that machine are runs of the process. -/
theorem go_psteps {W : Type} {os : OS W} {σ : W} {w : Nat} {base : Int} {P : List Asm} {a b : Nat × MS} (h : Go w (mach os σ w base P) P a b) :
    PSteps os w base P (.run a.1 a.2 (world os σ a.2.io)) (.run b.1 (rec_ b.2 a.2.io) (world os σ b.2.io)) := by
  induction h with
  | refl => exact .refl
  | @head a b c h _ ih =>
    have e := step_io h
    rw [e] at ih
    exact .head (.cpu h) ih
  | @ext a b c h _ ih =>
    obtain ⟨s, h1, h2⟩ := h
    have e : s.io = a.2.io := psteps_io h1 (show ioIs a.2.io (.run a.1 a.2 _) from rfl)
    have e2 : rec_ b.2 a.2.io = s := by rw [h2, ← e]; rfl
    have := psteps_rec a.2.io ih
    simp only [Cfg.rec_, rec_rec, e2] at this
    exact h1.trans this

theorem objs_range {C : Ctx} {sp : Int} {M : Mem} (hM : MemOk C sp M) {a : Int} {n : Nat} (h : ∀ i : Nat, i < n → M (a + i) ≠ none) :
    ∀ i : Nat, i < n → uns C.w (a + i) = a + i ∧ ¬ (C.lim ≤ a + i ∧ a + i < sp) := by
  intro i hi
  obtain ⟨h0, h1, h2⟩ := hM.dom _ (h i hi)
  refine ⟨?_, h2⟩
  unfold uns
  exact Int.emod_eq_of_lt h0 h1

theorem uns_sgn_add (w : Nat) (a b : Int) : uns w (sgn w a + b) = uns w (a + b) := by rw [← uns_sgn, sgn_add_l, uns_sgn]

theorem int_sgn {w : Nat} (hw : w = 4 ∨ w = 8) {v : Int} (h : inInt v) : sgn w v = v := by
  unfold inInt at h
  rcases hw with rfl | rfl <;> exact sgn_id (by omega) (by omega) (by omega)

theorem int_sgn4 {v : Int} (h : inInt v) : sgn 4 v = v := int_sgn (.inl rfl) h

theorem int_uns {w : Nat} (hw : w = 4 ∨ w = 8) {v : Int} (h : inInt v) (h0 : 0 ≤ v) : uns w v = v := by
  unfold inInt at h
  unfold uns
  rcases hw with rfl | rfl <;> exact Int.emod_eq_of_lt h0 (by omega)

theorem loadBytes_len {M : Mem} : ∀ {n : Nat} {a : Int} {d : List Nat}, loadBytes M a n = some d → d.length = n := by
  intro n
  induction n with
  | zero => intro a d h; simp [loadBytes] at h; subst h; rfl
  | succ n ih =>
    intro a d h
    simp only [loadBytes] at h
    split at h
    · simp only [Option.bind_eq_some_iff, Option.some.injEq] at h
      obtain ⟨l, h1, rfl⟩ := h
      simp [ih h1]
    · cases h

theorem loadBytes_get {M : Mem} : ∀ {n : Nat} {a : Int} {d : List Nat}, loadBytes M a n = some d → ∀ i (hi : i < d.length), M (a + i) = some (some d[i]) := by
  intro n
  induction n with
  | zero => intro a d h; simp [loadBytes] at h; subst h; intro i hi; simp at hi
  | succ n ih =>
    intro a d h
    simp only [loadBytes] at h
    split at h
    · rename_i b e
      simp only [Option.bind_eq_some_iff, Option.some.injEq] at h
      obtain ⟨l, h1, rfl⟩ := h
      intro i hi
      cases i with
      | zero => simpa using e
      | succ i =>
        have := ih h1 i (by simpa using hi)
        rw [List.getElem_cons_succ, ← this]
        congr 1; omega
    · cases h

theorem cstring_get {M : Mem} : ∀ {n : Nat} {a : Int} {d : List Nat}, cstring M a n = some d →
    (∀ i (hi : i < d.length), M (a + i) = some (some d[i])) ∧ 0 ∉ d ∧ M (a + d.length) = some (some 0) := by
  intro n
  induction n with
  | zero => intro a d h; simp [cstring] at h
  | succ n ih =>
    intro a d h
    simp only [cstring] at h
    split at h
    · rename_i b e
      split at h
      · rename_i hb
        cases h
        refine ⟨fun i hi => by simp at hi, by simp, ?_⟩
        rw [hb] at e
        simpa using e
      · rename_i hb
        simp only [Option.bind_eq_some_iff, Option.some.injEq] at h
        obtain ⟨l, h1, rfl⟩ := h
        obtain ⟨g1, g2, g3⟩ := ih h1
        refine ⟨?_, ?_, ?_⟩
        · intro i hi
          cases i with
          | zero => simpa using e
          | succ i =>
            have := g1 i (by simpa using hi)
            rw [List.getElem_cons_succ, ← this]
            congr 1; omega
        · simp only [List.mem_cons, not_or]
          exact ⟨fun h => hb h.symm, g2⟩
        · rw [← g3, List.length_cons]
          congr 1; omega
    · cases h

theorem bytes_of {C : Ctx} {G sp sp' : Int} {M : Mem} {s : MS} (hR : Rel C G sp M s) (hM : MemOk C sp' M) {a : Int} {d : List Nat}
    (h : ∀ i (hi : i < d.length), M (a + i) = some (some d[i])) : bytes C.w s.mem (sgn C.w a) d.length = d := by
  apply List.ext_getElem
  · simp [bytes]
  · intro i h1 h2
    simp only [bytes, List.getElem_map, List.getElem_range]
    have e := h i h2
    rw [uns_sgn_add, (objs_range hM (a := a) (n := d.length) (fun j hj => by rw [h j hj]; simp) i h2).1]
    exact hR.agree _ _ e

theorem clear_of {C : Ctx} {sp sp' : Int} {M : Mem} (hM : MemOk C sp' M) (hle : sp ≤ sp') (hroom : Room C sp) {a : Int} {n : Nat}
    (h : ∀ i : Nat, i < n → M (a + i) ≠ none) : Clear C.w sp (sgn C.w a) n := by
  intro i h0 h1
  have := objs_range hM h i.toNat (by omega)
  rw [uns_sgn_add]
  rw [show ((i.toNat : Nat) : Int) = i by omega] at this
  rw [this.1]
  unfold Room at hroom
  omega

theorem cstr_of {C : Ctx} {G sp sp' : Int} {M : Mem} {s : MS} (hR : Rel C G sp M s) (hM : MemOk C sp' M) (hle : sp ≤ sp') (hroom : Room C sp) {a : Int} {n : Nat} {p : List Nat}
    (h : cstring M a n = some p) : CStr C.w s.mem (sgn C.w a) p ∧ Clear C.w sp (sgn C.w a) (p.length + 1) := by
  obtain ⟨h1, h2, h3⟩ := cstring_get h
  have ho : ∀ i : Nat, i < p.length + 1 → M (a + i) ≠ none := by
    intro i hi
    rcases Nat.lt_or_ge i p.length with h | h
    · rw [h1 i h]; simp
    · rw [show i = p.length by omega, h3]; simp
  refine ⟨⟨bytes_of hR hM h1, h2, ?_⟩, ?_⟩
  · rw [uns_sgn_add, (objs_range hM ho p.length (by omega)).1]
    exact hR.agree _ _ h3
  · have := clear_of hM hle hroom ho
    simpa using this

section
variable {W : Type} {os : OS W} {σ : W} {C : Ctx} {base : Int} {P : List Asm}

/-- From a run of the call to what `Library` needs. -/
theorem lib_back {G sp : Int} {M M' : Mem} {s : MS} {k : Nat} {v : Int} {n : Nat} {stores : Int → Option Nat} (hw : C.w = 4 ∨ C.w = 8) (hR : Rel C G sp M s)
    (hM : MemOk C (sp + n * C.w) M) (hroom : Room C sp) (hd : SameDom M M')
    (hc : CallGives os C.w base P k sp s (world os σ M.io) v (world os σ M'.io) stores)
    (hagree : ∀ a b, M' a = some (some b) → (stores a).getD (s.mem a) % 256 = b)
    (hout : ∀ x, M x = none → stores x = none) :
    ∃ s', (mach os σ C.w base P).ext (k, s) (k + 1, s') ∧ Rel C G sp M' s' ∧ Outside C M (sp + n * C.w) s s' ∧ s'.reg 0 = sgn C.w v := by
  obtain ⟨s1, p, e0, b⟩ := hc
  unfold Room at hroom
  have wp : (0 : Int) ≤ n * C.w := Int.mul_nonneg (by omega) (by omega)
  have wf : Wf C.w s1 := psteps_wf hw (a := .run k s _) hR.wf p
  refine ⟨rec_ s1 M'.io, ⟨s1, ?_, rfl⟩, ⟨wf, b.stack.trans hR.sp, b.glo.trans hR.glo, ?_, rfl⟩, ?_, e0⟩
  · show PSteps os C.w base P (.run k s (world os σ s.io)) (.run (k + 1) s1 (world os σ M'.io))
    rw [hR.io]; exact p
  · intro a c hac
    have hdom := hM.dom a (by intro h; have := (hd.none a).2 h; rw [this] at hac; cases hac)
    show s1.mem a % 256 = c
    rw [b.mem a (by omega)]
    exact hagree a c hac
  · intro x hx hx2
    show s1.mem x = s.mem x
    rw [b.mem x (by omega), hout x hx]; rfl

/-- The same when nothing is stored. -/
theorem lib_ask {G sp : Int} {M : Mem} {s : MS} {k : Nat} {v : Int} {n : Nat} {e : Event} (hw : C.w = 4 ∨ C.w = 8) (hR : Rel C G sp M s)
    (hM : MemOk C (sp + n * C.w) M) (hroom : Room C sp)
    (hc : CallGives os C.w base P k sp s (world os σ M.io) v (after os (world os σ M.io) e) nothing) :
    ∃ s', (mach os σ C.w base P).ext (k, s) (k + 1, s') ∧ Rel C G sp (ask M e) s' ∧ Outside C M (sp + n * C.w) s s' ∧ s'.reg 0 = sgn C.w v := by
  refine lib_back (stores := nothing) hw hR hM hroom (fun _ => rfl) ?_ (fun a b h => hR.agree a b h) (fun _ _ => rfl)
  have : world os σ (ask M e).io = after os (world os σ M.io) e := by
    show List.foldl (after os) σ (M.io ++ [e]) = _
    rw [List.foldl_append]; rfl
  rw [this]
  exact hc
end

end Verif.Sys
