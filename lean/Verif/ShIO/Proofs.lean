import Verif.ShIO.Spec
import Verif.ShHeap.Props
/-! Refinement of the script's input/output to streams. -/
namespace Verif.ShIO
open Verif Verif.ShHeap Verif.ShStr Verif.ShStr.Spec

/-! ### `printf` of one character -/

theorem octal_all : ∀ c : Fin 256, printfOut (octalWord (c.1 : Int)) = some [c.1] := by
  decide +kernel

theorem octal_ok {c : Int} (h0 : 0 ≤ c) (h1 : c < 256) : printfOut (octalWord c) = some [c.toNat] := by
  have := octal_all ⟨c.toNat, by omega⟩
  simpa [Int.toNat_of_nonneg h0] using this

/-! ### Lines -/

theorem readLine_spec : ∀ (rest l : List Nat) (o : Bool) (r : List Nat), readLine rest = (l, o, r) →
    rest = l ++ (if o then 10 :: r else []) ∧ (o = false → r = []) := by
  intro rest
  induction rest with
  | nil => intro l o r h; simp [readLine] at h; obtain ⟨rfl, rfl, rfl⟩ := h; simp
  | cons b t ih =>
    intro l o r h
    simp only [readLine] at h
    split at h
    · rename_i hb
      simp only [Prod.mk.injEq] at h
      obtain ⟨rfl, rfl, rfl⟩ := h
      simp [hb]
    · obtain ⟨l', o', r', e⟩ : ∃ l', ∃ o' : Bool, ∃ r', readLine t = (l', o', r') := ⟨_, _, _, rfl⟩
      rw [e] at h
      simp only [Prod.mk.injEq] at h
      obtain ⟨rfl, rfl, rfl⟩ := h
      have := ih _ _ _ e
      exact ⟨by rw [this.1]; simp, this.2⟩

theorem headChar_ok {e : Env} (ho : OrdOk e.ord) {b : Nat} {t : List Nat} (h1 : 1 ≤ b) (h2 : b < 256) :
    headChar e (b :: t) = b := firstChar_ok ho h1 h2

theorem drain_eq (e : Env) (l : List Nat) : drain e l = l.map (firstChar e.c e.ord) := by
  induction l with
  | nil => rfl
  | cons a l ih => simp [drain, ih]

theorem lineChunks_eq (e : Env) : ∀ (fuel : Nat) (b256 buf : List Nat), b256.length + buf.length < fuel →
    (buf = [] ∨ ∃ k, b256.length = 16 * k) →
    lineChunks e fuel [] b256 buf = .ok ((b256 ++ buf).map (firstChar e.c e.ord)) := by
  intro fuel
  induction fuel with
  | zero => intro _ _ h; omega
  | succ f ih =>
    intro b256 buf hf hj
    simp only [lineChunks]
    have happ := extractHead_append 256 b256 buf
    obtain ⟨p1, p2, hp⟩ : ∃ p1 p2, extractHead 256 b256 buf = (p1, p2) := ⟨_, _, rfl⟩
    rw [hp] at happ
    simp only [hp] at happ ⊢
    have hj' : p2 = [] ∨ ∃ k, p1.length = 16 * k ∧ 1 ≤ k := by
      unfold extractHead at hp
      split at hp
      · rename_i h256
        split at hp
        · rename_i hl
          simp only [Prod.mk.injEq] at hp
          right
          refine ⟨16, ?_, by omega⟩
          rw [← hp.1, List.length_take]; omega
        · simp only [Prod.mk.injEq] at hp
          exact .inl hp.2.symm
      · rename_i h256
        simp only [Prod.mk.injEq] at hp
        rw [← hp.1, ← hp.2]
        rcases hj with h | ⟨k, hk⟩
        · exact .inl h
        · right
          refine ⟨k, hk, ?_⟩
          have := List.length_pos_iff.mpr h256
          omega
    by_cases hlt : p1.length < 16
    · rw [if_pos ⟨trivial, hlt⟩]
      have hp2 : p2 = [] := by
        rcases hj' with h | ⟨k, hk, h1⟩
        · exact h
        · omega
      subst hp2
      have : extractHead 16 [] p1 = (p1, []) := by simp [extractHead]; omega
      rw [this, drain_eq, ← happ]; simp
    · rw [if_neg (fun h => hlt h.2)]
      have : extractHead 16 [] p1 = (p1.take 16, p1.drop 16) := by
        simp [extractHead]; omega
      rw [this]
      simp only
      have hlen := congrArg List.length happ
      simp only [List.length_append] at hlen
      rw [ih (p1.drop 16) p2 (by rw [List.length_drop]; omega) (by
        rcases hj' with h | ⟨k, hk, h1⟩
        · exact .inl h
        · right; exact ⟨k - 1, by rw [List.length_drop]; omega⟩)]
      rw [drain_eq, ← happ]
      simp only [Res.bind_ok, ← List.map_append, ← List.append_assoc, List.take_append_drop]

/-- The values `unpack_line` writes for a line. -/
theorem unpackLine_eq (e : Env) (ho : OrdOk e.ord) (io : IO) (line : List Nat) (b : Int) (eof : Bool)
    (hp : ∀ c ∈ line, 1 ≤ c ∧ c < 256) :
    unpackLine e io line b eof = .ok { io with
      h := { io.h with cell := writeAll io.h.cell b ((line ++ (if eof then [] else [10])).map Int.ofNat ++ [0]) },
      gc := if e.c.long then { io.gc with b256 := [] } else io.gc } := by
  have hv : line.map (firstChar e.c e.ord) = line.map Int.ofNat :=
    List.map_congr_left fun c hc => firstChar_ok ho (hp c hc).1 (hp c hc).2
  have : (if e.c.long = true then lineChunks e (line.length + 1) [] [] line else Res.ok (drain e line))
      = .ok (line.map Int.ofNat) := by
    split
    · rw [lineChunks_eq e _ _ _ (by simp) (.inr ⟨0, rfl⟩)]; simpa using hv
    · rw [drain_eq, hv]
  unfold unpackLine
  rw [this]
  simp only [Res.bind_ok]
  cases eof <;> simp

/-! ### `getchar` -/

/-- What `getchar` (plain version) has still to deliver. -/
def GInv (g : GC) (tail stdin : List Nat) : Prop :=
  (g.ending = 0 ∧ g.buf = [] ∧ stdin = tail) ∨ (g.ending = 10 ∧ stdin = g.buf ++ 10 :: tail) ∨
  (g.ending = -1 ∧ tail = [] ∧ stdin = g.buf)

theorem getcharShort_ok {e : Env} (ho : OrdOk e.ord) {g : GC} {tail stdin : List Nat} (hp : Plain stdin)
    (h : GInv g tail stdin) :
    ∃ g' tail' v stdin', getcharShort e g tail = (g', tail', v) ∧ Pop stdin v stdin' ∧
      GInv g' tail' stdin' := by
  obtain ⟨buf, b16, b256, ending, fin⟩ := g
  simp only [GInv] at h
  cases buf with
  | cons b t =>
    simp only [getcharShort]
    rcases h with ⟨_, h, _⟩ | ⟨h1, h2⟩ | ⟨h1, h2, h3⟩
    · cases h
    · subst h1 h2
      have := hp b (by simp)
      exact ⟨_, _, _, _, rfl, ⟨headChar_ok ho this.1 this.2, rfl⟩, by simp [GInv]⟩
    · subst h1 h2 h3
      have := hp b (by simp)
      exact ⟨_, _, _, _, rfl, ⟨headChar_ok ho this.1 this.2, rfl⟩, by simp [GInv]⟩
  | nil =>
    rcases h with ⟨h1, -, h3⟩ | ⟨h1, h2⟩ | ⟨h1, h2, h3⟩
    · subst h1 h3
      simp only [getcharShort]
      obtain ⟨l, o, r, hl⟩ : ∃ l , ∃ (o : Bool), ∃ r, readLine stdin = (l, o, r) := ⟨_, _, _, rfl⟩
      obtain ⟨hs, hr⟩ := readLine_spec _ _ _ _ hl
      simp only [hl]
      cases o with
      | true =>
        simp only [if_true] at hs
        cases l with
        | nil => exact ⟨_, _, _, _, rfl, by rw [hs]; exact ⟨rfl, rfl⟩, by simp [GInv]⟩
        | cons b t =>
          subst hs
          have := hp b (by simp)
          refine ⟨_, _, _, _, rfl, ⟨headChar_ok ho this.1 this.2, rfl⟩, by simp [GInv]⟩
      | false =>
        have hr := hr rfl
        subst hr
        simp at hs
        cases l with
        | nil => exact ⟨_, _, _, _, rfl, by rw [hs]; exact ⟨rfl, rfl⟩, by simp [GInv]⟩
        | cons b t =>
          subst hs
          have := hp b (by simp)
          refine ⟨_, _, _, _, rfl, ⟨headChar_ok ho this.1 this.2, rfl⟩, by simp [GInv]⟩
    · subst h1 h2
      exact ⟨_, _, _, _, rfl, ⟨rfl, rfl⟩, by simp [GInv]⟩
    · subst h1 h2 h3
      exact ⟨_, _, _, _, rfl, ⟨rfl, rfl⟩, by simp [GInv]⟩

theorem Pop.plain {s v r} (h : Pop s v r) (hp : Plain s) : Plain r := by
  cases s with
  | nil => rw [h.2]; exact hp
  | cons b t => rw [h.2]; exact fun x hx => hp x (List.mem_cons_of_mem _ hx)

end Verif.ShIO
