import Verif.Code.Spec
import Verif.X86.Proofs
namespace Verif.Code
open Spec

/-! ### emission -/

def ints (bs : List Nat) : List Int := bs.map (fun (b : Nat) => (b : Int))

theorem emit_i8_ok {a : Int} {s s' : S} (h : emit_i8 a s = .ok s') :
    s.n < MAX_CODE_SIZE ∧ s' = { s with code := upd s.code s.n (a % 256), n := s.n + 1 } := by
  unfold emit_i8 at h
  split at h
  · cases h
  · injection h with h; exact ⟨by omega, h.symm⟩

theorem emits_ok {bs : List Nat} (hb : ∀ b ∈ bs, b < 256) {s s' : S} (h : emits bs s = .ok s') :
    s' = { s with code := writeList s.code s.n (ints bs), n := s.n + bs.length } := by
  induction bs generalizing s with
  | nil => simp [emits] at h; subst h; simp [writeList, ints]
  | cons b bs ih =>
    simp only [emits] at h
    rw [Res.bind_eq_ok] at h
    obtain ⟨s1, h1, h2⟩ := h
    obtain ⟨_, rfl⟩ := emit_i8_ok h1
    have := ih (fun b hb' => hb b (List.mem_cons_of_mem _ hb')) h2
    rw [this]
    have hb0 : (b : Int) % 256 = b := by have := hb b (by simp); omega
    simp [writeList, ints, hb0]
    omega

theorem b8_int (a : Int) : ((X86.b8 a : Nat) : Int) = a % 256 := by unfold X86.b8; omega

theorem emits_i32 (n : Int) (s : S) : emit_i32_le n s = emits (X86.i32le n) s := by
  unfold emit_i32_le emit_4_i8
  simp only [X86.i32le, emits]
  have e : ∀ a s, emit_i8 ((X86.b8 a : Nat) : Int) s = emit_i8 a s := by
    intro a s; unfold emit_i8; rw [b8_int]; simp
  simp only [e]
  congr 1; funext s1; congr 1; funext s2; congr 1; funext s3
  cases emit_i8 (n / 2 ^ 24) s3 <;> rfl

theorem i32le_lt (n : Int) : ∀ b ∈ X86.i32le n, b < 256 := by
  intro b hb
  simp [X86.i32le] at hb
  rcases hb with rfl | rfl | rfl | rfl <;> exact X86.b8_lt _

theorem rex_lt (w a b : Nat) : ∀ x ∈ X86.rex_prefix w a b, x < 256 := by
  intro x hx
  unfold X86.rex_prefix at hx
  split at hx <;> simp at hx
  subst hx; exact X86.b8_lt _

theorem add_reg_imm_lt (w d : Nat) (i : Int) : ∀ b ∈ X86.add_reg_imm w d i, b < 256 := by
  intro b hb
  simp only [X86.add_reg_imm, X86.mod_rm, List.mem_append, List.mem_singleton] at hb
  rcases hb with ((h | rfl) | rfl) | h
  · exact rex_lt _ _ _ b h
  · exact X86.b8_lt _
  · exact X86.b8_lt _
  · exact i32le_lt _ b h

theorem jump_rel_lt (i : Int) : ∀ b ∈ X86.jump_rel i, b < 256 := by
  intro b hb
  simp only [X86.jump_rel, List.mem_append, List.mem_singleton] at hb
  rcases hb with rfl | h
  · exact X86.b8_lt _
  · exact i32le_lt _ b h

theorem i32le_length (n : Int) : (X86.i32le n).length = 4 := rfl
theorem jump_rel_length (n : Int) : (X86.jump_rel n).length = 5 := rfl
theorem add_reg_imm_length (w d : Nat) (i : Int) :
    (X86.add_reg_imm w d i).length = if w = 8 then 7 else 6 := by
  unfold X86.add_reg_imm X86.rex_prefix X86.mod_rm
  split <;> simp [i32le_length]

theorem writeList_append {α} (m : Nat → α) (a : Nat) (u v : List α) :
    writeList m a (u ++ v) = writeList (writeList m a u) (a + u.length) v := by
  induction u generalizing m a with
  | nil => simp [writeList]
  | cons x u ih => simp only [List.cons_append, writeList, ih, List.length_cons]; congr 1; omega

theorem writeList_write {α} (m : Nat → α) (a : Nat) (u v : List α) (h : u.length = v.length) :
    writeList (writeList m a u) a v = writeList m a v := by
  funext x
  by_cases h1 : x < a
  · simp [writeList_lt _ _ _ h1]
  · by_cases h2 : a + v.length ≤ x
    · rw [writeList_ge _ _ _ h2, writeList_ge _ _ _ (by omega), writeList_ge _ _ _ h2]
    · obtain ⟨i, rfl⟩ : ∃ i, x = a + i := ⟨x - a, by omega⟩
      rw [writeList_get _ _ _ (by omega), writeList_get _ _ _ (by omega)]

theorem cells_writeList (m : Nat → Int) (a : Nat) (u : List Int) (k : Nat) (h : k = u.length) :
    cells (writeList m a u) a k = u := by
  subst h
  unfold cells
  apply List.ext_getElem
  · simp
  · intro i h1 h2
    simp at h1 ⊢
    exact writeList_get _ _ _ h1

theorem cells_congr (m m' : Nat → Int) (p k : Nat) (h : ∀ x, p ≤ x → x < p + k → m x = m' x) :
    cells m p k = cells m' p k := by
  unfold cells
  apply List.map_congr_left
  intro i hi
  simp at hi
  exact h _ (by omega) (by omega)

/-! ### layout -/

structure It where
  p : Nat
  op : Op
  g : Int

abbrev It.fin (w : Nat) (i : It) : Nat := i.p + size1 w i.op

/-- frame size after a reversed history -/
def fsR : List Op → Int
  | [] => 0
  | .setfs v :: _ => v
  | _ :: h => fsR h

/-- items of a reversed history, newest first -/
def items (w : Nat) : List Op → List It
  | [] => []
  | o :: h => ⟨size w h, o, fsR h⟩ :: items w h

theorem items_fin (w : Nat) (h : List Op) : ∀ i ∈ items w h, i.fin w ≤ size w h := by
  induction h with
  | nil => simp [items]
  | cons o h ih =>
    intro i hi
    simp only [items, List.mem_cons] at hi
    rcases hi with rfl | hi
    · simp [size, It.fin]; omega
    · have := ih i hi; simp [size, It.fin] at *; omega

theorem items_pairwise (w : Nat) (h : List Op) :
    (items w h).Pairwise (fun a b => b.fin w ≤ a.p) := by
  induction h with
  | nil => simp [items]
  | cons o h ih =>
    simp only [items, List.pairwise_cons]
    exact ⟨fun b hb => items_fin w h b hb, ih⟩

/-- two items coincide or are disjoint -/
theorem disjoint_of_pairwise {w : Nat} {L : List It} (hp : L.Pairwise (fun a b => b.fin w ≤ a.p))
    {i j : It} (hi : i ∈ L) (hj : j ∈ L) : i = j ∨ i.fin w ≤ j.p ∨ j.fin w ≤ i.p := by
  induction L with
  | nil => simp at hi
  | cons a L ih =>
    simp only [List.pairwise_cons] at hp
    simp only [List.mem_cons] at hi hj
    rcases hi with rfl | hi <;> rcases hj with rfl | hj
    · exact .inl rfl
    · exact .inr (.inr (hp.1 j hj))
    · exact .inr (.inl (hp.1 i hi))
    · exact ih hp.2 hi hj

/-! ### final contents of label uses -/

def isUse (l : Nat) (o : Op) : Bool := o = .use l || o = .goto l
def isDef (l : Nat) (o : Op) : Bool := o = .defl l || o = .defg l

/-- what a use at `i` holds once its label is at `L` with frame size `f` -/
def fill (w : Nat) (L : Nat) (f : Int) (i : It) : List Int :=
  match i.op with
  | .use _ => ints (X86.i32le ((L : Int) - (i.p + 4 : Nat)))
  | .goto _ => ints (X86.add_reg_imm w 4 (-(f - i.g) * w)) ++
      ints (X86.jump_rel ((L : Int) - (i.fin w : Nat)))
  | _ => []

theorem fill_length (w L : Nat) (f : Int) (i : It) (l : Nat) (h : isUse l i.op) :
    (fill w L f i).length = size1 w i.op := by
  simp [isUse] at h
  rcases h with h | h
  · simp [fill, h, ints, size1, i32le_length]
  · simp only [fill, h, ints, size1, List.length_append, List.length_map, add_reg_imm_length,
      jump_rel_length]
    split <;> rfl

def applyAll (w L : Nat) (f : Int) (U : List It) (code : Nat → Int) : Nat → Int :=
  U.foldl (fun c i => writeList c i.p (fill w L f i)) code

theorem applyAll_out {w L : Nat} {f : Int} {l : Nat} {U : List It} (hu : ∀ i ∈ U, isUse l i.op)
    (code : Nat → Int) (x : Nat) (hx : ∀ i ∈ U, x < i.p ∨ i.fin w ≤ x) :
    applyAll w L f U code x = code x := by
  induction U generalizing code with
  | nil => rfl
  | cons i U ih =>
    simp only [applyAll, List.foldl_cons]
    have := ih (fun j hj => hu j (List.mem_cons_of_mem _ hj)) (writeList code i.p (fill w L f i))
      (fun j hj => hx j (List.mem_cons_of_mem _ hj))
    simp only [applyAll] at this
    rw [this]
    rcases hx i (by simp) with h | h
    · exact writeList_lt _ _ _ h
    · exact writeList_ge _ _ _ (by rw [fill_length w L f i l (hu i (by simp))]; exact h)

theorem applyAll_in {w L : Nat} {f : Int} {l : Nat} {U : List It} (hu : ∀ i ∈ U, isUse l i.op)
    (hp : U.Pairwise (fun a b => b.fin w ≤ a.p)) (code : Nat → Int) (i : It) (hi : i ∈ U) :
    cells (applyAll w L f U code) i.p (size1 w i.op) = fill w L f i := by
  induction U generalizing code with
  | nil => simp at hi
  | cons j U ih =>
    simp only [List.pairwise_cons] at hp
    simp only [List.mem_cons] at hi
    have hu' : ∀ i ∈ U, isUse l i.op := fun k hk => hu k (List.mem_cons_of_mem _ hk)
    rcases hi with rfl | hi
    · simp only [applyAll, List.foldl_cons]
      rw [cells_congr _ (writeList code i.p (fill w L f i))]
      · exact cells_writeList _ _ _ _ (fill_length w L f i l (hu i (by simp))).symm
      · intro x h1 h2
        exact applyAll_out hu' _ x (fun k hk => .inr (by have := hp.1 k hk; omega))
    · exact ih hu' hp.2 _ hi

/-! ### chains of pending uses -/

def Chain (w : Nat) (code : Nat → Int) : Int → List It → Prop
  | a, [] => a = 0
  | a, i :: t => a = (i.fin w : Nat) ∧
      (∀ l, i.op = .goto l → code (i.fin w - 2) = i.g ∧ code (i.fin w - 3) = i.p) ∧
      Chain w code (code (i.fin w - 1)) t

theorem size1_use {w l : Nat} {o : Op} (h : isUse l o) : 4 ≤ size1 w o := by
  simp [isUse] at h
  rcases h with h | h <;> simp [h, size1]
  split <;> omega

theorem Chain_congr {w : Nat} {l : Nat} {code code' : Nat → Int} {a : Int} {U : List It}
    (hu : ∀ i ∈ U, isUse l i.op)
    (h : ∀ i ∈ U, ∀ x, i.p ≤ x → x < i.fin w → code' x = code x) (hc : Chain w code a U) :
    Chain w code' a U := by
  induction U generalizing a with
  | nil => exact hc
  | cons i U ih =>
    obtain ⟨h1, h2, h3⟩ := hc
    have hs : 4 ≤ size1 w i.op := size1_use (hu i (by simp))
    have e : ∀ k, 1 ≤ k → k ≤ 4 → code' (i.fin w - k) = code (i.fin w - k) := by
      intro k hk hk'
      exact h i (by simp) _ (by simp [It.fin]; omega) (by simp [It.fin]; omega)
    refine ⟨h1, ?_, ?_⟩
    · intro l hl
      rw [e 2 (by omega) (by omega), e 3 (by omega) (by omega)]
      exact h2 l hl
    · rw [e 1 (by omega) (by omega)]
      exact ih (fun j hj => hu j (List.mem_cons_of_mem _ hj))
        (fun j hj => h j (List.mem_cons_of_mem _ hj)) h3

theorem patch_ok {w : Nat} {l : Nat} {U : List It} :
    ∀ {fuel : Nat} {a : Int} {L : Nat} {s s' : S} {f : Int}, Chain w s.code a U →
      (∀ i ∈ U, i.op = .use l) → U.Pairwise (fun a b => b.fin w ≤ a.p) →
      patch fuel a L s = .ok s' →
      ∃ n', s' = { s with code := applyAll w L f U s.code, n := n' } := by
  induction U with
  | nil =>
    intro fuel a L s s' f hc hu hp h
    cases fuel with
    | zero => cases h
    | succ fuel =>
      simp only [Chain] at hc
      simp [patch, hc] at h
      subst h
      exact ⟨s.n, by simp [applyAll]⟩
  | cons i U ih =>
    intro fuel a L s s' f hc hu hp h
    cases fuel with
    | zero => cases h
    | succ fuel =>
      obtain ⟨h1, h2, h3⟩ := hc
      have hi : i.op = .use l := hu i (by simp)
      simp only [List.pairwise_cons] at hp
      have hfin : i.fin w = i.p + 4 := by simp [It.fin, hi, size1]
      simp only [patch] at h
      rw [if_neg (by omega), if_neg (by omega)] at h
      rw [Res.bind_eq_ok] at h
      obtain ⟨s1, ha, hb⟩ := h
      rw [emits_i32] at ha
      have ha' := emits_ok (i32le_lt _) ha
      have hn : a.toNat - 4 = i.p := by omega
      have hn1 : a.toNat - 1 = i.fin w - 1 := by omega
      rw [hn] at ha'
      rw [hn1] at hb
      have hfill : ints (X86.i32le (L - a)) = fill w L f i := by
        simp only [fill, hi]
        congr 3
        omega
      rw [hfill] at ha'
      have hu' : ∀ i ∈ U, i.op = .use l := fun j hj => hu j (List.mem_cons_of_mem _ hj)
      have hu'' : ∀ i ∈ U, isUse l i.op := fun j hj => by simp [isUse, hu' j hj]
      have hcode : s1.code = writeList s.code i.p (fill w L f i) := by rw [ha']
      have hc' : Chain w s1.code (s.code (i.fin w - 1)) U := by
        refine Chain_congr hu'' ?_ h3
        intro j hj x hx1 hx2
        rw [hcode]
        exact writeList_lt _ _ _ (by have := hp.1 j hj; omega)
      obtain ⟨n', hs'⟩ := ih (f := f) hc' hu' hp.2 hb
      refine ⟨n', ?_⟩
      rw [hs', ha']
      simp [applyAll]

theorem patch_goto_ok {w : Nat} {l : Nat} {U : List It} :
    ∀ {fuel : Nat} {a : Int} {L : Nat} {s s' : S}, Chain w s.code a U →
      (∀ i ∈ U, i.op = .goto l) → U.Pairwise (fun a b => b.fin w ≤ a.p) →
      patch_goto w fuel a L s = .ok s' →
      ∃ n', s' = { s with code := applyAll w L s.fs U s.code, n := n' } := by
  induction U with
  | nil =>
    intro fuel a L s s' hc hu hp h
    cases fuel with
    | zero => cases h
    | succ fuel =>
      simp only [Chain] at hc
      simp [patch_goto, hc] at h
      subst h
      exact ⟨s.n, by simp [applyAll]⟩
  | cons i U ih =>
    intro fuel a L s s' hc hu hp h
    cases fuel with
    | zero => cases h
    | succ fuel =>
      obtain ⟨h1, h2, h3⟩ := hc
      have hi : i.op = .goto l := hu i (by simp)
      obtain ⟨hg, hst⟩ := h2 l hi
      simp only [List.pairwise_cons] at hp
      have hfin : i.fin w = i.p + if w = 8 then 12 else 11 := by simp [It.fin, hi, size1]
      have h11 : i.p + 11 ≤ i.fin w := by rw [hfin]; split <;> omega
      have hn1 : a.toNat - 1 = i.fin w - 1 := by omega
      have hn2 : a.toNat - 2 = i.fin w - 2 := by omega
      have hn3 : a.toNat - 3 = i.fin w - 3 := by omega
      simp only [patch_goto] at h
      rw [if_neg (by omega), if_neg (by omega), hn1, hn2, hn3, hg, hst, if_neg (by omega)] at h
      rw [Res.bind_eq_ok] at h
      obtain ⟨s1, ha, hb⟩ := h
      rw [Res.bind_eq_ok] at hb
      obtain ⟨s2, hb1, hb2⟩ := hb
      rw [Res.bind_eq_ok] at hb2
      obtain ⟨s3, hb3, hb4⟩ := hb2
      have ha' := emits_ok (add_reg_imm_lt _ _ _) ha
      have hb1' := emits_ok (jump_rel_lt _) hb1
      have hb3' := emits_ok (jump_rel_lt _) hb3
      clear ha hb1 hb3
      have e1 : s1.n = i.p + if w = 8 then 7 else 6 := by
        rw [ha']; simp [add_reg_imm_length]
      have e2 : s2.n = i.fin w := by
        rw [hb1', hfin]; simp [e1, jump_rel_length]; split <;> omega
      have hcode : s3.code = writeList s.code i.p (fill w L s.fs i) := by
        rw [hb3']
        simp only [fill, hi]
        rw [writeList_append]
        rw [hb1']
        simp only
        rw [writeList_write _ _ _ _ (by simp [ints, jump_rel_length])]
        rw [ha']
        simp only [Int.toNat_natCast]
        congr 2
        · simp [ints]
        · simp only [e1, It.fin, hi, size1, jump_rel_length]
          congr 3
          by_cases hw : w = 8 <;> simp [hw, add_reg_imm_length] <;> omega
      have hu' : ∀ i ∈ U, i.op = .goto l := fun j hj => hu j (List.mem_cons_of_mem _ hj)
      have hu'' : ∀ i ∈ U, isUse l i.op := fun j hj => by simp [isUse, hu' j hj]
      have hc' : Chain w s3.code (s.code (i.fin w - 1)) U := by
        refine Chain_congr hu'' ?_ h3
        intro j hj x hx1 hx2
        rw [hcode]
        exact writeList_lt _ _ _ (by have := hp.1 j hj; omega)
      obtain ⟨n', hs'⟩ := ih hc' hu' hp.2 hb4
      refine ⟨n', ?_⟩
      have hfs : s3.fs = s.fs := by rw [hb3', hb1', ha']
      rw [hfs, hcode] at hs'
      rw [hs', hb3', hb1', ha']
      simp [applyAll]

end Verif.Code
