import Verif.Code.Proofs
namespace Verif.Code
open Spec

def uses (w : Nat) (h : List Op) (l : Nat) : List It := (items w h).filter fun i => isUse l i.op

theorem mem_uses {w : Nat} {h : List Op} {l : Nat} {i : It} :
    i ∈ uses w h l ↔ i ∈ items w h ∧ isUse l i.op := by simp [uses]

theorem uses_pairwise (w : Nat) (h : List Op) (l : Nat) :
    (uses w h l).Pairwise (fun a b => b.fin w ≤ a.p) :=
  (items_pairwise w h).filter _

structure Inv (w : Nat) (kind : Nat → Kind) (h : List Op) (s : S) : Prop where
  n : s.n = size w h
  fs : s.fs = fsR h
  emit : ∀ i ∈ items w h, ∀ b, i.op = .emit b → s.code i.p = b % 256
  kuse : ∀ i ∈ items w h, (∀ l, i.op = .use l → kind l = .generic) ∧
    (∀ l, i.op = .goto l → kind l = .goto)
  kdef : ∀ i ∈ items w h, (∀ l, i.op = .defl l → kind l = .generic) ∧
    (∀ l, i.op = .defg l → kind l = .goto)
  defd : ∀ l, ∀ d ∈ items w h, isDef l d.op → s.addr l = -(d.p : Int) ∧
    (d.op = .defg l → s.lfs l = d.g) ∧
    ∀ u ∈ items w h, isUse l u.op → cells s.code u.p (size1 w u.op) = fill w d.p d.g u
  pend : ∀ l, (∀ d ∈ items w h, ¬ isDef l d.op) → Chain w s.code (s.addr l) (uses w h l)

theorem Inv.init (w : Nat) (kind : Nat → Kind) : Inv w kind [] S.init := by
  constructor <;> simp [S.init, size, fsR, items, uses, Chain]

theorem Inv.extend {w : Nat} {kind : Nat → Kind} {h : List Op} {s s' : S} (iv : Inv w kind h s) (o : Op)
    (hn : s'.n = s.n + size1 w o) (hfs : s'.fs = fsR (o :: h))
    (hcode : ∀ x, x < s.n → s'.code x = s.code x)
    (hnd : ∀ l, ¬ isDef l o)
    (hother : ∀ l, ¬ isUse l o → s'.addr l = s.addr l ∧ s'.lfs l = s.lfs l)
    (hemit : ∀ b, o = .emit b → s'.code s.n = b % 256)
    (hk1 : ∀ l, o = .use l → kind l = .generic) (hk2 : ∀ l, o = .goto l → kind l = .goto)
    (huse : ∀ l, isUse l o → (∀ d ∈ items w h, isDef l d.op →
        s'.addr l = s.addr l ∧ s'.lfs l = s.lfs l ∧
        cells s'.code s.n (size1 w o) = fill w d.p d.g ⟨s.n, o, fsR h⟩) ∧
      ((∀ d ∈ items w h, ¬ isDef l d.op) →
        Chain w s'.code (s'.addr l) (⟨s.n, o, fsR h⟩ :: uses w h l))) :
    Inv w kind (o :: h) s' := by
  have hbelow : ∀ i ∈ items w h, i.fin w ≤ s.n := by
    intro i hi; rw [iv.n]; exact items_fin w h i hi
  constructor
  · rw [hn, iv.n]; simp [size]; omega
  · exact hfs
  · intro i hi b hb
    simp only [items, List.mem_cons] at hi
    rcases hi with rfl | hi
    · rw [← iv.n]; exact hemit b hb
    · rw [hcode]
      · exact iv.emit i hi b hb
      · have := hbelow i hi; simp [It.fin, hb, size1] at this; omega
  · intro i hi
    simp only [items, List.mem_cons] at hi
    rcases hi with rfl | hi
    · exact ⟨hk1, hk2⟩
    · exact iv.kuse i hi
  · intro i hi
    simp only [items, List.mem_cons] at hi
    rcases hi with rfl | hi
    · refine ⟨fun l hl => ?_, fun l hl => ?_⟩ <;> exact absurd (by simp at hl; simp [isDef, hl]) (hnd l)
    · exact iv.kdef i hi
  · intro l d hd hdef
    simp only [items, List.mem_cons] at hd
    rcases hd with rfl | hd
    · exact absurd hdef (hnd l)
    obtain ⟨a1, a2, a3⟩ := iv.defd l d hd hdef
    have hsame : s'.addr l = s.addr l ∧ s'.lfs l = s.lfs l := by
      by_cases hu : isUse l o
      · exact ⟨((huse l hu).1 d hd hdef).1, ((huse l hu).1 d hd hdef).2.1⟩
      · exact hother l hu
    refine ⟨by rw [hsame.1]; exact a1, fun e => by rw [hsame.2]; exact a2 e, ?_⟩
    intro u hu huse'
    simp only [items, List.mem_cons] at hu
    rcases hu with rfl | hu
    · have := ((huse l huse').1 d hd hdef).2.2
      rw [← iv.n]; exact this
    · rw [cells_congr _ s.code]
      · exact a3 u hu huse'
      · intro x _ hx
        exact hcode x (by have := hbelow u hu; simp [It.fin] at this; omega)
  · intro l hl
    have hl' : ∀ d ∈ items w h, ¬ isDef l d.op := fun d hd => hl d (by simp [items, hd])
    by_cases hu : isUse l o
    · have := (huse l hu).2 hl'
      simpa [uses, items, hu, ← iv.n] using this
    · have hp := iv.pend l hl'
      have e : uses w (o :: h) l = uses w h l := by simp [uses, items, hu]
      rw [e, (hother l hu).1]
      refine Chain_congr (fun i hi => (mem_uses.1 hi).2) ?_ hp
      intro i hi x _ hx
      exact hcode x (by have := hbelow i (mem_uses.1 hi).1; omega)

theorem isUse_inj {l l' : Nat} {o : Op} (h : isUse l o) (h' : isUse l' o) : l = l' := by
  cases o <;> simp_all [isUse]
theorem isDef_inj {l l' : Nat} {o : Op} (h : isDef l o) (h' : isDef l' o) : l = l' := by
  cases o <;> simp_all [isDef]

theorem defined_or {w : Nat} {h : List Op} (l : Nat) :
    (∃ d ∈ items w h, isDef l d.op) ∨ ∀ d ∈ items w h, ¬ isDef l d.op := by
  by_cases hh : ∃ d ∈ items w h, isDef l d.op
  · exact .inl hh
  · exact .inr fun d hd hdef => hh ⟨d, hd, hdef⟩

/-- an undefined label has a non-negative address field; a defined one a negative one -/
theorem addr_pending {w : Nat} {kind : Nat → Kind} {h : List Op} {s : S} (iv : Inv w kind h s) {l : Nat}
    (hl : ∀ d ∈ items w h, ¬ isDef l d.op) : 0 ≤ s.addr l := by
  have := iv.pend l hl
  cases hU : uses w h l with
  | nil => rw [hU] at this; simp only [Chain] at this; omega
  | cons i t => rw [hU] at this; have := this.1; omega

theorem addr_defined {w : Nat} {kind : Nat → Kind} {h : List Op} {s : S} (iv : Inv w kind h s) {l : Nat}
    {d : It} (hd : d ∈ items w h) (hdef : isDef l d.op) (hpos : 0 < d.p) : s.addr l < 0 := by
  have := (iv.defd l d hd hdef).1
  omega

theorem writeList_below {α} (m : Nat → α) (a : Nat) (u : List α) : ∀ x, x < a → writeList m a u x = m x :=
  fun _ h => writeList_lt _ _ _ h

theorem step_emit {w : Nat} {kind : Nat → Kind} {h : List Op} {s s' : S} (iv : Inv w kind h s) {b : Int}
    (hr : emit_i8 b s = .ok s') : Inv w kind (.emit b :: h) s' := by
  obtain ⟨_, rfl⟩ := emit_i8_ok hr
  refine iv.extend (.emit b) rfl (by simp [fsR, iv.fs]) (fun x hx => upd_other _ _ (by omega))
    (by simp [isDef]) (fun l _ => ⟨rfl, rfl⟩) ?_ (by simp) (by simp) (by simp [isUse])
  intro b' hb; simp at hb; subst hb; exact upd_same _ _ _

theorem step_setfs {w : Nat} {kind : Nat → Kind} {h : List Op} {s : S} (iv : Inv w kind h s) (v : Int) :
    Inv w kind (.setfs v :: h) { s with fs := v } :=
  iv.extend (.setfs v) rfl rfl (fun _ _ => rfl) (by simp [isDef]) (fun _ _ => ⟨rfl, rfl⟩) (by simp)
    (by simp) (by simp) (by simp [isUse])

theorem step_use {w : Nat} {kind : Nat → Kind} {h : List Op} {s s' : S} (iv : Inv w kind h s) {l : Nat}
    (hpos : ∀ d ∈ items w h, ∀ l, isDef l d.op → 0 < d.p)
    (hr : use_label kind l s = .ok s') : Inv w kind (.use l :: h) s' := by
  simp only [use_label] at hr
  split at hr
  · cases hr
  rename_i hk
  have hk : kind l = .generic := by simpa using hk
  have hl' : ∀ l', isUse l' (.use l) → l' = l := fun l' h => by have : l = l' := (by simpa [isUse] using h); exact this.symm
  split at hr
  · -- known
    rename_i hneg
    rw [emits_i32] at hr
    have hs := emits_ok (i32le_lt _) hr
    subst hs
    obtain ⟨d, hd, hdef⟩ : ∃ d ∈ items w h, isDef l d.op := by
      rcases defined_or (w := w) (h := h) l with hh | hh
      · exact hh
      · have := addr_pending iv hh; omega
    refine iv.extend (.use l) (by simp [size1, i32le_length]) (by simp [fsR, iv.fs])
      (writeList_below _ _ _) (by simp [isDef]) (fun _ _ => ⟨rfl, rfl⟩) (by simp)
      (by intro l' hl'; simp at hl'; rw [← hl']; exact hk) (by simp) ?_
    intro l2 h2
    cases hl' l2 h2
    refine ⟨?_, fun hh => absurd hdef (hh d hd)⟩
    intro d' hd' hdef'
    have ha := (iv.defd l d' hd' hdef').1
    refine ⟨rfl, rfl, ?_⟩
    rw [cells_writeList _ _ _ _ (by simp [size1, ints, i32le_length])]
    simp only [fill]
    congr 2
    simp only [ha]
    omega
  · -- unknown
    rename_i hneg
    rw [Res.bind_eq_ok] at hr
    obtain ⟨s1, h1, h2⟩ := hr
    injection h2 with h2
    subst h2
    rw [emits_i32] at h1
    have hs := emits_ok (i32le_lt _) h1
    subst hs
    have hnone : ∀ d ∈ items w h, ¬ isDef l d.op := by
      intro d hd hdef
      have := addr_defined iv hd hdef (hpos d hd l hdef)
      omega
    refine iv.extend (.use l) (by simp [size1, i32le_length]) (by simp [fsR, iv.fs])
      ?_ (by simp [isDef]) ?_ (by simp)
      (by intro l' hl'; simp at hl'; rw [← hl']; exact hk) (by simp) ?_
    · intro x hx
      simp only [i32le_length]
      rw [upd_other _ _ (by omega)]
      exact writeList_lt _ _ _ hx
    · intro l2 h2
      have : l2 ≠ l := by intro e; subst e; simp [isUse] at h2
      exact ⟨upd_other _ _ this, rfl⟩
    · intro l2 h2
      cases hl' l2 h2
      refine ⟨fun d hd hdef => absurd hdef (hnone d hd), fun _ => ?_⟩
      simp only [i32le_length]
      refine ⟨?_, by simp, ?_⟩
      · simp [upd_same, It.fin, size1]
      · have e : It.fin w ⟨s.n, .use l, fsR h⟩ - 1 = s.n + 4 - 1 := by simp [It.fin, size1]
        rw [e, upd_same]
        refine Chain_congr (fun i hi => (mem_uses.1 hi).2) ?_ (iv.pend l hnone)
        intro i hi x _ hx
        have : i.fin w ≤ s.n := by rw [iv.n]; exact items_fin w h i (mem_uses.1 hi).1
        rw [upd_other _ _ (by omega)]
        exact writeList_lt _ _ _ (by omega)

theorem goto_size (w : Nat) : (if w = 8 then 7 else 6) + 5 = if w = 8 then 12 else 11 := by
  split <;> rfl

theorem step_goto {w : Nat} {kind : Nat → Kind} {h : List Op} {s s' : S} (iv : Inv w kind h s) {l : Nat}
    (hpos : ∀ d ∈ items w h, ∀ l, isDef l d.op → 0 < d.p)
    (hr : jump_to_goto_label w kind l s = .ok s') : Inv w kind (.goto l :: h) s' := by
  simp only [jump_to_goto_label] at hr
  split at hr
  · cases hr
  rename_i hk
  have hk : kind l = .goto := by simpa using hk
  have hl' : ∀ l', isUse l' (.goto l) → l' = l := fun l' h => by have : l = l' := (by simpa [isUse] using h); exact this.symm
  have hsz : size1 w (.goto l) = (if w = 8 then 7 else 6) + 5 := by rw [goto_size]; rfl
  split at hr
  · -- known
    rename_i hneg
    rw [Res.bind_eq_ok] at hr
    obtain ⟨s1, h1, hr⟩ := hr
    rw [Res.bind_eq_ok] at hr
    obtain ⟨s2, h2, h3⟩ := hr
    have h1' := emits_ok (add_reg_imm_lt _ _ _) h1
    have h2' := emits_ok (jump_rel_lt _) h2
    have h3' := emits_ok (jump_rel_lt _) h3
    clear h1 h2 h3
    have hn1 : s1.n = s.n + (if w = 8 then 7 else 6) := by rw [h1']; simp [add_reg_imm_length]
    have hn2 : s2.n = s.n + size1 w (.goto l) := by
      rw [h2', hsz]; simp only [hn1, jump_rel_length]; omega
    have hcode : s'.code = writeList s.code s.n
        (ints (X86.add_reg_imm w 4 (-(s.lfs l - s.fs) * w)) ++ ints (X86.jump_rel (-s.addr l - s2.n))) := by
      rw [writeList_append, h3']
      simp only
      rw [h2']
      simp only
      rw [writeList_write _ _ _ _ (by simp [ints, jump_rel_length])]
      rw [h1']
      simp only [ints, List.length_map]
    have hlen : (ints (X86.add_reg_imm w 4 (-(s.lfs l - s.fs) * w)) ++
        ints (X86.jump_rel (-s.addr l - s2.n))).length = size1 w (.goto l) := by
      rw [hsz]
      simp only [ints, List.length_append, List.length_map, add_reg_imm_length, jump_rel_length]
    have hn : s'.n = s.n + size1 w (.goto l) := by
      rw [h3', hsz]; simp only [hn1, jump_rel_length]; omega
    have hfs : s'.fs = s.fs := by rw [h3', h2', h1']
    have haddr : s'.addr = s.addr := by rw [h3', h2', h1']
    have hlfs : s'.lfs = s.lfs := by rw [h3', h2', h1']
    obtain ⟨d, hd, hdef⟩ : ∃ d ∈ items w h, isDef l d.op := by
      rcases defined_or (w := w) (h := h) l with hh | hh
      · exact hh
      · have := addr_pending iv hh; omega
    refine iv.extend (.goto l) hn (by rw [hfs]; simp [fsR, iv.fs])
      (by rw [hcode]; exact writeList_below _ _ _) (by simp [isDef])
      (fun _ _ => by rw [haddr, hlfs]; exact ⟨rfl, rfl⟩) (by simp) (by simp)
      (by intro l' hl'; simp at hl'; rw [← hl']; exact hk) ?_
    intro l2 h2
    cases hl' l2 h2
    refine ⟨?_, fun hh => absurd hdef (hh d hd)⟩
    intro d' hd' hdef'
    obtain ⟨ha, hf, _⟩ := iv.defd l d' hd' hdef'
    have hdg : d'.op = .defg l := by
      have := iv.kdef d' hd'
      simp [isDef] at hdef'
      rcases hdef' with e | e
      · have := this.1 l e; rw [hk] at this; cases this
      · exact e
    refine ⟨by rw [haddr], by rw [hlfs], ?_⟩
    rw [hcode, cells_writeList _ _ _ _ hlen.symm]
    simp only [fill]
    rw [hf hdg, iv.fs, ha]
    congr 3
    rw [hn2]
    simp [It.fin]
  · -- unknown
    rename_i hneg
    rw [Res.bind_eq_ok] at hr
    obtain ⟨s1, h1, hr⟩ := hr
    rw [Res.bind_eq_ok] at hr
    obtain ⟨s2, h2, h3⟩ := hr
    injection h3 with h3
    have h1' := emits_ok (add_reg_imm_lt _ _ _) h1
    have h2' := emits_ok (jump_rel_lt _) h2
    clear h1 h2
    have hn1 : s1.n = s.n + (if w = 8 then 7 else 6) := by rw [h1']; simp [add_reg_imm_length]
    have hn2 : s2.n = s.n + size1 w (.goto l) := by
      rw [h2', hsz]; simp only [hn1, jump_rel_length]; omega
    have hs11 : 11 ≤ size1 w (.goto l) := by simp [size1]; split <;> omega
    have hcode2 : ∀ x, x < s.n → s2.code x = s.code x := by
      intro x hx
      rw [h2']
      simp only
      rw [writeList_lt _ _ _ (by omega), h1']
      exact writeList_lt _ _ _ hx
    have hfs2 : s2.fs = s.fs := by rw [h2', h1']
    have haddr2 : s2.addr = s.addr := by rw [h2', h1']
    have hlfs2 : s2.lfs = s.lfs := by rw [h2', h1']
    have hcodelt : ∀ x, x < s.n → s'.code x = s.code x := by
      intro x hx
      rw [← h3]
      simp only
      rw [upd_other _ _ (by omega), upd_other _ _ (by omega), upd_other _ _ (by omega)]
      exact hcode2 x hx
    have hnone : ∀ d ∈ items w h, ¬ isDef l d.op := by
      intro d hd hdef
      have := addr_defined iv hd hdef (hpos d hd l hdef)
      omega
    refine iv.extend (.goto l) (by rw [← h3]; exact hn2) (by rw [← h3]; simp [fsR, hfs2, iv.fs])
      hcodelt (by simp [isDef]) ?_ (by simp) (by simp)
      (by intro l' hl'; simp at hl'; rw [← hl']; exact hk) ?_
    · intro l2 h2
      have : l2 ≠ l := by intro e; subst e; simp [isUse] at h2
      rw [← h3]
      simp only
      rw [upd_other _ _ this, haddr2, hlfs2]
      exact ⟨rfl, rfl⟩
    · intro l2 h2
      cases hl' l2 h2
      refine ⟨fun d hd hdef => absurd hdef (hnone d hd), fun _ => ?_⟩
      have hfin : It.fin w ⟨s.n, .goto l, fsR h⟩ = s2.n := by rw [hn2]
      refine ⟨?_, ?_, ?_⟩
      · rw [hfin, ← h3]; simp [upd_same]
      · intro l3 _
        rw [hfin, ← h3]
        simp only
        constructor
        · rw [upd_other _ _ (by omega), upd_same, hfs2]; exact iv.fs
        · rw [upd_same]
      · have e1 : s'.code (It.fin w ⟨s.n, .goto l, fsR h⟩ - 1) = s.addr l := by
          rw [hfin, ← h3]
          simp only
          rw [upd_other _ _ (by omega), upd_other _ _ (by omega), upd_same]
        rw [e1]
        refine Chain_congr (fun i hi => (mem_uses.1 hi).2) ?_ (iv.pend l hnone)
        intro i hi x _ hx
        have : i.fin w ≤ s.n := by rw [iv.n]; exact items_fin w h i (mem_uses.1 hi).1
        exact hcodelt x (by omega)

/-- common part of the two definitions -/
theorem step_def {w : Nat} {kind : Nat → Kind} {h : List Op} {s s' : S} (iv : Inv w kind h s) {l : Nat}
    (o : Op) (ho : isDef l o)
    (hko : (∀ l', o = .defl l' → kind l' = .generic) ∧ (∀ l', o = .defg l' → kind l' = .goto))
    (hnone : ∀ d ∈ items w h, ¬ isDef l d.op)
    (hn : s'.n = s.n) (hfs : s'.fs = s.fs)
    (haddr : s'.addr = upd s.addr l (-(s.n : Int)))
    (hlfs : ∀ l', l' ≠ l → s'.lfs l' = s.lfs l') (hlfs' : o = .defg l → s'.lfs l = s.fs)
    (hcode : s'.code = applyAll w s.n s.fs (uses w h l) s.code) :
    Inv w kind (o :: h) s' := by
  have hz : size1 w o = 0 := by cases o <;> simp [isDef, size1] at *
  have hnu : ∀ l', ¬ isUse l' o := by cases o <;> simp [isDef, isUse] at *
  have hne : ∀ b, o ≠ .emit b := by cases o <;> simp [isDef] at *
  have hfso : fsR (o :: h) = fsR h := by cases o <;> simp [isDef, fsR] at *
  have huse : ∀ i ∈ uses w h l, isUse l i.op := fun i hi => (mem_uses.1 hi).2
  have hitems : ∀ i, i ∈ items w (o :: h) ↔ i = ⟨size w h, o, fsR h⟩ ∨ i ∈ items w h := by
    intro i; simp [items]
  -- other items' cells are untouched
  have hout : ∀ i ∈ items w h, ¬ isUse l i.op → ∀ x, i.p ≤ x → x < i.fin w → s'.code x = s.code x := by
    intro i hi hi' x hx1 hx2
    rw [hcode]
    refine applyAll_out huse _ x ?_
    intro j hj
    rcases disjoint_of_pairwise (items_pairwise w h) hi (mem_uses.1 hj).1 with e | e | e
    · subst e; exact absurd (mem_uses.1 hj).2 hi'
    · left; omega
    · right; omega
  constructor
  · rw [hn, iv.n]; simp [size, hz]
  · rw [hfs, hfso]; exact iv.fs
  · intro i hi b hb
    rcases (hitems i).1 hi with rfl | hi
    · exact absurd hb (hne b)
    · rw [hout i hi (by simp [isUse, hb]) i.p (by omega) (by simp [It.fin, hb, size1])]
      exact iv.emit i hi b hb
  · intro i hi
    rcases (hitems i).1 hi with rfl | hi
    · refine ⟨fun l' e => ?_, fun l' e => ?_⟩
      · exact absurd (by simp at e; simp [isUse, e]) (hnu l')
      · exact absurd (by simp at e; simp [isUse, e]) (hnu l')
    · exact iv.kuse i hi
  · intro i hi
    rcases (hitems i).1 hi with rfl | hi
    · exact hko
    · exact iv.kdef i hi
  · intro l2 d hd hdef
    rcases (hitems d).1 hd with rfl | hd
    · have : l2 = l := isDef_inj hdef ho
      subst this
      refine ⟨by rw [haddr, upd_same, iv.n], fun e => by rw [hlfs' e]; exact iv.fs, ?_⟩
      intro u hu hul
      rcases (hitems u).1 hu with rfl | hu
      · exact absurd hul (hnu _)
      · rw [hcode, applyAll_in huse (uses_pairwise w h l2) _ u (mem_uses.2 ⟨hu, hul⟩)]
        rw [iv.n, iv.fs]
    · have hne' : l2 ≠ l := by intro e; subst e; exact hnone d hd hdef
      obtain ⟨a1, a2, a3⟩ := iv.defd l2 d hd hdef
      refine ⟨by rw [haddr, upd_other _ _ hne']; exact a1, fun e => by rw [hlfs _ hne']; exact a2 e, ?_⟩
      intro u hu hul
      rcases (hitems u).1 hu with rfl | hu
      · exact absurd hul (hnu _)
      · rw [cells_congr _ s.code]
        · exact a3 u hu hul
        · intro x h1 h2
          exact hout u hu (fun e => hne' (isUse_inj hul e)) x h1 h2
  · intro l2 hl2
    have hne' : l2 ≠ l := by
      intro e; subst e
      exact hl2 _ ((hitems _).2 (.inl rfl)) ho
    have e : uses w (o :: h) l2 = uses w h l2 := by simp [uses, items, hnu]
    rw [e, haddr, upd_other _ _ hne']
    refine Chain_congr (fun i hi => (mem_uses.1 hi).2) ?_
      (iv.pend l2 (fun d hd => hl2 d ((hitems d).2 (.inr hd))))
    intro i hi x h1 h2
    exact hout i (mem_uses.1 hi).1 (fun e => hne' (isUse_inj (mem_uses.1 hi).2 e)) x h1 h2

theorem step_defl {w : Nat} {kind : Nat → Kind} {h : List Op} {s s' : S} (iv : Inv w kind h s) {l : Nat}
    (hpos : ∀ d ∈ items w h, ∀ l, isDef l d.op → 0 < d.p)
    (hr : def_label kind l s = .ok s') : Inv w kind (.defl l :: h) s' := by
  simp only [def_label] at hr
  split at hr
  · cases hr
  rename_i hk
  have hk : kind l = .generic := by simpa using hk
  split at hr
  · cases hr
  rename_i hneg
  have hnone : ∀ d ∈ items w h, ¬ isDef l d.op := by
    intro d hd hdef
    have := addr_defined iv hd hdef (hpos d hd l hdef)
    omega
  rw [Res.bind_eq_ok] at hr
  obtain ⟨s1, h1, h2⟩ := hr
  injection h2 with h2
  have hops : ∀ i ∈ uses w h l, i.op = .use l := by
    intro i hi
    obtain ⟨hi1, hi2⟩ := mem_uses.1 hi
    simp [isUse] at hi2
    rcases hi2 with e | e
    · exact e
    · have := (iv.kuse i hi1).2 l e; rw [hk] at this; cases this
  obtain ⟨n', hp⟩ := patch_ok (w := w) (f := s.fs) (U := uses w h l) (by exact iv.pend l hnone) hops
    (uses_pairwise w h l) h1
  subst hp
  subst h2
  exact step_def iv (.defl l) (by simp [isDef])
    ⟨fun l' e => by simp at e; rw [← e]; exact hk, by simp⟩ hnone rfl rfl rfl (fun _ _ => rfl)
    (by simp) rfl

theorem step_defg {w : Nat} {kind : Nat → Kind} {h : List Op} {s s' : S} (iv : Inv w kind h s) {l : Nat}
    (hpos : ∀ d ∈ items w h, ∀ l, isDef l d.op → 0 < d.p)
    (hr : def_goto_label w kind l s = .ok s') : Inv w kind (.defg l :: h) s' := by
  simp only [def_goto_label] at hr
  split at hr
  · cases hr
  rename_i hk
  have hk : kind l = .goto := by simpa using hk
  split at hr
  · cases hr
  rename_i hneg
  have hnone : ∀ d ∈ items w h, ¬ isDef l d.op := by
    intro d hd hdef
    have := addr_defined iv hd hdef (hpos d hd l hdef)
    omega
  rw [Res.bind_eq_ok] at hr
  obtain ⟨s1, h1, h2⟩ := hr
  injection h2 with h2
  have hops : ∀ i ∈ uses w h l, i.op = .goto l := by
    intro i hi
    obtain ⟨hi1, hi2⟩ := mem_uses.1 hi
    simp [isUse] at hi2
    rcases hi2 with e | e
    · have := (iv.kuse i hi1).1 l e; rw [hk] at this; cases this
    · exact e
  obtain ⟨n', hp⟩ := patch_goto_ok (w := w) (U := uses w h l) (by exact iv.pend l hnone) hops
    (uses_pairwise w h l) h1
  subst hp
  subst h2
  exact step_def iv (.defg l) (by simp [isDef])
    ⟨by simp, fun l' e => by simp at e; rw [← e]; exact hk⟩ hnone rfl rfl rfl
    (fun _ hne => upd_other _ _ hne) (fun _ => upd_same _ _ _) rfl

theorem step_inv {w : Nat} {kind : Nat → Kind} {h : List Op} {s s' : S} (iv : Inv w kind h s) {o : Op}
    (hpos : ∀ d ∈ items w h, ∀ l, isDef l d.op → 0 < d.p)
    (hr : o.run w kind s = .ok s') : Inv w kind (o :: h) s' := by
  cases o with
  | emit b => exact step_emit iv hr
  | use l => exact step_use iv hpos hr
  | defl l => exact step_defl iv hpos hr
  | goto l => exact step_goto iv hpos hr
  | defg l => exact step_defg iv hpos hr
  | setfs v => simp only [Op.run] at hr; injection hr with hr; subst hr; exact step_setfs iv v

theorem run_inv {w : Nat} {kind : Nat → Kind} : ∀ {os h : List Op} {s s' : S}, Inv w kind h s →
    (∀ d ∈ items w (os.reverse ++ h), ∀ l, isDef l d.op → 0 < d.p) →
    run w kind os s = .ok s' → Inv w kind (os.reverse ++ h) s' := by
  intro os
  induction os with
  | nil => intro h s s' iv _ hr; simp only [run] at hr; injection hr with hr; subst hr; exact iv
  | cons o os ih =>
    intro h s s' iv hpos hr
    simp only [run] at hr
    rw [Res.bind_eq_ok] at hr
    obtain ⟨s1, h1, h2⟩ := hr
    have hsub : ∀ (a b : List Op), ∀ d ∈ items w b, d ∈ items w (a ++ b) := by
      intro a b d hd
      induction a with
      | nil => exact hd
      | cons x a iha => simp only [List.cons_append, items, List.mem_cons]; exact .inr iha
    have e : (o :: os).reverse ++ h = os.reverse ++ (o :: h) := by simp
    rw [e] at hpos ⊢
    have iv1 := step_inv iv (fun d hd => hpos d (hsub _ _ d (by simp [items, hd]))) h1
    exact ih iv1 hpos h2

/-! ### from splits to items -/

theorem size_append (w : Nat) (a b : List Op) : size w (a ++ b) = size w a + size w b := by
  induction a with
  | nil => simp [size]
  | cons o a ih => simp [size, ih]; omega

theorem size_reverse (w : Nat) (a : List Op) : size w a.reverse = size w a := by
  induction a with
  | nil => rfl
  | cons o a ih => simp [size_append, size, ih]; omega

theorem fsR_append_reverse (a h : List Op) : fsR (a.reverse ++ h) = fsAt (fsR h) a := by
  induction a generalizing h with
  | nil => rfl
  | cons o a ih =>
    have e : (o :: a).reverse ++ h = a.reverse ++ (o :: h) := by simp
    rw [e, ih]
    cases o <;> simp [fsAt, fsR]

theorem fsR_reverse (a : List Op) : fsR a.reverse = fsAt 0 a := by
  have := fsR_append_reverse a []
  simpa [fsR] using this

theorem items_split (w : Nat) (pre : List Op) (o : Op) (post : List Op) :
    (⟨size w pre, o, fsAt 0 pre⟩ : It) ∈ items w (pre ++ o :: post).reverse := by
  have e : (pre ++ o :: post).reverse = post.reverse ++ (o :: pre.reverse) := by simp
  rw [e]
  generalize post.reverse = q
  induction q with
  | nil => simp [items, size_reverse, fsR_reverse]
  | cons x q ih => simp only [List.cons_append, items, List.mem_cons]; exact .inr ih

theorem items_inv (w : Nat) : ∀ (h : List Op) (i : It), i ∈ items w h →
    ∃ pre post, h.reverse = pre ++ i.op :: post ∧ i.p = size w pre ∧ i.g = fsAt 0 pre := by
  intro h
  induction h with
  | nil => simp [items]
  | cons o h ih =>
    intro i hi
    simp only [items, List.mem_cons] at hi
    rcases hi with rfl | hi
    · exact ⟨h.reverse, [], by simp, by simp [size_reverse], by simp [← fsR_reverse]⟩
    · obtain ⟨pre, post, e1, e2, e3⟩ := ih i hi
      exact ⟨pre, post ++ [o], by simp [e1], e2, e3⟩

end Verif.Code
