import Verif.ShHeap.Spec
import Verif.ShStr.Props
/-! Invariant of the script's heap. -/
namespace Verif.ShHeap
open Verif Verif.ShStr Verif.ShStr.Spec

theorem updI_same (m : Int → Option Int) (a : Int) (v) : updI m a v a = v := by simp [updI]
theorem updI_other (m : Int → Option Int) {a x : Int} (v) (h : x ≠ a) : updI m a v x = m x := by
  simp [updI, h]

theorem writeAll_out (vs : List Int) : ∀ (m : Int → Option Int) (p x : Int),
    (x < p ∨ p + vs.length ≤ x) → writeAll m p vs x = m x := by
  induction vs with
  | nil => intro m p x _; rfl
  | cons v vs ih =>
    intro m p x h
    simp only [writeAll, List.length_cons] at *
    rw [ih _ _ _ (by omega), updI_other _ _ (by omega)]

theorem writeAll_in (vs : List Int) : ∀ (m : Int → Option Int) (p : Int) (i : Nat) (h : i < vs.length),
    writeAll m p vs (p + i) = some vs[i] := by
  induction vs with
  | nil => intro m p i h; simp at h
  | cons v vs ih =>
    intro m p i h
    cases i with
    | zero =>
      simp only [writeAll]
      rw [writeAll_out _ _ _ _ (by omega)]
      simp [updI]
    | succ i =>
      simp only [writeAll]
      have := ih (updI m p (some v)) (p + 1) i (by simpa using h)
      rw [show p + ((i + 1 : Nat) : Int) = p + 1 + i by omega, this]
      simp

theorem zeroFrom_out (n : Nat) : ∀ (m : Int → Option Int) (p x : Int),
    (x < p ∨ p + n ≤ x) → zeroFrom m p n x = m x := by
  induction n with
  | zero => intro m p x _; rfl
  | succ n ih =>
    intro m p x h
    simp only [zeroFrom]
    rw [ih _ _ _ (by omega), updI_other _ _ (by omega)]

theorem zeroFrom_in (n : Nat) : ∀ (m : Int → Option Int) (p x : Int),
    p ≤ x → x < p + n → zeroFrom m p n x = some 0 := by
  induction n with
  | zero => intro m p x h1 h2; omega
  | succ n ih =>
    intro m p x h1 h2
    simp only [zeroFrom]
    by_cases hx : x = p
    · subst hx
      rw [zeroFrom_out _ _ _ _ (by omega), updI_same]
    · exact ih _ _ _ (by omega) (by omega)

theorem unsetFrom_out (n : Nat) : ∀ (m : Int → Option Int) (p x : Int),
    (x < p ∨ p + n ≤ x) → unsetFrom m p n x = m x := by
  induction n with
  | zero => intro m p x _; rfl
  | succ n ih =>
    intro m p x h
    simp only [unsetFrom]
    rw [ih _ _ _ (by omega), updI_other _ _ (by omega)]

theorem unsetFrom_in (n : Nat) : ∀ (m : Int → Option Int) (p x : Int),
    p ≤ x → x < p + n → unsetFrom m p n x = none := by
  induction n with
  | zero => intro m p x h1 h2; omega
  | succ n ih =>
    intro m p x h1 h2
    simp only [unsetFrom]
    by_cases hx : x = p
    · subst hx
      rw [unsetFrom_out _ _ _ _ (by omega), updI_same]
    · exact ih _ _ _ (by omega) (by omega)

/-- Size of the header of an object. -/
def Cfg.h (c : Cfg) : Int := if c.hdr then 1 else 0

theorem Cfg.h_pos (c : Cfg) : 0 ≤ c.h := by unfold Cfg.h; split <;> omega
theorem Cfg.h_hdr {c : Cfg} (h : c.hdr = true) : c.h = 1 := by simp [Cfg.h, h]

/-- Disjoint, headers included. -/
def Sep (h : Int) (o p : Obj) : Prop := o.base + o.size ≤ p.base - h ∨ p.base + p.size ≤ o.base - h

theorem Sep.symm {h o p} : Sep h o p → Sep h p o := Or.symm

theorem pairwise_mem_or {h : Int} {L : List Obj} (hp : L.Pairwise (Sep h)) {o p : Obj} (ho : o ∈ L)
    (hq : p ∈ L) : o = p ∨ Sep h o p := by
  induction L with
  | nil => simp at ho
  | cons x L ih =>
    rw [List.pairwise_cons] at hp
    simp only [List.mem_cons] at ho hq
    rcases ho with rfl | ho <;> rcases hq with rfl | hq
    · exact .inl rfl
    · exact .inr (hp.1 _ hq)
    · exact .inr (hp.1 _ ho).symm
    · exact ih hp.2 ho hq

structure Inv (c : Cfg) (s : S) (L : List Obj) (F : List Int) : Prop where
  pos : 1 ≤ s.alloc
  sep : L.Pairwise (Sep c.h)
  size : ∀ o ∈ L, 0 ≤ o.size
  lo : ∀ o ∈ L, c.h + 1 ≤ o.base
  hi : ∀ o ∈ L, o.base + o.size ≤ s.alloc
  hd : c.hdr = true → ∀ o ∈ L, o.base ∉ F → s.cell (o.base - 1) = some o.size

theorem Inv.start (c : Cfg) : Inv c start [] [] :=
  ⟨by simp [ShHeap.start], .nil, by simp, by simp, by simp, by simp⟩

/-- A header is in no object. -/
theorem Inv.header_out {c s L F} (I : Inv c s L F) (hc : c.hdr = true) {o p : Obj} (ho : o ∈ L)
    (hp : p ∈ L) : ¬ p.has (o.base - 1) := by
  intro ⟨h1, h2⟩
  have := I.size o ho
  have h1' := Cfg.h_hdr hc
  rcases pairwise_mem_or I.sep ho hp with rfl | h | h
  · omega
  · omega
  · omega

theorem Inv.has_lt {c s L F} (I : Inv c s L F) {o : Obj} (ho : o ∈ L) {a : Int} (ha : o.has a) :
    a < s.alloc := by
  have := I.hi o ho
  have := ha.2
  omega

theorem Inv.has_pos {c s L F} (I : Inv c s L F) {o : Obj} (ho : o ∈ L) {a : Int} (ha : o.has a) :
    1 ≤ a := by
  have := I.lo o ho
  have := ha.1
  have := c.h_pos
  omega

/-- Changing cells of objects only keeps the invariant. -/
theorem Inv.frame {c s L F s'} (I : Inv c s L F) (ha : s.alloc ≤ s'.alloc)
    (hf : ∀ a, a < s.alloc → (∃ o ∈ L, o.has a) ∨ s'.cell a = s.cell a) : Inv c s' L F := by
  refine ⟨by have := I.pos; omega, I.sep, I.size, I.lo, fun o ho => by have := I.hi o ho; omega, ?_⟩
  intro hc o ho hF
  rcases hf (o.base - 1) (by have := I.hi o ho; have := I.size o ho; omega) with ⟨p, hp, hh⟩ | h
  · exact absurd hh (I.header_out hc ho hp)
  · rw [h]; exact I.hd hc o ho hF

/-- Adding an object above everything. -/
theorem Inv.add {c s L F s'} (I : Inv c s L F) (o : Obj) (hb : o.base = s.alloc + c.h) (hs : 0 ≤ o.size)
    (ha : o.base + o.size ≤ s'.alloc)
    (hh : c.hdr = true → s'.cell (o.base - 1) = some o.size)
    (hf : ∀ a, a < s.alloc → (∃ o ∈ L, o.has a) ∨ s'.cell a = s.cell a) : Inv c s' (o :: L) F := by
  have hp := c.h_pos
  have hpos := I.pos
  have I' := I.frame (s' := s') (by omega) hf
  refine ⟨I'.pos, ?_, ?_, ?_, ?_, ?_⟩
  · rw [List.pairwise_cons]
    refine ⟨fun p hp => .inr ?_, I.sep⟩
    have := I.hi p hp
    omega
  · intro p hp
    rcases List.mem_cons.mp hp with rfl | hp
    · exact hs
    · exact I.size p hp
  · intro p hp
    rcases List.mem_cons.mp hp with rfl | hp
    · omega
    · exact I.lo p hp
  · intro p hp
    rcases List.mem_cons.mp hp with rfl | hp
    · exact ha
    · exact I'.hi p hp
  · intro hc p hp hF
    rcases List.mem_cons.mp hp with rfl | hp
    · exact hh hc
    · exact I'.hd hc p hp hF

theorem malloc_spec (c : Cfg) (s : S) (d : Dst) (n : Int) (hd : ∀ a, d = .cell a → a < s.alloc) :
    (malloc c s d n).get d = some (s.alloc + c.h) ∧
    (malloc c s d n).alloc = s.alloc + c.h + n ∧
    (c.hdr = true → (malloc c s d n).cell s.alloc = some n) ∧
    (∀ a, a < s.alloc → d ≠ .cell a → (malloc c s d n).cell a = s.cell a) ∧
    (∀ i, d ≠ .var i → (malloc c s d n).var i = s.var i) := by
  unfold malloc Cfg.h
  cases hc : c.hdr <;> cases d with
  | var i =>
    simp [S.put, S.get, upd]
    try refine ⟨by omega, by simp [updI], ?_, ?_⟩
    all_goals try (intro a h; first | exact updI_other _ _ (by omega) | (intro h2; exact absurd h2.symm h) )
    try (intro j hj h2; exact absurd h2.symm hj)
  | cell a =>
    have := hd a rfl
    simp [S.put, S.get, updI]
    try refine ⟨by omega, fun h => by omega, ?_⟩
    all_goals (intro b hb hab; first | (rw [if_neg (fun h => hab h.symm), if_neg (by omega)]) | (intro h; exact absurd h.symm hab))

/-! ### Strings -/

theorem drain16_eq (c : Cfg) (ord : Nat → Int) (l : List Nat) : drain16 c ord l = l.map (firstChar c ord) := by
  induction l with
  | nil => rfl
  | cons a l ih => simp [drain16, ih]

theorem unpackPlain_eq (c : Cfg) (ord : Nat → Int) (l : List Nat) : unpackPlain c ord l = l.map (charVal c ord) := by
  induction l with
  | nil => rfl
  | cons a l ih => simp [unpackPlain, ih]

theorem unpackChunks_eq (c : Cfg) (ord : Nat → Int) : ∀ (fuel : Nat) (b : Bufs), b.b16 = [] →
    b.content.length < fuel → unpackChunks c ord fuel b = .ok (b.content.map (firstChar c ord)) := by
  intro fuel
  induction fuel with
  | zero => intro b _ h; omega
  | succ f ih =>
    intro b h16 hf
    simp only [unpackChunks]
    by_cases hc : b.str = [] ∧ b.b256 = []
    · rw [if_pos hc]; simp [Bufs.content, h16, hc.1, hc.2]
    · rw [if_neg hc]
      have hne : b.content ≠ [] := by
        intro h; simp [Bufs.content, h16] at h; exact hc ⟨h.2, h.1⟩
      have hn16 : (nextSub b).b16 ≠ [] := fun h => hne (nextSub_b16 h)
      have hcont := nextSub_content b
      have hl : (nextSub b).content = (nextSub b).b16 ++ ({ nextSub b with b16 := [] } : Bufs).content := by
        simp [Bufs.content]
      have hpos := List.length_pos_iff.mpr hn16
      have hlen := congrArg List.length hl
      rw [hcont] at hlen
      rw [List.length_append] at hlen
      rw [ih ({ nextSub b with b16 := [] } : Bufs) rfl (by omega)]
      rw [show b.content = (nextSub b).content from hcont.symm, hl, drain16_eq]
      simp

/-- The values `unpack_string` writes. -/
def strVals (c : Cfg) (ord : Nat → Int) (str : List Nat) : List Int :=
  if c.long then str.map (firstChar c ord) else str.map (charVal c ord)

theorem strVals_length (c ord str) : (strVals c ord str).length = str.length := by
  unfold strVals; split <;> simp

theorem charVal_ok {c : Cfg} {ord : Nat → Int} (ho : OrdOk ord) {ch : Nat} (h1 : 1 ≤ ch) (h2 : ch < 256) :
    charVal c ord ch = ch := by
  unfold charVal
  split
  · rcases ho ch h1 h2 with h | ⟨h, h'⟩
    · rw [if_pos (by omega), h]
    · rw [if_neg (by omega), h']; omega
  · exact charToInt_ok ho h1 h2

theorem fast_ok : ∀ ch v, fastArms.lookup ch = some v → v = (ch : Int) := by
  intro ch v h
  simp only [fastArms, List.lookup] at h
  repeat' split at h
  all_goals first | (rename_i hb; simp at hb; subst hb; simp at h; omega) | simp at h

theorem firstChar_ok {c : Cfg} {ord : Nat → Int} (ho : OrdOk ord) {ch : Nat} (h1 : 1 ≤ ch) (h2 : ch < 256) :
    firstChar c ord ch = ch := by
  unfold firstChar
  split
  · exact charVal_ok ho h1 h2
  · split
    · rename_i v hv; exact fast_ok _ _ hv
    · exact charVal_ok ho h1 h2

theorem strVals_ok {c : Cfg} {ord : Nat → Int} (ho : OrdOk ord) {str : List Nat}
    (h : ∀ ch ∈ str, 1 ≤ ch ∧ ch < 256) : strVals c ord str = str.map Int.ofNat := by
  unfold strVals
  split
  · exact List.map_congr_left fun ch hc => firstChar_ok ho (h ch hc).1 (h ch hc).2
  · exact List.map_congr_left fun ch hc => charVal_ok ho (h ch hc).1 (h ch hc).2

/-- What an allocating function does: it gives `base`, just above the old heap (and header), the heap
grows by the size, and only the destination changes below. -/
structure Got (c : Cfg) (s s' : S) (d : Dst) (base n : Int) : Prop where
  base_eq : base = s.alloc + c.h
  dst : s'.get d = some base
  alloc : s'.alloc = s.alloc + c.h + n
  hdr : c.hdr = true → s'.cell s.alloc = some n
  frame : ∀ a, a < s.alloc → d ≠ .cell a → s'.cell a = s.cell a
  vars : ∀ i, d ≠ .var i → s'.var i = s.var i

theorem got_malloc (c : Cfg) (s : S) (d : Dst) (n : Int) (hd : ∀ a, d = .cell a → a < s.alloc) :
    Got c s (malloc c s d n) d (s.alloc + c.h) n := by
  obtain ⟨h1, h2, h3, h4, h5⟩ := malloc_spec c s d n hd
  exact ⟨rfl, h1, h2, h3, h4, h5⟩

/-- Changing only cells at or above the new object's base. -/
theorem Got.write {c s s' d base n m} (g : Got c s s' d base n) (hd : ∀ a, d = .cell a → a < s.alloc)
    (hm : ∀ a, a < base → m a = s'.cell a) : Got c s { s' with cell := m } d base n := by
  have hb := g.base_eq
  have hh := c.h_pos
  refine ⟨hb, ?_, g.alloc, ?_, ?_, g.vars⟩
  · have := g.dst
    cases d with
    | var i => exact this
    | cell a =>
      have := hd a rfl
      simp only [S.get] at *
      rw [hm a (by omega)]; assumption
  · intro hc
    have := Cfg.h_hdr hc
    simp only
    rw [hm _ (by omega)]; exact g.hdr hc
  · intro a ha hda
    simp only
    rw [hm a (by omega)]; exact g.frame a ha hda

theorem initMem_ok {c s d base len elems} (hg : s.get d = some base) :
    initMem c s d len elems = .ok { s with
      cell := zeroFrom (writeAll s.cell base elems) (base + elems.length) (len - elems.length).toNat } := by
  simp [initMem, hg, expand]

theorem unpackString_ok (c : Cfg) (ord : Nat → Int) (s : S) (d : Dst) (str : List Nat)
    (hd : ∀ a, d = .cell a → a < s.alloc) :
    unpackString c ord s d str = .ok { (malloc c s d (str.length + 1)) with
      cell := updI (writeAll (malloc c s d (str.length + 1)).cell (s.alloc + c.h) (strVals c ord str))
        (s.alloc + c.h + str.length) (some 0) } := by
  have hg := (malloc_spec c s d (str.length + 1) hd).1
  unfold unpackString
  simp only [hg, expand, Res.bind_ok]
  have : (if c.long = true then unpackChunks c ord (str.length + 1) { b16 := [], b256 := [], str := str }
      else Res.ok (unpackPlain c ord str)) = .ok (strVals c ord str) := by
    unfold strVals
    split
    · rw [unpackChunks_eq _ _ _ _ rfl (by simp [Bufs.content])]; simp [Bufs.content]
    · rw [unpackPlain_eq]
  rw [this]
  simp [strVals_length]

theorem got_unpackString (c : Cfg) (ord : Nat → Int) (s : S) (d : Dst) (str : List Nat)
    (hd : ∀ a, d = .cell a → a < s.alloc) :
    ∃ s', unpackString c ord s d str = .ok s' ∧ Got c s s' d (s.alloc + c.h) (str.length + 1) ∧
      (∀ i (h : i < str.length), s'.cell (s.alloc + c.h + i) =
        some ((strVals c ord str)[i]'(by rw [strVals_length]; exact h))) ∧
      s'.cell (s.alloc + c.h + str.length) = some 0 := by
  refine ⟨_, unpackString_ok c ord s d str hd, ?_, ?_, ?_⟩
  · refine (got_malloc c s d _ hd).write hd ?_
    intro a ha
    rw [updI_other _ _ (by omega), writeAll_out _ _ _ _ (by omega)]
  · intro i hi
    simp only
    rw [updI_other _ _ (by omega), writeAll_in _ _ _ _ (by rw [strVals_length]; exact hi)]
  · simp only [updI_same]

theorem unpackShort_length (ord : Nat → Int) : ∀ (str : List Nat) (vs : List Int),
    unpackShort ord str = .ok vs → vs.length ≤ str.length := by
  intro str
  induction str using unpackShort.induct with
  | case1 => intro vs h; simp [unpackShort] at h; subst h; simp
  | case2 => intro vs h; simp [unpackShort] at h
  | case3 e t' v he ih =>
    intro vs h
    rw [unpackShort.eq_def] at h
    simp [he] at h
    rw [Res.bind_eq_ok] at h
    obtain ⟨ws, h1, h2⟩ := h
    have := ih ws h1
    cases h2
    simp; omega
  | case4 e t' he =>
    intro vs h
    rw [unpackShort.eq_def] at h
    simp [he] at h
  | case5 ch t hc ih =>
    intro vs h
    rw [unpackShort_plain ord hc, Res.bind_eq_ok] at h
    obtain ⟨ws, h1, h2⟩ := h
    have := ih ws h1
    cases h2
    simp; omega

theorem unpackEsc_ok (c : Cfg) (ord : Nat → Int) (s : S) (str : List Nat) (size? : Option Int) (s' : S)
    (h : unpackEsc c ord s str size? = .ok s') :
    ∃ vs, unpackShort ord str = .ok vs ∧
      s' = { (malloc c s (.var addrVar) (size?.getD (str.length + 1))) with
        cell := zeroFrom (writeAll (malloc c s (.var addrVar) (size?.getD (str.length + 1))).cell
          (s.alloc + c.h) vs) (s.alloc + c.h + vs.length)
          (s.alloc + c.h + size?.getD (str.length + 1) + 1 - (s.alloc + c.h + vs.length)).toNat } := by
  have hg := (malloc_spec c s (.var addrVar) (size?.getD (str.length + 1)) (by simp)).1
  simp only [S.get] at hg
  unfold unpackEsc at h
  simp only [hg, expand, Res.bind_ok, C09_chunking, ite_self] at h
  rw [Res.bind_eq_ok] at h
  obtain ⟨vs, h1, h2⟩ := h
  cases h2
  exact ⟨vs, h1, rfl⟩

theorem unpackEsc_total (c : Cfg) (ord : Nat → Int) (s : S) (str : List Nat) (size? : Option Int)
    {vs} (h : unpackShort ord str = .ok vs) : ∃ s', unpackEsc c ord s str size? = .ok s' := by
  have hg := (malloc_spec c s (.var addrVar) (size?.getD (str.length + 1)) (by simp)).1
  simp only [S.get] at hg
  unfold unpackEsc
  simp only [hg, expand, Res.bind_ok, C09_chunking, ite_self, h]
  exact ⟨_, rfl⟩

theorem got_unpackEsc {c : Cfg} {ord : Nat → Int} {s : S} {str : List Nat} {size? : Option Int} {s' : S}
    (h : unpackEsc c ord s str size? = .ok s') :
    ∃ vs, unpackShort ord str = .ok vs ∧
      Got c s s' (.var addrVar) (s.alloc + c.h) (size?.getD (str.length + 1)) ∧
      (∀ i (h : i < vs.length), s'.cell (s.alloc + c.h + i) = some vs[i]) ∧
      (∀ i : Nat, vs.length ≤ i → (i : Int) < size?.getD (str.length + 1) →
        s'.cell (s.alloc + c.h + i) = some 0) := by
  obtain ⟨vs, h1, rfl⟩ := unpackEsc_ok c ord s str size? s' h
  refine ⟨vs, h1, ?_, ?_, ?_⟩
  · refine (got_malloc c s _ _ (by simp)).write (by simp) ?_
    intro a ha
    rw [zeroFrom_out _ _ _ _ (by omega), writeAll_out _ _ _ _ (by omega)]
  · intro i hi
    simp only
    rw [zeroFrom_out _ _ _ _ (by omega), writeAll_in _ _ _ _ hi]
  · intro i hi hi2
    simp only
    rw [zeroFrom_in _ _ _ _ (by omega) (by omega)]

theorem got_defstr {c : Cfg} {ord : Nat → Int} {s : S} {v : Nat} {str : List Nat} {size? : Option Int}
    {s' : S} (h : defstr c ord s v str size? = .ok s') :
    ((s.var v).getD 0 ≠ 0 ∧ s' = s) ∨
    ((s.var v).getD 0 = 0 ∧ ∃ vs, unpackShort ord str = .ok vs ∧
      (s'.var v = some (s.alloc + c.h) ∧ s'.alloc = s.alloc + c.h + size?.getD (str.length + 1) ∧
       (c.hdr = true → s'.cell s.alloc = some (size?.getD (str.length + 1))) ∧
       (∀ a, a < s.alloc → s'.cell a = s.cell a) ∧
       (∀ i, i ≠ v → i ≠ addrVar → s'.var i = s.var i)) ∧
      (∀ i (h : i < vs.length), s'.cell (s.alloc + c.h + i) = some vs[i]) ∧
      (∀ i : Nat, vs.length ≤ i → (i : Int) < size?.getD (str.length + 1) →
        s'.cell (s.alloc + c.h + i) = some 0)) := by
  unfold defstr at h
  have he : expand false (s.var v) = .ok ((s.var v).getD 0) := by cases s.var v <;> rfl
  rw [he] at h
  simp only [Res.bind_ok] at h
  split at h
  · rename_i h0
    right
    refine ⟨h0, ?_⟩
    rw [Res.bind_eq_ok] at h
    obtain ⟨s1, h1, h2⟩ := h
    obtain ⟨vs, hv, g, e1, e2⟩ := got_unpackEsc h1
    have hd := g.dst
    simp only [S.get] at hd
    simp only [hd, expand, Res.bind_ok] at h2
    cases h2
    refine ⟨vs, hv, ⟨by simp [S.put, upd], g.alloc, g.hdr, fun a ha => g.frame a ha (by simp), ?_⟩, e1, e2⟩
    intro i h1 h2
    simp only [S.put, upd, if_neg h1]
    exact g.vars i (by simpa using fun h => h2 h.symm)
  · rename_i h0
    cases h
    exact .inl ⟨h0, rfl⟩


/-! ### argv -/

theorem Inv.perm {c s L L' F} (I : Inv c s L F) (h : L.Perm L') : Inv c s L' F :=
  ⟨I.pos, (h.pairwise_iff (fun h => h.symm)).mp I.sep, fun o ho => I.size o (h.mem_iff.mpr ho),
    fun o ho => I.lo o (h.mem_iff.mpr ho), fun o ho => I.hi o (h.mem_iff.mpr ho),
    fun hc o ho => I.hd hc o (h.mem_iff.mpr ho)⟩

/-- `Inv.add` for the result of an allocating function. -/
theorem Inv.got {c s L F s' d base n} (I : Inv c s L F) (g : Got c s s' d base n) (hn : 0 ≤ n)
    (hd : DstOk L d) : Inv c s' (⟨base, n⟩ :: L) F := by
  refine I.add ⟨base, n⟩ g.base_eq hn ?_ ?_ ?_
  · simp only; have := g.alloc; have := g.base_eq; omega
  · intro hc
    simp only
    have := g.base_eq
    have := Cfg.h_hdr hc
    rw [show base - 1 = s.alloc by omega]
    exact g.hdr hc
  · intro a ha
    by_cases h : d = .cell a
    · subst h; exact .inl hd
    · exact .inr (g.frame a ha h)

theorem Inv.dst_lt {c s L F d} (I : Inv c s L F) (hd : DstOk L d) : ∀ a, d = .cell a → a < s.alloc := by
  intro a h
  subst h
  obtain ⟨o, ho, ha⟩ := hd
  exact I.has_lt ho ha

/-- Values at an address, then 0. -/
def ValsAt (s : S) (b : Int) (vs : List Int) : Prop :=
  (∀ i (h : i < vs.length), s.cell (b + i) = some vs[i]) ∧ s.cell (b + vs.length) = some 0

theorem argvLoop_ok (c : Cfg) (ord : Nat → Int) (F : List Int) : ∀ (args : List (List Nat)) (s : S) (ptr : Int)
    (L : List Obj), Inv c s L F → (∀ i : Nat, i < args.length → ∃ o ∈ L, o.has (ptr + i)) →
    ∃ s', argvLoop c ord s ptr args = .ok s' ∧ Inv c s' (argvObjs s' ptr args ++ L) F ∧
      s.alloc ≤ s'.alloc ∧
      (∀ a, a < s.alloc → (a < ptr ∨ ptr + args.length ≤ a) → s'.cell a = s.cell a) ∧
      s'.var = s.var ∧
      (∀ i (h : i < args.length), ∃ b, s'.cell (ptr + i) = some b ∧ ValsAt s' b (strVals c ord args[i])) := by
  intro args
  induction args with
  | nil =>
    intro s ptr L I _
    exact ⟨s, rfl, by simpa [argvObjs] using I, by omega, fun _ _ _ => rfl, rfl, by simp⟩
  | cons a as ih =>
    intro s ptr L I hp
    have hd0 : DstOk L (.cell ptr) := by
      have := hp 0 (by simp)
      simpa [DstOk] using this
    have hd := I.dst_lt hd0
    obtain ⟨s1, e1, g, c1, c2⟩ := got_unpackString c ord s (.cell ptr) a hd
    have I1 := I.got g (by omega) hd0
    have hal := g.alloc
    have hh := c.h_pos
    obtain ⟨s', e2, I2, ha2, f2, v2, b2⟩ := ih s1 (ptr + 1) (⟨s.alloc + c.h, a.length + 1⟩ :: L) I1 (by
      intro i hi
      obtain ⟨o, ho, hh⟩ := hp (i + 1) (by simpa using hi)
      exact ⟨o, List.mem_cons_of_mem _ ho, by rw [show ptr + 1 + (i : Int) = ptr + ((i + 1 : Nat) : Int) by omega]; exact hh⟩)
    have hptr := hd ptr rfl
    have hcell : s'.cell ptr = some (s.alloc + c.h) := by
      rw [f2 ptr (by omega) (by omega)]
      exact g.dst
    have hlast : ptr + as.length < s.alloc := by
      obtain ⟨o, ho, hh⟩ := hp as.length (by simp)
      exact I.has_lt ho hh
    refine ⟨s', by simp only [argvLoop, e1, Res.bind_ok, e2], ?_, by omega, ?_, ?_, ?_⟩
    · refine I2.perm ?_
      simp only [argvObjs, hcell, Option.getD_some]
      exact List.perm_middle
    · intro x hx hor
      simp only [List.length_cons] at hor
      rw [f2 x (by omega) (by omega), g.frame x hx (by simp; omega)]
    · rw [v2]
      funext i
      exact g.vars i (by simp)
    · intro i hi
      cases i with
      | zero =>
        refine ⟨s.alloc + c.h, by simpa using hcell, ?_, ?_⟩
        · intro j hj
          have hj' : j < a.length := by
            have : (strVals c ord a).length = a.length := strVals_length ..
            simp only [List.getElem_cons_zero] at hj
            omega
          rw [f2 _ (by omega) (by omega), c1 j hj']
          rfl
        · simp only [List.getElem_cons_zero, strVals_length]
          rw [f2 _ (by omega) (by omega), c2]
      | succ i =>
        obtain ⟨b, h1, h2⟩ := b2 i (by simpa using hi)
        exact ⟨b, by rw [← h1]; congr 1; omega, by simpa using h2⟩

/-! ### One action -/

theorem initMem_got {c : Cfg} {s : S} {v : Nat} {len : Int} {elems : List Int} :
    initMem c (malloc c s (.var v) len) (.var v) len elems = .ok { (malloc c s (.var v) len) with
      cell := zeroFrom (writeAll (malloc c s (.var v) len).cell (s.alloc + c.h) elems) (s.alloc + c.h + elems.length) (len - elems.length).toNat } :=
  initMem_ok (got_malloc c s (.var v) len (by simp)).dst

theorem got_defarr {c : Cfg} {s s' : S} {v : Nat} {len : Int} {elems : List Int}
    (h : defarr c s (.var v) len elems = .ok s') :
    Got c s s' (.var v) (s.alloc + c.h) len ∧
    (elems ≠ [] → (∀ i (h : i < elems.length), s'.cell (s.alloc + c.h + i) = some elems[i]) ∧
      (∀ i : Nat, elems.length ≤ i → (i : Int) < len → s'.cell (s.alloc + c.h + i) = some 0)) := by
  unfold defarr at h
  simp only at h
  split at h
  · split at h
    · rw [initMem_got] at h
      cases h
      refine ⟨(got_malloc c s _ _ (by simp)).write (by simp) ?_, fun _ => ⟨?_, ?_⟩⟩
      · intro a ha
        rw [zeroFrom_out _ _ _ _ (by omega), writeAll_out _ _ _ _ (by omega)]
      · intro i hi
        simp only
        rw [zeroFrom_out _ _ _ _ (by omega), writeAll_in _ _ _ _ hi]
      · intro i h1 h2
        simp only
        rw [zeroFrom_in _ _ _ _ (by omega) (by omega)]
    · rename_i he
      cases h
      refine ⟨got_malloc c s _ _ (by simp), fun hne => absurd (List.length_pos_iff.mpr hne) he⟩
  · cases h

theorem put_cell (s : S) (d : Dst) (v : Int) (a : Int) (h : d ≠ .cell a) : (s.put d v).cell a = s.cell a := by
  cases d with
  | var i => rfl
  | cell b => exact updI_other _ _ (fun hh => h (by rw [hh]))

theorem put_var (s : S) (d : Dst) (v : Int) (i : Nat) (h : d ≠ .var i) : (s.put d v).var i = s.var i := by
  cases d with
  | var j =>
    simp only [S.put, upd]
    rw [if_neg]
    intro hh; subst hh; exact h rfl
  | cell b => rfl

theorem put_alloc (s : S) (d : Dst) (v : Int) : (s.put d v).alloc = s.alloc := by
  cases d <;> rfl

/-- `_free` of an object: what it unsets. -/
theorem free_spec {c s L F d p o} (I : Inv c s L F) (ho : o ∈ L) (hb : o.base = p) (hF : c.hdr = true → p ∉ F) :
    ∃ s', free c s d p = .ok s' ∧ s'.alloc = s.alloc ∧ (∀ i, d ≠ .var i → s'.var i = s.var i) ∧
      ∀ a, d ≠ .cell a → (c.hdr = true → a ≠ p - 1) → ¬ o.has a → s'.cell a = s.cell a := by
  unfold free
  split
  · rename_i hc
    have h1 := I.lo o ho
    have h2 := Cfg.h_hdr hc
    have h3 := I.size o ho
    simp only
    rw [if_neg (by omega)]
    have := I.hd hc o ho (by rw [hb]; exact hF hc)
    rw [hb] at this
    rw [this]
    simp only [expand, Res.bind_ok]
    refine ⟨_, rfl, by rw [put_alloc], fun i hi => put_var _ _ _ _ hi, ?_⟩
    intro a ha h4 h5
    rw [put_cell _ _ _ _ ha]
    simp only
    refine unsetFrom_out _ _ _ _ ?_
    have h4 := h4 hc
    unfold Obj.has at h5
    by_cases h6 : a < p - 1
    · exact .inl h6
    · right; omega
  · exact ⟨_, rfl, by rw [put_alloc], fun i hi => put_var _ _ _ _ hi, fun a ha _ _ => put_cell _ _ _ _ ha⟩

/-- `_free` keeps the invariant and every other object. -/
theorem free_inv {c s L F d p o} (I : Inv c s L F) (ho : o ∈ L) (hb : o.base = p)
    (hF : c.hdr = true → p ∉ F) (hd : DstOk L d) :
    ∃ s', free c s d p = .ok s' ∧ Inv c s' L (p :: F) ∧ s'.alloc = s.alloc ∧
      (∀ i, d ≠ .var i → s'.var i = s.var i) ∧
      (∀ q ∈ L, q ≠ o → ∀ x, q.has x → d ≠ .cell x → s'.cell x = s.cell x) ∧
      (∀ q ∈ L, ∀ x, q.has x → d ≠ .cell x → ¬ o.has x → s'.cell x = s.cell x) := by
  obtain ⟨s1, e1, al, vr, fr⟩ := free_spec (d := d) I ho hb hF
  have hh := c.h_pos
  have fr' : ∀ q ∈ L, ∀ x, q.has x → d ≠ .cell x → ¬ o.has x → s1.cell x = s.cell x := by
    intro q hq x hx hd hox
    refine fr x hd ?_ hox
    intro hc hx1
    subst hx1
    have := I.header_out hc ho hq
    rw [hb] at this
    exact this hx
  refine ⟨s1, e1, ?_, al, vr, ?_, fr'⟩
  · refine ⟨by rw [al]; exact I.pos, I.sep, I.size, I.lo, by rw [al]; exact I.hi, ?_⟩
    intro hc q hq hqF
    simp only [List.mem_cons, not_or] at hqF
    rw [fr]
    · exact I.hd hc q hq hqF.2
    · intro h
      subst h
      obtain ⟨r, hr, hh⟩ := hd
      exact I.header_out hc hq hr hh
    · intro _; omega
    · exact I.header_out hc hq ho
  · intro q hq hne x hx hdx
    refine fr' q hq x hx hdx ?_
    intro hox
    rcases pairwise_mem_or I.sep ho hq with rfl | hs
    · exact hne rfl
    · unfold Sep at hs
      have := hx.1
      have := hx.2
      have := hox.1
      have := hox.2
      omega

theorem makeArgv_ok (c : Cfg) (ord : Nat → Int) {s L F} (args : List (List Nat)) (I : Inv c s L F) :
    ∃ s1 s2, makeArgv c ord s args = .ok s2 ∧ s1 = malloc c s (.var argvVar) args.length ∧
      Inv c s1 (⟨s.alloc + c.h, args.length⟩ :: L) F ∧
      Inv c s2 (argvObjs s2 (s.alloc + c.h) args ++ ⟨s.alloc + c.h, args.length⟩ :: L) F ∧
      s2.var argvVar = some (s.alloc + c.h) ∧ s.alloc ≤ s2.alloc ∧
      (∀ a, a < s.alloc → s2.cell a = s.cell a) ∧
      (∀ i, i ≠ argvVar → s2.var i = s.var i) ∧
      (∀ i (h : i < args.length), ∃ b, s2.cell (s.alloc + c.h + i) = some b ∧
        ValsAt s2 b (strVals c ord args[i])) := by
  have g := got_malloc c s (.var argvVar) args.length (by simp)
  have I1 := I.got g (by omega) trivial
  have hh := c.h_pos
  obtain ⟨s2, e2, I2, ha2, f2, v2, b2⟩ := argvLoop_ok c ord F args _ (s.alloc + c.h) _ I1 (by
    intro i hi
    refine ⟨_, List.mem_cons_self, ?_⟩
    simp only [Obj.has]; omega)
  have hd := g.dst
  simp only [S.get] at hd
  have hal := g.alloc
  refine ⟨_, s2, ?_, rfl, I1, I2, by rw [v2]; exact hd, by omega, ?_, ?_, b2⟩
  · unfold makeArgv
    simp only [hd, expand, Res.bind_ok]
    exact e2
  · intro a ha
    rw [f2 a (by omega) (by omega), g.frame a ha (by simp)]
  · intro i hi
    rw [v2]
    exact g.vars i (by simpa using fun h => hi h.symm)

theorem step_inv {c ord s L F s'} (I : Inv c s L F) (a : Act) (hal : Allowed ord L F a)
    (hs : step c ord s a = .ok s') :
    Inv c s' (created s s' a ++ L) (freed a ++ F) ∧
    (∀ o ∈ L, ∀ x, o.has x → ¬ Touches L a x → s'.cell x = s.cell x) := by
  cases a with
  | malloc d n =>
    cases hs
    have g := got_malloc c s d n (I.dst_lt hal.1)
    constructor
    · have := I.got g hal.2 hal.1
      simp only [created, g.dst, Option.getD_some]
      exact this
    · intro o ho x hx ht
      refine g.frame x (I.has_lt ho hx) ?_
      intro h; subst h; exact ht rfl
  | free d p =>
    obtain ⟨hd, ⟨o, ho, hb⟩, hF⟩ := hal
    obtain ⟨s1, e1, I1, -, -, -, fr⟩ := free_inv (d := d) I ho hb (fun _ => hF) hd
    simp only [step] at hs
    rw [e1] at hs
    cases hs
    refine ⟨I1, ?_⟩
    intro q hq x hx ht
    simp only [Touches, not_or] at ht
    exact fr q hq x hx ht.1 (fun hh => ht.2 ⟨o, ho, hb, hh⟩)
  | defarr v len elems =>
    obtain ⟨g, -⟩ := got_defarr hs
    constructor
    · have := I.got g (by have := hal; simp only [Allowed] at this; omega) trivial
      have hd := g.dst
      simp only [S.get] at hd
      simp only [created, hd, Option.getD_some]
      exact this
    · intro o ho x hx _
      exact g.frame x (I.has_lt ho hx) (by simp)
  | defstr v str size? =>
    rcases got_defstr hs with ⟨h0, rfl⟩ | ⟨h0, vs, hv, ⟨h1, h2, h3, h4, -⟩, -, -⟩
    · constructor
      · simp only [created, if_neg h0]
        exact I
      · intro o ho x _ _; rfl
    · constructor
      · simp only [created, if_pos h0, h1, Option.getD_some]
        refine I.add ⟨s.alloc + c.h, size?.getD (str.length + 1)⟩ rfl ?_ ?_ ?_ ?_
        · cases size? with
          | none => simp; omega
          | some n =>
            obtain ⟨ws, hw, hl⟩ := hal n rfl
            simp only [Option.getD_some]; omega
        · simp only; omega
        · intro hc
          have := Cfg.h_hdr hc
          simp only
          rw [show s.alloc + c.h - 1 = s.alloc by omega]
          exact h3 hc
        · intro a ha
          exact .inr (h4 a ha)
      · intro o ho x hx _
        exact h4 x (I.has_lt ho hx)
  | unpack d str =>
    obtain ⟨s1, e1, g, -, -⟩ := got_unpackString c ord s d str (I.dst_lt hal)
    simp only [step] at hs
    rw [e1] at hs
    cases hs
    constructor
    · have := I.got g (by omega) hal
      simp only [created, g.dst, Option.getD_some]
      exact this
    · intro o ho x hx ht
      refine g.frame x (I.has_lt ho hx) ?_
      intro h; subst h; exact ht rfl
  | argv args =>
    obtain ⟨s1, s2, e0, e1, I1, I2, hv, hal1, fr, -, -⟩ := makeArgv_ok c ord args I
    simp only [step] at hs
    rw [e0] at hs
    cases hs
    constructor
    · simp only [created, hv, Option.getD_some]
      refine I2.perm ?_
      exact List.perm_middle
    · intro o ho x hx _
      exact fr x (I.has_lt ho hx)
  | store a x =>
    cases hs
    constructor
    · refine I.frame (by simp) ?_
      intro b _
      by_cases h : b = a
      · subst h; exact .inl hal
      · exact .inr (updI_other _ _ h)
    · intro o ho b hb ht
      exact updI_other _ _ ht
  | setVar i x =>
    cases hs
    exact ⟨I.frame (by simp [S.put]) (fun _ _ => .inr rfl), fun _ _ _ _ _ => rfl⟩

end Verif.ShHeap
