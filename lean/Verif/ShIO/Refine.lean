import Verif.ShIO.Proofs
/-! The simulation relation between the script's state and the program's view, kept by every call. -/
namespace Verif.ShIO
open Verif Verif.ShHeap Verif.ShStr Verif.ShStr.Spec

/-- The cells of an object are the same. -/
def Kept (s s' : S) (o : Obj) : Prop := ∀ x, o.has x → s'.cell x = s.cell x

theorem _root_.Verif.ShHeap.Inv.not_mem {c s C G F q} (I : Inv c s (C ++ G) F) (hq : q ∈ G) (hs : 0 < q.size) : q ∉ C := by
  intro hc
  have hh := c.h_pos
  have h := (List.pairwise_append.mp I.sep).2.2 q hc q hq
  unfold ShHeap.Sep at h
  omega

theorem _root_.Verif.ShHeap.Inv.base_ne {c s G F o q} (I : Inv c s G F) (hc : c.hdr = true) (ho : o ∈ G) (hq : q ∈ G)
    (hne : o ≠ q) : o.base ≠ q.base := by
  have h1 := Cfg.h_hdr hc
  have := I.size o ho
  have := I.size q hq
  rcases pairwise_mem_or I.sep ho hq with h | h
  · exact absurd h hne
  · unfold ShHeap.Sep at h; omega

theorem _root_.Verif.ShHeap.Inv.disj {c s G F o q} (I : Inv c s G F) (ho : o ∈ G) (hq : q ∈ G)
    (hne : o ≠ q) {x} (h1 : o.has x) (h2 : q.has x) : False := by
  have hh := c.h_pos
  rcases pairwise_mem_or I.sep ho hq with h | h
  · exact hne h
  · unfold ShHeap.Sep at h
    have := h1.1; have := h1.2; have := h2.1; have := h2.2
    omega

/-- Writing inside one object. -/
theorem _root_.Verif.ShHeap.Inv.writeIn {c s G F o} (I : Inv c s G F) (ho : o ∈ G) {m : Int → Option Int}
    (hm : ∀ x, ¬ o.has x → m x = s.cell x) :
    Inv c { s with cell := m } G F ∧ ∀ q ∈ G, q ≠ o → Kept s { s with cell := m } q := by
  refine ⟨I.frame (by simp) ?_, ?_⟩
  · intro a _
    by_cases h : o.has a
    · exact .inl ⟨o, ho, h⟩
    · exact .inr (hm a h)
  · intro q hq hne x hx
    exact hm x (fun h => I.disj hq ho hne hx h)

/-- A descriptor's buffer holds the bytes `rest`, unread, and 0. -/
structure Data (io : IO) (o : Obj) (d : Nat) (s : List Nat) : Prop where
  plain : Plain s
  ex : ∃ (cur : Int) (rest tail : List Nat), io.cursor d = some cur ∧ 0 ≤ cur ∧
    ValsAt io.h (o.base + cur) (rest.map Int.ofNat) ∧ cur + rest.length < o.size ∧
    io.chan d = .rd tail ∧ s = rest ++ tail

/-- Descriptor with a buffer. -/
def Abs.buffered (A : Abs) (d : Nat) : Prop := A.used d ∧ d ≠ 1 ∧ d ≠ 2

structure RG (e : Env) (g : Bool) (io : IO) (A : Abs) (L : List Obj) (F : List Int) (G : List Obj)
    (FG : List Int) (bo : Nat → Obj) : Prop where
  inv : Inv e.c io.h G FG
  sub : ∀ o ∈ L, o ∈ G
  fG : ∀ p ∈ FG, ∃ o ∈ G, o.base = p
  live : e.c.hdr = true → ∀ o ∈ L, o.base ∉ F → o.base ∉ FG
  bmem : ∀ d, A.buffered d → bo d ∈ G ∧ bo d ∉ L ∧ 1000 ≤ (bo d).size ∧
    (e.c.hdr = true → (bo d).base ∉ FG) ∧ io.buffer d = some (bo d).base ∧
    io.buflen d = some (bo d).size
  binj : ∀ d d', A.buffered d → A.buffered d' → d ≠ d' → bo d ≠ bo d'
  st : ∀ d, io.state d < 0 ↔ ¬ A.used d
  lt : ∀ d, A.used d → d < 10
  out1 : A.output 1 ≠ none
  out2 : A.output 2 ≠ none
  excl : ∀ d, A.input d ≠ none → A.output d = none
  files : ∀ f d, A.file f = some d → (⟨f, 1⟩ : Obj) ∈ G ∧ (⟨f, 1⟩ : Obj) ∉ L ∧
    (e.c.hdr = true → f ∉ FG) ∧ io.h.cell f = some d ∧ A.buffered d ∧ (g = true → d ≠ 0)
  finj : ∀ f f' d, A.file f = some d → A.file f' = some d → f = f'
  data : ∀ d s, A.input d = some s → (g = true → d ≠ 0) → Data io (bo d) d s
  outs : ∀ d o, A.output d = some o → io.chan d = .wr o
  get : g = true → A.used 0 ∧ Plain A.stdin ∧ ∃ tail, io.chan 0 = .rd tail ∧ GInv io.gc tail A.stdin
  short : g = true → e.c.long = false

/-- The relation. -/
def R (e : Env) (g : Bool) (io : IO) (A : Abs) (L : List Obj) (F : List Int) : Prop :=
  ∃ G FG bo, RG e g io A L F G FG bo

theorem RG.input_buffered {e g io A L F G FG bo} (r : RG e g io A L F G FG bo) {d s}
    (h : A.input d = some s) : A.buffered d := by
  refine ⟨.inl (by simp [h]), ?_, ?_⟩
  · rintro rfl
    exact r.out1 (r.excl 1 (by simp [h]))
  · rintro rfl
    exact r.out2 (r.excl 2 (by simp [h]))

theorem Data.kept {io io' : IO} {o d s} (D : Data io o d s) (hk : Kept io.h io'.h o)
    (hc : io'.cursor d = io.cursor d) (hch : io'.chan d = io.chan d) : Data io' o d s := by
  obtain ⟨hp, cur, rest, tail, h1, h2, h3, h4, h5, h6⟩ := D
  refine ⟨hp, cur, rest, tail, by rw [hc]; exact h1, h2, ⟨?_, ?_⟩, h4, by rw [hch]; exact h5, h6⟩
  · intro i hi
    rw [List.length_map] at hi
    rw [hk _ ⟨by omega, by omega⟩]
    exact h3.1 i (by rw [List.length_map]; exact hi)
  · have := h3.2
    rw [List.length_map] at this ⊢
    rw [hk _ ⟨by omega, by omega⟩]
    exact this

/-! ### Memory actions -/

/-- An action of the program keeps the invariant on all objects, and every object that is not the
program's. -/
theorem mem_inv {c : Cfg} {ord s s' L F G FG} (I : Inv c s G FG) (hsub : ∀ o ∈ L, o ∈ G)
    (hlive : c.hdr = true → ∀ o ∈ L, o.base ∉ F → o.base ∉ FG)
    (a : Act) (hal : Allowed ord L F a) (hs : ShHeap.step c ord s a = .ok s') :
    Inv c s' (created s s' a ++ G) (freed a ++ FG) ∧
    ∀ q ∈ G, q ∉ L → Kept s s' q := by
  have hdst : ∀ d, DstOk L d → DstOk G d := by
    intro d h
    cases d with
    | var i => trivial
    | cell x => obtain ⟨o, ho, hx⟩ := h; exact ⟨o, hsub o ho, hx⟩
  have hdd : ∀ d, DstOk L d → ∀ q ∈ G, q ∉ L → ∀ x, q.has x → d ≠ .cell x := by
    intro d h q hq hqL x hx hd
    subst hd
    obtain ⟨o, ho, hox⟩ := h
    exact I.disj hq (hsub o ho) (fun h => hqL (h ▸ ho)) hx hox
  cases a with
  | free d p =>
    obtain ⟨hd, ⟨o, ho, hb⟩, hF⟩ := hal
    obtain ⟨s1, e1, I1, -, -, fr, -⟩ := free_inv (d := d) I (hsub o ho) hb
      (fun hc => hb ▸ hlive hc o ho (hb ▸ hF)) (hdst d hd)
    simp only [ShHeap.step] at hs
    rw [e1] at hs
    cases hs
    refine ⟨I1, ?_⟩
    intro q hq hqL x hx
    exact fr q hq (fun h => hqL (h ▸ ho)) x hx (hdd d hd q hq hqL x hx)
  | malloc d n =>
    obtain ⟨h1, h2⟩ := step_inv (F := FG) I _ (show Allowed ord G FG (.malloc d n) from ⟨hdst d hal.1, hal.2⟩) hs
    refine ⟨h1, fun q hq hqL x hx => h2 q hq x hx ?_⟩
    cases d with
    | var i => exact id
    | cell y =>
      intro ht
      exact hdd _ hal.1 q hq hqL x hx (by rw [show x = y from ht])
  | defarr v len elems =>
    obtain ⟨h1, h2⟩ := step_inv (F := FG) I _ (show Allowed ord G FG (.defarr v len elems) from hal) hs
    exact ⟨h1, fun q hq hqL x hx => h2 q hq x hx id⟩
  | defstr v str sz =>
    obtain ⟨h1, h2⟩ := step_inv (F := FG) I _ (show Allowed ord G FG (.defstr v str sz) from hal) hs
    exact ⟨h1, fun q hq hqL x hx => h2 q hq x hx id⟩
  | unpack d str =>
    obtain ⟨h1, h2⟩ := step_inv (F := FG) I _ (show Allowed ord G FG (.unpack d str) from hdst d hal) hs
    refine ⟨h1, fun q hq hqL x hx => h2 q hq x hx ?_⟩
    cases d with
    | var i => exact id
    | cell y =>
      intro ht
      exact hdd (.cell y) hal q hq hqL x hx (by rw [show x = y from ht])
  | argv args =>
    obtain ⟨h1, h2⟩ := step_inv (F := FG) I _ (show Allowed ord G FG (.argv args) from trivial) hs
    exact ⟨h1, fun q hq hqL x hx => h2 q hq x hx id⟩
  | store a x =>
    obtain ⟨h1, h2⟩ := step_inv (F := FG) I _ (show Allowed ord G FG (.store a x) from by
      obtain ⟨o, ho, hx⟩ := hal; exact ⟨o, hsub o ho, hx⟩) hs
    refine ⟨h1, fun q hq hqL y hy => h2 q hq y hy ?_⟩
    intro ht
    obtain ⟨o, ho, hx⟩ := hal
    rw [show y = a from ht] at hy
    exact I.disj hq (hsub o ho) (fun h => hqL (h ▸ ho)) hy hx
  | setVar i x =>
    obtain ⟨h1, h2⟩ := step_inv (F := FG) I _ (show Allowed ord G FG (.setVar i x) from trivial) hs
    exact ⟨h1, fun q hq hqL x hx => h2 q hq x hx id⟩

theorem freed_mem {ord L F a p} (hal : Allowed ord L F a) (hp : p ∈ freed a) : ∃ o ∈ L, o.base = p := by
  cases a <;> simp [freed] at hp
  subst hp
  exact hal.2.1

theorem R.mem {e g io A L F h'} (r : R e g io A L F) (a : Act) (hal : Allowed e.ord L F a)
    (hs : ShHeap.step e.c e.ord io.h a = .ok h') :
    R e g { io with h := h' } A (created io.h h' a ++ L) (freed a ++ F) := by
  obtain ⟨G, FG, bo, r⟩ := r
  obtain ⟨I, K⟩ := mem_inv r.inv r.sub r.live a hal hs
  refine ⟨created io.h h' a ++ G, freed a ++ FG, bo, ?_⟩
  have nC : ∀ q ∈ G, 0 < q.size → q ∉ created io.h h' a := fun q hq hs => ShHeap.Inv.not_mem I hq hs
  have bF : ∀ q ∈ G, q ∉ L → e.c.hdr = true → q.base ∉ FG → q.base ∉ freed a ++ FG := by
    intro q hq hqL hc hF hmem
    rcases List.mem_append.mp hmem with hm | hm
    · obtain ⟨o, ho, hb⟩ := freed_mem hal hm
      exact ShHeap.Inv.base_ne r.inv hc (r.sub o ho) hq (fun h => hqL (h ▸ ho)) hb
    · exact hF hm
  refine ⟨I, ?_, ?_, ?_, ?_, r.binj, r.st, r.lt, r.out1, r.out2, r.excl, ?_, r.finj, ?_, r.outs, r.get, r.short⟩
  · intro o ho
    rcases List.mem_append.mp ho with ho | ho
    · exact List.mem_append_left _ ho
    · exact List.mem_append_right _ (r.sub o ho)
  · intro p hp
    rcases List.mem_append.mp hp with hp | hp
    · obtain ⟨o, ho, hb⟩ := freed_mem hal hp
      exact ⟨o, List.mem_append_right _ (r.sub o ho), hb⟩
    · obtain ⟨o, ho, hb⟩ := r.fG p hp
      exact ⟨o, List.mem_append_right _ ho, hb⟩
  · intro hc o ho hF hFG
    simp only [List.mem_append, not_or] at hF
    rcases List.mem_append.mp hFG with hp | hp
    · exact hF.1 hp
    · rcases List.mem_append.mp ho with ho' | ho'
      · obtain ⟨q, hq, hb⟩ := r.fG _ hp
        have := (List.pairwise_append.mp I.sep).2.2 o ho' q hq
        have h1 := Cfg.h_hdr hc
        have := I.size o (List.mem_append_left _ ho')
        have := I.size q (List.mem_append_right _ hq)
        unfold ShHeap.Sep at *
        omega
      · exact r.live hc o ho' hF.2 hp
  · intro d hd
    obtain ⟨h1, h2, h3, h4, h5, h6⟩ := r.bmem d hd
    refine ⟨List.mem_append_right _ h1, ?_, h3, ?_, h5, h6⟩
    · intro hm
      rcases List.mem_append.mp hm with hm | hm
      · exact nC _ h1 (by omega) hm
      · exact h2 hm
    · intro hc; exact bF _ h1 h2 hc (h4 hc)
  · intro f d hf
    obtain ⟨h1, h2, h3, h4, h5, h6⟩ := r.files f d hf
    refine ⟨List.mem_append_right _ h1, ?_, ?_, ?_, h5, h6⟩
    · intro hm
      rcases List.mem_append.mp hm with hm | hm
      · exact nC _ h1 (by simp) hm
      · exact h2 hm
    · intro hc; exact bF _ h1 h2 hc (h3 hc)
    · have := K _ h1 h2 f ⟨by simp, by simp only; omega⟩
      simp only
      rw [this]; exact h4
  · intro d s hd hg
    have hb := r.bmem d (r.input_buffered hd)
    exact (r.data d s hd hg).kept (K _ hb.1 hb.2.1) rfl rfl

/-! ### Reading -/

theorem RG.reader {e g io A L F G FG bo} (r : RG e g io A L F G FG bo) {d : Nat} {s : List Nat}
    (hd : A.input d = some s) (hg : g = true → d ≠ 0) {io' : IO} {G' : List Obj} {FG' : List Int}
    {o' : Obj} {s' : List Nat}
    (inv' : Inv e.c io'.h G' FG') (hG : ∀ o ∈ G, o ∈ G') (hfG : ∀ p ∈ FG', ∃ o ∈ G', o.base = p)
    (hFG : e.c.hdr = true → ∀ q ∈ G, q ≠ bo d → q.base ∉ FG → q.base ∉ FG')
    (ho : o' ∈ G') (hoL : o' ∉ L) (hsz : 1000 ≤ o'.size) (hof : e.c.hdr = true → o'.base ∉ FG')
    (hbuf : io'.buffer d = some o'.base) (hbl : io'.buflen d = some o'.size)
    (hne : ∀ q ∈ G, q ≠ bo d → 0 < q.size → o' ≠ q)
    (hk : ∀ q ∈ G, q ≠ bo d → Kept io.h io'.h q)
    (hoth : ∀ d', d' ≠ d → io'.buffer d' = io.buffer d' ∧ io'.buflen d' = io.buflen d' ∧
      io'.cursor d' = io.cursor d' ∧ io'.chan d' = io.chan d')
    (hst : io'.state = io.state) (hgc : g = true → io'.gc = io.gc) (D : Data io' o' d s') :
    RG e g io' { A with input := upd A.input d (some s') } L F G' FG' (upd bo d o') := by
  have hbd := r.input_buffered hd
  have hused : ∀ x, ({ A with input := upd A.input d (some s') } : Abs).used x ↔ A.used x := by
    intro x
    unfold Abs.used
    by_cases hx : x = d
    · subst hx; simp [upd, hd]
    · simp [upd, hx]
  have hbuf' : ∀ x, ({ A with input := upd A.input d (some s') } : Abs).buffered x ↔ A.buffered x := by
    intro x; unfold Abs.buffered; rw [hused]
  have hbne : ∀ x, A.buffered x → x ≠ d → bo x ≠ bo d := fun x hx hne => r.binj x d hx hbd hne
  refine ⟨inv', fun o ho => hG o (r.sub o ho), hfG, ?_, ?_, ?_, ?_, ?_, r.out1, r.out2, ?_, ?_, r.finj, ?_, ?_, ?_, r.short⟩
  · intro hc o ho hF
    exact hFG hc o (r.sub o ho) (fun h => (r.bmem d hbd).2.1 (h ▸ ho)) (r.live hc o ho hF)
  · intro x hx
    rw [hbuf'] at hx
    by_cases hxd : x = d
    · subst hxd
      simp only [upd_same]
      exact ⟨ho, hoL, hsz, hof, hbuf, hbl⟩
    · simp only [upd_other _ _ hxd]
      obtain ⟨h1, h2, h3, h4, h5, h6⟩ := r.bmem x hx
      have := hoth x hxd
      refine ⟨hG _ h1, h2, h3, fun hc => hFG hc _ h1 (hbne x hx hxd) (h4 hc), ?_, ?_⟩
      · rw [this.1]; exact h5
      · rw [this.2.1]; exact h6
  · intro x y hx hy hxy
    rw [hbuf'] at hx hy
    have hbx := r.bmem x hx
    have hby := r.bmem y hy
    by_cases hxd : x = d
    · subst hxd
      rw [upd_same, upd_other _ _ (Ne.symm hxy)]
      exact hne _ hby.1 (hbne y hy (Ne.symm hxy)) (by omega)
    · rw [upd_other _ _ hxd]
      by_cases hyd : y = d
      · subst hyd
        rw [upd_same]
        exact Ne.symm (hne _ hbx.1 (hbne x hx hxd) (by omega))
      · rw [upd_other _ _ hyd]
        exact r.binj x y hx hy hxy
  · intro x; rw [hst, hused]; exact r.st x
  · intro x hx; rw [hused] at hx; exact r.lt x hx
  · intro x hx
    by_cases hxd : x = d
    · subst hxd; exact r.excl x (by simp [hd])
    · simp only [upd_other _ _ hxd] at hx; exact r.excl x hx
  · intro f x hf
    obtain ⟨h1, h2, h3, h4, h5, h6⟩ := r.files f x hf
    have hfne : (⟨f, 1⟩ : Obj) ≠ bo d := by
      intro h
      have := (r.bmem d hbd).2.2.1
      rw [← h] at this
      simp at this
    refine ⟨hG _ h1, h2, fun hc => hFG hc _ h1 hfne (h3 hc), ?_, (hbuf' x).mpr h5, h6⟩
    rw [hk _ h1 hfne f ⟨by simp, by simp only; omega⟩]
    exact h4
  · intro x t hx hgx
    by_cases hxd : x = d
    · subst hxd
      simp only [upd_same] at hx ⊢
      cases hx
      exact D
    · simp only [upd_other _ _ hxd] at hx ⊢
      have hb := r.input_buffered hx
      have := hoth x hxd
      exact (r.data x t hx hgx).kept (hk _ (r.bmem x hb).1 (hbne x hb hxd)) this.2.2.1 this.2.2.2
  · intro x o hx
    have hxd : x ≠ d := by
      rintro rfl
      have := r.excl x (by simp [hd])
      simp only at hx
      rw [this] at hx; cases hx
    rw [(hoth x hxd).2.2.2]
    exact r.outs x o hx
  · intro hgt
    obtain ⟨h1, h2, tail, h3, h4⟩ := r.get hgt
    refine ⟨(hused 0).mpr h1, h2, tail, ?_, ?_⟩
    · rw [(hoth 0 (Ne.symm (hg hgt))).2.2.2]; exact h3
    · rw [hgc hgt]; exact h4

theorem writeAll_vals (m : Int → Option Int) (b : Int) (vs : List Int) (s : S) :
    ValsAt { s with cell := writeAll m b (vs ++ [0]) } b vs := by
  refine ⟨?_, ?_⟩
  · intro i hi
    simp only
    rw [writeAll_in _ _ _ _ (by simp; omega), List.getElem_append_left hi]
  · simp only
    rw [writeAll_in _ _ _ _ (by simp), List.getElem_append_right (by omega)]
    simp

theorem expand_some (b : Bool) (v : Int) : expand b (some v) = .ok v := rfl

/-- The text of a line with its end. -/
theorem line_plain {rest l r : List Nat} {o : Bool} (h : readLine rest = (l, o, r)) (hp : Plain rest) :
    Plain l ∧ Plain r ∧ rest = (l ++ (if !o then [] else [10])) ++ r := by
  obtain ⟨h1, h2⟩ := readLine_spec _ _ _ _ h
  refine ⟨fun x hx => hp x (by rw [h1]; simp [hx]), ?_, ?_⟩
  · cases o with
    | false => rw [h2 rfl]; intro x hx; cases hx
    | true => intro x hx; exact hp x (by rw [h1]; simp [hx])
  · cases o with
    | false => rw [h2 rfl]; simpa using h1
    | true => rw [h1]; simp

/-- Refilling an empty buffer: the buffer now holds the next line. -/
theorem refill_ok {e g io A L F G FG bo} (ho : OrdOk e.ord) (r : RG e g io A L F G FG bo) {d : Nat}
    {tail : List Nat} (hd : A.input d = some tail) (hg : g = true → d ≠ 0) (hp : Plain tail)
    (hch : io.chan d = .rd tail) :
    ∃ io1 G' FG' o' line r', refill e io d = .ok io1 ∧ tail = line ++ r' ∧
      (line = [] → r' = []) ∧ (∀ b, io.cursor d = some b → io1.cursor d = some b) ∧
      io1.buffer d = some o'.base ∧ (line.length : Int) < o'.size ∧ io1.chan d = .rd r' ∧
      ValsAt io1.h o'.base (line.map Int.ofNat) ∧ (∀ q ∈ G, q ≠ bo d → Kept io.h io1.h q) ∧
      -- what does not change
      (line = [] → o' = bo d ∧ Inv e.c io1.h G FG ∧ ∀ x, x ≠ o'.base → io1.h.cell x = io.h.cell x) ∧
      (∀ (cur : Nat → Option Int) s', (∀ d', d' ≠ d → cur d' = io1.cursor d') →
        Data { io1 with cursor := cur } o' d s' →
        RG e g { io1 with cursor := cur } { A with input := upd A.input d (some s') } L F G' FG' (upd bo d o')) := by
  have hb := r.input_buffered hd
  obtain ⟨b1, b2, b3, b4, b5, b6⟩ := r.bmem d hb
  obtain ⟨l, o, rest, hl⟩ : ∃ l, ∃ o : Bool, ∃ rest, readLine tail = (l, o, rest) := ⟨_, _, _, rfl⟩
  obtain ⟨lp, -, hsplit⟩ := line_plain hl hp
  have hhp := e.c.h_pos
  unfold refill
  simp only [b5, expand_some, Res.bind_ok, hch, hl, b6]
  have hempty : (l ++ (if !o then [] else [10])) = [] → rest = [] := by
    cases o with
    | true => simp
    | false => intro _; exact (readLine_spec _ _ _ _ hl).2 rfl
  have hlen : (l ++ (if !o then [] else [10])).length ≤ l.length + 1 := by
    cases o <;> simp
  by_cases hlong : (l.length : Int) > (bo d).size - 2
  · rw [if_pos hlong]
    obtain ⟨h1, e1, I1, al1, vr1, fr1, -⟩ := free_inv (d := .var dummyVar) r.inv b1 rfl b4 trivial
    have gm := got_malloc e.c h1 (.var bufferVar) (l.length * 2) (by simp)
    have I2 := I1.got gm (by omega) trivial
    have hdst := gm.dst
    simp only [S.get] at hdst
    rw [e1]
    simp only [Res.bind_ok, hdst, expand_some]
    rw [unpackLine_eq e ho _ _ _ _ lp]
    have hgm := gm.alloc
    have hw := ShHeap.Inv.writeIn (o := ⟨h1.alloc + e.c.h, l.length * 2⟩)
      (m := writeAll (malloc e.c h1 (.var bufferVar) (l.length * 2)).cell (h1.alloc + e.c.h)
        ((l ++ (if !o then [] else [10])).map Int.ofNat ++ [0])) I2 List.mem_cons_self (by
        intro x hx
        refine writeAll_out _ _ _ _ ?_
        simp only [Obj.has] at hx
        simp only [List.length_append, List.length_map] at *
        simp only [List.length_cons, List.length_nil]
        omega)
    have hnew : ∀ q ∈ G, 0 < q.size → (⟨h1.alloc + e.c.h, l.length * 2⟩ : Obj) ≠ q := by
      intro q hq _ heq
      have := r.inv.hi q hq
      have h2 := congrArg Obj.base heq
      simp only at h2
      omega
    have hkept : ∀ q ∈ G, q ≠ bo d → Kept io.h { (malloc e.c h1 (.var bufferVar) (l.length * 2)) with cell := writeAll (malloc e.c h1 (.var bufferVar) (l.length * 2)).cell (h1.alloc + e.c.h) ((l ++ (if !o then [] else [10])).map Int.ofNat ++ [0]) } q := by
      intro q hq hne x hx
      have h3 := hw.2 q (List.mem_cons_of_mem _ hq) (by
        intro h
        have := r.inv.hi q hq
        have h4 := congrArg Obj.base h
        have := hx.1; have := hx.2
        simp only at h4
        omega) x hx
      simp only at h3 ⊢
      rw [h3, gm.frame x (by have := r.inv.has_lt hq hx; omega) (by simp)]
      exact fr1 q hq hne x hx (by simp)
    refine ⟨_, ⟨h1.alloc + e.c.h, l.length * 2⟩ :: G, (bo d).base :: FG,
      ⟨h1.alloc + e.c.h, l.length * 2⟩, l ++ (if !o then [] else [10]), rest, rfl, hsplit, hempty,
      fun _ h => h, by simp [upd], by simp only; omega, by simp [upd],
      writeAll_vals _ _ _ _, ?_, ?_, ?_⟩
    · exact hkept
    · intro he
      have : l = [] := (List.append_eq_nil_iff.mp he).1
      rw [this] at hlong
      simp at hlong
      omega
    · intro cur s' hcur D
      refine r.reader hd hg hw.1 ?_ ?_ ?_ List.mem_cons_self ?_ (by simp only; omega) ?_ (by simp [upd]) (by simp [upd]) ?_ ?_ ?_ rfl ?_ D
      · intro q hq; exact List.mem_cons_of_mem _ hq
      · intro p hp
        rcases List.mem_cons.mp hp with rfl | hp
        · exact ⟨bo d, List.mem_cons_of_mem _ b1, rfl⟩
        · obtain ⟨q, hq, h⟩ := r.fG p hp
          exact ⟨q, List.mem_cons_of_mem _ hq, h⟩
      · intro hc q hq hne hF hm
        rcases List.mem_cons.mp hm with h | h
        · exact ShHeap.Inv.base_ne r.inv hc hq b1 hne h
        · exact hF h
      · intro hm
        have := r.inv.hi _ (r.sub _ hm)
        simp only at this
        omega
      · intro hc hm
        have h1' := Cfg.h_hdr hc
        simp only at hm
        rcases List.mem_cons.mp hm with h | h
        · have := r.inv.hi _ b1
          omega
        · obtain ⟨q, hq, hb⟩ := r.fG _ h
          have := r.inv.hi q hq
          have := r.inv.size q hq
          omega
      · intro q hq _ hs; exact hnew q hq hs
      · exact hkept
      · intro d' hd'
        simp only [upd_other _ _ hd']
        exact ⟨trivial, trivial, by rw [hcur d' hd'], trivial⟩
      · intro hgt
        simp [r.short hgt]
  · rw [if_neg hlong]
    rw [unpackLine_eq e ho _ _ _ _ lp]
    have hw := ShHeap.Inv.writeIn (o := bo d)
      (m := writeAll io.h.cell (bo d).base
        ((l ++ (if !o then [] else [10])).map Int.ofNat ++ [0])) r.inv b1 (by
        intro x hx
        refine writeAll_out _ _ _ _ ?_
        simp only [Obj.has] at hx
        simp only [List.length_append, List.length_map] at *
        simp only [List.length_cons, List.length_nil]
        omega)
    refine ⟨_, G, FG, bo d, l ++ (if !o then [] else [10]), rest, rfl, hsplit, hempty,
      fun _ h => h, b5, by omega, by simp [upd],
      writeAll_vals _ _ _ _, ?_, ?_, ?_⟩
    · intro q hq hne; exact hw.2 q hq hne
    · intro he
      refine ⟨rfl, hw.1, ?_⟩
      intro x hx
      simp only [he]
      exact updI_other _ _ hx
    · intro cur s' hcur D
      refine r.reader hd hg hw.1 (fun _ h => h) r.fG (fun _ _ _ _ h => h) b1 b2 b3 b4 b5 b6 ?_ ?_ ?_ rfl ?_ D
      · intro q hq hne _; exact Ne.symm hne
      · intro q hq hne; exact hw.2 q hq hne
      · intro d' hd'
        simp only [upd_other _ _ hd']
        exact ⟨trivial, trivial, by rw [hcur d' hd'], trivial⟩
      · intro hgt
        simp [r.short hgt]

theorem readByte_ok {e g io A L F} (ho : OrdOk e.ord) (r : R e g io A L F) {d : Nat} {s : List Nat}
    (hd : A.input d = some s) (hg : g = true → d ≠ 0) :
    ∃ io' v s', readByte e io d = .ok (io', v) ∧ Pop s v s' ∧
      R e g io' { A with input := upd A.input d (some s') } L F ∧ ∀ o ∈ L, Kept io.h io'.h o := by
  obtain ⟨G, FG, bo, r⟩ := r
  have hb := r.input_buffered hd
  obtain ⟨b1, b2, b3, b4, b5, b6⟩ := r.bmem d hb
  obtain ⟨hp, cur, rest, tail, c1, c2, c3, c4, c5, c6⟩ := r.data d s hd hg
  unfold readByte
  simp only [b5, c1, expand_some, Res.bind_ok]
  cases rest with
  | cons b t =>
    have hv : io.h.cell ((bo d).base + cur) = some (b : Int) := by
      have := c3.1 0 (by simp)
      simpa using this
    have hbp := hp b (by rw [c6]; simp)
    rw [hv]
    simp only [expand_some, Res.bind_ok]
    rw [if_neg (by omega)]
    refine ⟨_, _, t ++ tail, rfl, by rw [c6]; exact ⟨rfl, rfl⟩, ⟨G, FG, upd bo d (bo d), ?_⟩, fun _ _ _ _ => rfl⟩
    refine r.reader hd hg r.inv (fun _ h => h) r.fG (fun _ _ _ _ h => h) b1 b2 b3 b4 b5 b6 ?_ ?_ ?_ rfl (fun _ => rfl) ?_
    · intro q hq hne _; exact Ne.symm hne
    · intro q hq hne x hx; rfl
    · intro d' hd'
      simp only [upd_other _ _ hd']
      exact ⟨trivial, trivial, trivial, trivial⟩
    · refine ⟨?_, cur + 1, t, tail, by simp [upd], by omega, ⟨?_, ?_⟩, ?_, c5, rfl⟩
      · intro x hx; exact hp x (by rw [c6]; simp only [List.cons_append]; exact List.mem_cons_of_mem _ hx)
      · intro i hi
        have := c3.1 (i + 1) (by simpa using hi)
        simp only
        rw [show (bo d).base + (cur + 1) + (i : Int) = (bo d).base + cur + ((i + 1 : Nat) : Int) by omega, this]
        simp
      · have := c3.2
        simp only [List.length_map, List.length_cons] at this ⊢
        rw [← this]; congr 1; omega
      · simp at c4; omega
  | nil =>
    have hv : io.h.cell ((bo d).base + cur) = some 0 := by
      have := c3.2
      simpa using this
    rw [hv]
    simp only [expand_some, Res.bind_ok, if_true]
    simp only [List.nil_append] at c6
    subst c6
    obtain ⟨io1, G', FG', o', line, r', e1, hsp, hem, hcur, hbuf, hlen, hch, hval, hkept, hsame, hR⟩ :=
      refill_ok ho r hd hg hp c5
    rw [e1]
    have hkL : ∀ o ∈ L, Kept io.h io1.h o := fun o hoL => hkept o (r.sub o hoL) (fun h => b2 (h ▸ hoL))
    simp only [Res.bind_ok, hbuf, expand_some, Int.add_zero]
    cases line with
    | nil =>
      have hr' := hem rfl
      subst hr'
      have h0 : io1.h.cell o'.base = some 0 := by have := hval.2; simpa using this
      rw [h0]
      simp only [expand_some, Res.bind_ok, if_true]
      refine ⟨_, _, [], rfl, by rw [hsp]; exact ⟨rfl, rfl⟩, ⟨G', FG', upd bo d o', ?_⟩, hkL⟩
      refine hR io1.cursor [] (fun _ _ => rfl) ?_
      obtain ⟨ho', -, hcells⟩ := hsame rfl
      refine ⟨fun x hx => absurd hx (by simp), ⟨cur, [], [], hcur _ c1, c2, ⟨by simp, ?_⟩, ?_, hch, rfl⟩⟩
      · simp only [List.map_nil, List.length_nil]
        by_cases hz : cur = 0
        · subst hz; simpa using h0
        · have := hcells (o'.base + cur) (by omega)
          rw [show o'.base + cur + ((0 : Nat) : Int) = o'.base + cur by omega, this, ho']
          exact hv
      · rw [ho']; simpa using c4
    | cons b t =>
      have h0 : io1.h.cell o'.base = some (b : Int) := by
        have := hval.1 0 (by simp); simpa using this
      have hbp := hp b (by rw [hsp]; simp)
      rw [h0]
      simp only [expand_some, Res.bind_ok]
      rw [if_neg (by omega)]
      refine ⟨_, _, t ++ r', rfl, by rw [hsp]; exact ⟨rfl, rfl⟩, ⟨G', FG', upd bo d o', ?_⟩, hkL⟩
      refine hR (upd io1.cursor d (some (0 + 1))) (t ++ r') (fun d' hd' => upd_other _ _ hd') ?_
      refine ⟨?_, 1, t, r', by simp [upd], by omega, ⟨?_, ?_⟩, ?_, hch, rfl⟩
      · intro x hx; exact hp x (by rw [hsp]; simp only [List.cons_append]; exact List.mem_cons_of_mem _ hx)
      · intro i hi
        have := hval.1 (i + 1) (by simpa using hi)
        simp only
        rw [show o'.base + 1 + (i : Int) = o'.base + ((i + 1 : Nat) : Int) by omega, this]
        simp
      · have := hval.2
        simp only [List.length_map, List.length_cons] at this ⊢
        rw [← this]; congr 1; omega
      · simp at hlen; omega

/-! ### `getchar`, output -/

theorem getchar_ok {e g io A L F} (ho : OrdOk e.ord) (r : R e g io A L F) (hg : g = true) :
    ∃ io' v s', getchar e io = .ok (io', v) ∧ Pop A.stdin v s' ∧
      R e g io' { A with stdin := s' } L F ∧ io'.h = io.h := by
  obtain ⟨G, FG, bo, r⟩ := r
  obtain ⟨hu, hp, tail, hc, hG⟩ := r.get hg
  obtain ⟨g', tail', v, s', h1, h2, h3⟩ := getcharShort_ok ho hp hG
  unfold getchar
  simp only [hc, r.short hg]
  refine ⟨{ io with gc := g', chan := upd io.chan 0 (.rd tail') }, v, s', by simp [h1], h2, ⟨G, FG, bo, ?_⟩, rfl⟩
  refine ⟨r.inv, r.sub, r.fG, r.live, r.bmem, r.binj, r.st, r.lt, r.out1, r.out2, r.excl, r.files, r.finj, ?_, ?_, ?_, r.short⟩
  · intro d s hd hgd
    exact (r.data d s hd hgd).kept (fun _ _ => rfl) rfl (upd_other _ _ (hgd hg))
  · intro d o hd
    have := r.outs d o hd
    have hd0 : d ≠ 0 := by
      rintro rfl
      rw [hc] at this; cases this
    simp only [upd_other _ _ hd0]
    exact this
  · intro _
    exact ⟨hu, h2.plain hp, tail', by simp [upd], h3⟩

theorem R.output {e g io A L F} (r : R e g io A L F) {d : Nat} {out new : List Nat}
    (h : A.output d = some out) :
    R e g { io with chan := upd io.chan d (.wr (out ++ new)) }
      { A with output := upd A.output d (some (out ++ new)) } L F := by
  obtain ⟨G, FG, bo, r⟩ := r
  refine ⟨G, FG, bo, ?_⟩
  have hused : ∀ x, ({ A with output := upd A.output d (some (out ++ new)) } : Abs).used x ↔ A.used x := by
    intro x
    unfold Abs.used
    by_cases hx : x = d
    · subst hx; simp [upd, h]
    · simp [upd, hx]
  have hbuf' : ∀ x, ({ A with output := upd A.output d (some (out ++ new)) } : Abs).buffered x ↔ A.buffered x := by
    intro x; unfold Abs.buffered; rw [hused]
  have hne : ∀ x, A.input x ≠ none → x ≠ d := by
    rintro x hx rfl
    rw [r.excl x hx] at h; cases h
  refine ⟨r.inv, r.sub, r.fG, r.live, fun x hx => r.bmem x ((hbuf' x).mp hx),
    fun x y hx hy => r.binj x y ((hbuf' x).mp hx) ((hbuf' y).mp hy), fun x => by rw [hused]; exact r.st x,
    fun x hx => r.lt x ((hused x).mp hx), ?_, ?_, ?_, ?_, r.finj, ?_, ?_, ?_, r.short⟩
  · by_cases hx : d = 1
    · subst hx; simp [upd]
    · simp only [upd_other _ _ (Ne.symm hx)]; exact r.out1
  · by_cases hx : d = 2
    · subst hx; simp [upd]
    · simp only [upd_other _ _ (Ne.symm hx)]; exact r.out2
  · intro x hx
    simp only [upd_other _ _ (hne x hx)]
    exact r.excl x hx
  · intro f x hf
    obtain ⟨h1, h2, h3, h4, h5, h6⟩ := r.files f x hf
    exact ⟨h1, h2, h3, h4, (hbuf' x).mpr h5, h6⟩
  · intro x s hx hgx
    exact (r.data x s hx hgx).kept (fun _ _ => rfl) rfl (upd_other _ _ (hne x (by rw [hx]; simp)))
  · intro x o hx
    by_cases hxd : x = d
    · subst hxd
      simp only [upd_same] at hx ⊢
      cases hx; rfl
    · simp only [upd_other _ _ hxd] at hx ⊢
      exact r.outs x o hx
  · intro hg
    obtain ⟨h1, h2, tail, h3, h4⟩ := r.get hg
    refine ⟨(hused 0).mpr h1, h2, tail, ?_, h4⟩
    have : (0 : Nat) ≠ d := by
      rintro rfl
      have := r.outs 0 out h
      rw [h3] at this; cases this
    simp only [upd_other _ _ this]
    exact h3

theorem putchar_ok {e g io A L F} (r : R e g io A L F) {c : Int} (h0 : 0 ≤ c) (h1 : c < 256) {out}
    (h : A.output 1 = some out) :
    ∃ io' v, putchar printfOut io c = .ok (io', v) ∧
      R e g io' { A with output := upd A.output 1 (some (out ++ [c.toNat])) } L F ∧ io'.h = io.h := by
  have r' := r
  obtain ⟨G, FG, bo, rr⟩ := r'
  unfold putchar
  rw [rr.outs 1 out h, octal_ok h0 h1]
  exact ⟨_, _, rfl, r.output h, rfl⟩

theorem writeLoop_ok (strict : Bool) (cell : Int → Option Int) : ∀ (n : Nat) (a : Int),
    (∀ i : Nat, i < n → ∃ b : Nat, b < 256 ∧ cell (a + i) = some (b : Int)) →
    ∃ bytes : List Nat, bytes.length = n ∧ (∀ b ∈ bytes, b < 256) ∧
      (∀ i (h : i < bytes.length), cell (a + i) = some (bytes[i] : Int)) ∧
      writeLoop strict cell n a = .ok (bytes.map fun b : Nat => octalWord (b : Int)) := by
  intro n
  induction n with
  | zero => intro a _; exact ⟨[], rfl, by simp, by simp, rfl⟩
  | succ n ih =>
    intro a h
    obtain ⟨b, hb, hv⟩ := h 0 (by omega)
    obtain ⟨bs, h1, h2, h3, h4⟩ := ih (a + 1) (by
      intro i hi
      obtain ⟨b, hb, hv⟩ := h (i + 1) (by omega)
      exact ⟨b, hb, by rw [← hv]; congr 1; omega⟩)
    refine ⟨b :: bs, by simp [h1], ?_, ?_, ?_⟩
    · intro x hx
      rcases List.mem_cons.mp hx with rfl | hx
      · exact hb
      · exact h2 x hx
    · intro i hi
      cases i with
      | zero => simpa using hv
      | succ i =>
        have := h3 i (by simpa using hi)
        simp only [List.getElem_cons_succ]
        rw [← this]; congr 1; omega
    · have hv' : cell a = some (b : Int) := by simpa using hv
      simp only [writeLoop, hv', expand_some, Res.bind_ok, h4]
      simp

theorem mapM_octal : ∀ (bs : List Nat), (∀ b ∈ bs, b < 256) →
    (bs.map fun b : Nat => octalWord (b : Int)).mapM printfOut = some (bs.map fun b : Nat => [b]) := by
  intro bs
  induction bs with
  | nil => intro _; rfl
  | cons b bs ih =>
    intro h
    have h1 := octal_ok (c := (b : Int)) (by omega) (by have := h b (by simp); omega)
    rw [List.map_cons, List.mapM_cons, h1, ih (fun x hx => h x (List.mem_cons_of_mem _ hx))]
    simp

theorem flatten_single (bs : List Nat) : (bs.map fun b : Nat => [b]).flatten = bs := by
  induction bs with
  | nil => rfl
  | cons b bs ih => simp [ih]

theorem write_ok {e g io A L F} (r : R e g io A L F) {d : Nat} {buf : Int} {n : Nat} {out}
    (h : A.output d = some out)
    (hm : ∀ i : Nat, i < n → ∃ b : Nat, b < 256 ∧ io.h.cell (buf + i) = some (b : Int)) :
    ∃ io', ∃ bytes : List Nat, write e printfOut io d buf n = .ok (io', n) ∧ bytes.length = n ∧
      (∀ i (h : i < bytes.length), io.h.cell (buf + i) = some (bytes[i] : Int)) ∧
      R e g io' { A with output := upd A.output d (some (out ++ bytes)) } L F ∧ io'.h = io.h := by
  obtain ⟨bytes, h1, h2, h3, h4⟩ := writeLoop_ok e.c.strict io.h.cell n buf hm
  have r' := r
  obtain ⟨G, FG, bo, rr⟩ := r'
  unfold write
  rw [h4]
  simp only [Res.bind_ok]
  rw [rr.outs d out h, mapM_octal bytes h2]
  simp only [flatten_single]
  exact ⟨_, bytes, rfl, h1, h3, r.output h, rfl⟩

/-! ### Opening and closing -/

theorem findFd_spec (state : Nat → Int) : ∀ (n fd : Nat), fd + n = 11 →
    (∃ d, fd ≤ d ∧ d < 10 ∧ state d < 0) → findFd state n fd < 10 ∧ state (findFd state n fd) < 0 ∧
      ∀ x, fd ≤ x → x < findFd state n fd → ¬ state x < 0 := by
  intro n
  induction n with
  | zero => intro fd h ⟨d, h1, h2, h3⟩; omega
  | succ n ih =>
    intro fd h ⟨d, h1, h2, h3⟩
    simp only [findFd]
    rw [if_pos (by omega)]
    split
    · rename_i hs; exact ⟨by omega, hs, fun x h1 h2 => by omega⟩
    · rename_i hs
      have := ih (fd + 1) (by omega) ⟨d, by
        rcases Nat.lt_or_ge fd d with h | h
        · omega
        · have : d = fd := by omega
          subst this; exact absurd h3 hs, h2, h3⟩
      refine ⟨this.1, this.2.1, fun x h1 h2 => ?_⟩
      by_cases hx : x = fd
      · subst hx; exact hs
      · exact this.2.2 x (by omega) h2

theorem openFile_ok {e g io A L F fs} (r : R e g io A L F) {name : List Nat} {flags : Int}
    (hfs : flags = 0 → fs name ≠ none) (hpl : ∀ bytes, fs name = some bytes → Plain bytes)
    (hfl : flags = 0 ∨ flags = 1 ∨ flags = 2)
    (hav : ∃ d, d < 10 ∧ ¬ A.used d) :
    ∃ io' d A', openFile e fs io name flags = .ok (io', ((d : Nat) : Int)) ∧ Opens fs A name flags d A' ∧
      R e g io' A' L F ∧ A'.file = A.file ∧ A'.buffered d ∧ (g = true → d ≠ 0) ∧ ¬ A.used d ∧
      ∀ o ∈ L, Kept io.h io'.h o := by
  obtain ⟨G, FG, bo, r⟩ := r
  have hfd := findFd_spec io.state 11 0 (by omega) (by
    obtain ⟨d, h1, h2⟩ := hav
    exact ⟨d, by omega, h1, (r.st d).mpr h2⟩)
  obtain ⟨d, hd⟩ : ∃ d, d = findFd io.state 11 0 := ⟨_, rfl⟩
  rw [← hd] at hfd
  have hnu : ¬ A.used d := (r.st d).mp hfd.2.1
  have hlow : ∀ x, x < d → A.used x := by
    intro x hx
    have h1 := hfd.2.2 x (by omega) hx
    exact Classical.byContradiction fun h => h1 ((r.st x).mpr h)
  have hin : A.input d = none := by
    by_cases h : A.input d = none
    · exact h
    · exact absurd (.inl h) hnu
  have hon : A.output d = none := by
    by_cases h : A.output d = none
    · exact h
    · exact absurd (.inr h) hnu
  have hd1 : d ≠ 1 := by rintro rfl; exact r.out1 hon
  have hd2 : d ≠ 2 := by rintro rfl; exact r.out2 hon
  have hd0 : g = true → d ≠ 0 := by
    rintro hg rfl
    exact hnu (r.get hg).1
  have gm := got_malloc e.c io.h (.var addrVar) 1000 (by simp)
  have I1 := r.inv.got gm (by omega) trivial
  have hdst := gm.dst
  simp only [S.get] at hdst
  have hhp := e.c.h_pos
  have hw := ShHeap.Inv.writeIn (o := ⟨io.h.alloc + e.c.h, 1000⟩)
    (m := updI (malloc e.c io.h (.var addrVar) 1000).cell (io.h.alloc + e.c.h) (some 0)) I1 List.mem_cons_self (by
      intro x hx
      refine updI_other _ _ ?_
      simp only [Obj.has] at hx
      omega)
  have hK : ∀ q ∈ G, Kept io.h { (malloc e.c io.h (.var addrVar) 1000) with cell := updI (malloc e.c io.h (.var addrVar) 1000).cell (io.h.alloc + e.c.h) (some 0) } q := by
    intro q hq x hx
    have := r.inv.has_lt hq hx
    simp only
    rw [updI_other _ _ (by omega), gm.frame x this (by simp)]
  have hnew : ∀ q ∈ G, 0 < q.size → (⟨io.h.alloc + e.c.h, 1000⟩ : Obj) ≠ q := by
    intro q hq _ heq
    have := r.inv.hi q hq
    have h2 := congrArg Obj.base heq
    simp only at h2
    omega
  -- the common part
  have main : ∀ (ch : Chan) (A' : Abs), A'.file = A.file → A'.stdin = A.stdin →
      (∀ x, A'.used x ↔ (A.used x ∨ x = d)) → (∀ x, x ≠ d → A'.input x = A.input x ∧ A'.output x = A.output x) →
      (A'.input d ≠ none → A'.output d = none) →
      (∀ s, A'.input d = some s → Plain s ∧ ch = .rd s) →
      (∀ o, A'.output d = some o → ch = .wr o) →
      R e g { io with
        h := { (malloc e.c io.h (.var addrVar) 1000) with cell := updI (malloc e.c io.h (.var addrVar) 1000).cell (io.h.alloc + e.c.h) (some 0) },
        buffer := upd io.buffer d (some (io.h.alloc + e.c.h)),
        cursor := upd io.cursor d (some 0),
        buflen := upd io.buflen d (some 1000),
        state := upd io.state d flags,
        chan := upd io.chan d ch } A' L F := by
    intro ch A' hfile hstd hused hio hex hrd hwr
    refine ⟨⟨io.h.alloc + e.c.h, 1000⟩ :: G, FG, upd bo d ⟨io.h.alloc + e.c.h, 1000⟩, ?_⟩
    have hbuf' : ∀ x, x ≠ d → A'.buffered x → A.buffered x := by
      intro x hx ⟨h1, h2⟩
      refine ⟨?_, h2⟩
      rcases (hused x).mp h1 with h | h
      · exact h
      · exact absurd h hx
    have hbA : ∀ x, A.buffered x → A'.buffered x := fun x hx => ⟨(hused x).mpr (.inl hx.1), hx.2⟩
    refine ⟨hw.1, fun o ho => List.mem_cons_of_mem _ (r.sub o ho), ?_, r.live, ?_, ?_, ?_, ?_, ?_, ?_, ?_, ?_, ?_, ?_, ?_, ?_, r.short⟩
    · intro p hp
      obtain ⟨o, ho, hb⟩ := r.fG p hp
      exact ⟨o, List.mem_cons_of_mem _ ho, hb⟩
    · intro x hx
      by_cases hxd : x = d
      · subst hxd
        simp only [upd_same]
        refine ⟨List.mem_cons_self, ?_, by omega, ?_, trivial, trivial⟩
        · intro hm
          exact hnew _ (r.sub _ hm) (by simp) rfl
        · intro hc hm
          have h1' := Cfg.h_hdr hc
          obtain ⟨q, hq, hb⟩ := r.fG _ hm
          have := r.inv.hi q hq
          have := r.inv.size q hq
          omega
      · simp only [upd_other _ _ hxd]
        obtain ⟨h1, h2, h3, h4, h5, h6⟩ := r.bmem x (hbuf' x hxd hx)
        exact ⟨List.mem_cons_of_mem _ h1, h2, h3, h4, h5, h6⟩
    · intro x y hx hy hxy
      by_cases hxd : x = d
      · subst hxd
        rw [upd_same, upd_other _ _ (Ne.symm hxy)]
        have hb := r.bmem y (hbuf' y (Ne.symm hxy) hy)
        exact hnew _ hb.1 (by omega)
      · rw [upd_other _ _ hxd]
        have hbx := r.bmem x (hbuf' x hxd hx)
        by_cases hyd : y = d
        · subst hyd
          rw [upd_same]
          exact Ne.symm (hnew _ hbx.1 (by omega))
        · rw [upd_other _ _ hyd]
          exact r.binj x y (hbuf' x hxd hx) (hbuf' y hyd hy) hxy
    · intro x
      rw [hused]
      by_cases hxd : x = d
      · subst hxd
        simp only [upd_same]
        constructor
        · intro h; omega
        · intro h; exact absurd (Or.inr trivial) h
      · simp only [upd_other _ _ hxd, hxd, or_false]
        exact r.st x
    · intro x hx
      rcases (hused x).mp hx with h | h
      · exact r.lt x h
      · rw [h]; exact hfd.1
    · rw [(hio 1 (Ne.symm hd1)).2]; exact r.out1
    · rw [(hio 2 (Ne.symm hd2)).2]; exact r.out2
    · intro x hx
      by_cases hxd : x = d
      · subst hxd; exact hex hx
      · rw [(hio x hxd).1] at hx
        rw [(hio x hxd).2]; exact r.excl x hx
    · intro f x hf
      rw [hfile] at hf
      obtain ⟨h1, h2, h3, h4, h5, h6⟩ := r.files f x hf
      refine ⟨List.mem_cons_of_mem _ h1, h2, h3, ?_, hbA x h5, h6⟩
      rw [← h4]
      exact hK _ h1 f ⟨by simp, by simp only; omega⟩
    · intro f f' x; rw [hfile]; exact r.finj f f' x
    · intro x s hx hgx
      by_cases hxd : x = d
      · subst hxd
        obtain ⟨hp, hc⟩ := hrd s hx
        subst hc
        simp only [upd_same]
        refine ⟨hp, 0, [], s, by simp [upd], by omega, ⟨by simp, ?_⟩, by simp, by simp [upd], rfl⟩
        simp [updI]
      · rw [(hio x hxd).1] at hx
        simp only [upd_other _ _ hxd]
        have hb := r.bmem x (r.input_buffered hx)
        exact (r.data x s hx hgx).kept (hK _ hb.1) (upd_other _ _ hxd) (upd_other _ _ hxd)
    · intro x o hx
      by_cases hxd : x = d
      · subst hxd
        simp only [upd_same]
        exact hwr o hx
      · rw [(hio x hxd).2] at hx
        simp only [upd_other _ _ hxd]
        exact r.outs x o hx
    · intro hg
      obtain ⟨h1, h2, tail, h3, h4⟩ := r.get hg
      refine ⟨(hused 0).mpr (.inl h1), by rw [hstd]; exact h2, tail, ?_, by rw [hstd]; exact h4⟩
      simp only [upd_other _ _ (Ne.symm (hd0 hg))]
      exact h3
  unfold openFile
  simp only [← hd]
  rw [if_neg (by omega)]
  simp only [hdst, expand_some, Res.bind_ok]
  by_cases hf0 : flags = 0
  · rw [if_pos hf0]
    cases hfsn : fs name with
    | none => exact absurd hfsn (hfs hf0)
    | some bytes =>
      refine ⟨_, d, { A with input := upd A.input d (some bytes) }, rfl, ?_, ?_, rfl, ?_, hd0, hnu, fun o ho => hK o (r.sub o ho)⟩
      · exact ⟨hfd.1, hnu, hlow, .inl ⟨hf0, bytes, hfsn, rfl⟩⟩
      · refine main _ _ rfl rfl ?_ ?_ ?_ ?_ ?_
        · intro x
          unfold Abs.used
          by_cases hx : x = d
          · subst hx; simp [upd]
          · simp [upd, hx]
        · intro x hx; simp only [upd_other _ _ hx]; exact ⟨trivial, trivial⟩
        · intro _; exact hon
        · intro s hs
          simp only [upd_same] at hs
          cases hs
          exact ⟨hpl bytes hfsn, rfl⟩
        · intro o ho
          simp only at ho
          rw [hon] at ho; cases ho
      · exact ⟨.inl (by simp [upd]), hd1, hd2⟩
  · rw [if_neg hf0, if_pos (by omega)]
    refine ⟨_, d, { A with output := upd A.output d (some []) }, rfl, ?_, ?_, rfl, ?_, hd0, hnu, fun o ho => hK o (r.sub o ho)⟩
    · exact ⟨hfd.1, hnu, hlow, .inr ⟨hf0, rfl⟩⟩
    · refine main _ _ rfl rfl ?_ ?_ ?_ ?_ ?_
      · intro x
        unfold Abs.used
        by_cases hx : x = d
        · subst hx; simp [upd]
        · simp [upd, hx]
      · intro x hx; simp only [upd_other _ _ hx]; exact ⟨trivial, trivial⟩
      · intro h; exact absurd hin h
      · intro s hs
        simp only at hs
        rw [hin] at hs; cases hs
      · intro o ho
        simp only [upd_same] at ho
        cases ho; rfl
    · exact ⟨.inr (by simp [upd]), hd1, hd2⟩

end Verif.ShIO
