import Verif.ShGlob.Argv
/-! C46: running a well-formed script line by line. -/
namespace Verif.ShGlob
open Verif ShTop ShTop.Spec Spec
open Verif.ShHeap (Reach Obj Act StrAt)

/-- What a line leaves behind. -/
def LineVal (e : Env) (s : Sh) (L : List Obj) : Cmd → Prop
  | .assign n r => ∃ v, s.var e n = some v ∧ evalRv e s r = .ok v
  | .readonly n r => ∃ v, s.var e n = some v ∧ evalRv e s r = .ok v
  | .defarr n len args => ∃ b vs, s.var e n = some b ∧ ⟨b, len⟩ ∈ L ∧ b + len ≤ s.mem.alloc ∧
      evalArgs e s args = .ok vs ∧ Block s.mem b len vs
  | .defstr n t size => ∃ (b : Int) (sz : Nat), s.var e n = some b ∧ 0 < b ∧ ⟨b, sz⟩ ∈ L ∧ b + sz ≤ s.mem.alloc ∧
      t.length < sz ∧ (∀ k, size = some k → sz = k) ∧
      (∀ i (h : i < t.length), s.mem.cell (b + i) = some (t[i] : Int)) ∧
      (∀ i : Nat, t.length ≤ i → i < sz → s.mem.cell (b + i) = some 0)
  | .argv => ArgsB e s
  | _ => True

/-- `n` holds the address of a block of at least `k` cells of its own. -/
def Own (l : List Cmd) (n : Nm) (k : Nat) : Prop :=
  (∃ args, Cmd.defarr n k args ∈ l) ∨ (∃ t, Cmd.defstr n t (some k) ∈ l) ∨
    ∃ t, Cmd.defstr n t none ∈ l ∧ k = t.length + 1

theorem Own.left {l m : List Cmd} {n k} (h : Own l n k) : Own (l ++ m) n k := by
  rcases h with ⟨a, h⟩ | ⟨t, h⟩ | ⟨t, h, h'⟩
  · exact .inl ⟨a, List.mem_append_left _ h⟩
  · exact .inr (.inl ⟨t, List.mem_append_left _ h⟩)
  · exact .inr (.inr ⟨t, List.mem_append_left _ h, h'⟩)

theorem Own.cases {l m : List Cmd} {n k} (h : Own (l ++ m) n k) : Own l n k ∨ Own m n k := by
  rcases h with ⟨a, h⟩ | ⟨t, h⟩ | ⟨t, h, h'⟩
  · rcases List.mem_append.mp h with h | h
    · exact .inl (.inl ⟨a, h⟩)
    · exact .inr (.inl ⟨a, h⟩)
  · rcases List.mem_append.mp h with h | h
    · exact .inl (.inr (.inl ⟨t, h⟩))
    · exact .inr (.inr (.inl ⟨t, h⟩))
  · rcases List.mem_append.mp h with h | h
    · exact .inl (.inr (.inr ⟨t, h, h'⟩))
    · exact .inr (.inr (.inr ⟨t, h, h'⟩))

theorem Own.none {y : Cmd} (h1 : ∀ n k as, y ≠ .defarr n k as) (h2 : ∀ n t k, y ≠ .defstr n t k) {n k} : ¬ Own [y] n k := by
  rintro (⟨a, h⟩ | ⟨t, h⟩ | ⟨t, h, -⟩) <;> rw [List.mem_singleton] at h
  · exact h1 _ _ _ h.symm
  · exact h2 _ _ _ h.symm
  · exact h2 _ _ _ h.symm

/-- One line gives a block to one variable. -/
theorem Own.one {y : Cmd} {n m k j} (h : Own [y] n k) (h' : Own [y] m j) : n = m := by
  rcases h with ⟨a, h⟩ | ⟨t, h⟩ | ⟨t, h, -⟩ <;> rcases h' with ⟨a', h'⟩ | ⟨t', h'⟩ | ⟨t', h', -⟩ <;>
    rw [List.mem_singleton] at h h' <;> rw [← h] at h' <;> cases h' <;> rfl

/-- The state after the lines `pre`. -/
structure Good (e : Env) (pre : List Cmd) (s : Sh) (L : List Obj) : Prop where
  reach : Reach e.heap e.ord s.mem L []
  virgin : Nm.g idMalloc ∉ defNames pre → s.mem.alloc = 1
  fns : ∀ n ds, s.fns.lookup n = some ds → Cmd.defun n ds ∈ pre
  fnd : ∀ n ∈ defNames pre, (s.fns.lookup n).isSome
  ro : ∀ n ∈ s.ro, n ∈ ro pre
  set : ∀ n, n ≠ .rt .alloc → Met pre (.var n) → ∃ v, s.var e n = some v
  unset : ∀ n, ¬ Met pre (.var n) → s.var e n = none
  high : High s.mem
  vals : ∀ x ∈ pre, LineVal e s L x
  apart : ∀ n m i j b d, n ≠ m → Own pre n i → Own pre m j → s.var e n = some b → s.var e m = some d →
    b + i ≤ d ∨ d + j ≤ b

theorem good_start (e : Env) : Good e [] start [] := by
  refine ⟨.start, fun _ => rfl, by simp [start], by simp [defNames], by simp [start], ?_, fun _ _ => rfl,
    fun _ _ => .inr rfl, by simp, by simp [Own]⟩
  rintro n _ ⟨c, hc, _⟩
  simp at hc

/-- The parts of a step. -/
structure Did (e : Env) (pre : List Cmd) (s s' : Sh) (y : Cmd) (os : List Obj) : Prop where
  mem : MemStep e s.mem s'.mem os
  fns : s'.fns = (match y with | .defun n ds => (n, ds) :: s.fns | _ => s.fns)
  ro : ∀ n ∈ s'.ro, n ∈ s.ro ∨ ∃ r, y = .readonly n r
  keep : ∀ n, n ∉ sets y → s'.var e n = s.var e n
  str : ∀ k, Met pre (.var (.str k)) → s'.var e (.str k) = s.var e (.str k)
  put : ∀ n ∈ sets y, n ≠ .rt .alloc → ∃ v, s'.var e n = some v
  virgin : Nm.g idMalloc ∉ defNames pre → s'.mem.alloc = s.mem.alloc
  own : ∀ n k, Own [y] n k → Own pre n k ∨ ∀ b, s'.var e n = some b → s.mem.alloc ≤ b

theorem met_snoc {pre : List Cmd} {y : Cmd} {n : Nm} : Met (pre ++ [y]) (.var n) ↔ Met pre (.var n) ∨ n ∈ sets y := by
  constructor
  · rintro ⟨c, hc, hn⟩
    rcases List.mem_append.mp hc with hc | hc
    · exact .inl ⟨c, hc, hn⟩
    · rw [List.mem_singleton] at hc; subst hc; exact .inr hn
  · rintro (h | h)
    · exact h.left
    · exact ⟨y, by simp, h⟩

/-- Names that keep their value once set: global variables, strings, constants. -/
theorem settled {e : Env} {c I pre y post s s' os} (w : Wf c I (pre ++ y :: post)) (d : Did e pre s s' y os)
    {n : Nm} (hm : Met pre (.var n)) (hn : (∃ x, n = .g x) ∨ (∃ k, n = .str k) ∨ ∃ r, Cmd.readonly n r ∈ pre) :
    s'.var e n = s.var e n := by
  rcases hn with ⟨x, rfl⟩ | ⟨k, rfl⟩ | ⟨r, hr⟩
  · exact d.keep _ (gs_once w.gs hm)
  · exact d.str k hm
  · exact d.keep _ fun h => w.clash pre y post rfl n h r hr

theorem varOk_settled {I : List (Nat × List Nat)} {pre : List Cmd} {n : Nm} (h : VarOk I n) :
    (∃ x, n = .g x) ∨ (∃ k, n = .str k) ∨ ∃ r, Cmd.readonly n r ∈ pre := by
  rcases h with ⟨y, rfl⟩ | ⟨k, t, rfl, -⟩
  · exact .inl ⟨y, rfl⟩
  · exact .inr (.inl ⟨k, rfl⟩)

/-- What a line reads was set before it. -/
theorem reads_met {c I pre y post} (w : Wf c I (pre ++ y :: post)) {n : Nm} (h : Need.var n ∈ needs y) :
    Met pre (.var n) := w.complete pre y post rfl _ h _ (.refl _)

/-- Later lines do not undo what a line did. -/
theorem LineVal.keep {e : Env} {c I pre y post s s' os L L'} (w : Wf c I (pre ++ y :: post)) (d : Did e pre s s' y os)
    (g : Good e pre s L) (hL : ∀ o ∈ L, o ∈ L') {x : Cmd} (hx : x ∈ pre) : LineVal e s L x → y ≠ .argv ∨ x ≠ .argv → LineVal e s' L' x := by
  intro h hy
  obtain ⟨p1, p2, hp⟩ := List.append_of_mem hx
  have w' : Wf c I (p1 ++ x :: (p2 ++ y :: post)) := by rw [hp] at w; simpa using w
  have ok := w.line x (List.mem_append_left _ hx)
  have here : ∀ n ∈ sets x, Met pre (.var n) := fun n hn => ⟨x, hx, hn⟩
  have before : ∀ n, Need.var n ∈ needs x → Met pre (.var n) := fun n hn => by
    rw [hp]; exact (reads_met w' hn).left
  have fr : ∀ a, a < s.mem.alloc → s'.mem.cell a = s.mem.cell a := d.mem.frame
  have gr := d.mem.grow
  cases x with
  | assign n r =>
    obtain ⟨v, h1, h2⟩ := h
    obtain ⟨⟨x, rfl⟩, hv⟩ := ok
    refine ⟨v, by rw [settled w d (here _ (by simp [sets])) (.inl ⟨x, rfl⟩)]; exact h1, ?_⟩
    rw [evalRv_same fun m hm => settled w d (before m (by simpa [needs] using hm)) (varOk_settled (hv m hm))]
    exact h2
  | readonly n r =>
    obtain ⟨v, h1, h2⟩ := h
    obtain ⟨-, -, k, rfl⟩ := ok
    exact ⟨v, by rw [settled w d (here _ (by simp [sets])) (.inr (.inr ⟨_, hx⟩))]; exact h1, h2⟩
  | defarr n len args =>
    obtain ⟨b, vs, h1, h2, h3, h4, h5⟩ := h
    obtain ⟨⟨x, rfl⟩, hl, -, hv⟩ := ok
    refine ⟨b, vs, by rw [settled w d (here _ (by simp [sets])) (.inl ⟨x, rfl⟩)]; exact h1, hL _ h2, by omega, ?_, ?_⟩
    · rw [evalArgs_same fun a ha m hm => settled w d (before m ?_) (varOk_settled (hv a ha m hm))]
      · exact h4
      · refine List.mem_cons_of_mem _ (List.mem_map.mpr ⟨m, List.mem_flatMap.mpr ⟨a, ha, hm⟩, rfl⟩)
    · refine h5.same (by rw [evalArgs_length h4]; exact hl) fun i hi => fr _ (by omega)
  | defstr n t size =>
    obtain ⟨b, sz, h1, hb, h2, h3, h4, h5, h6, h7⟩ := h
    have hn : s'.var e n = s.var e n := by
      rcases ok.2 with ⟨x, k, rfl, -⟩ | ⟨k, rfl, -⟩
      · exact settled w d (here _ (by simp [sets])) (.inl ⟨x, rfl⟩)
      · exact settled w d (here _ (by simp [sets])) (.inr (.inl ⟨k, rfl⟩))
    refine ⟨b, sz, by rw [hn]; exact h1, hb, hL _ h2, by omega, h4, h5, fun i hi => ?_, fun i hi hi2 => ?_⟩
    · rw [fr _ (by omega)]; exact h6 i hi
    · rw [fr _ (by omega)]; exact h7 i hi hi2
  | argv =>
    have hy : y ≠ .argv := by simpa using hy
    have oky := w.line y (by simp)
    have k1 : ∀ m, m = .rt .argc_for_main ∨ m = .rt .argv_for_main → m ∉ sets y := by
      rintro m hm hs
      cases y with
      | argv => exact hy rfl
      | set n v =>
        simp only [sets, List.mem_singleton] at hs
        obtain ⟨h', rfl, a, b⟩ := oky
        rcases hm with rfl | rfl <;> cases hs <;> contradiction
      | zero ns =>
        rcases oky m hs with ⟨x, rfl⟩ | ⟨x, rfl⟩ <;> rcases hm with hm | hm <;> cases hm
      | assign n r =>
        simp only [sets, List.mem_singleton] at hs
        obtain ⟨⟨x, rfl⟩, -⟩ := oky
        subst hs
        rcases hm with hm | hm <;> cases hm
      | readonly n r =>
        simp only [sets, List.mem_singleton] at hs
        subst hs
        rcases hm with rfl | rfl <;> exact absurd rfl (oky.1 _)
      | malloc n sz =>
        simp only [sets, List.mem_singleton] at hs
        obtain ⟨h', rfl, a, b, -⟩ := oky
        rcases hm with rfl | rfl <;> cases hs <;> contradiction
      | defarr n len args =>
        simp only [sets, List.mem_singleton] at hs
        obtain ⟨⟨x, rfl⟩, -⟩ := oky
        subst hs
        rcases hm with hm | hm <;> cases hm
      | defstr n t size =>
        simp only [sets, List.mem_singleton] at hs
        subst hs
        rcases oky.2 with ⟨x, k, h, -⟩ | ⟨k, h, -⟩ <;> subst h <;> rcases hm with hm | hm <;> cases hm
      | defun n ds => simp [sets] at hs
      | callMain a b => simp [sets] at hs
    obtain ⟨a1, a, a2, a3, a4⟩ := h
    refine ⟨by rw [d.keep _ (k1 _ (.inl rfl))]; exact a1, a, by rw [d.keep _ (k1 _ (.inr rfl))]; exact a2, by omega, ?_⟩
    intro i hi
    obtain ⟨b, h1, h2, h3⟩ := a4 i hi
    exact ⟨b, by rw [fr _ (by omega)]; exact h1, strAt_frame h2 fun x hx => fr x (by omega), by omega⟩
  | _ => trivial

/-- The variables of blocks keep their values. -/
theorem own_settled {c I} {pre post : List Cmd} (w : Wf c I (pre ++ post)) {n k} (h : Own pre n k) :
    Met pre (.var n) ∧ ((∃ x, n = .g x) ∨ (∃ k, n = .str k) ∨ ∃ r, Cmd.readonly n r ∈ pre) := by
  have key : ∀ t size, Cmd.defstr n t size ∈ pre →
      Met pre (.var n) ∧ ((∃ x, n = .g x) ∨ (∃ k, n = .str k) ∨ ∃ r, Cmd.readonly n r ∈ pre) := by
    intro t size h
    refine ⟨⟨_, h, by simp [sets]⟩, ?_⟩
    rcases (w.line _ (List.mem_append_left _ h)).2 with ⟨x, k, hx, -⟩ | ⟨k, hk, -⟩
    · exact .inl ⟨x, hx⟩
    · exact .inr (.inl ⟨k, hk⟩)
  rcases h with ⟨a, h⟩ | ⟨t, h⟩ | ⟨t, h, -⟩
  · exact ⟨⟨_, h, by simp [sets]⟩, .inl (w.line _ (List.mem_append_left _ h)).1⟩
  · exact key _ _ h
  · exact key _ _ h

/-- Blocks lie below the limit. -/
theorem Good.below {e : Env} {pre s L} (g : Good e pre s L) {n k b} (h : Own pre n k) (hb : s.var e n = some b) :
    b + k ≤ s.mem.alloc := by
  rcases h with ⟨a, h⟩ | ⟨t, h⟩ | ⟨t, h, rfl⟩
  · obtain ⟨b', vs, h1, -, h3, -⟩ := g.vals _ h
    rw [hb] at h1; cases h1; exact h3
  · obtain ⟨b', sz, h1, -, -, h3, -, h4, -⟩ := g.vals _ h
    rw [hb] at h1; cases h1
    have := h4 k rfl; subst this; exact h3
  · obtain ⟨b', sz, h1, -, -, h3, h4, -⟩ := g.vals _ h
    rw [hb] at h1; cases h1
    omega

/-- One more line. -/
theorem Good.step {e : Env} {c I pre y post s s' os L} (w : Wf c I (pre ++ y :: post)) (g : Good e pre s L)
    (d : Did e pre s s' y os) (hv : ∀ L', (∀ o ∈ os, o ∈ L') → (∀ o ∈ L, o ∈ L') → LineVal e s' L' y) :
    ∃ L', Good e (pre ++ [y]) s' L' := by
  obtain ⟨L1, h1, h2⟩ := d.mem.reach L g.reach
  have inL : ∀ o ∈ L, o ∈ L1 ++ L := fun o ho => List.mem_append_right _ ho
  have inO : ∀ o ∈ os, o ∈ L1 ++ L := fun o ho => List.mem_append_left _ (h2 o ho)
  have hy := hv _ inO inL
  refine ⟨L1 ++ L, h1, fun h => ?_, fun n ds h => ?_, fun n h => ?_, fun n h => ?_, fun n hn h => ?_, fun n h => ?_,
    d.mem.high g.high, fun x hx => ?_, fun n m i j b d' hnm hn hm hb hd => ?_⟩
  · rw [defNames_append, List.mem_append, not_or] at h
    rw [d.virgin h.1, g.virgin h.1]
  · rw [d.fns] at h
    cases y with
    | defun m es =>
      dsimp only at h
      rw [List.lookup_cons] at h
      split at h
      · rename_i heq
        cases h
        rw [beq_iff_eq] at heq
        subst heq
        simp
      · exact List.mem_append_left _ (g.fns n ds h)
    | _ => exact List.mem_append_left _ (g.fns n ds h)
  · rw [d.fns]
    rw [defNames_append, List.mem_append] at h
    cases y with
    | defun m es =>
      dsimp only
      rw [List.lookup_cons]
      split
      · simp
      · rename_i heq
        rcases h with h | h
        · exact g.fnd n h
        · simp [defNames] at h
          subst h
          simp at heq
    | _ =>
      rcases h with h | h
      · exact g.fnd n h
      · simp [defNames] at h
  · rw [ro_append]
    rcases d.ro n h with h | ⟨r, rfl⟩
    · exact List.mem_append_left _ (g.ro n h)
    · exact List.mem_append_right _ (by simp [ShTop.Spec.ro])
  · by_cases hy : n ∈ sets y
    · exact d.put n hy hn
    · rw [d.keep n hy]
      exact g.set n hn ((met_snoc.mp h).resolve_right hy)
  · rw [met_snoc, not_or] at h
    rw [d.keep n h.2]
    exact g.unset n h.1
  · rcases List.mem_append.mp hx with hx | hx
    · by_cases hb : y = .argv ∧ x = .argv
      · obtain ⟨rfl, rfl⟩ := hb
        exact hy
      · exact LineVal.keep w d g inL hx (g.vals x hx) (by
          by_cases h1 : y = .argv
          · exact .inr fun h2 => hb ⟨h1, h2⟩
          · exact .inl h1)
    · rw [List.mem_singleton] at hx
      subst hx
      exact hy
  · have old : ∀ {n k b}, Own pre n k → s'.var e n = some b → s.var e n = some b := by
      intro n k b h hb
      obtain ⟨h1, h2⟩ := own_settled w h
      rw [settled w d h1 h2] at hb
      exact hb
    have fresh : ∀ {n k}, Own [y] n k → Own pre n k ∨ ∀ b, s'.var e n = some b → s.mem.alloc ≤ b := fun h => d.own _ _ h
    rcases hn.cases with hn | hn <;> rcases hm.cases with hm | hm
    · exact g.apart n m i j b d' hnm hn hm (old hn hb) (old hm hd)
    · rcases fresh hm with hm | hm
      · exact g.apart n m i j b d' hnm hn hm (old hn hb) (old hm hd)
      · left
        have := g.below hn (old hn hb)
        have := hm _ hd
        omega
    · rcases fresh hn with hn | hn
      · exact g.apart n m i j b d' hnm hn hm (old hn hb) (old hm hd)
      · right
        have := g.below hm (old hm hd)
        have := hn _ hb
        omega
    · exact absurd (hn.one hm) hnm

end Verif.ShGlob
