import Verif.Intern.Model
import Mathlib.Data.List.Forall2
/-! Helper lemmas for the identifier table. -/
namespace Verif.Intern
open Verif

/-- NUL-terminated string `bs` (NUL-free) stored at `a`. -/
def StrAt (pool : Nat → Nat) (a : Nat) : List Nat → Prop
  | [] => pool a = 0
  | c :: cs => pool a = c ∧ c ≠ 0 ∧ StrAt pool (a + 1) cs

theorem StrAt.congr {p q : Nat → Nat} {a : Nat} {bs : List Nat}
    (h : StrAt p a bs) (heq : ∀ x, a ≤ x → x ≤ a + bs.length → q x = p x) : StrAt q a bs := by
  induction bs generalizing a with
  | nil => simp only [StrAt] at *; rw [heq a (by omega) (by simp)]; exact h
  | cons c cs ih =>
    simp only [StrAt, List.length_cons] at *
    refine ⟨by rw [heq a (by omega) (by omega)]; exact h.1, h.2.1, ih h.2.2 ?_⟩
    intro x h1 h2; exact heq x (by omega) (by omega)

theorem StrAt.read {p : Nat → Nat} {a : Nat} {bs : List Nat} (h : StrAt p a bs) :
    readList p a bs.length = bs := by
  induction bs generalizing a with
  | nil => rfl
  | cons c cs ih => simp only [StrAt] at h; simp [readList, h.1, ih h.2.2]

theorem cmpLoop_eq {pool : Nat → Nat} {a b fuel : Nat} {xs ys : List Nat}
    (hx : StrAt pool a xs) (hy : StrAt pool b ys) (hf : xs.length < fuel) :
    cmpLoop pool fuel a b = some (decide (xs = ys)) := by
  induction xs generalizing a b fuel ys with
  | nil =>
    cases fuel with
    | zero => omega
    | succ f =>
      simp only [StrAt] at hx
      cases ys with
      | nil => simp only [StrAt] at hy; simp [cmpLoop, hx, hy]
      | cons y ys =>
        simp only [StrAt] at hy
        have : ¬ (0 = y) := fun h => hy.2.1 h.symm
        simp [cmpLoop, hx, hy.1, this]
  | cons x xs ih =>
    cases fuel with
    | zero => omega
    | succ f =>
      simp only [StrAt] at hx
      cases ys with
      | nil => simp only [StrAt] at hy; simp [cmpLoop, hx.1, hy, hx.2.1]
      | cons y ys =>
        simp only [StrAt] at hy
        simp only [cmpLoop, hx.1, hy.1]
        by_cases hxy : x = y
        · subst hxy
          simp [hx.2.1, ih hx.2.2 hy.2.2 (by simpa using hf)]
        · simp [hxy]

/-- Linked list of entries starting in cell `cell`. -/
def Chain (heap : Nat → Int) (cell : Nat) : List Nat → Prop
  | [] => heap cell = 0
  | h :: hs => heap cell = (h : Int) ∧ h ≠ 0 ∧ Chain heap h hs

theorem Chain.congr {m m' : Nat → Int} {cell : Nat} {hs : List Nat}
    (h : Chain m cell hs) (heq : ∀ x ∈ cell :: hs, m' x = m x) : Chain m' cell hs := by
  induction hs generalizing cell with
  | nil => simp only [Chain] at *; rw [heq cell (by simp)]; exact h
  | cons p ps ih =>
    simp only [Chain] at *
    exact ⟨by rw [heq cell (by simp)]; exact h.1, h.2.1,
      ih h.2.2 (fun x hx => heq x (List.mem_cons_of_mem _ hx))⟩

/-- The last cell of a chain. -/
def lastCell (cell : Nat) : List Nat → Nat
  | [] => cell
  | h :: hs => lastCell h hs

theorem lastCell_mem (cell : Nat) (hs : List Nat) : lastCell cell hs ∈ cell :: hs := by
  induction hs generalizing cell with
  | nil => simp [lastCell]
  | cons h hs ih => simp only [lastCell]; exact List.mem_cons_of_mem _ (ih h)

theorem Chain.snoc {m m' : Nat → Int} {cell p : Nat} {hs : List Nat}
    (h : Chain m cell hs) (hnd : (cell :: hs).Nodup) (hp0 : p ≠ 0)
    (hlast : m' (lastCell cell hs) = (p : Int)) (hpz : m' p = 0)
    (heq : ∀ x ∈ cell :: hs, x ≠ lastCell cell hs → m' x = m x) : Chain m' cell (hs ++ [p]) := by
  induction hs generalizing cell with
  | nil => simp only [lastCell] at hlast; exact ⟨hlast, hp0, hpz⟩
  | cons q qs ih =>
    simp only [Chain, List.cons_append, lastCell] at *
    have hne : cell ≠ lastCell q qs := by
      intro hc
      have := lastCell_mem q qs
      rw [← hc] at this
      exact (List.nodup_cons.mp hnd).1 this
    refine ⟨?_, h.2.1, ?_⟩
    · rw [heq cell (by simp) hne]; exact h.1
    · exact ih h.2.2 (List.nodup_cons.mp hnd).2 hlast
        (fun x hx hx' => heq x (List.mem_cons_of_mem _ hx) hx')

/-- Ghost description of an entry: handle, spelling, bucket. -/
structure Ent where
  h : Nat
  bs : List Nat
  b : Nat

structure EntOk (s : St) (e : Ent) : Prop where
  bucket : e.b < HASH_PRIME
  lo : HASH_PRIME ≤ e.h
  hi : e.h + 5 ≤ s.heapAlloc
  str : StrAt s.pool (s.heap (e.h + 1)).toNat e.bs
  strHi : (s.heap (e.h + 1)).toNat + e.bs.length + 1 ≤ s.poolAlloc
  len : s.heap (e.h + 4) = (e.bs.length : Int)

structure Inv (w : World) (T : List Ent) : Prop where
  ents : ∀ e ∈ T, EntOk w.st e
  sep : T.Pairwise (fun e f => e.h + 5 ≤ f.h)
  chains : ∀ b, b < HASH_PRIME → Chain w.st.heap b ((T.filter (fun e => e.b = b)).map Ent.h)
  uniq : T.Pairwise (fun e f => ¬ (e.bs = f.bs ∧ e.b = f.b))
  count : HASH_PRIME + 5 * T.length ≤ w.st.heapAlloc
  objs : ∀ o ∈ w.objs, HASH_PRIME ≤ o.1 ∧ o.1 + o.2 ≤ w.st.heapAlloc ∧
            ∀ e ∈ T, o.1 + o.2 ≤ e.h ∨ e.h + 5 ≤ o.1
  hnds : ∀ h ∈ w.handles, ∃ e ∈ T, e.h = h

theorem walk_spec {s : St} {bs : List Nat} (hnew : StrAt s.pool s.start bs)
    (hlen : s.poolAlloc - s.start = bs.length + 1) :
    ∀ (es : List Ent) (cell fuel : Nat), Chain s.heap cell (es.map Ent.h) →
      (∀ e ∈ es, StrAt s.pool (s.heap (e.h + 1)).toNat e.bs) → es.length < fuel →
      (∃ e ∈ es, e.bs = bs ∧ walk s fuel cell = .ok (.inl e.h)) ∨
      ((∀ e ∈ es, e.bs ≠ bs) ∧ walk s fuel cell = .ok (.inr (lastCell cell (es.map Ent.h)))) := by
  intro es
  induction es with
  | nil =>
    intro cell fuel hc _ hf
    cases fuel with
    | zero => omega
    | succ f =>
      right
      simp only [List.map_nil, Chain] at hc
      simp [walk, hc, lastCell]
  | cons e es ih =>
    intro cell fuel hc hs hf
    cases fuel with
    | zero => omega
    | succ f =>
      simp only [List.map_cons, Chain] at hc
      have hcmp := cmpLoop_eq (fuel := s.poolAlloc - s.start) hnew (hs e (by simp)) (by omega)
      have hw : walk s (f + 1) cell = if bs = e.bs then .ok (.inl e.h) else walk s f e.h := by
        simp only [walk, hc.1, Int.toNat_natCast, hc.2.1, if_false, hcmp]
        by_cases h : bs = e.bs <;> simp [h]
      by_cases h : e.bs = bs
      · left; exact ⟨e, by simp, h, by rw [hw]; simp [h]⟩
      · have h' : ¬ bs = e.bs := fun x => h x.symm
        rw [hw]; simp only [h', if_false]
        rcases ih e.h f hc.2.2 (fun x hx => hs x (List.mem_cons_of_mem _ hx))
            (by simpa using hf) with ⟨e', he', h1, h2⟩ | ⟨h1, h2⟩
        · left; exact ⟨e', List.mem_cons_of_mem _ he', h1, h2⟩
        · right
          refine ⟨?_, by simpa [lastCell] using h2⟩
          intro x hx
          rcases List.mem_cons.mp hx with rfl | hx
          · exact h
          · exact h1 x hx

theorem hashStep_lt (sg : Bool) (h b : Nat) : hashStep sg h b < HASH_PRIME := by
  unfold hashStep
  have := Int.tmod_lt_of_pos (charVal sg b + ((h ^^^ HASH_PARAM : Nat) : Int))
    (b := (HASH_PRIME : Int)) (by decide)
  have h2 : (0 : Int) < HASH_PRIME := by decide
  omega

/-- Bucket of a spelling. -/
def hashOf (sg : Bool) (bs : List Nat) : Nat := bs.foldl (hashStep sg) 0

theorem foldl_hash_lt (sg : Bool) (bs : List Nat) (h : Nat) (hh : h < HASH_PRIME) :
    bs.foldl (hashStep sg) h < HASH_PRIME := by
  induction bs generalizing h with
  | nil => simpa
  | cons b bs ih => exact ih _ (hashStep_lt sg h b)

theorem accumAll_ok {sg : Bool} {s s' : St} {bs : List Nat} (h : accumAll sg s bs = .ok s') :
    s'.heap = s.heap ∧ s'.heapAlloc = s.heapAlloc ∧ s'.start = s.start ∧
    s'.poolAlloc = s.poolAlloc + bs.length ∧ s'.pool = writeList s.pool s.poolAlloc bs ∧
    s'.hash = bs.foldl (hashStep sg) s.hash := by
  induction bs generalizing s with
  | nil => simp only [accumAll, Res.ok.injEq] at h; subst h; simp [writeList]
  | cons b bs ih =>
    simp only [accumAll] at h
    obtain ⟨s1, h1, h2⟩ := Res.bind_eq_ok.mp h
    unfold accum at h1
    split at h1
    · cases h1
    split at h1
    · cases h1
    injection h1 with h1
    have := ih h2
    subst h1
    obtain ⟨a1, a2, a3, a4, a5, a6⟩ := this
    refine ⟨a1, a2, a3, ?_, ?_, ?_⟩
    · rw [a4]; simp; omega
    · rw [a5]; rfl
    · rw [a6]; rfl

theorem strAt_writeList (m : Nat → Nat) (a : Nat) (bs : List Nat) (hnz : ∀ b ∈ bs, b ≠ 0)
    (q : Nat → Nat) (hq : ∀ x, x < a + bs.length → q x = writeList m a bs x)
    (h0 : q (a + bs.length) = 0) : StrAt q a bs := by
  induction bs generalizing m a with
  | nil => simpa [StrAt] using h0
  | cons b bs ih =>
    simp only [StrAt]
    refine ⟨?_, hnz b (by simp), ?_⟩
    · rw [hq a (by simp)]
      have := writeList_get m a (b :: bs) (i := 0) (by simp)
      simpa using this
    · apply ih (upd m a b) (a + 1) (fun x hx => hnz x (by simp [hx]))
      · intro x hx; rw [hq x (by simp; omega)]; rfl
      · rw [← h0]; congr 1; simp; omega

theorem EntOk.mono {s s' : St} {e : Ent} (h : EntOk s e)
    (hheap : ∀ x, x = e.h + 1 ∨ x = e.h + 4 → s'.heap x = s.heap x)
    (hpool : ∀ x, x < s.poolAlloc → s'.pool x = s.pool x)
    (ha : s.heapAlloc ≤ s'.heapAlloc) (hp : s.poolAlloc ≤ s'.poolAlloc) : EntOk s' e where
  bucket := h.bucket
  lo := h.lo
  hi := by have := h.hi; omega
  str := by
    rw [hheap _ (Or.inl rfl)]
    refine h.str.congr (fun x h1 h2 => hpool x ?_)
    have := h.strHi; omega
  strHi := by rw [hheap _ (Or.inl rfl)]; have := h.strHi; omega
  len := by rw [hheap _ (Or.inr rfl)]; exact h.len

/-- Entries of the table are within a heap whose live part is unchanged: changing only cells
that belong to no entry's cells 0, 1, 4 and to no bucket keeps the invariant. -/
theorem Inv.frame {w w' : World} {T : List Ent} (h : Inv w T)
    (hpool : w'.st.pool = w.st.pool) (hpa : w'.st.poolAlloc = w.st.poolAlloc)
    (ha : w.st.heapAlloc ≤ w'.st.heapAlloc)
    (hb : ∀ x, x < HASH_PRIME → w'.st.heap x = w.st.heap x)
    (he : ∀ e ∈ T, ∀ x, x = e.h ∨ x = e.h + 1 ∨ x = e.h + 4 → w'.st.heap x = w.st.heap x)
    (ho : ∀ o ∈ w'.objs, HASH_PRIME ≤ o.1 ∧ o.1 + o.2 ≤ w'.st.heapAlloc ∧
            ∀ e ∈ T, o.1 + o.2 ≤ e.h ∨ e.h + 5 ≤ o.1)
    (hh : ∀ x ∈ w'.handles, ∃ e ∈ T, e.h = x) : Inv w' T where
  ents := fun e hm => (h.ents e hm).mono
    (fun x hx => he e hm x (by rcases hx with hx | hx <;> simp [hx]))
    (fun x _ => by rw [hpool]) ha (by omega)
  sep := h.sep
  chains := fun b hbb => (h.chains b hbb).congr (fun x hx => by
    rcases List.mem_cons.mp hx with rfl | hx
    · exact hb _ hbb
    · obtain ⟨e, hem, rfl⟩ := List.mem_map.mp hx
      exact he e (List.mem_filter.mp hem).1 _ (Or.inl rfl))
  uniq := h.uniq
  count := by have := h.count; omega
  objs := ho
  hnds := hh

theorem sep_mem {T : List Ent} (h : T.Pairwise (fun e f => e.h + 5 ≤ f.h)) {e f : Ent}
    (he : e ∈ T) (hf : f ∈ T) : e = f ∨ e.h + 5 ≤ f.h ∨ f.h + 5 ≤ e.h := by
  induction T with
  | nil => simp at he
  | cons t T ih =>
    rw [List.pairwise_cons] at h
    rcases List.mem_cons.mp he with rfl | he' <;> rcases List.mem_cons.mp hf with rfl | hf'
    · exact Or.inl rfl
    · exact Or.inr (Or.inl (h.1 _ hf'))
    · exact Or.inr (Or.inr (h.1 _ he'))
    · exact ih h.2 he' hf'

theorem chain_nodup {T : List Ent} (hsep : T.Pairwise (fun e f => e.h + 5 ≤ f.h))
    (hlo : ∀ e ∈ T, HASH_PRIME ≤ e.h) {b : Nat} (hb : b < HASH_PRIME) :
    (b :: (T.filter (fun e => e.b = b)).map Ent.h).Nodup := by
  rw [List.nodup_cons]
  constructor
  · intro hm
    obtain ⟨e, he, hb'⟩ := List.mem_map.mp hm
    have := hlo e (List.mem_filter.mp he).1
    omega
  · rw [List.nodup_iff_pairwise_ne, List.pairwise_map]
    refine (hsep.filter _).imp ?_
    intro a b h; omega

/-- One interning step: the handle is an entry with that spelling, the old entries stay. -/
theorem intern_inv' {w : World} {T : List Ent} (hI : Inv w T) {sg : Bool} {bs : List Nat}
    (hnz : ∀ b ∈ bs, b ≠ 0) {h : Nat} {s' : St} (hr : intern sg w.st bs = .ok (h, s')) :
    ∃ T', Inv { w with st := s', handles := w.handles ++ [h] } T' ∧ (∀ e ∈ T, e ∈ T') ∧
      (∃ e ∈ T', e.h = h ∧ e.bs = bs ∧ e.b = hashOf sg bs) ∧
      (∀ e ∈ T, s'.heap (e.h + 2) = w.st.heap (e.h + 2)) ∧
      (∀ e ∈ T', e ∈ T ∨ (e = ⟨h, bs, hashOf sg bs⟩ ∧ s'.heap (h + 2) = IDENTIFIER ∧
        ∀ f ∈ T, ¬ (f.bs = bs ∧ f.b = hashOf sg bs))) := by
  unfold intern at hr
  obtain ⟨s1, h1, h2⟩ := Res.bind_eq_ok.mp hr
  obtain ⟨a1, a2, a3, a4, a5, a6⟩ := accumAll_ok h1
  simp only [beginString] at a1 a2 a3 a4 a5 a6
  unfold endIdent at h2
  split at h2
  · cases h2
  simp only at h2
  obtain ⟨r, hw, h3⟩ := Res.bind_eq_ok.mp h2
  have hhash : s1.hash = hashOf sg bs := a6
  have hbk : hashOf sg bs < HASH_PRIME := foldl_hash_lt sg bs 0 (by decide)
  -- the state in which the chain is walked
  have hpool : ∀ x, x < w.st.poolAlloc → upd s1.pool s1.poolAlloc 0 x = w.st.pool x := by
    intro x hx
    rw [upd_other _ _ (by omega), a5, writeList_lt _ _ _ hx]
  have hstr : StrAt (upd s1.pool s1.poolAlloc 0) w.st.poolAlloc bs := by
    apply strAt_writeList w.st.pool _ _ hnz
    · intro x hx; rw [upd_other _ _ (by omega), a5]
    · rw [a4, upd_same]
  have hents : ∀ e ∈ T, StrAt (upd s1.pool s1.poolAlloc 0) (w.st.heap (e.h + 1)).toNat e.bs := by
    intro e he
    have ho := hI.ents e he
    exact ho.str.congr (fun x h1 h2 => hpool x (by have := ho.strHi; omega))
  have hfl : (T.filter (fun e => e.b = hashOf sg bs)).length ≤ T.length := List.length_filter_le _ _
  have hcount := hI.count
  have hspec := walk_spec (bs := bs)
    (s := { s1 with pool := upd s1.pool s1.poolAlloc 0, poolAlloc := s1.poolAlloc + 1 })
    (by simpa [a3] using hstr) (by simp [a3, a4]; omega)
    (T.filter (fun e => e.b = hashOf sg bs)) s1.hash (s1.heapAlloc + 1)
    (by simpa [a1, hhash] using hI.chains _ hbk)
    (fun e he => by simpa [a1] using hents e (List.mem_filter.mp he).1)
    (by rw [a2]; simp only [HASH_PRIME] at hcount; omega)
  rcases hspec with ⟨e, he, hebs, hwk⟩ | ⟨hno, hwk⟩
  · -- already present
    rw [hwk] at hw
    injection hw with hw
    subst hw
    simp only [Res.ok.injEq, Prod.mk.injEq] at h3
    obtain ⟨rfl, hs'⟩ := h3
    have heT := (List.mem_filter.mp he).1
    have heb : e.b = hashOf sg bs := by simpa using (List.mem_filter.mp he).2
    refine ⟨T, ?_, fun _ h => h, ⟨e, heT, rfl, hebs, heb⟩, ?_, fun e he => Or.inl he⟩
    rotate_left
    · subst hs'; intro e _; simp [a1]
    subst hs'
    refine
      { ents := fun f hf => (hI.ents f hf).mono (fun x _ => by simp [a1]) hpool
          (by simp [a2]) (by simp [a3])
        sep := hI.sep
        chains := fun b hb => by simpa [a1] using hI.chains b hb
        uniq := hI.uniq
        count := by simpa [a2] using hcount
        objs := fun o ho => by simpa [a2] using hI.objs o ho
        hnds := ?_ }
    intro x hx
    rcases List.mem_append.mp hx with hx | hx
    · exact hI.hnds x hx
    · exact ⟨e, heT, by simpa [eq_comm] using hx⟩
  · -- a new entry
    rw [hwk] at hw
    injection hw with hw
    subst hw
    simp only at h3
    obtain ⟨⟨p, s2⟩, hal, h4⟩ := Res.bind_eq_ok.mp h3
    unfold allocObj at hal
    split at hal
    · cases hal
    injection hal with hal
    injection hal with hp hs2
    subst hs2
    simp only [a2] at hp
    simp only [Res.ok.injEq, Prod.mk.injEq] at h4
    obtain ⟨hq, hs'⟩ := h4
    have hq' := hq.symm
    subst hq'
    rw [hhash] at hs'
    -- `h` is the new handle
    have hlast := lastCell_mem (hashOf sg bs)
      ((T.filter (fun e => e.b = hashOf sg bs)).map Ent.h)
    have hlastc : ∀ (x : Nat), x ∈ hashOf sg bs :: (T.filter (fun e => e.b = hashOf sg bs)).map Ent.h →
        x < HASH_PRIME ∨ ∃ e ∈ T, e.b = hashOf sg bs ∧ e.h = x := by
      intro x hx
      rcases List.mem_cons.mp hx with rfl | hx
      · exact Or.inl hbk
      · obtain ⟨e, he, rfl⟩ := List.mem_map.mp hx
        exact Or.inr ⟨e, (List.mem_filter.mp he).1, by simpa using (List.mem_filter.mp he).2, rfl⟩
    generalize hL : lastCell (hashOf sg bs) ((T.filter (fun e => e.b = hashOf sg bs)).map Ent.h)
      = L at hlast hs'
    have hLlt : L < h := by
      rcases hlastc L hlast with hl | ⟨e, he, _, rfl⟩
      · have := hI.count; omega
      · have := (hI.ents e he).hi; omega
    have hheap : ∀ x, x ≠ L → (x < h ∨ h + 5 ≤ x) → s'.heap x = w.st.heap x := by
      intro x hx1 hx2
      subst hs'
      simp only [a1, upd]
      repeat rw [if_neg (by omega)]
    have hL' : s'.heap L = (h : Int) := by
      subst hs'; simp only [upd]
      repeat rw [if_neg (by omega)]
      simp
    have hz : s'.heap h = 0 := by subst hs'; simp [upd]
    have h1c : s'.heap (h + 1) = (w.st.poolAlloc : Int) := by subst hs'; simp [upd, a3]
    have h4c : s'.heap (h + 4) = (bs.length : Int) := by
      subst hs'; simp only [upd, a3, a4, if_true]; omega
    have hpl : s'.pool = upd s1.pool s1.poolAlloc 0 := by subst hs'; rfl
    have hpa : s'.poolAlloc = w.st.poolAlloc + bs.length + 1 := by subst hs'; simp [a4]
    have hha : s'.heapAlloc = w.st.heapAlloc + 5 := by subst hs'; simp [a2]
    have hcells2 : ∀ e ∈ T, s'.heap (e.h + 2) = w.st.heap (e.h + 2) := by
      intro e he
      have ho := hI.ents e he
      apply hheap
      · rcases hlastc L hlast with hl | ⟨f, hf, _, rfl⟩
        · have := ho.lo; omega
        · have := sep_mem hI.sep he hf
          rcases this with rfl | hs | hs <;> omega
      · have := ho.hi; omega
    have hcells : ∀ e ∈ T, ∀ x, x = e.h + 1 ∨ x = e.h + 4 → s'.heap x = w.st.heap x := by
      intro e he x hx
      have ho := hI.ents e he
      apply hheap
      · rcases hlastc L hlast with hl | ⟨f, hf, _, rfl⟩
        · have := ho.lo; rcases hx with rfl | rfl <;> omega
        · have := sep_mem hI.sep he hf
          rcases this with rfl | hs | hs <;> rcases hx with rfl | rfl <;> omega
      · have := ho.hi; rcases hx with rfl | rfl <;> omega
    have h2c : s'.heap (h + 2) = IDENTIFIER := by subst hs'; simp [upd]
    refine ⟨T ++ [⟨h, bs, hashOf sg bs⟩], ?_, fun e he => List.mem_append_left _ he,
      ⟨⟨h, bs, hashOf sg bs⟩, by simp, rfl, rfl, rfl⟩, hcells2, ?_⟩
    rotate_left
    · intro e he
      rcases List.mem_append.mp he with he | he
      · exact Or.inl he
      · simp only [List.mem_singleton] at he
        exact Or.inr ⟨he, h2c, fun f hf hff => hno f (List.mem_filter.mpr ⟨hf, by simpa using hff.2⟩) hff.1⟩
    refine
      { ents := ?_, sep := ?_, chains := ?_, uniq := ?_, count := ?_, objs := ?_, hnds := ?_ }
    · intro e he
      rcases List.mem_append.mp he with he | he
      · exact (hI.ents e he).mono (hcells e he) (fun x hx => by rw [hpl]; exact hpool x hx)
          (by simp [hha]) (by simp only [hpa]; omega)
      · simp only [List.mem_singleton] at he
        subst he
        exact
          { bucket := hbk
            lo := by have := hI.count; simp only; omega
            hi := by simp only [hha]; omega
            str := by simp only [h1c, Int.toNat_natCast, hpl]; exact hstr
            strHi := by simp only [h1c, Int.toNat_natCast, hpa]; omega
            len := h4c }
    · rw [List.pairwise_append]
      refine ⟨hI.sep, by simp, ?_⟩
      intro e he f hf
      simp only [List.mem_singleton] at hf; subst hf
      have := (hI.ents e he).hi; simp only; omega
    · intro b hb
      simp only [List.filter_append, List.map_append]
      by_cases hbb : hashOf sg bs = b
      · subst hbb
        simp only [List.filter_cons, List.filter_nil, decide_true, if_true, List.map_cons,
          List.map_nil]
        refine Chain.snoc (m := w.st.heap) (hI.chains _ hb)
          (chain_nodup hI.sep (fun e he => (hI.ents e he).lo) hb)
          (by simp only [HASH_PRIME] at hcount; omega) (by rw [hL]; exact hL') hz ?_
        intro x hx hxl
        rw [hL] at hxl
        apply hheap x hxl
        left
        rcases hlastc x hx with hx | ⟨e, he, _, rfl⟩
        · omega
        · have := (hI.ents e he).hi; omega
      · simp only [List.filter_cons, List.filter_nil, decide_eq_true_eq, hbb, if_false,
          List.map_nil, List.append_nil]
        refine (hI.chains b hb).congr ?_
        intro x hx
        apply hheap x
        · intro hxL
          subst hxL
          rcases List.mem_cons.mp hx with rfl | hx
          · rcases List.mem_cons.mp hlast with h | h
            · exact hbb h.symm
            · obtain ⟨e, he, hh⟩ := List.mem_map.mp h
              have := (hI.ents e (List.mem_filter.mp he).1).lo; omega
          · obtain ⟨f, hf, rfl⟩ := List.mem_map.mp hx
            rcases hlastc _ hlast with hl | ⟨e, he, heb, hh⟩
            · have := (hI.ents f (List.mem_filter.mp hf).1).lo; omega
            · have hfb : f.b = b := by simpa using (List.mem_filter.mp hf).2
              rcases sep_mem hI.sep he (List.mem_filter.mp hf).1 with rfl | hs | hs
              · exact hbb (heb.symm.trans hfb)
              · omega
              · omega
        · left
          rcases List.mem_cons.mp hx with rfl | hx
          · omega
          · obtain ⟨e, he, rfl⟩ := List.mem_map.mp hx
            have := (hI.ents e (List.mem_filter.mp he).1).hi; omega
    · rw [List.pairwise_append]
      refine ⟨hI.uniq, by simp, ?_⟩
      intro e he f hf
      simp only [List.mem_singleton] at hf; subst hf
      rintro ⟨hb1, hb2⟩
      exact hno e (List.mem_filter.mpr ⟨he, by simpa using hb2⟩) hb1
    · simp only [hha, List.length_append, List.length_singleton]; omega
    · intro o ho
      have := hI.objs o ho
      refine ⟨this.1, by simp only [hha]; omega, ?_⟩
      intro e he
      rcases List.mem_append.mp he with he | he
      · exact this.2.2 e he
      · simp only [List.mem_singleton] at he; subst he; left; simp only; omega
    · intro x hx
      rcases List.mem_append.mp hx with hx | hx
      · obtain ⟨e, he, rfl⟩ := hI.hnds x hx
        exact ⟨e, List.mem_append_left _ he, rfl⟩
      · simp only [List.mem_singleton] at hx
        exact ⟨⟨h, bs, hashOf sg bs⟩, by simp, hx.symm⟩

theorem intern_inv {w : World} {T : List Ent} (hI : Inv w T) {sg : Bool} {bs : List Nat}
    (hnz : ∀ b ∈ bs, b ≠ 0) {h : Nat} {s' : St} (hr : intern sg w.st bs = .ok (h, s')) :
    ∃ T', Inv { w with st := s', handles := w.handles ++ [h] } T' ∧ (∀ e ∈ T, e ∈ T') ∧
      ∃ e ∈ T', e.h = h ∧ e.bs = bs ∧ e.b = hashOf sg bs := by
  obtain ⟨T', h1, h2, h3, _⟩ := intern_inv' hI hnz hr
  exact ⟨T', h1, h2, h3⟩

/-- NUL-free strings only. -/
def Op.NulFree : Op → Prop
  | .intern _ bs => ∀ b ∈ bs, b ≠ 0
  | _ => True

theorem step_inv {w w' : World} {T : List Ent} (hI : Inv w T) {o : Op} (hn : o.NulFree)
    (hs : step w o = .ok w') :
    ∃ T', Inv w' T' ∧ (∀ e ∈ T, e ∈ T') ∧
      (∀ sg bs, o = .intern sg bs → ∃ h, w'.handles = w.handles ++ [h] ∧
        ∃ e ∈ T', e.h = h ∧ e.bs = bs ∧ e.b = hashOf sg bs) ∧
      ((∀ sg bs, o ≠ .intern sg bs) → w'.handles = w.handles ∧ T' = T) := by
  cases o with
  | intern sg bs =>
    simp only [step] at hs
    obtain ⟨⟨h, s⟩, h1, h2⟩ := Res.bind_eq_ok.mp hs
    injection h2 with h2; subst h2
    obtain ⟨T', i1, i2, i3⟩ := intern_inv hI hn h1
    refine ⟨T', i1, i2, ?_, ?_⟩
    · intro sg' bs' heq; injection heq with e1 e2; subst e1; subst e2; exact ⟨h, rfl, i3⟩
    · intro hne; exact absurd rfl (hne sg bs)
  | alloc cells =>
    simp only [step] at hs
    obtain ⟨⟨p, s⟩, h1, h2⟩ := Res.bind_eq_ok.mp hs
    unfold allocObj at h1
    split at h1
    · cases h1
    injection h1 with h1; injection h1 with hp hs'
    subst hp; subst hs'
    injection h2 with h2; subst h2
    refine ⟨T, ?_, fun _ h => h, by simp, by simp⟩
    have hc := hI.count
    refine hI.frame rfl rfl (by simp) ?_ ?_ ?_ hI.hnds
    · intro x hx; exact writeList_lt _ _ _ (by simp only; omega)
    · intro e he x hx
      have := (hI.ents e he).hi
      exact writeList_lt _ _ _ (by simp only; rcases hx with rfl | rfl | rfl <;> omega)
    · intro o ho
      rcases List.mem_append.mp ho with ho | ho
      · have := hI.objs o ho; exact ⟨this.1, by simp only; omega, this.2.2⟩
      · simp only [List.mem_singleton] at ho; subst ho
        refine ⟨by simp only; omega, by simp, ?_⟩
        intro e he; right; exact (hI.ents e he).hi
  | poke i j v =>
    simp only [step] at hs
    refine ⟨T, ?_, fun _ h => h, by simp, ?_⟩
    · split at hs
      · rename_i p n hg
        split at hs
        · rename_i hj
          injection hs with hs; subst hs
          have ho := hI.objs _ (List.mem_of_getElem? hg)
          refine hI.frame rfl rfl (Nat.le_refl _) ?_ ?_ hI.objs hI.hnds
          · intro x hx; exact upd_other _ _ (by simp only at ho; omega)
          · intro e he x hx
            have := ho.2.2 e he
            exact upd_other _ _ (by simp only at this; rcases hx with rfl | rfl | rfl <;> omega)
        · injection hs with hs; subst hs; exact hI
      · injection hs with hs; subst hs; exact hI
    · intro _
      refine ⟨?_, rfl⟩
      split at hs
      · split at hs <;> (injection hs with hs; subst hs; rfl)
      · injection hs with hs; subst hs; rfl
  | setKind i v =>
    simp only [step] at hs
    refine ⟨T, ?_, fun _ h => h, by simp, ?_⟩
    · split at hs
      · rename_i h hg
        injection hs with hs; subst hs
        obtain ⟨f, hf, rfl⟩ := hI.hnds _ (List.mem_of_getElem? hg)
        have hlo := (hI.ents f hf).lo
        refine hI.frame rfl rfl (Nat.le_refl _) ?_ ?_ hI.objs hI.hnds
        · intro x hx; exact upd_other _ _ (by omega)
        · intro e he x hx
          refine upd_other _ _ ?_
          rcases sep_mem hI.sep he hf with rfl | hs | hs <;> rcases hx with rfl | rfl | rfl <;> omega
      · injection hs with hs; subst hs; exact hI
    · intro _; refine ⟨?_, rfl⟩; split at hs <;> (injection hs with hs; subst hs; rfl)
  | setTag i v =>
    simp only [step] at hs
    refine ⟨T, ?_, fun _ h => h, by simp, ?_⟩
    · split at hs
      · rename_i h hg
        injection hs with hs; subst hs
        obtain ⟨f, hf, rfl⟩ := hI.hnds _ (List.mem_of_getElem? hg)
        have hlo := (hI.ents f hf).lo
        refine hI.frame rfl rfl (Nat.le_refl _) ?_ ?_ hI.objs hI.hnds
        · intro x hx; exact upd_other _ _ (by omega)
        · intro e he x hx
          refine upd_other _ _ ?_
          rcases sep_mem hI.sep he hf with rfl | hs | hs <;> rcases hx with rfl | rfl | rfl <;> omega
      · injection hs with hs; subst hs; exact hI
    · intro _; refine ⟨?_, rfl⟩; split at hs <;> (injection hs with hs; subst hs; rfl)

theorem inv_init : Inv World.init [] where
  ents := by simp
  sep := List.Pairwise.nil
  chains := fun _ _ => by simp [Chain, World.init, init]
  uniq := List.Pairwise.nil
  count := by simp [World.init, init]
  objs := by simp [World.init]
  hnds := by simp [World.init]

/-- The spellings of the `intern` operations of a history, in order. -/
def spellings : List Op → List (Bool × List Nat)
  | [] => []
  | .intern sg bs :: os => (sg, bs) :: spellings os
  | _ :: os => spellings os

theorem run_inv {w w' : World} {T : List Ent} (hI : Inv w T) {os : List Op}
    (hn : ∀ o ∈ os, o.NulFree) (hr : run w os = .ok w') :
    ∃ T', Inv w' T' ∧ (∀ e ∈ T, e ∈ T') ∧ ∃ hs, w'.handles = w.handles ++ hs ∧
      List.Forall₂ (fun h q => ∃ e ∈ T', e.h = h ∧ e.bs = q.2 ∧ e.b = hashOf q.1 q.2) hs
        (spellings os) := by
  induction os generalizing w T with
  | nil =>
    simp only [run, Res.ok.injEq] at hr; subst hr
    exact ⟨T, hI, fun _ h => h, [], by simp, by simp [spellings]⟩
  | cons o os ih =>
    simp only [run] at hr
    obtain ⟨w1, h1, h2⟩ := Res.bind_eq_ok.mp hr
    obtain ⟨T1, i1, i2, i3, i4⟩ := step_inv hI (hn o (by simp)) h1
    obtain ⟨T2, j1, j2, hs, j3, j4⟩ := ih i1 (fun o ho => hn o (by simp [ho])) h2
    refine ⟨T2, j1, fun e he => j2 e (i2 e he), ?_⟩
    cases o with
    | intern sg bs =>
      obtain ⟨h, hh, e, he, e1, e2, e3⟩ := i3 sg bs rfl
      refine ⟨h :: hs, by rw [j3, hh]; simp, ?_⟩
      simp only [spellings]
      exact List.Forall₂.cons ⟨e, j2 e he, e1, e2, e3⟩ j4
    | alloc _ => exact ⟨hs, by rw [j3, (i4 (by simp)).1], by simpa [spellings] using j4⟩
    | poke _ _ _ => exact ⟨hs, by rw [j3, (i4 (by simp)).1], by simpa [spellings] using j4⟩
    | setKind _ _ => exact ⟨hs, by rw [j3, (i4 (by simp)).1], by simpa [spellings] using j4⟩
    | setTag _ _ => exact ⟨hs, by rw [j3, (i4 (by simp)).1], by simpa [spellings] using j4⟩

theorem inv_handle_eq {w : World} {T : List Ent} (hI : Inv w T) {e f : Ent} (he : e ∈ T)
    (hf : f ∈ T) : e.h = f.h ↔ e.bs = f.bs ∧ e.b = f.b := by
  constructor
  · intro h
    rcases sep_mem hI.sep he hf with rfl | hs | hs
    · exact ⟨rfl, rfl⟩
    · omega
    · omega
  · rintro ⟨h1, h2⟩
    suffices e = f by rw [this]
    have hu := hI.uniq
    clear hI
    induction T with
    | nil => simp at he
    | cons t T ih =>
      rw [List.pairwise_cons] at hu
      rcases List.mem_cons.mp he with rfl | he' <;> rcases List.mem_cons.mp hf with rfl | hf'
      · rfl
      · exact absurd ⟨h1, h2⟩ (hu.1 _ hf')
      · exact absurd ⟨h1.symm, h2.symm⟩ (hu.1 _ he')
      · exact ih he' hf' hu.2

theorem inv_spelling {w : World} {T : List Ent} (hI : Inv w T) {e : Ent} (he : e ∈ T) :
    spelling w.st e.h = e.bs := by
  have ho := hI.ents e he
  unfold spelling
  rw [ho.len, Int.toNat_natCast]
  exact ho.str.read

theorem hashOf_ascii (sg sg' : Bool) (bs : List Nat) (h : ∀ b ∈ bs, b < 128) :
    hashOf sg bs = hashOf sg' bs := by
  unfold hashOf
  generalize 0 = h0
  induction bs generalizing h0 with
  | nil => rfl
  | cons b bs ih =>
    have hb := h b (by simp)
    have : hashStep sg h0 b = hashStep sg' h0 b := by
      simp [hashStep, charVal, Nat.not_le.mpr hb]
    simp only [List.foldl_cons, this]
    exact ih (fun x hx => h x (by simp [hx])) _

end Verif.Intern
