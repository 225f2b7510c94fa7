import Verif.Text.LinesSpec
import Verif.Text.Props
namespace Verif.Text
open Verif Spec

/-- A line as stored. -/
structure Entry where
  level : Int
  active : Int
  text : Int

/-- The array holds these lines. -/
structure Rep (g : GD) (es : List Entry) : Prop where
  ix : g.ix = 3 * es.length
  get : ∀ j (h : j < es.length), g.cells (3 * j) = es[j].level ∧ g.cells (3 * j + 1) = es[j].active ∧ g.cells (3 * j + 2) = es[j].text

theorem rep_push {g g' : GD} {es : List Entry} {a b c : Int} (hr : Rep g es) (h : push3 a b c g = .ok g') :
    Rep g' (es ++ [⟨a, b, c⟩]) ∧ g'.nest = g.nest := by
  unfold push3 at h
  split at h
  · cases h
    have hi := hr.ix
    refine ⟨⟨by simp [hi]; omega, fun j hj => ?_⟩, rfl⟩
    simp only [List.length_append, List.length_singleton] at hj
    by_cases h' : j < es.length
    · rw [List.getElem_append_left h']
      simp only
      rw [writeList_lt _ _ _ (by omega), writeList_lt _ _ _ (by omega), writeList_lt _ _ _ (by omega)]
      exact hr.get j h'
    · have : j = es.length := by omega
      subst this
      simp only [List.getElem_append_right (Nat.le_refl _)]
      have w0 := writeList_get g.cells g.ix [a, b, c] (i := 0) (by simp)
      have w1 := writeList_get g.cells g.ix [a, b, c] (i := 1) (by simp)
      have w2 := writeList_get g.cells g.ix [a, b, c] (i := 2) (by simp)
      rw [← hi]
      exact ⟨by simpa using w0, by simpa using w1, by simpa using w2⟩
  · cases h

/-- A line undone once more. -/
def Entry.undo (e : Entry) : Entry := { e with active := e.active - 1 }

theorem rep_undo : ∀ n (g : GD) (es pre : List Entry), Rep g (pre ++ es) → es.length ≤ n →
    Rep (undo_glo_decls n (3 * pre.length) g) (pre ++ es.map Entry.undo) ∧ (undo_glo_decls n (3 * pre.length) g).nest = g.nest
  | 0, g, [], pre, hr, _ => by simpa [undo_glo_decls] using hr
  | n + 1, g, [], pre, hr, _ => by
    have := hr.ix
    rw [undo_glo_decls, if_neg (by simp at this; omega)]
    simpa using hr
  | 0, g, _ :: _, pre, _, h => by simp at h
  | n + 1, g, e :: es, pre, hr, h => by
    have hi := hr.ix
    simp only [List.length_append, List.length_cons] at hi
    rw [undo_glo_decls, if_pos (by omega)]
    have hr' : Rep { g with cells := upd g.cells (3 * pre.length + 1) (g.cells (3 * pre.length + 1) - 1) } ((pre ++ [e.undo]) ++ es) := by
      refine ⟨by simp [hi], fun j hj => ?_⟩
      have hj' : j < (pre ++ e :: es).length := by simpa using hj
      obtain ⟨g1, g2, g3⟩ := hr.get j hj'
      simp only
      rw [upd_apply, upd_apply, upd_apply, if_neg (by omega), if_neg (show ¬ 3 * j + 2 = 3 * pre.length + 1 by omega)]
      by_cases hjp : j = pre.length
      · subst hjp
        rw [if_pos rfl, g1, g2, g3]
        simp [Entry.undo]
      · rw [if_neg (by omega), g1, g2, g3]
        by_cases hlt : j < pre.length
        · simp [List.getElem_append_left, hlt]
        · have e1 : (pre ++ e :: es)[j] = (pre ++ [e.undo] ++ es)[j] := by
            rw [List.getElem_append_right (by omega), List.getElem_append_right (by simp; omega)]
            obtain ⟨k, hk⟩ : ∃ k, j - pre.length = k + 1 := ⟨j - pre.length - 1, by omega⟩
            simp only [List.length_append, List.length_singleton, hk, List.getElem_cons_succ]
            congr 1; omega
          rw [e1]; exact ⟨rfl, rfl, rfl⟩
    have := rep_undo n _ es (pre ++ [e.undo]) hr' (by simp at h; omega)
    rw [show 3 * (pre ++ [e.undo]).length = 3 * pre.length + 3 by simp; omega] at this
    simpa using this

/-- The lines of a range that a replay emits. -/
def kept (es : List Entry) (a b : Nat) : List Entry := ((es.take b).drop a).filter fun e => e.active = 0

theorem kept_append {es new : List Entry} {a b : Nat} (h : b ≤ es.length) : kept (es ++ new) a b = kept es a b := by
  unfold kept; rw [List.take_append_of_le_length h]

theorem rep_replay (re : Bool) : ∀ n a b (g g' : GD) (es : List Entry), Rep g es → b ≤ es.length → b ≤ a + n →
    replay_glo_decls re n (3 * a) (3 * b) g = .ok g' →
    Rep g' (es ++ (kept es a b).map fun e => ⟨if re then g.nest else e.level, 1, e.text⟩) ∧ g'.nest = g.nest
  | 0, a, b, g, g', es, hr, hb, hn, h => by
    cases h
    have : kept es a b = [] := by unfold kept; rw [List.drop_eq_nil_of_le (by simp; omega)]; rfl
    rw [this]; simpa using hr
  | n + 1, a, b, g, g', es, hr, hb, hn, h => by
    rw [replay_glo_decls] at h
    by_cases hab : a < b
    · rw [if_pos (by omega)] at h
      obtain ⟨g1, g2, g3⟩ := hr.get a (by omega)
      have hk : kept es a b = if es[a].active = 0 then es[a] :: kept es (a + 1) b else kept es (a + 1) b := by
        unfold kept
        rw [List.drop_eq_getElem_cons (by simp; omega), List.filter_cons]
        simp
      rw [g2] at h
      split at h
      · rename_i h0
        rw [Res.bind_eq_ok] at h
        obtain ⟨gx, h1, h2⟩ := h
        rw [Res.bind_eq_ok] at h1
        obtain ⟨gy, h1, h3⟩ := h1
        have hgx : Rep gx (es ++ [⟨if re then g.nest else es[a].level, 1, es[a].text⟩]) ∧ gx.nest = g.nest := by
          obtain ⟨r1, r2⟩ := rep_push hr h1
          have hix := r1.ix
          simp only [List.length_append, List.length_singleton] at hix
          cases h3
          cases re
          · simp only [Bool.not_false, if_true, Bool.false_eq_true, if_false]
            refine ⟨⟨by simp [hix], fun j hj => ?_⟩, r2⟩
            obtain ⟨k1, k2, k3⟩ := r1.get j (by simpa using hj)
            simp only
            have hga : gy.cells (3 * a) = es[a].level := by
              have := (r1.get a (by simp; omega)).1
              rwa [List.getElem_append_left (by omega)] at this
            rw [upd_apply, upd_apply, upd_apply, if_neg (show ¬ 3 * j + 1 = gy.ix - 3 by omega), if_neg (show ¬ 3 * j + 2 = gy.ix - 3 by omega)]
            simp only [List.length_append, List.length_singleton] at hj
            by_cases hj' : j < es.length
            · rw [if_neg (by omega), k1, k2, k3, List.getElem_append_left hj', List.getElem_append_left hj']
              exact ⟨rfl, rfl, rfl⟩
            · have : j = es.length := by omega
              subst this
              rw [if_pos (by omega), hga, k2, k3]
              simp [g3]
          · simp only [Bool.not_true, Bool.false_eq_true, if_false, if_true]
            rw [g3] at r1
            exact ⟨r1, r2⟩
        obtain ⟨i1, i2⟩ := rep_replay re n (a + 1) b gx g' _ hgx.1 (by simp; omega) (by omega) h2
        rw [kept_append hb, hgx.2] at i1
        rw [hk, if_pos h0]
        refine ⟨?_, i2.trans hgx.2⟩
        simpa using i1
      · rename_i h0
        rw [Res.bind_ok] at h
        rw [hk, if_neg h0]
        exact rep_replay re n (a + 1) b g g' es hr hb (by omega) h
    · rw [if_neg (by omega)] at h
      cases h
      have : kept es a b = [] := by unfold kept; rw [List.drop_eq_nil_of_le (by simp; omega)]; rfl
      rw [this]; simpa using hr

/-! ### Gaps -/

/-- The lines with their gaps filled; a gap has a negative level. -/
def view (fill : Nat → Int) : Nat → List Entry → List Entry
  | _, [] => []
  | n, e :: es => if e.level < 0 then ⟨-e.level, e.active, fill n⟩ :: view fill (n + 1) es else e :: view fill n es

def gaps : List Entry → Nat
  | [] => 0
  | e :: es => if e.level < 0 then gaps es + 1 else gaps es

/-- Indices of the gaps, the list starting at line `off`. -/
def gapIdx : Nat → List Entry → List Nat
  | _, [] => []
  | off, e :: es => if e.level < 0 then 3 * off :: gapIdx (off + 1) es else gapIdx (off + 1) es

theorem view_append (fill : Nat → Int) : ∀ n a b, view fill n (a ++ b) = view fill n a ++ view fill (n + gaps a) b
  | n, [], b => rfl
  | n, e :: a, b => by
    rw [List.cons_append, view, view, gaps]
    by_cases h : e.level < 0
    · rw [if_pos h, if_pos h, if_pos h, view_append fill (n + 1) a b, show n + 1 + gaps a = n + (gaps a + 1) by omega]; rfl
    · rw [if_neg h, if_neg h, if_neg h, view_append fill n a b]; rfl

theorem gaps_append : ∀ a b, gaps (a ++ b) = gaps a + gaps b
  | [], b => by simp [gaps]
  | e :: a, b => by
    rw [List.cons_append, gaps, gaps, gaps_append a b]
    split <;> omega

theorem gapIdx_append : ∀ off a b, gapIdx off (a ++ b) = gapIdx off a ++ gapIdx (off + a.length) b
  | off, [], b => rfl
  | off, e :: a, b => by
    rw [List.cons_append, gapIdx, gapIdx, gapIdx_append (off + 1) a b, List.length_cons, show off + 1 + a.length = off + (a.length + 1) by omega]
    split <;> rfl

theorem view_nogap (fill : Nat → Int) : ∀ n es, (∀ e ∈ es, (0 : Int) ≤ e.level) → view fill n es = es ∧ gaps es = 0
  | n, [], _ => ⟨rfl, rfl⟩
  | n, e :: es, h => by
    have h0 := h e (by simp)
    obtain ⟨h1, h2⟩ := view_nogap fill n es (fun e he => h e (by simp [he]))
    rw [view, gaps, if_neg (by omega), if_neg (by omega), h1]
    exact ⟨rfl, h2⟩

theorem gapIdx_nogap : ∀ off es, (∀ e ∈ es, (0 : Int) ≤ e.level) → gapIdx off es = []
  | off, [], _ => rfl
  | off, e :: es, h => by
    have h0 := h e (by simp)
    rw [gapIdx, if_neg (by omega)]
    exact gapIdx_nogap _ es (fun e he => h e (by simp [he]))

theorem fillGaps_spec (fill : Nat → Int) : ∀ (es pre : List Entry) n (g : GD), Rep g (pre ++ es) →
    ∃ g', fillGaps fill n (gapIdx pre.length es) g = .ok g' ∧ Rep g' (pre ++ view fill n es)
  | [], pre, n, g, hr => ⟨g, rfl, hr⟩
  | e :: es, pre, n, g, hr => by
    have key : ∀ e' : Entry, ∀ n g, Rep g ((pre ++ [e']) ++ es) →
        ∃ g', fillGaps fill n (gapIdx (pre.length + 1) es) g = .ok g' ∧ Rep g' (pre ++ e' :: view fill n es) := by
      intro e' n g h
      have := fillGaps_spec fill es (pre ++ [e']) n g h
      simpa using this
    rw [gapIdx, view]
    by_cases hneg : e.level < 0
    · rw [if_pos hneg, if_pos hneg, fillGaps, fixup_glo_decl]
      obtain ⟨g1, g2, g3⟩ := hr.get pre.length (by simp)
      have hg : (pre ++ e :: es)[pre.length]'(by simp) = e := by simp
      rw [hg] at g1 g2 g3
      rw [g1, if_neg (by omega), Res.bind_ok]
      refine key ⟨-e.level, e.active, fill n⟩ (n + 1) _ ⟨by simp [hr.ix], fun j hj => ?_⟩
      have hj' : j < (pre ++ e :: es).length := by simpa using hj
      obtain ⟨k1, k2, k3⟩ := hr.get j hj'
      simp only
      rw [upd_apply, upd_apply, upd_apply, upd_apply, upd_apply, upd_apply,
        if_neg (show ¬ 3 * j = 3 * pre.length + 2 by omega), if_neg (show ¬ 3 * j + 1 = 3 * pre.length + 2 by omega),
        if_neg (show ¬ 3 * j + 1 = 3 * pre.length by omega), if_neg (show ¬ 3 * j + 2 = 3 * pre.length by omega)]
      by_cases hjp : j = pre.length
      · subst hjp
        rw [if_pos rfl, if_pos rfl, g2]
        simp
      · rw [if_neg (by omega), if_neg (by omega), k1, k2, k3]
        have e1 : (pre ++ e :: es)[j] = (pre ++ [(⟨-e.level, e.active, fill n⟩ : Entry)] ++ es)[j]'(by simpa using hj') := by
          by_cases hlt : j < pre.length
          · simp [List.getElem_append_left, hlt]
          · rw [List.getElem_append_right (by omega), List.getElem_append_right (by simp; omega)]
            obtain ⟨k, hk⟩ : ∃ k, j - pre.length = k + 1 := ⟨j - pre.length - 1, by omega⟩
            simp only [List.length_append, List.length_singleton, hk, List.getElem_cons_succ]
            congr 1; omega
        rw [e1]; exact ⟨rfl, rfl, rfl⟩
    · rw [if_neg hneg, if_neg hneg]
      exact key e n g (by simpa using hr)

/-! ### Execution -/

def Entry.line (e : Entry) : Line := (e.level, e.text)

/-- The active lines. -/
def shown (es : List Entry) : List Line := (es.filter fun e => e.active = 1).map Entry.line

/-- Kept ranges hold the kept code. -/
structure KeptOk (es : List Entry) (ks : List (Nat × Nat)) (ls : List (List Line)) : Prop where
  len : ks.length = ls.length
  ok : ∀ i (h : i < ks.length), ∃ a b, ks[i] = (3 * a, 3 * b) ∧ b ≤ es.length ∧
    (kept es a b).map Entry.line = ls[i]'(by omega) ∧ ∀ e ∈ kept es a b, 0 ≤ e.level

theorem KeptOk.append {es ks ls} (h : KeptOk es ks ls) (new : List Entry) : KeptOk (es ++ new) ks ls := by
  refine ⟨h.len, fun i hi => ?_⟩
  obtain ⟨a, b, h1, h2, h3, h4⟩ := h.ok i hi
  exact ⟨a, b, h1, by simp; omega, by rw [kept_append h2]; exact h3, by rw [kept_append h2]; exact h4⟩

theorem shown_append (a b : List Entry) : shown (a ++ b) = shown a ++ shown b := by simp [shown]

theorem kept_undone {es new : List Entry} (h : ∀ e ∈ new, e.active ≤ 1) :
    (kept (es ++ new.map Entry.undo) es.length (es ++ new.map Entry.undo).length).map Entry.line = shown new := by
  unfold kept shown
  rw [List.take_length, List.drop_left]
  induction new with
  | nil => rfl
  | cons e new ih =>
    have ih := ih (fun e he => h e (by simp [he]))
    have h1 : (decide (e.undo.active = 0)) = decide (e.active = 1) := by
      rw [decide_eq_decide]; show e.active - 1 = 0 ↔ _; omega
    rw [List.map_cons, List.filter_cons, List.filter_cons, h1]
    by_cases ha : e.active = 1
    · simp only [ha, decide_true, if_true, List.map_cons, ih]; rfl
    · simp only [ha, decide_false, Bool.false_eq_true, if_false, ih]

theorem exec_spec (fill : Nat → Int) : ∀ (P : Prog) (ks : List (Nat × Nat)) (ls : List (List Line)) (gs : List Nat) (n : Nat) (g : GD)
    (es : List Entry) (inB inK : Bool) (gs' : List Nat) (g' : GD),
    Rep g es → KeptOk es ks ls → P.GapsOk inB inK → 0 ≤ g.nest → (inB = true → 1 ≤ g.nest) → P.exec ks gs g = .ok (gs', g') →
    ∃ new, Rep g' (es ++ new) ∧ g'.nest = g.nest ∧ (∀ e ∈ new, e.active ≤ 1) ∧ (inK = true → ∀ e ∈ new, 0 ≤ e.level) ∧
      gs' = gs ++ gapIdx es.length new ∧
      (shown (view fill n new), n + gaps new) = P.lines fill g.nest ls n := by
  intro P
  induction P with
  | done =>
    intro ks ls gs n g es inB inK gs' g' hr _ _ _ _ h
    cases h
    exact ⟨[], by simpa using hr, rfl, by simp, by simp, by simp [gapIdx], rfl⟩
  | line t k ih =>
    intro ks ls gs n g es inB inK gs' g' hr hk hg h0 h1 h
    rw [Prog.exec, Res.bind_eq_ok] at h
    obtain ⟨gx, e1, e2⟩ := h
    obtain ⟨r1, r2⟩ := rep_push hr e1
    obtain ⟨new, n1, n2, n3, n4, n5, n6⟩ := ih ks ls gs n gx _ inB inK gs' g' r1 (hk.append _) hg (by omega) (by rw [r2]; exact h1) e2
    refine ⟨⟨g.nest, 1, t⟩ :: new, by simpa using n1, n2.trans r2, ?_, ?_, ?_, ?_⟩
    · intro e he; rcases List.mem_cons.1 he with rfl | he
      · simp
      · exact n3 e he
    · intro hK e he; rcases List.mem_cons.1 he with rfl | he
      · exact h0
      · exact n4 hK e he
    · rw [n5, gapIdx, if_neg (by simp; omega)]; simp
    · rw [Prog.lines, view, gaps, if_neg (by simp; omega), if_neg (by simp; omega)]
      rw [r2] at n6
      rw [← n6]
      simp [shown, Entry.line]
  | block body k ihb ih =>
    intro ks ls gs n g es inB inK gs' g' hr hk hg h0 h1 h
    rw [Prog.exec, Res.bind_eq_ok] at h
    obtain ⟨⟨gs1, gx⟩, e1, e2⟩ := h
    have hr1 : Rep { g with nest := g.nest + 1 } es := ⟨hr.ix, hr.get⟩
    obtain ⟨nb, b1, b2, b3, b4, b5, b6⟩ := ihb ks ls gs n _ es true inK gs1 gx hr1 hk hg.1 (by simp; omega) (by simp; omega) e1
    simp only at b2 b6
    have hr2 : Rep { gx with nest := gx.nest - 1 } (es ++ nb) := ⟨b1.ix, b1.get⟩
    have hn : gx.nest - 1 = g.nest := by omega
    obtain ⟨new, n1, n2, n3, n4, n5, n6⟩ := ih ks ls gs1 (n + gaps nb) _ _ inB inK gs' g' hr2 (hk.append _) hg.2
      (by simp only [hn]; omega) (by simp only [hn]; exact h1) e2
    simp only [hn] at n2 n6
    refine ⟨nb ++ new, by simpa using n1, n2, ?_, ?_, ?_, ?_⟩
    · intro e he; rcases List.mem_append.1 he with he | he
      · exact b3 e he
      · exact n3 e he
    · intro hK e he; rcases List.mem_append.1 he with he | he
      · exact b4 hK e he
      · exact n4 hK e he
    · rw [n5, b5, gapIdx_append]; simp
    · rw [Prog.lines, ← b6]
      simp only
      rw [← n6, view_append, shown_append, gaps_append, Nat.add_assoc]
  | keep body k ihb ih =>
    intro ks ls gs n g es inB inK gs' g' hr hk hg h0 h1 h
    rw [Prog.exec, Res.bind_eq_ok] at h
    obtain ⟨⟨gs1, gx⟩, e1, e2⟩ := h
    obtain ⟨nb, b1, b2, b3, b4, b5, b6⟩ := ihb ks ls gs n g es inB true gs1 gx hr hk hg.1 h0 h1 e1
    have b4 := b4 rfl
    obtain ⟨v1, v2⟩ := view_nogap fill n nb b4
    rw [v1, v2, Nat.add_zero] at b6
    have hix := b1.ix
    obtain ⟨u1, u2⟩ := rep_undo (gx.ix + 1) gx nb es b1 (by rw [hix]; simp; omega)
    rw [← hr.ix] at u1 u2
    simp only at e2
    have hks : KeptOk (es ++ nb.map Entry.undo)
        ((g.ix, (undo_glo_decls (gx.ix + 1) g.ix gx).ix) :: ks) (shown nb :: ls) := by
      refine ⟨by simp [hk.len], fun i hi => ?_⟩
      cases i with
      | zero =>
        refine ⟨es.length, (es ++ nb.map Entry.undo).length, ?_, Nat.le_refl _, ?_, ?_⟩
        · have := u1.ix
          rw [List.getElem_cons_zero, this, hr.ix]
        · exact kept_undone b3
        · intro e he
          unfold kept at he
          rw [List.take_length, List.drop_left] at he
          obtain ⟨hm, _⟩ := List.mem_filter.1 he
          obtain ⟨e', he', rfl⟩ := List.mem_map.1 hm
          exact b4 e' he'
      | succ i => exact (hk.append _).ok i (by simpa using hi)
    obtain ⟨new, n1, n2, n3, n4, n5, n6⟩ := ih _ (shown nb :: ls) gs1 n _ _ inB inK gs' g' u1 hks hg.2
      (by rw [u2, b2]; exact h0) (by rw [u2, b2]; exact h1) e2
    have hun : ∀ e ∈ nb.map Entry.undo, (0 : Int) ≤ e.level := by
      intro e he
      obtain ⟨e', he', rfl⟩ := List.mem_map.1 he
      exact b4 e' he'
    obtain ⟨w1, w2⟩ := view_nogap fill n _ hun
    refine ⟨nb.map Entry.undo ++ new, by simpa using n1, by rw [n2, u2, b2], ?_, ?_, ?_, ?_⟩
    · intro e he; rcases List.mem_append.1 he with he | he
      · obtain ⟨e', he', rfl⟩ := List.mem_map.1 he
        have := b3 e' he'
        simp only [Entry.undo]; omega
      · exact n3 e he
    · intro hK e he; rcases List.mem_append.1 he with he | he
      · exact hun e he
      · exact n4 hK e he
    · rw [n5, b5, gapIdx_append, gapIdx_nogap _ _ hun, gapIdx_nogap _ _ b4]; simp
    · have hs0 : shown (nb.map Entry.undo) = [] := by
        unfold shown
        rw [List.map_eq_nil_iff, List.filter_eq_nil_iff]
        intro e he
        obtain ⟨e', he', rfl⟩ := List.mem_map.1 he
        have := b3 e' he'
        rw [decide_eq_true_eq]; show ¬ e'.active - 1 = 1; omega
      rw [Prog.lines, ← b6]
      simp only
      rw [u2, b2] at n6
      rw [← n6, view_append, shown_append, gaps_append, w1, w2, hs0]
      simp
  | emit i re k ih =>
    intro ks ls gs n g es inB inK gs' g' hr hk hg h0 h1 h
    rw [Prog.exec, Res.bind_eq_ok] at h
    obtain ⟨gx, e1, e2⟩ := h
    obtain ⟨a, b, ha, hb, hl, hlv⟩ : ∃ a b, (ks[i]?).getD (0, 0) = (3 * a, 3 * b) ∧ b ≤ es.length ∧
        (kept es a b).map Entry.line = (ls[i]?).getD [] ∧ ∀ e ∈ kept es a b, 0 ≤ e.level := by
      by_cases hi : i < ks.length
      · obtain ⟨a, b, q1, q2, q3, q4⟩ := hk.ok i hi
        have := hk.len
        refine ⟨a, b, by rw [List.getElem?_eq_getElem hi]; exact q1, q2, ?_, q4⟩
        rw [List.getElem?_eq_getElem (by omega)]; exact q3
      · have := hk.len
        refine ⟨0, 0, by rw [List.getElem?_eq_none (by omega)]; rfl, by omega, ?_, by simp [kept]⟩
        rw [List.getElem?_eq_none (by omega)]; simp [kept]
    rw [ha] at e1
    obtain ⟨r1, r2⟩ := rep_replay re _ a b g gx es hr hb (by simp; omega) e1
    have hcl : ∀ e ∈ (kept es a b).map (fun e => (⟨if re then g.nest else e.level, 1, e.text⟩ : Entry)), (0 : Int) ≤ e.level ∧ e.active = 1 := by
      intro e he
      obtain ⟨e', he', rfl⟩ := List.mem_map.1 he
      have := hlv e' he'
      cases re <;> simp <;> assumption
    obtain ⟨new, n1, n2, n3, n4, n5, n6⟩ := ih ks ls gs n gx _ inB inK gs' g' r1 (hk.append _) hg (by omega) (by rw [r2]; exact h1) e2
    obtain ⟨w1, w2⟩ := view_nogap fill n _ (fun e he => (hcl e he).1)
    refine ⟨_ ++ new, by simpa using n1, n2.trans r2, ?_, ?_, ?_, ?_⟩
    · intro e he; rcases List.mem_append.1 he with he | he
      · rw [(hcl e he).2]; omega
      · exact n3 e he
    · intro hK e he; rcases List.mem_append.1 he with he | he
      · exact (hcl e he).1
      · exact n4 hK e he
    · rw [n5, gapIdx_append, gapIdx_nogap _ _ (fun e he => (hcl e he).1)]; simp
    · have hsh : shown ((kept es a b).map (fun e => (⟨if re then g.nest else e.level, 1, e.text⟩ : Entry))) =
          if re then ((ls[i]?).getD []).map (fun l => (g.nest, l.2)) else (ls[i]?).getD [] := by
        unfold shown
        rw [List.filter_eq_self.2 (fun e he => by simp [(hcl e he).2]), ← hl]
        cases re <;> simp [Entry.line, Function.comp_def]
      rw [Prog.lines]
      rw [r2] at n6
      rw [← n6, view_append, shown_append, gaps_append, w1, w2, hsh]
      simp
  | gap k ih =>
    intro ks ls gs n g es inB inK gs' g' hr hk hg h0 h1 h
    rw [Prog.exec, Res.bind_eq_ok] at h
    obtain ⟨⟨ix, gx⟩, e1, e2⟩ := h
    unfold append_glo_decl_fixup at e1
    rw [Res.bind_eq_ok] at e1
    obtain ⟨gy, e1, e3⟩ := e1
    cases (show gy = gx by cases e3; rfl)
    have e4 : ix = gx.ix - 3 := by cases e3; rfl
    subst e4
    obtain ⟨r1, r2⟩ := rep_push hr e1
    obtain ⟨hB, hK, hg⟩ := hg
    have hn1 := h1 hB
    have hix := r1.ix
    simp only at e2
    obtain ⟨new, n1, n2, n3, n4, n5, n6⟩ := ih ks ls _ (n + 1) gx _ inB inK gs' g' r1 (hk.append _) hg (by omega) (by rw [r2]; exact h1) e2
    refine ⟨⟨-g.nest, 1, 0⟩ :: new, by simpa using n1, n2.trans r2, ?_, ?_, ?_, ?_⟩
    · intro e he; rcases List.mem_cons.1 he with rfl | he
      · simp
      · exact n3 e he
    · intro hK'; rw [hK] at hK'; cases hK'
    · rw [n5, gapIdx, if_pos (by simp; omega), hix]; simp; omega
    · rw [Prog.lines, view, gaps, if_pos (by simp; omega), if_pos (by simp; omega)]
      rw [r2] at n6
      rw [← n6]
      simp [shown, Entry.line]; omega

theorem print_spec' {pt : Int → Res (List Nat)} {render : Int → List Nat} (hp : ∀ t, t ≠ 0 → pt t = .ok (render t)) :
    ∀ n (g : GD) (es pre : List Entry), Rep g (pre ++ es) → es.length ≤ n →
    print_glo_decls pt n (3 * pre.length) g = .ok (script render (shown es))
  | 0, g, [], pre, _, _ => rfl
  | 0, g, _ :: _, pre, _, h => by simp at h
  | n + 1, g, [], pre, hr, _ => by
    have := hr.ix
    rw [print_glo_decls, if_neg (by simp at this; omega)]; rfl
  | n + 1, g, e :: es, pre, hr, h => by
    have hi := hr.ix
    simp only [List.length_append, List.length_cons] at hi
    have ih := print_spec' hp n g es (pre ++ [e]) (by simpa using hr) (by simp at h; omega)
    rw [show 3 * (pre ++ [e]).length = 3 * pre.length + 3 by simp; omega] at ih
    obtain ⟨g1, g2, g3⟩ := hr.get pre.length (by simp)
    have hg : (pre ++ e :: es)[pre.length]'(by simp) = e := by simp
    rw [hg] at g1 g2 g3
    rw [print_glo_decls, if_pos (by omega), ih, g1, g2, g3]
    by_cases ha : e.active = 1
    · have hs : shown (e :: es) = e.line :: shown es := by simp [shown, ha]
      rw [hs, if_pos ha]
      by_cases ht : e.text = 0
      · simp [ht, script, Entry.line]
      · simp [ht, script, Entry.line, hp _ ht]
    · have hs : shown (e :: es) = shown es := by simp [shown, ha]
      rw [hs, if_neg ha]; simp

/-- **C23 (partial)**: for every sequence of emitted lines, nested blocks, code compiled for later,
emissions of kept code and gaps, the gaps can be filled and what is printed is exactly the lines the
sequence means: each line once, in order, indented by its level, kept code where it is emitted and only
there. `print_text` is assumed to render every text (C24). Missing: more than 33333 lines in one
declaration (`C23_capacity_false`). -/
theorem C23_lines_partial (fill : Nat → Int) (pt : Int → Res (List Nat)) (render : Int → List Nat)
    (hp : ∀ t, t ≠ 0 → pt t = .ok (render t)) (P : Prog) (hg : P.GapsOk false false) (gs : List Nat) (g : GD)
    (h : P.exec [] [] GD.init = .ok (gs, g)) :
    ∃ g', fillGaps fill 0 gs g = .ok g' ∧
      print_glo_decls pt (g'.ix + 1) 0 g' = .ok (script render (P.lines fill 0 [] 0).1) := by
  obtain ⟨new, n1, _, _, _, n5, n6⟩ := exec_spec fill P [] [] [] 0 GD.init [] false false gs g
    ⟨rfl, fun j h => by simp at h⟩ ⟨rfl, fun i h => by simp at h⟩ hg (by decide) (by simp) h
  obtain ⟨g', f1, f2⟩ := fillGaps_spec fill new [] 0 g n1
  refine ⟨g', by rw [n5]; exact f1, ?_⟩
  have hix := f2.ix
  have := print_spec' hp (g'.ix + 1) g' (view fill 0 new) [] f2 (by simp only [List.nil_append] at hix; omega)
  rw [show GD.init.nest = 0 from rfl] at n6
  rw [← n6]
  exact this

/-! ### Kept code on one line -/

/-- `t` is a text printing as `out`. -/
def Prints (cm : Int → Nat) (tp : TP) (t : Int) (out : List Nat) : Prop :=
  ∃ d, Repr tp d t ∧ Valid cm d ∧ SlicesEnd cm d ∧ plain d = some out

theorem Prints.ext {cm : Int → Nat} {tp tp' : TP} {t : Int} {out : List Nat} (h : Prints cm tp t out) (he : Ext tp tp') :
    Prints cm tp' t out := by
  obtain ⟨d, h1, h2, h3, h4⟩ := h
  exact ⟨d, Repr.ext he _ _ h1, h2, h3, h4⟩

theorem Prints.print {cm : Int → Nat} {tp : TP} {t : Int} {out : List Nat} (h : Prints cm tp t out) :
    ∃ F, ∀ f, F ≤ f → print_text cm tp.pool f t = .ok out := by
  obtain ⟨d, h1, h2, h3, h4⟩ := h
  obtain ⟨F, hF⟩ := print_spec cm tp d t h1 h2 h3
  exact ⟨F, fun f hf => by have := hF f hf; rw [h4] at this; exact this⟩

theorem prints_cat {cm : Int → Nat} {tp tp' : TP} (hpos : 0 < tp.alloc) {ts : List Int} {t : Int} (h : string_concat ts tp = .ok (t, tp'))
    {f : Nat → Doc} {out : List Nat} (hf : ∀ i, i < ts.length → Repr tp (f i) ((ts[i]?).getD 0) ∧ Valid cm (f i) ∧ SlicesEnd cm (f i))
    (ho : catO ts.length (fun i => plain (f i)) = some out) : Ext tp tp' ∧ Prints cm tp' t out ∧ t ≠ 0 := by
  obtain ⟨h1, h2⟩ := cat_repr hpos h _ rfl f (fun i hi => (hf i hi).1)
  refine ⟨h1, ⟨_, h2, fun i hi => (hf i hi).2.1, fun i hi => (hf i hi).2.2, ho⟩, ?_⟩
  obtain ⟨p, e1, e2, _⟩ := h2
  omega

theorem prints_lit {cm : Int → Nat} {tp tp' : TP} (hpos : 0 < tp.alloc) {s t : Int} {bs : List Nat} (hs : IsStr cm s bs)
    (h : wrap_str_lit s tp = .ok (t, tp')) : Ext tp tp' ∧ Repr tp' (.str s bs) t := by
  refine leaf_repr h (fun h4 h3 _ => ⟨_, rfl, hpos, by simp at h3; omega, ?_⟩)
  exact ⟨by simpa using h4 0 (by simp), by simpa using h4 1 (by simp), by simpa using h4 2 (by simp)⟩

theorem Ext.trans {a b c : TP} (h : Ext a b) (h' : Ext b c) : Ext a c :=
  ⟨Nat.le_trans h.le h'.le, fun p hp => by rw [h'.same p (by have := h.le; omega), h.same p hp]⟩

theorem replay_inline_spec {cm : Int → Nat} {g : GD} {lit : Int} {es : List Entry} (hr : Rep g es) (hlit : IsStr cm lit [59, 32])
    (render : Int → List Nat) : ∀ n a b (res : Int) (tp : TP) (acc : List Nat) (res' : Int) (tp' : TP), b ≤ es.length → b ≤ a + n → 0 < tp.alloc →
    (∀ e ∈ kept es a b, e.text ≠ 0 → Prints cm tp e.text (render e.text)) → Prints cm tp res acc →
    replay_inline_go g lit n (3 * a) (3 * b) res tp = .ok (res', tp') →
    ∃ acc', Ext tp tp' ∧ Prints cm tp' res' acc' ∧
      (if res' = 0 then [] else acc' ++ [59, 32]) =
        (if res = 0 then [] else acc ++ [59, 32]) ++ (kept es a b).flatMap fun e => if e.text = 0 then [] else render e.text ++ [59, 32]
  | 0, a, b, res, tp, acc, res', tp', hb, hn, _, _, hp, h => by
    cases h
    have : kept es a b = [] := by unfold kept; rw [List.drop_eq_nil_of_le (by simp; omega)]; rfl
    exact ⟨acc, Ext.refl _, hp, by rw [this]; simp⟩
  | n + 1, a, b, res, tp, acc, res', tp', hb, hn, hpos, hd, hp, h => by
    rw [replay_inline_go] at h
    by_cases hab : a < b
    · rw [if_pos (by omega)] at h
      obtain ⟨g1, g2, g3⟩ := hr.get a (by omega)
      have hk : kept es a b = if es[a].active = 0 then es[a] :: kept es (a + 1) b else kept es (a + 1) b := by
        unfold kept
        rw [List.drop_eq_getElem_cons (by simp; omega), List.filter_cons]
        simp
      rw [g2, g3] at h
      split at h
      · rename_i h0
        rw [hk, if_pos h0] at hd ⊢
        rw [Res.bind_eq_ok] at h
        obtain ⟨⟨r1, tp1⟩, h1, h2⟩ := h
        rw [Res.bind_eq_ok] at h1
        obtain ⟨⟨semi, tp2⟩, h3, h4⟩ := h1
        obtain ⟨x1, x2⟩ := prints_lit hpos hlit h3
        have hpos2 : 0 < tp2.alloc := by have := x1.le; omega
        have step : ∃ acc1, Ext tp tp1 ∧ Prints cm tp1 r1 acc1 ∧ (if r1 = 0 then [] else acc1 ++ [59, 32]) =
            (if res = 0 then [] else acc ++ [59, 32]) ++ (if es[a].text = 0 then [] else render es[a].text ++ [59, 32]) := by
          simp only [concatenate_strings_with] at h4
          split at h4
          · rename_i hr0
            cases h4
            by_cases ht : es[a].text = 0
            · rw [ht, hr0]
              exact ⟨[], x1, ⟨.nil, rfl, trivial, trivial, rfl⟩, by simp⟩
            · exact ⟨render es[a].text, x1, (hd es[a] (by simp) ht).ext x1, by simp [hr0]⟩
          · rename_i hr0
            split at h4
            · rename_i ht
              cases h4
              exact ⟨acc, x1, hp.ext x1, by simp [ht, hr0]⟩
            · rename_i ht
              obtain ⟨d1, p1, p2, p3, p4⟩ := hp.ext x1
              obtain ⟨d2, q1, q2, q3, q4⟩ := (hd es[a] (by simp) ht).ext x1
              obtain ⟨y1, y2, y3⟩ := prints_cat (cm := cm) hpos2 h4
                (f := fun i => if i = 0 then d1 else if i = 1 then .str lit [59, 32] else d2)
                (out := acc ++ ([59, 32] ++ (render es[a].text ++ [])))
                (fun i hi => by
                  rcases i with _ | _ | _ | i
                  · exact ⟨p1, p2, p3⟩
                  · exact ⟨x2, hlit, trivial⟩
                  · exact ⟨q1, q2, q3⟩
                  · simp at hi; omega)
                (by simp [catO, p4, q4, plain])
              refine ⟨_, x1.trans y1, y2, ?_⟩
              simp [y3, hr0, ht]
        obtain ⟨acc1, z1, z2, z3⟩ := step
        obtain ⟨acc', w1, w2, w3⟩ := replay_inline_spec hr hlit render n (a + 1) b r1 tp1 acc1 res' tp' hb (by omega) (by have := z1.le; omega)
          (fun e he ht => (hd e (by simp [he]) ht).ext z1) z2 h2
        exact ⟨acc', z1.trans w1, w2, by rw [w3, z3]; simp⟩
      · rename_i h0
        rw [hk, if_neg h0] at hd ⊢
        rw [Res.bind_ok] at h
        exact replay_inline_spec hr hlit render n (a + 1) b res tp acc res' tp' hb (by omega) hpos hd hp h
    · rw [if_neg (by omega)] at h
      cases h
      have : kept es a b = [] := by unfold kept; rw [List.drop_eq_nil_of_le (by simp; omega)]; rfl
      exact ⟨acc, Ext.refl _, hp, by rw [this]; simp⟩

/-- **C23, kept code replayed inline**: the text built for a range of lines prints each line that was
undone exactly once and is not empty, in order, each followed by `; `. -/
theorem C23_inline (cm : Int → Nat) (g : GD) (es : List Entry) (hr : Rep g es) (lit : Int) (hlit : IsStr cm lit [59, 32])
    (render : Int → List Nat) (a b : Nat) (hb : b ≤ es.length) (tp tp' : TP) (hpos : 0 < tp.alloc) (t : Int)
    (hd : ∀ e ∈ kept es a b, e.text ≠ 0 → Prints cm tp e.text (render e.text))
    (h : replay_glo_decls_inline g lit (3 * a) (3 * b) tp = .ok (t, tp')) :
    ∃ F, ∀ fuel, F ≤ fuel → print_text cm tp'.pool fuel t =
      .ok ((kept es a b).flatMap fun e => if e.text = 0 then [] else render e.text ++ [59, 32]) := by
  unfold replay_glo_decls_inline at h
  rw [Res.bind_eq_ok] at h
  obtain ⟨⟨r, tp1⟩, h1, h2⟩ := h
  obtain ⟨acc, x1, x2, x3⟩ := replay_inline_spec hr hlit render _ a b 0 tp [] r tp1 hb (by omega) hpos hd
    ⟨.nil, rfl, trivial, trivial, rfl⟩ h1
  simp only [if_true, List.nil_append] at x3
  rw [← x3]
  simp only at h2
  split at h2
  · rename_i h0
    rw [if_neg h0]
    rw [Res.bind_eq_ok] at h2
    obtain ⟨⟨semi, tp2⟩, h3, h4⟩ := h2
    have hp1 : 0 < tp1.alloc := by have := x1.le; omega
    obtain ⟨y1, y2⟩ := prints_lit hp1 hlit h3
    obtain ⟨d1, p1, p2, p3, p4⟩ := x2.ext y1
    obtain ⟨z1, z2, z3⟩ := prints_cat (cm := cm) (show 0 < tp2.alloc by have := y1.le; omega) h4
      (f := fun i => if i = 0 then d1 else .str lit [59, 32]) (out := acc ++ ([59, 32] ++ []))
      (fun i hi => by
        rcases i with _ | _ | i
        · exact ⟨p1, p2, p3⟩
        · exact ⟨y2, hlit, trivial⟩
        · simp at hi; omega)
      (by simp [catO, p4, plain])
    exact z2.print
  · rename_i h0
    have h0 : r = 0 := by simpa using h0
    subst h0
    cases h2
    rw [if_pos rfl]
    exact ⟨1, fun f hf => by obtain ⟨g, rfl⟩ : ∃ g, f = g + 1 := ⟨f - 1, by omega⟩; rfl⟩

/-- `n` lines. -/
def manyLines : Nat → Prog
  | 0 => .done
  | n + 1 => .line 1 (manyLines n)

/-- C23 is false of long functions: 33333 lines are stored, one more writes past the array
(undetected). -/
theorem C23_capacity_false (n : Nat) :
    ((manyLines n).exec [] [] GD.init = .ub) ↔ 33333 < n := by
  suffices H : ∀ n g, g.ix % 3 = 0 → g.ix ≤ 99999 → ((manyLines n).exec [] [] g = .ub ↔ 33333 < n + g.ix / 3) by
    exact H n GD.init rfl (by decide)
  intro n
  induction n with
  | zero => intro g h1 h2; simp [manyLines, Prog.exec]; omega
  | succ n ih =>
    intro g h1 h2
    rw [manyLines, Prog.exec, append_glo_decl, push3]
    by_cases h : g.ix + 3 ≤ 100000
    · rw [if_pos h, Res.bind_ok, ih _ (by simp; omega) (by simp; omega)]
      simp only; omega
    · rw [if_neg h]
      exact ⟨fun _ => by omega, fun _ => rfl⟩

/-- The activity test is not what it says for code undone twice (nested kept code): such a line counts
as active although it is never printed. -/
theorem C23_any_active_false :
    ((Prog.keep (.keep (.line 7 .done) .done) .done).exec [] [] GD.init).bind
      (fun x => .ok (any_active_glo_decls 5 0 x.2, print_glo_decls (fun _ => .ok [65]) 5 0 x.2)) = .ok (true, .ok []) := by
  decide +kernel

/-- The hypotheses are met: a loop whose end action (text 5) is compiled first, emitted at a `continue`
and at the end of the body, inside a function with a gap. -/
def sampleProg : Prog :=
  .line 1 (.block (.gap (.keep (.line 5 .done) (.line 2 (.block (.block (.emit 0 true .done) (.line 3 (.emit 0 true .done))) (.line 4 .done))))) .done)

example : sampleProg.GapsOk false false := by simp [sampleProg, Prog.GapsOk]
example : (sampleProg.lines (fun _ => 9) 0 [] 0).1 = [(0, 1), (1, 9), (1, 2), (3, 5), (2, 3), (2, 5), (1, 4)] := by decide
example : (sampleProg.exec [] [] GD.init).bind (fun x => (fillGaps (fun _ => 9) 0 x.1 x.2).bind fun g =>
    print_glo_decls (fun t => .ok [(48 + t).toNat]) 99 0 g) =
  .ok [49, 10, 32, 32, 57, 10, 32, 32, 50, 10, 32, 32, 32, 32, 32, 32, 53, 10, 32, 32, 32, 32, 51, 10, 32, 32, 32, 32, 53, 10, 32, 32, 52, 10] := by
  decide +kernel

end Verif.Text
