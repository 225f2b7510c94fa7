import Verif.Front.Proofs
import Verif.Intern.Props
import Verif.Lex.Props
import Verif.PStmt.Props
/-! From the text to the tree. -/
namespace Verif.Front
open Verif Verif.Intern Verif.Lex.Spec

/-- What a token does with the table. -/
def tokOps : Lex.Tok → List Op
  | .ident s => [.intern false s]
  | .str s => [.intern false s]
  | _ => []

/-- All that is done with the heap and the string pool while the tokens are read. -/
def history (more : Nat → List Op) : Nat → List Lex.Tok → List Op
  | _, [] => []
  | i, t :: r => more i ++ (tokOps t ++ history more (i + 1) r)

theorem run_append : ∀ (a : List Op) {b : List Op} {w w' : World}, run w (a ++ b) = .ok w' → ∃ w1, run w a = .ok w1 ∧ run w1 b = .ok w'
  | [], _, w, _, h => ⟨w, rfl, h⟩
  | o :: a, b, w, w', h => by
    simp only [List.cons_append, run] at h
    obtain ⟨w1, h1, h2⟩ := Res.bind_eq_ok.mp h
    obtain ⟨w2, h3, h4⟩ := run_append a h2
    exact ⟨w2, by simp only [run, h1, Res.bind_ok, h3], h4⟩

theorem run_append' : ∀ (a : List Op) {b : List Op} {w w1 w' : World}, run w a = .ok w1 → run w1 b = .ok w' → run w (a ++ b) = .ok w'
  | [], _, w, w1, w', h, h' => by simp only [run, Res.ok.injEq] at h; subst h; exact h'
  | o :: a, b, w, w1, w', h, h' => by
    simp only [List.cons_append, run] at h ⊢
    obtain ⟨w2, h1, h2⟩ := Res.bind_eq_ok.mp h
    rw [h1, Res.bind_ok]
    exact run_append' a h2 h'

theorem enter_of_run {w w' : World} {bs : List Nat} (h : run w [.intern false bs] = .ok w') : ∃ x, enter w bs = .ok (x, w') ∧ intern false w.st bs = .ok (x, w'.st) ∧ w' = { w with st := w'.st, handles := w.handles ++ [x] } := by
  simp only [run, step] at h
  obtain ⟨w1, h1, h2⟩ := Res.bind_eq_ok.mp h
  obtain ⟨⟨x, s⟩, h3, h4⟩ := Res.bind_eq_ok.mp h1
  simp only [Res.ok.injEq] at h2 h4
  subst h4; subst h2
  exact ⟨x, by simp only [enter, h3, Res.bind_ok], h3, rfl⟩

/-- The numbers are those of the table. -/
def Numbers (T : List Ent) (num : List Nat → Nat) (s : List Nat) : Prop := ∀ e ∈ T, e.bs = s → e.b = hashOf false s → num s = e.h

theorem conv_ok (t : Cli.Target) (more : Nat → List Op) (hm : ∀ i, ∀ o ∈ more i, Quiet o) : ∀ (ts : List Lex.Tok) (i : Nat) {w w' : World} {T : List Ent},
    KK w T (kinds (fun _ => IDENTIFIER) (inits t)) → (∀ s ∈ Spec.names ts, ∀ b ∈ s, b ≠ 0) → Spec.NulFree ts → run w (history more i ts) = .ok w' →
    ∃ T', KK w' T' (kinds (fun _ => IDENTIFIER) (inits t)) ∧ (∀ e ∈ T, e ∈ T') ∧ (∀ s ∈ Spec.names ts, ∃ e ∈ T', e.bs = s ∧ e.b = hashOf false s) ∧
      ∀ num, (∀ s ∈ Spec.names ts, Numbers T' num s) → ∀ xs, Spec.Toks num ts xs → conv more i w ts = .ok (some xs, w')
  | [], i, w, w', T, k, _, _, h => by
    simp only [history, run, Res.ok.injEq] at h; subst h
    refine ⟨T, k, fun _ h => h, by simp [Spec.names], fun num _ xs hx => ?_⟩
    cases hx
    rfl
  | t0 :: r, i, w, w', T, k, hn, hz, h => by
    obtain ⟨w1, h1, h2⟩ := run_append _ h
    obtain ⟨w2, h3, h4⟩ := run_append _ h2
    obtain ⟨T1, k1, s1⟩ := kk_run _ k (hm i) h1
    have hz' : Spec.NulFree r := fun s hs => hz s (List.mem_cons_of_mem _ hs)
    cases t0 with
    | ident s =>
      obtain ⟨x, e1, e2, e3⟩ := enter_of_run h3
      obtain ⟨T2, k2, s2, e, he, rfl, rfl, eb⟩ := kk_intern k1 (fun b hb => hn s (by simp [Spec.names]) b hb) e2
      rw [← e3] at k2
      obtain ⟨T3, k3, s3, n3, c3⟩ := conv_ok t more hm r (i + 1) k2 (fun s hs => hn s (by simp [Spec.names, hs])) hz' h4
      refine ⟨T3, k3, fun a ha => s3 a (s2 a (s1 a ha)), fun s hs => ?_, fun num hnum xs hx => ?_⟩
      · rcases List.mem_cons.mp hs with rfl | hs
        · exact ⟨e, s3 e he, rfl, eb⟩
        · exact n3 s hs
      · cases hx with
        | @cons _ y _ ys hy hys =>
          have c := c3 num (fun s hs => hnum s (by simp [Spec.names, hs])) ys hys
          have hw := word_ok t num e.bs hy
          rw [hnum e.bs (by simp [Spec.names]) e (s3 e he) rfl eb, ← k2.kind e he] at hw
          rw [conv, h1, Res.bind_ok, one, e1, Res.bind_ok, Res.bind_ok]
          dsimp only
          rw [c, hw]
          rfl
    | str s =>
      obtain ⟨x, e1, e2, e3⟩ := enter_of_run h3
      obtain ⟨T2, k2, s2, e, he, rfl, rfl, eb⟩ := kk_intern k1 (fun b hb h0 => hz s (by simp) (h0 ▸ hb)) e2
      rw [← e3] at k2
      obtain ⟨T3, k3, s3, n3, c3⟩ := conv_ok t more hm r (i + 1) k2 (fun s hs => hn s (by simpa [Spec.names] using hs)) hz' h4
      refine ⟨T3, k3, fun a ha => s3 a (s2 a (s1 a ha)), fun s hs => n3 s (by simpa [Spec.names] using hs), fun num hnum xs hx => ?_⟩
      cases hx with
      | @cons _ y _ ys hy hys =>
        have c := c3 num (fun s hs => hnum s (by simpa [Spec.names] using hs)) ys hys
        rw [conv, h1, Res.bind_ok, one, e1, Res.bind_ok, Res.bind_ok]
        dsimp only
        rw [c, inv_spelling k2.inv he]
        simp only [Spec.tok, Option.some.injEq] at hy
        subst hy
        rfl
    | int kd v =>
      simp only [tokOps, run, Res.ok.injEq] at h3; subst h3
      obtain ⟨T3, k3, s3, n3, c3⟩ := conv_ok t more hm r (i + 1) k1 (fun s hs => hn s (by simpa [Spec.names] using hs)) hz' h4
      refine ⟨T3, k3, fun a ha => s3 a (s1 a ha), fun s hs => n3 s (by simpa [Spec.names] using hs), fun num hnum xs hx => ?_⟩
      cases hx with
      | @cons _ y _ ys hy hys =>
        rw [conv, h1, Res.bind_ok, one, Res.bind_ok]
        dsimp only
        rw [c3 num (fun s hs => hnum s (by simpa [Spec.names] using hs)) ys hys]
        simp only [Spec.tok, Option.some.injEq] at hy
        subst hy
        rfl
    | chr v =>
      simp only [tokOps, run, Res.ok.injEq] at h3; subst h3
      obtain ⟨T3, k3, s3, n3, c3⟩ := conv_ok t more hm r (i + 1) k1 (fun s hs => hn s (by simpa [Spec.names] using hs)) hz' h4
      refine ⟨T3, k3, fun a ha => s3 a (s1 a ha), fun s hs => n3 s (by simpa [Spec.names] using hs), fun num hnum xs hx => ?_⟩
      cases hx with
      | @cons _ y _ ys hy hys =>
        rw [conv, h1, Res.bind_ok, one, Res.bind_ok]
        dsimp only
        rw [c3 num (fun s hs => hnum s (by simpa [Spec.names] using hs)) ys hys]
        simp only [Spec.tok, Option.some.injEq] at hy
        subst hy
        rfl
    | op o =>
      simp only [tokOps, run, Res.ok.injEq] at h3; subst h3
      obtain ⟨T3, k3, s3, n3, c3⟩ := conv_ok t more hm r (i + 1) k1 (fun s hs => hn s (by simpa [Spec.names] using hs)) hz' h4
      refine ⟨T3, k3, fun a ha => s3 a (s1 a ha), fun s hs => n3 s (by simpa [Spec.names] using hs), fun num hnum xs hx => ?_⟩
      cases hx with
      | @cons _ y _ ys hy hys =>
        rw [conv, h1, Res.bind_ok, one, Res.bind_ok]
        dsimp only
        rw [c3 num (fun s hs => hnum s (by simpa [Spec.names] using hs)) ys hys, oper_ok o hy]
        rfl
    | _ =>
      simp only [tokOps, run, Res.ok.injEq] at h3; subst h3
      obtain ⟨T3, k3, s3, n3, c3⟩ := conv_ok t more hm r (i + 1) k1 (fun s hs => hn s (by simpa [Spec.names] using hs)) hz' h4
      refine ⟨T3, k3, fun a ha => s3 a (s1 a ha), fun s hs => n3 s (by simpa [Spec.names] using hs), fun num hnum xs hx => ?_⟩
      cases hx with
      | cons hy hys => simp [Spec.tok] at hy

theorem ident_bytes {s : List Nat} (h : Identifier s) : ∀ b ∈ s, b ≠ 0 := by
  induction h with
  | one h =>
    intro b hb
    simp only [List.mem_singleton] at hb; subst hb
    rcases h with h | h | h <;> omega
  | more _ h ih =>
    intro b hb
    rcases List.mem_append.mp hb with hb | hb
    · exact ih b hb
    · simp only [List.mem_singleton] at hb; subst hb
      rcases h with (h | h | h) | h
      · omega
      · omega
      · omega
      · rcases h with ⟨h, _⟩; omega

theorem names_bytes {sh : Bool} {inp : List Nat} {ts : List Lex.Tok} (h : Splits sh inp ts) : ∀ s ∈ Spec.names ts, ∀ b ∈ s, b ≠ 0 := by
  induction h with
  | done _ => simp [Spec.names]
  | @cons g lex rest t ts hg ht hl hc hs ih =>
    cases ht with
    | ident hi =>
      intro s hm
      rcases List.mem_cons.mp hm with rfl | hm
      · exact ident_bytes hi
      · exact ih s hm
    | _ => exact ih

theorem toks_noHash {num : List Nat → Nat} {ts : List Lex.Tok} {xs : List PStmt.Tok} (h : Spec.Toks num ts xs) : Lex.NoHash ts := by
  have h1 : Spec.tok num (.op (.ch 35)) = none := by simp only [Spec.tok]; decide +kernel
  induction h with
  | nil => simp [Lex.NoHash]
  | @cons t x ts xs hx _ ih =>
    refine ⟨fun hm => ?_, fun hm => ?_⟩
    · rcases List.mem_cons.mp hm with rfl | hm
      · rw [h1] at hx; cases hx
      · exact ih.1 hm
    · rcases List.mem_cons.mp hm with rfl | hm
      · cases hx
      · exact ih.2 hm

/-- The number of a name in the table. -/
def number (T : List Ent) (s : List Nat) : Nat := ((T.find? fun e => decide (e.bs = s ∧ e.b = hashOf false s)).map Ent.h).getD 0

theorem number_ok {w : World} {T : List Ent} (hI : Inv w T) (s : List Nat) : Numbers T (number T) s := by
  intro e he h1 h2
  simp only [number]
  cases hf : T.find? fun e => decide (e.bs = s ∧ e.b = hashOf false s) with
  | none =>
    have := List.find?_eq_none.mp hf e he
    simp [h1, h2] at this
  | some f =>
    have h3 := List.find?_some hf
    simp only [decide_eq_true_eq] at h3
    exact (inv_handle_eq hI (List.mem_of_find?_eq_some hf) he).mpr ⟨by rw [h3.1, h1], by rw [h3.2, h2]⟩

theorem front_ok {sh : Bool} {t : Cli.Target} {more : Nat → List Op} {inp : List Nat} {ts : List Lex.Tok} (hc : Splits sh inp ts) (hz : Spec.NulFree ts)
    (hm : ∀ i, ∀ o ∈ more i, Quiet o) {w : World} (hfit : run World.init (initOps 0 (inits t) ++ history more 0 ts) = .ok w) :
    ∃ num, (∀ s ∈ Spec.names ts, spelling w.st (num s) = s) ∧
      ∀ xs rest st, Spec.Toks num ts (xs ++ rest) → PStmt.Spec.Body false xs st → front sh t more inp = .ok (some (st, rest)) := by
  obtain ⟨w0, h0, h1⟩ := run_append _ hfit
  obtain ⟨T0, k0⟩ := kk_start (t := t) h0
  obtain ⟨T, k, _, hn, hv⟩ := conv_ok t more hm ts 0 k0 (names_bytes hc) hz h1
  refine ⟨number T, fun s hs => ?_, fun xs rest st hx hb => ?_⟩
  · obtain ⟨e, he, h2, h3⟩ := hn s hs
    rw [number_ok k.inv s e he h2 h3, inv_spelling k.inv he, h2]
  · have ht := Lex.tokens_of_splits hc (toks_noHash hx)
    have := hv _ (fun s _ => number_ok k.inv s) _ hx
    rw [front, ht, Res.bind_ok, start, h0, Res.bind_ok, this, Res.bind_ok]
    dsimp only
    rw [PStmt.C43_parses_iso_bodies hb rest]
    rfl

/-! ## Words that are no identifiers -/

theorem word_none (t : Cli.Target) (h : Nat) {s : List Nat} (hs : s ∈ Spec.typeWords ∨ s ∈ Spec.allMacros) : word (kinds (fun _ => IDENTIFIER) (inits t) s) h = none := by
  have h1 : ∀ s ∈ Spec.typeWords ++ Spec.allMacros, word (kinds (fun _ => IDENTIFIER) (inits t) s) 0 = none ∧ kinds (fun _ => IDENTIFIER) (inits t) s ≠ IDENTIFIER := by cases t <;> decide +kernel
  obtain ⟨a, b⟩ := h1 s (by simpa using hs)
  rw [← a, word, word, if_neg b, if_neg b]

theorem conv_none (t : Cli.Target) (more : Nat → List Op) (hm : ∀ i, ∀ o ∈ more i, Quiet o) : ∀ (ts : List Lex.Tok) (i : Nat) {w w' : World} {T : List Ent},
    KK w T (kinds (fun _ => IDENTIFIER) (inits t)) → (∀ s ∈ Spec.names ts, ∀ b ∈ s, b ≠ 0) → Spec.NulFree ts → run w (history more i ts) = .ok w' →
    ∃ o, conv more i w ts = .ok (o, w') ∧ ∀ s ∈ Spec.names ts, (s ∈ Spec.typeWords ∨ s ∈ Spec.allMacros) → o = none
  | [], i, w, w', T, k, _, _, h => by
    simp only [history, run, Res.ok.injEq] at h; subst h
    exact ⟨_, rfl, by simp [Spec.names]⟩
  | t0 :: r, i, w, w', T, k, hn, hz, h => by
    obtain ⟨w1, h1, h2⟩ := run_append _ h
    obtain ⟨w2, h3, h4⟩ := run_append _ h2
    obtain ⟨T1, k1, s1⟩ := kk_run _ k (hm i) h1
    have hz' : Spec.NulFree r := fun s hs => hz s (List.mem_cons_of_mem _ hs)
    have hq : (∃ x, one w1 t0 = .ok (x, w1)) ∨ (∃ s, t0 = .ident s) ∨ ∃ s, t0 = .str s := by
      cases t0 <;> first | exact .inl ⟨_, rfl⟩ | exact .inr (.inl ⟨_, rfl⟩) | exact .inr (.inr ⟨_, rfl⟩)
    cases t0 with
    | ident s =>
      obtain ⟨x, e1, e2, e3⟩ := enter_of_run h3
      obtain ⟨T2, k2, s2, e, he, rfl, rfl, eb⟩ := kk_intern k1 (fun b hb => hn s (by simp [Spec.names]) b hb) e2
      rw [← e3] at k2
      obtain ⟨o, c, hno⟩ := conv_none t more hm r (i + 1) k2 (fun s hs => hn s (by simp [Spec.names, hs])) hz' h4
      refine ⟨_, by rw [conv, h1, Res.bind_ok, one, e1, Res.bind_ok, Res.bind_ok]; dsimp only; rw [c]; rfl, fun s hs hk => ?_⟩
      rcases List.mem_cons.mp hs with rfl | hs
      · rw [k2.kind e he, word_none t _ hk]; rfl
      · rw [hno s hs hk]; cases word _ _ <;> rfl
    | str s =>
      obtain ⟨x, e1, e2, e3⟩ := enter_of_run h3
      obtain ⟨T2, k2, s2, e, he, rfl, rfl, eb⟩ := kk_intern k1 (fun b hb h0 => hz s (by simp) (h0 ▸ hb)) e2
      rw [← e3] at k2
      obtain ⟨o, c, hno⟩ := conv_none t more hm r (i + 1) k2 (fun s hs => hn s (by simpa [Spec.names] using hs)) hz' h4
      refine ⟨_, by rw [conv, h1, Res.bind_ok, one, e1, Res.bind_ok, Res.bind_ok]; dsimp only; rw [c]; rfl, fun s hs hk => ?_⟩
      rw [hno s (by simpa [Spec.names] using hs) hk]; rfl
    | _ =>
      simp only [tokOps, run, Res.ok.injEq] at h3; subst h3
      obtain ⟨o, c, hno⟩ := conv_none t more hm r (i + 1) k1 (fun s hs => hn s (by simpa [Spec.names] using hs)) hz' h4
      obtain ⟨x, hx⟩ : ∃ x, one w1 _ = .ok (x, w1) := by
        rcases hq with h | ⟨_, h⟩ | ⟨_, h⟩
        · exact h
        · cases h
        · cases h
      refine ⟨_, by rw [conv, h1, Res.bind_ok, hx, Res.bind_ok]; dsimp only; rw [c]; rfl, fun s hs hk => ?_⟩
      rw [hno s (by simpa [Spec.names] using hs) hk]
      cases x <;> rfl

/-! ## The tables are large enough -/

theorem intern_total {w : World} {T : List Ent} (hI : Inv w T) {sg : Bool} {bs : List Nat} (hnz : ∀ b ∈ bs, b ≠ 0) (hp : w.st.poolAlloc + bs.length + 1 < POOL_SIZE) (hh : w.st.heapAlloc + 5 ≤ HEAP_SIZE) :
    ∃ h s', intern sg w.st bs = .ok (h, s') ∧ s'.poolAlloc ≤ w.st.poolAlloc + bs.length + 1 ∧ s'.heapAlloc ≤ w.st.heapAlloc + 5 := by
  obtain ⟨s1, h1⟩ := accumAll_isOk sg (beginString w.st) bs (by simp only [beginString]; omega)
  obtain ⟨a1, a2, a3, a4, a5, a6⟩ := accumAll_ok h1
  simp only [beginString] at a1 a2 a3 a4 a5 a6
  have hhash : s1.hash = hashOf sg bs := a6
  have hbk : hashOf sg bs < HASH_PRIME := foldl_hash_lt sg bs 0 (by decide)
  have hpool : ∀ x, x < w.st.poolAlloc → upd s1.pool s1.poolAlloc 0 x = w.st.pool x := by
    intro x hx
    rw [upd_other _ _ (by omega), a5, writeList_lt _ _ _ hx]
  have hstr : StrAt (upd s1.pool s1.poolAlloc 0) w.st.poolAlloc bs := by
    apply strAt_writeList w.st.pool _ _ hnz
    · intro x hx; rw [upd_other _ _ (by omega), a5]
    · rw [a4, upd_same]
  have hents : ∀ e ∈ T, StrAt (upd s1.pool s1.poolAlloc 0) (w.st.heap (e.h + 1)).toNat e.bs := by
    intro e he
    have ho := hI.ents e he
    exact ho.str.congr (fun x h1 h2 => hpool x (by have := ho.strHi; omega))
  have hfl : (T.filter (fun e => e.b = hashOf sg bs)).length ≤ T.length := List.length_filter_le _ _
  have hcount := hI.count
  have hspec := walk_spec (bs := bs)
    (s := { s1 with pool := upd s1.pool s1.poolAlloc 0, poolAlloc := s1.poolAlloc + 1 })
    (by simpa [a3] using hstr) (by simp [a3, a4]; omega)
    (T.filter (fun e => e.b = hashOf sg bs)) s1.hash (s1.heapAlloc + 1)
    (by simpa [a1, hhash] using hI.chains _ hbk)
    (fun e he => by simpa [a1] using hents e (List.mem_filter.mp he).1)
    (by rw [a2]; simp only [HASH_PRIME] at hcount; omega)
  have hend : ¬ s1.poolAlloc ≥ POOL_SIZE := by omega
  rcases hspec with ⟨e, he, hebs, hwk⟩ | ⟨hno, hwk⟩
  · refine ⟨e.h, { s1 with pool := upd s1.pool s1.poolAlloc 0, poolAlloc := s1.start }, ?_, ?_, ?_⟩
    · simp only [intern, h1, Res.bind_ok, endIdent, if_neg hend, hwk]
    · simp only; omega
    · simp only; omega
  · simp only [intern, h1, Res.bind_ok, endIdent, if_neg hend, hwk, allocObj]
    rw [if_neg (by omega)]
    exact ⟨_, _, rfl, by simp only; omega, by simp only; omega⟩

/-- The room that the names and strings of a text need: bytes in the pool and entries. -/
def room : List Lex.Tok → Nat × Nat
  | [] => (0, 0)
  | .ident s :: r => (s.length + 1 + (room r).1, 1 + (room r).2)
  | .str s :: r => (s.length + 1 + (room r).1, 1 + (room r).2)
  | _ :: r => room r

theorem history_total (t : Cli.Target) : ∀ (ts : List Lex.Tok) (i : Nat) {w : World} {T : List Ent}, KK w T (kinds (fun _ => IDENTIFIER) (inits t)) → (∀ s ∈ Spec.names ts, ∀ b ∈ s, b ≠ 0) → Spec.NulFree ts →
    w.st.poolAlloc + (room ts).1 < POOL_SIZE → w.st.heapAlloc + 5 * (room ts).2 ≤ HEAP_SIZE → ∃ w', run w (history (fun _ => []) i ts) = .ok w'
  | [], _, w, _, _, _, _, _, _ => ⟨w, rfl⟩
  | t0 :: r, i, w, T, k, hn, hz, h1, h2 => by
    have hz' : Spec.NulFree r := fun s hs => hz s (List.mem_cons_of_mem _ hs)
    have key : ∀ s, (∀ b ∈ s, b ≠ 0) → (∀ s ∈ Spec.names r, ∀ b ∈ s, b ≠ 0) → w.st.poolAlloc + (s.length + 1 + (room r).1) < POOL_SIZE → w.st.heapAlloc + 5 * (1 + (room r).2) ≤ HEAP_SIZE →
        ∃ w', run w ([.intern false s] ++ history (fun _ => []) (i + 1) r) = .ok w' := by
      intro s hs hn h1 h2
      obtain ⟨h, s', e1, e2, e3⟩ := intern_total k.inv (sg := false) hs (by omega) (by omega)
      obtain ⟨T', k', _⟩ := kk_intern k hs e1
      obtain ⟨w', hw⟩ := history_total t r (i + 1) k' hn hz' (by simp only; omega) (by simp only; omega)
      exact ⟨w', run_append' _ (by simp only [run, step, e1, Res.bind_ok]) hw⟩
    cases t0 with
    | ident s => exact key s (hn s (by simp [Spec.names])) (fun s hs => hn s (by simp [Spec.names, hs])) h1 h2
    | str s => exact key s (fun b hb h0 => hz s (by simp) (h0 ▸ hb)) (fun s hs => hn s (by simpa [Spec.names] using hs)) h1 h2
    | _ => exact history_total t r (i + 1) k (fun s hs => hn s (by simpa [Spec.names] using hs)) hz' h1 h2

/-- How much of the tables is used before the text is read. -/
def used (r : Res World) : Option (Nat × Nat) :=
  match r with
  | .ok w => some (w.st.poolAlloc, w.st.heapAlloc)
  | _ => none

end Verif.Front
