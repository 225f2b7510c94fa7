import Verif.Front.Model
import Verif.Front.Spec
import Verif.Intern.Proofs
/-! The table of names: which kind each name has. -/
namespace Verif.Front
open Verif Verif.Intern

/-- `K` are the kinds of the names in the table. -/
structure KK (w : World) (T : List Ent) (K : List Nat → Int) : Prop where
  inv : Inv w T
  kind : ∀ e ∈ T, w.st.heap (e.h + 2) = K e.bs
  bkt : ∀ e ∈ T, ∃ sg, e.b = hashOf sg e.bs
  spec : ∀ s, K s ≠ IDENTIFIER → (∀ b ∈ s, b < 128) ∧ ∃ e ∈ T, e.bs = s ∧ e.b = hashOf false s

theorem kk_intern {w : World} {T : List Ent} {K : List Nat → Int} (k : KK w T K) {sg : Bool} {bs : List Nat} (hnz : ∀ b ∈ bs, b ≠ 0) {h : Nat} {s' : Intern.St}
    (hr : intern sg w.st bs = .ok (h, s')) :
    ∃ T', KK { w with st := s', handles := w.handles ++ [h] } T' K ∧ (∀ e ∈ T, e ∈ T') ∧ ∃ e ∈ T', e.h = h ∧ e.bs = bs ∧ e.b = hashOf sg bs := by
  obtain ⟨T', h1, h2, h3, h4, h5⟩ := intern_inv' k.inv hnz hr
  refine ⟨T', ⟨h1, fun e he => ?_, fun e he => ?_, fun s hs => ?_⟩, h2, h3⟩
  · rcases h5 e he with he | ⟨rfl, h6, h7⟩
    · rw [← k.kind e he]; exact h4 e he
    · dsimp only
      rw [h6]
      by_cases hk : K bs = IDENTIFIER
      · exact hk.symm
      · obtain ⟨ha, f, hf, hb, hc⟩ := k.spec _ hk
        exact absurd ⟨hb, by rw [hc]; exact hashOf_ascii _ _ _ ha⟩ (h7 f hf)
  · rcases h5 e he with he | ⟨rfl, _, _⟩
    · exact k.bkt e he
    · exact ⟨sg, rfl⟩
  · obtain ⟨ha, f, hf, hb⟩ := k.spec _ hs
    exact ⟨ha, f, h2 f hf, hb⟩

/-- What may be done with the heap and the pool besides reading tokens: anything but changing the kind of a name. -/
def Quiet (o : Op) : Prop := o.NulFree ∧ ∀ i v, o ≠ .setKind i v

theorem kk_step {w w' : World} {T : List Ent} {K : List Nat → Int} (k : KK w T K) {o : Op} (hq : Quiet o) (hs : step w o = .ok w') :
    ∃ T', KK w' T' K ∧ (∀ e ∈ T, e ∈ T') := by
  obtain ⟨T', i1, i2, i3, i4⟩ := step_inv k.inv hq.1 hs
  cases o with
  | intern sg bs =>
    simp only [step] at hs
    obtain ⟨⟨h, s⟩, h1, h2⟩ := Res.bind_eq_ok.mp hs
    injection h2 with h2; subst h2
    obtain ⟨T', a, b, _⟩ := kk_intern k hq.1 h1
    exact ⟨T', a, b⟩
  | setKind i v => exact absurd rfl (hq.2 i v)
  | alloc cells =>
    obtain ⟨-, rfl⟩ := i4 (by simp)
    refine ⟨_, ⟨i1, fun e he => ?_, k.bkt, k.spec⟩, i2⟩
    rw [← k.kind e he]
    simp only [step] at hs
    obtain ⟨⟨p, s⟩, h1, h2⟩ := Res.bind_eq_ok.mp hs
    unfold allocObj at h1
    split at h1
    · cases h1
    injection h1 with h1; injection h1 with hp hs'
    subst hp; subst hs'
    injection h2 with h2; subst h2
    have := (k.inv.ents e he).hi
    exact writeList_lt _ _ _ (by simp only; omega)
  | poke i j v =>
    obtain ⟨-, rfl⟩ := i4 (by simp)
    refine ⟨_, ⟨i1, fun e he => ?_, k.bkt, k.spec⟩, i2⟩
    rw [← k.kind e he]
    simp only [step] at hs
    split at hs
    · rename_i p n hg
      split at hs
      · rename_i hj
        injection hs with hs; subst hs
        have ho := (k.inv.objs _ (List.mem_of_getElem? hg)).2.2 e he
        exact upd_other _ _ (by simp only at ho; omega)
      · injection hs with hs; subst hs; rfl
    · injection hs with hs; subst hs; rfl
  | setTag i v =>
    obtain ⟨-, rfl⟩ := i4 (by simp)
    refine ⟨_, ⟨i1, fun e he => ?_, k.bkt, k.spec⟩, i2⟩
    rw [← k.kind e he]
    simp only [step] at hs
    split at hs
    · rename_i h hg
      injection hs with hs; subst hs
      obtain ⟨f, hf, rfl⟩ := k.inv.hnds _ (List.mem_of_getElem? hg)
      refine upd_other _ _ ?_
      rcases sep_mem k.inv.sep he hf with rfl | hs | hs <;> omega
    · injection hs with hs; subst hs; rfl

theorem kk_run {K : List Nat → Int} : ∀ (os : List Op) {w w' : World} {T : List Ent}, KK w T K → (∀ o ∈ os, Quiet o) → run w os = .ok w' → ∃ T', KK w' T' K ∧ (∀ e ∈ T, e ∈ T')
  | [], w, w', T, k, _, h => by
    simp only [run, Res.ok.injEq] at h; subst h
    exact ⟨T, k, fun _ h => h⟩
  | o :: os, w, w', T, k, hq, h => by
    simp only [run] at h
    obtain ⟨w1, h1, h2⟩ := Res.bind_eq_ok.mp h
    obtain ⟨T1, k1, s1⟩ := kk_step k (hq o (by simp)) h1
    obtain ⟨T2, k2, s2⟩ := kk_run os k1 (fun o ho => hq o (by simp [ho])) h2
    exact ⟨T2, k2, fun e he => s2 e (s1 e he)⟩

/-- The kinds after `init_ident`. -/
def kinds (K : List Nat → Int) : List (List Nat × Int) → List Nat → Int
  | [] => K
  | (n, k) :: r => kinds (fun s => if s = n then k else K s) r

theorem kk_setKind {w : World} {T : List Ent} {K : List Nat → Int} (k : KK w T K) {e : Ent} (he : e ∈ T) (hb : e.b = hashOf false e.bs) (ha : ∀ b ∈ e.bs, b < 128) {i : Nat} (hi : w.handles[i]? = some e.h) (v : Int) :
    ∃ w', step w (.setKind i v) = .ok w' ∧ w'.handles = w.handles ∧ KK w' T (fun s => if s = e.bs then v else K s) := by
  refine ⟨{ w with st := { w.st with heap := upd w.st.heap (e.h + 2) v } }, by simp only [step, hi], rfl, ?_⟩
  have hs : step w (.setKind i v) = .ok { w with st := { w.st with heap := upd w.st.heap (e.h + 2) v } } := by simp only [step, hi]
  obtain ⟨T', i1, i2, i3, i4⟩ := step_inv k.inv (o := .setKind i v) trivial hs
  obtain ⟨-, rfl⟩ := i4 (by simp)
  refine ⟨i1, fun f hf => ?_, k.bkt, fun s hs => ?_⟩
  · by_cases hfe : f.bs = e.bs
    · rw [if_pos hfe]
      obtain ⟨sg, hsg⟩ := k.bkt f hf
      have : f.h = e.h := (inv_handle_eq k.inv hf he).mpr ⟨hfe, by rw [hsg, hb, hfe]; exact hashOf_ascii _ _ _ ha⟩
      rw [this]; exact upd_same ..
    · rw [if_neg hfe, ← k.kind f hf]
      refine upd_other _ _ ?_
      rcases sep_mem k.inv.sep he hf with rfl | hs | hs
      · exact absurd rfl hfe
      · omega
      · omega
  · by_cases h : s = e.bs
    · subst h; exact ⟨ha, e, he, rfl, hb⟩
    · simp only [h, if_false] at hs; exact k.spec s hs

theorem kk_init : ∀ (l : List (List Nat × Int)) {w w' : World} {T : List Ent} {K : List Nat → Int}, KK w T K → (∀ p ∈ l, ∀ b ∈ p.1, b ≠ 0 ∧ b < 128) →
    run w (initOps w.handles.length l) = .ok w' → ∃ T', KK w' T' (kinds K l)
  | [], w, w', T, K, k, _, h => by
    simp only [initOps, run, Res.ok.injEq] at h; subst h
    exact ⟨T, k⟩
  | (n, v) :: r, w, w', T, K, k, hl, h => by
    simp only [initOps, run] at h
    obtain ⟨w1, h1, h2⟩ := Res.bind_eq_ok.mp h
    obtain ⟨w2, h3, h4⟩ := Res.bind_eq_ok.mp h2
    simp only [step] at h1
    obtain ⟨⟨x, s⟩, h5, h6⟩ := Res.bind_eq_ok.mp h1
    injection h6 with h6; subst h6
    have hn := hl (n, v) (by simp)
    obtain ⟨T1, k1, _, e, he, rfl, rfl, e3⟩ := kk_intern k (fun b hb => (hn b hb).1) h5
    obtain ⟨w3, h7, h8, k3⟩ := kk_setKind k1 he e3 (fun b hb => (hn b hb).2) (i := w.handles.length) (by simp) v
    rw [h7] at h3
    injection h3 with h3; subst h3
    have := kk_init r (w := w3) k3 (fun p hp => hl p (by simp [hp])) (by rw [h8]; simpa using h4)
    simpa [kinds] using this

theorem kk_start0 : KK World.init [] (fun _ => IDENTIFIER) := ⟨inv_init, by simp, by simp, by simp⟩

/-- After the initialization each name has the kind of the table. -/
theorem kk_start {t : Cli.Target} {w : World} (h : start t = .ok w) : ∃ T, KK w T (kinds (fun _ => IDENTIFIER) (inits t)) := by
  refine kk_init _ kk_start0 ?_ h
  cases t <;> decide +kernel

theorem mem_of_lookup {α β : Type} [BEq α] [LawfulBEq α] {a : α} {b : β} : ∀ {l : List (α × β)}, l.lookup a = some b → (a, b) ∈ l
  | (c, d) :: l, h => by
    rw [List.lookup_cons] at h
    split at h
    · rename_i e
      rw [beq_iff_eq] at e
      subst e; cases h; simp
    · exact List.mem_cons_of_mem _ (mem_of_lookup h)

theorem kinds_notMem : ∀ (l : List (List Nat × Int)) (K : List Nat → Int) (s : List Nat), s ∉ l.map (·.1) → kinds K l s = K s
  | [], _, _, _ => rfl
  | (n, k) :: r, K, s, h => by
    simp only [List.map_cons, List.mem_cons, not_or] at h
    rw [kinds, kinds_notMem r _ s h.2]
    exact if_neg h.1

/-- The kinds of the table are the words of C. -/
theorem word_ok (t : Cli.Target) (num : List Nat → Nat) (s : List Nat) {x : PStmt.Tok} (h : Spec.tok num (.ident s) = some x) : word (kinds (fun _ => IDENTIFIER) (inits t) s) (num s) = some x := by
  by_cases hs : s ∈ (inits t).map (·.1)
  · have : ∀ s ∈ (inits t).map (·.1), ((Spec.keywords.lookup s).isSome ∨ s ∈ Spec.typeWords ∨ s ∈ Spec.macros) ∨ kinds (fun _ => IDENTIFIER) (inits t) s = IDENTIFIER := by cases t <;> decide +kernel
    have h2 : ∀ s ∈ (inits t).map (·.1), ∀ x ∈ Spec.keywords.lookup s, word (kinds (fun _ => IDENTIFIER) (inits t) s) 0 = some x := by cases t <;> decide +kernel
    have h3 : ∀ s ∈ (inits t).map (·.1), ∀ x ∈ Spec.keywords.lookup s, kinds (fun _ => IDENTIFIER) (inits t) s ≠ IDENTIFIER := by cases t <;> decide +kernel
    simp only [Spec.tok] at h
    split at h
    · rename_i y hy
      have a := h2 s hs y hy
      have b := h3 s hs y hy
      rw [← h, ← a, word, word, if_neg b, if_neg b]
    · rename_i hy
      split at h
      · cases h
      · rename_i hn
        rcases this s hs with (h4 | h4) | h4
        · rw [hy] at h4; cases h4
        · exact absurd h4 hn
        · rw [h4]; simpa [word] using h
  · rw [kinds_notMem _ _ _ hs]
    have h2 : ∀ p ∈ Spec.keywords, p.1 ∈ (inits t).map (·.1) := by cases t <;> decide +kernel
    simp only [Spec.tok] at h
    split at h
    · rename_i y hy
      exact absurd (h2 _ (mem_of_lookup hy)) hs
    · split at h
      · cases h
      · simpa [word] using h

theorem oper_ok (o : Lex.Op) {x : PStmt.Tok} (h : Spec.punct o = some x) : oper o = some x := by
  cases o with
  | ch c =>
    by_cases hc : c < 127
    · have : ∀ c < 127, ∀ x ∈ Spec.punct (.ch c), oper (.ch c) = some x := by decide +kernel
      exact this c hc x h
    · exfalso
      simp only [Spec.punct] at h
      have := mem_of_lookup h
      have h2 : ∀ (l : List (List Nat × PStmt.Tok)), (∀ p ∈ l, ∀ b ∈ p.1, b < 127) → ([c], x) ∈ l → c < 127 := fun l hl hm => hl _ hm c (by simp)
      exact hc (h2 _ (by decide +kernel) this)
  | _ => exact h

end Verif.Front
