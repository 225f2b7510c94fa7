import Verif.FrontD.Model
import Verif.FrontD.Spec
import Verif.Front.Props
import Verif.Decl.Props
/-! From the text to the declarations. -/
namespace Verif.FrontD
open Verif Verif.Intern Verif.Lex.Spec

/-- The kinds of the table are the words of C. -/
theorem word_ok (t : Cli.Target) (num : List Nat → Nat) (s : List Nat) {x : Decl.Tok} (h : Spec.tok num (.ident s) = some x) : word (Front.kinds (fun _ => IDENTIFIER) (Front.inits t) s) (num s) = some x := by
  by_cases hs : s ∈ (Front.inits t).map (·.1)
  · have : ∀ s ∈ (Front.inits t).map (·.1), ((Spec.keywords.lookup s).isSome ∨ s ∈ Spec.otherWords ∨ s ∈ Front.Spec.macros) ∨ Front.kinds (fun _ => IDENTIFIER) (Front.inits t) s = IDENTIFIER := by cases t <;> decide +kernel
    have h2 : ∀ s ∈ (Front.inits t).map (·.1), ∀ x ∈ Spec.keywords.lookup s, word (Front.kinds (fun _ => IDENTIFIER) (Front.inits t) s) 0 = some x := by cases t <;> decide +kernel
    have h3 : ∀ s ∈ (Front.inits t).map (·.1), ∀ x ∈ Spec.keywords.lookup s, Front.kinds (fun _ => IDENTIFIER) (Front.inits t) s ≠ IDENTIFIER := by cases t <;> decide +kernel
    simp only [Spec.tok] at h
    split at h
    · rename_i y hy
      have a := h2 s hs y hy
      have b := h3 s hs y hy
      rw [← h, ← a, word, word, if_neg b, if_neg b]
    · rename_i hy
      split at h
      · cases h
      · rename_i hn
        rcases this s hs with (h4 | h4) | h4
        · rw [hy] at h4; cases h4
        · exact absurd h4 hn
        · rw [h4]; simpa [word] using h
  · rw [Front.kinds_notMem _ _ _ hs]
    have h2 : ∀ p ∈ Spec.keywords, p.1 ∈ (Front.inits t).map (·.1) := by cases t <;> decide +kernel
    simp only [Spec.tok] at h
    split at h
    · rename_i y hy
      exact absurd (h2 _ (Front.mem_of_lookup hy)) hs
    · split at h
      · cases h
      · simpa [word] using h

theorem oper_ok (o : Lex.Op) {x : Decl.Tok} (h : Spec.punct o = some x) : oper o = some x := by
  cases o with
  | ch c =>
    by_cases hc : c < 127
    · have : ∀ c < 127, ∀ x ∈ Spec.punct (.ch c), oper (.ch c) = some x := by decide +kernel
      exact this c hc x h
    · exfalso
      simp only [Spec.punct] at h
      have := Front.mem_of_lookup h
      have h2 : ∀ (l : List (List Nat × Decl.Tok)), (∀ p ∈ l, ∀ b ∈ p.1, b < 127) → ([c], x) ∈ l → c < 127 := fun l hl hm => hl _ hm c (by simp)
      exact hc (h2 _ (by decide +kernel) this)
  | ellipsis => exact h
  | _ => cases h

theorem conv_ok (t : Cli.Target) (more : Nat → List Op) (hm : ∀ i, ∀ o ∈ more i, Front.Quiet o) : ∀ (ts : List Lex.Tok) (i : Nat) {w w' : World} {T : List Ent},
    Front.KK w T (Front.kinds (fun _ => IDENTIFIER) (Front.inits t)) → (∀ s ∈ Front.Spec.names ts, ∀ b ∈ s, b ≠ 0) → Front.Spec.NulFree ts → run w (Front.history more i ts) = .ok w' →
    ∃ T', Front.KK w' T' (Front.kinds (fun _ => IDENTIFIER) (Front.inits t)) ∧ (∀ e ∈ T, e ∈ T') ∧ (∀ s ∈ Front.Spec.names ts, ∃ e ∈ T', e.bs = s ∧ e.b = hashOf false s) ∧
      ∀ num, (∀ s ∈ Front.Spec.names ts, Front.Numbers T' num s) → ∀ xs, Spec.Toks num ts xs → conv more i w ts = .ok (some xs, w')
  | [], i, w, w', T, k, _, _, h => by
    simp only [Front.history, run, Res.ok.injEq] at h; subst h
    refine ⟨T, k, fun _ h => h, by simp [Front.Spec.names], fun num _ xs hx => ?_⟩
    cases hx
    rfl
  | t0 :: r, i, w, w', T, k, hn, hz, h => by
    obtain ⟨w1, h1, h2⟩ := Front.run_append _ h
    obtain ⟨w2, h3, h4⟩ := Front.run_append _ h2
    obtain ⟨T1, k1, s1⟩ := Front.kk_run _ k (hm i) h1
    have hz' : Front.Spec.NulFree r := fun s hs => hz s (List.mem_cons_of_mem _ hs)
    cases t0 with
    | ident s =>
      obtain ⟨x, e1, e2, e3⟩ := Front.enter_of_run h3
      obtain ⟨T2, k2, s2, e, he, rfl, rfl, eb⟩ := Front.kk_intern k1 (fun b hb => hn s (by simp [Front.Spec.names]) b hb) e2
      rw [← e3] at k2
      obtain ⟨T3, k3, s3, n3, c3⟩ := conv_ok t more hm r (i + 1) k2 (fun s hs => hn s (by simp [Front.Spec.names, hs])) hz' h4
      refine ⟨T3, k3, fun a ha => s3 a (s2 a (s1 a ha)), fun s hs => ?_, fun num hnum xs hx => ?_⟩
      · rcases List.mem_cons.mp hs with rfl | hs
        · exact ⟨e, s3 e he, rfl, eb⟩
        · exact n3 s hs
      · cases hx with
        | @cons _ y _ ys hy hys =>
          have c := c3 num (fun s hs => hnum s (by simp [Front.Spec.names, hs])) ys hys
          have hw := word_ok t num e.bs hy
          rw [hnum e.bs (by simp [Front.Spec.names]) e (s3 e he) rfl eb, ← k2.kind e he] at hw
          rw [conv, h1, Res.bind_ok, one, e1, Res.bind_ok, Res.bind_ok]
          dsimp only
          rw [c, hw]
          rfl
    | str s =>
      obtain ⟨x, e1, e2, e3⟩ := Front.enter_of_run h3
      obtain ⟨T2, k2, s2, e, he, rfl, rfl, eb⟩ := Front.kk_intern k1 (fun b hb h0 => hz s (by simp) (h0 ▸ hb)) e2
      rw [← e3] at k2
      obtain ⟨T3, k3, s3, n3, c3⟩ := conv_ok t more hm r (i + 1) k2 (fun s hs => hn s (by simpa [Front.Spec.names] using hs)) hz' h4
      refine ⟨T3, k3, fun a ha => s3 a (s2 a (s1 a ha)), fun s hs => n3 s (by simpa [Front.Spec.names] using hs), fun num hnum xs hx => ?_⟩
      cases hx with
      | @cons _ y _ ys hy hys =>
        simp [Spec.tok] at hy
    | int kd v =>
      simp only [Front.tokOps, run, Res.ok.injEq] at h3; subst h3
      obtain ⟨T3, k3, s3, n3, c3⟩ := conv_ok t more hm r (i + 1) k1 (fun s hs => hn s (by simpa [Front.Spec.names] using hs)) hz' h4
      refine ⟨T3, k3, fun a ha => s3 a (s1 a ha), fun s hs => n3 s (by simpa [Front.Spec.names] using hs), fun num hnum xs hx => ?_⟩
      cases hx with
      | @cons _ y _ ys hy hys =>
        rw [conv, h1, Res.bind_ok, one, Res.bind_ok]
        dsimp only
        rw [c3 num (fun s hs => hnum s (by simpa [Front.Spec.names] using hs)) ys hys]
        simp only [Spec.tok, Option.some.injEq] at hy
        subst hy
        rfl
    | chr v =>
      simp only [Front.tokOps, run, Res.ok.injEq] at h3; subst h3
      obtain ⟨T3, k3, s3, n3, c3⟩ := conv_ok t more hm r (i + 1) k1 (fun s hs => hn s (by simpa [Front.Spec.names] using hs)) hz' h4
      refine ⟨T3, k3, fun a ha => s3 a (s1 a ha), fun s hs => n3 s (by simpa [Front.Spec.names] using hs), fun num hnum xs hx => ?_⟩
      cases hx with
      | @cons _ y _ ys hy hys =>
        rw [conv, h1, Res.bind_ok, one, Res.bind_ok]
        dsimp only
        rw [c3 num (fun s hs => hnum s (by simpa [Front.Spec.names] using hs)) ys hys]
        simp only [Spec.tok, Option.some.injEq] at hy
        subst hy
        rfl
    | op o =>
      simp only [Front.tokOps, run, Res.ok.injEq] at h3; subst h3
      obtain ⟨T3, k3, s3, n3, c3⟩ := conv_ok t more hm r (i + 1) k1 (fun s hs => hn s (by simpa [Front.Spec.names] using hs)) hz' h4
      refine ⟨T3, k3, fun a ha => s3 a (s1 a ha), fun s hs => n3 s (by simpa [Front.Spec.names] using hs), fun num hnum xs hx => ?_⟩
      cases hx with
      | @cons _ y _ ys hy hys =>
        rw [conv, h1, Res.bind_ok, one, Res.bind_ok]
        dsimp only
        rw [c3 num (fun s hs => hnum s (by simpa [Front.Spec.names] using hs)) ys hys, oper_ok o hy]
        rfl
    | _ =>
      simp only [Front.tokOps, run, Res.ok.injEq] at h3; subst h3
      obtain ⟨T3, k3, s3, n3, c3⟩ := conv_ok t more hm r (i + 1) k1 (fun s hs => hn s (by simpa [Front.Spec.names] using hs)) hz' h4
      refine ⟨T3, k3, fun a ha => s3 a (s1 a ha), fun s hs => n3 s (by simpa [Front.Spec.names] using hs), fun num hnum xs hx => ?_⟩
      cases hx with
      | cons hy hys => simp [Spec.tok] at hy

theorem toks_noHash {num : List Nat → Nat} {ts : List Lex.Tok} {xs : List Decl.Tok} (h : Spec.Toks num ts xs) : Lex.NoHash ts := by
  have h1 : Spec.tok num (.op (.ch 35)) = none := by simp only [Spec.tok]; decide +kernel
  induction h with
  | nil => simp [Lex.NoHash]
  | @cons t x ts xs hx _ ih =>
    refine ⟨fun hm => ?_, fun hm => ?_⟩
    · rcases List.mem_cons.mp hm with rfl | hm
      · rw [h1] at hx; cases hx
      · exact ih.1 hm
    · rcases List.mem_cons.mp hm with rfl | hm
      · cases hx
      · exact ih.2 hm

theorem front_ok {t : Cli.Target} {more : Nat → List Op} {inp : List Nat} {ts : List Lex.Tok} (hc : Splits false inp ts) (hz : Front.Spec.NulFree ts)
    (hm : ∀ i, ∀ o ∈ more i, Front.Quiet o) {w : World} (hfit : run World.init (Front.initOps 0 (Front.inits t) ++ Front.history more 0 ts) = .ok w) :
    ∃ num, (∀ s ∈ Front.Spec.names ts, spelling w.st (num s) = s) ∧
      ∀ xs os env, Spec.Toks num ts xs → Decl.Spec.SUnit (fun _ => none) xs os env →
        ∃ outs types s, s.toks = [] ∧ Decl.Spec.All2 (Decl.Spec.OutIs s.heap) outs os ∧ Decl.Spec.TypesAre s.heap types env ∧ ∃ N, ∀ n, N ≤ n → front n t more inp = .ok (some (outs, types, s)) := by
  obtain ⟨w0, h0, h1⟩ := Front.run_append _ hfit
  obtain ⟨T0, k0⟩ := Front.kk_start (t := t) h0
  obtain ⟨T, k, _, hn, hv⟩ := conv_ok t more hm ts 0 k0 (Front.names_bytes hc) hz h1
  refine ⟨Front.number T, fun s hs => ?_, fun xs os env hx hb => ?_⟩
  · obtain ⟨e, he, h2, h3⟩ := hn s hs
    rw [Front.number_ok k.inv s e he h2 h3, inv_spelling k.inv he, h2]
  · have ht := Lex.tokens_of_splits hc (toks_noHash hx)
    have := hv _ (fun s _ => Front.number_ok k.inv s) _ hx
    obtain ⟨outs, types, s, h2, h3, h4, N, h5⟩ := Decl.C42_unit_partial xs os env hb none false
    refine ⟨outs, types, s, h2, h3, h4, N, fun n hn => ?_⟩
    rw [front, ht, Res.bind_ok, Front.start, h0, Res.bind_ok, this, Res.bind_ok]
    dsimp only
    have h6 := h5 n hn
    unfold Decl.noTypes at h6
    unfold noTypes
    rw [h6]
    rfl

/-! ## Words that are no names -/

theorem word_none (t : Cli.Target) (h : Nat) {s : List Nat} (hs : s ∈ Spec.otherWords ∨ s ∈ Front.Spec.allMacros) : word (Front.kinds (fun _ => IDENTIFIER) (Front.inits t) s) h = none := by
  have h1 : ∀ s ∈ Spec.otherWords ++ Front.Spec.allMacros, word (Front.kinds (fun _ => IDENTIFIER) (Front.inits t) s) 0 = none ∧ Front.kinds (fun _ => IDENTIFIER) (Front.inits t) s ≠ IDENTIFIER := by cases t <;> decide +kernel
  obtain ⟨a, b⟩ := h1 s (by simpa using hs)
  rw [← a, word, word, if_neg b, if_neg b]

theorem conv_none (t : Cli.Target) (more : Nat → List Op) (hm : ∀ i, ∀ o ∈ more i, Front.Quiet o) : ∀ (ts : List Lex.Tok) (i : Nat) {w w' : World} {T : List Ent},
    Front.KK w T (Front.kinds (fun _ => IDENTIFIER) (Front.inits t)) → (∀ s ∈ Front.Spec.names ts, ∀ b ∈ s, b ≠ 0) → Front.Spec.NulFree ts → run w (Front.history more i ts) = .ok w' →
    ∃ o, conv more i w ts = .ok (o, w') ∧ ∀ s ∈ Front.Spec.names ts, (s ∈ Spec.otherWords ∨ s ∈ Front.Spec.allMacros) → o = none
  | [], i, w, w', T, k, _, _, h => by
    simp only [Front.history, run, Res.ok.injEq] at h; subst h
    exact ⟨_, rfl, by simp [Front.Spec.names]⟩
  | t0 :: r, i, w, w', T, k, hn, hz, h => by
    obtain ⟨w1, h1, h2⟩ := Front.run_append _ h
    obtain ⟨w2, h3, h4⟩ := Front.run_append _ h2
    obtain ⟨T1, k1, s1⟩ := Front.kk_run _ k (hm i) h1
    have hz' : Front.Spec.NulFree r := fun s hs => hz s (List.mem_cons_of_mem _ hs)
    have hq : (∃ x, one w1 t0 = .ok (x, w1)) ∨ (∃ s, t0 = .ident s) ∨ ∃ s, t0 = .str s := by
      cases t0 <;> first | exact .inl ⟨_, rfl⟩ | exact .inr (.inl ⟨_, rfl⟩) | exact .inr (.inr ⟨_, rfl⟩)
    cases t0 with
    | ident s =>
      obtain ⟨x, e1, e2, e3⟩ := Front.enter_of_run h3
      obtain ⟨T2, k2, s2, e, he, rfl, rfl, eb⟩ := Front.kk_intern k1 (fun b hb => hn s (by simp [Front.Spec.names]) b hb) e2
      rw [← e3] at k2
      obtain ⟨o, c, hno⟩ := conv_none t more hm r (i + 1) k2 (fun s hs => hn s (by simp [Front.Spec.names, hs])) hz' h4
      refine ⟨_, by rw [conv, h1, Res.bind_ok, one, e1, Res.bind_ok, Res.bind_ok]; dsimp only; rw [c]; rfl, fun s hs hk => ?_⟩
      rcases List.mem_cons.mp hs with rfl | hs
      · rw [k2.kind e he, word_none t _ hk]; rfl
      · rw [hno s hs hk]; cases word _ _ <;> rfl
    | str s =>
      obtain ⟨x, e1, e2, e3⟩ := Front.enter_of_run h3
      obtain ⟨T2, k2, s2, e, he, rfl, rfl, eb⟩ := Front.kk_intern k1 (fun b hb h0 => hz s (by simp) (h0 ▸ hb)) e2
      rw [← e3] at k2
      obtain ⟨o, c, hno⟩ := conv_none t more hm r (i + 1) k2 (fun s hs => hn s (by simpa [Front.Spec.names] using hs)) hz' h4
      refine ⟨_, by rw [conv, h1, Res.bind_ok, one, e1, Res.bind_ok, Res.bind_ok]; dsimp only; rw [c]; rfl, fun s hs hk => ?_⟩
      rw [hno s (by simpa [Front.Spec.names] using hs) hk]; rfl
    | _ =>
      simp only [Front.tokOps, run, Res.ok.injEq] at h3; subst h3
      obtain ⟨o, c, hno⟩ := conv_none t more hm r (i + 1) k1 (fun s hs => hn s (by simpa [Front.Spec.names] using hs)) hz' h4
      obtain ⟨x, hx⟩ : ∃ x, one w1 _ = .ok (x, w1) := by
        rcases hq with h | ⟨_, h⟩ | ⟨_, h⟩
        · exact h
        · cases h
        · cases h
      refine ⟨_, by rw [conv, h1, Res.bind_ok, hx, Res.bind_ok]; dsimp only; rw [c]; rfl, fun s hs hk => ?_⟩
      rw [hno s (by simpa [Front.Spec.names] using hs) hk]
      cases x <;> rfl


end Verif.FrontD
