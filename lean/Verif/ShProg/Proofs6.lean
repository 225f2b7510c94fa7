import Verif.ShProg.Proofs5
/-! Statements: what the commands do is an execution of the statement (continued). -/
namespace Verif.ShProg
open Verif Verif.Stmt Verif.Frame Verif.ShProg.Spec
open Verif.Hoist (Expr Args Rv Dest Cmd Machine obind omap)

variable {L : Lang}
variable {C : Calls L} {call : CallFn L} {f : CFn} {vars : List Name} {ret : Name} {args : List Int} {s0 : Store} {n : Nat}

/-- The function `body` executes the statement `s`. -/
def Sim (C : Calls L) (vars : List Name) (s0 : Store) (ret : Name) (s : CSt) (body : Sh L.X → Option (CO × Sh L.X)) : Prop :=
  ∀ S w o S', Ok vars s0 S w → body S = some (o, S') → ∃ o' w', Spec.Exec C s w o' w' ∧ EndOk vars s0 ret S' w' o o'

theorem loop_sim {c p : Option Expr} {s : CSt} {test : Sh L.X → Option (Sh L.X × Bool)} {body : Sh L.X → Option (CO × Sh L.X)} {step : Sh L.X → Option (Sh L.X)}
    (ht : ∀ S w S' b, Ok vars s0 S w → test S = some (S', b) → ∃ w', Ok vars s0 S' w' ∧ Spec.Cond C c w b w') (hb : Sim C vars s0 ret s body)
    (hp : ∀ S w S', Ok vars s0 S w → step S = some S' → ∃ w', Ok vars s0 S' w' ∧ DoneOpt C p w w') :
    ∀ m S w o S', Ok vars s0 S w → cloop test body step m S = some (o, S') → ∃ o' w', Spec.Loop C c p s w o' w' ∧ EndOk vars s0 ret S' w' o o' := by
  intro m
  induction m with
  | zero => intro S w o S' _ h; cases h
  | succ m ih =>
    intro S w o S' hok h
    simp only [cloop] at h
    obtain ⟨⟨S1, b⟩, h1, h2⟩ := obind h
    obtain ⟨w1, ok1, c1⟩ := ht _ _ _ _ hok h1
    cases b with
    | false =>
      simp only [Bool.false_eq_true, if_false, Option.some.injEq, Prod.mk.injEq] at h2
      obtain ⟨rfl, rfl⟩ := h2
      exact ⟨.norm, w1, .done c1, ok1⟩
    | true =>
      simp only [if_true] at h2
      obtain ⟨⟨o1, S2⟩, h3, h4⟩ := obind h2
      obtain ⟨o2, w2, e2, k2⟩ := hb _ _ _ _ ok1 h3
      have next : o2.next = true → Ok vars s0 S2 w2 → ((step S2).bind (cloop test body step m)) = some (o, S') → ∃ o' w', Spec.Loop C c p s w o' w' ∧ EndOk vars s0 ret S' w' o o' := by
        intro hn ok2 h4
        obtain ⟨S3, h5, h6⟩ := obind h4
        obtain ⟨w3, ok3, d3⟩ := hp _ _ _ ok2 h5
        obtain ⟨o', w', l', k'⟩ := ih _ _ _ _ ok3 h6
        exact ⟨o', w', .next c1 e2 hn d3 l', k'⟩
      cases o1 with
      | norm => obtain ⟨rfl, ok2⟩ := k2.norm; exact next rfl ok2 h4
      | cont => obtain ⟨rfl, ok2⟩ := k2.cont; exact next rfl ok2 h4
      | brk =>
        obtain ⟨rfl, ok2⟩ := k2.brk
        cases h4
        exact ⟨_, w2, .stop c1 e2 rfl, ok2⟩
      | ret =>
        cases h4
        obtain ⟨v, rfl⟩ := k2.ret
        exact ⟨_, w2, .stop c1 e2 rfl, k2⟩

theorem do_sim {c : Expr} {s : CSt} {test : Sh L.X → Option (Sh L.X × Bool)} {body : Sh L.X → Option (CO × Sh L.X)}
    (ht : ∀ S w S' b, Ok vars s0 S w → test S = some (S', b) → ∃ w', Ok vars s0 S' w' ∧ Spec.Cond C (some c) w b w') (hb : Sim C vars s0 ret s body) :
    ∀ m, Sim C vars s0 ret (.do_ s c) (cdo test body m) := by
  intro m
  induction m with
  | zero => intro S w o S' _ h; cases h
  | succ m ih =>
    intro S w o S' hok h
    simp only [cdo] at h
    obtain ⟨⟨o1, S2⟩, h3, h4⟩ := obind h
    obtain ⟨o2, w2, e2, k2⟩ := hb _ _ _ _ hok h3
    have next : o2.next = true → Ok vars s0 S2 w2 → ((test S2).bind fun (s, b) => if b then cdo test body m s else some (.norm, s)) = some (o, S') →
        ∃ o' w', Spec.Exec C (.do_ s c) w o' w' ∧ EndOk vars s0 ret S' w' o o' := by
      intro hn ok2 h4
      obtain ⟨⟨S3, b⟩, h5, h6⟩ := obind h4
      obtain ⟨w3, ok3, v, ev, hv⟩ := ht _ _ _ _ ok2 h5
      cases b with
      | false =>
        cases h6
        exact ⟨.norm, w3, .doEnd e2 hn ev (by simpa using hv.symm), ok3⟩
      | true =>
        obtain ⟨o', w', l', k'⟩ := ih _ _ _ _ ok3 h6
        exact ⟨o', w', .doNext e2 hn ev (by simpa using hv.symm) l', k'⟩
    cases o1 with
    | norm => obtain ⟨rfl, ok2⟩ := k2.norm; exact next rfl ok2 h4
    | cont => obtain ⟨rfl, ok2⟩ := k2.cont; exact next rfl ok2 h4
    | brk =>
      obtain ⟨rfl, ok2⟩ := k2.brk
      cases h4
      exact ⟨_, w2, .doStop e2 rfl, ok2⟩
    | ret =>
      cases h4
      obtain ⟨v, rfl⟩ := k2.ret
      exact ⟨_, w2, .doStop e2 rfl, k2⟩

mutual
theorem exec_sim (X : Ctx C call f vars ret) {m : Nat} : (s : CSt) → (s' : St) → El n f.tab s s' → frag s = true → Sim C vars s0 ret s (cexec (shI call f args ret) m s')
  | .empty, _, .empty, _ => by
    intro S w o S' hok h
    simp only [cexec] at h; cases h
    exact ⟨_, w, .empty, hok⟩
  | .decl x, _, .decl, _ => by
    intro S w o S' hok h
    simp only [cexec, Interp.acts, Option.map_some] at h; cases h
    refine ⟨_, _, .decl (v := w.loc x), ?_⟩
    have : upd w.loc x (w.loc x) = w.loc := by
      funext y; simp only [upd]; split
      · rename_i e; rw [e]
      · rfl
    rw [this]; exact hok
  | .expr e, _, .expr (cs := cs) h1 h2, hf => by
    intro S w o S' hok h
    simp only [cexec] at h
    obtain ⟨S1, h3, h4⟩ := omap h
    cases h4
    rw [acts_eq _ _ _ h2] at h3
    obtain ⟨w', ok', d⟩ := stmt_done X.call hok (by simpa [Spec.frag] using hf) h1 (has_scope_cmd X.scope h2) h3
    exact ⟨_, w', .expr d, ok'⟩
  | .ite c a b, _, .ite h1 h2 ha hb, hf => by
    intro S w o S' hok h
    simp only [Spec.frag, Bool.and_eq_true] at hf
    simp only [cexec] at h
    obtain ⟨⟨S1, v⟩, h3, h4⟩ := obind h
    obtain ⟨w1, ok1, x, ev, hv⟩ := test_sim X h1 h2 hf.1.1 hok h3
    cases v with
    | true =>
      obtain ⟨o', w', l', k'⟩ := exec_sim X a _ ha hf.1.2 _ _ _ _ ok1 h4
      exact ⟨o', w', .iteT ev (by simpa using hv.symm) l', k'⟩
    | false =>
      obtain ⟨o', w', l', k'⟩ := exec_sim X b _ hb hf.2 _ _ _ _ ok1 h4
      exact ⟨o', w', .iteF ev (by simpa using hv.symm) l', k'⟩
  | .while_ c s, _, .while_ h1 h2 hs, hf => by
    intro S w o S' hok h
    simp only [Spec.frag, Bool.and_eq_true] at hf
    simp only [cexec] at h
    obtain ⟨o', w', l', k'⟩ := loop_sim (c := some c) (p := none) (fun S w S' b ok he => test_sim X h1 h2 hf.1 ok he) (exec_sim X s _ hs hf.2)
      (fun S w S' ok he => by cases he; exact ⟨w, ok, rfl⟩) _ _ _ _ _ hok h
    exact ⟨o', w', .while_ l', k'⟩
  | .do_ s c, _, .do_ h1 h2 hs, hf => by
    intro S w o S' hok h
    simp only [Spec.frag, Bool.and_eq_true] at hf
    simp only [cexec] at h
    exact do_sim (fun S w S' b ok he => test_sim X h1 h2 hf.1 ok he) (exec_sim X s _ hs hf.2) _ _ _ _ _ hok h
  | .for_ i c p s, _, .for_ h1 h2 h3 h4 h5 hs, hf => by
    intro S w o S' hok h
    simp only [Spec.frag, Bool.and_eq_true] at hf
    simp only [cexec] at h
    obtain ⟨S1, h6, h7⟩ := obind h
    obtain ⟨w1, ok1, d1⟩ := opt_sim X h1 h2 hf.1.1.1 hok h6
    obtain ⟨o', w', l', k'⟩ := loop_sim (c := c) (p := p) (fun S w S' b ok he => cond_sim X h3 hf.1.1.2 ok he) (exec_sim X s _ hs hf.2)
      (fun S w S' ok he => opt_sim X h4 h5 hf.1.2 ok he) _ _ _ _ _ ok1 h7
    exact ⟨o', w', .for_ d1 l', k'⟩
  | .switch e b, _, .switch (b' := b') h1 h2 hb, hf => by
    intro S w o S' hok h
    simp only [Spec.frag, Bool.and_eq_true] at hf
    simp only [cexec] at h
    obtain ⟨⟨S1, v⟩, h3, h4⟩ := obind h
    obtain ⟨w1, ok1, ev⟩ := sel_sim X h1 h2 hf.1.1 hf.1.2 hok h3
    simp only at h4
    cases hc : cfrom (shI call f args ret) m (Stmt.target v b') b' S1 with
    | none => rw [hc] at h4; cases h4
    | some r =>
      obtain ⟨o1, S2⟩ := r
      rw [hc] at h4
      obtain ⟨o', w', l', k'⟩ := from_sim X b _ hb hf.2 (fun s s' h => el_target hb s s' h) _ _ _ _ ok1 hc
      refine ⟨_, w', .switch ev l', ?_⟩
      cases o1 with
      | norm => cases h4; obtain ⟨rfl, ok2⟩ := k'.norm; exact ok2
      | brk => cases h4; obtain ⟨rfl, ok2⟩ := k'.brk; exact ok2
      | cont => cases h4; obtain ⟨rfl, ok2⟩ := k'.cont; exact ok2
      | ret => cases h4; obtain ⟨v, rfl⟩ := k'.ret; exact k'
  | .break_, _, .break_, _ => by
    intro S w o S' hok h
    simp only [cexec] at h; cases h
    exact ⟨_, w, .break_, hok⟩
  | .continue_, _, .continue_, _ => by
    intro S w o S' hok h
    simp only [cexec] at h; cases h
    exact ⟨_, w, .continue_, hok⟩
  | .ret e, _, .ret h1 h2, hf => by
    intro S w o S' hok h
    simp only [cexec] at h
    obtain ⟨S1, h3, h4⟩ := omap h
    cases h4
    exact ret_sim X h1 h2 (by simpa [Spec.frag] using hf) hok h3
  | .block b, _, .block hb, hf => by
    intro S w o S' hok h
    simp only [cexec] at h
    obtain ⟨o', w', l', k'⟩ := seq_sim X b _ hb (by simpa [Spec.frag] using hf) _ _ _ _ hok h
    exact ⟨o', w', .block l', k'⟩
  | .case_ v s, _, .case_ hs, hf => by
    intro S w o S' hok h
    simp only [cexec] at h
    obtain ⟨o', w', l', k'⟩ := exec_sim X s _ hs (by simpa [Spec.frag] using hf) _ _ _ _ hok h
    exact ⟨o', w', .case_ l', k'⟩
  | .default_ s, _, .default_ hs, hf => by
    intro S w o S' hok h
    simp only [cexec] at h
    obtain ⟨o', w', l', k'⟩ := exec_sim X s _ hs (by simpa [Spec.frag] using hf) _ _ _ _ hok h
    exact ⟨o', w', .default_ l', k'⟩
theorem seq_sim (X : Ctx C call f vars ret) {m : Nat} : (b : CSts) → (b' : Sts) → ElS n f.tab b b' → frags b = true → ∀ S w o S', Ok vars s0 S w → cseq (shI call f args ret) m b' S = some (o, S') →
    ∃ o' w', Spec.Seq C b w o' w' ∧ EndOk vars s0 ret S' w' o o'
  | .nil, _, .nil, _ => by
    intro S w o S' hok h
    simp only [cseq] at h; cases h
    exact ⟨_, w, .nil, hok⟩
  | .cons s r, _, .cons hs hr, hf => by
    intro S w o S' hok h
    simp only [frags, Bool.and_eq_true] at hf
    simp only [cseq] at h
    obtain ⟨⟨o1, S1⟩, h1, h2⟩ := obind h
    obtain ⟨o2, w2, e2, k2⟩ := exec_sim X s _ hs hf.1 _ _ _ _ hok h1
    cases o1 with
    | norm =>
      obtain ⟨rfl, ok2⟩ := k2.norm
      obtain ⟨o', w', l', k'⟩ := seq_sim X r _ hr hf.2 _ _ _ _ ok2 h2
      exact ⟨o', w', .cons e2 l', k'⟩
    | brk => cases h2; obtain ⟨rfl, ok2⟩ := k2.brk; exact ⟨_, w2, .stop e2 (by simp), ok2⟩
    | cont => cases h2; obtain ⟨rfl, ok2⟩ := k2.cont; exact ⟨_, w2, .stop e2 (by simp), ok2⟩
    | ret => cases h2; obtain ⟨v, rfl⟩ := k2.ret; exact ⟨_, w2, .stop e2 (by simp), k2⟩
theorem from_sim (X : Ctx C call f vars ret) {m : Nat} : (b : CSts) → (b' : Sts) → ElS n f.tab b b' → frags b = true → {p : St → Bool} → {q : CSt → Bool} → (∀ s s', El n f.tab s s' → p s' = q s) →
    ∀ S w o S', Ok vars s0 S w → cfrom (shI call f args ret) m p b' S = some (o, S') → ∃ o' w', Spec.From C q b w o' w' ∧ EndOk vars s0 ret S' w' o o'
  | .nil, _, .nil, _, p, q, _ => by
    intro S w o S' hok h
    simp only [cfrom] at h; cases h
    exact ⟨_, w, .nil, hok⟩
  | .cons s r, _, .cons (s' := s') hs hr, hf, p, q, hpq => by
    intro S w o S' hok h
    simp only [frags, Bool.and_eq_true] at hf
    simp only [cfrom] at h
    cases hp : p s' with
    | false =>
      rw [hp] at h
      obtain ⟨o', w', l', k'⟩ := from_sim X r _ hr hf.2 hpq _ _ _ _ hok h
      exact ⟨o', w', .skip (by rw [← hpq s s' hs, hp]) l', k'⟩
    | true =>
      rw [hp] at h
      have hq : q s = true := by rw [← hpq s s' hs, hp]
      simp only [if_true] at h
      obtain ⟨⟨o1, S1⟩, h1, h2⟩ := obind h
      obtain ⟨o2, w2, e2, k2⟩ := exec_sim X s _ hs hf.1 _ _ _ _ hok h1
      cases o1 with
      | norm =>
        obtain ⟨rfl, ok2⟩ := k2.norm
        obtain ⟨o', w', l', k'⟩ := seq_sim X r _ hr hf.2 _ _ _ _ ok2 h2
        exact ⟨o', w', .here hq (.cons e2 l'), k'⟩
      | brk => cases h2; obtain ⟨rfl, ok2⟩ := k2.brk; exact ⟨_, w2, .here hq (.stop e2 (by simp)), ok2⟩
      | cont => cases h2; obtain ⟨rfl, ok2⟩ := k2.cont; exact ⟨_, w2, .here hq (.stop e2 (by simp)), ok2⟩
      | ret => cases h2; obtain ⟨v, rfl⟩ := k2.ret; exact ⟨_, w2, .here hq (.stop e2 (by simp)), k2⟩
end

end Verif.ShProg
