import Verif.ShProg.Scope
/-! The tables of commands, and the variables that a function saves. -/
namespace Verif.ShProg
open Verif Verif.Stmt Verif.Frame
open Verif.Hoist (Expr Args Rv Dest Cmd)

variable {ok : Nat → Bool}

theorem compRet_names {n : Nat} {e : Option Expr} {as : List Act} (h : compRet n e = .ok as) (hm : namesOpt ok e = true) : as.all (gAct ok pos) = true := by
  have R := compRv_names (ok := ok) n
  cases e with
  | none => cases h; rfl
  | some e =>
    simp only [namesOpt] at hm
    have other : ((Hoist.compRv n e 0).bind fun p => .ok (p.lines.map (fun l => .cmd (.line l)) ++ [.ret p.e])) = .ok as → as.all (gAct ok pos) = true := by
      intro h
      obtain ⟨p, h1, h2⟩ := Res.bind_eq_ok.1 h
      cases h2
      obtain ⟨a, b⟩ := R _ _ _ h1 (names_mid _ hm)
      rw [List.all_append, List.all_map, Bool.and_eq_true]
      exact ⟨a, by simpa [gAct] using b⟩
    cases e with
    | call f bs =>
      simp only [compRet] at h
      obtain ⟨⟨l, es, g⟩, h1, h2⟩ := Res.bind_eq_ok.1 h
      cases h2
      obtain ⟨a, b⟩ := compArgs_names R _ _ _ _ _ h1 (names_midArgs _ (by simpa only [names] using hm))
      rw [List.all_append, List.all_map, Bool.and_eq_true]
      exact ⟨a, by simpa [gAct] using b⟩
    | _ => simp only [compRet] at h; exact other h

theorem compOpt_names {n : Nat} {e : Option Expr} {cs : List Cmd} (h : compOpt n e = .ok cs) (hm : namesOpt ok e = true) : cs.all (gCmd ok pos) = true := by
  cases e with
  | none => cases h; rfl
  | some e => exact compStmt_names h (by simpa only [namesOpt] using hm)

theorem add_names {t : Tab} {as : List Act} (ht : gTab ok pos t = true) (h : as.all (gAct ok pos) = true) : gTab ok pos (t.add as).2 = true := by
  simp only [gTab, Tab.add, Bool.and_eq_true, List.all_append] at ht ⊢
  exact ⟨⟨⟨ht.1.1, h⟩, ht.1.2⟩, ht.2⟩

theorem addCmd_names {t : Tab} {cs : List Cmd} (ht : gTab ok pos t = true) (h : cs.all (gCmd ok pos) = true) : gTab ok pos (t.add (cs.map .cmd)).2 = true :=
  add_names ht (by rw [List.all_map]; exact h)

theorem test_names {n : Nat} {c : Expr} {t t' : Tab} {k : Nat} (h : t.test n c = .ok (k, t')) (hm : names ok c = true) (ht : gTab ok pos t = true) : gTab ok pos t' = true := by
  rw [Tab.test] at h
  obtain ⟨p, h1, h2⟩ := Res.bind_eq_ok.1 h
  cases h2
  simp only [gTab, Bool.and_eq_true, List.all_append, List.all_cons, List.all_nil, Bool.and_true] at ht ⊢
  exact ⟨⟨ht.1.1, ht.1.2, compTest_names h1 hm⟩, ht.2⟩

theorem sel_names {n : Nat} {c : Expr} {t t' : Tab} {k : Nat} (h : t.sel n c = .ok (k, t')) (hm : names ok c = true) (ht : gTab ok pos t = true) : gTab ok pos t' = true := by
  rw [Tab.sel] at h
  obtain ⟨p, h1, h2⟩ := Res.bind_eq_ok.1 h
  cases h2
  simp only [gTab, Bool.and_eq_true, List.all_append, List.all_cons, List.all_nil, Bool.and_true] at ht ⊢
  exact ⟨ht.1, ht.2, compRv_names n _ _ _ h1 (names_mid _ hm)⟩

theorem testOpt_names {n : Nat} {c : Option Expr} {t t' : Tab} {k : Option Nat} (h : t.testOpt n c = .ok (k, t')) (hm : namesOpt ok c = true) (ht : gTab ok pos t = true) : gTab ok pos t' = true := by
  cases c with
  | none => cases h; exact ht
  | some c =>
    simp only [Tab.testOpt] at h
    obtain ⟨⟨k', t1⟩, h1, h2⟩ := Res.bind_eq_ok.1 h
    cases h2
    exact test_names h1 (by simpa only [namesOpt] using hm) ht

mutual
theorem num_names {n : Nat} : (s : CSt) → (t : Tab) → (s' : St) → (t' : Tab) → num n s t = .ok (s', t') → namesSt ok s = true → gTab ok pos t = true → gTab ok pos t' = true
  | .empty, t, s', t', h, _, ht | .decl _, t, s', t', h, _, ht | .break_, t, s', t', h, _, ht | .continue_, t, s', t', h, _, ht => by simp only [num] at h; cases h; exact ht
  | .expr e, t, s', t', h, hm, ht => by
    simp only [num, namesSt] at h hm
    obtain ⟨cs, h1, h2⟩ := Res.bind_eq_ok.1 h
    cases h2
    exact addCmd_names ht (compStmt_names h1 hm)
  | .ite c a b, t, s', t', h, hm, ht => by
    simp only [num, namesSt, Bool.and_eq_true] at h hm
    obtain ⟨⟨k, t1⟩, h1, h2⟩ := Res.bind_eq_ok.1 h
    obtain ⟨⟨a', t2⟩, h3, h4⟩ := Res.bind_eq_ok.1 h2
    obtain ⟨⟨b', t3⟩, h5, h6⟩ := Res.bind_eq_ok.1 h4
    cases h6
    exact num_names b _ _ _ h5 hm.2 (num_names a _ _ _ h3 hm.1.2 (test_names h1 hm.1.1 ht))
  | .while_ c s, t, s', t', h, hm, ht => by
    simp only [num, namesSt, Bool.and_eq_true] at h hm
    obtain ⟨⟨k, t1⟩, h1, h2⟩ := Res.bind_eq_ok.1 h
    obtain ⟨⟨a', t2⟩, h3, h4⟩ := Res.bind_eq_ok.1 h2
    cases h4
    exact num_names s _ _ _ h3 hm.2 (test_names h1 hm.1 ht)
  | .do_ s c, t, s', t', h, hm, ht => by
    simp only [num, namesSt, Bool.and_eq_true] at h hm
    obtain ⟨⟨k, t1⟩, h1, h2⟩ := Res.bind_eq_ok.1 h
    obtain ⟨⟨a', t2⟩, h3, h4⟩ := Res.bind_eq_ok.1 h2
    cases h4
    exact num_names s _ _ _ h3 hm.2 (test_names h1 hm.1 ht)
  | .for_ i c p s, t, s', t', h, hm, ht => by
    simp only [num, namesSt, Bool.and_eq_true] at h hm
    obtain ⟨ci, h1, h2⟩ := Res.bind_eq_ok.1 h
    obtain ⟨⟨k, t1⟩, h3, h4⟩ := Res.bind_eq_ok.1 h2
    obtain ⟨cp, h5, h6⟩ := Res.bind_eq_ok.1 h4
    obtain ⟨⟨b', t2⟩, h7, h8⟩ := Res.bind_eq_ok.1 h6
    cases h8
    exact num_names s _ _ _ h7 hm.2 (addCmd_names (testOpt_names h3 hm.1.1.2 (addCmd_names ht (compOpt_names h1 hm.1.1.1))) (compOpt_names h5 hm.1.2))
  | .switch e b, t, s', t', h, hm, ht => by
    simp only [num, namesSt, Bool.and_eq_true] at h hm
    obtain ⟨⟨k, t1⟩, h1, h2⟩ := Res.bind_eq_ok.1 h
    obtain ⟨⟨a', t2⟩, h3, h4⟩ := Res.bind_eq_ok.1 h2
    cases h4
    exact nums_names b _ _ _ h3 hm.2 (sel_names h1 hm.1 ht)
  | .ret e, t, s', t', h, hm, ht => by
    simp only [num, namesSt] at h hm
    obtain ⟨cs, h1, h2⟩ := Res.bind_eq_ok.1 h
    cases h2
    exact add_names ht (compRet_names h1 hm)
  | .block b, t, s', t', h, hm, ht => by
    simp only [num, namesSt] at h hm
    obtain ⟨⟨b', t1⟩, h1, h2⟩ := Res.bind_eq_ok.1 h
    cases h2
    exact nums_names b _ _ _ h1 hm ht
  | .case_ _ s, t, s', t', h, hm, ht => by
    simp only [num, namesSt] at h hm
    obtain ⟨⟨b', t1⟩, h1, h2⟩ := Res.bind_eq_ok.1 h
    cases h2
    exact num_names s _ _ _ h1 hm ht
  | .default_ s, t, s', t', h, hm, ht => by
    simp only [num, namesSt] at h hm
    obtain ⟨⟨b', t1⟩, h1, h2⟩ := Res.bind_eq_ok.1 h
    cases h2
    exact num_names s _ _ _ h1 hm ht
theorem nums_names {n : Nat} : (b : CSts) → (t : Tab) → (b' : Sts) → (t' : Tab) → nums n b t = .ok (b', t') → namesSts ok b = true → gTab ok pos t = true → gTab ok pos t' = true
  | .nil, t, s', t', h, _, ht => by simp only [nums] at h; cases h; exact ht
  | .cons s r, t, s', t', h, hm, ht => by
    simp only [nums, namesSts, Bool.and_eq_true] at h hm
    obtain ⟨⟨a', t1⟩, h1, h2⟩ := Res.bind_eq_ok.1 h
    obtain ⟨⟨b', t2⟩, h3, h4⟩ := Res.bind_eq_ok.1 h2
    cases h4
    exact nums_names r _ _ _ h3 hm.2 (num_names s _ _ _ h1 hm.1 ht)
end

/-! ## The saved variables -/

theorem mem_temps : ∀ (n k : Nat), k ≠ 0 → k ≤ n → Name.temp k ∈ restore_temps n := by
  intro n
  induction n with
  | zero => intro k h1 h2; omega
  | succ n ih =>
    intro k h1 h2
    simp only [restore_temps, List.mem_cons, Name.temp.injEq]
    by_cases h : k = n + 1
    · exact .inl h
    · exact .inr (ih k h1 (by omega))

theorem le_foldr {α : Type} (f : α → Nat) : ∀ (l : List α) (a : α), a ∈ l → f a ≤ l.foldr (fun x m => max (f x) m) 0 := by
  intro l
  induction l with
  | nil => intro a h; simp at h
  | cons x r ih =>
    intro a h
    simp only [List.foldr_cons]
    rcases List.mem_cons.1 h with rfl | h
    · omega
    · have := ih a h; omega

section
variable {vars : List Name} {N : Nat} (hx : ∀ x, ok x = true → okVar vars x = true) (hk : ∀ k, k ≠ 0 → k ≤ N → Name.temp k ∈ vars)
include hx hk

theorem scopeLine_of {l : Hoist.Line} (h : gLine ok pos l = true) (hN : destTemp l.dest ≤ N) : scopeLine vars l = true := by
  simp only [gLine, scopeLine, Bool.and_eq_true] at h ⊢
  refine ⟨?_, ?_⟩
  · revert hN
    cases hd : l.dest with
    | none => intro _; rfl
    | tmp k =>
      intro hN
      have := h.1
      rw [hd] at this
      simp only [scopeDest, List.contains_iff_mem]
      exact hk k (by simpa [gDest, pos] using this) hN
    | var x => intro _; have := h.1; rw [hd] at this; exact hx x this
    | cell e => intro _; have := h.1; rw [hd] at this; exact scope_mono hx e this
  · rw [List.all_eq_true]
    intro e he
    exact scope_mono hx e (List.all_eq_true.1 h.2 e he)

theorem scopeLines_of {ls : List Hoist.Line} (h : ls.all (gLine ok pos) = true) (hN : linesTemp ls ≤ N) : ls.all (scopeLine vars) = true := by
  rw [List.all_eq_true]
  intro l hl
  refine scopeLine_of hx hk (List.all_eq_true.1 h l hl) (Nat.le_trans ?_ hN)
  exact le_foldr (fun l : Hoist.Line => destTemp l.dest) ls l hl

theorem scopeTest_of : ∀ {q : Hoist.Test}, gTest ok pos q = true → testTemp q ≤ N → scopeTest vars q = true
  | .leaf ls e, h, hN => by
    simp only [gTest, scopeTest, Bool.and_eq_true] at h ⊢
    exact ⟨scopeLines_of hx hk h.1 hN, scope_mono hx e h.2⟩
  | .logic _ a b, h, hN => by
    simp only [gTest, scopeTest, Bool.and_eq_true, testTemp] at h hN ⊢
    exact ⟨scopeTest_of h.1 (by omega), scopeTest_of h.2 (by omega)⟩

theorem scopeAct_of {a : Act} (h : gAct ok pos a = true) (hN : actTemp a ≤ N) : scopeAct vars a = true := by
  cases a with
  | ret e => exact scope_mono hx e h
  | retcall f es =>
    simp only [gAct, scopeAct] at h ⊢
    rw [List.all_eq_true]
    exact fun e he => scope_mono hx e (List.all_eq_true.1 h e he)
  | cmd c =>
    cases c with
    | line l => exact scopeLine_of hx hk h hN
    | eval e => exact scope_mono hx e h
    | setVar x e => simp only [gAct, gCmd, scopeAct, scopeCmd, Bool.and_eq_true] at h ⊢; exact ⟨hx x h.1, scope_mono hx e h.2⟩
    | setCell a e => simp only [gAct, gCmd, scopeAct, scopeCmd, Bool.and_eq_true] at h ⊢; exact ⟨scope_mono hx a h.1, scope_mono hx e h.2⟩

theorem tabScope_of {t : Tab} (h : gTab ok pos t = true) (hN : t.temps ≤ N) : t.scope vars = true := by
  simp only [gTab, Tab.scope, Bool.and_eq_true] at h ⊢
  simp only [Tab.temps] at hN
  refine ⟨⟨?_, ?_⟩, ?_⟩
  · rw [List.all_eq_true]
    intro a ha
    have := le_foldr actTemp t.acts a ha
    exact scopeAct_of hx hk (List.all_eq_true.1 h.1.1 a ha) (by omega)
  · rw [List.all_eq_true]
    intro p hp
    have h1 := le_foldr (fun p : List Hoist.Line × Hoist.Test => max (linesTemp p.1) (testTemp p.2)) t.tests p hp
    have h2 := List.all_eq_true.1 h.1.2 p hp
    simp only [Bool.and_eq_true] at h2 ⊢
    exact ⟨scopeLines_of hx hk h2.1 (by omega), scopeTest_of hx hk h2.2 (by omega)⟩
  · rw [List.all_eq_true]
    intro p hp
    have h1 := le_foldr (fun p : Rv => linesTemp p.lines) t.sels p hp
    have h2 := List.all_eq_true.1 h.2 p hp
    simp only [Bool.and_eq_true] at h2 ⊢
    exact ⟨scopeLines_of hx hk h2.1 (by omega), scope_mono hx _ h2.2⟩
end

theorem add_mem {e : List (Nat × Bool)} {x : Nat} {b : Bool} : x ∈ (add_local_var e x b).map Prod.fst := by
  unfold add_local_var
  split
  · rename_i h
    obtain ⟨p, hp, e⟩ := List.any_eq_true.1 h
    exact List.mem_map.2 ⟨p, hp, by simpa using e⟩
  · simp

theorem add_keep {e : List (Nat × Bool)} {x y : Nat} {b : Bool} (h : y ∈ e.map Prod.fst) : y ∈ (add_local_var e x b).map Prod.fst := by
  unfold add_local_var
  split
  · exact h
  · simp only [List.map_cons, List.mem_cons]; exact .inr h

theorem fold_mem (b : Bool) : ∀ (l : List Nat) (e : List (Nat × Bool)) (y : Nat), y ∈ l ∨ y ∈ e.map Prod.fst → y ∈ (l.foldl (fun e x => add_local_var e x b) e).map Prod.fst := by
  intro l
  induction l with
  | nil => intro e y h; simpa using h
  | cons a r ih =>
    intro e y h
    simp only [List.foldl_cons]
    apply ih
    rcases h with h | h
    · rcases List.mem_cons.1 h with rfl | h
      · exact .inr add_mem
      · exact .inl h
    · exact .inr (add_keep h)

/-- The commands of a generated function use its parameters, local variables and temporaries, which it saves, and global variables. -/
theorem Compiled.scope {n : Nat} {fd : FDef} {f : CFn} (h : Compiled n fd f) : f.tab.scope (restore_local_vars f.vars) = true := by
  have hb := num_names (ok := fd.declared) _ _ _ _ h.body (by simpa only [namesSt] using h.names) rfl
  refine tabScope_of (N := f.tab.temps) (fun x hx => ?_) (fun k h1 h2 => ?_) hb (Nat.le_refl _)
  · simp only [FDef.declared, Bool.or_eq_true, decide_eq_true_eq, List.contains_iff_mem] at hx
    simp only [okVar, Bool.or_eq_true, decide_eq_true_eq, List.contains_iff_mem]
    have key : x / 2 ∈ fd.params ∨ x / 2 ∈ fd.vars → Name.loc (x / 2) ∈ restore_local_vars f.vars := by
      intro hm
      rw [h.vars]
      simp only [restore_local_vars, List.mem_append, List.mem_map]
      right
      have : x / 2 ∈ (fd.vars.foldl (fun e x => add_local_var e x false) (fd.params.foldl (fun e x => add_local_var e x true) [])).map Prod.fst := by
        apply fold_mem
        rcases hm with hm | hm
        · exact .inr (fold_mem _ _ _ _ (.inl hm))
        · exact .inl hm
      obtain ⟨p, hp, e⟩ := List.mem_map.1 this
      exact ⟨p, hp, by rw [e]⟩
    rcases hx with (hx | hx) | hx
    · exact .inl hx
    · exact .inr (key (.inl hx))
    · exact .inr (key (.inr hx))
  · rw [h.vars]
    simp only [restore_local_vars, List.mem_append]
    exact .inl (mem_temps _ _ h1 h2)

end Verif.ShProg
