import Verif.ShProg.Proofs3
/-! Statements. -/
namespace Verif.ShProg
open Verif Verif.Stmt Verif.Frame Verif.ShProg.Spec
open Verif.Hoist (Expr Args Rv Dest Cmd Machine obind omap)

variable {L : Lang}

/-! ## The numbered statement -/

/-- The numbers `ls` stand for the commands `as`. -/
def Has (t : Tab) (ls : List Nat) (as : List Act) : Prop := ls.map (fun i => t.acts[i]?) = as.map some

/-- An optional condition and its number. -/
def ElCond (n : Nat) (t : Tab) : Option Expr → Option Nat → Prop
  | none, none => True
  | some c, some k => ∃ p, Hoist.compTest n c 0 = .ok p ∧ t.tests[k]? = some p
  | _, _ => False

mutual
/-- The statement with numbers that stands for a statement. -/
inductive El (n : Nat) (t : Tab) : CSt → St → Prop
  | empty : El n t .empty .empty
  | decl {x} : El n t (.decl x) (.act [])
  | expr {e cs ls} : Hoist.compStmt n e = .ok cs → Has t ls (cs.map .cmd) → El n t (.expr e) (.act ls)
  | ite {c p k a a' b b'} : Hoist.compTest n c 0 = .ok p → t.tests[k]? = some p → El n t a a' → El n t b b' → El n t (.ite c a b) (.ite k a' b')
  | while_ {c p k s s'} : Hoist.compTest n c 0 = .ok p → t.tests[k]? = some p → El n t s s' → El n t (.while_ c s) (.while_ k s')
  | do_ {c p k s s'} : Hoist.compTest n c 0 = .ok p → t.tests[k]? = some p → El n t s s' → El n t (.do_ s c) (.do_ s' k)
  | for_ {i ci li c k p cp lp s s'} : compOpt n i = .ok ci → Has t li (ci.map .cmd) → ElCond n t c k → compOpt n p = .ok cp → Has t lp (cp.map .cmd) → El n t s s' →
      El n t (.for_ i c p s) (.for_ li k lp s')
  | switch {e p k b b'} : Hoist.compRv n e 0 = .ok p → t.sels[k]? = some p → ElS n t b b' → El n t (.switch e b) (.switch k b')
  | break_ : El n t .break_ .break_
  | continue_ : El n t .continue_ .continue_
  | ret {e as ls} : compRet n e = .ok as → Has t ls as → El n t (.ret e) (.ret ls)
  | block {b b'} : ElS n t b b' → El n t (.block b) (.block b')
  | case_ {v s s'} : El n t s s' → El n t (.case_ v s) (.case_ v s')
  | default_ {s s'} : El n t s s' → El n t (.default_ s) (.default_ s')
inductive ElS (n : Nat) (t : Tab) : CSts → Sts → Prop
  | nil : ElS n t .nil .nil
  | cons {s s' r r'} : El n t s s' → ElS n t r r' → ElS n t (.cons s r) (.cons s' r')
end

/-- A longer table. -/
def Ext (t t' : Tab) : Prop := (∃ a, t'.acts = t.acts ++ a) ∧ (∃ a, t'.tests = t.tests ++ a) ∧ ∃ a, t'.sels = t.sels ++ a

theorem Ext.refl {t : Tab} : Ext t t := ⟨⟨[], by simp⟩, ⟨[], by simp⟩, ⟨[], by simp⟩⟩

theorem Ext.trans {a b c : Tab} (h : Ext a b) (h' : Ext b c) : Ext a c := by
  obtain ⟨⟨x, hx⟩, ⟨y, hy⟩, z, hz⟩ := h
  obtain ⟨⟨x', hx'⟩, ⟨y', hy'⟩, z', hz'⟩ := h'
  exact ⟨⟨x ++ x', by rw [hx', hx, List.append_assoc]⟩, ⟨y ++ y', by rw [hy', hy, List.append_assoc]⟩, ⟨z ++ z', by rw [hz', hz, List.append_assoc]⟩⟩

theorem Ext.add {t : Tab} {as : List Act} : Ext t (t.add as).2 := ⟨⟨as, rfl⟩, ⟨[], by simp [Tab.add]⟩, ⟨[], by simp [Tab.add]⟩⟩

theorem map_range' {α : Type} (l a b : List α) : (List.range' l.length a.length).map (fun i => (l ++ a ++ b)[i]?) = a.map some := by
  apply List.ext_getElem?
  intro i
  simp only [List.getElem?_map]
  by_cases h : i < a.length
  · rw [List.getElem?_range' h]
    simp only [Option.map_some, List.append_assoc]
    rw [List.getElem?_append_right (by omega), List.getElem?_append_left (by omega)]
    simp [show l.length + 1 * i - l.length = i by omega, h]
  · rw [List.getElem?_eq_none (by simp; omega), List.getElem?_eq_none (by omega)]
    rfl

theorem Has.add {t t' : Tab} {as : List Act} (h : Ext (t.add as).2 t') : Has t' (t.add as).1 as := by
  obtain ⟨⟨a, ha⟩, _⟩ := h
  unfold Has
  rw [ha]
  exact map_range' _ _ _

theorem test_el {n : Nat} {c : Expr} {t t' : Tab} {k : Nat} (h : t.test n c = .ok (k, t')) : Ext t t' ∧ ∀ t'', Ext t' t'' → ∃ p, Hoist.compTest n c 0 = .ok p ∧ t''.tests[k]? = some p := by
  rw [Tab.test] at h
  obtain ⟨p, h1, h2⟩ := Res.bind_eq_ok.1 h
  cases h2
  refine ⟨⟨⟨[], by simp⟩, ⟨[p], rfl⟩, ⟨[], by simp⟩⟩, fun t'' hx => ⟨p, h1, ?_⟩⟩
  obtain ⟨_, ⟨a, ha⟩, _⟩ := hx
  rw [ha]; simp

theorem sel_el {n : Nat} {c : Expr} {t t' : Tab} {k : Nat} (h : t.sel n c = .ok (k, t')) : Ext t t' ∧ ∀ t'', Ext t' t'' → ∃ p, Hoist.compRv n c 0 = .ok p ∧ t''.sels[k]? = some p := by
  rw [Tab.sel] at h
  obtain ⟨p, h1, h2⟩ := Res.bind_eq_ok.1 h
  cases h2
  refine ⟨⟨⟨[], by simp⟩, ⟨[], by simp⟩, ⟨[p], rfl⟩⟩, fun t'' hx => ⟨p, h1, ?_⟩⟩
  obtain ⟨_, _, a, ha⟩ := hx
  rw [ha]; simp

theorem testOpt_el {n : Nat} {c : Option Expr} {t t' : Tab} {k : Option Nat} (h : t.testOpt n c = .ok (k, t')) : Ext t t' ∧ ∀ t'', Ext t' t'' → ElCond n t'' c k := by
  cases c with
  | none => cases h; exact ⟨.refl, fun _ _ => trivial⟩
  | some c =>
    simp only [Tab.testOpt] at h
    obtain ⟨⟨k', t1⟩, h1, h2⟩ := Res.bind_eq_ok.1 h
    cases h2
    exact test_el h1

mutual
theorem num_el {n : Nat} : (s : CSt) → (t : Tab) → (s' : St) → (t' : Tab) → num n s t = .ok (s', t') → Ext t t' ∧ ∀ t'', Ext t' t'' → El n t'' s s'
  | .empty, t, s', t', h => by simp only [num] at h; cases h; exact ⟨.refl, fun _ _ => .empty⟩
  | .decl x, t, s', t', h => by simp only [num] at h; cases h; exact ⟨.refl, fun _ _ => .decl⟩
  | .expr e, t, s', t', h => by
    simp only [num] at h
    obtain ⟨cs, h1, h2⟩ := Res.bind_eq_ok.1 h
    cases h2
    exact ⟨.add, fun t'' hx => .expr h1 (.add hx)⟩
  | .ite c a b, t, s', t', h => by
    simp only [num] at h
    obtain ⟨⟨k, t1⟩, h1, h2⟩ := Res.bind_eq_ok.1 h
    obtain ⟨⟨a', t2⟩, h3, h4⟩ := Res.bind_eq_ok.1 h2
    obtain ⟨⟨b', t3⟩, h5, h6⟩ := Res.bind_eq_ok.1 h4
    cases h6
    obtain ⟨x1, e1⟩ := test_el h1
    obtain ⟨x2, e2⟩ := num_el a _ _ _ h3
    obtain ⟨x3, e3⟩ := num_el b _ _ _ h5
    refine ⟨x1.trans (x2.trans x3), fun t'' hx => ?_⟩
    obtain ⟨p, hp, hp'⟩ := e1 t'' (x2.trans (x3.trans hx))
    exact .ite hp hp' (e2 t'' (x3.trans hx)) (e3 t'' hx)
  | .while_ c s, t, s', t', h => by
    simp only [num] at h
    obtain ⟨⟨k, t1⟩, h1, h2⟩ := Res.bind_eq_ok.1 h
    obtain ⟨⟨a', t2⟩, h3, h4⟩ := Res.bind_eq_ok.1 h2
    cases h4
    obtain ⟨x1, e1⟩ := test_el h1
    obtain ⟨x2, e2⟩ := num_el s _ _ _ h3
    refine ⟨x1.trans x2, fun t'' hx => ?_⟩
    obtain ⟨p, hp, hp'⟩ := e1 t'' (x2.trans hx)
    exact .while_ hp hp' (e2 t'' hx)
  | .do_ s c, t, s', t', h => by
    simp only [num] at h
    obtain ⟨⟨k, t1⟩, h1, h2⟩ := Res.bind_eq_ok.1 h
    obtain ⟨⟨a', t2⟩, h3, h4⟩ := Res.bind_eq_ok.1 h2
    cases h4
    obtain ⟨x1, e1⟩ := test_el h1
    obtain ⟨x2, e2⟩ := num_el s _ _ _ h3
    refine ⟨x1.trans x2, fun t'' hx => ?_⟩
    obtain ⟨p, hp, hp'⟩ := e1 t'' (x2.trans hx)
    exact .do_ hp hp' (e2 t'' hx)
  | .for_ i c p s, t, s', t', h => by
    simp only [num] at h
    obtain ⟨ci, h1, h2⟩ := Res.bind_eq_ok.1 h
    obtain ⟨⟨k, t1⟩, h3, h4⟩ := Res.bind_eq_ok.1 h2
    obtain ⟨cp, h5, h6⟩ := Res.bind_eq_ok.1 h4
    obtain ⟨⟨b', t2⟩, h7, h8⟩ := Res.bind_eq_ok.1 h6
    cases h8
    obtain ⟨x1, e1⟩ := testOpt_el h3
    obtain ⟨x2, e2⟩ := num_el s _ _ _ h7
    have y : Ext t1 t2 := Ext.add.trans x2
    refine ⟨Ext.add.trans (x1.trans y), fun t'' hx => ?_⟩
    exact .for_ h1 (.add (x1.trans (y.trans hx))) (e1 t'' (y.trans hx)) h5 (.add (x2.trans hx)) (e2 t'' hx)
  | .switch e b, t, s', t', h => by
    simp only [num] at h
    obtain ⟨⟨k, t1⟩, h1, h2⟩ := Res.bind_eq_ok.1 h
    obtain ⟨⟨a', t2⟩, h3, h4⟩ := Res.bind_eq_ok.1 h2
    cases h4
    obtain ⟨x1, e1⟩ := sel_el h1
    obtain ⟨x2, e2⟩ := nums_el b _ _ _ h3
    refine ⟨x1.trans x2, fun t'' hx => ?_⟩
    obtain ⟨p, hp, hp'⟩ := e1 t'' (x2.trans hx)
    exact .switch hp hp' (e2 t'' hx)
  | .break_, t, s', t', h => by simp only [num] at h; cases h; exact ⟨.refl, fun _ _ => .break_⟩
  | .continue_, t, s', t', h => by simp only [num] at h; cases h; exact ⟨.refl, fun _ _ => .continue_⟩
  | .ret e, t, s', t', h => by
    simp only [num] at h
    obtain ⟨cs, h1, h2⟩ := Res.bind_eq_ok.1 h
    cases h2
    exact ⟨.add, fun t'' hx => .ret h1 (.add hx)⟩
  | .block b, t, s', t', h => by
    simp only [num] at h
    obtain ⟨⟨b', t1⟩, h1, h2⟩ := Res.bind_eq_ok.1 h
    cases h2
    obtain ⟨x1, e1⟩ := nums_el b _ _ _ h1
    exact ⟨x1, fun t'' hx => .block (e1 t'' hx)⟩
  | .case_ v s, t, s', t', h => by
    simp only [num] at h
    obtain ⟨⟨b', t1⟩, h1, h2⟩ := Res.bind_eq_ok.1 h
    cases h2
    obtain ⟨x1, e1⟩ := num_el s _ _ _ h1
    exact ⟨x1, fun t'' hx => .case_ (e1 t'' hx)⟩
  | .default_ s, t, s', t', h => by
    simp only [num] at h
    obtain ⟨⟨b', t1⟩, h1, h2⟩ := Res.bind_eq_ok.1 h
    cases h2
    obtain ⟨x1, e1⟩ := num_el s _ _ _ h1
    exact ⟨x1, fun t'' hx => .default_ (e1 t'' hx)⟩
theorem nums_el {n : Nat} : (b : CSts) → (t : Tab) → (b' : Sts) → (t' : Tab) → nums n b t = .ok (b', t') → Ext t t' ∧ ∀ t'', Ext t' t'' → ElS n t'' b b'
  | .nil, t, s', t', h => by simp only [nums] at h; cases h; exact ⟨.refl, fun _ _ => .nil⟩
  | .cons s r, t, s', t', h => by
    simp only [nums] at h
    obtain ⟨⟨a', t1⟩, h1, h2⟩ := Res.bind_eq_ok.1 h
    obtain ⟨⟨b', t2⟩, h3, h4⟩ := Res.bind_eq_ok.1 h2
    cases h4
    obtain ⟨x1, e1⟩ := num_el s _ _ _ h1
    obtain ⟨x2, e2⟩ := nums_el r _ _ _ h3
    exact ⟨x1.trans x2, fun t'' hx => .cons (e1 t'' (x2.trans hx)) (e2 t'' hx)⟩
end

/-! ## Labels -/

theorem el_hasCase {n : Nat} {t : Tab} (v : Int) : (s : CSt) → (s' : St) → El n t s s' → s'.hasCase v = hasCase v s
  | .case_ u s, _, .case_ h => by simp [St.hasCase, hasCase, el_hasCase v s _ h]
  | .default_ s, _, .default_ h => by simp [St.hasCase, hasCase, el_hasCase v s _ h]
  | .empty, _, .empty | .decl _, _, .decl | .expr _, _, .expr .. | .ite .., _, .ite .. | .while_ .., _, .while_ .. | .do_ .., _, .do_ .. | .for_ .., _, .for_ .. | .switch .., _, .switch .. | .break_, _, .break_
  | .continue_, _, .continue_ | .ret _, _, .ret .. | .block _, _, .block _ => rfl

theorem el_hasDefault {n : Nat} {t : Tab} : (s : CSt) → (s' : St) → El n t s s' → s'.hasDefault = hasDefault s
  | .case_ u s, _, .case_ h => by simp [St.hasDefault, hasDefault, el_hasDefault s _ h]
  | .default_ s, _, .default_ h => by simp [St.hasDefault, hasDefault]
  | .empty, _, .empty | .decl _, _, .decl | .expr _, _, .expr .. | .ite .., _, .ite .. | .while_ .., _, .while_ .. | .do_ .., _, .do_ .. | .for_ .., _, .for_ .. | .switch .., _, .switch .. | .break_, _, .break_
  | .continue_, _, .continue_ | .ret _, _, .ret .. | .block _, _, .block _ => rfl

theorem el_any {n : Nat} {t : Tab} {p : St → Bool} {q : CSt → Bool} (hpq : ∀ s s', El n t s s' → p s' = q s) : (b : CSts) → (b' : Sts) → ElS n t b b' → b'.any p = anySt q b
  | .nil, _, .nil => rfl
  | .cons s r, _, .cons h1 h2 => by simp [Sts.any, anySt, hpq _ _ h1, el_any hpq r _ h2]

theorem el_target {n : Nat} {t : Tab} {v : Int} {b : CSts} {b' : Sts} (hb : ElS n t b b') (s : CSt) (s' : St) (h : El n t s s') : Stmt.target v b' s' = Spec.target v b s := by
  simp only [Stmt.target, Spec.target, el_any (el_hasCase v) b b' hb]
  split
  · exact el_hasCase v s s' h
  · exact el_hasDefault s s' h

end Verif.ShProg
