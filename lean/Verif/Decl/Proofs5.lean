import Verif.Decl.Proofs4
/-! The parser of declarations does what the grammar says: initializers, declarations, translation units. -/
namespace Verif.Decl
open Verif Verif.Decl.Spec

/-! ## Initializers -/

mutual
theorem init_ok {env : Env} : ∀ {ts i}, InitG ts i → ∀ (h : List Node) (sc : Option SC) (va : Bool) (rest : List Tok),
    ∃ sc', ((∀ t ∈ ts, Quiet env t) → sc' = sc) ∧ Ev (fun n => initF n ⟨ts ++ rest, h, sc, va⟩) (.ok (i, ⟨rest, h, sc', va⟩))
  | _, _, .expr (v := v) (ty := ty) => by
    intro h sc va rest
    refine ⟨if ty then none else sc, fun q => ?_, Ev.const fun n => by rw [initF.eq_def]; rfl⟩
    have := q (.expr v ty) (by simp)
    rw [Quiet] at this
    simp [this]
  | _, _, .braces (ts := ts) (l := l) hl => by
    intro h sc va rest
    obtain ⟨sc', hq, run⟩ := initL_ok (env := env) hl [] h sc va (tl := .rbrace :: rest) (out := .rbrace :: rest) (.inr ⟨rfl, _, rfl⟩)
    refine ⟨sc', fun q => hq fun t m => q t (by simp [m]), ?_⟩
    have run' := run (.ok (l, ⟨.rbrace :: rest, h, sc', va⟩)) (.inr rfl) fun e => by cases e
    refine Ev.step (g := fun n => (initListF n [] ⟨ts ++ .rbrace :: rest, h, sc, va⟩).bind fun (p : List Init × S) => (expect .rbrace p.2).bind fun s => .ok (.list p.1, s)) (fun n => ?_) (Ev.bind run' ?_)
    · rw [initF.eq_def]
      simp [next]
    · dsimp only
      rw [expect_ok, Res.bind_ok]
      exact Ev.pure
  | _, _, .trailing (ts := ts) (l := l) hl => by
    intro h sc va rest
    obtain ⟨sc', hq, run⟩ := initL_ok (env := env) hl [] h sc va (tl := .comma :: .rbrace :: rest) (out := .rbrace :: rest) (.inl rfl)
    refine ⟨sc', fun q => hq fun t m => q t (by simp [m]), ?_⟩
    have run' := run (.ok (l, ⟨.rbrace :: rest, h, sc', va⟩)) (.inl (Ev.const fun n => by rw [initListF.eq_def]; rfl)) fun _ => Ev.const fun n => by rw [initListF.eq_def]; rfl
    refine Ev.step (g := fun n => (initListF n [] ⟨ts ++ .comma :: .rbrace :: rest, h, sc, va⟩).bind fun (p : List Init × S) => (expect .rbrace p.2).bind fun s => .ok (.list p.1, s)) (fun n => ?_) (Ev.bind run' ?_)
    · rw [initF.eq_def]
      simp [next]
    · dsimp only
      rw [expect_ok, Res.bind_ok]
      exact Ev.pure

theorem initL_ok {env : Env} : ∀ {ts l}, InitL ts l → ∀ (acc : List Init) (h : List Node) (sc : Option SC) (va : Bool) {tl out : List Tok}, (tl = .comma :: out ∨ (tl = out ∧ ∃ r, out = .rbrace :: r)) →
    ∃ sc', ((∀ t ∈ ts, Quiet env t) → sc' = sc) ∧
      ∀ R, (Ev (fun n => initListF n (acc ++ l) ⟨out, h, sc', va⟩) R ∨ R = .ok (acc ++ l, ⟨out, h, sc', va⟩)) →
        (tl = .comma :: out → Ev (fun n => initListF n (acc ++ l) ⟨out, h, sc', va⟩) R) → Ev (fun n => initListF n acc ⟨ts ++ tl, h, sc, va⟩) R
  | _, _, .one (ts := ts) (i := i) hi => by
    intro acc h sc va tl out htl
    obtain ⟨sc', hq, run⟩ := init_ok (env := env) hi h sc va tl
    refine ⟨sc', hq, fun R h1 h2 => ?_⟩
    refine Ev.step (g := fun n => (initF n ⟨ts ++ tl, h, sc, va⟩).bind fun (p : Init × S) => if p.2.toks.head? = some .comma then initListF n (acc ++ [p.1]) (next p.2) else .ok (acc ++ [p.1], p.2)) (fun n => ?_) (Ev.bind run ?_)
    · rw [initListF.eq_def]
      cases hi <;> rfl
    · rcases htl with rfl | ⟨rfl, r, rfl⟩
      · simp only [List.head?_cons, if_true]
        exact h2 rfl
      · simp only [List.head?_cons, Option.some.injEq, reduceCtorEq, if_false]
        rcases h1 with h1 | rfl
        · have := h1
          obtain ⟨N, hN⟩ := h1
          have e := hN (N + 1) (by omega)
          dsimp only at e
          rw [initListF.eq_def] at e
          dsimp only at e
          rw [← e]
          exact Ev.pure
        · exact Ev.pure
  | _, _, .more (ts := ts) (i := i) (ts' := ts') (l := l) hi hl => by
    intro acc h sc va tl out htl
    obtain ⟨sc1, hq1, run1⟩ := init_ok (env := env) hi h sc va (.comma :: (ts' ++ tl))
    obtain ⟨sc2, hq2, run2⟩ := initL_ok (env := env) hl (acc ++ [i]) h sc1 va htl
    refine ⟨sc2, fun q => (hq2 fun t m => q t (by simp [m])).trans (hq1 fun t m => q t (by simp [m])), fun R h1 h2 => ?_⟩
    have run2' := run2 R (by simpa using h1) (by simpa using h2)
    refine Ev.step (g := fun n => (initF n ⟨ts ++ .comma :: (ts' ++ tl), h, sc, va⟩).bind fun (p : Init × S) => if p.2.toks.head? = some .comma then initListF n (acc ++ [p.1]) (next p.2) else .ok (acc ++ [p.1], p.2)) (fun n => ?_) (Ev.bind run1 ?_)
    · rw [initListF.eq_def]
      cases hi <;> simp
    · simp only [List.head?_cons, if_true]
      exact run2'
end

/-! ## Declarations -/

theorem is_ext {h h' : List Node} (e : Ext h h') {i : Nat} {t : Ty} (r : Is h i t) : Is h' i t := rep_move (moves_ext e fun _ _ q => q) r

theorem declares_ext {h h' : List Node} (e : Ext h h') {d : Nat} {x : Option Nat} {t : Ty} : Declares h d x t → Declares h' d x t := by
  rintro ⟨i, hi, r⟩
  exact ⟨i, (e.2 _ (get_lt hi)).trans hi, is_ext e r⟩

theorem All2.mono {α β : Type} {R R' : α → β → Prop} (m : ∀ a b, R a b → R' a b) : ∀ {l k}, All2 R l k → All2 R' l k
  | _, _, .nil => .nil
  | _, _, .cons h t => .cons (m _ _ h) (All2.mono m t)

theorem item_ext {h h' : List Node} (e : Ext h h') {d : Nat × Option Init} {i : Item} (r : IsItem h d i) : IsItem h' d i := ⟨declares_ext e r.1, r.2⟩

theorem out_ext {h h' : List Node} (e : Ext h h') {o : Out} {so : SOut} (r : OutIs h o so) : OutIs h' o so := by
  cases r with
  | tag r => exact .tag (is_ext e r)
  | typedefs r => exact .typedefs (repL_move (moves_ext e fun _ _ q => q) r)
  | vars r hq => exact .vars (All2.mono (fun _ _ => item_ext e) r) hq
  | func r => exact .func (declares_ext e r)

theorem types_ext {h h' : List Node} (e : Ext h h') {types : Types} {env : Env} (r : TypesAre h types env) : TypesAre h' types env :=
  ⟨r.1, fun x i t h1 h2 => is_ext e (r.2 x i t h1 h2)⟩

theorem types_tok {h : List Node} {types : Types} {env : Env} (r : TypesAre h types env) : TOK env types h.length h :=
  ⟨r.1, fun x i t h1 h2 => rep_move (fun _ hi _ => ⟨hi, rfl⟩) (r.2 x i t h1 h2), Nat.le_refl _⟩

theorem rep_is {h : List Node} {Q : Nat → Prop} {i : Nat} {t : Ty} (r : Rep h Q i t) : Is h i t := rep_move (fun _ _ _ => ⟨trivial, rfl⟩) r

/-- One declarator, on a known base. -/
theorem declarator_ok {env : Env} {types : Types} {h : List Node} (k : TypesAre h types env) {p : Nat} {t : Ty} (r : Is h p t) {ts : List Tok} {d : Dr} (hd : PtrD env false ts d) (hv : d.Valid t)
    (sc : Option SC) (va : Bool) {rest : List Tok} (hf : Follow rest) :
    ∃ dcl b h' sc' va', Ext h h' ∧ Declares h' dcl d.nm (d.ty t) ∧ ((∀ t ∈ ts, Quiet env t) → sc' = sc) ∧
      Ev (fun n => declaratorF types n false p ⟨ts ++ rest, h, sc, va⟩) (.ok (dcl, b, ⟨rest, h', sc', va'⟩)) := by
  obtain ⟨nd, e1, e2, _⟩ := rep_void r
  obtain ⟨dcl, b, h', sc', va', post, run⟩ := ptrD_ok hd _ (types_tok k) (valid_safe hv) ⟨nd, e1, e2⟩ sc va hf
  have r' : Rep h (Out2 h.length 0) p t := rep_move (fun _ hi _ => ⟨.inl hi, rfl⟩) r
  obtain ⟨i, hi, r2, _⟩ := dpost_rep post (Nat.zero_le _) r'
  exact ⟨dcl, b, h', sc', va', post.pres.ext, ⟨i, hi, rep_is r2⟩, post.pres.sc, run⟩

/-- What follows an item. -/
def After (rest : List Tok) : Prop := ∃ t r, rest = t :: r ∧ (t = .comma ∨ t = .semi)

theorem After.follow {rest : List Tok} (h : After rest) : Follow rest := by
  obtain ⟨t, r, rfl, h⟩ := h
  exact ⟨t, r, rfl, by rcases h with rfl | rfl <;> simp⟩

theorem item_ok {env : Env} {types : Types} {h : List Node} (k : TypesAre h types env) {p : Nat} {t : Ty} (r : Is h p t) {ts : List Tok} {i : Item} (hi : ItemD env t ts i) (td : Bool)
    (htd : td = true → i.init = none) (sc : Option SC) (va : Bool) {rest : List Tok} (hf : After rest) :
    ∃ dcl h' sc' va', Ext h h' ∧ IsItem h' dcl i ∧ ((∀ t ∈ ts, Quiet env t) → sc' = sc) ∧
      Ev (fun n => declInitF types n td p ⟨ts ++ rest, h, sc, va⟩) (.ok (dcl, ⟨rest, h', sc', va'⟩)) := by
  cases hi with
  | plain hd hv =>
    obtain ⟨dcl, b, h', sc', va', hx, r', hq, run⟩ := declarator_ok k r hd hv sc va hf.follow
    refine ⟨(dcl, none), h', sc', va', hx, ⟨r', rfl⟩, hq, ?_⟩
    refine Ev.bind run ?_
    obtain ⟨t, r, rfl, hf⟩ := hf
    rcases hf with rfl | rfl <;> simp <;> exact Ev.pure
  | @init ts d ts' i hd hv hi =>
    obtain ⟨dcl, b, h', sc', va', hx, r', hq, run⟩ := declarator_ok k r hd hv sc va (rest := .eq :: (ts' ++ rest)) ⟨_, _, rfl, by simp⟩
    obtain ⟨sc2, hq2, run2⟩ := init_ok (env := env) hi h' sc' va' rest
    refine ⟨(dcl, some i), h', sc2, va', hx, ⟨r', rfl⟩, fun q => (hq2 fun t m => q t (by simp [m])).trans (hq fun t m => q t (by simp [m])), ?_⟩
    have htd' : td = false := by cases td with
      | false => rfl
      | true => cases htd rfl
    have htk : (ts ++ .eq :: ts') ++ rest = ts ++ .eq :: (ts' ++ rest) := by simp
    rw [htk]
    refine Ev.bind run ?_
    simp only [htd', List.head?_cons, and_self, if_true]
    refine Ev.bind (f := fun n => initF n ⟨ts' ++ rest, h', sc', va'⟩) run2 ?_
    exact Ev.pure

theorem items_ok {env : Env} {types : Types} {t : Ty} (td : Bool) : ∀ {ts l}, Items env t ts l → (td = true → ∀ i ∈ l, i.init = none) → ∀ (h : List Node), TypesAre h types env → ∀ {p : Nat}, Is h p t →
    ∀ (sc : Option SC) (va : Bool) (rest : List Tok), ∃ d ds tl h1 sc1 va1 h' sc' va', Ext h h1 ∧ Ext h1 h' ∧ After tl ∧ All2 (IsItem h') (d :: ds) l ∧ (∃ x t, Declares h1 d.1 x t) ∧
      ((∀ t ∈ ts, Quiet env t) → sc' = sc) ∧
      Ev (fun n => declInitF types n td p ⟨ts ++ .semi :: rest, h, sc, va⟩) (.ok (d, ⟨tl, h1, sc1, va1⟩)) ∧
      ∀ acc, Ev (fun n => declsF types n td p (acc ++ [d]) ⟨tl, h1, sc1, va1⟩) (.ok (acc ++ d :: ds, ⟨.semi :: rest, h', sc', va'⟩))
  | _, _, .one (ts := ts) (i := i) hi => by
    intro htd h k p r sc va rest
    obtain ⟨d, h', sc', va', hx, r', hq, run⟩ := item_ok k r hi td (fun e => htd e _ (by simp)) sc va (rest := .semi :: rest) ⟨_, _, rfl, by simp⟩
    refine ⟨d, [], _, h', sc', va', h', sc', va', hx, Ext.refl _, ⟨_, _, rfl, by simp⟩, .cons r' .nil, ⟨_, _, r'.1⟩, hq, run, fun acc => Ev.const fun n => ?_⟩
    rw [declsF.eq_def]
  | _, _, .more (ts := ts) (i := i) (ts' := ts') (l := l) hi hl => by
    intro htd h k p r sc va rest
    obtain ⟨d, h1, sc1, va1, hx, r', hq, run⟩ := item_ok k r hi td (fun e => htd e _ (by simp)) sc va (rest := .comma :: (ts' ++ .semi :: rest)) ⟨_, _, rfl, by simp⟩
    obtain ⟨d2, ds, tl, h2, sc2, va2, h', sc', va', hx2, hx3, haf, ha, _, hq2, run2, run3⟩ := items_ok td hl (fun e i hi => htd e i (by simp [hi])) h1 (types_ext hx k) (is_ext hx r) sc1 va1 rest
    have htk : (ts ++ .comma :: ts') ++ .semi :: rest = ts ++ .comma :: (ts' ++ .semi :: rest) := by simp
    rw [htk]
    refine ⟨d, d2 :: ds, _, h1, sc1, va1, h', sc', va', hx, hx2.trans hx3, ⟨_, _, rfl, by simp⟩, .cons (item_ext (hx2.trans hx3) r') ha, ⟨_, _, r'.1⟩,
      fun q => (hq2 fun t m => q t (by simp [m])).trans (hq fun t m => q t (by simp [m])), run, fun acc => ?_⟩
    refine Ev.step (g := fun n => (declInitF types n td p ⟨ts' ++ .semi :: rest, h1, sc1, va1⟩).bind fun (d', s) => declsF types n td p (acc ++ [d] ++ [d']) s) (fun n => ?_) (Ev.bind run2 ?_)
    · rw [declsF.eq_def]
      rfl
    · have := run3 (acc ++ [d])
      simpa using this

mutual
theorem dir_named {env : Env} : ∀ {abs ts d}, DirD env abs ts d → abs = false → d.nm ≠ none
  | _, _, _, .ident _, _ => by simp [Dr.nm]
  | _, _, _, .empty, e => by cases e
  | _, _, _, .paren h _, e => ptr_named h e
  | _, _, _, .arr h, e => by rw [Dr.nm]; exact dir_named h e
  | _, _, _, .open h, e => by rw [Dr.nm]; exact dir_named h e
  | _, _, _, .fn (d := d) h _ _, e => by rw [Dr.nm]; exact dir_named h e
theorem ptr_named {env : Env} : ∀ {abs ts d}, PtrD env abs ts d → abs = false → d.nm ≠ none
  | _, _, _, .dir h, e => dir_named h e
  | _, _, _, .star h, e => by rw [Dr.nm]; exact ptr_named h e
  | _, _, _, .starConst h, e => by rw [Dr.nm]; exact ptr_named h e
end

/-- The declared names and types. -/
def itemsPs : List Item → Ps
  | [] => .nil
  | i :: l => .cons i.name i.ty (itemsPs l)

theorem decls_items {env : Env} : ∀ {t ts ps}, MemberDecls env t ts ps → ∃ l, Items env t ts l ∧ (∀ i ∈ l, i.init = none) ∧ itemsPs l = ps ∧ none ∉ ps.names
  | _, _, _, .one hd hv => ⟨_, .one (.plain hd hv), by simp, rfl, by simp [Ps.names]; exact fun e => ptr_named hd rfl e.symm⟩
  | _, _, _, .more hd hv hm => by
    obtain ⟨l, h1, h2, h3, h4⟩ := decls_items hm
    refine ⟨_, .more (.plain hd hv) h1, ?_, by rw [itemsPs, h3], ?_⟩
    · intro i hi
      rcases List.mem_cons.1 hi with rfl | hi
      · rfl
      · exact h2 i hi
    · rw [Ps.names, List.mem_cons]
      rintro (e | e)
      · exact ptr_named hd rfl e.symm
      · exact h4 e

theorem items_repL {h : List Node} : ∀ {ds l}, All2 (IsItem h) ds l → RepL h (fun _ => True) (ds.map (·.1)) (itemsPs l)
  | _, _, .nil => .nil
  | _, _, .cons ⟨⟨_, hi, r⟩, _⟩ t => .cons trivial hi r (items_repL t)

theorem addTypedefs_ok {h : List Node} : ∀ {ds : List Nat} {ps : Ps}, RepL h (fun _ => True) ds ps → none ∉ ps.names → ∀ (types : Types) (env : Env), TypesAre h types env →
    ∃ types', addTypedefs h ds types = .ok types' ∧ TypesAre h types' (addTypes ps env)
  | _, _, .nil, _ => fun _ _ k => ⟨_, rfl, k⟩
  | _, _, .cons (x := x) (i := i) (t := t) _ e r l, hn => by
    intro types env k
    rw [Ps.names, List.mem_cons] at hn
    cases x with
    | none => exact absurd (.inl rfl) hn
    | some x =>
      rw [addTypedefs]
      rw [e]
      dsimp only
      rw [addTypes]
      refine addTypedefs_ok l (fun m => hn (.inr m)) _ _ ⟨fun y => ?_, fun y j t' h1 h2 => ?_⟩
      · dsimp only
        by_cases hy : y = x
        · simp [hy]
        · simp [hy, k.1]
      · dsimp only at h1 h2
        by_cases hy : y = x
        · rw [if_pos hy] at h1 h2
          cases h1; cases h2
          exact r
        · rw [if_neg hy] at h1 h2
          exact k.2 y j t' h1 h2

theorem named_ok {h : List Node} {Q : Nat → Prop} : ∀ {ds : List Nat} {ps : Ps}, RepL h Q ds ps → none ∉ ps.names → named h ds = true
  | _, _, .nil, _ => rfl
  | _, _, .cons (x := x) _ e r l, hn => by
    rw [Ps.names, List.mem_cons] at hn
    cases x with
    | none => exact absurd (.inl rfl) hn
    | some x =>
      rw [named, e]
      exact named_ok l fun m => hn (.inr m)

/-- The specifiers of a declaration. -/
theorem decl_specs {env : Env} {types : Types} {h : List Node} (k : TypesAre h types env) {ss : List Tok} {c : Option SC} {t : Ty} (hs : Specs env ss c t) (sc : Option SC) (va : Bool) {rest : List Tok}
    (hr : Stop types rest) : ∃ i h' va', Ext h h' ∧ Is h' i t ∧ Ev (fun n => specsF types n true none noQ none ⟨ss ++ rest, h, sc, va⟩) (.ok (i, ⟨rest, h', c, va'⟩)) := by
  obtain ⟨h1, nd, va', hx, r, _, run⟩ := specs_ok hs _ (types_tok k) true sc va rest (fun _ => rfl) hr
  exact ⟨_, _, va', hx.trans (Ext.append _ _), rep_is (repN_last hx.1 r), run⟩

theorem semi_stop {types : Types} {rest : List Tok} : Stop types (.semi :: rest) := fun t r e => by cases e; exact ⟨rfl, by simp⟩

theorem items_head {env : Env} {t : Ty} {ts : List Tok} {l : List Item} (h : Items env t ts l) : DHead env false ts := by
  have key : ∀ {ts i}, ItemD env t ts i → DHead env false ts := by
    intro ts i h
    cases h with
    | plain h _ => exact ptr_head h
    | init h _ _ =>
      rcases ptr_head h with ⟨_, h⟩ | ⟨t, r, rfl, h'⟩
      · cases h
      · exact .inr ⟨t, _, rfl, h'⟩
  cases h with
  | one h => exact key h
  | more h _ =>
    rcases key h with ⟨_, h⟩ | ⟨t, r, rfl, h'⟩
    · cases h
    · exact .inr ⟨t, _, rfl, h'⟩

theorem head_semi {env : Env} {ts rest : List Tok} (h : DHead env false ts) : (ts ++ rest).head? ≠ some .semi := by
  rcases h with ⟨_, h⟩ | ⟨t, r, rfl, h⟩
  · cases h
  · rcases h with rfl | rfl | rfl | ⟨x, rfl, _⟩ <;> simp

theorem declaration_ok {env : Env} {types : Types} {h : List Node} (k : TypesAre h types env) {ts : List Tok} {o : SOut} {env' : Env} (hd : SDecl env ts o env') (sc : Option SC) (va : Bool) (rest : List Tok) :
    ∃ out types' h' sc' va', Ext h h' ∧ OutIs h' out o ∧ TypesAre h' types' env' ∧ Ev (fun n => declarationF types n ⟨ts ++ rest, h, sc, va⟩) (.ok (out, types', ⟨rest, h', sc', va'⟩)) := by
  cases hd with
  | @tag ss c t hs hc ht =>
    obtain ⟨i, h1, va1, hx, r, run⟩ := decl_specs k hs sc va (rest := .semi :: rest) semi_stop
    obtain ⟨nd, e1, _, e2⟩ := rep_void r
    refine ⟨.tag i, types, h1, c, va1, hx, .tag r, types_ext hx k, ?_⟩
    have htk : (ss ++ [.semi]) ++ rest = ss ++ .semi :: rest := by simp
    rw [htk]
    refine Ev.bind run ?_
    simp only [e1, List.head?_cons, if_true, e2 ht, reduceCtorEq, if_false, hc]
    exact Ev.pure
  | @typedefs ss t ds ps hs hm _ =>
    obtain ⟨l, hl, hin, hps, hnn⟩ := decls_items hm
    have hh := items_head hl
    have htk : (ss ++ (ds ++ [.semi])) ++ rest = ss ++ (ds ++ .semi :: rest) := by simp
    obtain ⟨i, h1, va1, hx, r, run⟩ := decl_specs k hs sc va (rest := ds ++ .semi :: rest) (head_stop k.1 hh ⟨_, _, rfl, by simp⟩)
    obtain ⟨nd, e1, _, _⟩ := rep_void r
    obtain ⟨d, ds', tl, h2, sc2, va2, h3, sc3, va3, hx2, hx3, haf, ha, _, _, run2, run3⟩ := items_ok true hl (fun _ => hin) h1 (types_ext hx k) r (some .typedef) va1 rest
    have hrl := items_repL ha
    rw [hps] at hrl
    obtain ⟨types', e3, k'⟩ := addTypedefs_ok hrl hnn _ _ (types_ext ((hx.trans hx2).trans hx3) k)
    refine ⟨.typedefs ((d :: ds').map (·.1)), types', h3, sc3, va3, (hx.trans hx2).trans hx3, .typedefs hrl, k', ?_⟩
    rw [htk]
    refine Ev.bind run ?_
    simp only [e1, head_semi hh, if_false, if_true]
    refine Ev.bind run2 ?_
    have := run3 []
    refine Ev.bind this ?_
    simp only [List.nil_append, e3, Res.bind_ok, expect_ok]
    exact Ev.pure
  | @vars ss c t ds l hs hc hl =>
    have hh := items_head hl
    have htk : (ss ++ (ds ++ [.semi])) ++ rest = ss ++ (ds ++ .semi :: rest) := by simp
    obtain ⟨i, h1, va1, hx, r, run⟩ := decl_specs k hs sc va (rest := ds ++ .semi :: rest) (head_stop k.1 hh ⟨_, _, rfl, by simp⟩)
    obtain ⟨nd, e1, _, _⟩ := rep_void r
    obtain ⟨d, ds', tl, h2, sc2, va2, h3, sc3, va3, hx2, hx3, haf, ha, ⟨x, ty, j, hj, rj⟩, hq, run2, run3⟩ := items_ok false hl (fun e => by cases e) h1 (types_ext hx k) r c va1 rest
    obtain ⟨nj, ej, _, _⟩ := rep_void rj
    refine ⟨.vars (d :: ds') sc3, types, h3, sc3, va3, (hx.trans hx2).trans hx3, .vars ha hq, types_ext ((hx.trans hx2).trans hx3) k, ?_⟩
    rw [htk]
    refine Ev.bind run ?_
    simp only [e1, head_semi hh, if_false, hc]
    refine Ev.bind run2 ?_
    obtain ⟨t0, r0, rfl, haf⟩ := haf
    simp only [hj, ej]
    have e2 : ∀ n, (match some nj, t0 :: r0 with
        | some (.fn _ ps _), .body b :: _ => if named h2 ps = false ∨ d.2.isSome then Res.fatal else .ok (Out.func d.1 b, types, next ⟨t0 :: r0, h2, sc2, va2⟩)
        | _, _ => (declsF types n false i [d] ⟨t0 :: r0, h2, sc2, va2⟩).bind fun (p : List (Nat × Option Init) × S) => (expect .semi p.2).bind fun s => .ok (.vars p.1 s.sc, types, s)) =
        (declsF types n false i [d] ⟨t0 :: r0, h2, sc2, va2⟩).bind fun (p : List (Nat × Option Init) × S) => (expect .semi p.2).bind fun s => .ok (.vars p.1 s.sc, types, s) := by
      intro n
      rcases haf with rfl | rfl <;> cases nj <;> rfl
    refine Ev.congr (g := fun n => (declsF types n false i [d] ⟨t0 :: r0, h2, sc2, va2⟩).bind fun (p : List (Nat × Option Init) × S) => (expect .semi p.2).bind fun s => .ok (.vars p.1 s.sc, types, s)) ?_ e2
    refine Ev.bind (run3 []) ?_
    simp only [List.nil_append, Res.bind_ok, expect_ok]
    exact Ev.pure
  | @func ss c t ds d b hs hc hd hv hn =>
    have hh := ptr_head hd
    have htk : (ss ++ (ds ++ [.body b])) ++ rest = ss ++ (ds ++ .body b :: rest) := by simp
    obtain ⟨i, h1, va1, hx, r, run⟩ := decl_specs k hs sc va (rest := ds ++ .body b :: rest) (head_stop k.1 hh ⟨_, _, rfl, by simp⟩)
    obtain ⟨nd, e1, _, _⟩ := rep_void r
    obtain ⟨dcl, bb, h2, sc2, va2, hx2, r2, hq, run2⟩ := declarator_ok (types_ext hx k) r hd hv c va1 (rest := .body b :: rest) ⟨_, _, rfl, by simp⟩
    obtain ⟨j, hj, rj⟩ := r2
    refine ⟨.func dcl b, types, h2, sc2, va2, hx.trans hx2, .func ⟨j, hj, rj⟩, types_ext (hx.trans hx2) k, ?_⟩
    rw [htk]
    refine Ev.bind run ?_
    simp only [e1, head_semi hh, if_false, hc]
    refine Ev.bind (a := ((dcl, none), ⟨.body b :: rest, h2, sc2, va2⟩)) (Ev.bind run2 ?_) ?_
    · simp
      exact Ev.pure
    · simp only [hj]
      cases hty : d.ty t with
      | fn tr ps va' =>
        rw [hty] at rj hn
        cases rj with
        | mk _ e rn =>
          cases rn with
          | fn r0 l0 =>
            simp only [e, named_ok l0 hn]
            simp [next]
            exact Ev.pure
      | _ => rw [hty] at hn; exact hn.elim

theorem unit_ok {env : Env} {ts : List Tok} {os : List SOut} {env' : Env} (hu : SUnit env ts os env') : ∀ {types : Types} {h : List Node}, TypesAre h types env → ∀ (sc : Option SC) (va : Bool) (acc : List Out),
    ∃ outs types' h' sc' va', Ext h h' ∧ All2 (OutIs h') outs os ∧ TypesAre h' types' env' ∧ Ev (fun n => unitF n types acc ⟨ts, h, sc, va⟩) (.ok (acc ++ outs, types', ⟨[], h', sc', va'⟩)) := by
  induction hu with
  | nil =>
    intro types h k sc va acc
    exact ⟨[], types, h, sc, va, Ext.refl _, .nil, k, Ev.const fun n => by rw [unitF.eq_def]; simp⟩
  | @cons env ts o env1 ts' os env2 hd _ ih =>
    intro types h k sc va acc
    obtain ⟨out, types1, h1, sc1, va1, hx1, r1, k1, run1⟩ := declaration_ok k hd sc va ts'
    obtain ⟨outs, types2, h2, sc2, va2, hx2, r2, k2, run2⟩ := ih k1 sc1 va1 (acc ++ [out])
    refine ⟨out :: outs, types2, h2, sc2, va2, hx1.trans hx2, .cons (out_ext hx2 r1) r2, k2, ?_⟩
    have hne : ∃ t r, ts ++ ts' = t :: r := by
      have : ∃ t r, ts = t :: r := by
        cases hd with
        | tag hs _ _ => obtain ⟨⟨t, r, rfl, _⟩, _⟩ := specs_head k.1 hs; exact ⟨t, _, rfl⟩
        | typedefs hs _ _ => obtain ⟨⟨t, r, rfl, _⟩, _⟩ := specs_head k.1 hs; exact ⟨t, _, rfl⟩
        | vars hs _ _ => obtain ⟨⟨t, r, rfl, _⟩, _⟩ := specs_head k.1 hs; exact ⟨t, _, rfl⟩
        | func hs _ _ _ _ => obtain ⟨⟨t, r, rfl, _⟩, _⟩ := specs_head k.1 hs; exact ⟨t, _, rfl⟩
      obtain ⟨t, r, rfl⟩ := this
      exact ⟨t, _, rfl⟩
    obtain ⟨t, r, e⟩ := hne
    rw [e] at run1 ⊢
    refine Ev.step (g := fun n => (declarationF types n ⟨t :: r, h, sc, va⟩).bind fun (o, types, s) => unitF n types (acc ++ [o]) s) (fun n => ?_) (Ev.bind run1 ?_)
    · rw [unitF.eq_def]
    · simpa using run2

end Verif.Decl
