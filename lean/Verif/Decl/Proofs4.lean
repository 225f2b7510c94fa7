import Verif.Decl.Proofs3
/-! The parser of declarations does what the grammar says: the mutual induction. -/
namespace Verif.Decl
open Verif Verif.Decl.Spec

theorem types_none {types : Types} {env : Env} (hd : ∀ x, types x = none ↔ env x = none) {x : Nat} (h : env x = none) : isTypeStarter types (.ident x) = false := by
  simp [isTypeStarter, (hd x).2 h]

/-- How a declarator begins. -/
def DHead (env : Env) (abs : Bool) (ts : List Tok) : Prop :=
  (ts = [] ∧ abs = true) ∨ ∃ t r, ts = t :: r ∧ (t = .star ∨ t = .lpar ∨ t = .lbrk ∨ ∃ x, t = .ident x ∧ env x = none)

theorem DHead.append {env : Env} {abs : Bool} {ts : List Tok} (h : DHead env abs ts) (t : Tok) (r : List Tok) (ht : t = .lpar ∨ t = .lbrk) : DHead env abs (ts ++ t :: r) := by
  rcases h with ⟨rfl, _⟩ | ⟨t', r', rfl, h⟩
  · exact .inr ⟨t, r, rfl, by rcases ht with rfl | rfl <;> simp⟩
  · exact .inr ⟨t', _, rfl, h⟩

theorem dir_headD {env : Env} : ∀ {abs ts d}, DirD env abs ts d → DHead env abs ts
  | _, _, _, .ident h => .inr ⟨_, _, rfl, .inr (.inr (.inr ⟨_, rfl, h⟩))⟩
  | _, _, _, .empty => .inl ⟨rfl, rfl⟩
  | _, _, _, .paren _ _ => .inr ⟨_, _, rfl, .inr (.inl rfl)⟩
  | _, _, _, .arr h => (dir_headD h).append _ _ (.inr rfl)
  | _, _, _, .open h => (dir_headD h).append _ _ (.inr rfl)
  | _, _, _, .fn h _ _ => (dir_headD h).append _ _ (.inl rfl)

theorem ptr_head {env : Env} {abs : Bool} {ts : List Tok} {d : Dr} (h : PtrD env abs ts d) : DHead env abs ts := by
  cases h with
  | dir h => exact dir_headD h
  | star h => exact .inr ⟨_, _, rfl, .inl rfl⟩
  | starConst h => exact .inr ⟨_, _, rfl, .inl rfl⟩

theorem follow_stop {types : Types} {rest : List Tok} (h : Follow rest) : Stop types rest := by
  intro t r e
  obtain ⟨t', r', rfl, h⟩ := h
  cases e
  rcases h with rfl | rfl | rfl | rfl | ⟨b, rfl⟩ <;> exact ⟨rfl, by simp⟩

theorem head_stop {types : Types} {env : Env} (hd : ∀ x, types x = none ↔ env x = none) {abs : Bool} {ts rest : List Tok} (h : DHead env abs ts) (hf : Follow rest) : Stop types (ts ++ rest) := by
  rcases h with ⟨rfl, _⟩ | ⟨t', r', rfl, h⟩
  · exact follow_stop hf
  · intro t r e
    cases e
    rcases h with rfl | rfl | rfl | ⟨x, rfl, hx⟩
    · exact ⟨rfl, by simp⟩
    · exact ⟨rfl, by simp⟩
    · exact ⟨rfl, by simp⟩
    · exact ⟨types_none hd hx, by simp⟩

theorem side_stop {types : Types} {a : List Tok} {q : Q} {c : Option SC} (h : Side a q c) {rest : List Tok} (hs : Stop types rest) :
    (∀ k r, a ++ rest ≠ .kw k :: r) ∧ ∀ r, a ++ rest ≠ .lbrace :: r := by
  cases a with
  | nil =>
    constructor
    · intro k r e
      cases (hs _ _ e).1
    · intro r e
      exact (hs _ _ e).2 rfl
  | cons x a =>
    have := side_tokens h x (List.mem_cons_self ..)
    constructor
    · intro k r e
      cases e
      rcases this with h | h | h | ⟨_, h⟩ <;> cases h
    · intro r e
      cases e
      rcases this with h | h | h | ⟨_, h⟩ <;> cases h

theorem repN_last {h1 : List Node} {lo L : Nat} {nd : Node} {t : Ty} (hl : L ≤ h1.length) (r : RepN h1 (Out2 lo L) nd t) : Rep (h1 ++ [nd]) (Out2 lo L) h1.length t :=
  .mk (.inr hl) (get_last _ _) (repN_move (moves_ext (Ext.append _ _) fun _ _ q => q) r)

theorem rep_void {h : List Node} {Q : Nat → Prop} {p : Nat} {T : Ty} (r : Rep h Q p T) : ∃ nd, h[p]? = some nd ∧ (isVoid nd = true → isVoidTy T) ∧ (isTaggedTy T → isTagged nd = true) := by
  cases r with
  | mk _ e r =>
    refine ⟨_, e, ?_, ?_⟩
    · intro v
      cases r with
      | @base k u q => cases k <;> first | exact trivial | cases v
      | _ => cases v
    · intro v
      cases r <;> first | rfl | cases v

theorem va_trans {ts ts' : List Tok} {a b c : Bool} (h : .ellipsis ∉ ts → b = true → a = true) (h' : .ellipsis ∉ ts' → c = true → b = true) : .ellipsis ∉ ts ++ ts' → c = true → a = true :=
  fun e v => h (fun m => e (by simp [m])) (h' (fun m => e (by simp [m])) v)

theorem memberDecls_head {env : Env} {t : Ty} {ts : List Tok} {ps : Ps} (h : MemberDecls env t ts ps) : DHead env false ts := by
  cases h with
  | one h _ => exact ptr_head h
  | more h _ _ =>
    rcases ptr_head h with ⟨_, h⟩ | ⟨t, r, rfl, h'⟩
    · cases h
    · exact .inr ⟨t, _, rfl, h'⟩

theorem paramList_head {env : Env} {types : Types} (hd : ∀ x, types x = none ↔ env x = none) {ts : List Tok} {ps : Ps} (h : ParamList env ts ps) :
    (∃ t r, ts = t :: r ∧ isTypeStarter types t = true) ∧ ∃ t0 ∈ ts, ¬ Quiet env t0 := by
  cases h with
  | one h _ _ _ _ =>
    obtain ⟨⟨t, r, rfl, h1⟩, t0, h2, h3⟩ := specs_head hd h
    exact ⟨⟨t, _, rfl, h1⟩, t0, by rw [List.mem_append]; exact .inl h2, h3⟩
  | more h _ _ _ _ _ =>
    obtain ⟨⟨t, r, rfl, h1⟩, t0, h2, h3⟩ := specs_head hd h
    exact ⟨⟨t, _, rfl, h1⟩, t0, by rw [List.mem_append]; exact .inl h2, h3⟩

theorem params_ellipsis {env : Env} {tp : List Tok} {ps : Ps} {va : Bool} (h : Params env tp ps va) (v : va = true) : .ellipsis ∈ tp := by
  cases h <;> first | (cases v; done) | simp

theorem params_quiet {env : Env} {types : Types} (hd : ∀ x, types x = none ↔ env x = none) {tp : List Tok} {ps : Ps} {va : Bool} (h : Params env tp ps va) (q : ∀ t ∈ tp, Quiet env t) : tp = [] := by
  cases h with
  | none => rfl
  | void => exact (q _ (List.mem_cons_self ..)).elim
  | list h _ =>
    obtain ⟨_, t0, h1, h2⟩ := paramList_head hd h
    exact absurd (q t0 h1) h2
  | ellipsis h =>
    obtain ⟨_, t0, h1, h2⟩ := paramList_head hd h
    exact absurd (q t0 (by simp [h1])) h2

/-- What is proved of specifiers. -/
def PSpecs (env : Env) (types : Types) (lo : Nat) (ts : List Tok) (c : Option SC) (t : Ty) : Prop :=
  ∀ (h : List Node), TOK env types lo h → ∀ (allow : Bool) (sc : Option SC) (va : Bool) (rest : List Tok),
    (c = some .typedef → allow = true) → Stop types rest →
    ∃ h1 nd va', Ext h h1 ∧ RepN h1 (Out2 lo h.length) nd t ∧ (.ellipsis ∉ ts → va' = true → va = true) ∧
      Ev (fun n => specsF types n allow none noQ none ⟨ts ++ rest, h, sc, va⟩) (.ok (h1.length, ⟨rest, h1 ++ [nd], c, va'⟩))

/-- What is proved of declarators. -/
def PPtrD (env : Env) (types : Types) (lo : Nat) (abs : Bool) (ts : List Tok) (d : Dr) : Prop :=
  ∀ (h : List Node), TOK env types lo h → ∀ {p : Nat} {T : Ty}, Safe d T →
    (∃ nd, h[p]? = some nd ∧ (isVoid nd = true → isVoidTy T)) → ∀ (sc : Option SC) (va : Bool) {rest : List Tok}, Follow rest →
    ∃ dcl b h' sc' va', DPost env lo p d ts ⟨ts ++ rest, h, sc, va⟩ ⟨rest, h', sc', va'⟩ dcl b ∧
      Ev (fun n => declaratorF types n abs p ⟨ts ++ rest, h, sc, va⟩) (.ok (dcl, b, ⟨rest, h', sc', va'⟩))

theorem param_ok {env : Env} {types : Types} {lo : Nat} : ∀ {ss c t ts d}, PSpecs env types lo ss c t → PPtrD env types lo true ts d → Specs env ss c t → c ≠ some .typedef → PtrD env true ts d → d.Valid t → ¬ isVoidTy (d.ty t) → ∀ (h : List Node), TOK env types lo h →
    ∀ (acc : List Nat) (sc : Option SC) (va : Bool) {tl out : List Tok}, (tl = .comma :: out ∨ (tl = out ∧ ∃ r, out = .rpar :: r)) →
    ∃ dcl h' sc' va', Ext h h' ∧ Out2 lo h.length dcl ∧ ∃ i, h'[dcl]? = some (.decl d.nm i) ∧ Rep h' (Out2 lo h.length) i (d.ty t) ∧ (.ellipsis ∉ ss ++ ts → va' = true → va = true) ∧
      ∀ R, Ev (fun n => paramsF types n (acc ++ [dcl]) ⟨out, h', sc', va'⟩) R → Ev (fun n => paramsF types n acc ⟨(ss ++ ts) ++ tl, h, sc, va⟩) R
  | ss, c, t, ts, d, IHs, IHd, hs, hc, hd, hv, hnv => by
    intro h k acc sc va tl out htl
    have hf : Follow tl := by
      rcases htl with rfl | ⟨rfl, r, rfl⟩
      · exact ⟨_, _, rfl, by simp⟩
      · exact ⟨_, _, rfl, by simp⟩
    obtain ⟨h1, nd, va1, hx1, r1, hv1, run1⟩ := IHs _ k false sc va (ts ++ tl) (fun e => absurd e hc) (head_stop k.dom (ptr_head hd) hf)
    have kx : Ext h (h1 ++ [nd]) := hx1.trans (Ext.append _ _)
    have r1' := repN_last hx1.1 r1
    obtain ⟨nd1, e1, e2, _⟩ := rep_void r1'
    obtain ⟨dcl, b, h', sc', va', post, run⟩ := IHd _ (k.ext kx) (valid_safe hv) ⟨nd1, e1, e2⟩ c va1 hf
    obtain ⟨i, hi, r', q'⟩ := dpost_rep post kx.1 r1'
    dsimp only at hi r'
    obtain ⟨nd2, e3, e4, _⟩ := rep_void r'
    have hnv2 : isVoid nd2 = false := by
      cases hvv : isVoid nd2 with
      | false => rfl
      | true => exact absurd (e4 hvv) hnv
    refine ⟨dcl, h', sc', va', kx.trans post.pres.ext, q', i, hi, r', va_trans hv1 post.pres.va, fun R hR => ?_⟩
    obtain ⟨⟨t0, r0, rfl, h0⟩, _⟩ := specs_head k.dom hs
    have e := Ev.bind (g := fun n (p : Nat × S) => (declaratorF types n true p.1 p.2).bind fun (d, _, s) =>
            match s.heap[d]? with
            | some (.decl _ j) =>
              match s.heap[j]? with
              | none => .ub
              | some nd =>
                if isVoid nd then
                  if s.toks.head? ≠ some .rpar ∨ acc ≠ [] then .fatal else .ok (acc, s)
                else paramsF types n (acc ++ [d]) (if s.toks.head? = some .comma then next s else s)
            | _ => .ub) run1 (Ev.bind (g := fun n (p : Nat × Nat × S) =>
            match p.2.2.heap[p.1]? with
            | some (.decl _ j) =>
              match p.2.2.heap[j]? with
              | none => .ub
              | some nd =>
                if isVoid nd then
                  if p.2.2.toks.head? ≠ some .rpar ∨ acc ≠ [] then .fatal else .ok (acc, p.2.2)
                else paramsF types n (acc ++ [p.1]) (if p.2.2.toks.head? = some .comma then next p.2.2 else p.2.2)
            | _ => .ub) run (Ev.congr hR fun n => by
              dsimp only
              rw [hi]
              dsimp only
              rw [e3]
              dsimp only
              rw [hnv2]
              rcases htl with rfl | ⟨rfl, r, rfl⟩ <;> simp [next]))
    refine Ev.step (fun n => ?_) (by simpa using e)
    rw [paramsF.eq_def]
    cases t0 <;> first | (cases h0; done) | (simp [h0]; done) | (simp [h0]; rfl)

mutual
theorem specs_ok {env : Env} {types : Types} {lo : Nat} : ∀ {ts c t}, Specs env ts c t → PSpecs env types lo ts c t
  | _, _, _, .mk (a := a) (ts := ts) (b := b) (q := q) (q' := q') (c := c) (c' := c') (c'' := c'') (t := t) ha ht hb ho hq => by
    intro h k allow sc va rest hall hst
    obtain ⟨s1, s2⟩ := side_stop hb hst
    have hca : c = some .typedef → allow = true := fun e => hall (by subst e; cases ho; rfl)
    have hcb : c' = some .typedef → allow = true := fun e => hall (by subst e; cases ho; rfl)
    obtain ⟨h1, nd, sc', va', hx, r, hv, run⟩ := typeSpec_ok ht _ k allow q c sc va (b ++ rest) s1 s2
    obtain ⟨nd', r', run'⟩ := specEnd_ok (c := c'') (sc := sc') (va := va') types allow hst r hq
    refine ⟨h1, nd', va', hx, r', ?_, ?_⟩
    · intro e v
      exact hv (fun m => e (by simp [m])) v
    · have := side_ok types hb allow (some h1.length) rest (h1 ++ [nd]) sc' va' _ q c c'' ho hcb run'
      have := run _ this
      have := side_ok types ha allow none (ts ++ (b ++ rest)) h sc va _ noQ none c .right hca (by rw [Q.no_or]; exact this)
      simpa using this

theorem typeSpec_ok {env : Env} {types : Types} {lo : Nat} : ∀ {ts t}, TypeSpec env ts t → ∀ (h : List Node), TOK env types lo h → ∀ (allow : Bool) (q : Q) (c sc : Option SC) (va : Bool) (rest : List Tok),
    (∀ k r, rest ≠ .kw k :: r) → (∀ r, rest ≠ .lbrace :: r) →
    ∃ h1 nd sc' va', Ext h h1 ∧ RepN h1 (Out2 lo h.length) nd t ∧ (.ellipsis ∉ ts → va' = true → va = true) ∧
      ∀ R, Ev (fun n => specsF types n allow (some h1.length) q c ⟨rest, h1 ++ [nd], sc', va'⟩) R → Ev (fun n => specsF types n allow none q c ⟨ts ++ rest, h, sc, va⟩) R
  | _, _, .words (ws := ws) (k := k) (u := u) hw => by
    intro h _ allow q c sc va rest s1 s2
    refine ⟨h, .base k u noQ, sc, va, Ext.refl _, .base, fun _ v => v, fun R hR => Ev.step (fun n => ?_) hR⟩
    have e := typeSpec_words hw s1
    obtain ⟨w, r, rfl⟩ := words_cons hw
    rw [specsF.eq_def]
    simp only [List.map_cons, List.cons_append] at e ⊢
    rw [if_neg (by simp), e]
    rfl
  | _, _, .typedef (x := x) (t := t) hx => by
    intro h k allow q c sc va rest _ _
    have hne : types x ≠ none := fun e => by rw [(k.dom x).1 e] at hx; cases hx
    obtain ⟨i, hi⟩ := Option.ne_none_iff_exists'.1 hne
    obtain ⟨_, e, r⟩ := k.rep x i t hi hx
    rename_i nd _
    refine ⟨h, nd, sc, va, Ext.refl _, repN_move (fun i hi q => ⟨.inl q, rfl⟩) r, fun _ v => v, fun R hR => Ev.step (fun n => ?_) hR⟩
    rw [specsF.eq_def]
    simp only [List.cons_append, List.nil_append]
    rw [hi]
    dsimp only
    rw [if_neg (by simp), e]
    rfl
  | _, _, .enum (e := e) => by
    intro h k allow q c sc va rest _ _
    refine ⟨h, .enum noQ e, sc, va, Ext.refl _, .enum, fun _ v => v, fun R hR => Ev.step (fun n => ?_) hR⟩
    rw [specsF.eq_def]
    simp only [List.cons_append, List.nil_append]
    rw [if_neg (by simp)]
    rfl
  | _, _, .ref (k := k) (x := x) => by
    intro h _ allow q c sc va rest _ s2
    refine ⟨h, .su k noQ (some x) [], sc, va, Ext.refl _, .su .nil, fun _ v => v, fun R hR => ?_⟩
    refine Ev.step (g := fun n => (structF types n k ⟨.ident x :: rest, h, sc, va⟩).bind fun (i, s) => specsF types n allow (some i) q c s) (fun n => ?_) (Ev.bind (a := (h.length, _)) (Ev.const fun n => ?_) hR)
    · rw [specsF.eq_def]
      simp only [List.cons_append, List.nil_append]
      rw [if_neg (by simp)]
      rfl
    · rw [structF.eq_def]
      cases rest with
      | nil => rfl
      | cons t r => cases t <;> first | rfl | exact absurd rfl (s2 _)
  | _, _, .tagged (k := k) (x := x) (ts := ts) (ms := ms) hm _ => by
    intro h kk allow q c sc va rest _ s2
    obtain ⟨ds, h', sc', va', hx, r, hv, run⟩ := members_ok hm _ kk [] sc va rest
    refine ⟨h', .su k noQ (some x) ds, sc', va', hx, .su r, fun e v => hv (fun m => e (by simp [m])) v, fun R hR => ?_⟩
    refine Ev.step (g := fun n => (structF types n k ⟨.ident x :: .lbrace :: (ts ++ .rbrace :: rest), h, sc, va⟩).bind fun (i, s) => specsF types n allow (some i) q c s) (fun n => ?_) (Ev.bind (a := (h'.length, _)) ?_ hR)
    · rw [specsF.eq_def]
      simp only [List.cons_append, List.append_assoc, List.nil_append]
      rw [if_neg (by simp)]
      rfl
    · refine Ev.step (fun n => ?_) (Ev.bind (g := fun _ p => (expect .rbrace p.2).bind fun s => .ok (s.heap.length, alloc (.su k noQ (some x) p.1) s)) run ?_)
      · rw [structF.eq_def]
        rfl
      · dsimp only
        rw [expect_ok, Res.bind_ok]
        exact Ev.pure
  | _, _, .untagged (k := k) (ts := ts) (ms := ms) hm _ => by
    intro h kk allow q c sc va rest _ s2
    obtain ⟨ds, h', sc', va', hx, r, hv, run⟩ := members_ok hm _ kk [] sc va rest
    refine ⟨h', .su k noQ none ds, sc', va', hx, .su r, fun e v => hv (fun m => e (by simp [m])) v, fun R hR => ?_⟩
    refine Ev.step (g := fun n => (structF types n k ⟨.lbrace :: (ts ++ .rbrace :: rest), h, sc, va⟩).bind fun (i, s) => specsF types n allow (some i) q c s) (fun n => ?_) (Ev.bind (a := (h'.length, _)) ?_ hR)
    · rw [specsF.eq_def]
      simp only [List.cons_append, List.append_assoc, List.nil_append]
      rw [if_neg (by simp)]
      rfl
    · refine Ev.step (fun n => ?_) (Ev.bind (g := fun _ p => (expect .rbrace p.2).bind fun s => .ok (s.heap.length, alloc (.su k noQ none p.1) s)) run ?_)
      · rw [structF.eq_def]
        rfl
      · dsimp only
        rw [expect_ok, Res.bind_ok]
        exact Ev.pure

theorem members_ok {env : Env} {types : Types} {lo : Nat} : ∀ {ts ms}, Members env ts ms → ∀ (h : List Node), TOK env types lo h → ∀ (acc : List Nat) (sc : Option SC) (va : Bool) (rest : List Tok),
    ∃ ds h' sc' va', Ext h h' ∧ RepL h' (Out2 lo h.length) ds ms ∧ (.ellipsis ∉ ts → va' = true → va = true) ∧
      Ev (fun n => membersF types n acc ⟨ts ++ .rbrace :: rest, h, sc, va⟩) (.ok (acc ++ ds, ⟨.rbrace :: rest, h', sc', va'⟩))
  | _, _, .nil => by
    intro h k acc sc va rest
    refine ⟨[], h, sc, va, Ext.refl _, .nil, fun _ v => v, Ev.const fun n => ?_⟩
    rw [membersF.eq_def]
    simp
  | _, _, .anon (ss := ss) (t := t) (ts := ts) (ms := ms) hs htag hm => by
    intro h k acc sc va rest
    obtain ⟨h1, nd, va1, hx1, r1, hv1, run1⟩ := specs_ok hs _ k false sc va (.semi :: (ts ++ .rbrace :: rest)) (fun e => by cases e) (fun t r e => by cases e; exact ⟨rfl, by simp⟩)
    have kx : Ext h ((h1 ++ [nd]) ++ [.decl none h1.length]) := (hx1.trans (Ext.append _ _)).trans (Ext.append _ _)
    obtain ⟨ds, h', sc', va', hx, r, hv, run⟩ := members_ok hm _ (k.ext kx) (acc ++ [h1.length + 1]) none va1 rest
    obtain ⟨nd', e1, _, e2⟩ := rep_void (repN_last hx1.1 r1)
    refine ⟨(h1.length + 1) :: ds, h', sc', va', kx.trans hx, ?_, ?_, ?_⟩
    · have hl := hx1.1
      refine .cons (i := h1.length) (.inr (by omega)) ?_ (rep_move (moves_ext ((Ext.append _ _).trans hx) fun _ _ q => q) (repN_last hx1.1 r1)) (repL_move (fun i hi q => ⟨out2_mono kx.1 q, rfl⟩) r)
      rw [hx.2 _ (by simp)]
      have := get_last (h1 ++ [nd]) (.decl none h1.length)
      simpa using this
    · exact fun e v => hv1 (fun m => e (by simp [m])) (hv (fun m => e (by simp [m])) v)
    · obtain ⟨⟨t0, r0, rfl, h0⟩, _⟩ := specs_head k.dom hs
      have e := Ev.bind (g := fun n (p : Nat × S) =>
          if p.2.toks.head? = some .semi then
            match p.2.heap[p.1]? with
            | none => .ub
            | some nd =>
              if isTagged nd then membersF types n (acc ++ [p.2.heap.length]) (next (alloc (.decl none p.1) p.2))
              else .fatal
          else
            (memberDeclsF types n p.1 acc p.2).bind fun (acc, s) => (expect .semi s).bind fun s => membersF types n acc s) run1 (Ev.congr run fun n => by
            dsimp only
            rw [if_pos (by rfl), e1]
            dsimp only
            rw [if_pos (e2 htag)]
            simp [next, alloc])
      refine Ev.step (fun n => ?_) (by simpa using e)
      rw [membersF.eq_def]
      cases t0 <;> first | (cases h0; done) | (simp [h0]; done) | (simp [h0]; rfl)
  | _, _, .line (ss := ss) (t := t) (ds := ds) (ps := ps) (ts := ts) (ms := ms) hs hmd hm => by
    intro h k acc sc va rest
    have hdh : DHead env false ds := memberDecls_head hmd
    have hstop : Stop types (ds ++ .semi :: (ts ++ .rbrace :: rest)) := head_stop k.dom hdh ⟨.semi, _, rfl, by simp⟩
    obtain ⟨h1, nd, va1, hx1, r1, hv1, run1⟩ := specs_ok hs _ k false sc va (ds ++ .semi :: (ts ++ .rbrace :: rest)) (fun e => by cases e) hstop
    have kx : Ext h (h1 ++ [nd]) := hx1.trans (Ext.append _ _)
    obtain ⟨ds2, h2, sc2, va2, hx2, r2, hv2, run2⟩ := memberDecls_ok hmd _ (k.ext kx) (repN_last hx1.1 r1) kx.1 acc none va1 (ts ++ .rbrace :: rest)
    obtain ⟨ds3, h3, sc3, va3, hx3, r3, hv3, run3⟩ := members_ok hm _ (k.ext (kx.trans hx2)) (acc ++ ds2) sc2 va2 rest
    refine ⟨ds2 ++ ds3, h3, sc3, va3, (kx.trans hx2).trans hx3, repL_append (repL_move (moves_ext hx3 fun _ _ q => q) r2) (repL_move (fun i hi q => ⟨out2_mono (kx.trans hx2).1 q, rfl⟩) r3), ?_, ?_⟩
    · exact fun e v => hv1 (fun m => e (by simp [m])) (hv2 (fun m => e (by simp [m])) (hv3 (fun m => e (by simp [m])) v))
    · obtain ⟨⟨t0, r0, rfl, h0⟩, _⟩ := specs_head k.dom hs
      have e := Ev.bind (g := fun n (p : Nat × S) =>
          if p.2.toks.head? = some .semi then
            match p.2.heap[p.1]? with
            | none => .ub
            | some nd =>
              if isTagged nd then membersF types n (acc ++ [p.2.heap.length]) (next (alloc (.decl none p.1) p.2))
              else .fatal
          else
            (memberDeclsF types n p.1 acc p.2).bind fun (acc, s) => (expect .semi s).bind fun s => membersF types n acc s) run1 (Ev.congr (Ev.bind (g := fun n (p : List Nat × S) => (expect .semi p.2).bind fun s => membersF types n p.1 s) run2 (Ev.congr run3 fun n => by
              dsimp only
              rw [expect_ok, Res.bind_ok])) fun n => by
            dsimp only
            rw [if_neg]
            rcases hdh with ⟨_, h⟩ | ⟨t, r, rfl, h⟩
            · cases h
            · rcases h with rfl | rfl | rfl | ⟨x, rfl, _⟩ <;> simp)
      refine Ev.step (fun n => ?_) (by simpa using e)
      rw [membersF.eq_def]
      cases t0 <;> first | (cases h0; done) | (simp [h0]; done) | (simp [h0]; rfl)

theorem memberDecls_ok {env : Env} {types : Types} {lo : Nat} : ∀ {t ts ps}, MemberDecls env t ts ps → ∀ (h : List Node), TOK env types lo h → ∀ {L0 p : Nat}, Rep h (Out2 lo L0) p t → L0 ≤ h.length →
    ∀ (acc : List Nat) (sc : Option SC) (va : Bool) (rest : List Tok),
    ∃ ds h' sc' va', Ext h h' ∧ RepL h' (Out2 lo L0) ds ps ∧ (.ellipsis ∉ ts → va' = true → va = true) ∧
      Ev (fun n => memberDeclsF types n p acc ⟨ts ++ .semi :: rest, h, sc, va⟩) (.ok (acc ++ ds, ⟨.semi :: rest, h', sc', va'⟩))
  | _, _, _, .one (ts := ts) (d := d) hd hv => by
    intro h k L0 p r hL acc sc va rest
    obtain ⟨nd, e1, e2, _⟩ := rep_void r
    obtain ⟨dcl, b, h', sc', va', post, run⟩ := ptrD_ok hd _ k (valid_safe hv) ⟨nd, e1, e2⟩ sc va (rest := .semi :: rest) ⟨_, _, rfl, by simp⟩
    obtain ⟨i, hi, r', q'⟩ := dpost_rep post hL r
    refine ⟨[dcl], h', sc', va', post.pres.ext, .cons q' hi r' .nil, post.pres.va, ?_⟩
    refine Ev.step (fun n => ?_) (Ev.bind (g := fun n (p' : Nat × Nat × S) => if p'.2.2.toks.head? = some .comma then memberDeclsF types n p (acc ++ [p'.1]) (next p'.2.2) else .ok (acc ++ [p'.1], p'.2.2)) run ?_)
    · rw [memberDeclsF.eq_def]
    · simp only [List.head?_cons, Option.some.injEq, reduceCtorEq, if_false]
      exact Ev.pure
  | _, _, _, .more (ts := ts) (d := d) (ts' := ts') (ps := ps) hd hv hm => by
    intro h k L0 p r hL acc sc va rest
    obtain ⟨nd, e1, e2, _⟩ := rep_void r
    obtain ⟨dcl, b, h', sc', va', post, run⟩ := ptrD_ok hd _ k (valid_safe hv) ⟨nd, e1, e2⟩ sc va (rest := .comma :: (ts' ++ .semi :: rest)) ⟨_, _, rfl, by simp⟩
    obtain ⟨i, hi, r', q'⟩ := dpost_rep post hL r
    obtain ⟨ds2, h2, sc2, va2, hx2, r2, hv2, run2⟩ := memberDecls_ok hm _ (k.ext post.pres.ext) (rep_move (moves_ext post.pres.ext fun _ _ q => q) r) (Nat.le_trans hL post.pres.ext.1) (acc ++ [dcl]) sc' va' rest
    refine ⟨dcl :: ds2, h2, sc2, va2, post.pres.ext.trans hx2, .cons q' ?_ (rep_move (moves_ext hx2 fun _ _ q => q) r') r2, ?_, ?_⟩
    · rw [hx2.2 _ (get_lt hi)]; exact hi
    · exact fun e v => post.pres.va (fun m => e (by simp [m])) (hv2 (fun m => e (by simp [m])) v)
    · refine Ev.step (g := fun n => (declaratorF types n false p ⟨ts ++ .comma :: (ts' ++ .semi :: rest), h, sc, va⟩).bind fun (p' : Nat × Nat × S) =>
        if p'.2.2.toks.head? = some .comma then memberDeclsF types n p (acc ++ [p'.1]) (next p'.2.2) else .ok (acc ++ [p'.1], p'.2.2)) (fun n => ?_) (Ev.bind run ?_)
      · rw [memberDeclsF.eq_def]
        simp
      · simp only [List.head?_cons, if_true]
        simpa [next] using run2

theorem ptrD_ok {env : Env} {types : Types} {lo : Nat} : ∀ {abs ts d}, PtrD env abs ts d → PPtrD env types lo abs ts d
  | abs, _, _, .dir (ts := ts) (d := d) hd => by
    intro h k p T hs hp sc va rest hf
    obtain ⟨res, dcl, b, h', sc', va', post, _, run⟩ := dirD_ok hd _ k hs hp sc va (rest := rest) (fun _ => .inr hf)
    refine ⟨dcl, b, h', sc', va', post, run _ (Ev.const fun n => ?_)⟩
    obtain ⟨t', r', rfl, hf⟩ := hf
    rw [suffixF.eq_def]
    rcases hf with rfl | rfl | rfl | rfl | ⟨_, rfl⟩ <;> rfl
  | abs, _, _, .star (ts := ts) (d := d) hd => by
    intro h k p T hs hp sc va rest hf
    obtain ⟨dcl, b, h', sc', va', post, run⟩ := ptrD_ok hd _ (k.ext (Ext.append h [.ptr noQ p])) (p := h.length) (safe_nonvoid (t := .ptr noQ T) (fun v => v) d) ⟨_, get_last _ _, fun v => by cases v⟩ sc va hf
    refine ⟨dcl, h.length, h', sc', va', star_post (s := ⟨.star :: ts ++ rest, h, sc, va⟩) (s1 := ⟨ts ++ rest, h ++ [.ptr noQ p], sc, va⟩) (pre := [.star]) (c := false) k.le rfl rfl rfl post, ?_⟩
    refine Ev.step (fun n => ?_) (Ev.bind (g := fun _ (p' : Nat × Nat × S) => .ok (p'.1, h.length, p'.2.2)) run Ev.pure)
    rw [declaratorF.eq_def]
    have hst := head_stop k.dom (ptr_head hd) hf
    cases hts : ts ++ rest with
    | nil => simp [hts, next, alloc]
    | cons t r =>
      have := (hst t r hts).1
      cases t <;> first | (cases this; done) | (simp [hts, next, alloc]; done)
  | abs, _, _, .starConst (ts := ts) (d := d) hd => by
    intro h k p T hs hp sc va rest hf
    obtain ⟨dcl, b, h', sc', va', post, run⟩ := ptrD_ok hd _ (k.ext (Ext.append h [.ptr ⟨true, false⟩ p])) (p := h.length) (safe_nonvoid (t := .ptr noQ T) (fun v => v) d) ⟨_, get_last _ _, fun v => by cases v⟩ sc va hf
    refine ⟨dcl, h.length, h', sc', va', star_post (s := ⟨.star :: .const :: ts ++ rest, h, sc, va⟩) (s1 := ⟨ts ++ rest, h ++ [.ptr ⟨true, false⟩ p], sc, va⟩) (pre := [.star, .const]) (c := true) k.le rfl rfl rfl post, ?_⟩
    refine Ev.step (fun n => ?_) (Ev.bind (g := fun _ (p' : Nat × Nat × S) => .ok (p'.1, h.length, p'.2.2)) run Ev.pure)
    rw [declaratorF.eq_def]
    simp [next, alloc]

theorem dirD_ok {env : Env} {types : Types} {lo : Nat} : ∀ {abs ts d}, DirD env abs ts d → ∀ (h : List Node), TOK env types lo h → ∀ {p : Nat} {T : Ty}, Safe d T →
    (∃ nd, h[p]? = some nd ∧ (isVoid nd = true → isVoidTy T)) → ∀ (sc : Option SC) (va : Bool) {rest : List Tok}, (ts = [] → (∃ r, rest = .lbrk :: r) ∨ Follow rest) →
    ∃ res dcl b h' sc' va', DPost env lo p d ts ⟨ts ++ rest, h, sc, va⟩ ⟨rest, h', sc', va'⟩ dcl b ∧ ResOK p d ⟨rest, h', sc', va'⟩ res ∧
      ∀ R, Ev (fun n => suffixF types n res dcl b ⟨rest, h', sc', va'⟩) R → Ev (fun n => declaratorF types n abs p ⟨ts ++ rest, h, sc, va⟩) R
  | abs, _, _, .ident (x := x) hx => by
    intro h k p T hs hp sc va rest hf
    refine ⟨p, h.length, h.length, _, _, _, name_post env lo p (some x) [.ident x] rest ⟨.ident x :: rest, h, sc, va⟩, .inl ⟨⟨_, rfl⟩, rfl⟩, fun R hR => Ev.step (fun n => ?_) hR⟩
    rw [declaratorF.eq_def]
    simp [(k.dom x).2 hx, next, alloc]
  | _, _, _, .empty => by
    intro h k p T hs hp sc va rest hf
    refine ⟨p, h.length, h.length, _, _, _, name_post env lo p none [] rest ⟨rest, h, sc, va⟩, .inl ⟨⟨_, rfl⟩, rfl⟩, fun R hR => Ev.step (fun n => ?_) hR⟩
    rw [declaratorF.eq_def]
    rcases hf rfl with ⟨r, rfl⟩ | ⟨t, r, rfl, hf'⟩
    · rfl
    · rcases hf' with rfl | rfl | rfl | rfl | ⟨_, rfl⟩ <;> rfl
  | abs, _, _, .paren (ts := ts) (d := d) hd hne => by
    intro h k p T hs hp sc va rest hf
    obtain ⟨dcl, b, h', sc', va', post, run⟩ := ptrD_ok hd _ k hs hp sc va (rest := .rpar :: rest) ⟨_, _, rfl, by simp⟩
    obtain ⟨i, hi, hres⟩ := post.hd
    refine ⟨i, dcl, b, h', sc', va', ⟨⟨post.pres.ext, fun e v => post.pres.va (fun m => e (by simp [m])) v, fun q => post.pres.sc fun t m => q t (by simp [m])⟩, post.lb, post.nm, post.hd, post.hb, post.ctx⟩, hres, fun R hR => ?_⟩
    refine Ev.step (fun n => ?_) (Ev.bind (g := fun n (p' : Nat × Nat × S) => (expect .rpar p'.2.2).bind fun s =>
        match s.heap[p'.1]? with
        | some (.decl _ i) => suffixF types n i p'.1 p'.2.1 s
        | _ => .ub) run (Ev.congr hR fun n => ?_))
    · rw [declaratorF.eq_def]
      simp [next]
      rfl
    · dsimp only
      rw [expect_ok, Res.bind_ok]
      dsimp only at hi ⊢
      rw [hi]
  | abs, _, _, .arr (ts := ts) (d := d) (v := v) (ty := ty) hd => by
    intro h k p T hs hp sc va rest hf
    obtain ⟨res, dcl, b, h1, sc1, va1, post, hres, run⟩ := dirD_ok hd _ k (safe_nonvoid hs d) hp sc va (rest := [.lbrk, .expr v ty, .rbrk] ++ rest) (fun _ => .inl ⟨_, rfl⟩)
    obtain ⟨bn, hb, hpb⟩ := post.hb
    have hpr : Pres env [.lbrk, .expr v ty, .rbrk] ⟨[.lbrk, .expr v ty, .rbrk] ++ rest, h1, sc1, va1⟩ ⟨.rbrk :: rest, h1, if ty then none else sc1, va1⟩ :=
      ⟨Ext.refl _, fun _ v => v, fun q => by have := q (.expr v ty) (by simp); rw [Quiet] at this; simp [this]⟩
    obtain ⟨post', hres', hw⟩ := wrap_post (d' := .arr d v) (W := fun t => Ty.arr t v) (nd := Node.arr p v) (s3 := ⟨rest, (h1 ++ [Node.arr p v]).set b (setInner h1.length bn), if ty then none else sc1, va1⟩)
      post k.le hb hpr Wr.arr rfl rfl (fun _ => rfl) (fun _ e => by cases e) rfl rfl rfl
    rw [List.append_assoc]
    refine ⟨h1.length, dcl, h1.length, _, _, _, post', hres', fun R hR => run R (Ev.step (fun n => ?_) hR)⟩
    have hr : ∃ nd, h1[res]? = some nd ∧ isVoid nd = false := by
      rcases hres with ⟨_, rfl⟩ | hres
      · obtain ⟨nd, e1, e2⟩ := hp
        refine ⟨nd, ?_, ?_⟩
        · rw [← e1]; exact post.pres.ext.2 _ (get_lt e1)
        · cases hv : isVoid nd with
          | false => rfl
          | true => exact absurd (e2 hv) hs
      · exact hres
    obtain ⟨nd, e1, e2⟩ := hr
    dsimp only at hb hw
    rw [suffixF.eq_def]
    simp only [List.cons_append, List.nil_append]
    rw [e1, hb]
    dsimp only
    rw [e2]
    simp only [next, arraySize, List.tail_cons, Res.bind_ok, hpb, hw, expect_ok]
    rfl
  | abs, _, _, .open (ts := ts) (d := d) hd => by
    intro h k p T hs hp sc va rest hf
    obtain ⟨res, dcl, b, h1, sc1, va1, post, hres, run⟩ := dirD_ok hd _ k (safe_nonvoid hs d) hp sc va (rest := [.lbrk, .rbrk] ++ rest) (fun _ => .inl ⟨_, rfl⟩)
    obtain ⟨bn, hb, hpb⟩ := post.hb
    have hpr : Pres env [.lbrk, .rbrk] ⟨[.lbrk, .rbrk] ++ rest, h1, sc1, va1⟩ ⟨.rbrk :: rest, h1, sc1, va1⟩ :=
      ⟨Ext.refl _, fun _ v => v, fun q => rfl⟩
    obtain ⟨post', hres', hw⟩ := wrap_post (d' := .arr d 0) (W := fun t => Ty.arr t 0) (nd := Node.arr p 0) (s3 := ⟨rest, (h1 ++ [Node.arr p 0]).set b (setInner h1.length bn), sc1, va1⟩)
      post k.le hb hpr Wr.arr rfl rfl (fun _ => rfl) (fun _ e => by cases e) rfl rfl rfl
    rw [List.append_assoc]
    refine ⟨h1.length, dcl, h1.length, _, _, _, post', hres', fun R hR => run R (Ev.step (fun n => ?_) hR)⟩
    have hr : ∃ nd, h1[res]? = some nd ∧ isVoid nd = false := by
      rcases hres with ⟨_, rfl⟩ | hres
      · obtain ⟨nd, e1, e2⟩ := hp
        refine ⟨nd, ?_, ?_⟩
        · rw [← e1]; exact post.pres.ext.2 _ (get_lt e1)
        · cases hv : isVoid nd with
          | false => rfl
          | true => exact absurd (e2 hv) hs
      · exact hres
    obtain ⟨nd, e1, e2⟩ := hr
    dsimp only at hb hw
    rw [suffixF.eq_def]
    simp only [List.cons_append, List.nil_append]
    rw [e1, hb]
    dsimp only
    rw [e2]
    simp only [next, arraySize, List.tail_cons, Res.bind_ok, hpb, hw, expect_ok]
    rfl
  | abs, _, _, .fn (ts := ts) (d := d) (tp := tp) (ps := ps) (va := va') hd hne hps => by
    intro h k p T hs hp sc va rest hf
    obtain ⟨res, dcl, b, h1, sc1, va1, post, hres, run⟩ := dirD_ok hd _ k hs hp sc va (rest := .lpar :: (tp ++ .rpar :: rest)) (fun e => absurd e hne)
    obtain ⟨bn, hb, hpb⟩ := post.hb
    obtain ⟨dl, h2, sc2, hx2, r2, hq2, run2⟩ := params_ok hps _ (k.ext post.pres.ext) sc1 va1 rest
    have hpr : Pres env (.lpar :: (tp ++ [.rpar])) ⟨.lpar :: (tp ++ .rpar :: rest), h1, sc1, va1⟩ ⟨rest, h2, sc2, va'⟩ :=
      ⟨hx2, fun e v => absurd (params_ellipsis hps v) fun m => e (by simp [m]), fun q => hq2 (params_quiet k.dom hps fun t m => q t (by simp [m]))⟩
    obtain ⟨post', hres', hw⟩ := wrap_post (d' := .fn d ps va') (W := fun t => Ty.fn t ps va') (nd := Node.fn p dl va') (s3 := ⟨rest, (h2 ++ [Node.fn p dl va']).set b (setInner h2.length bn), sc2, va'⟩)
      post k.le hb hpr (Wr.fn r2) rfl rfl (fun _ => rfl) (fun _ e => by cases e) rfl rfl rfl
    have htk : (ts ++ .lpar :: (tp ++ [.rpar])) ++ rest = ts ++ .lpar :: (tp ++ .rpar :: rest) := by simp
    rw [htk]
    refine ⟨h2.length, dcl, h2.length, _, _, _, post', hres', fun R hR => run R ?_⟩
    refine Ev.step (fun n => ?_) (Ev.bind (g := fun n (p' : List Nat × S) => (wrap (.fn p p'.1 p'.2.va) b p'.2).bind fun s'' => suffixF types n p'.2.heap.length dcl p'.2.heap.length s'') run2 (Ev.congr hR fun n => ?_))
    · dsimp only at hb
      rw [suffixF.eq_def]
      dsimp only
      rw [hb]
      dsimp only
      rw [hpb, Res.bind_ok]
    · dsimp only at hw ⊢
      rw [hw, Res.bind_ok]

theorem params_ok {env : Env} {types : Types} {lo : Nat} : ∀ {tp ps va'}, Params env tp ps va' → ∀ (h : List Node), TOK env types lo h → ∀ (sc : Option SC) (va : Bool) (rest : List Tok),
    ∃ dl h' sc', Ext h h' ∧ RepL h' (Out2 lo h.length) dl ps ∧ (tp = [] → sc' = sc) ∧
      Ev (fun n => paramListF types n ⟨.lpar :: (tp ++ .rpar :: rest), h, sc, va⟩) (.ok (dl, ⟨rest, h', sc', va'⟩))
  | _, _, _, .none => by
    intro h k sc va rest
    refine ⟨[], h, sc, Ext.refl _, .nil, fun _ => rfl, ?_⟩
    refine ⟨2, fun n hn => ?_⟩
    obtain ⟨m, rfl⟩ : ∃ m, n = m + 2 := ⟨n - 2, by omega⟩
    show paramListF types (m + 1 + 1) _ = _
    rw [paramListF.eq_def]
    dsimp only
    rw [expect_ok, Res.bind_ok, paramsF.eq_def]
    dsimp only [List.nil_append]
    rw [Res.bind_ok]
    dsimp only
    rw [expect_ok]
    rfl
  | _, _, _, .void => by
    intro h k sc va rest
    refine ⟨[], h ++ [.base .void false noQ, .decl none h.length], none, Ext.append _ _, .nil, fun e => (by cases e), ?_⟩
    refine ⟨6, fun n hn => ?_⟩
    obtain ⟨m, rfl⟩ : ∃ m, n = m + 6 := ⟨n - 6, by omega⟩
    show paramListF types (m + 5 + 1) _ = _
    rw [paramListF.eq_def]
    dsimp only
    rw [expect_ok, Res.bind_ok, paramsF.eq_def]
    dsimp only [List.cons_append, List.nil_append]
    simp only [isTypeStarter, if_true]
    rw [specsF.eq_def]
    simp only [typeSpec, alloc]
    rw [if_neg (by simp), specsF.eq_def]
    simp only [specEnd, if_true, Res.bind_ok]
    rw [declaratorF.eq_def]
    simp only [if_true, alloc]
    rw [suffixF.eq_def]
    simp [Res.bind_ok, isVoid, expect, next]
  | _, _, _, .list (ts := ts) (ps := ps) hl hne => by
    intro h k sc va rest
    obtain ⟨dl, h', sc', va', hx, r, hv, _, run⟩ := paramList_ok hl _ k [] sc false (tl := .rpar :: rest) (out := .rpar :: rest) (.inr ⟨rfl, _, rfl⟩)
    have : va' = false := by
      cases hva : va' with
      | false => rfl
      | true => exact absurd (hv hne hva) (by simp)
    subst this
    refine ⟨dl, h', sc', hx, r, fun e => ?_, ?_⟩
    · obtain ⟨t, r, e', _⟩ := (paramList_head k.dom hl).1
      rw [e] at e'; cases e'
    · have run' := run (.ok (dl, ⟨.rpar :: rest, h', sc', false⟩)) (Ev.const fun n => by rw [paramsF.eq_def]; rfl)
      refine Ev.step (fun n => ?_) (Ev.bind (g := fun _ (p : List Nat × S) => (expect .rpar p.2).bind fun s => .ok (p.1, s)) run' ?_)
      · rw [paramListF.eq_def]
        dsimp only
        rw [expect_ok, Res.bind_ok]
      · dsimp only
        rw [expect_ok, Res.bind_ok]
        exact Ev.pure
  | _, _, _, .ellipsis (ts := ts) (ps := ps) hl => by
    intro h k sc va rest
    obtain ⟨dl, h', sc', va', hx, r, hv, hne, run⟩ := paramList_ok hl _ k [] sc false (tl := .comma :: .ellipsis :: .rpar :: rest) (out := .ellipsis :: .rpar :: rest) (.inl rfl)
    refine ⟨dl, h', sc', hx, r, fun e => ?_, ?_⟩
    · simp at e
    · have run' := run (.ok (dl, ⟨.rpar :: rest, h', sc', true⟩)) (Ev.const fun n => by
        rw [paramsF.eq_def]
        simp [isTypeStarter, hne, next])
      refine Ev.step (g := fun n => (paramsF types n [] ⟨ts ++ .comma :: .ellipsis :: .rpar :: rest, h, sc, false⟩).bind fun (p : List Nat × S) => (expect .rpar p.2).bind fun s => .ok (p.1, s)) (fun n => ?_) (Ev.bind run' ?_)
      · rw [paramListF.eq_def]
        dsimp only
        rw [expect_ok, Res.bind_ok]
        simp
      · dsimp only
        rw [expect_ok, Res.bind_ok]
        exact Ev.pure

theorem paramList_ok {env : Env} {types : Types} {lo : Nat} : ∀ {ts ps}, ParamList env ts ps → ∀ (h : List Node), TOK env types lo h → ∀ (acc : List Nat) (sc : Option SC) (va : Bool) {tl out : List Tok},
    (tl = .comma :: out ∨ (tl = out ∧ ∃ r, out = .rpar :: r)) →
    ∃ dl h' sc' va', Ext h h' ∧ RepL h' (Out2 lo h.length) dl ps ∧ (.ellipsis ∉ ts → va' = true → va = true) ∧ dl ≠ [] ∧
      ∀ R, Ev (fun n => paramsF types n (acc ++ dl) ⟨out, h', sc', va'⟩) R → Ev (fun n => paramsF types n acc ⟨ts ++ tl, h, sc, va⟩) R
  | _, _, .one (ss := ss) (c := c) (t := t) (ts := ts) (d := d) hs hc hd hv hnv => by
    intro h k acc sc va tl out htl
    obtain ⟨dcl, h', sc', va', hx, q, i, hi, r, hva, run⟩ := param_ok (specs_ok hs) (ptrD_ok hd) hs hc hd hv hnv _ k acc sc va htl
    exact ⟨[dcl], h', sc', va', hx, .cons q hi r .nil, hva, by simp, run⟩
  | _, _, .more (ss := ss) (c := c) (t := t) (ts := ts) (d := d) (ts' := ts') hs hc hd hv hnv hl => by
    intro h k acc sc va tl out htl
    obtain ⟨dcl, h1, sc1, va1, hx1, q1, i, hi, r1, hva1, run1⟩ := param_ok (specs_ok hs) (ptrD_ok hd) hs hc hd hv hnv _ k acc sc va (tl := .comma :: (ts' ++ tl)) (.inl rfl)
    obtain ⟨dl, h', sc', va', hx, r, hva, _, run⟩ := paramList_ok hl _ (k.ext hx1) (acc ++ [dcl]) sc1 va1 htl
    refine ⟨dcl :: dl, h', sc', va', hx1.trans hx, .cons q1 ?_ (rep_move (moves_ext hx fun _ _ q => q) r1) (repL_move (fun i hi q => ⟨out2_mono hx1.1 q, rfl⟩) r), ?_, by simp, fun R hR => ?_⟩
    · rw [hx.2 _ (get_lt hi)]; exact hi
    · exact fun e v => hva1 (fun m => e (by simp at m ⊢; rcases m with m | m <;> simp [m])) (hva (fun m => e (by simp [m])) v)
    · have := run1 R (run R (by simpa using hR))
      simpa using this

end

end Verif.Decl
