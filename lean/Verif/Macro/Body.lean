import Verif.Macro.Sim
import Mathlib.Data.List.Nodup
/-! Reading the body of a macro gives its replacement. -/
namespace Verif.Macro
open Verif Verif.Lex Spec

/-! ## Definitions -/

theorem params_ok (b : List Tok) : ∀ (ps acc : List Name),
    params (List.intercalate [comma] (ps.map fun x => [Tok.ident x]) ++ rpar :: b) acc = .ok (ps.reverse ++ acc, b) := by
  intro ps
  induction ps with
  | nil => intro acc; simp [List.intercalate, params]
  | cons x ps ih =>
    intro acc
    cases ps with
    | nil => simp [List.intercalate, params]
    | cons y ps =>
      have := ih (x :: acc)
      simp only [List.map_cons] at this ⊢
      rw [inter_cons]
      simp only [List.cons_append, List.nil_append]
      rw [params, this]
      simp

theorem line_id : ∀ (b : List Tok), Tok.newline ∉ b → line b = b := by
  intro b
  induction b with
  | nil => intro _; rfl
  | cons t b ih =>
    intro h
    have : t ≠ .newline := fun e => h (by simp [e])
    rw [line]
    · rw [ih (fun e => h (by simp [e]))]
    · exact this

theorem lookup_ne {args : List Name} {t u : Tok} (h : t ≠ u) : lookup_macro_token args t ≠ .tok u := by
  unfold lookup_macro_token
  split
  · split
    · simp
    · simpa using h
  · simpa using h

theorem hh_body {args : List Name} {b : List Tok} (h : ∀ t ∈ b, t ≠ .op .hashHash) : HH ∉ b.map (lookup_macro_token args) := by
  intro hm
  obtain ⟨t, ht, he⟩ := List.mem_map.1 hm
  exact lookup_ne (h t ht) he

theorem read_body {args : List Name} {b : List Tok} (hn : Tok.newline ∉ b) (h : ∀ t ∈ b, t ≠ .op .hashHash) :
    read_macro_tokens args b = .ok (b.map (lookup_macro_token args)) := by
  unfold read_macro_tokens
  rw [line_id b hn]
  dsimp only
  rw [if_neg]
  rintro (h1 | h1)
  · exact hh_body (args := args) h (List.mem_of_head? h1)
  · exact hh_body (args := args) h (List.mem_of_getLast? h1)

theorem def_obj {C : CTable} {D : Table} (hD : Defined C D) (hW : WF C) {m : Name} {b : List Tok} (hm : C m = some (.obj b)) :
    D m = some ⟨b.map (lookup_macro_token []), none⟩ := by
  have h := hD m
  rw [hm] at h
  obtain ⟨mac, h1, h2⟩ := h
  obtain ⟨-, hw⟩ := hW m _ hm
  simp only [CMacro.body] at hw
  rw [h2]
  simp only [CMacro.isFn, CMacro.text, handle_define, Bool.false_eq_true, if_false] at h1
  rw [read_body (fun h => (hw _ h).2.1 rfl) (fun t h => (hw t h).2.2.2), Res.bind_ok] at h1
  cases h1; rfl

theorem def_fn {C : CTable} {D : Table} (hD : Defined C D) (hW : WF C) {m : Name} {ps : List Name} {b : List Tok} (hm : C m = some (.fn ps b)) :
    D m = some ⟨b.map (lookup_macro_token ps.reverse), some ps.length⟩ := by
  have h := hD m
  rw [hm] at h
  obtain ⟨mac, h1, h2⟩ := h
  obtain ⟨-, hw⟩ := hW m _ hm
  simp only [CMacro.body] at hw
  rw [h2]
  simp only [CMacro.isFn, CMacro.text, handle_define, if_true, List.tail_cons] at h1
  rw [params_ok, Res.bind_ok] at h1
  simp only [List.append_nil] at h1
  rw [read_body (fun h => (hw _ h).2.1 rfl) (fun t h => (hw t h).2.2.2), Res.bind_ok] at h1
  cases h1; simp

theorem def_none {C : CTable} {D : Table} (hD : Defined C D) {m : Name} (hm : C m = none) : D m = none := by
  have h := hD m
  rw [hm] at h
  exact h

/-! ## Arguments -/

/-- Tokens that are not replaced. -/
def OutOK (C : CTable) (o : List Tok) : Prop := ∀ t ∈ o, Plain t ∨ ∃ x, t = .ident x ∧ C x = none

theorem outOK_append {C : CTable} {a b : List Tok} (ha : OutOK C a) (hb : OutOK C b) : OutOK C (a ++ b) := by
  intro t ht
  rcases List.mem_append.1 ht with h | h
  · exact ha t h
  · exact hb t h

theorem outOK_eof {C : CTable} {a : List Tok} (ha : OutOK C a) : Tok.eof ∉ a := by
  intro h
  rcases ha _ h with h | ⟨x, h, -⟩
  · exact h.2.2.2.1 rfl
  · cases h

theorem hh_map {o : List Tok} (h : ∀ t ∈ o, t ≠ .op .hashHash) : HH ∉ o.map BTok.tok := by
  intro hm
  obtain ⟨t, ht, he⟩ := List.mem_map.1 hm
  exact h t ht (by simpa using he)

theorem outOK_hh {C : CTable} {a : List Tok} (ha : OutOK C a) : ∀ t ∈ a, t ≠ .op .hashHash := by
  intro t h
  rcases ha _ h with h | ⟨x, h, -⟩
  · exact h.2.2.1
  · simp [h]

/-- A completely replaced argument is read unchanged. -/
theorem inert_reads {C : CTable} {D : Table} (hD : Defined C D) {em : Bool} : ∀ (o : List Tok), OutOK C o → ∀ (s : St), s.paste = false →
    Reads D em (pushed none (o.map .tok) [] s) o s := by
  intro o
  induction o with
  | nil => intro _ s _; exact .done (cont_pushed D em none [] s)
  | cons t o ih =>
    intro ho s hp
    have ho' : OutOK C o := fun u hu => ho u (by simp [hu])
    have hh := hh_map (outOK_hh ho')
    refine .cons (st1 := pushed none (o.map .tok) [] s) ?_ (ih ho' s hp)
    rcases ho t (by simp) with h | ⟨x, rfl, h⟩
    · exact gets_plain (st := pushed none ((t :: o).map .tok) [] s) rfl hp hh h
    · exact gets_ident (st := pushed none ((.ident x :: o).map .tok) [] s) rfl hp hh (def_none hD h)

theorem mem_zip_idx {β : Type} : ∀ {l : List Name} {os : List β} {x : Name} {o : β}, (x, o) ∈ l.zip os → l.Nodup → os[l.idxOf x]? = some o := by
  intro l
  induction l with
  | nil => intro os x o h; simp at h
  | cons y l ih =>
    intro os x o h hn
    cases os with
    | nil => simp at h
    | cons o' os =>
      simp only [List.zip_cons_cons, List.mem_cons, Prod.mk.injEq] at h
      obtain ⟨hy, hn⟩ := List.nodup_cons.1 hn
      rcases h with ⟨rfl, rfl⟩ | h
      · simp
      · have hx : y ≠ x := by
          rintro rfl
          exact hy (List.of_mem_zip h).1
        have e : (y :: l).idxOf x = l.idxOf x + 1 := by
          have : (y == x) = false := by simpa using hx
          rw [List.idxOf_cons, this]; rfl
        rw [e]
        simpa using ih h hn

theorem mem_zip_reverse {α β : Type} {l : List α} {os : List β} (hl : l.length = os.length) {p : α × β} (h : p ∈ l.zip os) : p ∈ l.reverse.zip os.reverse := by
  rw [List.zip_eq_zipWith, ← List.reverse_zipWith hl, ← List.zip_eq_zipWith]
  simpa using h

theorem lookup_mem {β : Type} : ∀ {l : List (Name × β)} {x : Name} {o : β}, l.lookup x = some o → (x, o) ∈ l := by
  intro l
  induction l with
  | nil => intro x o h; simp at h
  | cons p l ih =>
    intro x o h
    obtain ⟨y, b⟩ := p
    rw [List.lookup_cons] at h
    split at h
    · rename_i e
      have : x = y := by simpa using e
      cases h; simp [this]
    · exact List.mem_cons_of_mem _ (ih h)

theorem lookup_zip {β : Type} : ∀ {l : List Name} {os : List β} {x : Name}, l.length = os.length → (x ∈ l ↔ ∃ o, (l.zip os).lookup x = some o) := by
  intro l
  induction l with
  | nil => intro os x _; simp
  | cons y l ih =>
    intro os x hl
    cases os with
    | nil => simp at hl
    | cons o os =>
      rw [List.zip_cons_cons, List.lookup_cons]
      split
      · rename_i e
        have : x = y := by simpa using e
        simp [this]
      · rename_i e
        have : x ≠ y := by simpa using e
        rw [← ih (by simpa using hl)]
        simp [this]

/-- The parameters of the current frame stand for `env`. -/
def EnvOK (C : CTable) (D : Table) (ps : List Name) (env : Name → Option (List Tok)) (st : St) : Prop :=
  (∀ x, x ∉ ps → env x = none) ∧
  ∀ x ∈ ps, ∃ o a, env x = some o ∧ st.cur.args[ps.reverse.idxOf x]? = some a ∧ OutOK C o ∧
    ∀ em r, HH ∉ r → Reads D em (pushed none a [] (setToks st r)) o (setToks st r)

theorem envOK_nil (C : CTable) (D : Table) (st : St) : EnvOK C D [] (fun _ => none) st := ⟨fun _ _ => rfl, by simp⟩

/-- The macros that are being expanded have rank `r` or more; in an argument the current rank may be smaller by one. -/
def IdOK (rk : Name → Nat) (r : Nat) (st : St) : Prop :=
  (st.cur.ident = none ∧ ∀ f ∈ st.stack, ∀ x, f.ident = some x → r ≤ rk x + 1) ∨
  (∀ f ∈ st.cur :: st.stack, ∀ x, f.ident = some x → r ≤ rk x)

theorem idOK_already {rk : Name → Nat} {r : Nat} {st : St} (h : IdOK rk r st) {m : Name} (hm : rk m < r) : already m st = false := by
  unfold already
  rcases h with ⟨h, -⟩ | h
  · rw [h]
  · split
    · rfl
    · rename_i c hc
      have h1 := h st.cur (by simp) c hc
      have : c ≠ m := by rintro rfl; omega
      simp only [Bool.or_eq_false_iff, beq_eq_false_iff_ne, ne_eq, this, not_false_iff, true_and, List.any_eq_false]
      intro f hf e
      have := h f (by simp [hf]) m (by simpa using e)
      omega

theorem idOK_push {rk : Name → Nat} {r : Nat} {st : St} (h : IdOK rk r st) {m : Name} (hm : rk m < r) {b : List BTok} {args : List (List BTok)} {q : List BTok} :
    IdOK rk (rk m) (pushed (some m) b args (setToks st q)) := by
  right
  intro f hf x hx
  simp only [pushed, setToks, List.mem_cons] at hf
  rcases hf with rfl | rfl | hf
  · simp at hx; subst hx; exact Nat.le_refl _
  · rcases h with ⟨h, -⟩ | h
    · exact absurd (h.symm.trans hx) (by simp)
    · have := h st.cur (by simp) x hx; omega
  · rcases h with ⟨-, h⟩ | h
    · have := h f hf x hx; omega
    · have := h f (by simp [hf]) x hx; omega

theorem lookup_plain {ps : List Name} {t : Tok} (h : Plain t) : lookup_macro_token ps t = .tok t := by
  unfold lookup_macro_token
  split
  · rename_i x; exact absurd rfl (h.1 x)
  · rfl

theorem lookup_in {ps : List Name} {x : Name} (h : x ∈ ps) : lookup_macro_token ps.reverse (.ident x) = .arg (ps.reverse.idxOf x) := by
  simp [lookup_macro_token, h]

theorem lookup_out {ps : List Name} {x : Name} (h : x ∉ ps) : lookup_macro_token ps.reverse (.ident x) = .tok (.ident x) := by
  simp [lookup_macro_token, h]

theorem plain_ch {k : Nat} (h : k ≠ 35) : Plain (.op (.ch k)) := by
  refine ⟨by simp, by simpa using h, by simp, by simp, by simp⟩

theorem hh_rest {a : List BTok} {t : BTok} {r : List BTok} (h : HH ∉ a ++ t :: r) : HH ∉ r := fun e => h (by simp [e])

theorem names_cons (t : Tok) (r : List Tok) {x : Name} (h : x ∈ names r) : x ∈ names (t :: r) := by
  unfold names at *
  rw [List.filterMap_cons]
  split
  · exact h
  · exact List.mem_cons_of_mem _ h
theorem names_ident (x : Name) (r : List Tok) : x ∈ names (.ident x :: r) := by simp [names]
theorem names_left {a b : List Tok} {x : Name} (h : x ∈ names a) : x ∈ names (a ++ b) := by simp [names] at *; exact .inl h
theorem names_right {a b : List Tok} {x : Name} (h : x ∈ names b) : x ∈ names (a ++ b) := by simp [names] at *; exact .inr h

theorem names_inter : ∀ {as : List (List Tok)} {a : List Tok} {x : Name}, a ∈ as → x ∈ names a → x ∈ names (List.intercalate [comma] as) := by
  intro as
  induction as with
  | nil => intro a x h; simp at h
  | cons b as ih =>
    intro a x ha hx
    cases as with
    | nil => simp at ha; subst ha; rw [inter_one]; exact hx
    | cons c as =>
      rw [inter_cons]
      rcases List.mem_cons.1 ha with rfl | ha
      · exact names_left hx
      · exact names_right (names_cons _ _ (ih ha hx))

/-- The parts of the statement that hold for a text in a frame. -/
structure Frm (C : CTable) (D : Table) (rk : Name → Nat) (r : Nat) (ps : List Name) (env : Name → Option (List Tok)) (hide : List Name) (st : St) : Prop where
  paste : st.paste = false
  argExp : st.argExp = true
  env : EnvOK C D ps env st
  hide : ∀ h ∈ hide, C h ≠ none → r ≤ rk h
  id : IdOK rk r st
  depth : st.stack.length + r ≤ 58

theorem Frm.set {C : CTable} {D : Table} {rk : Name → Nat} {r : Nat} {ps : List Name} {env : Name → Option (List Tok)} {hide : List Name} {st : St}
    (h : Frm C D rk r ps env hide st) (q : List BTok) : Frm C D rk r ps env hide (setToks st q) := by
  refine ⟨h.paste, h.argExp, h.env, h.hide, ?_, h.depth⟩
  rcases h.id with h | h
  · exact .inl h
  · right
    intro f hf x hx
    simp only [setToks, List.mem_cons] at hf
    rcases hf with rfl | hf
    · exact h st.cur (by simp) x hx
    · exact h f (by simp [hf]) x hx

/-- Reading a text in a frame. -/
def Sim (C : CTable) (D : Table) (rk : Name → Nat) (hide : List Name) (env : Name → Option (List Tok)) (ts out : List Tok) : Prop :=
  ∀ r ps st rest, Frm C D rk r ps env hide st → st.cur.toks = ts.map (lookup_macro_token ps.reverse) ++ rest → HH ∉ st.cur.toks →
    (∀ x ∈ names ts, x ∉ ps → C x ≠ none → rk x < r) → OutOK C out ∧ ∀ em, Reads D em st out (setToks st rest)

theorem sim_inter {C : CTable} {D : Table} {rk : Name → Nat} {hide : List Name} {env : Name → Option (List Tok)} :
    ∀ (as os : List (List Tok)), as.length = os.length → (∀ p ∈ as.zip os, Sim C D rk hide env p.1 p.2) →
    Sim C D rk hide env (List.intercalate [comma] as) (List.intercalate [comma] os) ∧
    ∀ r ps st rest, Frm C D rk r ps env hide st → st.cur.toks = (List.intercalate [comma] as).map (lookup_macro_token ps.reverse) ++ rest → HH ∉ st.cur.toks →
      (∀ x ∈ names (List.intercalate [comma] as), x ∉ ps → C x ≠ none → rk x < r) → ∀ o ∈ os, OutOK C o := by
  intro as
  induction as with
  | nil =>
    intro os hl _
    have : os = [] := by simpa using hl.symm
    subst this
    refine ⟨?_, by simp⟩
    intro r ps st rest hf hc hh hn
    refine ⟨by intro t ht; simp [List.intercalate] at ht, fun em => ?_⟩
    simp [List.intercalate] at hc ⊢
    have : setToks st rest = st := by rw [← hc]; rfl
    rw [this]
    exact reads_refl D em st
  | cons a as ih =>
    intro os hl h
    cases os with
    | nil => simp at hl
    | cons o os =>
      have ha := h (a, o) (by simp)
      have h' : ∀ p ∈ as.zip os, Sim C D rk hide env p.1 p.2 := fun p hp => h p (by simp [hp])
      cases as with
      | nil =>
        have : os = [] := by simpa using hl.symm
        subst this
        rw [inter_one, inter_one]
        refine ⟨ha, ?_⟩
        intro r ps st rest hf hc hh hn o' ho'
        simp at ho'
        subst ho'
        exact (ha r ps st rest hf hc hh hn).1
      | cons b as =>
        cases os with
        | nil => simp at hl
        | cons o' os =>
          obtain ⟨ih1, ih2⟩ := ih (o' :: os) (by simpa using hl) h'
          rw [inter_cons, inter_cons]
          have main : ∀ r ps st rest, Frm C D rk r ps env hide st →
              st.cur.toks = (a ++ comma :: List.intercalate [comma] (b :: as)).map (lookup_macro_token ps.reverse) ++ rest → HH ∉ st.cur.toks →
              (∀ x ∈ names (a ++ comma :: List.intercalate [comma] (b :: as)), x ∉ ps → C x ≠ none → rk x < r) →
              (OutOK C (o ++ comma :: List.intercalate [comma] (o' :: os)) ∧
                ∀ em, Reads D em st (o ++ comma :: List.intercalate [comma] (o' :: os)) (setToks st rest)) ∧ ∀ q ∈ o :: o' :: os, OutOK C q := by
            intro r ps st rest hf hc hh hn
            have hcm : lookup_macro_token ps.reverse comma = .tok comma := rfl
            rw [List.map_append, List.map_cons, hcm, List.append_assoc, List.cons_append] at hc
            obtain ⟨q1, q2⟩ := ha r ps st _ hf hc hh (fun x hx => hn x (names_left hx))
            have hh2 := hc ▸ hh
            have hh3 := hh_rest hh2
            obtain ⟨q3, q4⟩ := ih1 r ps (setToks st _) rest (hf.set _) rfl hh3 (fun x hx => hn x (names_right (names_cons _ _ hx)))
            have q5 := ih2 r ps (setToks st _) rest (hf.set _) rfl hh3 (fun x hx => hn x (names_right (names_cons _ _ hx)))
            refine ⟨⟨outOK_append q1 ?_, fun em => ?_⟩, ?_⟩
            · intro t ht
              rcases List.mem_cons.1 ht with rfl | ht
              · exact .inl (plain_ch (by decide))
              · exact q3 t ht
            · refine reads_append (q2 em) (.cons ?_ (q4 em))
              exact gets_plain (st := setToks st _) rfl hf.paste hh3 (plain_ch (by decide))
            · intro q hq
              rcases List.mem_cons.1 hq with rfl | hq
              · exact q1
              · exact q5 q hq
          exact ⟨fun r ps st rest hf hc hh hn => (main r ps st rest hf hc hh hn).1, fun r ps st rest hf hc hh hn => (main r ps st rest hf hc hh hn).2⟩

/-- The arguments of the call of `f` stand for their values. -/
theorem env_call {C : CTable} {D : Table} (hD : Defined C D) {ps : List Name} (hn : ps.Nodup) {os : List (List Tok)} (hl : os.length = ps.length) {s : St}
    (hp : s.paste = false) (ho : ∀ o ∈ os, OutOK C o) {f : Name} {b : List BTok} :
    EnvOK C D ps (fun x => (ps.zip os).lookup x) (pushed (some f) b (os.map (·.map .tok)).reverse s) := by
  constructor
  · intro x hx
    cases e : (ps.zip os).lookup x with
    | none => exact e
    | some o => exact absurd ((lookup_zip hl.symm).2 ⟨o, e⟩) hx
  · intro x hx
    obtain ⟨o, e⟩ := (lookup_zip hl.symm).1 hx
    have hm := lookup_mem e
    have ho' := ho o (List.of_mem_zip hm).2
    have h1 := mem_zip_idx (mem_zip_reverse hl.symm hm) (List.nodup_reverse.2 hn)
    refine ⟨o, o.map .tok, e, ?_, ho', ?_⟩
    · simp only [pushed, ← List.map_reverse, List.getElem?_map, h1, Option.map_some]
    · intro em r hr
      exact inert_reads hD o ho' _ hp

theorem body_sim {C : CTable} {D : Table} {rk : Name → Nat} (hD : Defined C D) (hW : WF C) (hR : Ranked C rk) {hide : List Name}
    {env : Name → Option (List Tok)} {ts out : List Tok} (h : Exp C hide env ts out) : Sim C D rk hide env ts out := by
  induction h with
  | nil =>
    intro r ps st rest hf hc hh hn
    refine ⟨by intro t ht; simp at ht, fun em => ?_⟩
    have : setToks st rest = st := by simp at hc; rw [← hc]; rfl
    rw [this]
    exact reads_refl D em st
  | @plain hide env t r' out ht _ ih =>
    intro r ps st rest hf hc hh hn
    rw [List.map_cons, lookup_plain ht, List.cons_append] at hc
    have hh2 := hc ▸ hh
    have hh3 := hh_rest (a := []) hh2
    obtain ⟨q1, q2⟩ := ih r ps (setToks st _) rest (hf.set _) rfl hh3 (fun x hx => hn x (names_cons _ _ hx))
    refine ⟨?_, fun em => .cons (gets_plain hc hf.paste hh3 ht) (q2 em)⟩
    intro u hu
    rcases List.mem_cons.1 hu with rfl | hu
    · exact .inl ht
    · exact q1 u hu
  | @param hide env x o r' out hx _ ih =>
    intro r ps st rest hf hc hh hn
    have hxp : x ∈ ps := by
      by_cases h : x ∈ ps
      · exact h
      · rw [hf.env.1 x h] at hx; cases hx
    rw [List.map_cons, lookup_in hxp, List.cons_append] at hc
    have hh2 := hc ▸ hh
    have hh3 := hh_rest (a := []) hh2
    obtain ⟨o', a, e1, e2, e3, e4⟩ := hf.env.2 x hxp
    rw [hx] at e1
    cases e1
    obtain ⟨q1, q2⟩ := ih r ps (setToks st _) rest (hf.set _) rfl hh3 (fun x hx => hn x (names_cons _ _ hx))
    refine ⟨outOK_append e3 q1, fun em => ?_⟩
    have hd := hf.depth
    exact reads_append (reads_cont (cont_arg hc hf.paste hh3 e2 hf.argExp (by omega)) (e4 em _ hh3)) (q2 em)
  | @ident hide env x r' out hx hC _ ih =>
    intro r ps st rest hf hc hh hn
    have hxp : x ∉ ps := by
      intro h
      obtain ⟨o, a, e, -⟩ := hf.env.2 x h
      rw [hx] at e; cases e
    rw [List.map_cons, lookup_out hxp, List.cons_append] at hc
    have hh2 := hc ▸ hh
    have hh3 := hh_rest (a := []) hh2
    obtain ⟨q1, q2⟩ := ih r ps (setToks st _) rest (hf.set _) rfl hh3 (fun x hx => hn x (names_cons _ _ hx))
    refine ⟨?_, fun em => .cons (gets_ident hc hf.paste hh3 (def_none hD hC)) (q2 em)⟩
    intro u hu
    rcases List.mem_cons.1 hu with rfl | hu
    · exact .inr ⟨x, rfl, hC⟩
    · exact q1 u hu
  | @hidden hide env x r' out hx hi _ ih =>
    intro r ps st rest hf hc hh hn
    have hxp : x ∉ ps := by
      intro h
      obtain ⟨o, a, e, -⟩ := hf.env.2 x h
      rw [hx] at e; cases e
    have hC : C x = none := by
      by_cases h : C x = none
      · exact h
      · have h1 := hf.hide x hi h
        have h2 := hn x (names_ident x _) hxp h
        omega
    rw [List.map_cons, lookup_out hxp, List.cons_append] at hc
    have hh2 := hc ▸ hh
    have hh3 := hh_rest (a := []) hh2
    obtain ⟨q1, q2⟩ := ih r ps (setToks st _) rest (hf.set _) rfl hh3 (fun x hx => hn x (names_cons _ _ hx))
    refine ⟨?_, fun em => .cons (gets_ident hc hf.paste hh3 (def_none hD hC)) (q2 em)⟩
    intro u hu
    rcases List.mem_cons.1 hu with rfl | hu
    · exact .inr ⟨x, rfl, hC⟩
    · exact q1 u hu
  | @obj hide env m body o r' out hx hi hC _ _ ihb ih =>
    intro r ps st rest hf hc hh hn
    have hxp : m ∉ ps := by
      intro h
      obtain ⟨o, a, e, -⟩ := hf.env.2 m h
      rw [hx] at e; cases e
    have hm := hn m (names_ident m _) hxp (by rw [hC]; simp)
    rw [List.map_cons, lookup_out hxp, List.cons_append] at hc
    have hh2 := hc ▸ hh
    have hh3 := hh_rest (a := []) hh2
    have hd := hf.depth
    obtain ⟨q1, q2⟩ := ih r ps (setToks st _) rest (hf.set _) rfl hh3 (fun x hx => hn x (names_cons _ _ hx))
    obtain ⟨-, hw⟩ := hW m _ hC
    obtain ⟨-, hrk⟩ := hR m _ hC
    have hb := hh_body (args := []) (fun t ht => (hw t ht).2.2.2)
    obtain ⟨q3, q4⟩ := ihb (rk m) [] (pushed (some m) (body.map (lookup_macro_token [])) [] (setToks st (r'.map (lookup_macro_token ps.reverse) ++ rest))) []
      ⟨hf.paste, hf.argExp, envOK_nil C D _, fun h hh' hCh => by
          rcases List.mem_cons.1 hh' with rfl | hh'
          · exact Nat.le_refl _
          · have := hf.hide h hh' hCh; omega,
        idOK_push hf.id hm, by simp [pushed, setToks]; omega⟩ (by simp [pushed]) hb (fun x hx _ hCx => hrk x hx (by simp [CMacro.params]) hCx)
    refine ⟨outOK_append q3 q1, fun em => ?_⟩
    have c1 := cont_obj (em := em) hc hf.paste hh3 (def_obj hD hW hC) (idOK_already hf.id hm) (by omega)
    have c2 := reads_then (q4 em) (c := setToks st (r'.map (lookup_macro_token ps.reverse) ++ rest)) (cont_pushed D em _ _ _)
    exact reads_append (reads_cont c1 c2) (q2 em)
  | @call hide env f ps' body as os o r' out hx hi hC hl1 hl2 ha1 ha2 hh1 hh2' _ _ _ iha ihb ih =>
    intro r ps st rest hf hc hh hn
    have hxp : f ∉ ps := by
      intro h
      obtain ⟨o, a, e, -⟩ := hf.env.2 f h
      rw [hx] at e; cases e
    have hm := hn f (names_ident f _) hxp (by rw [hC]; simp)
    have hcl : lookup_macro_token ps.reverse lpar = .tok lpar := rfl
    have hcr : lookup_macro_token ps.reverse rpar = .tok rpar := rfl
    rw [List.map_cons, lookup_out hxp, List.map_cons, hcl, List.map_append, List.map_cons, hcr, List.cons_append, List.cons_append, List.append_assoc,
      List.cons_append] at hc
    have hh2 := hc ▸ hh
    have hh3 := hh_rest (a := []) hh2
    have hh4 := hh_rest (a := []) hh3
    have hh5 := hh_rest hh4
    have hd := hf.depth
    obtain ⟨q1, q2⟩ := ih r ps (setToks st _) rest (hf.set _) rfl hh5 (fun x hx => hn x (names_cons _ _ (names_cons _ _ (names_right (names_cons _ _ hx)))))
    obtain ⟨s1, s2⟩ := sim_inter as os (by omega) iha
    have hna : ∀ x ∈ names (List.intercalate [comma] as), x ∉ ps → C x ≠ none → rk x < r := fun x hx => hn x (names_cons _ _ (names_cons _ _ (names_left hx)))
    obtain ⟨-, s1⟩ := s1 r ps (setToks st _) _ (hf.set _) rfl hh4 hna
    have s2 := s2 r ps (setToks st _) _ (hf.set _) rfl hh4 hna
    obtain ⟨hnd, hw⟩ := hW f _ hC
    simp only [CMacro.params] at hnd
    obtain ⟨-, hrk⟩ := hR f _ hC
    have hb := hh_body (args := ps'.reverse) (fun t ht => (hw t ht).2.2.2)
    obtain ⟨q3, q4⟩ := ihb (rk f) ps' (pushed (some f) (body.map (lookup_macro_token ps'.reverse)) (os.map (·.map .tok)).reverse
        (setToks st (r'.map (lookup_macro_token ps.reverse) ++ rest))) []
      ⟨hf.paste, hf.argExp, env_call (s := setToks st (r'.map (lookup_macro_token ps.reverse) ++ rest)) hD hnd hl2 hf.paste s2, fun h hh' hCh => by
          rcases List.mem_cons.1 hh' with rfl | hh'
          · exact Nat.le_refl _
          · have := hf.hide h hh' hCh; omega,
        idOK_push hf.id hm, by simp [pushed, setToks]; omega⟩ (by simp [pushed]) hb (fun x hx hxp hCx => hrk x hx hxp hCx)
    refine ⟨outOK_append q3 q1, fun em => ?_⟩
    have g1 := gets_plain (D := D) (em := em) (st := setToks st (.tok lpar :: _)) rfl hf.paste hh4 (plain_ch (by decide))
    have g2 := gets_plain (D := D) (em := false) (st := setToks st (.tok rpar :: _)) rfl hf.paste hh5 (plain_ch (by decide))
    have g3 := getsArgs_stream (as := os) (fun a ha => ⟨ha2 a ha, outOK_eof (s2 a ha)⟩) hh2' (reads_rx (s1 false) g2)
    rw [hl2] at g3
    have c1 := cont_call (em := em) hc hf.paste hh3 (def_fn hD hW hC) (idOK_already hf.id hm) g1 g3 (by exact (by omega : st.stack.length < 59))
    have c2 := reads_then (q4 em) (c := setToks st (r'.map (lookup_macro_token ps.reverse) ++ rest)) (cont_pushed D em _ _ _)
    exact reads_append (reads_cont c1 c2) (q2 em)

end Verif.Macro
