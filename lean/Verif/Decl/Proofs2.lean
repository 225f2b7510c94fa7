import Verif.Decl.Proofs
/-! The parser of declarations does what the grammar says. -/
namespace Verif.Decl
open Verif Verif.Decl.Spec

/-- The typedef names. -/
structure TOK (env : Env) (types : Types) (lo : Nat) (h : List Node) : Prop where
  dom : ∀ x, types x = none ↔ env x = none
  rep : ∀ x i t, types x = some i → env x = some t → Rep h (· < lo) i t
  le : lo ≤ h.length

theorem TOK.ext {env : Env} {types : Types} {lo : Nat} {h h' : List Node} (k : TOK env types lo h) (e : Ext h h') : TOK env types lo h' :=
  ⟨k.dom, fun x i t h1 h2 => rep_move (moves_ext e fun _ _ q => q) (k.rep x i t h1 h2), Nat.le_trans k.le e.1⟩

/-- What is preserved when the tokens `ts` are read. -/
structure Pres (env : Env) (ts : List Tok) (s s' : S) : Prop where
  ext : Ext s.heap s'.heap
  va : .ellipsis ∉ ts → s'.va = true → s.va = true
  sc : (∀ t ∈ ts, Quiet env t) → s'.sc = s.sc

theorem Pres.trans {env : Env} {ts ts' : List Tok} {s s' s'' : S} (h : Pres env ts s s') (h' : Pres env ts' s' s'') : Pres env (ts ++ ts') s s'' :=
  ⟨h.ext.trans h'.ext, fun e v => h.va (fun m => e (by simp [m])) (h'.va (fun m => e (by simp [m])) v),
   fun q => (h'.sc fun t m => q t (by simp [m])).trans (h.sc fun t m => q t (by simp [m]))⟩

theorem Pres.mono {env : Env} {ts ts' : List Tok} {s s' : S} (h : Pres env ts s s') (hs : ∀ t ∈ ts, t ∈ ts') : Pres env ts' s s' :=
  ⟨h.ext, fun e v => h.va (fun m => e (hs _ m)) v, fun q => h.sc fun t m => q t (hs t m)⟩

/-! ## Tokens -/

/-- The rest does not go on with specifiers. -/
def Stop (types : Types) (rest : List Tok) : Prop := ∀ t r, rest = t :: r → isTypeStarter types t = false ∧ t ≠ .lbrace

/-- What follows a declarator. -/
def Follow (rest : List Tok) : Prop := ∃ t r, rest = t :: r ∧ (t = .comma ∨ t = .rpar ∨ t = .semi ∨ t = .eq ∨ ∃ b, t = .body b)

theorem expect_ok (t : Tok) (r : List Tok) (h : List Node) (sc : Option SC) (va : Bool) : expect t ⟨t :: r, h, sc, va⟩ = .ok ⟨r, h, sc, va⟩ := by
  simp [expect, next]

theorem typeSpec_none {rest : List Tok} (hr : ∀ k r, rest ≠ .kw k :: r) : typeSpec rest = (none, rest) := by
  cases rest with
  | nil => rfl
  | cons t r => cases t <;> first | rfl | exact absurd rfl (hr _ _)

theorem typeSpec_sized {ws : List Kw} {k : Base} (h : Sized ws k) {rest : List Tok} (hr : ∀ k r, rest ≠ .kw k :: r) : typeSpec (ws.map .kw ++ rest) = (some (k, false), rest) := by
  cases rest with
  | nil => cases h <;> rfl
  | cons t r => cases h <;> cases t <;> first | rfl | exact absurd rfl (hr _ _)

theorem typeSpec_words {ws : List Kw} {k : Base} {u : Bool} (h : Words ws k u) {rest : List Tok} (hr : ∀ k r, rest ≠ .kw k :: r) :
    typeSpec (ws.map .kw ++ rest) = (some (k, u), rest) := by
  cases h with
  | void => rfl
  | plain h => exact typeSpec_sized h hr
  | signed => show typeSpec (.kw .signed :: rest) = _; rw [typeSpec, typeSpec_none hr]
  | unsigned => show typeSpec (.kw .unsigned :: rest) = _; rw [typeSpec, typeSpec_none hr]
  | signedS h => rw [List.map_cons, List.cons_append, typeSpec, typeSpec_sized h hr]
  | unsignedS h => rw [List.map_cons, List.cons_append, typeSpec, typeSpec_sized h hr]

theorem words_cons {ws : List Kw} {k : Base} {u : Bool} (h : Words ws k u) : ∃ w r, ws = w :: r := by
  cases h with
  | plain h => cases h <;> exact ⟨_, _, rfl⟩
  | _ => exact ⟨_, _, rfl⟩

theorem side_tokens {ts : List Tok} {q : Q} {c : Option SC} (h : Side ts q c) : ∀ t ∈ ts, t = .inline ∨ t = .const ∨ t = .volatile ∨ ∃ c, t = .sc c := by
  induction h with
  | nil => intro t h; cases h
  | inline _ ih => intro t h; rcases List.mem_cons.1 h with rfl | h; · exact .inl rfl
                   · exact ih t h
  | const _ ih => intro t h; rcases List.mem_cons.1 h with rfl | h; · exact .inr (.inl rfl)
                  · exact ih t h
  | volatile _ ih => intro t h; rcases List.mem_cons.1 h with rfl | h; · exact .inr (.inr (.inl rfl))
                     · exact ih t h
  | storage _ ih => intro t h; rcases List.mem_cons.1 h with rfl | h; · exact .inr (.inr (.inr ⟨_, rfl⟩))
                    · exact ih t h

theorem typeSpec_head {env : Env} {types : Types} (hd : ∀ x, types x = none ↔ env x = none) {ts : List Tok} {t : Ty} (h : TypeSpec env ts t) :
    ∃ t0 r, ts = t0 :: r ∧ isTypeStarter types t0 = true ∧ ¬ Quiet env t0 := by
  cases h with
  | words h =>
    obtain ⟨w, r, rfl⟩ := words_cons h
    exact ⟨_, _, rfl, rfl, fun h => h⟩
  | @typedef x t h =>
    refine ⟨_, _, rfl, ?_, ?_⟩
    · have : types x ≠ none := fun e => by rw [(hd x).1 e] at h; cases h
      cases hx : types x with
      | none => exact absurd hx this
      | some i => simp [isTypeStarter, hx]
    · intro q; rw [Quiet, h] at q; cases q
  | _ => exact ⟨_, _, rfl, rfl, fun h => h⟩

theorem specs_head {env : Env} {types : Types} (hd : ∀ x, types x = none ↔ env x = none) {ts : List Tok} {c : Option SC} {t : Ty} (h : Specs env ts c t) :
    (∃ t0 r, ts = t0 :: r ∧ isTypeStarter types t0 = true) ∧ ∃ t0 ∈ ts, ¬ Quiet env t0 := by
  cases h with
  | @mk a ts b q q' c c' c'' t ha ht hb _ _ =>
    obtain ⟨t0, r, rfl, h1, h2⟩ := typeSpec_head hd ht
    refine ⟨?_, t0, by simp, h2⟩
    cases a with
    | nil => exact ⟨t0, _, rfl, h1⟩
    | cons x a =>
      refine ⟨x, _, rfl, ?_⟩
      rcases side_tokens ha x (List.mem_cons_self ..) with rfl | rfl | rfl | ⟨_, rfl⟩ <;> rfl

/-! ## Specifiers -/

theorem Q.or_assoc (a b c : Q) : (a.or b).or c = a.or (b.or c) := by
  cases a; cases b; cases c; simp [Q.or, Bool.or_assoc]
theorem Q.or_no (a : Q) : a.or noQ = a := by cases a; simp [Q.or, noQ]
theorem Q.no_or (a : Q) : noQ.or a = a := by cases a; simp [Q.or, noQ]
theorem Q.or_comm (a b : Q) : a.or b = b.or a := by cases a; cases b; simp [Q.or, Bool.or_comm]

theorem side_ok (types : Types) {a : List Tok} {q : Q} {c : Option SC} (h : Side a q c) (allow : Bool) (ts : Option Nat) (rest : List Tok) (heap : List Node) (sc : Option SC) (va : Bool)
    (R : Res (Nat × S)) : ∀ (q0 : Q) (c0 c1 : Option SC), One c0 c c1 → (c = some .typedef → allow = true) →
    Ev (fun n => specsF types n allow ts (q0.or q) c1 ⟨rest, heap, sc, va⟩) R → Ev (fun n => specsF types n allow ts q0 c0 ⟨a ++ rest, heap, sc, va⟩) R := by
  induction h with
  | nil =>
    intro q0 c0 c1 ho _ h
    rw [Q.or_no] at h
    cases ho <;> exact h
  | inline _ ih =>
    intro q0 c0 c1 ho ha h
    exact Ev.step (fun n => by rw [specsF.eq_def]; rfl) (ih q0 c0 c1 ho ha h)
  | @const ts' q c _ ih =>
    intro q0 c0 c1 ho ha h
    refine Ev.step (fun n => by rw [specsF.eq_def]; rfl) (ih { q0 with const := true } c0 c1 ho ha ?_)
    have : (⟨true, q0.volatile⟩ : Q).or q = q0.or (q.or ⟨true, false⟩) := by cases q0; cases q; simp [Q.or]
    rw [this]; exact h
  | @volatile ts' q c _ ih =>
    intro q0 c0 c1 ho ha h
    refine Ev.step (fun n => by rw [specsF.eq_def]; rfl) (ih { q0 with volatile := true } c0 c1 ho ha ?_)
    have : (⟨q0.const, true⟩ : Q).or q = q0.or (q.or ⟨false, true⟩) := by cases q0; cases q; simp [Q.or]
    rw [this]; exact h
  | @storage ts' q c _ ih =>
    intro q0 c0 c1 ho ha h
    have e : c0 = none ∧ c1 = some c := by cases ho; exact ⟨rfl, rfl⟩
    obtain ⟨rfl, rfl⟩ := e
    refine Ev.step (fun n => ?_) (ih q0 (some c) (some c) .left (fun e => by cases e) h)
    rw [specsF.eq_def]
    simp only [List.cons_append]
    rw [if_neg (by simp), if_neg]
    · rfl
    · rintro ⟨rfl, e⟩; rw [ha rfl] at e; cases e

theorem qualify_no (t : Ty) : qualify noQ t = t := by cases t <;> simp [qualify, Q.or_no]

theorem addQ_ok {h : List Node} {Q' : Nat → Prop} {nd : Node} {t : Ty} (r : RepN h Q' nd t) (hn : ¬ isArrFn t) (q : Q) : ∃ nd', addQ q nd = .ok nd' ∧ RepN h Q' nd' (qualify q t) := by
  cases r with
  | base => exact ⟨_, rfl, .base⟩
  | ptr r => exact ⟨_, rfl, .ptr r⟩
  | arr r => exact absurd trivial hn
  | fn r l => exact absurd trivial hn
  | su l => exact ⟨_, rfl, .su l⟩
  | enum => exact ⟨_, rfl, .enum⟩

/-- The end of the specifiers. -/
theorem specEnd_ok (types : Types) (allow : Bool) {q : Q} {c : Option SC} {rest : List Tok} {h : List Node} {nd : Node} {t : Ty} {sc : Option SC} {va : Bool} {Q' : Nat → Prop}
    (hs : Stop types rest) (r : RepN h Q' nd t) (hn : q = noQ ∨ ¬ isArrFn t) :
    ∃ nd', RepN h Q' nd' (qualify q t) ∧
      Ev (fun n => specsF types n allow (some h.length) q c ⟨rest, h ++ [nd], sc, va⟩) (.ok (h.length, ⟨rest, h ++ [nd'], c, va⟩)) := by
  have key : ∀ n, specsF types (n + 1) allow (some h.length) q c ⟨rest, h ++ [nd], sc, va⟩ = specEnd (some h.length) q c ⟨rest, h ++ [nd], sc, va⟩ := by
    intro n
    rw [specsF.eq_def]
    cases rest with
    | nil => rfl
    | cons t r =>
      have ht := (hs t r rfl).1
      cases t with
      | ident x =>
        have : types x = none := by cases hx : types x with
          | none => rfl
          | some i => simp [isTypeStarter, hx] at ht
        dsimp only
        rw [this]
      | _ => first | rfl | cases ht
  by_cases hq : q = noQ
  · refine ⟨nd, by rw [hq, qualify_no]; exact r, Ev.const fun n => ?_⟩
    rw [key, specEnd]; dsimp only; rw [if_pos hq]
  · obtain ⟨nd', e, r'⟩ := addQ_ok r (hn.resolve_left hq) q
    refine ⟨nd', r', Ev.const fun n => ?_⟩
    rw [key, specEnd]; dsimp only; rw [if_neg hq, get_last]; dsimp only; rw [e, Res.bind_ok]
    simp

end Verif.Decl
