import Verif.Macro.Spec
/-! Reading tokens: relations between states, reading arguments. -/
namespace Verif.Macro
open Verif Verif.Lex Spec

abbrev HH : BTok := .tok (.op .hashHash)

/-- A call of `get_tok` that skips newlines returns `t`. -/
def Gets (D : Table) (em : Bool) (st : St) (t : BTok) (st' : St) : Prop := ∃ N, ∀ n, N ≤ n → get_tok D n em true st = .ok (t, st')

/-- Reading from `st` is reading from `st1`. -/
def Cont (D : Table) (em : Bool) (st st1 : St) : Prop := ∀ t s, Gets D em st1 t s → Gets D em st t s

/-- Successive calls return the tokens; then reading goes on in the last state. -/
inductive Reads (D : Table) (em : Bool) : St → List Tok → St → Prop
  | done {st st'} : Cont D em st st' → Reads D em st [] st'
  | cons {st t st1 ts st'} : Gets D em st (.tok t) st1 → Reads D em st1 ts st' → Reads D em st (t :: ts) st'

/-- … and the last state is the one that the last call leaves. -/
inductive RX (D : Table) (em : Bool) : St → List Tok → St → Prop
  | nil {st} : RX D em st [] st
  | cons {st t st1 ts st'} : Gets D em st (.tok t) st1 → RX D em st1 ts st' → RX D em st (t :: ts) st'

theorem cont_refl (D : Table) (em : Bool) (st : St) : Cont D em st st := fun _ _ h => h
theorem cont_trans {D : Table} {em : Bool} {a b c : St} (h1 : Cont D em a b) (h2 : Cont D em b c) : Cont D em a c := fun t s h => h1 t s (h2 t s h)

theorem reads_refl (D : Table) (em : Bool) (st : St) : Reads D em st [] st := .done (cont_refl D em st)

theorem reads_cont {D : Table} {em : Bool} {a b s : St} {o : List Tok} (h : Cont D em a b) (hr : Reads D em b o s) : Reads D em a o s := by
  cases hr with
  | done h2 => exact .done (cont_trans h h2)
  | cons g r => exact .cons (h _ _ g) r

theorem reads_append {D : Table} {em : Bool} {a b c : St} {o1 o2 : List Tok} (h1 : Reads D em a o1 b) (h2 : Reads D em b o2 c) :
    Reads D em a (o1 ++ o2) c := by
  induction h1 with
  | done h => exact reads_cont h h2
  | cons g _ ih => exact .cons g (ih h2)

theorem reads_then {D : Table} {em : Bool} {a b : St} {o : List Tok} (h : Reads D em a o b) {c : St} (hc : Cont D em b c) : Reads D em a o c := by
  have := reads_append h (.done hc)
  rwa [List.append_nil] at this

theorem reads_rx {D : Table} {em : Bool} {a b c : St} {o : List Tok} {t : Tok} (h : Reads D em a o b) (hg : Gets D em b (.tok t) c) :
    RX D em a (o ++ [t]) c := by
  induction h with
  | done h => exact .cons (h _ _ hg) .nil
  | cons g _ ih => exact .cons g (ih hg)

/-- An empty frame is dropped. -/
theorem cont_pop {D : Table} {em : Bool} {st : St} {f : Frame} {r : List Frame} (hc : st.cur.toks = []) (hs : st.stack = f :: r) :
    Cont D em st { st with cur := f, stack := r } := by
  rintro t s ⟨N, h⟩
  refine ⟨N + 1, fun n hn => ?_⟩
  obtain ⟨k, rfl⟩ : ∃ k, n = k + 1 := ⟨n - 1, by omega⟩
  simp only [get_tok, hc, hs]
  exact h k (by omega)

def setToks (st : St) (r : List BTok) : St := { st with cur := { st.cur with toks := r } }
def pushed (id : Option Name) (toks : List BTok) (args : List (List BTok)) (st : St) : St :=
  { st with cur := ⟨toks, args, id⟩, stack := st.cur :: st.stack }

theorem cont_pushed (D : Table) (em : Bool) (id : Option Name) (args : List (List BTok)) (st : St) : Cont D em (pushed id [] args st) st :=
  cont_pop (f := st.cur) (r := st.stack) rfl rfl

theorem begin_ok {id : Option Name} {toks : List BTok} {args : List (List BTok)} {st : St} (h : st.stack.length < 59) :
    begin_exp id toks args st = .ok (pushed id toks args st) := by
  unfold begin_exp
  rw [if_neg (by omega)]; rfl

theorem replay_plain {D : Table} {gt : GT} {n : Nat} {em skip : Bool} {t : Tok} (h : Plain t) (st : St) :
    replay D gt n em skip (.tok t) st = .ok (.tok t, st) := by
  unfold replay
  split
  · rename_i m e; cases e; exact absurd rfl (h.1 m)
  · rename_i e; cases e
  · rename_i e; cases e; exact absurd rfl h.2.1
  · rfl

/-- The head of the list is not pasted. -/
theorem paste_none {D : Table} {gt : GT} {t : BTok} {st : St} {r : List BTok} (hp : st.paste = false) (hh : HH ∉ r) :
    paste_step D gt t (setToks st r) = .ok (t, setToks st r) := by
  unfold paste_step setToks
  cases r with
  | nil => simp [hp]
  | cons h r =>
    dsimp only
    rw [if_neg]
    rintro rfl
    exact hh (by simp)

/-- One step of `get_tok` on a replayed token. -/
theorem get_tok_replay {D : Table} {st : St} {t : BTok} {r : List BTok} (hc : st.cur.toks = t :: r) (hp : st.paste = false) (hh : HH ∉ r)
    (n : Nat) (em skip : Bool) : get_tok D (n + 1) em skip st = replay D (get_tok D n) n em skip t (setToks st r) := by
  rw [get_tok.eq_def]
  simp only [hc]
  have := paste_none (D := D) (gt := get_tok D n) (t := t) (st := st) hp hh
  rw [setToks] at this
  rw [this, Res.bind_ok]
  rfl

theorem gets_plain {D : Table} {em : Bool} {st : St} {t : Tok} {r : List BTok} (hc : st.cur.toks = .tok t :: r) (hp : st.paste = false) (hh : HH ∉ r)
    (ht : Plain t) : Gets D em st (.tok t) (setToks st r) := by
  refine ⟨1, fun n hn => ?_⟩
  obtain ⟨k, rfl⟩ : ∃ k, n = k + 1 := ⟨n - 1, by omega⟩
  rw [get_tok_replay hc hp hh, replay_plain ht]

theorem gets_ident {D : Table} {em : Bool} {st : St} {x : Name} {r : List BTok} (hc : st.cur.toks = .tok (.ident x) :: r) (hp : st.paste = false)
    (hh : HH ∉ r) (hx : D x = none) : Gets D em st (.tok (.ident x)) (setToks st r) := by
  refine ⟨1, fun n hn => ?_⟩
  obtain ⟨k, rfl⟩ : ∃ k, n = k + 1 := ⟨n - 1, by omega⟩
  rw [get_tok_replay hc hp hh]
  simp [replay, expand_ident, hx]

theorem cont_arg {D : Table} {em : Bool} {st : St} {i : Nat} {a r : List BTok} (hc : st.cur.toks = .arg i :: r) (hp : st.paste = false) (hh : HH ∉ r)
    (ha : st.cur.args[i]? = some a) (hx : st.argExp = true) (hd : st.stack.length < 59) :
    Cont D em st (pushed none a [] (setToks st r)) := by
  rintro t s ⟨N, h⟩
  refine ⟨N + 1, fun n hn => ?_⟩
  obtain ⟨k, rfl⟩ : ∃ k, n = k + 1 := ⟨n - 1, by omega⟩
  rw [get_tok_replay hc hp hh]
  have e : get_macro_arg i (setToks st r) = .ok a := by simp [get_macro_arg, setToks, ha]
  have hx' : (setToks st r).argExp = true := hx
  simp only [replay, hx', if_true, e, Res.bind_ok]
  rw [begin_ok (by exact hd), Res.bind_ok]
  exact h k (by omega)

theorem cont_obj {D : Table} {em : Bool} {st : St} {m : Name} {b r : List BTok} (hc : st.cur.toks = .tok (.ident m) :: r) (hp : st.paste = false)
    (hh : HH ∉ r) (hm : D m = some ⟨b, none⟩) (hal : already m st = false) (hd : st.stack.length < 59) :
    Cont D em st (pushed (some m) b [] (setToks st r)) := by
  rintro t s ⟨N, h⟩
  refine ⟨N + 1, fun n hn => ?_⟩
  obtain ⟨k, rfl⟩ : ∃ k, n = k + 1 := ⟨n - 1, by omega⟩
  rw [get_tok_replay hc hp hh]
  have e : already m (setToks st r) = false := hal
  simp only [replay, expand_ident, hm, attempt, e]
  rw [begin_ok (by exact hd)]
  simp only [Res.bind_ok]
  exact h k (by omega)

/-- The arguments are read. -/
def GetsArgs (D : Table) (k : Nat) (st : St) (args : List (List BTok)) (st' : St) : Prop :=
  ∃ N, ∀ n j, N ≤ n → N ≤ j → get_macro_args_toks (get_tok D n) true j k st = .ok (args, st')

theorem cont_call {D : Table} {em : Bool} {st st1 st2 : St} {f : Name} {k : Nat} {b r : List BTok} {args : List (List BTok)}
    (hc : st.cur.toks = .tok (.ident f) :: r) (hp : st.paste = false)
    (hh : HH ∉ r) (hm : D f = some ⟨b, some k⟩) (hal : already f st = false) (h1 : Gets D em (setToks st r) (.tok lpar) st1)
    (h2 : GetsArgs D k st1 args st2) (hd : st2.stack.length < 59) :
    Cont D em st (pushed (some f) b args st2) := by
  rintro t s ⟨N, h⟩
  obtain ⟨N1, h1⟩ := h1
  obtain ⟨N2, h2⟩ := h2
  refine ⟨N + N1 + N2 + 1, fun n hn => ?_⟩
  obtain ⟨q, rfl⟩ : ∃ q, n = q + 1 := ⟨n - 1, by omega⟩
  rw [get_tok_replay hc hp hh]
  have e : already f (setToks st r) = false := hal
  simp only [replay, expand_ident, hm, attempt, e]
  simp only [Bool.false_eq_true, if_false]
  rw [h1 q (by omega)]
  simp only [Res.bind_ok, if_true]
  rw [h2 q q (by omega) (by omega)]
  simp only [Res.bind_ok]
  rw [begin_ok hd]
  simp only [Res.bind_ok]
  exact h q (by omega)

/-! ## Splitting arguments -/

/-- What `parse_arg` does with a list of tokens. -/
def parseArgL : Nat → List Tok → List Tok × List Tok
  | _, [] => ([], [])
  | d, t :: r =>
    if (0 < d ∨ (t ≠ comma ∧ t ≠ rpar)) ∧ t ≠ .eof then
      let p := parseArgL (if t = lpar then d + 1 else if t = rpar then d - 1 else d) r
      (t :: p.1, p.2)
    else ([], t :: r)

theorem bal_parse {a : List Tok} (h : Bal a) (he : Tok.eof ∉ a) : ∀ d r,
    parseArgL (d + 1) (a ++ r) = (a ++ (parseArgL (d + 1) r).1, (parseArgL (d + 1) r).2) := by
  induction h with
  | nil => intro d r; rfl
  | @tok t r' h1 h2 _ ih =>
    intro d r
    have ht : t ≠ .eof := fun h => he (by simp [h])
    rw [List.cons_append, parseArgL, if_pos ⟨.inl (by omega), ht⟩, if_neg h1, if_neg h2, ih (fun h => he (by simp [h]))]
    rfl
  | @paren a r' _ _ iha ihr =>
    intro d r
    have e : lpar :: a ++ rpar :: r' ++ r = lpar :: (a ++ (rpar :: (r' ++ r))) := by simp
    rw [e, parseArgL, if_pos ⟨.inl (by omega), by simp⟩, if_pos rfl, iha (fun h => he (by simp [h]))]
    rw [parseArgL.eq_2, if_pos ⟨.inl (by omega), by simp⟩, if_neg (by simp), if_pos rfl, Nat.add_sub_cancel, ihr (fun h => he (by simp [h]))]
    simp

theorem arg_parse {a : List Tok} (h : ArgText a) (he : Tok.eof ∉ a) : ∀ r,
    parseArgL 0 (a ++ r) = (a ++ (parseArgL 0 r).1, (parseArgL 0 r).2) := by
  induction h with
  | nil => intro r; rfl
  | @tok t r' h1 h2 h3 _ ih =>
    intro r
    have ht : t ≠ .eof := fun h => he (by simp [h])
    rw [List.cons_append, parseArgL, if_pos ⟨.inr ⟨h3, h2⟩, ht⟩, if_neg h1, if_neg h2, ih (fun h => he (by simp [h]))]
    rfl
  | @paren a r' ha _ ihr =>
    intro r
    have e : lpar :: a ++ rpar :: r' ++ r = lpar :: (a ++ (rpar :: (r' ++ r))) := by simp
    rw [e, parseArgL, if_pos ⟨.inr (by simp), by simp⟩, if_pos rfl, bal_parse ha (fun h => he (by simp [h]))]
    rw [parseArgL.eq_2, if_pos ⟨.inl (by omega), by simp⟩, if_neg (by simp), if_pos rfl, Nat.add_sub_cancel, ihr (fun h => he (by simp [h]))]
    simp

theorem arg_parse_stop {a : List Tok} (h : ArgText a) (he : Tok.eof ∉ a) {t : Tok} (ht : t = comma ∨ t = rpar) (r : List Tok) :
    parseArgL 0 (a ++ t :: r) = (a, t :: r) := by
  rw [arg_parse h he, parseArgL.eq_2, if_neg]
  · simp
  · rcases ht with rfl | rfl <;> simp

theorem tok_eq {a b : Tok} : (BTok.tok a = BTok.tok b) = (a = b) := by simp
theorem parse_cond {d : Nat} {t : Tok} : ((0 < d ∨ (BTok.tok t ≠ .tok (.op (.ch 44)) ∧ BTok.tok t ≠ .tok (.op (.ch 41)))) ∧ BTok.tok t ≠ .tok .eof) ↔
    ((0 < d ∨ (t ≠ comma ∧ t ≠ rpar)) ∧ t ≠ .eof) := by simp

/-- `parse_arg` on a stream of tokens. -/
theorem parse_arg_stream {D : Table} {s : St} : ∀ (ts : List Tok) (t : Tok) (st : St), RX D false st ts s → ∀ (d : Nat) (acc : List BTok) (a : List Tok) (t' : Tok)
    (ts' : List Tok), parseArgL d (t :: ts) = (a, t' :: ts') →
    ∃ st1, RX D false st1 ts' s ∧ ∃ N, ∀ n j, N ≤ n → N ≤ j → parse_arg (get_tok D n) true j d (.tok t) acc st = .ok (acc ++ a.map .tok, .tok t', st1) := by
  intro ts
  induction ts with
  | nil =>
    intro t st hr d acc a t' ts' hp
    rw [parseArgL] at hp
    split at hp
    · simp [parseArgL] at hp
    · rename_i hc
      simp at hp
      obtain ⟨rfl, rfl, rfl⟩ := hp
      refine ⟨st, hr, 1, fun n j hn hj => ?_⟩
      obtain ⟨q, rfl⟩ : ∃ q, j = q + 1 := ⟨j - 1, by omega⟩
      rw [parse_arg, if_neg (fun h => hc (parse_cond.1 h))]
      simp
  | cons u ts ih =>
    intro t st hr d acc a t' ts' hp
    rw [parseArgL] at hp
    split at hp
    · rename_i hc
      cases hr with
      | @cons _ _ st1 _ _ hg hr =>
        obtain ⟨N1, hg⟩ := hg
        dsimp only at hp
        generalize hq : parseArgL (if t = lpar then d + 1 else if t = rpar then d - 1 else d) (u :: ts) = q at hp
        obtain ⟨q1, q2⟩ := q
        simp only [Prod.mk.injEq] at hp
        obtain ⟨rfl, rfl⟩ := hp
        obtain ⟨st2, h2, N2, h3⟩ := ih u st1 hr _ (acc ++ [.tok t]) q1 t' ts' hq
        refine ⟨st2, h2, N1 + N2 + 1, fun n j hn hj => ?_⟩
        obtain ⟨q, rfl⟩ : ∃ q, j = q + 1 := ⟨j - 1, by omega⟩
        rw [parse_arg, if_pos (parse_cond.2 hc), hg n (by omega), Res.bind_ok]
        simp only [tok_eq]
        rw [h3 n q (by omega) (by omega)]
        simp
    · rename_i hc
      simp at hp
      obtain ⟨rfl, rfl, rfl⟩ := hp
      refine ⟨st, hr, 1, fun n j hn hj => ?_⟩
      obtain ⟨q, rfl⟩ : ∃ q, j = q + 1 := ⟨j - 1, by omega⟩
      rw [parse_arg, if_neg (fun h => hc (parse_cond.1 h))]
      simp

theorem argText_head {t : Tok} {r : List Tok} (h : ArgText (t :: r)) : t ≠ comma ∧ t ≠ rpar := by
  cases h with
  | tok h1 h2 h3 _ => exact ⟨h3, h2⟩
  | paren => simp

theorem inter_cons (a b : List Tok) (r : List (List Tok)) : List.intercalate [comma] (a :: b :: r) = a ++ comma :: List.intercalate [comma] (b :: r) := by
  simp [List.intercalate]
theorem inter_one (a : List Tok) : List.intercalate [comma] [a] = a := by simp [List.intercalate]

/-- `macro_args` on a stream, at the start of an argument. -/
theorem macro_args_stream {D : Table} {s : St} : ∀ (as : List (List Tok)), (∀ a ∈ as, ArgText a ∧ Tok.eof ∉ a) → as ≠ [] →
    ∀ (prev : Bool) (t : Tok) (ts : List Tok) (st : St) (args : List (List BTok)), (prev = false → as.head? ≠ some []) →
    t :: ts = List.intercalate [comma] as ++ [rpar] → RX D false st ts s →
    ∃ N, ∀ n j, N ≤ n → N ≤ j → macro_args (get_tok D n) true j prev (.tok t) args st = .ok ((as.map (·.map .tok)).reverse ++ args, s) := by
  intro as
  induction as with
  | nil => intro _ h; exact absurd rfl h
  | cons a as ih =>
    intro has _ prev t ts st args hprev hts hr
    obtain ⟨ha, hae⟩ := has a (by simp)
    -- what follows this argument
    have next : ∀ (u : Tok) (us : List Tok) (st1 : St) (args1 : List (List BTok)) (p : Bool), u :: us = (if as = [] then [rpar] else comma :: (List.intercalate [comma] as ++ [rpar])) →
        RX D false st1 us s → args1 = (if p then [] :: args else a.map .tok :: args) → (p = true → a = []) →
        ∃ N, ∀ n j, N ≤ n → N ≤ j → macro_args (get_tok D n) true j p (.tok u) (if p then args else args1) st1 = .ok (((a :: as).map (·.map .tok)).reverse ++ args, s) := by
      intro u us st1 args1 p hu hr1 hargs hpa
      subst hargs
      by_cases he : as = []
      · subst he
        simp at hu
        obtain ⟨rfl, rfl⟩ := hu
        cases hr1
        refine ⟨1, fun n j hn hj => ?_⟩
        obtain ⟨q, rfl⟩ : ∃ q, j = q + 1 := ⟨j - 1, by omega⟩
        rw [macro_args, if_pos rfl]
        cases p with
        | false => simp
        | true => simp [hpa rfl]
      · rw [if_neg he] at hu
        obtain ⟨hu1, hu2⟩ := List.cons.inj hu
        subst hu1
        subst hu2
        generalize hv : List.intercalate [comma] as ++ [rpar] = vs at hr1
        cases hr1 with
        | nil => simp at hv
        | @cons _ v st2 vs _ hg hr2 =>
          obtain ⟨N1, hg⟩ := hg
          obtain ⟨N2, h2⟩ := ih (fun b hb => has b (by simp [hb])) he true v vs st2 (a.map .tok :: args) (by simp) hv.symm hr2
          refine ⟨N1 + N2 + 1, fun n j hn hj => ?_⟩
          obtain ⟨q, rfl⟩ : ∃ q, j = q + 1 := ⟨j - 1, by omega⟩
          rw [macro_args, if_neg (by simp), if_neg (by simp), if_pos rfl, hg n (by omega), Res.bind_ok]
          have e : (if p = true then [] :: (if p = true then args else if p = true then [] :: args else a.map BTok.tok :: args)
              else if p = true then args else if p = true then [] :: args else a.map BTok.tok :: args) = a.map BTok.tok :: args := by
            cases p with
            | false => simp
            | true => simp [hpa rfl]
          rw [e]
          dsimp only
          rw [h2 n q (by omega) (by omega)]
          simp
    have hsep : List.intercalate [comma] (a :: as) ++ [rpar] = a ++ (if as = [] then [rpar] else comma :: (List.intercalate [comma] as ++ [rpar])) := by
      cases as with
      | nil => simp [inter_one]
      | cons b r => simp [inter_cons]
    rw [hsep] at hts
    cases a with
    | nil =>
      have hp : prev = true := by
        cases prev with
        | true => rfl
        | false => exact absurd rfl (hprev rfl)
      subst hp
      obtain ⟨N, h⟩ := next t ts st ([] :: args) true (by simpa using hts) hr (by simp) (fun _ => rfl)
      exact ⟨N, by simpa using h⟩
    | cons x a =>
      obtain ⟨h1, h2⟩ := List.cons.inj hts
      subst h1
      obtain ⟨n1, n2⟩ := argText_head ha
      have hte : t ≠ .eof := fun h => hae (by simp [h])
      -- the token behind the argument
      obtain ⟨u, us, hu⟩ : ∃ u us, (if as = [] then [rpar] else comma :: (List.intercalate [comma] as ++ [rpar])) = u :: us := by
        split
        · exact ⟨_, _, rfl⟩
        · exact ⟨_, _, rfl⟩
      have hu1 : u = comma ∨ u = rpar := by
        split at hu
        · right; cases hu; rfl
        · left; cases hu; rfl
      rw [hu] at h2
      have hpl : parseArgL 0 (t :: ts) = (t :: a, u :: us) := by
        rw [h2]; exact arg_parse_stop ha hae hu1 us
      obtain ⟨st1, hr1, N1, hp1⟩ := parse_arg_stream ts t st hr 0 [] (t :: a) u us hpl
      obtain ⟨N2, h3⟩ := next u us st1 ((t :: a).map .tok :: args) false hu.symm hr1 (by simp) (by simp)
      refine ⟨N1 + N2 + 1, fun n j hn hj => ?_⟩
      obtain ⟨q, rfl⟩ : ∃ q, j = q + 1 := ⟨j - 1, by omega⟩
      rw [macro_args, if_neg (by simpa using n2), if_neg (by simpa using hte), if_neg (by simpa using n1), hp1 n q (by omega) (by omega), Res.bind_ok]
      have := h3 n q (by omega) (by omega)
      simpa using this

/-- The arguments of a call, read from a stream. -/
theorem getsArgs_stream {D : Table} {st s : St} {as : List (List Tok)} (has : ∀ a ∈ as, ArgText a ∧ Tok.eof ∉ a) (hh : as.head? ≠ some [])
    (hr : RX D false st (List.intercalate [comma] as ++ [rpar]) s) : GetsArgs D as.length st (as.map (·.map .tok)).reverse s := by
  generalize hv : List.intercalate [comma] as ++ [rpar] = vs at hr
  cases hr with
  | nil => simp at hv
  | @cons _ t st1 ts _ hg hr =>
    obtain ⟨N1, hg⟩ := hg
    by_cases he : as = []
    · subst he
      simp [List.intercalate] at hv
      obtain ⟨rfl, rfl⟩ := hv
      cases hr
      refine ⟨N1 + 1, fun n j hn hj => ?_⟩
      obtain ⟨q, rfl⟩ : ∃ q, j = q + 1 := ⟨j - 1, by omega⟩
      rw [get_macro_args_toks, hg n (by omega)]
      simp [macro_args]
    · obtain ⟨N2, h2⟩ := macro_args_stream as has he false t ts st1 [] (fun _ => hh) hv.symm hr
      refine ⟨N1 + N2, fun n j hn hj => ?_⟩
      rw [get_macro_args_toks, hg n (by omega)]
      simp only [Res.bind_ok]
      rw [h2 n j (by omega) (by omega)]
      simp

end Verif.Macro
