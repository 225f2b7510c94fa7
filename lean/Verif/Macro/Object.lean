import Verif.Macro.Top
import Mathlib.Data.List.Perm.Subperm
/-! Object-like macros, recursive or not. -/
namespace Verif.Macro
open Verif Verif.Lex Spec

/-- A text without `#`, `##` and ends. -/
def Text (ts : List Tok) : Prop := ∀ t ∈ ts, t ≠ .eof ∧ t ≠ .newline ∧ t ≠ .op (.ch 35) ∧ t ≠ .op .hashHash

theorem plain_or {t : Tok} (h : t ≠ .eof ∧ t ≠ .newline ∧ t ≠ .op (.ch 35) ∧ t ≠ .op .hashHash) : Plain t ∨ ∃ x, t = .ident x := by
  by_cases hx : ∃ x, t = .ident x
  · exact .inr hx
  · exact .inl ⟨fun x e => hx ⟨x, e⟩, h.2.2.1, h.2.2.2, h.1, h.2.1⟩

theorem lookup_nil (t : Tok) : lookup_macro_token [] t = .tok t := by
  unfold lookup_macro_token
  split <;> simp
theorem map_lookup_nil (l : List Tok) : l.map (lookup_macro_token []) = l.map .tok := List.map_congr_left fun t _ => lookup_nil t

theorem gets_hidden {D : Table} {em : Bool} {st : St} {x : Name} {r : List BTok} (hc : st.cur.toks = .tok (.ident x) :: r) (hp : st.paste = false)
    (hh : HH ∉ r) (hal : already x st = true) : Gets D em st (.tok (.ident x)) (setToks st r) := by
  refine ⟨1, fun n hn => ?_⟩
  obtain ⟨k, rfl⟩ : ∃ k, n = k + 1 := ⟨n - 1, by omega⟩
  rw [get_tok_replay hc hp hh]
  have e : already x (setToks st r) = true := hal
  simp only [replay, expand_ident]
  cases hD : D x with
  | none => rfl
  | some mac => simp [attempt, e]

/-- The macros that are being expanded. -/
def idents (st : St) : List Name := (st.cur :: st.stack).filterMap (·.ident)

theorem already_iff {st : St} {c m : Name} (hc : st.cur.ident = some c) : already m st = true ↔ m ∈ idents st := by
  unfold already idents
  rw [hc]
  simp only [Bool.or_eq_true, beq_iff_eq, List.any_eq_true, List.mem_filterMap, List.mem_cons]
  constructor
  · rintro (rfl | ⟨f, hf, he⟩)
    · exact ⟨st.cur, .inl rfl, hc⟩
    · exact ⟨f, .inr hf, he⟩
  · rintro ⟨f, rfl | hf, he⟩
    · rw [hc] at he; cases he; exact .inl rfl
    · exact .inr ⟨f, hf, he⟩

theorem text_names {b : List Tok} (h : Text b) : HH ∉ b.map BTok.tok := hh_map fun t ht => (h t ht).2.2.2

/-- Only object-like macros, all of them in `L`. -/
structure ObjTable (C : CTable) (L : List Name) : Prop where
  obj : ∀ m c, C m = some c → ∃ b, c = .obj b
  mem : ∀ m, C m ≠ none → m ∈ L

theorem obj_body {C : CTable} {D : Table} (hD : Defined C D) (hW : WF C) {L : List Name} (hO : ObjTable C L) : ∀ (k : Nat) (hide : List Name), hide.Nodup →
    (∀ m ∈ hide, m ∈ L) → L.length ≤ k + hide.length → ∀ ts, Text ts →
    ∃ out, Exp C hide (fun _ => none) ts out ∧ Tok.eof ∉ out ∧ ∀ st rest c, st.paste = false → st.cur.ident = some c → idents st = hide → st.stack.length + (L.length - hide.length) ≤ 58 →
      st.cur.toks = ts.map .tok ++ rest → HH ∉ rest → ∀ em, Reads D em st out (setToks st rest) := by
  intro k
  induction k with
  | zero =>
    intro hide hn hL hl ts hts
    -- every macro is hidden
    have hall : ∀ m ∈ L, m ∈ hide := by
      intro m hm
      have hp : hide.Subperm L := List.subperm_of_subset hn hL
      exact (hp.perm_of_length_le (by omega)).symm.subset hm
    induction ts with
    | nil =>
      refine ⟨[], .nil, by simp, ?_⟩
      intro st rest c _ _ _ _ hc _ em
      have : setToks st rest = st := by simp at hc; rw [← hc]; rfl
      rw [this]
      exact reads_refl D em st
    | cons t ts ih =>
      obtain ⟨out, h1, h2, h3⟩ := ih fun u hu => hts u (by simp [hu])
      have hT : HH ∉ ts.map BTok.tok := text_names fun u hu => hts u (by simp [hu])
      refine ⟨t :: out, ?_, by simp [h2, Ne.symm (hts t (by simp)).1], ?_⟩
      · rcases plain_or (hts t (by simp)) with h | ⟨x, rfl⟩
        · exact .plain h h1
        · by_cases hC : C x = none
          · exact .ident rfl hC h1
          · exact .hidden rfl (hall x (hO.mem x hC)) h1
      · intro st rest c hp hci hid hd hc hr em
        have hR : HH ∉ ts.map BTok.tok ++ rest := by
          intro h
          rcases List.mem_append.1 h with h | h
          · exact hT h
          · exact hr h
        refine .cons (st1 := setToks st (ts.map .tok ++ rest)) ?_ (h3 (setToks st (ts.map .tok ++ rest)) rest c hp hci hid hd rfl hr em)
        rcases plain_or (hts t (by simp)) with h | ⟨x, rfl⟩
        · exact gets_plain hc hp hR h
        · by_cases hC : C x = none
          · exact gets_ident hc hp hR (def_none hD hC)
          · exact gets_hidden hc hp hR ((already_iff hci).2 (hid ▸ hall x (hO.mem x hC)))
  | succ k ihk =>
    intro hide hn hL hl ts hts
    induction ts with
    | nil =>
      refine ⟨[], .nil, by simp, ?_⟩
      intro st rest c _ _ _ _ hc _ em
      have : setToks st rest = st := by simp at hc; rw [← hc]; rfl
      rw [this]
      exact reads_refl D em st
    | cons t ts ih =>
      obtain ⟨out, h1, h2, h3⟩ := ih fun u hu => hts u (by simp [hu])
      have hT : HH ∉ ts.map BTok.tok := text_names fun u hu => hts u (by simp [hu])
      have hRR : ∀ rest, HH ∉ rest → HH ∉ ts.map BTok.tok ++ rest := by
        intro rest hr h
        rcases List.mem_append.1 h with h | h
        · exact hT h
        · exact hr h
      by_cases hm : ∃ m, t = .ident m ∧ C m ≠ none ∧ m ∉ hide
      · obtain ⟨m, rfl, hC, hmh⟩ := hm
        cases hCm : C m with
        | none => exact absurd hCm hC
        | some c =>
          obtain ⟨b, rfl⟩ := hO.obj m c hCm
          have hb : Text b := (hW m _ hCm).2
          have hsub : (m :: hide).Nodup := List.nodup_cons.2 ⟨hmh, hn⟩
          have hL' : ∀ x ∈ m :: hide, x ∈ L := by
            intro x hx
            rcases List.mem_cons.1 hx with rfl | hx
            · exact hO.mem _ hC
            · exact hL x hx
          have hlen : (m :: hide).length ≤ L.length := (List.subperm_of_subset hsub hL').length_le
          obtain ⟨o, e1, e2, e3⟩ := ihk (m :: hide) hsub hL' (by simp; omega) b hb
          refine ⟨o ++ out, .obj rfl hmh hCm e1 h1, by simp [e2, h2], ?_⟩
          intro st rest c hp hci hid hd hc hr em
          have hR := hRR rest hr
          have hal : already m st = false := by
            cases e : already m st with
            | false => rfl
            | true => exact absurd (hid ▸ (already_iff hci).1 e) hmh
          simp only [List.length_cons] at hlen
          have c1 := cont_obj (em := em) hc hp hR (def_obj hD hW hCm) hal (by omega)
          rw [map_lookup_nil] at c1
          have c2 := e3 (pushed (some m) (b.map .tok) [] (setToks st (ts.map .tok ++ rest))) [] m hp rfl (by
            simp only [idents, pushed, setToks, List.filterMap_cons] at hid ⊢
            rw [hid]) (by simp [pushed, setToks]; omega) (by simp [pushed]) (by simp) em
          have c3 := reads_then c2 (c := setToks st (ts.map BTok.tok ++ rest)) (cont_pushed D em (some m) [] (setToks st (ts.map BTok.tok ++ rest)))
          exact reads_append (reads_cont c1 c3) (h3 (setToks st (ts.map .tok ++ rest)) rest c hp hci hid hd rfl hr em)
      · refine ⟨t :: out, ?_, by simp [h2, Ne.symm (hts t (by simp)).1], ?_⟩
        · rcases plain_or (hts t (by simp)) with h | ⟨x, rfl⟩
          · exact .plain h h1
          · by_cases hC : C x = none
            · exact .ident rfl hC h1
            · refine .hidden rfl ?_ h1
              by_cases hx : x ∈ hide
              · exact hx
              · exact absurd ⟨x, rfl, hC, hx⟩ hm
        · intro st rest c hp hci hid hd hc hr em
          have hR := hRR rest hr
          refine .cons (st1 := setToks st (ts.map .tok ++ rest)) ?_ (h3 (setToks st (ts.map .tok ++ rest)) rest c hp hci hid hd rfl hr em)
          rcases plain_or (hts t (by simp)) with h | ⟨x, rfl⟩
          · exact gets_plain hc hp hR h
          · by_cases hC : C x = none
            · exact gets_ident hc hp hR (def_none hD hC)
            · refine gets_hidden hc hp hR ((already_iff hci).2 (hid ▸ ?_))
              by_cases hx : x ∈ hide
              · exact hx
              · exact absurd ⟨x, rfl, hC, hx⟩ hm

theorem obj_file {C : CTable} {D : Table} (hD : Defined C D) (hW : WF C) {L : List Name} (hO : ObjTable C L) (hL : L.length ≤ 58) :
    ∀ src, (∀ t ∈ src, t ≠ .eof ∧ t ≠ .op (.ch 35) ∧ t ≠ .op .hashHash) →
    ∃ out, Exp C [] (fun _ => none) (strip src) out ∧ Tok.eof ∉ out ∧ ∃ src', strip src' = [] ∧ Reads D true (start src) out (start src') := by
  intro src
  induction src with
  | nil => intro _; exact ⟨[], .nil, by simp, [], rfl, reads_refl D true _⟩
  | cons t src ih =>
    intro h
    obtain ⟨out, h1, h2, src', h3, h4⟩ := ih fun u hu => h u (by simp [hu])
    have ht := h t (by simp)
    by_cases hn : t = .newline
    · subst hn
      refine ⟨out, ?_, h2, src', h3, reads_cont ?_ h4⟩
      · have : strip (.newline :: src) = strip src := by simp [strip]
        rw [this]; exact h1
      · rintro t s ⟨N, h⟩
        refine ⟨N + 1, fun n hn => ?_⟩
        obtain ⟨k, rfl⟩ : ∃ k, n = k + 1 := ⟨n - 1, by omega⟩
        exact h k (by omega)
    · have hs : strip (t :: src) = t :: strip src := by simp [strip, hn]
      rw [hs]
      rcases plain_or ⟨ht.1, hn, ht.2.1, ht.2.2⟩ with hp | ⟨x, rfl⟩
      · exact ⟨t :: out, .plain hp h1, by simp [h2, Ne.symm ht.1], src', h3, .cons (gets_file src hn (fun x hx => absurd hx (hp.1 x))) h4⟩
      · cases hC : C x with
        | none => exact ⟨.ident x :: out, .ident rfl hC h1, by simp [h2], src', h3, .cons (gets_file src hn (fun y hy => by cases hy; exact def_none hD hC)) h4⟩
        | some c =>
          obtain ⟨b, rfl⟩ := hO.obj x c hC
          have hx : x ∈ L := hO.mem x (by rw [hC]; simp)
          have hpos : 0 < L.length := List.length_pos_of_mem hx
          obtain ⟨o, e1, e2, e3⟩ := obj_body hD hW hO (L.length - 1) [x] (by simp) (by simp [hx]) (by simp; omega) b (hW x _ hC).2
          refine ⟨o ++ out, .obj rfl (by simp) hC e1 h1, by simp [e2, h2], src', h3, reads_append ?_ h4⟩
          have c1 := cont_file_obj src (def_obj hD hW hC)
          rw [map_lookup_nil] at c1
          have c2 := e3 (pushed (some x) (b.map .tok) [] (start src)) [] x rfl rfl (by simp [idents, pushed, start]) (by simp [pushed, start]; omega) (by simp [pushed]) (by simp) true
          exact reads_cont c1 (reads_then c2 (cont_pushed D true _ _ _))

end Verif.Macro
