import Verif.Text.Spec
namespace Verif.Text
open Verif Spec

/-- `t` is a text for the document. -/
def Repr (st : TP) : Doc → Int → Prop
  | .nil, t => t = 0
  | .chr c, t => t = -(c : Int)
  | .int n, t => ∃ p : Nat, t = p ∧ 0 < p ∧ p + 2 ≤ st.alloc ∧
      match n with
      | .dec v => st.pool p = 1 ∧ st.pool (p + 1) = v.toInt
      | .hex v => st.pool p = 2 ∧ st.pool (p + 1) = v.toInt
      | .oct v => st.pool p = 3 ∧ st.pool (p + 1) = v.toInt
  | .str s _, t => ∃ p : Nat, t = p ∧ 0 < p ∧ p + 3 ≤ st.alloc ∧ st.pool p = 4 ∧ st.pool (p + 1) = s ∧ st.pool (p + 2) = 0
  | .slice s e _, t => ∃ p : Nat, t = p ∧ 0 < p ∧ p + 3 ≤ st.alloc ∧ st.pool p = 4 ∧ st.pool (p + 1) = s ∧ st.pool (p + 2) = e
  | .cat n f, t => ∃ p : Nat, t = p ∧ 0 < p ∧ p + 2 + n ≤ st.alloc ∧ st.pool p = 0 ∧ st.pool (p + 1) = n ∧
      ∀ i, i < n → Repr st (f i) (st.pool (p + 2 + i))
  | .esc fp d, t => ∃ p : Nat, t = p ∧ 0 < p ∧ p + 3 ≤ st.alloc ∧ st.pool p = 5 ∧ Repr st d (st.pool (p + 1)) ∧
      st.pool (p + 2) = if fp then 1 else 0

/-- Nothing below `alloc` changes. -/
structure Ext (st st' : TP) : Prop where
  le : st.alloc ≤ st'.alloc
  same : ∀ p, p < st.alloc → st'.pool p = st.pool p

theorem Repr.ext {st st' : TP} (h : Ext st st') : ∀ (d : Doc) (t : Int), Repr st d t → Repr st' d t
  | .nil, _, hr => hr
  | .chr _, _, hr => hr
  | .int n, t, ⟨p, h1, h2, h3, h4⟩ => by
    refine ⟨p, h1, h2, by have := h.le; omega, ?_⟩
    cases n <;> simp only at h4 ⊢ <;> rw [h.same p (by omega), h.same (p + 1) (by omega)] <;> exact h4
  | .str s _, t, ⟨p, h1, h2, h3, h4, h5, h6⟩ =>
    ⟨p, h1, h2, by have := h.le; omega, by rw [h.same p (by omega)]; exact h4, by rw [h.same _ (by omega)]; exact h5,
      by rw [h.same _ (by omega)]; exact h6⟩
  | .slice s e _, t, ⟨p, h1, h2, h3, h4, h5, h6⟩ =>
    ⟨p, h1, h2, by have := h.le; omega, by rw [h.same p (by omega)]; exact h4, by rw [h.same _ (by omega)]; exact h5,
      by rw [h.same _ (by omega)]; exact h6⟩
  | .cat n f, t, ⟨p, h1, h2, h3, h4, h5, h6⟩ =>
    ⟨p, h1, h2, by have := h.le; omega, by rw [h.same p (by omega)]; exact h4, by rw [h.same _ (by omega)]; exact h5,
      fun i hi => by rw [h.same _ (by omega)]; exact Repr.ext h (f i) _ (h6 i hi)⟩
  | .esc fp d, t, ⟨p, h1, h2, h3, h4, h5, h6⟩ =>
    ⟨p, h1, h2, by have := h.le; omega, by rw [h.same p (by omega)]; exact h4,
      by rw [h.same _ (by omega)]; exact Repr.ext h d _ h5, by rw [h.same _ (by omega)]; exact h6⟩

/-! ### Printing -/

/-- The printing of a document that exists gives it, otherwise there is a fatal error. -/
def Agrees (r : Res (List Nat)) : Option (List Nat) → Prop
  | some out => r = .ok out
  | none => r = .fatal

theorem at_tail {cm : Int → Nat} {s : Int} {b : Nat} {bs : List Nat} (h : At cm s (b :: bs)) : cm s = b ∧ At cm (s + 1) bs := by
  refine ⟨by simpa using h 0 (by simp), fun i hi => ?_⟩
  have := h (i + 1) (by simpa using hi)
  rw [show s + 1 + (i : Int) = s + ((i + 1 : Nat) : Int) by omega, this]
  simp

theorem putstr_spec (emit : Nat → List Nat) (cm : Int → Nat) : ∀ bs s fuel, IsStr cm s bs → bs.length < fuel →
    putstr emit cm fuel s = .ok (bs.flatMap emit)
  | bs, s, 0, _, hf => by omega
  | [], s, fuel + 1, ⟨_, _, h⟩, _ => by rw [putstr, if_pos (by simpa using h)]; rfl
  | b :: bs, s, fuel + 1, ⟨h1, h2, h3⟩, hf => by
    obtain ⟨e, t⟩ := at_tail h1
    have hb : b ≠ 0 := h2 b (by simp)
    rw [putstr, e, if_neg hb, putstr_spec emit cm bs (s + 1) fuel ⟨t, fun b hb => h2 b (by simp [hb]), ?_⟩ (by simp at hf; omega)]
    · rfl
    · rw [show s + 1 + (bs.length : Int) = s + ((b :: bs).length : Nat) by simp; omega]; exact h3

theorem escape_upto_spec (fp : Bool) (cm : Int → Nat) : ∀ bs s fuel, At cm s bs → bs.length < fuel →
    escape_upto fp cm (s + bs.length) fuel s = .ok (bs.flatMap (ShStr.escapeChar fp))
  | bs, s, 0, _, hf => by omega
  | [], s, fuel + 1, _, _ => by rw [escape_upto, if_neg (by simp)]; rfl
  | b :: bs, s, fuel + 1, h1, hf => by
    obtain ⟨e, t⟩ := at_tail h1
    have ih := escape_upto_spec fp cm bs (s + 1) fuel t (by simp at hf; omega)
    rw [show s + 1 + (bs.length : Int) = s + ((b :: bs).length : Nat) by simp; omega] at ih
    rw [escape_upto, if_pos (by simp; omega), ih, e]
    rfl

theorem print_upto_spec (cm : Int → Nat) : ∀ bs s fuel, At cm s bs → cm (s + bs.length) = 0 → bs.length < fuel →
    print_upto cm (s + bs.length) fuel s = .ok bs
  | bs, s, 0, _, _, hf => by omega
  | [], s, fuel + 1, _, h, _ => by
    rw [print_upto, if_neg]
    simp at h ⊢
    exact h
  | b :: bs, s, fuel + 1, h1, h, hf => by
    obtain ⟨e, t⟩ := at_tail h1
    have he : s + 1 + (bs.length : Int) = s + ((b :: bs).length : Nat) := by simp; omega
    have ih := print_upto_spec cm bs (s + 1) fuel t (by rw [he]; exact h) (by simp at hf; omega)
    rw [he] at ih
    rw [print_upto, if_pos (by simp; omega), ih, e]
    rfl

theorem kids_spec {emit : Nat → List Nat} {sub : Int → Res (List Nat)} {pool : Nat → Int} : ∀ n p (f : Nat → Option (List Nat)),
    (∀ t, t < 0 → sub t = .ok (emit (charOf t))) →
    (∀ i, i < n → Agrees (sub (pool (p + i))) (f i)) → Agrees (kids emit sub pool p n) (catO n f)
  | 0, p, f, _, _ => rfl
  | n + 1, p, f, hneg, h => by
    have h0 := h 0 (by omega)
    have ih := kids_spec (emit := emit) (sub := sub) (pool := pool) n (p + 1) (fun i => f (i + 1)) hneg
      (fun i hi => by have := h (i + 1) (by omega); rwa [show p + 1 + i = p + (i + 1) by omega])
    have e : (if pool p < 0 then Res.ok (emit (charOf (pool p))) else sub (pool p)) = sub (pool p) := by
      split
      · rename_i hlt; rw [hneg _ hlt]
      · rfl
    rw [kids, catO, e]
    simp only [Nat.add_zero] at h0
    cases hf : f 0 with
    | none => rw [hf] at h0; rw [show sub (pool p) = .fatal from h0]; rfl
    | some a =>
      rw [hf] at h0
      rw [show sub (pool p) = .ok a from h0, Res.bind_ok]
      simp only [Option.bind_some]
      cases hc : catO n fun i => f (i + 1) with
      | none => rw [hc] at ih; rw [show kids emit sub pool (p + 1) n = .fatal from ih]; rfl
      | some b => rw [hc] at ih; rw [show kids emit sub pool (p + 1) n = .ok b from ih]; rfl

theorem bound {P : Nat → Nat → Prop} : ∀ n, (∀ i, i < n → ∃ F, ∀ f, F ≤ f → P i f) → ∃ F, ∀ f, F ≤ f → ∀ i, i < n → P i f
  | 0, _ => ⟨0, fun _ _ i hi => by omega⟩
  | n + 1, h => by
    obtain ⟨F, hF⟩ := bound n fun i hi => h i (by omega)
    obtain ⟨G, hG⟩ := h n (by omega)
    refine ⟨max F G, fun f hf i hi => ?_⟩
    by_cases hi' : i < n
    · exact hF f (by omega) i hi'
    · rw [show i = n by omega]; exact hG f (by omega)

theorem charOf_neg {c : Nat} (h : c < 256) : charOf (-(c : Int)) = c := by unfold charOf; omega

theorem int_repr {st : TP} {n : Num.IntText} {p : Nat}
    (h : match n with
      | .dec v => st.pool p = 1 ∧ st.pool (p + 1) = v.toInt
      | .hex v => st.pool p = 2 ∧ st.pool (p + 1) = v.toInt
      | .oct v => st.pool p = 3 ∧ st.pool (p + 1) = v.toInt) :
    (st.pool p = 1 ∨ st.pool p = 2 ∨ st.pool p = 3) ∧
      int_node (st.pool p) (st.pool (p + 1)) = (Num.printInt n).map Int.toNat := by
  cases n <;> simp only at h <;> rw [h.1, h.2] <;> simp [int_node]

theorem print_escaped_spec (cm : Int → Nat) (st : TP) (fp : Bool) : ∀ (d : Doc) (t : Int), Repr st d t → Valid cm d →
    ∃ F, ∀ f, F ≤ f → Agrees (print_escaped_text cm st.pool fp f t) (escaped fp d)
  | .nil, t, hr, _ => ⟨1, fun f hf => by
      obtain ⟨g, rfl⟩ : ∃ g, f = g + 1 := ⟨f - 1, by omega⟩
      rw [show t = 0 from hr]; rfl⟩
  | .chr c, t, hr, hv => ⟨1, fun f hf => by
      obtain ⟨g, rfl⟩ : ∃ g, f = g + 1 := ⟨f - 1, by omega⟩
      obtain ⟨h1, h2⟩ := hv
      rw [show t = -(c : Int) from hr, print_escaped_text, if_neg (by omega), if_pos (by omega), charOf_neg h2]; rfl⟩
  | .int n, t, ⟨p, h1, h2, _, h4⟩, _ => ⟨1, fun f hf => by
      obtain ⟨g, rfl⟩ : ∃ g, f = g + 1 := ⟨f - 1, by omega⟩
      obtain ⟨e1, e2⟩ := int_repr h4
      have e3 : ¬ st.pool p = 0 := by omega
      rw [print_escaped_text, if_neg (by omega), if_neg (by omega), h1]
      simp only [Int.toNat_natCast, e1, e3, if_false, if_true, e2]; rfl⟩
  | .str s bs, t, ⟨p, h1, h2, _, h4, h5, h6⟩, hv => ⟨bs.length + 2, fun f hf => by
      obtain ⟨g, rfl⟩ : ∃ g, f = g + 1 := ⟨f - 1, by omega⟩
      rw [print_escaped_text, if_neg (by omega), if_neg (by omega), h1]
      simp only [Int.toNat_natCast, h4, h5, h6]
      exact putstr_spec _ cm bs s g hv (by omega)⟩
  | .slice s e bs, t, ⟨p, h1, h2, _, h4, h5, h6⟩, hv => ⟨bs.length + 2, fun f hf => by
      obtain ⟨g, rfl⟩ : ∃ g, f = g + 1 := ⟨f - 1, by omega⟩
      obtain ⟨v1, v2, v3⟩ := hv
      rw [print_escaped_text, if_neg (by omega), if_neg (by omega), h1]
      simp only [Int.toNat_natCast, h4, h5, h6]
      have := escape_upto_spec fp cm bs s g v1 (by omega)
      rw [← v2] at this
      simp only [ne_eq, v3, not_false_eq_true, if_true]
      exact this⟩
  | .cat n f, t, ⟨p, h1, h2, _, h4, h5, h6⟩, hv => by
    obtain ⟨F, hF⟩ := bound (P := fun i g => Agrees (print_escaped_text cm st.pool fp g (st.pool (p + 2 + i))) (escaped fp (f i))) n
      (fun i hi => print_escaped_spec cm st fp (f i) _ (h6 i hi) (hv i hi))
    refine ⟨F + 2, fun g hg => ?_⟩
    obtain ⟨g, rfl⟩ : ∃ g', g = g' + 2 := ⟨g - 2, by omega⟩
    rw [print_escaped_text, if_neg (by omega), if_neg (by omega), h1]
    simp only [Int.toNat_natCast, h4, h5, if_true]
    refine kids_spec n (p + 2) (fun i => escaped fp (f i)) (fun t ht => ?_) (fun i hi => hF (g + 1) (by omega) i hi)
    rw [print_escaped_text, if_neg (by omega), if_pos ht]
  | .esc b d, t, ⟨p, h1, h2, _, h4, h5, h6⟩, hv => ⟨1, fun f hf => by
      obtain ⟨g, rfl⟩ : ∃ g, f = g + 1 := ⟨f - 1, by omega⟩
      rw [print_escaped_text, if_neg (by omega), if_neg (by omega), h1]
      simp only [Int.toNat_natCast, h4]; rfl⟩

theorem print_spec (cm : Int → Nat) (st : TP) : ∀ (d : Doc) (t : Int), Repr st d t → Valid cm d → SlicesEnd cm d →
    ∃ F, ∀ f, F ≤ f → Agrees (print_text cm st.pool f t) (plain d)
  | .nil, t, hr, _, _ => ⟨1, fun f hf => by
      obtain ⟨g, rfl⟩ : ∃ g, f = g + 1 := ⟨f - 1, by omega⟩
      rw [show t = 0 from hr]; rfl⟩
  | .chr c, t, hr, hv, _ => ⟨1, fun f hf => by
      obtain ⟨g, rfl⟩ : ∃ g, f = g + 1 := ⟨f - 1, by omega⟩
      obtain ⟨h1, h2⟩ := hv
      rw [show t = -(c : Int) from hr, print_text, if_neg (by omega), if_pos (by omega), charOf_neg h2]; rfl⟩
  | .int n, t, ⟨p, h1, h2, _, h4⟩, _, _ => ⟨1, fun f hf => by
      obtain ⟨g, rfl⟩ : ∃ g, f = g + 1 := ⟨f - 1, by omega⟩
      obtain ⟨e1, e2⟩ := int_repr h4
      have e3 : ¬ st.pool p = 0 := by omega
      rw [print_text, if_neg (by omega), if_neg (by omega), h1]
      simp only [Int.toNat_natCast, e1, e3, if_false, if_true, e2]; rfl⟩
  | .str s bs, t, ⟨p, h1, h2, _, h4, h5, h6⟩, hv, _ => ⟨bs.length + 2, fun f hf => by
      obtain ⟨g, rfl⟩ : ∃ g, f = g + 1 := ⟨f - 1, by omega⟩
      rw [print_text, if_neg (by omega), if_neg (by omega), h1]
      simp only [Int.toNat_natCast, h4, h5, h6]
      have := putstr_spec (fun c => [c]) cm bs s g hv (by omega)
      rw [show bs.flatMap (fun c => [c]) = bs by simp] at this
      exact this⟩
  | .slice s e bs, t, ⟨p, h1, h2, _, h4, h5, h6⟩, hv, hs => ⟨bs.length + 2, fun f hf => by
      obtain ⟨g, rfl⟩ : ∃ g, f = g + 1 := ⟨f - 1, by omega⟩
      obtain ⟨v1, v2, v3⟩ := hv
      rw [print_text, if_neg (by omega), if_neg (by omega), h1]
      simp only [Int.toNat_natCast, h4, h5, h6, v3]
      have := print_upto_spec cm bs s g v1 (by rw [← v2]; exact hs) (by omega)
      rw [← v2] at this
      exact this⟩
  | .cat n f, t, ⟨p, h1, h2, _, h4, h5, h6⟩, hv, hs => by
    obtain ⟨F, hF⟩ := bound (P := fun i g => Agrees (print_text cm st.pool g (st.pool (p + 2 + i))) (plain (f i))) n
      (fun i hi => print_spec cm st (f i) _ (h6 i hi) (hv i hi) (hs i hi))
    refine ⟨F + 2, fun g hg => ?_⟩
    obtain ⟨g, rfl⟩ : ∃ g', g = g' + 2 := ⟨g - 2, by omega⟩
    rw [print_text, if_neg (by omega), if_neg (by omega), h1]
    simp only [Int.toNat_natCast, h4, h5, if_true]
    refine kids_spec n (p + 2) (fun i => plain (f i)) (fun t ht => ?_) (fun i hi => hF (g + 1) (by omega) i hi)
    rw [print_text, if_neg (by omega), if_pos ht]
  | .esc b d, t, ⟨p, h1, h2, _, h4, h5, h6⟩, hv, _ => by
    obtain ⟨F, hF⟩ := print_escaped_spec cm st b d _ h5 hv
    refine ⟨F + 1, fun f hf => ?_⟩
    obtain ⟨g, rfl⟩ : ∃ g, f = g + 1 := ⟨f - 1, by omega⟩
    rw [print_text, if_neg (by omega), if_neg (by omega), h1]
    have := hF g (by omega)
    simp only [Int.toNat_natCast, h4, h6]
    cases b <;> exact this

/-! ### Building -/

theorem node_spec {cells : List Int} {st st' : TP} {t : Int} (h : node cells st = .ok (t, st')) :
    t = (st.alloc : Int) ∧ Ext st st' ∧ st'.alloc = st.alloc + cells.length ∧
      ∀ i, i < cells.length → st'.pool (st.alloc + i) = cells[i]! := by
  unfold node at h
  split at h
  · cases h
  · cases h
    refine ⟨rfl, ⟨by simp, fun p hp => writeList_lt _ _ _ hp⟩, rfl, fun i hi => ?_⟩
    simp only
    rw [writeList_get _ _ _ hi]
    simp [hi]

/-- The invariant: all texts stand for their documents; only the empty document has text 0. -/
structure Inv (st : TP) (ds : List Doc) (hs : List Int) : Prop where
  pos : 0 < st.alloc
  len : hs.length = ds.length
  repr : ∀ i : Nat, Repr st ((ds[i]?).getD .nil) ((hs[i]?).getD 0)

theorem Repr.ne_zero {st : TP} {cm : Int → Nat} : ∀ {d : Doc} {t : Int}, Repr st d t → Valid cm d → (t = 0 ↔ d = .nil)
  | .nil, t, h, _ => ⟨fun _ => rfl, fun _ => h⟩
  | .chr c, t, h, ⟨h1, _⟩ => ⟨fun e => by have : t = -(c : Int) := h; omega, fun e => by cases e⟩
  | .int n, t, ⟨p, h1, h2, _⟩, _ => ⟨fun e => by omega, fun e => by cases e⟩
  | .str _ _, t, ⟨p, h1, h2, _⟩, _ => ⟨fun e => by omega, fun e => by cases e⟩
  | .slice _ _ _, t, ⟨p, h1, h2, _⟩, _ => ⟨fun e => by omega, fun e => by cases e⟩
  | .cat _ _, t, ⟨p, h1, h2, _⟩, _ => ⟨fun e => by omega, fun e => by cases e⟩
  | .esc _ _, t, ⟨p, h1, h2, _⟩, _ => ⟨fun e => by omega, fun e => by cases e⟩

theorem withSep_of {d1 d2 sep : Doc} (h1 : d1 ≠ .nil) (h2 : d2 ≠ .nil) :
    withSep d1 d2 sep = .cat 3 fun i => if i = 0 then d1 else if i = 1 then sep else d2 := by
  cases d1 <;> cases d2 <;> first | rfl | exact absurd rfl h1 | exact absurd rfl h2

theorem withSep_nil_right (d1 sep : Doc) : withSep d1 .nil sep = d1 := by cases d1 <;> rfl

theorem cat_repr {st st' : TP} {ts : List Int} {t : Int} (hpos : 0 < st.alloc) (h : string_concat ts st = .ok (t, st')) (n : Nat) (hn : n = ts.length)
    (f : Nat → Doc) (hf : ∀ i, i < n → Repr st (f i) ((ts[i]?).getD 0)) : Ext st st' ∧ Repr st' (.cat n f) t := by
  obtain ⟨h1, h2, h3, h4⟩ := node_spec h
  simp only [List.length_cons] at h3 h4
  subst hn
  refine ⟨h2, st.alloc, h1, hpos, by omega, ?_, ?_, fun i hi => ?_⟩
  · simpa using h4 0 (by omega)
  · simpa using h4 1 (by omega)
  · have := h4 (i + 2) (by omega)
    rw [show st.alloc + 2 + i = st.alloc + (i + 2) by omega, this]
    have hr := Repr.ext h2 _ _ (hf i hi)
    have e : (0 :: (ts.length : Int) :: ts)[i + 2]! = (ts[i]?).getD 0 := by simp [hi]
    rw [e]; exact hr

theorem leaf_repr {st st' : TP} {cells : List Int} {t : Int} {d : Doc} (h : node cells st = .ok (t, st'))
    (hd : (∀ i, i < cells.length → st'.pool (st.alloc + i) = cells[i]!) → st'.alloc = st.alloc + cells.length → Ext st st' → Repr st' d st.alloc) :
    Ext st st' ∧ Repr st' d t := by
  obtain ⟨h1, h2, h3, h4⟩ := node_spec h
  refine ⟨h2, ?_⟩
  rw [h1]; exact hd h4 h3 h2

theorem Ext.refl (st : TP) : Ext st st := ⟨Nat.le_refl _, fun _ _ => rfl⟩

theorem op_repr {cm : Int → Nat} {st st' : TP} {t : Int} {ds : List Doc} {hs : List Int} (op : Op) (hi : Inv st ds hs)
    (hv : ∀ i : Nat, Valid cm ((ds[i]?).getD .nil)) (h : op.text (fun i => (hs[i]?).getD 0) st = .ok (t, st')) :
    Ext st st' ∧ Repr st' (op.doc fun i => (ds[i]?).getD .nil) t := by
  have hp := hi.pos
  cases op with
  | chr c => cases h; exact ⟨Ext.refl _, rfl⟩
  | int n =>
    cases n <;> refine leaf_repr h (fun h4 h3 _ => ⟨_, rfl, hp, by simp at h3; omega, ?_⟩) <;>
      exact ⟨by simpa using h4 0 (by simp), by simpa using h4 1 (by simp)⟩
  | str s bs =>
    refine leaf_repr h (fun h4 h3 _ => ⟨_, rfl, hp, by simp at h3; omega, ?_⟩)
    exact ⟨by simpa using h4 0 (by simp), by simpa using h4 1 (by simp), by simpa using h4 2 (by simp)⟩
  | slice s e bs =>
    refine leaf_repr h (fun h4 h3 _ => ⟨_, rfl, hp, by simp at h3; omega, ?_⟩)
    exact ⟨by simpa using h4 0 (by simp), by simpa using h4 1 (by simp), by simpa using h4 2 (by simp)⟩
  | cat parts =>
    refine cat_repr hp h _ (by simp) _ (fun i hi' => ?_)
    have e : (((parts.map fun i => (hs[i]?).getD 0))[i]?).getD 0 = (hs[(parts[i]?).getD 0]?).getD 0 := by
      simp [hi']
    rw [e]
    exact hi.repr _
  | esc fp i =>
    refine leaf_repr h (fun h4 h3 he => ⟨_, rfl, hp, by simp at h3; omega, ?_⟩)
    refine ⟨by simpa using h4 0 (by simp), ?_, by simpa using h4 2 (by simp)⟩
    rw [show st'.pool (st.alloc + 1) = _ by simpa using h4 1 (by simp)]
    exact Repr.ext he _ _ (hi.repr i)
  | sep i j k =>
    have ri := hi.repr i
    have rj := hi.repr j
    have rk := hi.repr k
    simp only [Op.text, concatenate_strings_with] at h
    simp only [Op.doc]
    split at h
    · rename_i h0
      cases h
      rw [(Repr.ne_zero ri (hv i)).1 h0]
      exact ⟨Ext.refl _, rj⟩
    · rename_i h0
      split at h
      · rename_i h1
        cases h
        rw [(Repr.ne_zero rj (hv j)).1 h1, withSep_nil_right]
        exact ⟨Ext.refl _, ri⟩
      · rename_i h1
        rw [withSep_of (fun e => h0 ((Repr.ne_zero ri (hv i)).2 e)) (fun e => h1 ((Repr.ne_zero rj (hv j)).2 e))]
        refine cat_repr hp h 3 rfl _ (fun a ha => ?_)
        rcases a with _ | _ | _ | a
        · exact ri
        · exact rk
        · exact rj
        · omega

theorem docs_prefix : ∀ ops ds, ∃ more, docs ops ds = ds ++ more
  | [], ds => ⟨[], by simp [docs]⟩
  | op :: ops, ds => by
    obtain ⟨m, h⟩ := docs_prefix ops (ds ++ [op.doc fun i => (ds[i]?).getD .nil])
    exact ⟨_, by rw [docs, h, List.append_assoc]⟩

theorem getD_append {α} {l : List α} {x d : α} {P : Nat → α → Prop} (h : ∀ i, P i ((l[i]?).getD d)) (hx : P l.length x) :
    ∀ i, P i (((l ++ [x])[i]?).getD d) := by
  intro i
  by_cases hi : i < l.length
  · rw [List.getElem?_append_left hi]; exact h i
  · by_cases he : i = l.length
    · subst he; simpa using hx
    · have := h i
      rw [List.getElem?_eq_none (by omega)] at this
      rw [List.getElem?_eq_none (by simp; omega)]; exact this

theorem build_inv {cm : Int → Nat} : ∀ ops ds hs st hs' st', Inv st ds hs → (∀ d ∈ docs ops ds, Valid cm d) →
    build ops hs st = .ok (hs', st') → Inv st' (docs ops ds) hs' ∧ Ext st st'
  | [], ds, hs, st, hs', st', hi, _, h => by cases h; exact ⟨hi, Ext.refl _⟩
  | op :: ops, ds, hs, st, hs', st', hi, hv, h => by
    rw [build, Res.bind_eq_ok] at h
    obtain ⟨⟨t, s1⟩, h1, h2⟩ := h
    have hv' : ∀ i : Nat, Valid cm ((ds[i]?).getD .nil) := by
      intro i
      obtain ⟨m, hm⟩ := docs_prefix (op :: ops) ds
      by_cases hlt : i < ds.length
      · rw [List.getElem?_eq_getElem hlt]
        exact hv _ (by rw [hm]; exact List.mem_append_left _ (List.getElem_mem hlt))
      · rw [List.getElem?_eq_none (by omega)]; trivial
    obtain ⟨he, hr⟩ := op_repr op hi hv' h1
    have hrep : ∀ i : Nat, Repr s1 (((ds ++ [op.doc fun i => (ds[i]?).getD .nil])[i]?).getD .nil) (((hs ++ [t])[i]?).getD 0) := by
      intro i
      have hl := hi.len
      by_cases hlt : i < ds.length
      · rw [List.getElem?_append_left hlt, List.getElem?_append_left (by omega)]
        exact Repr.ext he _ _ (hi.repr i)
      · by_cases heq : i = ds.length
        · subst heq
          rw [show (ds ++ [op.doc fun i => (ds[i]?).getD .nil])[ds.length]? = some (op.doc fun i => (ds[i]?).getD .nil) by simp,
            show (hs ++ [t])[ds.length]? = some t by rw [← hl]; simp]
          exact hr
        · rw [List.getElem?_eq_none (by simp; omega), List.getElem?_eq_none (by simp; omega)]; rfl
    obtain ⟨j1, j2⟩ := build_inv ops (ds ++ [op.doc fun i => (ds[i]?).getD .nil]) (hs ++ [t]) s1 hs' st'
      ⟨by have := he.le; have := hi.pos; omega, by simp [hi.len], hrep⟩ hv h2
    exact ⟨j1, ⟨by have := he.le; have := j2.le; omega, fun p hp => by rw [j2.same p (by have := he.le; omega), he.same p hp]⟩⟩

/-- **C24 (partial)**: after any sequence of constructions of texts (each using any of the earlier
texts, any number of times), every text built so far prints as its document: the concatenation of its
leaves in order, escaped where requested, or a fatal error for a document that is to be escaped twice.
Missing: slices printed unescaped that do not end at a NUL (`C24_slice_false`). -/
theorem C24_print_partial (cm : Int → Nat) (ops : List Op) (hs : List Int) (st : TP)
    (hb : build ops [] TP.init = .ok (hs, st)) (hv : ∀ d ∈ docs ops [], Valid cm d) (i : Nat) (d : Doc) (t : Int)
    (hd : (docs ops [])[i]? = some d) (ht : hs[i]? = some t) (hs : SlicesEnd cm d) :
    ∃ F, ∀ fuel, F ≤ fuel → match plain d with
      | some out => print_text cm st.pool fuel t = .ok out
      | none => print_text cm st.pool fuel t = .fatal := by
  obtain ⟨hi, _⟩ := build_inv ops [] [] TP.init _ st ⟨by simp [TP.init], rfl, fun i => by simp [Repr]⟩ hv hb
  have hr := hi.repr i
  rw [hd, ht] at hr
  obtain ⟨F, hF⟩ := print_spec cm st d t hr (hv d (List.mem_of_getElem? hd)) hs
  refine ⟨F, fun f hf => ?_⟩
  have := hF f hf
  cases hp : plain d <;> rw [hp] at this <;> exact this

/-- Printing does not depend on what is allocated later: whatever is built after it, a text prints the
same. -/
theorem C24_stable (cm : Int → Nat) (ops more : List Op) (hs hs' : List Int) (st st' : TP)
    (hb : build ops [] TP.init = .ok (hs, st)) (hb' : build more hs st = .ok (hs', st'))
    (hv : ∀ d ∈ docs (ops ++ more) [], Valid cm d) (i : Nat) (d : Doc) (t : Int)
    (hd : (docs ops [])[i]? = some d) (ht : hs[i]? = some t) (hs : SlicesEnd cm d) :
    ∃ F, ∀ fuel, F ≤ fuel → print_text cm st'.pool fuel t = print_text cm st.pool fuel t := by
  have hdocs : ∀ ops ds, docs (ops ++ more) ds = docs more (docs ops ds) := by
    intro ops
    induction ops with
    | nil => intro ds; rfl
    | cons op ops ih => intro ds; exact ih _
  have hv1 : ∀ d ∈ docs ops [], Valid cm d := by
    intro d hd
    obtain ⟨m, hm⟩ := docs_prefix more (docs ops [])
    exact hv d (by rw [hdocs, hm]; exact List.mem_append_left _ hd)
  obtain ⟨hi, _⟩ := build_inv ops [] [] TP.init _ st ⟨by simp [TP.init], rfl, fun i => by simp [Repr]⟩ hv1 hb
  obtain ⟨_, he⟩ := build_inv more (docs ops []) _ st _ st' hi (by rw [← hdocs]; exact hv) hb'
  have hr := hi.repr i
  rw [hd, ht] at hr
  have hvd := hv1 d (List.mem_of_getElem? hd)
  obtain ⟨F, hF⟩ := print_spec cm st d t hr hvd hs
  obtain ⟨G, hG⟩ := print_spec cm st' d t (Repr.ext he _ _ hr) hvd hs
  refine ⟨max F G, fun f hf => ?_⟩
  have h1 := hF f (by omega)
  have h2 := hG f (by omega)
  cases hp : plain d <;> rw [hp] at h1 h2 <;> exact h2.trans h1.symm

theorem writeList_far : ∀ (cells : List Int) (pool : Nat → Int) (a p : Nat), a + cells.length ≤ p → writeList pool a cells p = pool p
  | [], _, _, _, _ => rfl
  | c :: cells, pool, a, p, h => by
    simp only [List.length_cons] at h
    rw [writeList, writeList_far cells _ _ _ (by omega), upd]
    exact if_neg (by omega)

/-- Inside the table. -/
def Inside (st : TP) : Prop := st.alloc < 1000000 ∧ ∀ p, 1000000 ≤ p → st.pool p = 0

theorem node_inside {cells : List Int} {st st' : TP} {t : Int} (hi : Inside st) (h : node cells st = .ok (t, st')) : Inside st' := by
  unfold node at h
  split at h
  · cases h
  · injection h with h
    injection h with _ h
    subst h
    exact ⟨by dsimp only; omega, fun p hp => by dsimp only; rw [writeList_far _ _ _ _ (by omega), hi.2 p hp]⟩

theorem text_inside {get : Nat → Int} {st st' : TP} {t : Int} (op : Op) (hi : Inside st) (h : op.text get st = .ok (t, st')) : Inside st' := by
  cases op with
  | chr c => cases h; exact hi
  | int n => cases n <;> exact node_inside hi h
  | sep i j k =>
    simp only [Op.text, concatenate_strings_with] at h
    split at h
    · cases h; exact hi
    split at h
    · cases h; exact hi
    · exact node_inside hi h
  | str | slice | cat | esc => exact node_inside hi h

/-- **C24, the table of nodes.** No construction of a text writes outside of the table of 1000000 cells: it is refused when there is no room for its node. -/
theorem C24_within_table : ∀ (ops : List Op) (hs hs' : List Int) (st st' : TP), Inside st → build ops hs st = .ok (hs', st') → Inside st'
  | [], _, _, _, _, hi, h => by cases h; exact hi
  | op :: ops, hs, hs', st, st', hi, h => by
    rw [build, Res.bind_eq_ok] at h
    obtain ⟨⟨t, st1⟩, h1, h2⟩ := h
    exact C24_within_table ops _ hs' st1 st' (text_inside op hi h1) h2

/-- The start is inside. -/
example : Inside TP.init := ⟨by decide, fun _ _ => rfl⟩

/-- C24 is false of an unescaped slice: the slice "a" of "ab" prints "ab". -/
theorem C24_slice_false :
    (build [.slice 10 11 [97]] [] TP.init).bind (fun x => print_text (fun a => if a = 10 then 97 else if a = 11 then 98 else 0) x.2.pool 9 1) =
      .ok [97, 98] := by decide +kernel

/-- The hypotheses are met: a tree of a character, a number used twice and an escaped slice. -/
def sampleOps : List Op := [.chr 36, .int (.dec 42#32), .slice 10 12 [36, 97], .esc false 2, .cat [0, 1, 3, 1], .sep 4 0 1]

example : (build sampleOps [] TP.init).bind (fun x =>
    print_text (fun a => if a = 10 then 36 else if a = 11 then 97 else 120) x.2.pool 20 ((x.1[5]?).getD 0)) =
      .ok [36, 52, 50, 92, 36, 97, 52, 50, 52, 50, 36] := by decide +kernel

end Verif.Text
