import Verif.Decl.Proofs2
/-! The parser of declarations does what the grammar says: declarators. -/
namespace Verif.Decl
open Verif Verif.Decl.Spec

/-- The test for arrays of `void` does not strike. -/
def Safe : Dr → Ty → Prop
  | .name _, _ => True
  | .ptr _ _, _ => True
  | .arr _ _, t => ¬ isVoidTy t
  | .fn d _ _, t => Safe d t

theorem safe_nonvoid {t : Ty} (h : ¬ isVoidTy t) : ∀ d, Safe d t
  | .name _ => trivial
  | .ptr _ _ => trivial
  | .arr _ _ => h
  | .fn d _ _ => safe_nonvoid h d

theorem valid_safe {d : Dr} {t : Ty} (h : d.Valid t) : Safe d t := by
  cases d with
  | name x => trivial
  | ptr c d => trivial
  | arr d n => exact h.1
  | fn d ps va =>
    have h := h.2
    cases d with
    | name x => trivial
    | ptr c d => trivial
    | arr d n => exact absurd trivial h.2.1
    | fn d ps va => exact absurd trivial h.1

/-- The declarator `d` has been read (`s` before, `s'` after): `dcl` is its `DECL`, and `b` is the node whose inner type is `p`. -/
structure DPost (env : Env) (lo p : Nat) (d : Dr) (ts : List Tok) (s s' : S) (dcl b : Nat) : Prop where
  pres : Pres env ts s s'
  lb : s.heap.length ≤ b
  nm : (∃ x, d = .name x) → dcl = b
  hd : ∃ i, s'.heap[dcl]? = some (.decl d.nm i) ∧ (((∃ x, d = .name x) ∧ i = p) ∨ ∃ nd, s'.heap[i]? = some nd ∧ isVoid nd = false)
  hb : ∃ bn, s'.heap[b]? = some bn ∧ innerOf bn = .ok p
  ctx : ∃ C, Ctx s'.heap (fun i => Out2 lo s.heap.length i ∧ i ≠ b) b dcl C ∧ ∀ t, C t = d.ty t

/-- `res` is void only when nothing has been read behind the name. -/
def ResOK (p : Nat) (d : Dr) (s' : S) (res : Nat) : Prop := ((∃ x, d = .name x) ∧ res = p) ∨ ∃ nd, s'.heap[res]? = some nd ∧ isVoid nd = false

theorem dpost_rep {env : Env} {lo p : Nat} {d : Dr} {ts : List Tok} {s s' : S} {dcl b : Nat} (h : DPost env lo p d ts s s' dcl b) {L0 : Nat} (hL : L0 ≤ s.heap.length) {t : Ty}
    (r : Rep s.heap (Out2 lo L0) p t) : ∃ i, s'.heap[dcl]? = some (.decl d.nm i) ∧ Rep s'.heap (Out2 lo L0) i (d.ty t) ∧ Out2 lo L0 dcl := by
  obtain ⟨i, hi, _⟩ := h.hd
  obtain ⟨bn, hb, hp⟩ := h.hb
  obtain ⟨C, hc, hC⟩ := h.ctx
  have hc' : Ctx s'.heap (Out2 lo L0) b dcl C := ctx_move (fun i _ q => ⟨out2_mono hL q.1, rfl⟩) rfl hc
  obtain ⟨na, j, e1, e2, r', qa⟩ := ctx_rep hb hp (rep_move (moves_ext h.pres.ext fun _ _ q => q) r) (.inr (Nat.le_trans hL h.lb)) hc'
  rw [hi] at e1
  cases e1
  cases e2
  rw [hC] at r'
  exact ⟨i, hi, r', qa⟩

theorem wr_nonvoid {h : List Node} {Q : Nat → Prop} {nd : Node} {W : Ty → Ty} (w : Wr h Q nd W) : isVoid nd = false := by cases w <;> rfl

theorem setInner_nonvoid {nd : Node} (h : isVoid nd = false) (j : Nat) : isVoid (setInner j nd) = false := by cases nd <;> first | rfl | exact h

/-- A new node is put around the inner type. -/
theorem wrap_post {env : Env} {lo p : Nat} {d d' : Dr} {ts ts' : List Tok} {s s1 s2 s3 : S} {dcl b : Nat} {bn nd : Node} {W : Ty → Ty} (h : DPost env lo p d ts s s1 dcl b)
    (hlo : lo ≤ s.heap.length) (hb : s1.heap[b]? = some bn) (hp2 : Pres env ts' s1 s2)
    (w : Wr s2.heap (Out2 lo s1.heap.length) nd W) (hi : innerOf nd = .ok p) (hd' : d'.nm = d.nm) (hty : ∀ t, d'.ty t = d.ty (W t)) (hn : ∀ x, d' ≠ .name x)
    (h3 : s3.heap = (s2.heap ++ [nd]).set b (setInner s2.heap.length bn)) (h3v : s3.va = s2.va) (h3s : s3.sc = s2.sc) :
    DPost env lo p d' (ts ++ ts') s s3 dcl s2.heap.length ∧ ResOK p d' s3 s2.heap.length ∧ wrap nd b s2 = .ok { s2 with heap := s3.heap } := by
  have hlt := get_lt hb
  have hl2 := hp2.ext.1
  have hl1 := h.pres.ext.1
  have hlb := h.lb
  have eb : s3.heap[b]? = some (setInner s2.heap.length bn) := by rw [h3, List.getElem?_set_self (by simp; omega)]
  have ec : s3.heap[s2.heap.length]? = some nd := by
    rw [h3, List.getElem?_set_ne (by omega), get_last]
  have eo : ∀ i, i < s2.heap.length → i ≠ b → s3.heap[i]? = s2.heap[i]? := fun i hi hne => by
    rw [h3, List.getElem?_set_ne (Ne.symm hne), List.getElem?_append_left hi]
  have eb2 : s2.heap[b]? = some bn := by rw [hp2.ext.2 b hlt, hb]
  obtain ⟨bn', hbn', hpb⟩ := h.hb
  rw [hb] at hbn'
  cases hbn'
  have hext : Ext s.heap s3.heap := ⟨by rw [h3]; simp; omega, fun i hi => by
    rw [eo i (by omega) (by omega), hp2.ext.2 i (by omega), h.pres.ext.2 i hi]⟩
  refine ⟨⟨⟨hext, ?_, ?_⟩, by omega, fun ⟨x, e⟩ => absurd e (hn x), ?_, ⟨nd, ec, hi⟩, ?_⟩, .inr ⟨nd, ec, wr_nonvoid w⟩, ?_⟩
  · intro e v
    rw [h3v] at v
    exact h.pres.va (fun m => e (by simp [m])) (hp2.va (fun m => e (by simp [m])) v)
  · intro q
    rw [h3s, hp2.sc fun t m => q t (by simp [m]), h.pres.sc fun t m => q t (by simp [m])]
  · obtain ⟨i, hi', hv⟩ := h.hd
    by_cases hdb : dcl = b
    · subst hdb
      rw [hi'] at hb
      cases hb
      exact ⟨s2.heap.length, by rw [eb, hd']; rfl, .inr ⟨nd, ec, wr_nonvoid w⟩⟩
    · have hdl := get_lt hi'
      refine ⟨i, by rw [eo dcl (by omega) hdb, hp2.ext.2 dcl hdl, hi', hd'], .inr ?_⟩
      rcases hv with ⟨hx, _⟩ | ⟨ni, e1, e2⟩
      · exact absurd (h.nm hx) hdb
      · by_cases hib : i = b
        · subst hib
          rw [hb] at e1
          cases e1
          exact ⟨_, eb, setInner_nonvoid e2 _⟩
        · have := get_lt e1
          exact ⟨ni, by rw [eo i (by omega) hib, hp2.ext.2 i this, e1], e2⟩
  · obtain ⟨C, hc, hC⟩ := h.ctx
    refine ⟨fun t => C (W t), ?_, fun t => by dsimp only; rw [hC, hty]⟩
    refine ctx_wrap (h := s1.heap) ?_ hb hpb eb ec ?_ ?_ hc
    · intro i hi' q
      refine ⟨⟨q.1, by omega⟩, ?_⟩
      rw [eo i (by omega) q.2, hp2.ext.2 i hi']
    · refine wr_move (fun i hi' q => ?_) w
      have hib : i ≠ b := by rintro rfl; rcases q with q | q <;> omega
      refine ⟨⟨out2_mono (by omega) q, by omega⟩, eo i hi' hib⟩
    · exact ⟨.inr hlb, by omega⟩
  · rw [wrap, eb2, h3]

/-- `const` or not. -/
theorem star_post {env : Env} {lo p : Nat} {d : Dr} {ts pre : List Tok} {s s1 s' : S} {dcl b : Nat} {c : Bool} (hlo : lo ≤ s.heap.length)
    (h1 : s1.heap = s.heap ++ [.ptr ⟨c, false⟩ p]) (h1v : s1.va = s.va) (h1s : s1.sc = s.sc) (h : DPost env lo s.heap.length d ts s1 s' dcl b) :
    DPost env lo p (.ptr c d) (pre ++ ts) s s' dcl s.heap.length := by
  have hl1 : s1.heap.length = s.heap.length + 1 := by rw [h1]; simp
  have e1 : s1.heap[s.heap.length]? = some (.ptr ⟨c, false⟩ p) := by rw [h1, get_last]
  have e2 : s'.heap[s.heap.length]? = some (.ptr ⟨c, false⟩ p) := by rw [h.pres.ext.2 _ (by omega), e1]
  have hlb := h.lb
  refine ⟨⟨Ext.trans (by rw [h1]; exact Ext.append _ _) h.pres.ext, ?_, ?_⟩, Nat.le_refl _, fun ⟨x, e⟩ => (by cases e), ?_, ⟨_, e2, rfl⟩, ?_⟩
  · intro e v; rw [← h1v]; exact h.pres.va (fun m => e (by simp [m])) v
  · intro q; rw [← h1s]; exact h.pres.sc fun t m => q t (by simp [m])
  · obtain ⟨i, hi, hv⟩ := h.hd
    refine ⟨i, hi, .inr ?_⟩
    rcases hv with ⟨_, rfl⟩ | hv
    · exact ⟨_, e2, rfl⟩
    · exact hv
  · obtain ⟨C, hc, hC⟩ := h.ctx
    obtain ⟨bn, hb, hp⟩ := h.hb
    refine ⟨fun t => C (.ptr ⟨c, false⟩ t), ctx_snoc ?_ hb hp e2 .ptr ?_ hc, fun t => by dsimp only; rw [hC]; rfl⟩
    · intro i _ q
      have := q.1
      refine ⟨out2_mono (by omega) q.1, ?_⟩
      rintro rfl
      rcases q.1 with q | q <;> omega
    · exact ⟨.inr (by omega), by omega⟩

/-- Nothing but the name has been read. -/
theorem name_post (env : Env) (lo p : Nat) (x : Option Nat) (ts rest : List Tok) (s : S) : DPost env lo p (.name x) ts s (alloc (.decl x p) { s with toks := rest }) s.heap.length s.heap.length := by
  have e : (alloc (.decl x p) { s with toks := rest }).heap[s.heap.length]? = some (.decl x p) := get_last _ _
  exact ⟨⟨Ext.append _ _, fun _ v => v, fun _ => rfl⟩, Nat.le_refl _, fun _ => rfl, ⟨p, e, .inl ⟨⟨x, rfl⟩, rfl⟩⟩, ⟨_, e, rfl⟩, ⟨_, .here, fun _ => rfl⟩⟩

end Verif.Decl
