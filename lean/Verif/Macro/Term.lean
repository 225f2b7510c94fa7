import Verif.Macro.Model
/-! Expansion terminates: the lengths of the lists on the macro stack decrease lexicographically. -/
namespace Verif.Macro
open Verif Verif.Lex

/-! ## A well-founded order on short lists -/

theorem lex_ind (K : Nat) : ∀ (P : List Nat → Prop), (∀ x, x.length ≤ K → (∀ y, y.length ≤ K → List.Lex (· < ·) y x → P y) → P x) →
    ∀ x, x.length ≤ K → P x := by
  induction K with
  | zero =>
    intro P h x hx
    refine h x hx fun y hy hl => ?_
    have hx0 : x = [] := List.length_eq_zero_iff.1 (by omega)
    subst hx0
    cases hl
  | succ K ih =>
    intro P h
    have h0 : P [] := h [] (by simp) fun y _ hl => by cases hl
    have key : ∀ a r, r.length ≤ K → P (a :: r) := by
      intro a
      induction a using Nat.strongRecOn with
      | _ a iha =>
        refine ih (fun r => P (a :: r)) fun r hr ihr => ?_
        refine h _ (by simp; omega) fun y hy hl => ?_
        cases hl with
        | nil => exact h0
        | rel hlt => exact iha _ hlt _ (by simp at hy; omega)
        | cons hl => exact ihr _ (by simp at hy; omega) hl
    intro x hx
    cases x with
    | nil => exact h0
    | cons a r => exact key a r (by simp at hx; omega)

/-- The lists differ, and the first has the smaller number at the first difference. -/
def Lt (a b : List Nat) : Prop := ∃ p x y l r, a = p ++ x :: l ∧ b = p ++ y :: r ∧ x < y

theorem lt_lex {a b : List Nat} (h : Lt a b) : List.Lex (· < ·) a b := by
  obtain ⟨p, x, y, l, r, rfl, rfl, hxy⟩ := h
  induction p with
  | nil => exact .rel hxy
  | cons c p ih => exact .cons ih

theorem prefix_lex {a : List Nat} {x : Nat} : List.Lex (· < ·) a (a ++ [x]) := by
  induction a with
  | nil => exact .nil
  | cons c p ih => exact .cons ih

theorem lt_append_left {a b : List Nat} (h : Lt a b) (l : List Nat) : Lt (a ++ l) b := by
  obtain ⟨p, x, y, l', r, rfl, rfl, hxy⟩ := h
  exact ⟨p, x, y, l' ++ l, r, by simp, rfl, hxy⟩
theorem lt_append_right {a b : List Nat} (h : Lt a b) (l : List Nat) : Lt a (b ++ l) := by
  obtain ⟨p, x, y, l', r, rfl, rfl, hxy⟩ := h
  exact ⟨p, x, y, l', r ++ l, rfl, by simp, hxy⟩
theorem lt_cons {a b : List Nat} (c : Nat) (h : Lt a b) : Lt (c :: a) (c :: b) := by
  obtain ⟨p, x, y, l', r, rfl, rfl, hxy⟩ := h
  exact ⟨c :: p, x, y, l', r, rfl, rfl, hxy⟩
theorem lt_head {x y : Nat} (h : x < y) (l r : List Nat) : Lt (x :: l) (y :: r) := ⟨[], x, y, l, r, rfl, rfl, h⟩
theorem lt_cons_iff {a b : Nat} {l r : List Nat} : Lt (a :: l) (b :: r) ↔ a < b ∨ (a = b ∧ Lt l r) := by
  constructor
  · rintro ⟨p, x, y, l', r', h1, h2, h3⟩
    cases p with
    | nil => simp at h1 h2; left; omega
    | cons c p =>
      simp at h1 h2
      exact .inr ⟨h1.1.trans h2.1.symm, p, x, y, l', r', h1.2, h2.2, h3⟩
  · rintro (h | ⟨rfl, h⟩)
    · exact lt_head h _ _
    · exact lt_cons _ h
theorem not_lt_nil {a : List Nat} : ¬ Lt a [] := by
  rintro ⟨p, x, y, l, r, _, h, _⟩; simp at h
theorem nil_not_lt {a : List Nat} : ¬ Lt [] a := by
  rintro ⟨p, x, y, l, r, h, _, _⟩; simp at h

theorem lt_trans : ∀ {a b c : List Nat}, Lt a b → Lt b c → Lt a c := by
  intro a
  induction a with
  | nil => intro b c h; exact absurd h nil_not_lt
  | cons x a ih =>
    intro b c h1 h2
    cases b with
    | nil => exact absurd h1 not_lt_nil
    | cons y b =>
      cases c with
      | nil => exact absurd h2 not_lt_nil
      | cons z c =>
        rw [lt_cons_iff] at h1 h2 ⊢
        rcases h1 with h1 | ⟨rfl, h1⟩
        · rcases h2 with h2 | ⟨rfl, h2⟩
          · left; omega
          · exact .inl h1
        · rcases h2 with h2 | ⟨rfl, h2⟩
          · exact .inl h2
          · exact .inr ⟨rfl, ih h1 h2⟩

/-! ## Computations that end -/

/-- `f n k` is the same for all large `n` and `k`, it is not `diverge`, and its value satisfies `Q`. -/
def Conv {α : Type} (f : Nat → Nat → Res α) (Q : α → Prop) : Prop :=
  ∃ N r, r ≠ .diverge ∧ (∀ n k, N ≤ n → N ≤ k → f n k = r) ∧ ∀ a, r = .ok a → Q a

theorem conv_ok {α : Type} {a : α} {Q : α → Prop} (h : Q a) : Conv (fun _ _ => .ok a) Q :=
  ⟨0, .ok a, by simp, fun _ _ _ _ => rfl, fun b e => by cases e; exact h⟩
theorem conv_fatal {α : Type} {Q : α → Prop} : Conv (fun _ _ => .fatal) Q := ⟨0, .fatal, by simp, fun _ _ _ _ => rfl, fun b e => by cases e⟩
theorem conv_ub {α : Type} {Q : α → Prop} : Conv (fun _ _ => .ub) Q := ⟨0, .ub, by simp, fun _ _ _ _ => rfl, fun b e => by cases e⟩
theorem conv_const {α : Type} {x : Res α} {Q : α → Prop} (hd : x ≠ .diverge) (h : ∀ a, x = .ok a → Q a) : Conv (fun _ _ => x) Q :=
  ⟨0, x, hd, fun _ _ _ _ => rfl, h⟩
theorem conv_mono {α : Type} {f : Nat → Nat → Res α} {Q R : α → Prop} (hf : Conv f Q) (h : ∀ a, Q a → R a) : Conv f R := by
  obtain ⟨N, r, h1, h2, h3⟩ := hf
  exact ⟨N, r, h1, h2, fun a e => h a (h3 a e)⟩
theorem conv_bind {α β : Type} {f : Nat → Nat → Res α} {g : α → Nat → Nat → Res β} {Q : α → Prop} {R : β → Prop}
    (hf : Conv f Q) (hg : ∀ a, Q a → Conv (g a) R) : Conv (fun n k => (f n k).bind fun a => g a n k) R := by
  obtain ⟨N, r, h1, h2, h3⟩ := hf
  cases r with
  | diverge => exact absurd rfl h1
  | ok a =>
    obtain ⟨M, s, g1, g2, g3⟩ := hg a (h3 a rfl)
    refine ⟨N + M, s, g1, fun n k hn hk => ?_, g3⟩
    dsimp only
    rw [h2 n k (by omega) (by omega), Res.bind_ok]
    exact g2 n k (by omega) (by omega)
  | fatal => exact ⟨N, .fatal, by simp, fun n k hn hk => by dsimp only; rw [h2 n k hn hk]; rfl, fun a e => by cases e⟩
  | ub => exact ⟨N, .ub, by simp, fun n k hn hk => by dsimp only; rw [h2 n k hn hk]; rfl, fun a e => by cases e⟩
theorem conv_diag {α : Type} {f : Nat → Nat → Res α} {Q : α → Prop} (h : Conv f Q) : Conv (fun n _ => f n n) Q := by
  obtain ⟨N, r, h1, h2, h3⟩ := h
  exact ⟨N, r, h1, fun n _ hn _ => h2 n n hn hn, h3⟩
theorem conv_succ {α : Type} {f : Nat → Nat → Res α} {Q : α → Prop} (h : Conv (fun n k => f n (k + 1)) Q) : Conv f Q := by
  obtain ⟨N, r, h1, h2, h3⟩ := h
  refine ⟨N + 1, r, h1, fun n k hn hk => ?_, h3⟩
  have := h2 n (k - 1) (by omega) (by omega)
  dsimp only at this
  rwa [Nat.sub_add_cancel (by omega)] at this
theorem conv_succ1 {α : Type} {f : Nat → Nat → Res α} {Q : α → Prop} (h : Conv (fun n k => f (n + 1) k) Q) : Conv f Q := by
  obtain ⟨N, r, h1, h2, h3⟩ := h
  refine ⟨N + 1, r, h1, fun n k hn hk => ?_, h3⟩
  have := h2 (n - 1) k (by omega) (by omega)
  dsimp only at this
  rwa [Nat.sub_add_cancel (by omega)] at this

/-! ## The measure -/

abbrev EOF : BTok := .tok .eof

def eofIn (fs : List Frame) : Bool := fs.any fun f => f.toks.contains EOF

/-- The frames below, from the bottom. -/
def lens (fs : List Frame) : List Nat := fs.reverse.map fun f => f.toks.length + 1

def base (st : St) : Nat := 2 * st.input.length + if eofIn (st.cur :: st.stack) then 0 else 1

def key (st : St) : List Nat := base st :: (lens st.stack ++ [st.cur.toks.length + 1])

/-- A frame on top. -/
def push (id : Option Name) (toks : List BTok) (args : List (List BTok)) (st : St) : St :=
  { st with cur := ⟨toks, args, id⟩, stack := st.cur :: st.stack }

def AllEmpty (fs : List Frame) : Prop := ∀ f ∈ fs, f.toks = []

/-- The end of the file is only kept in a frame of its own, when everything below has been used up. -/
def InvF (input : List Tok) : List Frame → Prop
  | [] => True
  | f :: r => (EOF ∉ f.toks ∨ (f.toks = [EOF] ∧ AllEmpty r ∧ input = [])) ∧ (∀ a ∈ f.args, EOF ∉ a) ∧ InvF input r

structure Inv (st : St) : Prop where
  src : Tok.eof ∉ st.input
  frames : InvF st.input (st.cur :: st.stack)
  depth : st.stack.length ≤ 59

def Dead (st : St) : Prop := st.input = [] ∧ st.cur.toks = [] ∧ AllEmpty st.stack

/-- What `get_tok` does to a state. -/
def Good (st : St) (p : BTok × St) : Prop :=
  Inv p.2 ∧ (p.1 ≠ EOF → Lt (key p.2) (key st)) ∧ (p.1 = EOF → Dead p.2 ∧ Lt (key (push none [EOF] [] p.2)) (key st))

theorem lens_cons (f : Frame) (fs : List Frame) : lens (f :: fs) = lens fs ++ [f.toks.length + 1] := by simp [lens]
theorem lens_length (fs : List Frame) : (lens fs).length = fs.length := by simp [lens]

theorem key_length {st : St} (h : Inv st) : (key st).length ≤ 61 := by
  have := h.depth
  simp [key, lens_length]; omega

theorem eofIn_cons (f : Frame) (fs : List Frame) : eofIn (f :: fs) = (f.toks.contains EOF || eofIn fs) := by simp [eofIn]

theorem eofIn_empty {fs : List Frame} (h : AllEmpty fs) : eofIn fs = false := by
  rw [eofIn, List.any_eq_false]
  intro f hf
  rw [h f hf]; simp

theorem not_contains {l : List BTok} (h : EOF ∉ l) : l.contains EOF = false := by
  cases hc : l.contains EOF with
  | false => rfl
  | true => exact absurd (List.contains_iff_mem.1 hc) h

/-- A frame without end of file on top. -/
theorem key_push {id : Option Name} {toks : List BTok} {args : List (List BTok)} {st : St} (h : EOF ∉ toks) :
    key (push id toks args st) = key st ++ [toks.length + 1] := by
  have e : eofIn ((push id toks args st).cur :: (push id toks args st).stack) = eofIn (st.cur :: st.stack) := by
    rw [push, eofIn_cons]; dsimp only; rw [not_contains h, Bool.false_or]
  rw [key, key, base, base, e]
  simp [push, lens_cons]

theorem lt_push {id : Option Name} {toks : List BTok} {args : List (List BTok)} {st : St} {k : List Nat} (h : EOF ∉ toks) (hl : Lt (key st) k) :
    Lt (key (push id toks args st)) k := by
  rw [key_push h]; exact lt_append_left hl _

/-- `begin_macro_expansion` of tokens without end of file. -/
theorem begin_conv {id : Option Name} {toks : List BTok} {args : List (List BTok)} {st : St} (hi : Inv st) (h : EOF ∉ toks) (ha : ∀ a ∈ args, EOF ∉ a) :
    Conv (fun _ _ => begin_exp id toks args st) fun st' => st' = push id toks args st ∧ Inv st' := by
  unfold begin_exp
  split
  · exact conv_fatal
  · rename_i hd
    refine conv_ok ⟨rfl, hi.src, ⟨.inl h, ha, hi.frames⟩, ?_⟩
    simp; omega

theorem begin_eof {st : St} (hi : Inv st) (hd : Dead st) :
    Conv (fun _ _ => begin_exp none [EOF] [] st) fun st' => st' = push none [EOF] [] st ∧ Inv st' := by
  unfold begin_exp
  split
  · exact conv_fatal
  · rename_i h
    refine conv_ok ⟨rfl, hi.src, ⟨.inr ⟨rfl, ?_, hd.1⟩, by simp, hi.frames⟩, by simp; omega⟩
    intro f hf
    rcases List.mem_cons.1 hf with rfl | hf
    · exact hd.2.1
    · exact hd.2.2 f hf

theorem inv_argExp {st : St} (h : Inv st) (b : Bool) : Inv { st with argExp := b } := ⟨h.src, h.frames, h.depth⟩
theorem inv_paste {st : St} (h : Inv st) (b : Bool) : Inv { st with paste := b } := ⟨h.src, h.frames, h.depth⟩

theorem inv_arg {st : St} (h : Inv st) {i : Nat} {a : List BTok} (e : get_macro_arg i st = .ok a) : EOF ∉ a := by
  unfold get_macro_arg at e
  split at e
  · cases e
    rename_i h1
    exact h.frames.2.1 _ (List.mem_of_getElem? h1)
  · split at e <;> cases e

theorem get_macro_arg_conv {st : St} (h : Inv st) (i : Nat) : Conv (fun _ _ => get_macro_arg i st) fun a => EOF ∉ a := by
  refine conv_const ?_ fun a e => inv_arg h e
  unfold get_macro_arg
  split
  · simp
  · split <;> simp

/-- The induction hypothesis. -/
def IH (D : Table) (k : List Nat) : Prop := ∀ st, Inv st → Lt (key st) k → ∀ em skip, Conv (fun n _ => get_tok D n em skip st) (Good st)

theorem small_ne (v : Int) : small v ≠ .diverge := by
  unfold small
  split
  · simp
  · split <;> simp
theorem paste_vals_conv (l r : BTok) : Conv (fun _ _ => paste_vals l r) fun v => r ≠ EOF ∧ (l ≠ EOF → v ≠ EOF) := by
  have hs : ∀ v, Conv (fun _ _ => small v) fun _ => True := fun v => conv_const (small_ne v) fun _ _ => trivial
  unfold paste_vals
  split
  · exact conv_ok ⟨by simp, by simp⟩
  · exact conv_bind (hs _) fun v _ => conv_ok ⟨by simp, by simp⟩
  · refine conv_bind (hs _) fun v _ => conv_bind (hs _) fun w _ => conv_bind (Q := fun _ => True) ?_ fun x _ => conv_ok ⟨by simp, by simp⟩
    refine conv_const ?_ fun _ _ => trivial
    unfold paste_integers; split <;> simp
  · exact conv_bind (hs _) fun v _ => conv_ok ⟨by simp, by simp⟩
  · split
    · exact conv_ub
    · exact conv_fatal

/-- `paste_tokens` with a left operand. -/
theorem paste_tokens_conv {D : Table} {l : BTok} (hl : l ≠ EOF) {st : St} (ih : IH D (key st))
    (hg : Conv (fun n _ => get_tok D n false false { st with argExp := false }) (Good { st with argExp := false })) :
    Conv (fun n _ => paste_tokens (get_tok D n) l st) fun p => p.1 ≠ EOF ∧ Inv p.2 ∧ Lt (key p.2) (key st) := by
  unfold paste_tokens
  refine conv_bind hg fun p hp => ?_
  obtain ⟨t, st1⟩ := p
  obtain ⟨h1, h2, h3⟩ := hp
  dsimp only at h1 h2 h3 ⊢
  cases t with
  | tok r =>
    dsimp only
    refine conv_bind (paste_vals_conv l (.tok r)) fun v hv => conv_ok ⟨hv.2 hl, inv_argExp h1 true, h2 hv.1⟩
  | arg i =>
    have hk1 : Lt (key { st1 with argExp := true }) (key st) := h2 (by simp)
    refine conv_bind (get_macro_arg_conv (inv_argExp h1 true) i) fun a ha => ?_
    split
    · exact conv_ok ⟨hl, inv_argExp h1 true, hk1⟩
    · refine conv_bind (g := fun s n _ => (get_tok D n false false s).bind fun p => (paste_vals l p.1).bind fun v => .ok (v, p.2))
        (begin_conv (inv_argExp h1 true) ha (by simp)) fun st2 hs2 => ?_
      obtain ⟨rfl, hi2⟩ := hs2
      refine conv_bind (ih _ hi2 (lt_push ha hk1) false false) fun p hp => ?_
      obtain ⟨r, st3⟩ := p
      obtain ⟨g1, g2, g3⟩ := hp
      dsimp only at g1 g2 g3 ⊢
      exact conv_bind (paste_vals_conv l r) fun v hv => conv_ok ⟨hv.2 hl, g1, lt_trans (g2 hv.1) (lt_push ha hk1)⟩

theorem stringify_conv {D : Table} {k : List Nat} (ih : IH D k) {st : St} (hi : Inv st) (hk : Lt (key st) k) :
    Conv (fun n _ => stringify (get_tok D n) st) fun p => p.1 ≠ EOF ∧ Inv p.2 ∧ Lt (key p.2) k := by
  unfold stringify
  refine conv_bind (ih _ (inv_argExp hi false) hk false false) fun p hp => ?_
  obtain ⟨t, st1⟩ := p
  obtain ⟨h1, h2, h3⟩ := hp
  dsimp only at h1 h2 h3 ⊢
  cases t with
  | tok r => exact conv_fatal
  | arg i =>
    have hk1 := lt_trans (h2 (by simp)) hk
    refine conv_bind (get_macro_arg_conv (inv_argExp h1 true) i) fun a ha => ?_
    split
    · exact conv_ub
    · exact conv_ok ⟨by simp, inv_argExp h1 true, hk1⟩
    · exact conv_ok ⟨by simp, inv_argExp h1 true, hk1⟩

/-- Reading one argument: `t` has been read. -/
theorem parse_arg_conv {D : Table} {k : List Nat} (ih : IH D k) (skip : Bool) {st : St} (hi : Inv st) (hk : Lt (key st) k) :
    ∀ (d : Nat) (t : BTok) (acc : List BTok), EOF ∉ acc →
    Conv (fun n m => parse_arg (get_tok D n) skip m d t acc st) fun p => EOF ∉ p.1 ∧ Inv p.2.2 ∧ (p.2.1 ≠ EOF → Lt (key p.2.2) k) := by
  have := lex_ind 61 (fun x => ∀ st, Inv st → Lt (key st) k → key st = x → ∀ (d : Nat) (t : BTok) (acc : List BTok), EOF ∉ acc →
    Conv (fun n m => parse_arg (get_tok D n) skip m d t acc st) fun p => EOF ∉ p.1 ∧ Inv p.2.2 ∧ (p.2.1 ≠ EOF → Lt (key p.2.2) k)) ?_ _ (key_length hi)
  · exact this st hi hk rfl
  · intro x _ ihx st hi hk hx d t acc hacc
    subst hx
    refine conv_succ ?_
    simp only [parse_arg]
    by_cases hc : (0 < d ∨ (t ≠ .tok (.op (.ch 44)) ∧ t ≠ .tok (.op (.ch 41)))) ∧ t ≠ .tok .eof
    · simp only [if_pos hc]
      refine conv_bind (f := fun n _ => get_tok D n false skip st) (g := fun p n m => parse_arg (get_tok D n) skip m _ p.1 _ p.2) (ih st hi hk false skip) fun p hp => ?_
      obtain ⟨t', st'⟩ := p
      obtain ⟨h1, h2, h3⟩ := hp
      dsimp only at h1 h2 h3 ⊢
      have hacc' : EOF ∉ acc ++ [t] := by
        simp; exact ⟨hacc, fun h => hc.2 h.symm⟩
      by_cases he : t' = EOF
      · subst he
        refine conv_succ ?_
        simp only [parse_arg]
        simp
        exact conv_ok ⟨by simpa using hacc', h1, fun h => absurd rfl h⟩
      · exact ihx _ (key_length h1) (lt_lex (h2 he)) st' h1 (lt_trans (h2 he) hk) rfl _ t' _ hacc'
    · simp only [if_neg hc]
      exact conv_ok ⟨hacc, hi, fun _ => hk⟩

/-- What `parse_arg` reads is less than what it starts from, if it starts at a token that belongs to the argument. -/
theorem parse_arg_lt {D : Table} {k : List Nat} (ih : IH D k) (skip : Bool) {st : St} (hi : Inv st) (hk : Lt (key st) k)
    (t : BTok) (ht : t ≠ .tok (.op (.ch 44)) ∧ t ≠ .tok (.op (.ch 41)) ∧ t ≠ EOF) :
    Conv (fun n m => parse_arg (get_tok D n) skip m 0 t [] st) fun p => EOF ∉ p.1 ∧ Inv p.2.2 ∧ (p.2.1 ≠ EOF → Lt (key p.2.2) (key st)) := by
  refine conv_succ ?_
  simp only [parse_arg]
  simp only [if_pos (show (0 < 0 ∨ (t ≠ .tok (.op (.ch 44)) ∧ t ≠ .tok (.op (.ch 41)))) ∧ t ≠ .tok .eof from ⟨.inr ⟨ht.1, ht.2.1⟩, ht.2.2⟩)]
  refine conv_bind (f := fun n _ => get_tok D n false skip st) (g := fun p n m => parse_arg (get_tok D n) skip m _ p.1 _ p.2) (ih st hi hk false skip) fun p hp => ?_
  obtain ⟨t', st'⟩ := p
  obtain ⟨h1, h2, h3⟩ := hp
  dsimp only at h1 h2 h3 ⊢
  have hacc' : EOF ∉ [] ++ [t] := by simp; exact fun h => ht.2.2 h.symm
  by_cases he : t' = EOF
  · subst he
    refine conv_succ ?_
    simp only [parse_arg]
    simp
    exact conv_ok ⟨by simpa using hacc', h1, fun h => absurd rfl h⟩
  · have ih' : IH D (key st) := fun s hs hl => ih s hs (lt_trans hl hk)
    exact parse_arg_conv ih' skip h1 (h2 he) _ t' _ hacc'

theorem macro_args_conv {D : Table} {k : List Nat} (ih : IH D k) (skip : Bool) {st : St} (hi : Inv st) (hk : Lt (key st) k) :
    ∀ (prev : Bool) (t : BTok) (args : List (List BTok)), (∀ a ∈ args, EOF ∉ a) →
    Conv (fun n m => macro_args (get_tok D n) skip m prev t args st) fun p => (∀ a ∈ p.1, EOF ∉ a) ∧ Inv p.2 ∧ Lt (key p.2) k := by
  have hpush : ∀ (b : Bool) (args : List (List BTok)), (∀ a ∈ args, EOF ∉ a) → ∀ a ∈ (if b then [] :: args else args), EOF ∉ a := by
    intro b args h a ha
    split at ha
    · rcases List.mem_cons.1 ha with rfl | ha
      · simp
      · exact h a ha
    · exact h a ha
  have := lex_ind 61 (fun x => ∀ st, Inv st → Lt (key st) k → key st = x → ∀ (prev : Bool) (t : BTok) (args : List (List BTok)), (∀ a ∈ args, EOF ∉ a) →
    Conv (fun n m => macro_args (get_tok D n) skip m prev t args st) fun p => (∀ a ∈ p.1, EOF ∉ a) ∧ Inv p.2 ∧ Lt (key p.2) k) ?_ _ (key_length hi)
  · exact this st hi hk rfl
  · intro x _ ihx st hi hk hx prev t args hargs
    subst hx
    refine conv_succ ?_
    simp only [macro_args]
    have step : ∀ (b : Bool) (t' : BTok) (args' : List (List BTok)) (st' : St), (∀ a ∈ args', EOF ∉ a) → Inv st' → (t' ≠ EOF → Lt (key st') (key st)) →
        Conv (fun n m => macro_args (get_tok D n) skip m b t' args' st') fun p => (∀ a ∈ p.1, EOF ∉ a) ∧ Inv p.2 ∧ Lt (key p.2) k := by
      intro b t' args' st' ha h1 h2
      by_cases he : t' = EOF
      · subst he
        refine conv_succ ?_
        simp only [macro_args]
        simp
        exact conv_fatal
      · exact ihx _ (key_length h1) (lt_lex (h2 he)) st' h1 (lt_trans (h2 he) hk) rfl _ t' _ ha
    by_cases c1 : t = .tok (.op (.ch 41))
    · simp only [if_pos c1]
      exact conv_ok ⟨hpush prev args hargs, hi, hk⟩
    · simp only [if_neg c1]
      by_cases c2 : t = .tok .eof
      · simp only [if_pos c2]; exact conv_fatal
      · simp only [if_neg c2]
        by_cases c3 : t = .tok (.op (.ch 44))
        · simp only [if_pos c3]
          refine conv_bind (f := fun n _ => get_tok D n false skip st) (g := fun p n m => macro_args (get_tok D n) skip m true p.1 _ p.2) (ih st hi hk false skip) fun p hp => ?_
          exact step true p.1 _ p.2 (hpush prev args hargs) hp.1 hp.2.1
        · simp only [if_neg c3]
          refine conv_bind (f := fun n m => parse_arg (get_tok D n) skip m 0 t [] st) (g := fun p n m => macro_args (get_tok D n) skip m false p.2.1 (p.1 :: args) p.2.2)
            (parse_arg_lt ih skip hi hk t ⟨c3, c1, c2⟩) fun p hp => ?_
          refine step false p.2.1 _ p.2.2 ?_ hp.2.1 hp.2.2
          intro a ha
          rcases List.mem_cons.1 ha with rfl | ha
          · exact hp.1
          · exact hargs a ha

/-- No body of a macro contains the end of the file. -/
def NoEof (D : Table) : Prop := ∀ m mac, D m = some mac → EOF ∉ mac.body

theorem attempt_conv {D : Table} (hD : NoEof D) {k : List Nat} (ih : IH D k) (em skip : Bool) {m : Name} {mac : Macro} (hm : D m = some mac) {st : St}
    (hi : Inv st) (hk : Lt (key st) k) :
    Conv (fun n j => attempt (get_tok D n) j em skip m mac st) fun p => p.1 ≠ some EOF ∧ Inv p.2 ∧ Lt (key p.2) k := by
  unfold attempt
  split
  · exact conv_ok ⟨by simp, hi, hk⟩
  · split
    · refine conv_bind (begin_conv hi (hD m mac hm) (by simp)) fun st' hs => ?_
      obtain ⟨rfl, h⟩ := hs
      exact conv_ok ⟨by simp, h, lt_push (hD m mac hm) hk⟩
    · rename_i c _
      refine conv_bind (f := fun n _ => get_tok D n em skip st) (g := fun (p : BTok × St) n j => if p.1 = .tok (.op (.ch 40)) then
        (get_macro_args_toks (get_tok D n) skip j c p.2).bind fun (args, st) => (begin_exp (some m) mac.body args st).bind fun st => .ok ((none : Option BTok), st)
        else (begin_exp none [p.1] [] p.2).bind fun st => .ok (some (.tok (.ident m)), st)) (ih st hi hk em skip) fun p hp => ?_
      obtain ⟨t, st1⟩ := p
      obtain ⟨h1, h2, h3⟩ := hp
      dsimp only at h1 h2 h3 ⊢
      by_cases c1 : t = .tok (.op (.ch 40))
      · simp only [if_pos c1]
        have hk1 := lt_trans (h2 (by rw [c1]; simp)) hk
        unfold get_macro_args_toks
        refine conv_bind (Q := fun (p : List (List BTok) × St) => (∀ a ∈ p.1, EOF ∉ a) ∧ Inv p.2 ∧ Lt (key p.2) k)
          (f := fun n j => (get_tok D n false skip st1).bind fun (t, st) => (macro_args (get_tok D n) skip j false t [] st).bind fun (args, st) =>
            if args.length = c then .ok (args, st) else .fatal) (g := fun p _ _ => (begin_exp (some m) mac.body p.1 p.2).bind fun st => .ok (none, st)) ?_ fun p hp => ?_
        · refine conv_bind (f := fun n _ => get_tok D n false skip st1) (g := fun p n j => (macro_args (get_tok D n) skip j false p.1 [] p.2).bind fun (args, st) =>
            if args.length = c then .ok (args, st) else .fatal) (ih st1 h1 hk1 false skip) fun p hp => ?_
          refine conv_bind (Q := fun (p : List (List BTok) × St) => (∀ a ∈ p.1, EOF ∉ a) ∧ Inv p.2 ∧ Lt (key p.2) k)
            (f := fun n j => macro_args (get_tok D n) skip j false p.1 [] p.2) (g := fun p _ _ => if p.1.length = c then .ok (p.1, p.2) else .fatal) ?_ fun p hp => ?_
          · by_cases he : p.1 = EOF
            · refine conv_succ ?_
              simp only [macro_args, he]
              simp
              exact conv_fatal
            · exact macro_args_conv ih skip hp.1 (lt_trans (hp.2.1 he) hk1) false p.1 [] (by simp)
          · split
            · exact conv_ok hp
            · exact conv_fatal
        · refine conv_bind (begin_conv hp.2.1 (hD m mac hm) hp.1) fun st' hs => ?_
          obtain ⟨rfl, h⟩ := hs
          exact conv_ok ⟨by simp, h, lt_push (hD m mac hm) hp.2.2⟩
      · simp only [if_neg c1]
        by_cases he : t = EOF
        · subst he
          refine conv_bind (begin_eof h1 (h3 rfl).1) fun st' hs => ?_
          obtain ⟨rfl, h⟩ := hs
          exact conv_ok ⟨by simp, h, lt_trans (h3 rfl).2 hk⟩
        · have hne : EOF ∉ [t] := by simp; exact fun h => he h.symm
          refine conv_bind (begin_conv h1 hne (by simp)) fun st' hs => ?_
          obtain ⟨rfl, h⟩ := hs
          exact conv_ok ⟨by simp, h, lt_push hne (lt_trans (h2 he) hk)⟩

/-- The result of continuing from a smaller state. -/
theorem good_of_lt {st st1 : St} {p : BTok × St} (h : Good st1 p) (hl : Lt (key st1) (key st)) : Good st p :=
  ⟨h.1, fun e => lt_trans (h.2.1 e) hl, fun e => ⟨(h.2.2 e).1, lt_trans (h.2.2 e).2 hl⟩⟩

theorem expand_ident_conv {D : Table} (hD : NoEof D) {st0 : St} (ih : IH D (key st0)) (em skip : Bool) (m : Name) {st : St}
    (hi : Inv st) (hk : Lt (key st) (key st0)) :
    Conv (fun n j => expand_ident D (get_tok D n) j em skip m st) (Good st0) := by
  unfold expand_ident
  split
  · exact conv_ok ⟨hi, fun _ => hk, fun h => by cases h⟩
  · rename_i mac hm
    refine conv_bind (g := fun p n _ => match p.1 with | none => get_tok D n em skip p.2 | some t => .ok (t, p.2)) (attempt_conv hD ih em skip hm hi hk) fun p hp => ?_
    obtain ⟨o, st1⟩ := p
    obtain ⟨h1, h2, h3⟩ := hp
    dsimp only at h1 h2 h3 ⊢
    cases o with
    | none => exact conv_mono (ih st1 h2 h3 em skip) fun q hq => good_of_lt hq h3
    | some t => exact conv_ok ⟨h2, fun _ => h3, fun h => absurd (congrArg some h) h1⟩

theorem replay_conv {D : Table} (hD : NoEof D) {st0 : St} (ih : IH D (key st0)) (em skip : Bool) {t : BTok} (ht : t ≠ EOF) {st : St}
    (hi : Inv st) (hk : Lt (key st) (key st0)) :
    Conv (fun n j => replay D (get_tok D n) j em skip t st) (Good st0) := by
  unfold replay
  split
  · exact expand_ident_conv hD ih em skip _ hi hk
  · rename_i i
    split
    · refine conv_bind (f := fun _ _ => get_macro_arg i st) (get_macro_arg_conv hi i) fun a ha => ?_
      refine conv_bind (g := fun s n _ => get_tok D n em skip s) (begin_conv hi ha (by simp)) fun st' hs => ?_
      obtain ⟨rfl, h⟩ := hs
      exact conv_mono (ih _ h (lt_push ha hk) em skip) fun q hq => good_of_lt hq (lt_push ha hk)
    · exact conv_ok ⟨hi, fun _ => hk, fun h => by cases h⟩
  · exact conv_mono (stringify_conv ih hi hk) fun p hp => ⟨hp.2.1, fun _ => hp.2.2, fun h => absurd h hp.1⟩
  · exact conv_ok ⟨hi, fun _ => hk, fun h => absurd h ht⟩

theorem invF_tail {input : List Tok} {f : Frame} {r : List Frame} (h : InvF input (f :: r)) : InvF input r := h.2.2

theorem invF_input {i i' : List Tok} (h : i = [] → i' = []) : ∀ {fs : List Frame}, InvF i fs → InvF i' fs
  | [], _ => trivial
  | _ :: _, ⟨h1, h2, h3⟩ => ⟨h1.imp id fun ⟨a, b, c⟩ => ⟨a, b, h c⟩, h2, invF_input h h3⟩

/-- A dead state delivers the end of the file. -/
theorem dead_tok (D : Table) : ∀ (fs : List Frame) (st : St), st.stack = fs → Dead st → ∀ em skip, Conv (fun n _ => get_tok D n em skip st) fun p => p.1 = EOF := by
  intro fs
  induction fs with
  | nil =>
    intro st hst hd em skip
    refine conv_succ1 ?_
    simp only [get_tok, hd.1, hd.2.1, hst]
    exact conv_ok rfl
  | cons f r ih =>
    intro st hst hd em skip
    refine conv_succ1 ?_
    simp only [get_tok, hd.2.1, hst]
    refine ih { st with cur := f, stack := r } rfl ⟨hd.1, ?_, ?_⟩ em skip
    · exact hd.2.2 f (by rw [hst]; simp)
    · exact fun g hg => hd.2.2 g (by rw [hst]; exact List.mem_cons_of_mem _ hg)

theorem paste_eof (D : Table) {st : St} (hd : Dead st) (Q : BTok × St → Prop) : Conv (fun n _ => paste_tokens (get_tok D n) EOF st) Q := by
  unfold paste_tokens
  refine conv_bind (dead_tok D _ { st with argExp := false } rfl hd false false) fun p hp => ?_
  obtain ⟨t, st1⟩ := p
  dsimp only at hp
  subst hp
  dsimp only
  simp [paste_vals, lowCode, Res.bind]
  exact conv_ub

/-- Removing a token from the current frame. -/
theorem consume {st : St} {t : BTok} {r : List BTok} (hi : Inv st) (hc : st.cur.toks = t :: r) (ht : t ≠ EOF) :
    Inv { st with cur := { st.cur with toks := r } } ∧ Lt (key { st with cur := { st.cur with toks := r } }) (key st) ∧ EOF ∉ r := by
  have hf := hi.frames
  have hn : EOF ∉ st.cur.toks := by
    rcases hf.1 with h | ⟨h, _⟩
    · exact h
    · rw [hc] at h; simp at h; exact absurd h.1 ht
  rw [hc] at hn
  have hr : EOF ∉ r := fun h => hn (by simp [h])
  refine ⟨⟨hi.src, ⟨.inl hr, hf.2.1, hf.2.2⟩, hi.depth⟩, ?_, hr⟩
  simp only [key, base]
  have e1 := not_contains hr
  have e2 := not_contains hn
  rw [eofIn_cons, eofIn_cons st.cur, hc, e2]
  dsimp only
  rw [e1]
  refine lt_cons _ ⟨lens st.stack, r.length + 1, (t :: r).length + 1, [], [], rfl, rfl, by simp⟩

/-- **Every call of `get_tok` ends.** -/
theorem get_tok_conv {D : Table} (hD : NoEof D) {st : St} (hi : Inv st) (em skip : Bool) : Conv (fun n _ => get_tok D n em skip st) (Good st) := by
  have := lex_ind 61 (fun x => ∀ st, Inv st → key st = x → ∀ em skip, Conv (fun n _ => get_tok D n em skip st) (Good st)) ?_ _ (key_length hi)
  · exact this st hi rfl em skip
  · clear hi st em skip
    intro x _ ihx st hi hx em skip
    subst hx
    have ih : IH D (key st) := fun s hs hl em skip => ihx _ (key_length hs) (lt_lex hl) s hs rfl em skip
    refine conv_succ1 ?_
    cases hc : st.cur.toks with
    | cons t r =>
      simp only [get_tok, hc]
      refine conv_diag (f := fun n j => (paste_step D (get_tok D n) t { st with cur := { st.cur with toks := r } }).bind fun p => replay D (get_tok D n) j em skip p.1 p.2) ?_
      by_cases ht : t = EOF
      · -- the end of the file
        subst ht
        have hf := hi.frames
        rcases hf.1 with h | ⟨h, hE, hin⟩
        · rw [hc] at h; exact absurd (by simp) h
        · rw [hc] at h
          simp at h
          subst h
          have hd : Dead { st with cur := { st.cur with toks := [] } } := ⟨hin, rfl, hE⟩
          refine conv_bind (Q := fun p => p = (EOF, { st with cur := { st.cur with toks := [] } })) ?_ fun p hp => ?_
          · simp only [paste_step]
            split
            · unfold ret_parent
              dsimp only
              split
              · exact conv_fatal
              · rename_i g fs hst
                simp only [Res.bind_ok]
                refine paste_eof D (st := { st with cur := g, stack := fs, paste := false }) ⟨hin, hE g (by rw [hst]; simp), fun q hq => hE q (by rw [hst]; simp [hq])⟩ _
            · exact conv_ok rfl
          · subst hp
            dsimp only [replay]
            refine conv_ok ⟨⟨hi.src, ⟨.inl (by simp), hf.2.1, hf.2.2⟩, hi.depth⟩, fun h => absurd rfl h, fun _ => ⟨hd, ?_⟩⟩
            dsimp only
            have e1 : eofIn (st.cur :: st.stack) = true := by rw [eofIn_cons, hc]; simp
            have e2 : ∀ s : St, eofIn ((push none [EOF] [] s).cur :: (push none [EOF] [] s).stack) = true := by
              intro s; rw [push, eofIn_cons]; simp
            rw [key, key, base, base, e1, e2]
            refine lt_cons _ ⟨lens st.stack, 1, 2, [2], [], by simp [push, lens_cons], by simp [hc], by omega⟩
      · obtain ⟨hi1, hk1, hr⟩ := consume hi hc ht
        refine conv_bind (Q := fun p => p.1 ≠ EOF ∧ Inv p.2 ∧ Lt (key p.2) (key st)) ?_ fun p hp => replay_conv hD ih em skip hp.1 hp.2.1 hp.2.2
        unfold paste_step
        dsimp only
        cases r with
        | nil =>
          dsimp only
          split
          · unfold ret_parent
            dsimp only
            split
            · exact conv_fatal
            · rename_i g fs hst
              simp only [Res.bind_ok]
              -- the empty frame is dropped
              have hi2 : Inv { st with cur := g, stack := fs, paste := false } := by
                refine ⟨hi.src, ?_, ?_⟩
                · have := invF_tail hi1.frames; rw [hst] at this; exact this
                · have := hi.depth; rw [hst] at this; simp at this ⊢; omega
              have hne : EOF ∉ st.cur.toks := by rw [hc]; simp; exact fun h => ht h.symm
              have hk2 : key st = key { st with cur := g, stack := fs, paste := false } ++ [2] := by
                have e : eofIn (st.cur :: st.stack) = eofIn (g :: fs) := by
                  rw [eofIn_cons st.cur, hst, not_contains hne, Bool.false_or]
                simp only [key, base]
                rw [e, hst, lens_cons, hc]
                rfl
              have ih2 : IH D (key { st with cur := g, stack := fs, paste := false }) := fun s hs hl => ih s hs (by rw [hk2]; exact lt_append_right hl _)
              refine conv_mono (paste_tokens_conv ht ih2 ?_) fun p hp => ⟨hp.1, hp.2.1, by rw [hk2]; exact lt_append_right hp.2.2 _⟩
              refine ihx _ (key_length (inv_argExp hi2 false)) ?_ _ (inv_argExp hi2 false) rfl false false
              rw [hk2]
              exact prefix_lex
          · exact conv_ok ⟨ht, hi1, hk1⟩
        | cons h r =>
          dsimp only
          split
          · rename_i hh
            subst hh
            have hc2 : ({ st with cur := { st.cur with toks := .tok (.op .hashHash) :: r } } : St).cur.toks = .tok (.op .hashHash) :: r := rfl
            obtain ⟨hi2, hk2, _⟩ := consume hi1 hc2 (by simp)
            split
            · exact conv_ok ⟨ht, inv_paste hi2 true, lt_trans hk2 hk1⟩
            · exact conv_mono (paste_tokens_conv ht (fun s hs hl => ih s hs (lt_trans hl (lt_trans hk2 hk1)))
                (ih _ (inv_argExp hi2 false) (lt_trans hk2 hk1) false false)) fun p hp => ⟨hp.1, hp.2.1, lt_trans hp.2.2 (lt_trans hk2 hk1)⟩
          · exact conv_ok ⟨ht, hi1, hk1⟩
    | nil =>
      cases hs : st.stack with
      | cons f r =>
        simp only [get_tok, hc, hs]
        have hi2 : Inv { st with cur := f, stack := r } := by
          refine ⟨hi.src, ?_, ?_⟩
          · have := invF_tail hi.frames; rw [hs] at this; exact this
          · have := hi.depth; rw [hs] at this; simp at this ⊢; omega
        have hk2 : key st = key { st with cur := f, stack := r } ++ [1] := by
          have e : eofIn (st.cur :: st.stack) = eofIn (f :: r) := by
            rw [eofIn_cons st.cur, hs, hc]; simp
          simp only [key, base]
          rw [e, hs, lens_cons, hc]
          rfl
        refine conv_mono (ihx _ (key_length hi2) (by rw [hk2]; exact prefix_lex) _ hi2 rfl em skip) fun p hp => ?_
        refine ⟨hp.1, fun h => ?_, fun h => ⟨(hp.2.2 h).1, ?_⟩⟩
        · rw [hk2]; exact lt_append_right (hp.2.1 h) _
        · rw [hk2]; exact lt_append_right (hp.2.2 h).2 _
      | nil =>
        cases hin : st.input with
        | nil =>
          simp only [get_tok, hc, hs, hin]
          refine conv_ok ⟨hi, fun h => absurd rfl h, fun _ => ⟨⟨hin, hc, by rw [hs]; intro f hf; simp at hf⟩, ?_⟩⟩
          refine lt_head ?_ _ _
          have e1 : eofIn (st.cur :: st.stack) = false := by rw [hs]; simp [eofIn, hc]
          rw [base, base, e1]
          simp [push, hin, eofIn]
        | cons t r =>
          have ht : t ≠ .eof := fun h => hi.src (by rw [hin, h]; simp)
          have hi2 : Inv { st with input := r } := by
            refine ⟨fun h => hi.src (by rw [hin]; simp [h]), ?_, hi.depth⟩
            have hf := hi.frames
            rw [hs] at hf ⊢
            exact ⟨.inl (by rw [hc]; simp), hf.2.1, trivial⟩
          have hk2 : Lt (key { st with input := r }) (key st) := by
            refine lt_head ?_ _ _
            rw [base, base, hin]
            simp only [List.length_cons]
            omega
          have e2 : ({ st with input := r } : St) = ⟨r, st.cur, [], st.paste, st.argExp⟩ := by rw [← hs]
          rw [e2] at hi2 hk2
          simp only [get_tok, hc, hs, hin]
          split
          · split
            · exact conv_mono (ih _ hi2 hk2 em skip) fun p hp => good_of_lt hp hk2
            · exact conv_ok ⟨hi2, fun _ => hk2, fun h => by cases h⟩
          · rename_i m
            split
            · refine conv_diag (f := fun n j => expand_ident D (get_tok D n) j em skip m ⟨r, st.cur, [], st.paste, st.argExp⟩) ?_
              exact expand_ident_conv hD ih em skip m hi2 hk2
            · exact conv_ok ⟨hi2, fun _ => hk2, fun h => by cases h⟩
          · exact conv_ok ⟨hi2, fun _ => hk2, fun h => absurd h (by simpa using ht)⟩

/-- The whole token stream is finite. -/
theorem expandF_conv {D : Table} (hD : NoEof D) {st : St} (hi : Inv st) : Conv (fun n _ => expandF D n st) fun _ => True := by
  have := lex_ind 61 (fun x => ∀ st, Inv st → key st = x → Conv (fun n _ => expandF D n st) fun _ => True) ?_ _ (key_length hi)
  · exact this st hi rfl
  · clear hi st
    intro x _ ihx st hi hx
    subst hx
    refine conv_succ1 ?_
    simp only [expandF]
    refine conv_bind (get_tok_conv hD hi true true) fun p hp => ?_
    obtain ⟨t, st1⟩ := p
    obtain ⟨h1, h2, h3⟩ := hp
    dsimp only at h1 h2 h3 ⊢
    split
    · exact conv_fatal
    · exact conv_ok trivial
    · rename_i h
      refine conv_bind (ihx _ (key_length h1) (lt_lex (h2 ?_)) st1 h1 rfl) fun ts _ => conv_ok trivial
      simpa using h

end Verif.Macro
