import Verif.ShStr.Model
import Verif.ShStr.Spec
/-! C09: string literals survive the trip through the shell script. -/
namespace Verif.ShStr
open Verif Verif.ShStr.Spec

/-! ### Characters -/

theorem table_ok : ∀ c : Fin 256, (isAlnum c.1 = true → (c2i.lookup c.1).getD 0 = (c.1 : Int)) ∧
    (∀ v, punct.lookup c.1 = some v → v = (c.1 : Int)) := by
  intro c
  have h : ∀ c : Fin 256, ((!isAlnum c.1) || ((c2i.lookup c.1).getD 0 == (c.1 : Int))) &&
      (match punct.lookup c.1 with | some v => v == (c.1 : Int) | none => true) = true := by
    decide +kernel
  have := h c
  simp only [Bool.and_eq_true, Bool.or_eq_true, beq_iff_eq, Bool.not_eq_true'] at this
  constructor
  · intro ha
    rcases this.1 with h1 | h1
    · rw [ha] at h1; cases h1
    · exact h1
  · intro v hv
    have h2 := this.2
    rw [hv] at h2
    simpa using h2

/-- `char_to_int` returns the code of every non-NUL byte. -/
theorem charToInt_ok {ord : Nat → Int} (ho : OrdOk ord) {c : Nat} (h1 : 1 ≤ c) (h2 : c < 256) :
    charToInt ord c = c := by
  have ht := table_ok ⟨c, h2⟩
  unfold charToInt
  split
  · rename_i h; exact ht.1 h
  · split
    · rename_i v hv; exact ht.2 v hv
    · rcases ho c h1 h2 with h | ⟨h, h'⟩
      · rw [if_pos (by omega), h]
      · rw [if_neg (by omega), h']; omega

/-! ### The chunked loop is the simple loop -/

def Bufs.content (b : Bufs) : List Nat := b.b16 ++ b.b256 ++ b.str

theorem extractHead_append (len : Nat) (s b : List Nat) :
    (extractHead len s b).1 ++ (extractHead len s b).2 = s ++ b := by
  unfold extractHead
  split
  · rename_i h; subst h
    split
    · simp
    · simp
  · rfl

theorem extractHead_nonempty {len : Nat} (hl : 0 < len) {s b : List Nat}
    (h : (extractHead len s b).1 = []) : s = [] ∧ b = [] := by
  unfold extractHead at h
  split at h
  · rename_i hs
    refine ⟨hs, ?_⟩
    split at h
    · rename_i hb
      cases b with
      | nil => rfl
      | cons x xs =>
        obtain ⟨k, rfl⟩ : ∃ k, len = k + 1 := ⟨len - 1, by omega⟩
        simp at h
    · exact h
  · rename_i hs; exact absurd h hs

theorem nextSub_content (b : Bufs) : (nextSub b).content = b.content := by
  have h1 := extractHead_append 256 b.b256 b.str
  have h2 := extractHead_append 16 b.b16 (extractHead 256 b.b256 b.str).1
  simp only [nextSub, Bufs.content]
  rw [h2, List.append_assoc, h1, List.append_assoc]

theorem nextSub_b16 {b : Bufs} (h : (nextSub b).b16 = []) : b.content = [] := by
  have h2 := extractHead_nonempty (by omega) (show (extractHead 16 b.b16 (extractHead 256 b.b256 b.str).1).1 = [] from h)
  have h1 := extractHead_nonempty (by omega) h2.2
  simp [Bufs.content, h2.1, h1.1, h1.2]

theorem unpackShort_plain (ord : Nat → Int) {c : Nat} (hc : c ≠ 92) (t : List Nat) :
    unpackShort ord (c :: t) = (unpackShort ord t).bind fun vs => .ok (charToInt ord c :: vs) := by
  rw [unpackShort.eq_def]
  simp only [if_neg hc]

/-- one step of the simple loop on the concatenated content -/
theorem handleEscaped_spec (ord : Nat → Int) (b : Bufs) (hb : b.b16 ≠ []) :
    (∃ v b', handleEscaped ord b = .ok (v, b') ∧ b'.content.length < b.content.length ∧
      unpackShort ord b.content = (unpackShort ord b'.content).bind fun vs => .ok (v :: vs)) ∨
    (handleEscaped ord b = .fatal ∧ unpackShort ord b.content = .fatal) := by
  obtain ⟨b16, b256, str⟩ := b
  cases b16 with
  | nil => exact absurd rfl hb
  | cons c t =>
    simp only [handleEscaped]
    by_cases hc : c = 92
    · subst hc
      rw [if_pos rfl]
      have key : ∀ b2 : Bufs, b2.content = t ++ b256 ++ str →
          (b2.b16 = [] → t ++ b256 ++ str = []) →
          (∃ v b', (match b2.b16 with
            | [] => Res.fatal
            | e :: t' => match escCode e with
              | some v => .ok (v, { b2 with b16 := t' })
              | none => .fatal) = .ok (v, b') ∧
              b'.content.length < (92 :: (t ++ b256 ++ str)).length ∧
            unpackShort ord (92 :: (t ++ b256 ++ str)) =
              (unpackShort ord b'.content).bind fun vs => .ok (v :: vs)) ∨
          ((match b2.b16 with
            | [] => Res.fatal
            | e :: t' => match escCode e with
              | some v => .ok (v, { b2 with b16 := t' })
              | none => .fatal) = .fatal ∧ unpackShort ord (92 :: (t ++ b256 ++ str)) = .fatal) := by
        intro b2 h1 h2
        cases h16 : b2.b16 with
        | nil =>
          right
          rw [h2 h16]
          exact ⟨rfl, by simp [unpackShort]⟩
        | cons e t' =>
          have hcont : t ++ b256 ++ str = e :: (t' ++ b2.b256 ++ b2.str) := by
            rw [← h1]; simp [Bufs.content, h16]
          rw [hcont]
          cases he : escCode e with
          | none => right; exact ⟨by simp [he], by simp [unpackShort, he]⟩
          | some v =>
            left
            refine ⟨v, { b2 with b16 := t' }, by simp [he], ?_, ?_⟩
            · simp [Bufs.content]; omega
            · simp [unpackShort, he, Bufs.content]
      by_cases ht : t = []
      · rw [if_pos ht]
        have hc2 := nextSub_content { b16 := t, b256 := b256, str := str }
        have := key (nextSub { b16 := t, b256 := b256, str := str }) hc2
          (fun h => nextSub_b16 (b := { b16 := t, b256 := b256, str := str }) h)
        exact this
      · rw [if_neg ht]
        have := key { b16 := t, b256 := b256, str := str } rfl (fun h => absurd h ht)
        exact this
    · rw [if_neg hc]
      left
      refine ⟨_, _, rfl, by simp [Bufs.content], ?_⟩
      exact unpackShort_plain ord hc _

theorem inner_spec (ord : Nat → Int) : ∀ (fuel : Nat) (b : Bufs), b.content.length < fuel →
    (∃ vs b', inner ord fuel b = .ok (vs, b') ∧ b'.b16 = [] ∧
      b'.content.length ≤ b.content.length ∧
      (b.b16 ≠ [] → b'.content.length < b.content.length) ∧
      unpackShort ord b.content = (unpackShort ord b'.content).bind fun ws => .ok (vs ++ ws)) ∨
    (inner ord fuel b = .fatal ∧ unpackShort ord b.content = .fatal) := by
  intro fuel
  induction fuel with
  | zero => intro b h; omega
  | succ f ih =>
    intro b hf
    simp only [inner]
    by_cases hb : b.b16 = []
    · left
      refine ⟨[], b, by simp [hb], hb, by omega, fun h => absurd hb h, ?_⟩
      cases unpackShort ord b.content <;> simp
    · rw [if_neg hb]
      rcases handleEscaped_spec ord b hb with ⟨v, b', e, hl, hu⟩ | ⟨e, hu⟩
      · rw [e]
        simp only [Res.bind_ok]
        rcases ih b' (by omega) with ⟨vs, b'', e2, h16, hl2, -, hu2⟩ | ⟨e2, hu2⟩
        · left
          refine ⟨v :: vs, b'', by rw [e2]; rfl, h16, by omega, fun _ => by omega, ?_⟩
          rw [hu, hu2, Res.bind_assoc]
          cases unpackShort ord b''.content <;> simp
        · right
          exact ⟨by rw [e2]; rfl, by rw [hu, hu2]; rfl⟩
      · right
        exact ⟨by rw [e]; rfl, hu⟩

theorem outer_spec (ord : Nat → Int) : ∀ (fuel : Nat) (b : Bufs), b.b16 = [] →
    b.content.length < fuel → outer ord fuel b = unpackShort ord b.content := by
  intro fuel
  induction fuel with
  | zero => intro b _ h; omega
  | succ f ih =>
    intro b h16 hf
    simp only [outer]
    by_cases hc : b.str = [] ∧ b.b256 = []
    · rw [if_pos hc]
      simp [Bufs.content, h16, hc.1, hc.2, unpackShort]
    · rw [if_neg hc]
      have hne : b.content ≠ [] := by
        intro h
        simp [Bufs.content, h16] at h
        exact hc ⟨h.2, h.1⟩
      have hn16 : (nextSub b).b16 ≠ [] := fun h => hne (nextSub_b16 h)
      rcases inner_spec ord (f + 1) (nextSub b) (by rw [nextSub_content]; omega) with
        ⟨vs, b', e, h16', -, hl, hu⟩ | ⟨e, hu⟩
      · rw [nextSub_content] at hl hu
        rw [e, hu]
        simp only [Res.bind_ok]
        rw [ih b' h16' (by have := hl hn16; omega)]
      · rw [nextSub_content] at hu
        rw [e, hu]; rfl

/-- The 16/256-character chunking (with escapes straddling chunk boundaries) is invisible. -/
theorem C09_chunking (ord : Nat → Int) (s : List Nat) : unpackLong ord s = unpackShort ord s := by
  have := outer_spec ord (s.length + 1) { b16 := [], b256 := [], str := s } rfl (by simp [Bufs.content])
  simpa [Bufs.content, unpackLong] using this

/-! ### Escape, shell quoting, unpack -/

theorem escape_trip {ord : Nat → Int} (ho : OrdOk ord) (c : Nat) (h : c < 256) :
    ∃ w, (∀ t, dquoted (escapeChar false c ++ t) = (dquoted t).map fun p => (w ++ p.1, p.2)) ∧
      (∀ t, unpackShort ord (w ++ t) = (unpackShort ord t).bind fun vs => .ok ((c : Int) :: vs)) := by
  by_cases h0 : c = 0
  · subst h0
    exact ⟨[92, 48], by intro t; simp [escapeChar, dquoted], by intro t; simp [unpackShort, escCode]⟩
  by_cases h7 : c = 7
  · subst h7
    exact ⟨[92, 97], by intro t; simp [escapeChar, dquoted], by intro t; simp [unpackShort, escCode]⟩
  by_cases h8 : c = 8
  · subst h8
    exact ⟨[92, 98], by intro t; simp [escapeChar, dquoted], by intro t; simp [unpackShort, escCode]⟩
  by_cases h12 : c = 12
  · subst h12
    exact ⟨[92, 102], by intro t; simp [escapeChar, dquoted], by intro t; simp [unpackShort, escCode]⟩
  by_cases h10 : c = 10
  · subst h10
    exact ⟨[92, 110], by intro t; simp [escapeChar, dquoted], by intro t; simp [unpackShort, escCode]⟩
  by_cases h13 : c = 13
  · subst h13
    exact ⟨[92, 114], by intro t; simp [escapeChar, dquoted], by intro t; simp [unpackShort, escCode]⟩
  by_cases h9 : c = 9
  · subst h9
    exact ⟨[92, 116], by intro t; simp [escapeChar, dquoted], by intro t; simp [unpackShort, escCode]⟩
  by_cases h11 : c = 11
  · subst h11
    exact ⟨[92, 118], by intro t; simp [escapeChar, dquoted], by intro t; simp [unpackShort, escCode]⟩
  by_cases h92 : c = 92
  · subst h92
    exact ⟨[92, 92], by intro t; simp [escapeChar, dquoted]; cases dquoted t <;> simp,
      by intro t; simp [unpackShort, escCode]⟩
  by_cases h36 : c = 36
  · subst h36
    refine ⟨[36], by intro t; simp [escapeChar, dquoted], ?_⟩
    intro t
    rw [List.cons_append, unpackShort_plain ord (by omega), charToInt_ok ho (by omega) (by omega)]
    rfl
  by_cases h96 : c = 96
  · subst h96
    refine ⟨[96], by intro t; simp [escapeChar, dquoted], ?_⟩
    intro t
    rw [List.cons_append, unpackShort_plain ord (by omega), charToInt_ok ho (by omega) (by omega)]
    rfl
  by_cases h34 : c = 34
  · subst h34
    refine ⟨[34], by intro t; simp [escapeChar, dquoted], ?_⟩
    intro t
    rw [List.cons_append, unpackShort_plain ord (by omega), charToInt_ok ho (by omega) (by omega)]
    rfl
  refine ⟨[c], ?_, ?_⟩
  · intro t
    have he : escapeChar false c = [c] := by
      simp [escapeChar, h0, h7, h8, h12, h10, h13, h9, h11, h92, h36, h96, h34]
    rw [he, List.cons_append, dquoted.eq_def]
    simp [h92, h36, h96, h34]
  · intro t
    rw [List.cons_append, unpackShort_plain ord h92, charToInt_ok ho (by omega) (by omega)]
    rfl

theorem string_trip {ord : Nat → Int} (ho : OrdOk ord) (bs : List Nat) (h : ∀ b ∈ bs, b < 256) :
    ∃ w, (∀ rest, dquoted (escapeString false bs ++ 34 :: rest) = some (w, rest)) ∧
      unpackShort ord w = .ok (bs.map Int.ofNat) ∧ bs.length ≤ w.length := by
  induction bs with
  | nil => exact ⟨[], by intro rest; simp only [escapeString, List.nil_append]; rw [dquoted.eq_def]; simp, rfl, by simp⟩
  | cons b bs ih =>
    obtain ⟨w, h1, h2, h3⟩ := ih (fun x hx => h x (by simp [hx]))
    obtain ⟨w', g1, g2⟩ := escape_trip ho b (h b (by simp))
    refine ⟨w' ++ w, ?_, ?_, ?_⟩
    · intro rest
      simp only [escapeString, List.append_assoc]
      rw [g1, h1]; rfl
    · rw [g2, h2]; rfl
    · have : w' ≠ [] := by
        intro he
        have := g2 []
        simp [he, unpackShort] at this
      have : 0 < w'.length := List.length_pos_iff.mpr this
      simp; omega

/-- **C09.** For every byte string `bs` (NULs included) and both configurations of the runtime: the
text the compiler prints between double quotes is read back by the shell as one literal word `w`,
ending exactly at the closing quote, and `defstr` on it into an unset variable stores in fresh memory
the bytes of `bs` followed by a terminating 0, changes no cell that was allocated before, and leaves
the variable pointing to the first byte. -/
theorem C09_string_literal {ord : Nat → Int} (ho : OrdOk ord) (long : Bool) (m : Mem)
    (bs rest : List Nat) (h : ∀ b ∈ bs, b < 256) :
    ∃ w, dquoted (escapeString false bs ++ 34 :: rest) = some (w, rest) ∧
      ∃ m' addr, defstr ord long m 0 w none = .ok (m', addr) ∧
        m.alloc < addr ∧ addr + bs.length < m'.alloc ∧
        (∀ i (hi : i < bs.length), m'.cell (addr + i) = (bs[i] : Int)) ∧
        m'.cell (addr + bs.length) = 0 ∧
        (∀ a, a < m.alloc → m'.cell a = m.cell a) := by
  obtain ⟨w, h1, h2, h3⟩ := string_trip ho bs h
  refine ⟨w, h1 rest, ?_⟩
  have hu : (if long then unpackLong ord w else unpackShort ord w) = .ok (bs.map Int.ofNat) := by
    split
    · rw [C09_chunking, h2]
    · exact h2
  refine ⟨Mem.mk (writeList (upd m.cell m.alloc (w.length + 1 : Nat)) (m.alloc + 1)
      (bs.map Int.ofNat ++ List.replicate (m.alloc + 1 + (w.length + 1) + 1 - (m.alloc + 1 + bs.length)) 0)) (m.alloc + (w.length + 1 + 1)), m.alloc + 1, ?_, by omega, ?_, ?_, ?_, ?_⟩
  · simp [defstr, unpackEscaped, malloc, hu]
  · simp only; omega
  · intro i hi
    simp only
    rw [writeList_get _ _ _ (by simp; omega)]
    rw [List.getElem_append_left (by simpa using hi)]
    simp
  · simp only
    rw [writeList_get _ _ _ (by simp; omega)]
    rw [List.getElem_append_right (by simp)]
    simp
  · intro a ha
    simp only
    rw [writeList_lt _ _ _ (by omega), upd_other _ _ (by omega)]

/-- **C09, sized form** (`char s[N] = "..."`, with room for the terminator): the rest of the array is
zero up to its size, and nothing allocated before is touched. -/
theorem C09_sized {ord : Nat → Int} (ho : OrdOk ord) (long : Bool) (m : Mem)
    (bs rest : List Nat) (h : ∀ b ∈ bs, b < 256) (size : Nat) (hs : bs.length < size) :
    ∃ w, dquoted (escapeString false bs ++ 34 :: rest) = some (w, rest) ∧
      ∃ m' addr, defstr ord long m 0 w (some size) = .ok (m', addr) ∧
        m.alloc < addr ∧ m'.alloc = addr + size ∧
        (∀ i (hi : i < bs.length), m'.cell (addr + i) = (bs[i] : Int)) ∧
        (∀ i, bs.length ≤ i → i < size → m'.cell (addr + i) = 0) ∧
        (∀ a, a < m.alloc → m'.cell a = m.cell a) := by
  obtain ⟨w, h1, h2, h3⟩ := string_trip ho bs h
  refine ⟨w, h1 rest, ?_⟩
  have hu : (if long then unpackLong ord w else unpackShort ord w) = .ok (bs.map Int.ofNat) := by
    split
    · rw [C09_chunking, h2]
    · exact h2
  refine ⟨Mem.mk (writeList (upd m.cell m.alloc (size : Nat)) (m.alloc + 1)
      (bs.map Int.ofNat ++ List.replicate (m.alloc + 1 + size + 1 - (m.alloc + 1 + bs.length)) 0)) (m.alloc + (size + 1)), m.alloc + 1, ?_, by omega, ?_, ?_, ?_, ?_⟩
  · simp [defstr, unpackEscaped, malloc, hu]
  · simp only; omega
  · intro i hi
    simp only
    rw [writeList_get _ _ _ (by simp; omega)]
    rw [List.getElem_append_left (by simpa using hi)]
    simp
  · intro i h1 h2
    simp only
    rw [writeList_get _ _ _ (by simp; omega)]
    rw [List.getElem_append_right (by simpa using h1)]
    simp
  · intro a ha
    simp only
    rw [writeList_lt _ _ _ (by omega), upd_other _ _ (by omega)]

/-- A second `defstr` on an already defined variable does nothing. -/
theorem C09_defstr_once (ord : Nat → Int) (long : Bool) (m : Mem) (var : Nat) (hv : var ≠ 0)
    (s : List Nat) (sz : Option Nat) : defstr ord long m var s sz = .ok (m, var) := by
  simp [defstr, hv]

/-! Non-vacuity: the C string `a$b"\` newline é, signed-char shell. -/
example : OrdOk (fun c => if c < 128 then (c : Int) else (c : Int) - 256) := by
  intro c h1 h2
  by_cases h : c < 128
  · left; simp [h]
  · right; simp [h]; omega
example : escapeString false [97, 36, 34, 92, 10, 233] =
    [97, 92, 36, 92, 34, 92, 92, 92, 92, 92, 110, 233] := by decide
example : unpackLong (fun c => (c : Int)) ((List.replicate 15 97) ++ [92, 110, 98]) =
    .ok (List.replicate 15 97 ++ [10, 98]) := by decide +kernel

end Verif.ShStr
