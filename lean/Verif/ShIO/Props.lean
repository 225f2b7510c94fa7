import Verif.ShIO.Step
/-! C16, C17 and C19. -/
namespace Verif.ShIO
open Verif Verif.ShHeap Verif.ShStr Verif.ShStr.Spec

theorem opens_det {fs A name flags d A1 A2} (h1 : Opens fs A name flags d A1) (h2 : Opens fs A name flags d A2) :
    A1 = A2 := by
  obtain ⟨-, -, -, h1⟩ := h1
  obtain ⟨-, -, -, h2⟩ := h2
  rcases h1 with ⟨h, b1, e1, rfl⟩ | ⟨h, rfl⟩ <;> rcases h2 with ⟨h', b2, e2, rfl⟩ | ⟨h', rfl⟩
  · rw [e1] at e2; cases e2; rfl
  · exact absurd h h'
  · exact absurd h' h
  · rfl

theorem opens_fd {fs A name flags d d' A1 A2} (h1 : Opens fs A name flags d A1)
    (h2 : Opens fs A name flags d' A2) : d = d' := by
  obtain ⟨-, h1, h1', -⟩ := h1
  obtain ⟨-, h2, h2', -⟩ := h2
  rcases Nat.lt_trichotomy d d' with h | h | h
  · exact absurd (h2' _ h) h1
  · exact h
  · exact absurd (h1' _ h) h2

theorem pop_det {s v r1 r2} (h1 : Pop s v r1) (h2 : Pop s v r2) : r1 = r2 := by
  cases s with
  | nil => rw [h1.2, h2.2]
  | cons b t => rw [h1.2, h2.2]

/-- The description of the calls leaves no choice. -/
theorem does_det {fs cell A op v A1 A2} (h1 : Does fs cell A op v A1) (h2 : Does fs cell A op v A2) :
    A1 = A2 := by
  cases op with
  | mem a => rw [show A1 = A from h1, show A2 = A from h2]
  | getchar =>
    obtain ⟨r1, p1, rfl⟩ := h1
    obtain ⟨r2, p2, rfl⟩ := h2
    rw [pop_det p1 p2]
  | putchar c =>
    obtain ⟨o1, p1, rfl⟩ := h1
    obtain ⟨o2, p2, rfl⟩ := h2
    rw [p1] at p2; cases p2; rfl
  | openFile name flags =>
    obtain ⟨d1, e1, p1⟩ := h1
    obtain ⟨d2, e2, p2⟩ := h2
    have := opens_fd p1 p2
    subst this
    exact opens_det p1 p2
  | closeFile d => rw [show A1 = _ from h1, show A2 = _ from h2]
  | readByte d =>
    obtain ⟨s1, r1, i1, p1, rfl⟩ := h1
    obtain ⟨s2, r2, i2, p2, rfl⟩ := h2
    rw [i1] at i2; cases i2
    rw [pop_det p1 p2]
  | write d buf n =>
    obtain ⟨-, o1, b1, p1, l1, c1, rfl⟩ := h1
    obtain ⟨-, o2, b2, p2, l2, c2, rfl⟩ := h2
    rw [p1] at p2; cases p2
    have : b1 = b2 := by
      refine List.ext_getElem (by omega) fun i hi hi' => ?_
      have := (c1 i hi).symm.trans (c2 i hi')
      injection this with this
      exact Int.ofNat.inj this
    rw [this]
  | read d buf n =>
    obtain ⟨s1, i1, -, rfl⟩ := h1
    obtain ⟨s2, i2, -, rfl⟩ := h2
    rw [i1] at i2; cases i2; rfl
  | fopen name w =>
    obtain ⟨d1, B1, o1, -, -, rfl⟩ := h1
    obtain ⟨d2, B2, o2, -, -, rfl⟩ := h2
    have := opens_fd o1 o2
    subst this
    rw [opens_det o1 o2]
  | fclose f =>
    obtain ⟨d1, B1, i1, p1, rfl⟩ := h1
    obtain ⟨d2, B2, i2, p2, rfl⟩ := h2
    rw [i1] at i2; cases i2
    rw [show B1 = _ from p1, show B2 = _ from p2]
  | fgetc f =>
    obtain ⟨d1, s1, r1, f1, i1, p1, rfl⟩ := h1
    obtain ⟨d2, s2, r2, f2, i2, p2, rfl⟩ := h2
    rw [f1] at f2; cases f2
    rw [i1] at i2; cases i2
    rw [pop_det p1 p2]

/-- Conditions on the world: the characters of the shell, files and standard input without NUL, and
`getchar` (allowed when `g`) compiled without `OPTIMIZE_LONG_LINES`. -/
structure World (e : Env) (fs : List Nat → Option (List Nat)) (g : Bool) (stdin : List Nat) : Prop where
  ord : OrdOk e.ord
  files : ∀ name bytes, fs name = some bytes → Plain bytes
  stdin : Plain stdin
  short : g = true → e.c.long = false

theorem hist_R {e fs g stdin io A L F} (W : World e fs g stdin) (h : Hist e fs g stdin io A L F) :
    R e g io A L F := by
  induction h with
  | start => exact init_ok e g stdin W.stdin W.short
  | call op h hal hs hd ih =>
    rename_i io A L F io' v A'
    obtain ⟨io2, v2, A2, e2, d2, r2, -⟩ := step_ok W.ord W.files ih op hal (by
      rintro a rfl
      simp only [step] at hs
      rw [Res.bind_eq_ok] at hs
      obtain ⟨h', e1, -⟩ := hs
      exact ⟨h', e1⟩)
    rw [hs] at e2
    cases e2
    rw [does_det hd d2]
    exact r2

/-- C16, C17, C19: at any point of any history, every allowed call succeeds and does what the C library
says: bytes are read in order and then -1, bytes are written in order, `open` gives the lowest
descriptor not in use, reading or writing one descriptor changes no other. -/
theorem C19_calls {e fs g stdin io A L F} (W : World e fs g stdin) (h : Hist e fs g stdin io A L F)
    (op : Op) (hal : OpAllowed e.ord fs g io.h.cell A L F op) (hm : ∀ a, op ≠ .mem a) :
    ∃ io' v A', step e fs printfOut io op = .ok (io', v) ∧ Does fs io.h.cell A op v A' := by
  obtain ⟨io', v, A', h1, h2, -⟩ := step_ok W.ord W.files (hist_R W h) op hal (fun a ha => absurd ha (hm a))
  exact ⟨io', v, A', h1, h2⟩

/-- C19: no call changes the program's memory, except `read` which fills the bytes it delivers. -/
theorem C19_frame {e fs g stdin io A L F io' v} (W : World e fs g stdin) (h : Hist e fs g stdin io A L F)
    (op : Op) (hal : OpAllowed e.ord fs g io.h.cell A L F op) (hm : ∀ a, op ≠ .mem a)
    (hs : step e fs printfOut io op = .ok (io', v)) {o : Obj} (ho : o ∈ L) {x : Int} (hx : o.has x)
    (hw : ¬ Writes A op x) : io'.h.cell x = io.h.cell x := by
  obtain ⟨io2, v2, A2, e2, -, -, hk⟩ := step_ok W.ord W.files (hist_R W h) op hal (fun a ha => absurd ha (hm a))
  rw [hs] at e2
  cases e2
  exact hk o ho x hx hw

/-- C16: `read(d, buf, n)` delivers the next `n` bytes of the stream, or all of them if fewer remain,
and returns their number. -/
theorem C16_read {e fs g stdin io A L F} (W : World e fs g stdin) (h : Hist e fs g stdin io A L F)
    {d : Nat} {buf : Int} {n : Nat} {s : List Nat}
    (hal : OpAllowed e.ord fs g io.h.cell A L F (.read d buf n)) (hd : A.input d = some s) :
    ∃ io', step e fs printfOut io (.read d buf n) = .ok (io', ((min n s.length : Nat) : Int)) ∧
      ∀ k (hk : k < s.length), k < n → io'.h.cell (buf + k) = some (s[k] : Int) := by
  obtain ⟨-, h2, o, ho', h3⟩ := hal
  obtain ⟨io', e1, -, hc, -⟩ := readLoop_ok W.ord h2 ho' buf n 0 (hist_R W h) hd (fun j _ hj => h3 j (by omega))
  refine ⟨io', by simpa [step] using e1, fun k hk hn => ?_⟩
  have := hc k hk hn
  rw [Nat.zero_add] at this
  exact this

/-- C19: the buffers of two open descriptors are disjoint pieces of memory, of at least 1000 cells. -/
theorem C19_buffers {e fs g stdin io A L F} (W : World e fs g stdin) (h : Hist e fs g stdin io A L F)
    {d d' : Nat} (hd : A.used d ∧ d ≠ 1 ∧ d ≠ 2) (hd' : A.used d' ∧ d' ≠ 1 ∧ d' ≠ 2) (hne : d ≠ d') :
    ∃ b b' n n', io.buffer d = some b ∧ io.buffer d' = some b' ∧ io.buflen d = some n ∧
      io.buflen d' = some n' ∧ 1000 ≤ n ∧ 1000 ≤ n' ∧ (b + n ≤ b' ∨ b' + n' ≤ b) := by
  obtain ⟨G, FG, bo, r⟩ := hist_R W h
  obtain ⟨a1, a2, a3, a4, a5, a6⟩ := r.bmem d hd
  obtain ⟨b1, b2, b3, b4, b5, b6⟩ := r.bmem d' hd'
  refine ⟨_, _, _, _, a5, b5, a6, b6, a3, b3, ?_⟩
  have hh := e.c.h_pos
  rcases pairwise_mem_or r.inv.sep a1 b1 with h | h
  · exact absurd h (r.binj d d' hd hd' hne)
  · unfold ShHeap.Sep at h; omega

/-- C19: no buffer shares a cell with an object of the program. -/
theorem C19_buffer_apart {e fs g stdin io A L F} (W : World e fs g stdin) (h : Hist e fs g stdin io A L F)
    {d : Nat} (hd : A.used d ∧ d ≠ 1 ∧ d ≠ 2) {o : Obj} (ho : o ∈ L) {b n : Int} (hb : io.buffer d = some b)
    (hn : io.buflen d = some n) (x : Int) (hx : o.has x) : ¬ (b ≤ x ∧ x < b + n) := by
  obtain ⟨G, FG, bo, r⟩ := hist_R W h
  obtain ⟨a1, a2, a3, a4, a5, a6⟩ := r.bmem d hd
  rw [a5] at hb; rw [a6] at hn
  cases hb; cases hn
  intro hy
  exact r.inv.disj a1 (r.sub o ho) (fun h => a2 (h ▸ ho)) (x := x) hy hx

/-- C19: a closed descriptor is available again: after `close(d)`, the next `open` gives a descriptor
not above `d`. -/
theorem C19_reuse {e fs g stdin io A L F} (W : World e fs g stdin) (h : Hist e fs g stdin io A L F)
    {d : Nat} (hal : OpAllowed e.ord fs g io.h.cell A L F (.closeFile d)) (name : List Nat) (flags : Int)
    (hf : flags = 0 → fs name ≠ none) (hfl : flags = 0 ∨ flags = 1 ∨ flags = 2) :
    ∃ io1 v1 io2 v2, step e fs printfOut io (.closeFile d) = .ok (io1, v1) ∧
      step e fs printfOut io1 (.openFile name flags) = .ok (io2, v2) ∧ 0 ≤ v2 ∧ v2 ≤ d := by
  obtain ⟨io1, v1, A1, e1, d1⟩ := C19_calls W h _ hal (by simp)
  have h1 := Hist.call _ h hal e1 d1
  have hnu : ¬ A1.used d := by
    rw [show A1 = _ from d1]; simp [Abs.used, upd]
  have hlt : d < 10 := by
    obtain ⟨G, FG, bo, r⟩ := hist_R W h
    exact r.lt d hal.1
  obtain ⟨io2, v2, A2, e2, d', rfl, h3, h4, h5, -⟩ := C19_calls W h1 (.openFile name flags) ⟨hf, hfl, d, hlt, hnu⟩ (by simp)
  refine ⟨io1, v1, io2, _, e1, e2, by omega, ?_⟩
  rcases Nat.lt_or_ge d d' with h | h
  · exact absurd (h5 d h) hnu
  · omega

/-! ### C16 -/

theorem expected_pop {s v r} (h : Pop s v r) (n : Nat) : expected s (n + 1) = v :: expected r n := by
  cases s with
  | nil =>
    rw [h.1, h.2]
    simp [expected, List.replicate_succ]
  | cons b t =>
    rw [h.1, h.2]
    simp only [expected, List.map_cons, List.cons_append, List.take_succ_cons]
    rw [List.replicate_succ', ← List.append_assoc, List.take_append_of_le_length (by simp)]
    rfl

/-- C16: at any point of a history, `n` successive `fgetc(f)` return the bytes not yet read of the file
behind `f`, then -1. -/
theorem C16_fgetc {e fs g stdin} (W : World e fs g stdin) {f : Int} {d : Nat} :
    ∀ (n : Nat) {io A L F s}, Hist e fs g stdin io A L F → A.file f = some d → A.input d = some s →
      repeated e fs (.fgetc f) n io = .ok (expected s n) := by
  intro n
  induction n with
  | zero => intros; simp [repeated, expected]
  | succ n ih =>
    intro io A L F s h hf hd
    have hal : OpAllowed e.ord fs g io.h.cell A L F (.fgetc f) := ⟨d, hf, by simp [hd]⟩
    obtain ⟨io', v, A', e1, d1⟩ := C19_calls W h _ hal (by simp)
    have h1 := Hist.call _ h hal e1 d1
    obtain ⟨d', s', r, f', i', p, rfl⟩ := d1
    rw [hf] at f'; cases f'
    rw [hd] at i'; cases i'
    have := ih h1 (s := r) hf (by simp [upd])
    simp only [repeated, e1, Res.bind_ok, this, expected_pop p]

/-- C16: the same for reading a descriptor byte by byte. -/
theorem C16_read_byte {e fs g stdin} (W : World e fs g stdin) {d : Nat} (hg : g = true → d ≠ 0) :
    ∀ (n : Nat) {io A L F s}, Hist e fs g stdin io A L F → A.input d = some s →
      repeated e fs (.readByte d) n io = .ok (expected s n) := by
  intro n
  induction n with
  | zero => intros; simp [repeated, expected]
  | succ n ih =>
    intro io A L F s h hd
    have hal : OpAllowed e.ord fs g io.h.cell A L F (.readByte d) := ⟨by simp [hd], hg⟩
    obtain ⟨io', v, A', e1, d1⟩ := C19_calls W h _ hal (by simp)
    have h1 := Hist.call _ h hal e1 d1
    obtain ⟨s', r, i', p, rfl⟩ := d1
    rw [hd] at i'; cases i'
    have := ih h1 (s := r) (by simp [upd])
    simp only [repeated, e1, Res.bind_ok, this, expected_pop p]

/-- C16: at any point of a history, `n` successive `getchar()` return what has not yet been read of the
standard input, then -1 (runtime without `OPTIMIZE_LONG_LINES`). -/
theorem C16_getchar {e fs stdin} (W : World e fs true stdin) :
    ∀ (n : Nat) {io A L F}, Hist e fs true stdin io A L F →
      repeated e fs .getchar n io = .ok (expected A.stdin n) := by
  intro n
  induction n with
  | zero => intros; simp [repeated, expected]
  | succ n ih =>
    intro io A L F h
    obtain ⟨io', v, A', e1, d1⟩ := C19_calls W h .getchar rfl (by simp)
    have h1 := Hist.call .getchar h rfl e1 d1
    obtain ⟨r, p, rfl⟩ := d1
    have := ih h1
    simp only [repeated, e1, Res.bind_ok, this, expected_pop p]

/-- C16 from the start of the program: the whole standard input. -/
theorem C16_getchar_all {e fs stdin} (W : World e fs true stdin) (n : Nat) :
    repeated e fs .getchar n (init e stdin) = .ok (expected stdin n) :=
  C16_getchar W n Hist.start

/-! `getchar` with `OPTIMIZE_LONG_LINES`. -/

/-- Invariant: what remains of the line is in the three buffers. -/
def LInv (g : GC) (tail stdin : List Nat) : Prop :=
  (g.b16 = [] ∧ g.fin = true ∧ g.b256 = [] ∧ g.ending = 0 ∧ stdin = tail ∧ NoLine16 tail) ∨
  (stdin = g.b16 ++ g.b256 ++ g.buf ++ (if g.ending = 10 then 10 :: tail else []) ∧
    (g.ending = 10 ∧ NoLine16 tail ∨ g.ending = -1 ∧ tail = []) ∧
    (g.fin = true → g.b256 = [] ∧ g.buf = []) ∧
    (g.fin = false → (g.b256.length + g.buf.length) % 16 ≠ 0 ∧ (g.buf = [] ∨ g.b256.length % 16 = 0)))

theorem NoLine16.rest {l r : List Nat} (h : NoLine16 (l ++ 10 :: r)) : NoLine16 r := by
  intro pre line post hs hpre hpost hl
  refine h (l ++ 10 :: pre) line post (by rw [hs]; simp) ?_ hpost hl
  right
  rcases hpre with rfl | ⟨p, rfl⟩
  · exact ⟨l, rfl⟩
  · exact ⟨l ++ 10 :: p, by simp⟩

theorem readLine_no : ∀ (rest l : List Nat) (o : Bool) (r : List Nat), readLine rest = (l, o, r) → 10 ∉ l := by
  intro rest
  induction rest with
  | nil => intro l o r h; simp [readLine] at h; rw [h.1]; simp
  | cons b t ih =>
    intro l o r h
    simp only [readLine] at h
    split at h
    · simp only [Prod.mk.injEq] at h
      rw [← h.1]; simp
    · rename_i hb
      obtain ⟨l', o', r', e⟩ : ∃ l', ∃ o' : Bool, ∃ r', readLine t = (l', o', r') := ⟨_, _, _, rfl⟩
      rw [e] at h
      simp only [Prod.mk.injEq] at h
      rw [← h.1]
      simp only [List.mem_cons, not_or]
      exact ⟨fun h => hb h.symm, ih _ _ _ e⟩

/-- Taking a character when there is one. -/
theorem takeLong_ok {e : Env} (ho : OrdOk e.ord) {g : GC} {tail stdin : List Nat} (hp : Plain stdin)
    (hs : stdin = g.b16 ++ g.b256 ++ g.buf ++ (if g.ending = 10 then 10 :: tail else []))
    (he : g.ending = 10 ∧ NoLine16 tail ∨ g.ending = -1 ∧ tail = [])
    (hfin : g.fin = true → g.b256 = [] ∧ g.buf = [] ∧ g.b16 ≠ [])
    (hnf : g.fin = false → (g.b256.length + g.buf.length) % 16 ≠ 0 ∧ (g.buf = [] ∨ g.b256.length % 16 = 0)) :
    ∃ g' v stdin', takeLong e g tail = (g', tail, v) ∧ Pop stdin v stdin' ∧ LInv g' tail stdin' ∧ v ≠ -1 := by
  obtain ⟨buf, b16, b256, ending, fin⟩ := g
  simp only at hs he hfin hnf
  unfold takeLong
  simp only
  cases b16 with
  | cons b t =>
    have h1 : ∀ x y, extractHead 16 (b :: t) x = y → y = (b :: t, x) := by
      intro x y h; simp [extractHead] at h; exact h.symm
    have h2 := extractHead_append 256 b256 buf
    have hb := hp b (by rw [hs]; simp)
    obtain ⟨p1, p2, hpp⟩ : ∃ p1 p2, extractHead 256 b256 buf = (p1, p2) := ⟨_, _, rfl⟩
    simp only [hpp] at h2 ⊢
    rw [h1 p1 _ rfl]
    simp only [List.tail_cons]
    refine ⟨_, _, t ++ b256 ++ buf ++ (if ending = 10 then 10 :: tail else []), rfl, ?_, .inr ?_, ?_⟩
    · rw [hs]; exact ⟨headChar_ok ho hb.1 hb.2, by simp⟩
    · simp only
      refine ⟨by rw [List.append_assoc t b256, List.append_assoc t p1, h2], he, ?_, ?_⟩
      · intro hf
        simp at hf
        obtain ⟨h3, h4, -⟩ := hfin hf
        subst h3 h4
        rw [List.append_nil] at h2
        exact List.append_eq_nil_iff.mp h2
      · intro hf
        simp at hf
        obtain ⟨h3, h4⟩ := hnf hf
        have hl := congrArg List.length h2
        simp only [List.length_append] at hl
        refine ⟨by rw [hl]; exact h3, ?_⟩
        unfold extractHead at hpp
        split at hpp
        · split at hpp
          · simp only [Prod.mk.injEq] at hpp
            right
            rw [← hpp.1, List.length_take]
            rename_i hlen
            rw [Nat.min_eq_left (by omega)]
          · simp only [Prod.mk.injEq] at hpp
            exact .inl hpp.2.symm
        · simp only [Prod.mk.injEq] at hpp
          rw [← hpp.1, ← hpp.2]; exact h4
    · rw [headChar_ok ho hb.1 hb.2]; omega
  | nil =>
    have hff : fin = false := by
      cases fin with
      | false => rfl
      | true => exact absurd rfl (hfin rfl).2.2
    subst hff
    obtain ⟨h3, h4⟩ := hnf rfl
    have h2 := extractHead_append 256 b256 buf
    obtain ⟨p1, p2, hpp⟩ : ∃ p1 p2, extractHead 256 b256 buf = (p1, p2) := ⟨_, _, rfl⟩
    have hj : p2 = [] ∨ p1.length % 16 = 0 ∧ p1 ≠ [] := by
      unfold extractHead at hpp
      split at hpp
      · split at hpp
        · rename_i hlen
          simp only [Prod.mk.injEq] at hpp
          right
          have : p1.length = 256 := by rw [← hpp.1, List.length_take]; omega
          refine ⟨by omega, ?_⟩
          rintro rfl
          simp at this
        · simp only [Prod.mk.injEq] at hpp
          exact .inl hpp.2.symm
      · rename_i hne
        simp only [Prod.mk.injEq] at hpp
        rw [← hpp.1, ← hpp.2]
        rcases h4 with h | h
        · exact .inl h
        · exact .inr ⟨h, hne⟩
    simp only [hpp] at h2 ⊢
    have hl := congrArg List.length h2
    simp only [List.length_append] at hl
    have hne : p1 ≠ [] := by
      rintro rfl
      rcases hj with rfl | h
      · simp at hl; omega
      · exact h.2 rfl
    obtain ⟨b, t, rfl⟩ : ∃ b t, p1 = b :: t := by
      cases p1 with
      | nil => exact absurd rfl hne
      | cons b t => exact ⟨b, t, rfl⟩
    have hbs : ∃ r, stdin = b :: r := by
      rw [hs]
      simp only [List.nil_append]
      rw [← h2]; exact ⟨_, rfl⟩
    obtain ⟨r, hbs⟩ := hbs
    have hb := hp b (by rw [hbs]; simp)
    have hr : r = t ++ p2 ++ (if ending = 10 then 10 :: tail else []) := by
      rw [hs] at hbs
      simp only [List.nil_append] at hbs
      rw [← h2] at hbs
      simp only [List.cons_append, List.cons.injEq, true_and] at hbs
      exact hbs.symm
    by_cases hlt : (b :: t).length < 16
    · have hx : extractHead 16 [] (b :: t) = (b :: t, []) := by
        have : ¬ (16 ≤ (b :: t).length) := by omega
        simp [extractHead]
        simp at this; omega
      rw [hx]
      simp only [hlt, and_true, if_true, List.tail_cons]
      have hp2 : p2 = [] := by
        rcases hj with h | h
        · exact h
        · simp at h hlt; omega
      subst hp2
      refine ⟨_, _, r, rfl, by rw [hbs]; exact ⟨headChar_ok ho hb.1 hb.2, rfl⟩, .inr ?_, ?_⟩
      · refine ⟨by simpa using hr, he, fun _ => ⟨rfl, rfl⟩, fun h => by simp at h⟩
      · rw [headChar_ok ho hb.1 hb.2]; omega
    · have hx : extractHead 16 [] (b :: t) = ((b :: t).take 16, (b :: t).drop 16) := by
        simp [extractHead]
        simp at hlt; omega
      rw [hx]
      simp only [hlt, and_false, if_false]
      refine ⟨_, _, r, rfl, by rw [hbs]; exact ⟨headChar_ok ho hb.1 hb.2, rfl⟩, .inr ?_, ?_⟩
      · simp only
        refine ⟨?_, he, fun h => by simp at h, fun _ => ⟨?_, ?_⟩⟩
        · rw [hr]
          have : t = (List.take 16 (b :: t)).tail ++ List.drop 16 (b :: t) := by
            simp
          rw [← this]
        · rw [List.length_drop]
          omega
        · rcases hj with h | h
          · exact .inl h
          · right
            rw [List.length_drop]; omega
      · have : headChar e (List.take 16 (b :: t)) = b := headChar_ok ho hb.1 hb.2
        rw [this]; omega

theorem getcharLong_ok {e : Env} (ho : OrdOk e.ord) {g : GC} {tail stdin : List Nat} (hp : Plain stdin)
    (h : LInv g tail stdin) :
    ∃ g' tail' v stdin', getcharLong e g tail = (g', tail', v) ∧ Pop stdin v stdin' ∧
      (stdin ≠ [] → LInv g' tail' stdin') := by
  rcases h with ⟨h1, h2, h3, h4, h5, h6⟩ | ⟨h1, h2, h3, h4⟩
  · unfold getcharLong
    simp only [h1, h2, h4, and_self, if_true, ne_eq, not_true, if_false]
    obtain ⟨l, o, r, hl⟩ : ∃ l , ∃ (o : Bool), ∃ r, readLine tail = (l, o, r) := ⟨_, _, _, rfl⟩
    obtain ⟨hs, hr⟩ := readLine_spec _ _ _ _ hl
    have hno := readLine_no _ _ _ _ hl
    simp only [hl]
    subst h5
    cases o with
    | true =>
      simp only [if_true] at hs
      have hl16 : l.length % 16 ≠ 0 := h6 [] l (10 :: r) (by simpa using hs) (.inl rfl) (.inr ⟨r, rfl⟩) hno
      have hlne : l ≠ [] := by rintro rfl; simp at hl16
      rw [if_pos rfl, if_neg hlne]
      obtain ⟨g', v, s', e1, p, L, -⟩ := takeLong_ok (e := e) ho (g := ⟨l, [], [], 10, false⟩) (tail := r) hp
        (by simpa using hs) (.inl ⟨rfl, (hs ▸ h6).rest⟩) (by simp)
        (by intro _; exact ⟨by simpa using hl16, .inr (by simp)⟩)
      refine ⟨g', r, v, s', ?_, p, fun _ => L⟩
      rw [← e1]
      simp [h3, h1, h4]
    | false =>
      have hr := hr rfl
      subst hr
      simp at hs
      subst hs
      rw [if_neg (by simp)]
      by_cases hle : stdin = []
      · rw [if_pos hle]
        exact ⟨_, _, _, _, rfl, by rw [hle]; exact ⟨rfl, rfl⟩, fun h => absurd hle h⟩
      · rw [if_neg hle]
        have hl16 : stdin.length % 16 ≠ 0 := h6 [] stdin [] (by simp) (.inl rfl) (.inl ⟨rfl, hle⟩) hno
        obtain ⟨g', v, s', e1, p, L, -⟩ := takeLong_ok (e := e) ho (g := ⟨stdin, [], [], -1, false⟩) (tail := []) hp
          (by simp) (.inr ⟨rfl, rfl⟩) (by simp)
          (by intro _; exact ⟨by simpa using hl16, .inr (by simp)⟩)
        refine ⟨g', [], v, s', ?_, p, fun _ => L⟩
        rw [← e1]
        simp [h3, h1, h4]
  · by_cases hc : g.b16 = [] ∧ g.fin = true
    · obtain ⟨h5, h6⟩ := h3 hc.2
      unfold getcharLong
      rw [if_pos hc]
      have : g.ending ≠ 0 := by
        rcases h2 with h | h <;> rw [h.1] <;> decide
      rw [if_pos this]
      rcases h2 with h | h
      · refine ⟨_, _, _, tail, rfl, ?_, fun _ => .inl ⟨hc.1, hc.2, h5, rfl, rfl, h.2⟩⟩
        rw [h1, hc.1, h5, h6, h.1]
        exact ⟨rfl, rfl⟩
      · have hnil : stdin = [] := by rw [h1, hc.1, h5, h6, h.1]; rfl
        refine ⟨_, _, _, [], rfl, ?_, fun hne => absurd hnil hne⟩
        rw [hnil, h.1]; exact ⟨rfl, rfl⟩
    · unfold getcharLong
      rw [if_neg hc]
      obtain ⟨g', v, s', e1, p, L, -⟩ := takeLong_ok (e := e) ho hp h1 h2
        (fun hf => ⟨(h3 hf).1, (h3 hf).2, fun hb => hc ⟨hb, hf⟩⟩) h4
      exact ⟨g', tail, v, s', e1, p, fun _ => L⟩

theorem expected_short {s : List Nat} {n : Nat} (h : n ≤ s.length + 1) :
    expected s n = (s.map Int.ofNat ++ [-1]).take n := by
  unfold expected
  rcases Nat.lt_or_ge n (s.length + 1) with hlt | hge
  · rw [List.take_append_of_le_length (by simp; omega), List.take_append_of_le_length (by simp; omega)]
  · have : n = s.length + 1 := by omega
    subst this
    rw [List.replicate_succ, List.take_append, List.take_append]
    simp

/-- C16, with `OPTIMIZE_LONG_LINES`, only for inputs in which no line (a last line without newline
included) has a length that is a multiple of 16, only up to the first -1, and for programs that do not
mix `getchar` with the other input functions. -/
theorem C16_getchar_long_partial {e : Env} (fs) {stdin : List Nat} (ho : OrdOk e.ord) (hp : Plain stdin)
    (hlong : e.c.long = true) (h16 : NoLine16 stdin) (n : Nat) (hn : n ≤ stdin.length + 1) :
    repeated e fs .getchar n (init e stdin) = .ok ((stdin.map Int.ofNat ++ [-1]).take n) := by
  rw [← expected_short hn]
  suffices h : ∀ (n : Nat) (io : IO) (stdin tail : List Nat), io.chan 0 = .rd tail → Plain stdin →
      LInv io.gc tail stdin → n ≤ stdin.length + 1 → repeated e fs .getchar n io = .ok (expected stdin n) from
    h n _ stdin stdin (by simp [init]) hp (.inl ⟨rfl, rfl, rfl, rfl, rfl, h16⟩) hn
  intro n
  induction n with
  | zero => intros; simp [repeated, expected]
  | succ n ih =>
    intro io stdin tail hc hp hL hn
    obtain ⟨g', tail', v, s', e1, p, L⟩ := getcharLong_ok ho hp hL
    have hstep : step e fs printfOut io .getchar =
        .ok ({ io with gc := g', chan := upd io.chan 0 (.rd tail') }, v) := by
      simp only [step, getchar, hc, hlong, if_true, e1]
    simp only [repeated, hstep, Res.bind_ok]
    cases n with
    | zero => simp [repeated, expected_pop p]; simp [expected]
    | succ n =>
      have hne : stdin ≠ [] := by
        rintro rfl
        simp at hn
      rw [ih { io with gc := g', chan := upd io.chan 0 (.rd tail') } s' tail' (by simp [upd]) (p.plain hp) (L hne) (by
        cases stdin with
        | nil => exact absurd rfl hne
        | cons b t => rw [p.2]; simpa using hn)]
      simp only [Res.bind_ok, expected_pop p]

/-! With `OPTIMIZE_LONG_LINES` the restrictions are needed. -/

/-- A configuration: `OPTIMIZE_LONG_LINES`, `set -u`. -/
def exLong : Env :=
  { c := { hdr := true, strict := true, long := true, compact := true, noInit := true }, ord := fun c => (c : Int), ord0 := 0 }
/-- The same without `OPTIMIZE_LONG_LINES`. -/
def exShort : Env :=
  { c := { hdr := true, strict := true, long := false, compact := true, noInit := true }, ord := fun c => (c : Int), ord0 := 0 }

/-- C16 fails for a line of 16 characters: after its last character `getchar` returns 256, not the
newline. -/
theorem C16_line16_false :
    repeated exLong (fun _ => none) .getchar 18 (init exLong (List.replicate 16 97 ++ [10])) =
      .ok (List.replicate 16 97 ++ [256, 10]) ∧
    expected (List.replicate 16 97 ++ [10]) 18 = List.replicate 16 97 ++ [10, -1] := by
  constructor <;> decide +kernel

/-- C16 fails after an empty line: `getchar` returns 256 before the characters of the next line. -/
theorem C16_empty_line_false :
    repeated exLong (fun _ => none) .getchar 4 (init exLong [10, 97, 10]) = .ok [10, 256, 97, 10] ∧
    expected [10, 97, 10] 4 = [10, 97, 10, -1] := by
  constructor <;> decide +kernel

/-- C16 fails after the end: `getchar` returns 256 between two -1. -/
theorem C16_after_eof_false :
    repeated exLong (fun _ => none) .getchar 3 (init exLong []) = .ok [-1, 256, -1] := by
  decide +kernel

/-- The results of a sequence of calls. -/
def results (e : Env) (fs : List Nat → Option (List Nat)) : List Op → IO → Res (List Int)
  | [], _ => .ok []
  | op :: ops, io => (step e fs printfOut io op).bind fun (io', v) =>
      (results e fs ops io').bind fun vs => .ok (v :: vs)

/-- C16 fails when `fgetc` is called (on another file, with descriptor 3) between two `getchar`: `getchar` loses what
was left of the line beyond the current 16 characters (standard input: `aaaaaaaaaaaaaaaabc`). -/
theorem C16_mixed_false :
    (results exLong (fun _ => some [120]) (.getchar :: .openFile [] 0 :: .readByte 3 :: List.replicate 17 .getchar)
      (init exLong (List.replicate 16 97 ++ [98, 99, 10]))) =
      .ok (97 :: 3 :: 120 :: (List.replicate 15 97 ++ [256, 10])) ∧
    (results exShort (fun _ => some [120]) (.getchar :: .openFile [] 0 :: .readByte 3 :: List.replicate 17 .getchar)
      (init exShort (List.replicate 16 97 ++ [98, 99, 10]))) =
      .ok (97 :: 3 :: 120 :: (List.replicate 15 97 ++ [98, 99])) := by
  constructor <;> decide +kernel

/-! ### C17 -/

/-- C17: `putchar(c)` for a byte `c` hands to `printf` a format that outputs exactly that byte. -/
theorem C17_putchar {c : Int} (h0 : 0 ≤ c) (h1 : c < 256) : printfOut (octalWord c) = some [c.toNat] :=
  octal_ok h0 h1

/-- C17: at any point of a history `putchar(c)` appends the byte to the standard output, nothing else. -/
theorem C17_putchar_out {e fs g stdin io A L F} (W : World e fs g stdin) (h : Hist e fs g stdin io A L F)
    {c : Int} (h0 : 0 ≤ c) (h1 : c < 256) :
    ∃ io' done, io.chan 1 = .wr done ∧ step e fs printfOut io (.putchar c) = .ok (io', 0) ∧
      io'.chan 1 = .wr (done ++ [c.toNat]) ∧ (∀ d, d ≠ 1 → io'.chan d = io.chan d) ∧ io'.h = io.h := by
  obtain ⟨G, FG, bo, r⟩ := hist_R W h
  cases ho : A.output 1 with
  | none => exact absurd ho r.out1
  | some out =>
    have hc := r.outs 1 out ho
    refine ⟨{ io with chan := upd io.chan 1 (.wr (out ++ [c.toNat])) }, out, hc, ?_, ?_, ?_, ?_⟩
    · simp only [step, putchar, hc, octal_ok h0 h1]
    · simp [upd]
    · intro d hd; simp [upd, hd]
    · rfl

/-- C17: printing a string of the memory prints its characters. -/
theorem C17_put_pstr (strict : Bool) {s : S} {a : Int} {str : List Nat} (h : StrAt s a str)
    (hp : Plain str) (fuel : Nat) (hf : str.length < fuel) :
    ∃ ws, putPstr strict s.cell fuel a = .ok ws ∧ (ws.mapM printfOut).map List.flatten = some str := by
  have key : ∀ (str : List Nat) (a : Int) (fuel : Nat), str.length < fuel → Plain str → StrAt s a str →
      putPstr strict s.cell fuel a = .ok (str.map fun b : Nat => octalWord (b : Int)) := by
    intro str
    induction str with
    | nil =>
      intro a fuel hf _ h
      obtain ⟨f, rfl⟩ : ∃ f, fuel = f + 1 := ⟨fuel - 1, by simp at hf; omega⟩
      have := h.2
      simp at this
      simp [putPstr, this, expand_some]
    | cons b t ih =>
      intro a fuel hf hp h
      obtain ⟨f, rfl⟩ : ∃ f, fuel = f + 1 := ⟨fuel - 1, by simp at hf; omega⟩
      have h0 := h.1 0 (by simp)
      simp at h0
      have hb := hp b (by simp)
      have := ih (a + 1) f (by simpa using hf) (fun x hx => hp x (List.mem_cons_of_mem _ hx)) (by
        refine ⟨?_, ?_⟩
        · intro i hi
          have := h.1 (i + 1) (by simpa using hi)
          rw [show a + 1 + (i : Int) = a + ((i + 1 : Nat) : Int) by omega, this]
          simp
        · have := h.2
          simp only [List.length_cons] at this
          rw [← this]; congr 1; omega)
      simp only [putPstr, h0, expand_some, Res.bind_ok, this, List.map_cons]
      rw [if_neg (by omega)]
  refine ⟨_, key str a fuel hf hp h, ?_⟩
  rw [mapM_octal str (fun b hb => (hp b hb).2)]
  simp [flatten_single]

/-- C17 does not extend to values outside 0..255: `putchar(-1)` (C: the byte 255) gives `printf` a
format that is not an octal escape. -/
theorem C17_negative_false : octalWord (-1) = [92, 48, 48, 45, 49] ∧
    printfOut (octalWord (-1)) = some [0, 45, 49] := by
  constructor <;> decide +kernel

/-! ### C19: what makes the script stop -/

/-- Closing the standard output under `set -u` ends the script: it has no buffer. -/
theorem C19_close1_false (fs) (stdin : List Nat) :
    step exShort fs printfOut (init exShort stdin) (.closeFile 1) = .fatal := by
  simp [step, closeFile, init, expand, exShort, Res.bind]

/-- Opening a file that does not exist ends the script instead of returning -1. -/
theorem C19_missing_false (stdin : List Nat) :
    step exShort (fun _ => none) printfOut (init exShort stdin) (.openFile [120] 0) = .fatal := by
  rfl

/-- The conditions on the world are met. -/
theorem exWorld : World exShort (fun _ => some [104, 105, 10]) true [97, 10] := by
  refine ⟨fun c _ _ => .inl rfl, ?_, by simp [Plain], fun _ => rfl⟩
  intro _ bytes h
  cases h
  simp [Plain]

/-- The conditions are met: a history with an open, a read, a write, a `getchar` and a `FILE *`. -/
example : ∃ io A L F, Hist exShort (fun _ => some [104, 105, 10]) true [97, 10] io A L F ∧
    A.input 3 = some [105, 10] ∧ A.output 1 = some [65] ∧ A.stdin = [10] ∧ (∃ f, A.file f = some 4) := by
  have W := exWorld
  have fresh : ∀ (A : Abs) d, A.input d = none → A.output d = none → ¬ A.used d := by
    intro A d h1 h2 h; rcases h with h | h <;> contradiction
  have h1 : OpAllowed exShort.ord (fun _ => some [104, 105, 10]) true (init exShort [97, 10]).h.cell
      (Abs.init true [97, 10]) [] [] (.openFile [] 0) :=
    ⟨by simp, .inl rfl, 3, by omega, fresh _ _ rfl rfl⟩
  obtain ⟨io1, v1, A1, e1, d1⟩ := C19_calls W Hist.start _ h1 (by simp)
  have H1 := Hist.call _ Hist.start h1 e1 d1
  obtain ⟨d, rfl, o1, o2, o3, o4⟩ := d1
  have hd3 : d = 3 := by
    rcases Nat.lt_trichotomy d 3 with h | h | h
    · exfalso
      have : d = 0 ∨ d = 1 ∨ d = 2 := by omega
      apply o2
      rcases this with rfl | rfl | rfl
      · exact .inl (by simp [Abs.init])
      · exact .inr (by simp [Abs.init])
      · exact .inr (by simp [Abs.init])
    · exact h
    · exact absurd (o3 3 h) (fresh _ _ rfl rfl)
  subst hd3
  have o4 := o4.resolve_right (fun h => h.1 rfl)
  obtain ⟨-, bytes, hb, rfl⟩ := o4
  cases hb
  have h2 : OpAllowed exShort.ord (fun _ => some [104, 105, 10]) true io1.h.cell
      { (Abs.init true [97, 10]) with input := upd (Abs.init true [97, 10]).input 3 (some [104, 105, 10]) }
      (opObjs (init exShort [97, 10]) io1 (.openFile [] 0) ++ []) (opFreed (.openFile [] 0) ++ []) (.readByte 3) :=
    ⟨by simp [upd], by simp⟩
  obtain ⟨io2, v2, A2, e2, d2⟩ := C19_calls W H1 _ h2 (by simp)
  have H2 := Hist.call _ H1 h2 e2 d2
  obtain ⟨s, r, hs, p, rfl⟩ := d2
  simp [upd] at hs
  subst hs
  obtain ⟨rfl, rfl⟩ := p
  obtain ⟨io3, v3, A3, e3, d3⟩ := C19_calls W H2 (.putchar 65) ⟨by decide, by decide, by simp [Abs.init]⟩ (by simp)
  have H3 := Hist.call (.putchar 65) H2 ⟨by decide, by decide, by simp [Abs.init]⟩ e3 d3
  obtain ⟨out, ho, rfl⟩ := d3
  simp [Abs.init] at ho
  subst ho
  obtain ⟨io4, v4, A4, e4, d4⟩ := C19_calls W H3 .getchar rfl (by simp)
  have H4 := Hist.call (.getchar) H3 rfl e4 d4
  obtain ⟨r, p, rfl⟩ := d4
  obtain ⟨rfl, rfl⟩ : v4 = 97 ∧ r = [10] := p
  have h5 : ∀ cell L F, OpAllowed exShort.ord (fun _ => some [104, 105, 10]) true cell
      { input := upd (upd (Abs.init true [97, 10]).input 3 (some [104, 105, 10])) 3 (some [105, 10]),
        output := upd (Abs.init true [97, 10]).output 1 (some ([] ++ [Int.toNat 65])), stdin := [10],
        file := (Abs.init true [97, 10]).file } L F (.fopen [] false) := by
    intro _ _ _
    exact ⟨by simp, 4, by omega, fresh _ _ rfl rfl⟩
  obtain ⟨io5, v5, A5, e5, d5⟩ := C19_calls W H4 _ (h5 _ _ _) (by simp)
  have H5 := Hist.call (.fopen [] false) H4 (h5 _ _ _) e5 d5
  obtain ⟨d, B, ⟨o1, o2, o3, o4⟩, -, -, rfl⟩ := d5
  have hd4 : d = 4 := by
    rcases Nat.lt_trichotomy d 4 with h | h | h
    · exfalso
      have : d = 0 ∨ d = 1 ∨ d = 2 ∨ d = 3 := by omega
      apply o2
      rcases this with rfl | rfl | rfl | rfl
      · exact .inl (by simp [Abs.init, upd])
      · exact .inr (by simp [Abs.init, upd])
      · exact .inr (by simp [Abs.init, upd])
      · exact .inl (by simp [upd])
    · exact h
    · exact absurd (o3 4 h) (fresh _ _ rfl rfl)
  subst hd4
  have o4 := o4.resolve_right (fun h => h.1 rfl)
  obtain ⟨-, bytes, hb, rfl⟩ := o4
  exact ⟨_, _, _, _, H5, by simp [upd], by simp [upd], rfl, v5, by simp [updZ]⟩

/-- An input that meets the condition of `C16_getchar_long_partial`, and one call more than its length. -/
example : repeated exLong (fun _ => none) .getchar 21 (init exLong (List.replicate 17 97 ++ [10, 98, 10])) =
    .ok (List.replicate 17 97 ++ [10, 98, 10, -1]) := by decide +kernel
end Verif.ShIO
