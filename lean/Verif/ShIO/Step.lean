import Verif.ShIO.Refine
/-! Closing, `FILE *`s, and one step of a program. -/
namespace Verif.ShIO
open Verif Verif.ShHeap Verif.ShStr Verif.ShStr.Spec

/-- Freeing an object of the runtime that the view no longer uses. -/
theorem RG.release {e g io A L F G FG bo} (r : RG e g io A L F G FG bo) {o : Obj} (ho : o ∈ G)
    (hoL : o ∉ L) (hF : e.c.hdr = true → o.base ∉ FG)
    (hb : ∀ d, A.buffered d → bo d ≠ o) (hf : ∀ f d, A.file f = some d → (⟨f, 1⟩ : Obj) ≠ o) :
    ∃ h1, free e.c io.h (.var dummyVar) o.base = .ok h1 ∧
      RG e g { io with h := h1 } A L F G (o.base :: FG) bo ∧ ∀ q ∈ L, Kept io.h h1 q := by
  obtain ⟨h1, e1, I1, al1, vr1, fr1, -⟩ := free_inv (d := .var dummyVar) r.inv ho rfl hF trivial
  have hK : ∀ q ∈ G, q ≠ o → Kept io.h h1 q := fun q hq hne x hx => fr1 q hq hne x hx (by simp)
  have hFG : e.c.hdr = true → ∀ q ∈ G, q ≠ o → q.base ∉ FG → q.base ∉ o.base :: FG := by
    intro hc q hq hne hF hm
    rcases List.mem_cons.mp hm with h | h
    · exact ShHeap.Inv.base_ne r.inv hc hq ho hne h
    · exact hF h
  refine ⟨h1, e1, ⟨I1, r.sub, ?_, ?_, ?_, r.binj, r.st, r.lt, r.out1, r.out2, r.excl, ?_, r.finj, ?_, r.outs, r.get, r.short⟩,
    fun q hq => hK q (r.sub q hq) (fun h => hoL (h ▸ hq))⟩
  · intro p hp
    rcases List.mem_cons.mp hp with rfl | hp
    · exact ⟨o, ho, rfl⟩
    · exact r.fG p hp
  · intro hc q hq hqF
    exact hFG hc q (r.sub q hq) (fun h => hoL (h ▸ hq)) (r.live hc q hq hqF)
  · intro d hd
    obtain ⟨h1, h2, h3, h4, h5, h6⟩ := r.bmem d hd
    exact ⟨h1, h2, h3, fun hc => hFG hc _ h1 (hb d hd) (h4 hc), h5, h6⟩
  · intro f d hfd
    obtain ⟨h1, h2, h3, h4, h5, h6⟩ := r.files f d hfd
    refine ⟨h1, h2, fun hc => hFG hc _ h1 (hf f d hfd) (h3 hc), ?_, h5, h6⟩
    rw [← h4]
    exact hK _ h1 (hf f d hfd) f ⟨by simp, by simp only; omega⟩
  · intro d s hd hg
    have hbd := r.input_buffered hd
    exact (r.data d s hd hg).kept (hK _ (r.bmem d hbd).1 (hb d hbd)) rfl rfl

/-- The view with a descriptor closed. -/
def Abs.close (A : Abs) (d : Nat) : Abs :=
  { A with input := upd A.input d none, output := upd A.output d none }

/-- Forgetting a descriptor. -/
theorem RG.forget {e g io A L F G FG bo} (r : RG e g io A L F G FG bo) {d : Nat} (hb : A.buffered d)
    (hg : g = true → d ≠ 0) (hf : ∀ f, A.file f ≠ some d) :
    RG e g { io with state := upd io.state d (-1), chan := upd io.chan d .closed } (A.close d) L F G FG bo := by
  have hused : ∀ x, (A.close d).used x ↔ (A.used x ∧ x ≠ d) := by
    intro x
    unfold Abs.used Abs.close
    by_cases hx : x = d
    · subst hx; simp [upd]
    · simp [upd, hx]
  have hbf : ∀ x, (A.close d).buffered x → A.buffered x ∧ x ≠ d := by
    intro x ⟨h1, h2⟩
    exact ⟨⟨((hused x).mp h1).1, h2⟩, ((hused x).mp h1).2⟩
  have hio : ∀ x, x ≠ d → (A.close d).input x = A.input x ∧ (A.close d).output x = A.output x := by
    intro x hx; simp [Abs.close, upd, hx]
  have hd : (A.close d).input d = none ∧ (A.close d).output d = none := by simp [Abs.close, upd]
  refine ⟨r.inv, r.sub, r.fG, r.live, fun x hx => r.bmem x (hbf x hx).1,
    fun x y hx hy => r.binj x y (hbf x hx).1 (hbf y hy).1, ?_, fun x hx => r.lt x ((hused x).mp hx).1,
    ?_, ?_, ?_, ?_, r.finj, ?_, ?_, ?_, r.short⟩
  · intro x
    rw [hused]
    by_cases hx : x = d
    · subst hx; simp [upd]
    · simp only [upd_other _ _ hx]
      rw [r.st x]
      simp [hx]
  · rw [(hio 1 (Ne.symm hb.2.1)).2]; exact r.out1
  · rw [(hio 2 (Ne.symm hb.2.2)).2]; exact r.out2
  · intro x hx
    by_cases hxd : x = d
    · subst hxd; exact absurd hd.1 hx
    · rw [(hio x hxd).1] at hx; rw [(hio x hxd).2]; exact r.excl x hx
  · intro f x hfx
    obtain ⟨h1, h2, h3, h4, h5, h6⟩ := r.files f x hfx
    refine ⟨h1, h2, h3, h4, ⟨(hused x).mpr ⟨h5.1, ?_⟩, h5.2⟩, h6⟩
    rintro rfl
    exact hf f hfx
  · intro x s hx hgx
    by_cases hxd : x = d
    · subst hxd; rw [hd.1] at hx; cases hx
    · rw [(hio x hxd).1] at hx
      exact (r.data x s hx hgx).kept (fun _ _ => rfl) rfl (upd_other _ _ hxd)
  · intro x o hx
    by_cases hxd : x = d
    · subst hxd; rw [hd.2] at hx; cases hx
    · rw [(hio x hxd).2] at hx
      simp only [upd_other _ _ hxd]
      exact r.outs x o hx
  · intro hgt
    obtain ⟨h1, h2, tail, h3, h4⟩ := r.get hgt
    refine ⟨(hused 0).mpr ⟨h1, Ne.symm (hg hgt)⟩, h2, tail, ?_, h4⟩
    simp only [upd_other _ _ (Ne.symm (hg hgt))]
    exact h3

theorem closeFile_ok {e g io A L F} (r : R e g io A L F) {d : Nat} (hb : A.buffered d)
    (hg : g = true → d ≠ 0) (hf : ∀ f, A.file f ≠ some d) :
    ∃ io', closeFile e io d = .ok (io', 0) ∧ R e g io' (A.close d) L F ∧ ∀ o ∈ L, Kept io.h io'.h o := by
  obtain ⟨G, FG, bo, r⟩ := r
  obtain ⟨b1, b2, b3, b4, b5, b6⟩ := r.bmem d hb
  have r1 := r.forget hb hg hf
  have hne : ∀ x, (A.close d).buffered x → bo x ≠ bo d := by
    intro x hx
    have hxd : x ≠ d := by
      rintro rfl
      have := hx.1
      simp [Abs.used, Abs.close, upd] at this
    have : A.buffered x := by
      refine ⟨?_, hx.2⟩
      have := hx.1
      unfold Abs.used Abs.close at this
      simp only [upd_other _ _ hxd] at this
      exact this
    exact r.binj x d this hb hxd
  obtain ⟨h1, e1, r2, hk⟩ := r1.release b1 b2 b4 hne (by
    intro f x _ h
    rw [← h] at b3
    simp at b3)
  unfold closeFile
  simp only [b5, expand_some, Res.bind_ok]
  simp only at e1
  rw [e1]
  exact ⟨_, rfl, ⟨G, _, bo, r2⟩, hk⟩

theorem RG.dropFile {e g io A L F G FG bo} (r : RG e g io A L F G FG bo) (f : Int) :
    RG e g io { A with file := updZ A.file f none } L F G FG bo := by
  refine ⟨r.inv, r.sub, r.fG, r.live, r.bmem, r.binj, r.st, r.lt, r.out1, r.out2, r.excl, ?_, ?_, r.data, r.outs, r.get, r.short⟩
  · intro f' d h
    simp only [updZ] at h
    split at h
    · cases h
    · exact r.files f' d h
  · intro f1 f2 d h1 h2
    simp only [updZ] at h1 h2
    split at h1
    · cases h1
    · split at h2
      · cases h2
      · exact r.finj f1 f2 d h1 h2

theorem fclose_ok {e g io A L F} (r : R e g io A L F) {f : Int} {d : Nat} (hf : A.file f = some d) :
    ∃ io', fclose e io f = .ok (io', 0) ∧
      R e g io' { (A.close d) with file := updZ (A.close d).file f none } L F ∧ ∀ o ∈ L, Kept io.h io'.h o := by
  obtain ⟨G, FG, bo, r⟩ := r
  obtain ⟨h1, h2, h3, h4, h5, h6⟩ := r.files f d hf
  have r1 := r.dropFile f
  obtain ⟨h', e1, r2, hk⟩ := r1.release (o := ⟨f, 1⟩) h1 h2 h3 (by
      intro x hx h
      have := (r.bmem x hx).2.2.1
      rw [h] at this
      simp at this) (by
      intro f' x hx h
      simp only [updZ] at hx
      split at hx
      · cases hx
      · rename_i hne
        exact hne (congrArg Obj.base h))
  unfold fclose
  simp only [h4, expand_some, Res.bind_ok]
  rw [e1]
  simp only [Res.bind_ok]
  obtain ⟨io', e2, r3, hk2⟩ := closeFile_ok (d := d) ⟨G, _, bo, r2⟩ h5 h6 (by
    intro f' hx
    simp only [updZ] at hx
    split at hx
    · cases hx
    · rename_i hne
      exact hne (r.finj f' f d hx hf))
  exact ⟨io', e2, r3, fun o ho x hx => (hk2 o ho x hx).trans (hk o ho x hx)⟩

theorem fgetc_ok {e g io A L F} (ho : OrdOk e.ord) (r : R e g io A L F) {f : Int} {d : Nat} {s : List Nat}
    (hf : A.file f = some d) (hd : A.input d = some s) :
    ∃ io' v s', fgetc e io f = .ok (io', v) ∧ Pop s v s' ∧
      R e g io' { A with input := upd A.input d (some s') } L F ∧ ∀ o ∈ L, Kept io.h io'.h o := by
  have r' := r
  obtain ⟨G, FG, bo, rr⟩ := r'
  obtain ⟨h1, h2, h3, h4, h5, h6⟩ := rr.files f d hf
  obtain ⟨io', v, s', e1, h⟩ := readByte_ok ho r hd h6
  refine ⟨io', v, s', ?_, h⟩
  unfold fgetc
  rw [h4]
  exact e1

/-- A new `FILE` object for a descriptor that has none. -/
theorem newFile_ok {e g io A L F} (r : R e g io A L F) {d : Nat} (hb : A.buffered d)
    (hg : g = true → d ≠ 0) (hf : ∀ f, A.file f ≠ some d) :
    ∃ v : Int, (malloc e.c io.h (.var fileVar) 1).var fileVar = some v ∧ A.file v = none ∧ v ≠ 0 ∧
      R e g { io with h := { (malloc e.c io.h (.var fileVar) 1) with cell := updI (malloc e.c io.h (.var fileVar) 1).cell v (some d) } }
        { A with file := updZ A.file v (some d) } L F ∧
      ∀ o ∈ L, Kept io.h { (malloc e.c io.h (.var fileVar) 1) with cell := updI (malloc e.c io.h (.var fileVar) 1).cell v (some d) } o := by
  obtain ⟨G, FG, bo, r⟩ := r
  have gm := got_malloc e.c io.h (.var fileVar) 1 (by simp)
  have I1 := r.inv.got gm (by omega) trivial
  have hdst := gm.dst
  simp only [S.get] at hdst
  have hhp := e.c.h_pos
  have hpos := r.inv.pos
  have hw := ShHeap.Inv.writeIn (o := ⟨io.h.alloc + e.c.h, 1⟩)
    (m := updI (malloc e.c io.h (.var fileVar) 1).cell (io.h.alloc + e.c.h) (some d)) I1 List.mem_cons_self (by
      intro x hx
      refine updI_other _ _ ?_
      simp only [Obj.has] at hx
      omega)
  have hK : ∀ q ∈ G, Kept io.h { (malloc e.c io.h (.var fileVar) 1) with cell := updI (malloc e.c io.h (.var fileVar) 1).cell (io.h.alloc + e.c.h) (some d) } q := by
    intro q hq x hx
    have := r.inv.has_lt hq hx
    simp only
    rw [updI_other _ _ (by omega), gm.frame x this (by simp)]
  have hnew : (⟨io.h.alloc + e.c.h, 1⟩ : Obj) ∉ G := by
    intro hq
    have := r.inv.hi _ hq
    simp only at this
    omega
  refine ⟨io.h.alloc + e.c.h, hdst, ?_, by omega, ⟨⟨io.h.alloc + e.c.h, 1⟩ :: G, FG, bo, ?_⟩, fun o ho => hK o (r.sub o ho)⟩
  · cases h : A.file (io.h.alloc + e.c.h) with
    | none => rfl
    | some x => exact absurd (r.files _ _ h).1 hnew
  refine ⟨hw.1, fun o ho => List.mem_cons_of_mem _ (r.sub o ho), ?_, r.live, ?_, r.binj, r.st, r.lt, r.out1, r.out2, r.excl, ?_, ?_, ?_, r.outs, r.get, r.short⟩
  · intro p hp
    obtain ⟨o, ho, hb⟩ := r.fG p hp
    exact ⟨o, List.mem_cons_of_mem _ ho, hb⟩
  · intro x hx
    obtain ⟨h1, h2, h3, h4, h5, h6⟩ := r.bmem x hx
    exact ⟨List.mem_cons_of_mem _ h1, h2, h3, h4, h5, h6⟩
  · intro f x hfx
    simp only [updZ] at hfx
    split at hfx
    · rename_i hfe
      subst hfe
      cases hfx
      refine ⟨List.mem_cons_self, fun hm => hnew (r.sub _ hm), ?_, by simp [updI], hb, hg⟩
      intro hc hm
      have h1' := Cfg.h_hdr hc
      obtain ⟨q, hq, hb⟩ := r.fG _ hm
      have := r.inv.hi q hq
      have := r.inv.size q hq
      omega
    · obtain ⟨h1, h2, h3, h4, h5, h6⟩ := r.files f x hfx
      refine ⟨List.mem_cons_of_mem _ h1, h2, h3, ?_, h5, h6⟩
      rw [← h4]
      exact hK _ h1 f ⟨by simp, by simp only; omega⟩
  · intro f1 f2 x h1 h2
    simp only [updZ] at h1 h2
    split at h1
    · rename_i e1
      split at h2
      · rename_i e2; rw [e1, e2]
      · cases h1; exact absurd h2 (hf f2)
    · split at h2
      · cases h2; exact absurd h1 (hf f1)
      · exact r.finj f1 f2 x h1 h2
  · intro x s hx hgx
    have hbx := r.input_buffered hx
    exact (r.data x s hx hgx).kept (hK _ (r.bmem x hbx).1) rfl rfl

theorem R.file_used {e g io A L F} (r : R e g io A L F) {f d} (h : A.file f = some d) : A.used d := by
  obtain ⟨G, FG, bo, r⟩ := r
  exact (r.files f d h).2.2.2.2.1.1

theorem fopen_ok {e g io A L F fs} (r : R e g io A L F) {name : List Nat} {w : Bool}
    (hfs : w = false → fs name ≠ none) (hpl : ∀ bytes, fs name = some bytes → Plain bytes)
    (hav : ∃ d, d < 10 ∧ ¬ A.used d) :
    ∃ io' v, fopen e fs io name w = .ok (io', v) ∧ ∃ (d : Nat) (A1 : Abs), Opens fs A name (if w then 1 else 0) d A1 ∧
      A.file v = none ∧ v ≠ 0 ∧ R e g io' { A1 with file := updZ A1.file v (some d) } L F ∧ ∀ o ∈ L, Kept io.h io'.h o := by
  obtain ⟨io1, d, A1, e1, ho, r1, hfl, hb, hg, hnu, hk⟩ := openFile_ok (fs := fs) (flags := if w then 1 else 0) r
    (by cases w <;> simp at hfs ⊢; exact hfs) hpl (by cases w <;> simp) hav
  obtain ⟨v, h1, h2, h3, r2, hk2⟩ := newFile_ok (d := d) r1 hb hg (by
    intro f hf
    rw [hfl] at hf
    exact hnu (r.file_used hf))
  unfold fopen
  rw [e1]
  simp only [Res.bind_ok, h1, expand_some]
  exact ⟨_, v, rfl, d, A1, ho, by rw [← hfl]; exact h2, h3, r2,
    fun o ho x hx => (hk2 o ho x hx).trans (hk o ho x hx)⟩

/-! ### `read` -/

theorem readLoop_ok {e g} (ho : OrdOk e.ord) {L F d} (hg : g = true → d ≠ 0) {o : Obj} (hoL : o ∈ L) (buf : Int) :
    ∀ (n : Nat) (i : Nat) {io A s}, R e g io A L F → A.input d = some s →
      (∀ j : Nat, i ≤ j → j < i + n → o.has (buf + j)) →
      ∃ io', readLoop e d buf n i io = .ok (io', ((i + min n s.length : Nat) : Int)) ∧
        R e g io' { A with input := upd A.input d (some (s.drop n)) } L F ∧
        (∀ k (h : k < s.length), k < n → io'.h.cell (buf + (i + k : Nat)) = some (s[k] : Int)) ∧
        (∀ q ∈ L, ∀ x, q.has x → (∀ k, k < min n s.length → x ≠ buf + (i + k : Nat)) → io'.h.cell x = io.h.cell x) := by
  intro n
  induction n with
  | zero =>
    intro i io A s r hd _
    refine ⟨io, by simp [readLoop], ?_, fun k h hk => by omega, fun _ _ _ _ _ => rfl⟩
    simp only [List.drop_zero]
    have : upd A.input d (some s) = A.input := by
      funext x; unfold upd; split
      · rename_i h; rw [h, hd]
      · rfl
    rw [this]; exact r
  | succ n ih =>
    intro i io A s r hd hobj
    obtain ⟨io1, v, s', e1, p, r1, hk⟩ := readByte_ok ho r hd hg
    simp only [readLoop, e1, Res.bind_ok]
    cases s with
    | nil =>
      obtain ⟨rfl, rfl⟩ := p
      refine ⟨io1, by simp, by simpa using r1, fun k h hk => by simp at h, fun q hq x hx _ => hk q hq x hx⟩
    | cons b t =>
      obtain ⟨rfl, rfl⟩ := p
      rw [if_neg (by omega)]
      have r2 := r1.mem (.store (buf + i) b) ⟨o, hoL, hobj i (by omega) (by omega)⟩ (h' := { io1.h with cell := updI io1.h.cell (buf + i) (some b) }) rfl
      simp only [created, freed, List.nil_append] at r2
      obtain ⟨io', e2, r3, hc, hfr⟩ := ih (i + 1) r2 (s := s') (by simp [upd]) (fun j h1 h2 => hobj j (by omega) (by omega))
      refine ⟨io', ?_, ?_, ?_, ?_⟩
      · simp only [List.length_cons]
        rw [show (i : Int) + 1 = ((i + 1 : Nat) : Int) by omega, e2]
        congr 3; omega
      · simp only [List.drop_succ_cons]
        have : upd (upd A.input d (some s')) d (some (List.drop n s')) = upd A.input d (some (List.drop n s')) := by
          funext x; unfold upd; split <;> rfl
        simp only [this] at r3
        exact r3
      · intro k h hk
        cases k with
        | zero =>
          rw [hfr o hoL _ (hobj (i + 0) (by omega) (by omega)) (by intro k _; omega)]
          simp [updI]
        | succ k =>
          have := hc k (by simpa using h) (by omega)
          rw [show i + (k + 1) = i + 1 + k by omega, this]; simp
      · intro q hq x hx hne
        rw [hfr q hq x hx (by
          intro k hk
          have := hne (k + 1) (by simp; omega)
          rw [show i + 1 + k = i + (k + 1) by omega]; exact this)]
        simp only
        rw [updI_other _ _ (by have := hne 0 (by simp); simpa using this)]
        exact hk q hq x hx

/-! ### One step -/

theorem step_ok {e g io A L F fs} (ho : OrdOk e.ord) (hpl : ∀ name bytes, fs name = some bytes → Plain bytes)
    (r : R e g io A L F) (op : Op) (hal : OpAllowed e.ord fs g io.h.cell A L F op)
    (hm : ∀ a, op = .mem a → ∃ h', ShHeap.step e.c e.ord io.h a = .ok h') :
    ∃ io' v A', step e fs printfOut io op = .ok (io', v) ∧ Does fs io.h.cell A op v A' ∧
      R e g io' A' (opObjs io io' op ++ L) (opFreed op ++ F) ∧
      ∀ o ∈ L, ∀ x, o.has x → ¬ Writes A op x → io'.h.cell x = io.h.cell x := by
  cases op with
  | mem a =>
    obtain ⟨h', hs⟩ := hm a rfl
    refine ⟨{ io with h := h' }, 0, A, by simp [step, hs], rfl, r.mem a hal hs, fun _ _ _ _ h => absurd trivial h⟩
  | getchar =>
    obtain ⟨io', v, s', h1, h2, h3, hh⟩ := getchar_ok ho r hal
    exact ⟨io', v, _, h1, ⟨s', h2, rfl⟩, h3, fun _ _ _ _ _ => by rw [hh]⟩
  | putchar c =>
    obtain ⟨h0, h1, h2⟩ := hal
    cases hout : A.output 1 with
    | none => exact absurd hout h2
    | some out =>
      obtain ⟨io', v, h3, h4, hh⟩ := putchar_ok r h0 h1 hout
      exact ⟨io', v, _, h3, ⟨out, hout, rfl⟩, h4, fun _ _ _ _ _ => by rw [hh]⟩
  | openFile name flags =>
    obtain ⟨h1, h2, h3⟩ := hal
    obtain ⟨io', d, A', e1, h4, r', -, -, -, -, hk⟩ := openFile_ok (fs := fs) r h1 (hpl name) h2 h3
    exact ⟨io', d, A', e1, ⟨d, rfl, h4⟩, r', fun o ho x hx _ => hk o ho x hx⟩
  | closeFile d =>
    obtain ⟨h1, h2, h3, h4, h5⟩ := hal
    obtain ⟨io', e1, r', hk⟩ := closeFile_ok r ⟨h1, h2, h3⟩ h4 h5
    exact ⟨io', 0, _, e1, rfl, r', fun o ho x hx _ => hk o ho x hx⟩
  | readByte d =>
    obtain ⟨h1, h2⟩ := hal
    cases hin : A.input d with
    | none => exact absurd hin h1
    | some s =>
      obtain ⟨io', v, s', e1, h3, r', hk⟩ := readByte_ok ho r hin h2
      exact ⟨io', v, _, e1, ⟨s, s', hin, h3, rfl⟩, r', fun o ho x hx _ => hk o ho x hx⟩
  | write d buf n =>
    obtain ⟨h1, h2⟩ := hal
    cases hout : A.output d with
    | none => exact absurd hout h1
    | some out =>
      obtain ⟨io', bytes, e1, h3, h4, r', hh⟩ := write_ok r hout h2
      exact ⟨io', n, _, e1, ⟨rfl, out, bytes, hout, h3, h4, rfl⟩, r', fun _ _ _ _ _ => by rw [hh]⟩
  | read d buf n =>
    obtain ⟨h1, h2, o, ho', h3⟩ := hal
    cases hin : A.input d with
    | none => exact absurd hin h1
    | some s =>
      obtain ⟨io', e1, r', -, hk⟩ := readLoop_ok ho h2 ho' buf n 0 r hin (fun j _ hj => h3 j (by omega))
      exact ⟨io', _, _, by simpa [step] using e1, ⟨s, hin, by simp, rfl⟩, r', fun o ho x hx hw => hk o ho x hx (fun k hk' he => hw ⟨s, k, hin, hk', by simpa using he⟩)⟩
  | fopen name w =>
    obtain ⟨h1, h2⟩ := hal
    obtain ⟨io', v, e1, d, A1, h3, h4, h5, r', hk⟩ := fopen_ok (fs := fs) r h1 (hpl name) h2
    exact ⟨io', v, _, e1, ⟨d, A1, h3, h4, h5, rfl⟩, r', fun o ho x hx _ => hk o ho x hx⟩
  | fclose f =>
    cases hf : A.file f with
    | none => exact absurd hf hal
    | some d =>
      obtain ⟨io', e1, r', hk⟩ := fclose_ok r hf
      exact ⟨io', 0, _, e1, ⟨d, _, hf, rfl, rfl⟩, r', fun o ho x hx _ => hk o ho x hx⟩
  | fgetc f =>
    obtain ⟨d, hf, h1⟩ := hal
    cases hin : A.input d with
    | none => exact absurd hin h1
    | some s =>
      obtain ⟨io', v, s', e1, h3, r', hk⟩ := fgetc_ok ho r hf hin
      exact ⟨io', v, _, e1, ⟨d, s, s', hf, hin, h3, rfl⟩, r', fun o ho x hx _ => hk o ho x hx⟩

/-! ### The start -/

theorem init_ok (e : Env) (g : Bool) (stdin : List Nat) (hp : Plain stdin) (hg : g = true → e.c.long = false) :
    R e g (init e stdin) (Abs.init g stdin) [] [] := by
  have gm := got_malloc e.c start (.var bufferVar) 1000 (by simp)
  have I1 := (Inv.start e.c).got gm (by omega) trivial
  have hdst := gm.dst
  simp only [S.get] at hdst
  have hhp := e.c.h_pos
  have hb : ((malloc e.c start (.var bufferVar) 1000).var bufferVar).getD 0 = start.alloc + e.c.h := by rw [hdst]; rfl
  have hw := ShHeap.Inv.writeIn (o := ⟨start.alloc + e.c.h, 1000⟩)
    (m := updI (malloc e.c start (.var bufferVar) 1000).cell (start.alloc + e.c.h) (some 0)) I1 List.mem_cons_self (by
      intro x hx
      refine updI_other _ _ ?_
      simp only [Obj.has] at hx
      omega)
  have hused : ∀ d, (Abs.init g stdin).used d ↔ d < 3 := by
    intro d
    simp only [Abs.used, Abs.init]
    by_cases h0 : d = 0
    · subst h0; cases g <;> simp
    · by_cases h1 : d = 1 ∨ d = 2
      · simp [h0, h1]; omega
      · simp [h0, h1]; omega
  have hbuf : ∀ d, (Abs.init g stdin).buffered d → d = 0 := by
    intro d ⟨h1, h2, h3⟩
    rw [hused] at h1; omega
  unfold init
  simp only [hb]
  refine ⟨[⟨start.alloc + e.c.h, 1000⟩], [], fun _ => ⟨start.alloc + e.c.h, 1000⟩, ?_⟩
  refine ⟨hw.1, by simp, by simp, by simp, ?_, ?_, ?_, ?_, by simp [Abs.init], by simp [Abs.init], ?_, ?_, ?_, ?_, ?_, ?_, hg⟩
  · intro d hd
    have := hbuf d hd
    subst this
    simp
  · intro d d' hd hd' hne
    exact absurd ((hbuf d hd).trans (hbuf d' hd').symm) hne
  · intro d
    rw [hused]
    simp only
    split <;> omega
  · intro d hd; rw [hused] at hd; omega
  · intro d hd
    simp only [Abs.init] at hd ⊢
    by_cases h0 : d = 0
    · subst h0; simp
    · simp [h0] at hd
  · intro f d hf; cases hf
  · intro f f' d hf; cases hf
  · intro d s hd hgd
    have hd0 : d = 0 := by
      by_cases h0 : d = 0
      · exact h0
      · simp [Abs.init, h0] at hd
    subst hd0
    have hgf : g = false := by
      cases g with
      | false => rfl
      | true => exact absurd rfl (hgd rfl)
    subst hgf
    simp [Abs.init] at hd
    subst hd
    refine ⟨hp, ⟨0, [], stdin, by simp, by omega, ⟨by simp, ?_⟩, by simp, by simp, rfl⟩⟩
    simp [updI]
  · intro d o hd
    simp only [Abs.init] at hd
    split at hd
    · rename_i h
      cases hd
      simp only
      rw [if_neg (by omega), if_pos (by omega)]
    · cases hd
  · intro hgt
    subst hgt
    refine ⟨(hused 0).mpr (by omega), by simpa [Abs.init] using hp, stdin, by simp, ?_⟩
    simp [GInv, Abs.init]

end Verif.ShIO
