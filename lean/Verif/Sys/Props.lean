import Verif.Sys.Proofs3
/-! # C44: compiled programs talk to the operating system as C says -/
namespace Verif.Sys
open Verif Verif.X86 Verif.X86.Spec Verif.Cg Verif.Rt Spec

/-- `P` is the code of a compiled program with the declarations `ds`. -/
structure Compiled (w : Nat) (L : Labels) (P : List Asm) (ga : Int) (mr : Bool) (ds : List Decl) : Prop where
  w48 : w = 4 ∨ w = 8
  code : P = program w L ga mr ds
  /-- The last label of the chain of initialisations (exe.c:2558). -/
  init_next : L.init_next = (genDecls L.init_start ds).2

theorem at_self (P : List Asm) : At P 0 P := by intro i _; rw [Nat.zero_add]

theorem Compiled.at' {w L P ga mr ds} (h : Compiled w L P ga mr ds) : ∃ i, At P i (codegen_end w L ga mr) := by
  have := at_self P
  rw [h.code] at this ⊢
  unfold program at this ⊢
  exact ⟨_, this.right.right⟩

section
variable {W : Type} {os : OS W} {w : Nat} {L : Labels} {base : Int} {P : List Asm} {ga : Int} {mr : Bool} {ds : List Decl} (h : Compiled w L P ga mr ds)
include h

theorem Compiled.setup : ∃ i, At P i (setupCode w L ga) := by obtain ⟨i, hi⟩ := h.at'; exact ⟨_, hi.left⟩
theorem Compiled.main : ∃ i, At P i (mainCode w L mr) := by obtain ⟨i, hi⟩ := h.at'; exact ⟨_, hi.right.left⟩
theorem Compiled.read : ∃ i, At P i (readFn w L) := by obtain ⟨i, hi⟩ := h.at'; exact ⟨_, hi.right.right.left⟩
theorem Compiled.write : ∃ i, At P i (writeFn w L) := by obtain ⟨i, hi⟩ := h.at'; exact ⟨_, hi.right.right.right.left⟩
theorem Compiled.open_ : ∃ i, At P i (openFn w L) := by obtain ⟨i, hi⟩ := h.at'; exact ⟨_, hi.right.right.right.right.left⟩
theorem Compiled.close : ∃ i, At P i (closeFn w L) := by obtain ⟨i, hi⟩ := h.at'; exact ⟨_, hi.right.right.right.right.right.left⟩
theorem Compiled.seek : ∃ i, At P i (seekFn w L) := by obtain ⟨i, hi⟩ := h.at'; exact ⟨_, hi.right.right.right.right.right.right.left⟩
theorem Compiled.unlink : ∃ i, At P i (unlinkFn w L) := by obtain ⟨i, hi⟩ := h.at'; exact ⟨_, hi.right.right.right.right.right.right.right.left⟩
theorem Compiled.putchar : ∃ i, At P i (putcharFn w L) := by obtain ⟨i, hi⟩ := h.at'; exact ⟨_, hi.right.right.right.right.right.right.right.right.left⟩
theorem Compiled.getchar : ∃ i, At P i (getcharFn w L) := by obtain ⟨i, hi⟩ := h.at'; exact ⟨_, hi.right.right.right.right.right.right.right.right.right.left⟩
theorem Compiled.fopen : ∃ i, At P i (fopenFn w L) := by obtain ⟨i, hi⟩ := h.at'; exact ⟨_, hi.right.right.right.right.right.right.right.right.right.right.left⟩
theorem Compiled.fgetc : ∃ i, At P i (fgetcFn w L) := by obtain ⟨i, hi⟩ := h.at'; exact ⟨_, hi.right.right.right.right.right.right.right.right.right.right.right.left⟩
theorem Compiled.malloc : ∃ i, At P i (malloc w L.malloc (I (rt_crash w heapMsg)) L.malloc_ok) := by
  obtain ⟨i, hi⟩ := h.at'; exact ⟨_, hi.right.right.right.right.right.right.right.right.right.right.right.right.left⟩
theorem Compiled.printf : ∃ i, At P i (printfFn w L) := by
  obtain ⟨i, hi⟩ := h.at'; exact ⟨_, hi.right.right.right.right.right.right.right.right.right.right.right.right.right.right⟩

/-- **C44, write.** `write(fd, buf, n)` asks the system to write the `n` bytes at `buf`, and returns the system's result. -/
theorem C44_write {k : Nat} {sp : Int} {s : MS} {σ : W} (hc : Calls w P L.write k sp s) (hb : Clear w sp (argument w sp s 1) (uns w (argument w sp s 2))) :
    let r := os.serve σ (.write (sgn 4 (argument w sp s 0)) (bytes w s.mem (argument w sp s 1) (uns w (argument w sp s 2)).toNat))
    CallGives os w base P k sp s σ r.2 r.1 nothing := by
  obtain ⟨i, hi⟩ := h.write
  intro r
  refine fn3 (A := ⟨r.1, r.2, nothing⟩) h.w48 (by split <;> omega) hi hc ?_ (fun _ _ _ => rfl)
  intro s1 e0 a0 a1 a2 hm
  have := Serves.write (os := os) (w := w) (s := s1) (σ := σ) (by rw [e0]; rfl)
  have hn := uns_nonneg w (argument w sp s 2)
  rw [a0, a1, a2, bytes_congr (m' := s.mem) (fun i hi => hm _ (hb i (by omega) (by omega)))] at this
  exact this

/-- **C44, read.** `read(fd, buf, n)` asks the system for at most `n` bytes, stores the bytes it delivers at `buf` (and nothing else), and returns
their number, or the negated error number. -/
theorem C44_read {k : Nat} {sp : Int} {s : MS} {σ : W} (hc : Calls w P L.read k sp s) (hb : Clear w sp (argument w sp s 1) (uns w (argument w sp s 2))) :
    let r := os.read σ (sgn 4 (argument w sp s 0)) (uns w (argument w sp s 2))
    CallGives os w base P k sp s σ (readResult r.2) r.1 (stored w (argument w sp s 1) (readBytes r.2)) := by
  obtain ⟨i, hi⟩ := h.read
  intro r
  have hn := uns_nonneg w (argument w sp s 2)
  refine fn3 (A := ⟨r.1, readResult r.2, stored w (argument w sp s 1) (readBytes r.2)⟩) h.w48 (by split <;> omega) hi hc ?_ ?_
  · intro s1 e0 a0 a1 a2 hm
    have := Serves.read (os := os) (w := w) (s := s1) (σ := σ) (by rw [e0]; rfl)
    rw [a0, a1, a2] at this
    exact this
  · intro x h1 h2
    refine stored_clear hb ?_ h1 h2
    cases e : r.2 with
    | ok l => exact os.read_len _ _ _ _ e
    | error _ => simpa [readBytes] using hn

/-- **C44, open.** `open(path, flags, mode)` asks the system to open the file named by the string at `path`, with the flags and mode given. -/
theorem C44_open {k : Nat} {sp : Int} {s : MS} {σ : W} {p : List Nat} (hc : Calls w P L.open_ k sp s) (hp : CStr w s.mem (argument w sp s 0) p)
    (hb : Clear w sp (argument w sp s 0) (p.length + 1)) :
    let r := os.serve σ (.open_ p (sgn 4 (argument w sp s 1)) (sgn 4 (argument w sp s 2)))
    CallGives os w base P k sp s σ r.2 r.1 nothing := by
  obtain ⟨i, hi⟩ := h.open_
  intro r
  refine fn3 (A := ⟨r.1, r.2, nothing⟩) h.w48 (by split <;> omega) hi hc ?_ (fun _ _ _ => rfl)
  intro s1 e0 a0 a1 a2 hm
  have := Serves.open_ (os := os) (w := w) (s := s1) (σ := σ) (p := p) (by rw [e0]; rfl)
    (by rw [a0]; exact cstr_congr (fun i hi => (hm _ (hb i (by omega) (by omega))).symm) hp)
  rw [a1, a2] at this
  exact this

/-- **C44, lseek.** -/
theorem C44_lseek {k : Nat} {sp : Int} {s : MS} {σ : W} (hc : Calls w P L.seek k sp s) :
    let r := os.serve σ (.lseek (sgn 4 (argument w sp s 0)) (argument w sp s 1) (sgn 4 (argument w sp s 2)))
    CallGives os w base P k sp s σ r.2 r.1 nothing := by
  obtain ⟨i, hi⟩ := h.seek
  intro r
  refine fn3 (A := ⟨r.1, r.2, nothing⟩) h.w48 (by split <;> omega) hi hc ?_ (fun _ _ _ => rfl)
  intro s1 e0 a0 a1 a2 hm
  have := Serves.lseek (os := os) (w := w) (s := s1) (σ := σ) (by rw [e0]; rfl)
  rw [a0, a1, a2] at this
  exact this

/-- **C44, unlink.** -/
theorem C44_unlink {k : Nat} {sp : Int} {s : MS} {σ : W} {p : List Nat} (hc : Calls w P L.unlink k sp s) (hp : CStr w s.mem (argument w sp s 0) p)
    (hb : Clear w sp (argument w sp s 0) (p.length + 1)) :
    let r := os.serve σ (.unlink p)
    CallGives os w base P k sp s σ r.2 r.1 nothing := by
  obtain ⟨i, hi⟩ := h.unlink
  intro r
  have h2 := hi
  unfold unlinkFn at h2
  rw [List.append_assoc] at h2
  refine fn1 (q := 0) (A := ⟨r.1, r.2, nothing⟩) h.w48 (by split <;> omega) h2.head (fun _ => .refl) h2.right hc ?_ (fun _ _ _ => rfl)
  intro s1 e0 a0 hm
  exact Serves.unlink (os := os) (w := w) (s := s1) (σ := σ) (p := p) (by rw [e0]; rfl)
    (by rw [a0]; exact cstr_congr (fun i hi => (hm _ (hb i (by omega) (by omega))).symm) hp)

/-- **C44, close.** `close` and `fclose` ask the system to close the file descriptor. -/
theorem C44_close {k : Nat} {sp : Int} {s : MS} {σ : W} {l : Nat} (hl : l = L.close ∨ l = L.fclose) (hc : Calls w P l k sp s) :
    let r := os.serve σ (.close (sgn 4 (argument w sp s 0)))
    CallGives os w base P k sp s σ r.2 r.1 nothing := by
  obtain ⟨i, hi⟩ := h.close
  intro r
  unfold closeFn at hi
  rw [List.append_assoc] at hi
  have hS : ∀ s1 : MS, s1.reg 0 = (if w = 4 then 6 else 3 : Int) → arg w s1 0 = argument w sp s 0 →
      (∀ x, ¬ (sp - 3 * w ≤ x ∧ x < sp) → s1.mem x = s.mem x) → Serves os w s1 σ ⟨r.1, r.2, nothing⟩ := by
    intro s1 e0 a0 hm
    have := Serves.close (os := os) (w := w) (s := s1) (σ := σ) (by rw [e0]; rfl)
    rw [a0] at this
    exact this
  have l1 : P[i]? = some (.lbl L.close) := hi.head
  have l2 : P[i + 1]? = some (.lbl L.fclose) := hi.tail.head
  rcases hl with rfl | rfl
  · exact fn1 (q := 1) (A := ⟨r.1, r.2, nothing⟩) h.w48 (by split <;> omega) l1 (fun _ => .one (.cpu (.lbl l2))) hi.right hc hS (fun _ _ _ => rfl)
  · exact fn1 (q := 0) (A := ⟨r.1, r.2, nothing⟩) h.w48 (by split <;> omega) l2 (fun _ => .refl) hi.right hc hS (fun _ _ _ => rfl)

/-- **C44, putchar.** `putchar(c)` writes the one byte `c mod 256` on standard output and returns `c`. -/
theorem C44_putchar {k : Nat} {sp : Int} {s : MS} {σ : W} (hc : Calls w P L.putchar k sp s) :
    CallGives os w base P k sp s σ (argument w sp s 0) (os.serve σ (.write 1 [(argument w sp s 0 % 256).toNat])).1 nothing := by
  obtain ⟨i, hi⟩ := h.putchar
  have hw := h.w48
  have low := hc.low; have high := hc.high
  have wp : 0 < w := by rcases hw with rfl | rfl <;> omega
  have hl := hi.left.left.head
  have hr := hi.right.head
  unfold putcharFn at hi
  rw [List.append_assoc] at hi
  have h2 : At P (i + 1) (.ins (mov_reg_mem w 0 4 w) :: I (rt_putchar w)) := hi.right.left
  simp only [List.length_append, List.length_singleton, I_length] at hr
  refine leaf (j := (mov_reg_mem w 0 4 w :: rt_putchar w).length) hw hl (by rw [← hr]; congr 1; omega) hc (fun _ _ _ => rfl) ?_ (body := [])
  intro s0 h4 hr0 hm0
  let s1 := setReg s0 0 (cell w s0.mem (s0.reg 4 + w))
  have p1 : Step w base P (i + 1, s0) (i + 1 + 1, s1) := .ins h2.head (ex_ld hw ..)
  have e0 : s1.reg 0 = argument w sp s 0 := arg_word hw hc h4 hm0 0 (by omega) _ (by simp)
  obtain ⟨s2, p2, f0, f3, f4, f5⟩ := putchar_sim (os := os) (σ := σ) (base := base) (s := s1) (sp := sp - w) hw h2.tail h4
    (by rw [show s1.reg 3 = s.reg 3 from hr0 3 (by omega)]; exact hc.glo) (by omega)
  rw [e0] at p2 f0
  refine ⟨s2, .head (.cpu p1) ?_, f4, f3, f0, ?_⟩
  · rw [List.length_cons, show i + 1 + ((rt_putchar w).length + 1) = i + 1 + 1 + (rt_putchar w).length by omega]
    exact p2
  · intro x hx
    exact f5 x (by omega)

/-- `getchar` and `fgetc` in general (also when the read fails and for any descriptor). -/
theorem getchar_all {k : Nat} {sp : Int} {s : MS} {σ : W} (hc : Calls w P L.getchar k sp s) :
    let r := os.read σ 0 1
    CallGives os w base P k sp s σ (fgetcVal 0 r.2) r.1 nothing := by
  obtain ⟨i, hi⟩ := h.getchar
  have hw := h.w48
  have low := hc.low; have high := hc.high
  have wp : 0 < w := by rcases hw with rfl | rfl <;> omega
  have h0 : sgn w 0 = 0 := sgn_lt hw (by omega) (by omega)
  unfold getcharFn at hi
  rw [List.append_assoc, List.append_assoc] at hi
  have hl := hi.head
  have h2 := hi.right.left.head
  have h3 := hi.right.right.left
  have hr := hi.right.right.right.head
  simp only [List.length_singleton, I_length] at h2 h3 hr
  refine leaf (j := 1 + (rt_fgetc w 0 L.getchar_ok).length) hw hl (by rw [← hr]; congr 1; omega) hc (fun _ _ _ => rfl) ?_ (body := [])
  intro s0 h4 hr0 hm0
  let s1 := setReg s0 0 (sgn w 0)
  have p1 : Step w base P (i + 1, s0) (i + 1 + 1, s1) := .ins h2 (exec_imm hw ..)
  obtain ⟨s2, p2, f0, f3, f4, f5⟩ := fgetc_sim (os := os) (σ := σ) (base := base) (s := s1) (sp := sp - w) (v := 0) hw h3 h4
    (by rw [show s1.reg 3 = s.reg 3 from hr0 3 (by omega)]; exact hc.glo) (by omega) h0 h0
  refine ⟨s2, .head (.cpu p1) ?_, f4, f3, f0, ?_⟩
  · rw [show i + 1 + (1 + (rt_fgetc w 0 L.getchar_ok).length) = i + 1 + 1 + (rt_fgetc w 0 L.getchar_ok).length by omega]
    exact p2
  · intro x hx
    exact f5 x (by omega)

theorem fgetc_all {k : Nat} {sp : Int} {s : MS} {σ : W} (hc : Calls w P L.fgetc k sp s) :
    let r := os.read σ (sgn 4 (argument w sp s 0)) 1
    CallGives os w base P k sp s σ (fgetcVal (argument w sp s 0) r.2) r.1 nothing := by
  obtain ⟨i, hi⟩ := h.fgetc
  have hw := h.w48
  have low := hc.low; have high := hc.high
  have wp : 0 < w := by rcases hw with rfl | rfl <;> omega
  unfold fgetcFn at hi
  rw [List.append_assoc, List.append_assoc] at hi
  have hl := hi.head
  have h2 := hi.right.left.head
  have h3 := hi.right.right.left
  have hr := hi.right.right.right.head
  simp only [List.length_singleton, I_length] at h2 h3 hr
  refine leaf (j := 1 + (rt_fgetc w 0 L.fgetc_ok).length) hw hl (by rw [← hr]; congr 1; omega) hc (fun _ _ _ => rfl) ?_ (body := [])
  intro s0 h4 hr0 hm0
  let s1 := setReg s0 0 (cell w s0.mem (s0.reg 4 + w))
  have p1 : Step w base P (i + 1, s0) (i + 1 + 1, s1) := .ins h2 (ex_ld hw ..)
  have e0 : s1.reg 0 = argument w sp s 0 := arg_word hw hc h4 hm0 0 (by omega) _ (by simp)
  obtain ⟨s2, p2, f0, f3, f4, f5⟩ := fgetc_sim (os := os) (σ := σ) (base := base) (s := s1) (sp := sp - w) hw h3 h4
    (by rw [show s1.reg 3 = s.reg 3 from hr0 3 (by omega)]; exact hc.glo) (by omega) e0 (sgn_sgn ..)
  refine ⟨s2, .head (.cpu p1) ?_, f4, f3, f0, ?_⟩
  · rw [show i + 1 + (1 + (rt_fgetc w 0 L.fgetc_ok).length) = i + 1 + 1 + (rt_fgetc w 0 L.fgetc_ok).length by omega]
    exact p2
  · intro x hx
    exact f5 x (by omega)

/-- **C44, getchar.** `getchar()` reads one byte from standard input and returns it, or -1 at the end of the file. -/
theorem C44_getchar_partial {k : Nat} {sp : Int} {s : MS} {σ : W} (hc : Calls w P L.getchar k sp s) {l : List Nat} (hok : (os.read σ 0 1).2 = .ok l) :
    CallGives os w base P k sp s σ (charOrEof (.ok l)) (os.read σ 0 1).1 nothing := by
  have := getchar_all (os := os) (base := base) h (σ := σ) hc
  simp only [hok] at this
  cases l with
  | nil => exact this
  | cons b t => simpa [fgetcVal, charOrEof] using this

/-- **C44, fgetc.** The same for a file descriptor below 256. -/
theorem C44_fgetc_partial {k : Nat} {sp : Int} {s : MS} {σ : W} (hc : Calls w P L.fgetc k sp s) {l : List Nat}
    (hfd : 0 ≤ argument w sp s 0 ∧ argument w sp s 0 < 256) (hok : (os.read σ (argument w sp s 0) 1).2 = .ok l) :
    CallGives os w base P k sp s σ (charOrEof (.ok l)) (os.read σ (argument w sp s 0) 1).1 nothing := by
  have := fgetc_all (os := os) (base := base) h (σ := σ) hc
  rw [show sgn 4 (argument w sp s 0) = argument w sp s 0 from sgn_lt (.inl rfl) hfd.1 (by omega)] at this
  simp only [hok] at this
  cases l with
  | nil => exact this
  | cons b t =>
    rw [show fgetcVal (argument w sp s 0) (.ok (b :: t)) = charOrEof (.ok (b :: t)) by simp only [fgetcVal, charOrEof]; omega] at this
    exact this

/-- **C44, fopen.** `fopen(path, mode)` opens the file for reading (whatever the mode) and returns the descriptor, or 0 if the system reports an error. -/
theorem C44_fopen_partial {k : Nat} {sp : Int} {s : MS} {σ : W} {p : List Nat} (hc : Calls w P L.fopen k sp s) (hp : CStr w s.mem (argument w sp s 0) p)
    (hb : Clear w sp (argument w sp s 0) (p.length + 1)) :
    let r := os.serve σ (.open_ p 0 0)
    CallGives os w base P k sp s σ (if sgn w r.2 < 0 then 0 else r.2) r.1 nothing := by
  obtain ⟨i, hi⟩ := h.fopen
  intro r
  have hw := h.w48
  have low := hc.low; have high := hc.high
  have wp : 0 < w := by rcases hw with rfl | rfl <;> omega
  unfold fopenFn at hi
  rw [List.append_assoc] at hi
  have hl := hi.head
  have h2 := hi.right.left
  have hr := hi.right.right.head
  simp only [List.length_singleton] at h2 hr
  refine leaf (j := (rt_fopen w L.fopen_ok).length) hw hl hr hc (fun _ _ _ => rfl) ?_ (body := [])
  intro s0 h4 hr0 hm0
  have e0 : cell w s0.mem (s0.reg 4 + w) = argument w sp s 0 := arg_word hw hc h4 hm0 0 (by omega) _ (by simp)
  obtain ⟨s2, p2, f0, f3, f4, f5⟩ := fopen_sim (os := os) (σ := σ) (base := base) (s := s0) (sp := sp - w) (p := p) hw h2 h4
    (by rw [hr0 3 (by omega)]; exact hc.glo) (by omega) (by
      intro m hm
      rw [e0]
      refine cstr_congr (fun i hi => ?_) hp
      have := hb i (by omega) (by omega)
      rw [hm _ (by omega), hm0 _ (by omega)])
  refine ⟨s2, p2, f4, f3, f0, ?_⟩
  intro x hx
  rw [f5 x (by omega)]; rfl

/-- **C44, exit.** `exit(n)` ends the process with status `n mod 256`. -/
theorem C44_exit {k : Nat} {sp : Int} {s : MS} {σ : W} (hc : Calls w P L.exit k sp s) :
    PSteps os w base P (.run k s σ) (.done (argument w sp s 0 % 256).toNat σ) := by
  obtain ⟨i, hi⟩ := h.main
  have hw := h.w48
  have low := hc.low; have high := hc.high
  have wp : 0 < w := by rcases hw with rfl | rfl <;> omega
  unfold mainCode at hi
  have h1 := hi.left.right.head
  have h2 := hi.right
  have h3 := h2.head
  have h4' := h2.tail
  simp only [List.length_append, List.length_singleton, I_length] at h1 h3 h4'
  generalize 1 + (setup_proc_args w 0).length + 1 + (if mr = true then [] else [Emit.mov_reg_imm 0 0]).length + [Emit.push_reg 0, .push_reg 0].length = q at h1 h3 h4'
  rw [show i + (q + 1) = i + q + 1 by omega] at h3 h4'
  let s0 : MS := { setReg s 4 (sgn w (sp - w)) with mem := called w base P k s.mem sp }
  have st1 : Step w base P (k, s) (i + q, s0) := by
    have : Step w base P (k, s) _ := .call hc.call h1
    rw [hc.stack, sgn_sub_l] at this
    exact this
  have hm0 : ∀ x, ¬ (sp - w ≤ x ∧ x < sp) → s0.mem x = s.mem x := by
    intro x hx
    show called w base P k s.mem sp x = _
    unfold called
    rw [← wr_addr w w s.mem (sp - w) (sgn w (sp - w)) _ (uns_sgn ..).symm,
      wr_out w w _ _ _ _ (by rw [inR_iff (by omega) (by omega)]; omega)]
  let s1 := setReg s0 0 (cell w s0.mem (s0.reg 4 + w))
  have e0 : s1.reg 0 = argument w sp s 0 := arg_word (s0 := s0) hw hc rfl hm0 0 (by omega) _ (by simp)
  have p2 : Step w base P (i + q + 1, s0) (i + q + 1 + 1, s1) := .ins h3 (ex_ld hw ..)
  have p3 := exit_sim (os := os) (σ := σ) (base := base) (s := s1) (sp := sp - w) hw h4' rfl (by omega)
  rw [e0] at p3
  exact .head (.cpu st1) (.head (.cpu (.lbl h1)) (.head (.cpu p2) p3))

end

end Verif.Sys
