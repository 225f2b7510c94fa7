import Verif.Crt.Spec
/-! # C56: the functions of the portable C library reach the system -/
namespace Verif.Crt
open Verif Verif.Crt.Spec

variable {W : Type}

/-- **C56, system calls (partial).** Whatever the system does and whatever the other registers hold: `read`, `write` and `open` are the operations of these names on these arguments; `exit` ends the process with the status.  Missing: `close` (`C56_close_false`). -/
theorem C56_calls_partial (os : Os W) (g : Regs) (a b c : Int) (w : W) :
    read (linux os) g a b c w = ret (os.read a b c w) ∧ write (linux os) g a b c w = ret (os.write a b c w) ∧ open_ (linux os) g a b c w = ret (os.open_ a b c w) ∧ exit_ (linux os) g a w = .exited a w :=
  ⟨rfl, rfl, rfl, rfl⟩

/-- **C56, program start.** At the entry of a process the number of arguments is at the top of the stack, the array of arguments behind it: `main` is called with them, and what it returns is the exit status, whatever the registers hold. -/
theorem C56_start (os : Os W) (g : Regs) (mem : Int → Int) (esp ebp : Int) (main : Int → Int → W → Int × W) (w : W) :
    start (linux os) g mem esp ebp main w = .exited (main (mem esp) (esp + 4) w).1 (main (mem esp) (esp + 4) w).2 := by
  have h1 : (esp - 4 + 4 : Int) = esp := by omega
  have h2 : (esp - 4 + 8 : Int) = esp + 4 := by omega
  have h3 : esp ≠ esp - 4 := by omega
  simp only [start, h1, h2, h3, if_false]
  rfl

/-! ## `close` -/

/-- `n` times: open the file named at `path`, close it. The values returned by `open`. -/
def cycles (K : Kernel Fds) (g : Regs) (close : Kernel Fds → Regs → Int → Fds → Out Fds) (path flags mode : Int) : Nat → Fds → List Int × Option Fds
  | 0, w => ([], some w)
  | n + 1, w =>
    match open_ K g path flags mode w with
    | .exited _ _ => ([], none)
    | .ret fd w =>
      match close K g fd w with
      | .exited _ _ => ([], none)
      | .ret _ w => let r := cycles K g close path flags mode n w; (fd :: r.1, r.2)

theorem cycles_leak (g : Regs) (path flags mode : Int) (hp : 65536 ≤ path) : ∀ (n k : Nat), k ≤ 1024 →
    cycles (linux files) g close path flags mode n ⟨k⟩ = ((List.range n).map fun i => if k + i < 1024 then ((k + i : Nat) : Int) else -24, some ⟨min (k + n) 1024⟩)
  | 0, k, hk => by simp [cycles]; omega
  | n + 1, k, hk => by
    have hp' : ¬ path < 65536 := by omega
    have ho : open_ (linux files) g path flags mode ⟨k⟩ = ret (files.open_ path flags mode ⟨k⟩) := rfl
    have hc : ∀ fd : Int, fd < 65536 → ∀ w, close (linux files) g fd w = .ret (-14) w := by
      intro fd hf w
      have : close (linux files) g fd w = ret (files.open_ fd g.ecx g.edx w) := rfl
      rw [this]
      simp [files, ret, hf]
    rw [cycles, ho]
    by_cases h : k < 1024
    · have : files.open_ path flags mode ⟨k⟩ = ((k : Int), ⟨k + 1⟩) := by simp [files, hp', h]
      rw [this]
      dsimp only [ret]
      rw [hc _ (by omega)]
      dsimp only
      rw [cycles_leak g path flags mode hp n (k + 1) (by omega), List.range_succ_eq_map]
      simp only [List.map_cons, List.map_map, Nat.add_zero, h, if_true]
      refine Prod.ext ?_ ?_
      · simp only [List.cons.injEq, true_and]
        apply List.map_congr_left
        intro i _
        simp only [Function.comp, Nat.succ_eq_add_one, show k + (i + 1) = k + 1 + i by omega]
      · simp only [show k + 1 + n = k + (n + 1) by omega]
    · have h' : k = 1024 := by omega
      have : files.open_ path flags mode ⟨k⟩ = (-24, ⟨k⟩) := by simp [files, hp', h]
      rw [this]
      dsimp only [ret]
      rw [hc _ (by omega)]
      dsimp only
      rw [cycles_leak g path flags mode hp n k hk, List.range_succ_eq_map]
      simp only [List.map_cons, List.map_map, Nat.add_zero, h, if_false]
      refine Prod.ext ?_ ?_
      · simp only [List.cons.injEq, true_and]
        apply List.map_congr_left
        intro i _
        simp only [Function.comp, Nat.succ_eq_add_one, show ¬ k + i < 1024 by omega, show ¬ k + (i + 1) < 1024 by omega, if_false]
      · simp only [show min (k + n) 1024 = min (k + (n + 1)) 1024 by omega]

/-- **C56, `close`: false.** `close(fd)` performs the system call of `open` with the descriptor as the address of a name: the descriptor stays open.  A program that opens a file and closes it again and again, with three descriptors at first, gets the descriptors
3, 4, 5, ... and after 1021 times no more (EMFILE); with the call of `close` it would get 3 each time, as often as it likes. -/
theorem C56_close_false (g : Regs) (path flags mode : Int) (hp : 65536 ≤ path) (n : Nat) :
    cycles (linux files) g close path flags mode n ⟨3⟩ = ((List.range n).map fun i => if i < 1021 then ((3 + i : Nat) : Int) else -24, some ⟨min (3 + n) 1024⟩) ∧
    cycles (linux files) g (fun K g fd w => K { g with eax := 6, ebx := fd } w) path flags mode n ⟨3⟩ = (List.replicate n 3, some ⟨3⟩) := by
  constructor
  · rw [cycles_leak g path flags mode hp n 3 (by omega)]
    refine Prod.ext ?_ rfl
    apply List.map_congr_left
    intro i _
    by_cases h : i < 1021
    · simp only [h, show 3 + i < 1024 by omega, if_true]
    · simp only [h, show ¬ 3 + i < 1024 by omega, if_false]
  · induction n with
    | zero => rfl
    | succ n ih =>
      have hp' : ¬ path < 65536 := by omega
      have ho : open_ (linux files) g path flags mode ⟨3⟩ = .ret 3 ⟨4⟩ := by simp [open_, linux, ret, files, hp']
      have hc : linux files { g with eax := 6, ebx := 3 } ⟨4⟩ = .ret 0 ⟨3⟩ := by simp [linux, ret, files]
      rw [cycles, ho]
      dsimp only
      rw [hc]
      dsimp only
      rw [ih]
      rfl

/-! ## Files -/

theorem fwriteLoop_ok (g : Regs) (out fd : Int) : ∀ (bs : List Int) (w : Disk), ∃ b,
    fwriteLoop (linux (disk fd out)) g (fun c w => { w with byte := c }) out fd bs w = .ret 0 ⟨b, w.written ++ bs⟩
  | [], w => ⟨w.byte, by simp [fwriteLoop]⟩
  | c :: r, w => by
    have : fputc (linux (disk fd out)) g (fun c w => { w with byte := c }) out fd c w = .ret c ⟨c, w.written ++ [c]⟩ := by
      simp [fputc, write, linux, ret, disk]
    obtain ⟨b, h⟩ := fwriteLoop_ok g out fd r ⟨c, w.written ++ [c]⟩
    exact ⟨b, by rw [fwriteLoop, this]; dsimp only; rw [h]; simp⟩

/-- **C56, `fwrite` (partial).** On a file that takes what is written, `fwrite` appends exactly the bytes of the object, in order, and returns the number of items.  Missing: errors (`C56_fwrite_error_false`). -/
theorem C56_fwrite_partial (g : Regs) (out fd : Int) (bs after : List Int) (size nmemb : Nat) (hl : bs.length = size * nmemb) (h : size * nmemb < 4294967296) (w : Disk) :
    ∃ b, fwrite (linux (disk fd out)) g (fun c w => { w with byte := c }) out fd (bs ++ after) size nmemb w = .ret nmemb ⟨b, w.written ++ bs⟩ := by
  obtain ⟨b, e⟩ := fwriteLoop_ok g out fd bs w
  refine ⟨b, ?_⟩
  rw [fwrite, Nat.mod_eq_of_lt h, ← hl, List.take_left, e]

/-- The system refuses to write. -/
def Refuses (os : Os W) : Prop := ∀ fd buf n w, os.write fd buf n w = (-9, w)

/-- **C56, errors of `fwrite`: false.** When no byte can be written, `fwrite` returns the number of items all the same; C wants the number of items written. -/
theorem C56_fwrite_error_false (os : Os W) (hr : Refuses os) (g : Regs) (store : Int → W → W) (out fd : Int) (ptr : List Int) (size nmemb : Nat) (w : W) :
    ∃ w', fwrite (linux os) g store out fd ptr size nmemb w = .ret nmemb w' := by
  have : ∀ bs w, ∃ w', fwriteLoop (linux os) g store out fd bs w = .ret 0 w' := by
    intro bs
    induction bs with
    | nil => exact fun w => ⟨w, rfl⟩
    | cons c r ih =>
      intro w
      have h : fputc (linux os) g store out fd c w = .ret c (store c w) := by simp [fputc, write, linux, ret, hr fd out 1]
      rw [fwriteLoop, h]
      exact ih _
  obtain ⟨w', h⟩ := this (ptr.take (size * nmemb % 4294967296)) w
  exact ⟨w', by rw [fwrite, h]⟩

/-- **C56, `fread` (partial).** When the system gives `n` bytes, `fread` returns the number of whole items among them.  Missing: errors, items of size 0 (`C56_fread_error_false`). -/
theorem C56_fread_partial (os : Os W) (g : Regs) (fd buf : Int) (size count : Nat) (hs : 0 < size) (hn : size * count < 2147483648) (w : W) (n : Nat) (w' : W) (hr : os.read fd buf (size * count : Nat) w = ((n : Int), w'))
    (hle : n ≤ size * count) : fread (linux os) g fd buf size count w = .ok (.ret ((n / size : Nat) : Int) w') := by
  have h1 : size * count % 4294967296 = size * count := Nat.mod_eq_of_lt (by omega)
  have h2 : ((n : Int) % 4294967296) = n := by omega
  have h3 : read (linux os) g fd buf (size * count : Nat) w = .ret n w' := by
    have : read (linux os) g fd buf (size * count : Nat) w = ret (os.read fd buf (size * count : Nat) w) := rfl
    rw [this, hr]; rfl
  rw [fread, h1, h3]
  dsimp only
  rw [if_neg (by omega), h2]
  simp

/-- **C56, errors of `fread`: false.** When the system reports an error `-e`, `fread` returns more items than were asked for (the error is taken for a large unsigned number); for items of size 0 it divides by 0. -/
theorem C56_fread_error_false (os : Os W) (g : Regs) (fd buf : Int) (size count : Nat) (hn : size * count < 2000000000) (hz : size < 2000000000) (w : W) (e : Nat) (he : 0 < e) (he' : e < 4096) (w' : W)
    (hr : os.read fd buf (size * count : Nat) w = (-(e : Int), w')) :
    (size = 0 → fread (linux os) g fd buf size count w = .ub) ∧ (0 < size → ∃ r : Nat, count < r ∧ fread (linux os) g fd buf size count w = .ok (.ret r w')) := by
  have h1 : size * count % 4294967296 = size * count := Nat.mod_eq_of_lt (by omega)
  have h2 : (-(e : Int) % 4294967296) = ((4294967296 - e : Nat) : Int) := by omega
  have h3 : read (linux os) g fd buf (size * count : Nat) w = .ret (-(e : Int)) w' := by
    have : read (linux os) g fd buf (size * count : Nat) w = ret (os.read fd buf (size * count : Nat) w) := rfl
    rw [this, hr]; rfl
  refine ⟨fun hs => ?_, fun hs => ⟨(4294967296 - e) / size, ?_, ?_⟩⟩
  · rw [fread, h1, h3]; dsimp only; rw [if_pos hs]
  · rw [← Nat.succ_le_iff, Nat.le_div_iff_mul_le hs, Nat.succ_mul, Nat.mul_comm]
    omega
  · rw [fread, h1, h3]; dsimp only; rw [if_neg (by omega), h2]; simp

/-- Eight bytes of two items. -/
example : ∃ b, fwrite (linux (disk 4 90000)) ⟨0, 0, 0, 0⟩ (fun c w => { w with byte := c }) 90000 4 [1, 2, 3, 4, 5, 6, 7, 8, 9] 4 2 ⟨0, [7]⟩ = .ret 2 ⟨b, [7, 1, 2, 3, 4, 5, 6, 7, 8]⟩ :=
  C56_fwrite_partial _ _ _ [1, 2, 3, 4, 5, 6, 7, 8] [9] 4 2 rfl (by decide) _

/-- An error. -/
def broken : Os Unit where
  read := fun _ _ _ w => (-5, w)
  write := fun _ _ _ w => (-9, w)
  open_ := fun _ _ _ w => (-14, w)
  close := fun _ w => (-9, w)

example : fread (linux broken) ⟨0, 0, 0, 0⟩ 0 70000 1 10 () = .ok (.ret 4294967291 ()) ∧ Refuses broken := ⟨rfl, fun _ _ _ _ => rfl⟩

end Verif.Crt
