import Verif.Code.Proofs2
import Verif.X86.Props
/-! # C27 and C28: little-endian emission and label resolution -/
namespace Verif.Code
open Spec

/-! ### C27 -/

theorem enc32 (n : Int) : Encodes 4 (Int.bmod n (2 ^ 32)) (ints (X86.i32le n)) := by
  refine ⟨rfl, ?_, ?_⟩
  · intro b hb
    simp only [ints, List.mem_map] at hb
    obtain ⟨x, hx, rfl⟩ := hb
    have := i32le_lt n x hx
    omega
  · simp only [ints, X86.i32le, List.map_cons, List.map_nil, value, b8_int, Int.reducePow, Int.mul_zero,
      Int.add_zero, Nat.reduceMul, Nat.reducePow]
    rw [← Int.emod_bmod n 4294967296]
    congr 1
    omega

theorem enc64 (n : Int) (h : -2147483648 ≤ n) (h' : n < 2147483648) :
    Encodes 8 n (ints (X86.i32le n) ++ ints (X86.i32le (n / 2^31))) := by
  refine ⟨rfl, ?_, ?_⟩
  · intro b hb
    simp only [ints, List.mem_append, List.mem_map] at hb
    rcases hb with ⟨x, hx, rfl⟩ | ⟨x, hx, rfl⟩
    · have := i32le_lt n x hx; omega
    · have := i32le_lt _ x hx; omega
  · have hv : ∀ m : Int, value (ints (X86.i32le m)) = m % 4294967296 := by
      intro m
      simp only [ints, X86.i32le, List.map_cons, List.map_nil, value, b8_int, Int.reducePow, Int.mul_zero,
        Int.add_zero]
      omega
    have ha : ∀ a b : List Int, a.length = 4 → value (a ++ b) = value a + 4294967296 * value b := by
      intro a b hl
      match a, hl with
      | [a0, a1, a2, a3], _ => simp only [List.cons_append, List.nil_append, value]; omega
    rw [ha _ _ rfl, hv, hv]
    simp only [Nat.reduceMul, Nat.reducePow, Int.reducePow]
    have : n / 2147483648 = 0 ∨ n / 2147483648 = -1 := by omega
    rw [Int.bmod_def]
    rcases this with e | e <;> rw [e] <;> split <;> omega

theorem enc_pair (lo hi : Int) :
    Encodes 8 (Int.bmod (lo % 4294967296 + 4294967296 * (hi % 4294967296)) (2 ^ 64))
      (ints (X86.i32le lo) ++ ints (X86.i32le hi)) := by
  refine ⟨rfl, ?_, ?_⟩
  · intro b hb
    simp only [ints, List.mem_append, List.mem_map] at hb
    rcases hb with ⟨x, hx, rfl⟩ | ⟨x, hx, rfl⟩
    · have := i32le_lt _ x hx; omega
    · have := i32le_lt _ x hx; omega
  · have hv : ∀ m : Int, value (ints (X86.i32le m)) = m % 4294967296 := by
      intro m
      simp only [ints, X86.i32le, List.map_cons, List.map_nil, value, b8_int, Int.reducePow, Int.mul_zero,
        Int.add_zero]
      omega
    have ha : ∀ a b : List Int, a.length = 4 → value (a ++ b) = value a + 4294967296 * value b := by
      intro a b hl
      match a, hl with
      | [a0, a1, a2, a3], _ => simp only [List.cons_append, List.nil_append, value]; omega
    rw [ha _ _ rfl, hv, hv]

/-- The buffer before and after an emission of `k` bytes: they are appended at the fill pointer, the
rest of the state is untouched. -/
def Appends (k : Nat) (v : Int) (s s' : S) : Prop :=
  s'.n = s.n + k ∧ Encodes k v (cells s'.code s.n k) ∧
  (∀ x, x < s.n ∨ s.n + k ≤ x → s'.code x = s.code x) ∧
  s'.addr = s.addr ∧ s'.lfs = s.lfs ∧ s'.fs = s.fs

theorem emits_total (bs : List Nat) (s : S) :
    (s.n + bs.length ≤ MAX_CODE_SIZE ∧ ∃ s', emits bs s = .ok s') ∨
    (s.n + bs.length > MAX_CODE_SIZE ∧ emits bs s = .fatal) ∨ bs = [] := by
  induction bs generalizing s with
  | nil => simp
  | cons b bs ih =>
    simp only [emits, emit_i8, List.length_cons]
    by_cases h : s.n ≥ MAX_CODE_SIZE
    · rw [if_pos h]; right; left; exact ⟨by omega, rfl⟩
    · rw [if_neg h]
      simp only [Res.bind_ok]
      rcases ih { s with code := upd s.code s.n (b % 256), n := s.n + 1 } with ⟨h1, h2⟩ | ⟨h1, h2⟩ | h1
      · left; exact ⟨by simp only at h1; omega, h2⟩
      · right; left; exact ⟨by simp only at h1; omega, h2⟩
      · subst h1; left; exact ⟨by simp; omega, _, rfl⟩

/-- **C27, 32 bits.** `emit_i32_le(n)` appends exactly 4 bytes, the little-endian two's complement
encoding of `n` (of `n` modulo 2^32 in general), and changes nothing else; it fails only (with the
error message) when the buffer is full. -/
theorem C27_i32 (n : Int) (s : S) :
    (s.n + 4 ≤ MAX_CODE_SIZE → ∃ s', emit_i32_le n s = .ok s' ∧ Appends 4 (Int.bmod n (2 ^ 32)) s s' ∧
      (inRange 4 n → Appends 4 n s s')) ∧
    (¬ s.n + 4 ≤ MAX_CODE_SIZE → emit_i32_le n s = .fatal) := by
  rw [emits_i32]
  have ht := emits_total (X86.i32le n) s
  rw [i32le_length] at ht
  constructor
  · intro hn
    rcases ht with ⟨_, s', hs⟩ | ⟨h, _⟩ | h
    · have e := emits_ok (i32le_lt n) hs
      have ap : ∀ v, Encodes 4 v (ints (X86.i32le n)) → Appends 4 v s s' := by
        intro v hv
        subst e
        refine ⟨rfl, ?_, ?_, rfl, rfl, rfl⟩
        · show Encodes 4 v (cells (writeList s.code s.n (ints (X86.i32le n))) s.n 4)
          rw [cells_writeList _ _ (ints (X86.i32le n)) 4 rfl]; exact hv
        · intro x hx
          rcases hx with hx | hx
          · exact writeList_lt _ _ _ hx
          · exact writeList_ge _ _ _ (by simpa [ints, i32le_length] using hx)
      refine ⟨s', hs, ap _ (enc32 n), fun hr => ap _ ?_⟩
      have := enc32 n
      have hb : Int.bmod n (2 ^ 32) = n := by
        rw [Int.bmod_def]
        simp only [inRange, Nat.reduceMul, Nat.reduceSub, Int.reducePow] at hr
        simp only [Nat.reducePow]
        split <;> omega
      rwa [hb] at this
    · omega
    · cases h
  · intro hn
    rcases ht with ⟨h, _⟩ | ⟨_, h⟩ | h
    · omega
    · exact h
    · cases h

theorem two_i32 (a b : Int) (s s' : S) (v : Int)
    (hv : Encodes 8 v (ints (X86.i32le a) ++ ints (X86.i32le b)))
    (h : (emit_i32_le a s).bind (fun s => emit_i32_le b s) = .ok s') : Appends 8 v s s' := by
  rw [Res.bind_eq_ok] at h
  obtain ⟨s1, h1, h2⟩ := h
  rw [emits_i32] at h1 h2
  have e1 := emits_ok (i32le_lt a) h1
  have e2 := emits_ok (i32le_lt b) h2
  subst e1
  subst e2
  have e : writeList (writeList s.code s.n (ints (X86.i32le a))) (s.n + (X86.i32le a).length)
      (ints (X86.i32le b)) = writeList s.code s.n (ints (X86.i32le a) ++ ints (X86.i32le b)) := by
    rw [writeList_append]; simp [ints]
  simp only [e]
  refine ⟨by simp [i32le_length], ?_, ?_, rfl, rfl, rfl⟩
  · rw [cells_writeList _ _ _ _ (by simp [ints, i32le_length])]; exact hv
  · intro x hx
    rcases hx with hx | hx
    · exact writeList_lt _ _ _ hx
    · exact writeList_ge _ _ _ (by simpa [ints, i32le_length] using hx)

/-- Two consecutive 4-byte emissions succeed iff there is room for 8 bytes. -/
theorem two_i32_total (a b : Int) (s : S) :
    (s.n + 8 ≤ MAX_CODE_SIZE → ∃ s', (emit_i32_le a s).bind (fun s => emit_i32_le b s) = .ok s') ∧
    (¬ s.n + 8 ≤ MAX_CODE_SIZE → (emit_i32_le a s).bind (fun s => emit_i32_le b s) = .fatal) := by
  constructor
  · intro h
    obtain ⟨s1, h1, ⟨hn, _⟩, _⟩ := (C27_i32 a s).1 (by omega)
    obtain ⟨s2, h2, _⟩ := (C27_i32 b s1).1 (by omega)
    exact ⟨s2, by rw [h1]; exact h2⟩
  · intro h
    by_cases h4 : s.n + 4 ≤ MAX_CODE_SIZE
    · obtain ⟨s1, h1, ⟨hn, _⟩, _⟩ := (C27_i32 a s).1 h4
      rw [h1]
      exact (C27_i32 b s1).2 (by omega)
    · rw [(C27_i32 a s).2 h4]; rfl

/-- **C27, 64 bits.** `emit_i64_le(n)` appends exactly 8 bytes encoding the int `n` in 64-bit two's
complement, or reports a full buffer. -/
theorem C27_i64 (n : Int) (hn : inRange 4 n) (s : S) :
    (s.n + 8 ≤ MAX_CODE_SIZE → ∃ s', emit_i64_le n s = .ok s' ∧ Appends 8 n s s') ∧
    (¬ s.n + 8 ≤ MAX_CODE_SIZE → emit_i64_le n s = .fatal) := by
  simp only [inRange, Nat.reduceMul, Nat.reduceSub, Int.reducePow] at hn
  refine ⟨fun h => ?_, fun h => (two_i32_total _ _ s).2 h⟩
  obtain ⟨s', hs'⟩ := (two_i32_total n (n / 2^31) s).1 h
  exact ⟨s', hs', two_i32 _ _ _ _ _ (enc64 n hn.1 hn.2) hs'⟩

/-- **C27, 64-bit literals.** `emit_i64_le_large_imm` emits the 8-byte encoding of the number held by
an integer object (modulo 2^64, in two's complement). -/
theorem C27_i64_large (heap : Nat → Int) (obj : Int) (hobj : -2147483647 ≤ obj) (s : S)
    (h : s.n + 8 ≤ MAX_CODE_SIZE) :
    ∃ s', emit_i64_le_large_imm heap obj s = .ok s' ∧
      Appends 8 (Int.bmod (objVal heap obj) (2 ^ 64)) s s' := by
  unfold emit_i64_le_large_imm objVal
  by_cases h0 : obj ≤ 0
  · simp only [h0, if_true]
    obtain ⟨s', h1, h2⟩ := (C27_i64 (-obj)
      (by simp only [inRange, Nat.reduceMul, Nat.reduceSub, Int.reducePow]; omega) s).1 h
    refine ⟨s', h1, ?_⟩
    have : Int.bmod (-obj) (2 ^ 64) = -obj := by
      rw [Int.bmod_def]; simp only [Nat.reducePow]; split <;> omega
    rw [this]; exact h2
  · simp only [h0, if_false]
    obtain ⟨s', hs'⟩ := (two_i32_total (heap obj.toNat) (heap (obj.toNat + 1)) s).1 h
    exact ⟨s', hs', two_i32 _ _ _ _ _ (enc_pair _ _) hs'⟩

/-- **C27, 32-bit immediates from literals.** `emit_i32_le_large_imm` emits the 4-byte encoding of the
number when it fits in 32 bits (unsigned) and reports an overflow otherwise. Heap words hold 32-bit
values. -/
theorem C27_i32_large (heap : Nat → Int) (hheap : ∀ a, inRange 4 (heap a)) (obj : Int)
    (hobj : -2147483647 ≤ obj) (s : S) (h : s.n + 4 ≤ MAX_CODE_SIZE) :
    (objVal heap obj < 4294967296 → ∃ s', emit_i32_le_large_imm heap obj s = .ok s' ∧
      Appends 4 (Int.bmod (objVal heap obj) (2 ^ 32)) s s') ∧
    (4294967296 ≤ objVal heap obj → emit_i32_le_large_imm heap obj s = .fatal) := by
  unfold emit_i32_le_large_imm objVal
  by_cases h0 : obj ≤ 0
  · simp only [h0, if_true]
    obtain ⟨s', h1, h2, _⟩ := (C27_i32 (-obj) s).1 h
    exact ⟨fun _ => ⟨s', h1, h2⟩, fun hh => by omega⟩
  · simp only [h0, if_false]
    have hr := hheap (obj.toNat + 1)
    simp only [inRange, Nat.reduceMul, Nat.reduceSub, Int.reducePow] at hr
    by_cases hz : heap (obj.toNat + 1) = 0
    · rw [if_neg (by simp [hz])]
      obtain ⟨s', h1, h2, _⟩ := (C27_i32 (heap obj.toNat) s).1 h
      refine ⟨fun _ => ⟨s', h1, ?_⟩, fun hh => by rw [hz] at hh; omega⟩
      rw [hz]
      simp only [Int.zero_emod, Int.mul_zero, Int.add_zero]
      have : Int.bmod (heap obj.toNat % 4294967296) (2 ^ 32) = Int.bmod (heap obj.toNat) (2 ^ 32) :=
        Int.emod_bmod (heap obj.toNat) (2 ^ 32)
      rw [this]
      exact h2
    · rw [if_pos hz]
      exact ⟨fun hh => by omega, fun _ => rfl⟩

/-- **C27, header fields.** `write_i32_le(n)` appends the 4-byte encoding of `n` to the file. -/
theorem C27_write (n : Int) (out : List Int) :
    ∃ bs, write_i32_le n out = out ++ bs ∧ Encodes 4 (Int.bmod n (2 ^ 32)) bs ∧
      (inRange 4 n → Encodes 4 n bs) := by
  refine ⟨ints (X86.i32le n), ?_, enc32 n, ?_⟩
  · simp [write_i32_le, write_i8, ints, X86.i32le, b8_int]
  · intro hr
    have := enc32 n
    have hb : Int.bmod n (2 ^ 32) = n := by
      rw [Int.bmod_def]
      simp only [inRange, Nat.reduceMul, Nat.reduceSub, Int.reducePow] at hr
      simp only [Nat.reducePow]
      split <;> omega
    rwa [hb] at this

/-- Non-vacuity: -2 in 4 and 8 bytes. -/
example : Encodes 4 (-2) [254, 255, 255, 255] ∧ Encodes 8 (-2) [254, 255, 255, 255, 255, 255, 255, 255] := by
  refine ⟨⟨rfl, by decide, by decide⟩, rfl, by decide, by decide⟩

/-! ### C28 -/

/-- bytes at a position -/
def Holds (s : S) (p : Nat) (bs : List Nat) : Prop := cells s.code p bs.length = ints bs

theorem run_inv' {w : Nat} {kind : Nat → Kind} {ops : List Op} {s : S} (hpos : DefsPositive w ops)
    (hr : run w kind ops S.init = .ok s) : Inv w kind ops.reverse s := by
  have := run_inv (h := []) (os := ops) (Inv.init w kind) ?_ hr
  · simpa using this
  · intro d hd l hdef
    simp only [List.append_nil] at hd
    obtain ⟨pre, post, e1, e2, _⟩ := items_inv w _ d hd
    rw [List.reverse_reverse] at e1
    rw [e2]
    exact hpos pre d.op post l e1 (by simpa [isDef] using hdef)

theorem run_bound (w : Nat) (kind : Nat → Kind) : ∀ (os : List Op) (s s' : S), s.n ≤ 500000 → run w kind os s = .ok s' → s'.n ≤ 500000 := by
  intro os
  induction os with
  | nil => intro s s' h hr; simp only [run] at hr; injection hr with hr; subst hr; exact h
  | cons o os ih =>
    intro s s' h hr
    simp only [run] at hr
    rw [Res.bind_eq_ok] at hr
    obtain ⟨s1, ha, hb⟩ := hr
    refine ih s1 s' ?_ hb
    have emits_n : ∀ (bs : List Nat) (s s' : S), s.n ≤ 500000 → emits bs s = .ok s' → s'.n ≤ 500000 := by
      intro bs s s' h he
      rcases emits_total bs s with ⟨h1, _⟩ | ⟨_, h2⟩ | h2
      · have hh : ∀ (bs : List Nat) (s s' : S), emits bs s = .ok s' → s'.n = s.n + bs.length := by
          intro bs
          induction bs with
          | nil => intro s s' h; simp [emits] at h; subst h; rfl
          | cons b bs ih =>
            intro s s' h
            simp only [emits] at h
            rw [Res.bind_eq_ok] at h
            obtain ⟨s1, h1, h2⟩ := h
            obtain ⟨_, rfl⟩ := emit_i8_ok h1
            rw [ih _ _ h2]; simp; omega
        rw [hh bs s s' he]; exact h1
      · rw [h2] at he; cases he
      · subst h2; simp only [emits] at he; injection he with he; subst he; exact h
    cases o with
    | emit b =>
      obtain ⟨hlt, rfl⟩ := emit_i8_ok ha
      simp only [MAX_CODE_SIZE] at hlt
      simp only
      omega
    | use l =>
      simp only [Op.run, use_label] at ha
      split at ha
      · cases ha
      split at ha
      · rw [emits_i32] at ha; exact emits_n _ _ _ h ha
      · rw [Res.bind_eq_ok] at ha
        obtain ⟨s2, h1, h2⟩ := ha
        injection h2 with h2
        subst h2
        rw [emits_i32] at h1
        exact emits_n _ _ s2 h h1
    | defl l =>
      simp only [Op.run, def_label] at ha
      split at ha
      · cases ha
      split at ha
      · cases ha
      rw [Res.bind_eq_ok] at ha
      obtain ⟨s2, h1, h2⟩ := ha
      injection h2 with h2
      subst h2
      exact h
    | goto l =>
      simp only [Op.run, jump_to_goto_label] at ha
      split at ha
      · cases ha
      split at ha
      · rw [Res.bind_eq_ok] at ha
        obtain ⟨s2, h1, h2⟩ := ha
        rw [Res.bind_eq_ok] at h2
        obtain ⟨s3, h3, h4⟩ := h2
        exact emits_n _ _ _ (by exact emits_n _ _ s2 h h1) h4
      · rw [Res.bind_eq_ok] at ha
        obtain ⟨s2, h1, h2⟩ := ha
        rw [Res.bind_eq_ok] at h2
        obtain ⟨s3, h3, h4⟩ := h2
        injection h4 with h4
        subst h4
        exact emits_n _ _ s3 (emits_n _ _ _ h h1) h3
    | defg l =>
      simp only [Op.run, def_goto_label] at ha
      split at ha
      · cases ha
      split at ha
      · cases ha
      rw [Res.bind_eq_ok] at ha
      obtain ⟨s2, h1, h2⟩ := ha
      injection h2 with h2
      subst h2
      exact h
    | setfs v => simp only [Op.run] at ha; injection ha with ha; subst ha; exact h

/-- **C28, label operands.** Whatever the order of uses and definitions of labels, once the code is
complete, the 4 bytes of every use of a label that is defined somewhere hold the displacement from
the end of the operand to the place of the definition. -/
theorem C28_use (w : Nat) (kind : Nat → Kind) (ops : List Op) (s : S) (hpos : DefsPositive w ops)
    (hr : run w kind ops S.init = .ok s) (l : Nat) (pre post pre' post' : List Op)
    (hu : ops = pre ++ .use l :: post) (hd : ops = pre' ++ .defl l :: post') :
    Encodes 4 ((size w pre' : Int) - (size w pre + 4)) (cells s.code (size w pre) 4) := by
  have iv := run_inv' hpos hr
  have hui := items_split w pre (.use l) post
  have hdi := items_split w pre' (.defl l) post'
  rw [← hu] at hui
  rw [← hd] at hdi
  have := (iv.defd l _ hdi (by simp [isDef])).2.2 _ hui (by simp [isUse])
  simp only [size1, fill] at this
  rw [this]
  have hsz : ∀ p q, ops = p ++ q → size w p ≤ 500000 := by
    intro p q e
    have h1 : size w p ≤ size w ops := by rw [e, size_append]; omega
    have h2 : s.n = size w ops := by rw [iv.n, size_reverse]
    have := run_bound w kind ops S.init s (by simp [S.init]) hr
    omega
  have hp1 := hsz _ _ hu
  have hp2 := hsz _ _ hd
  have hb : Int.bmod ((size w pre' : Int) - ((size w pre + 4 : Nat) : Int)) (2 ^ 32) =
      (size w pre' : Int) - (size w pre + 4) := by
    rw [Int.bmod_def]; simp only [Nat.reducePow]; split <;> omega
  have := enc32 ((size w pre' : Int) - ((size w pre + 4 : Nat) : Int))
  rwa [hb] at this

/-- **C28, gotos.** A `goto` becomes an adjustment of the stack pointer from the frame size at the
goto to the frame size at the label, then a jump whose displacement leads to the label. -/
theorem C28_goto (w : Nat) (kind : Nat → Kind) (ops : List Op) (s : S) (hpos : DefsPositive w ops)
    (hr : run w kind ops S.init = .ok s) (l : Nat) (pre post pre' post' : List Op)
    (hu : ops = pre ++ .goto l :: post) (hd : ops = pre' ++ .defg l :: post') :
    Holds s (size w pre) (X86.add_reg_imm w 4 ((fsAt 0 pre - fsAt 0 pre') * w) ++
      X86.jump_rel ((size w pre' : Int) - (size w pre + size1 w (.goto l) : Nat))) := by
  have iv := run_inv' hpos hr
  have hui := items_split w pre (.goto l) post
  have hdi := items_split w pre' (.defg l) post'
  rw [← hu] at hui
  rw [← hd] at hdi
  have := (iv.defd l _ hdi (by simp [isDef])).2.2 _ hui (by simp [isUse])
  simp only [fill] at this
  unfold Holds
  have hlen : (X86.add_reg_imm w 4 ((fsAt 0 pre - fsAt 0 pre') * w) ++
      X86.jump_rel ((size w pre' : Int) - (size w pre + size1 w (.goto l) : Nat))).length =
      size1 w (.goto l) := by
    simp only [List.length_append, add_reg_imm_length, jump_rel_length, size1]; exact goto_size w
  rw [hlen, this]
  simp only [ints, List.map_append]
  congr 3
  · congr 1; omega

/-- **C28, other bytes.** Every other byte emitted is in the final code as emitted: patching alters
nothing but label operands. The final size is the sum of the sizes. -/
theorem C28_bytes_kept (w : Nat) (kind : Nat → Kind) (ops : List Op) (s : S) (hpos : DefsPositive w ops)
    (hr : run w kind ops S.init = .ok s) :
    s.n = size w ops ∧ ∀ b pre post, ops = pre ++ .emit b :: post → s.code (size w pre) = b % 256 := by
  have iv := run_inv' hpos hr
  refine ⟨by rw [iv.n, size_reverse], ?_⟩
  intro b pre post e
  have hi := items_split w pre (.emit b) post
  rw [← e] at hi
  exact iv.emit _ hi b rfl

/-- **C28, undefined labels.** In `SAFE_MODE` the final check passes iff every allocated label that
is used is defined. -/
theorem C28_undefined_detected (w : Nat) (kind : Nat → Kind) (ops : List Op) (s : S)
    (hpos : DefsPositive w ops) (hr : run w kind ops S.init = .ok s) (labels : List Nat) :
    assert_all_labels_defined labels s = true ↔
      ∀ l ∈ labels, (.use l ∈ ops ∨ .goto l ∈ ops) → (.defl l ∈ ops ∨ .defg l ∈ ops) := by
  have iv := run_inv' hpos hr
  have mem_items : ∀ (h : List Op) (o : Op), o ∈ h → ∃ i ∈ items w h, i.op = o := by
    intro h
    induction h with
    | nil => simp
    | cons x h ih =>
      intro o ho
      simp only [List.mem_cons] at ho
      rcases ho with rfl | ho
      · exact ⟨⟨size w h, o, fsR h⟩, by simp [items], rfl⟩
      · obtain ⟨i, hi, e⟩ := ih o ho
        exact ⟨i, by simp [items, hi], e⟩
  have of_items : ∀ (h : List Op) (i : It), i ∈ items w h → i.op ∈ h := by
    intro h
    induction h with
    | nil => simp [items]
    | cons x h ih =>
      intro i hi
      simp only [items, List.mem_cons] at hi
      rcases hi with rfl | hi
      · simp
      · exact List.mem_cons_of_mem _ (ih i hi)
  have key : ∀ l, ¬ s.addr l > 0 ↔
      ((.use l ∈ ops ∨ .goto l ∈ ops) → (.defl l ∈ ops ∨ .defg l ∈ ops)) := by
    intro l
    rcases defined_or (w := w) (h := ops.reverse) l with ⟨d, hd, hdef⟩ | hnone
    · have ha := (iv.defd l d hd hdef).1
      refine ⟨fun _ _ => ?_, fun _ => by omega⟩
      have := of_items _ d hd
      simp only [List.mem_reverse] at this
      simp [isDef] at hdef
      rcases hdef with e | e <;> rw [e] at this
      · exact .inl this
      · exact .inr this
    · have hc := iv.pend l hnone
      cases hU : uses w ops.reverse l with
      | nil =>
        rw [hU] at hc
        simp only [Chain] at hc
        refine ⟨fun _ hu => ?_, fun _ => by omega⟩
        exfalso
        have : ∃ i ∈ items w ops.reverse, isUse l i.op := by
          rcases hu with hu | hu
          · obtain ⟨i, hi, e⟩ := mem_items ops.reverse (.use l) (by simpa using hu)
            exact ⟨i, hi, by simp [isUse, e]⟩
          · obtain ⟨i, hi, e⟩ := mem_items ops.reverse (.goto l) (by simpa using hu)
            exact ⟨i, hi, by simp [isUse, e]⟩
        obtain ⟨i, hi, he⟩ := this
        have : i ∈ uses w ops.reverse l := mem_uses.2 ⟨hi, he⟩
        rw [hU] at this
        cases this
      | cons i t =>
        have hi : i ∈ uses w ops.reverse l := by rw [hU]; simp
        obtain ⟨hi1, hi2⟩ := mem_uses.1 hi
        rw [hU] at hc
        have h4 := size1_use (w := w) hi2
        have ha := hc.1
        refine ⟨fun hh => ?_, fun hh => ?_⟩
        · exfalso; apply hh; rw [ha]; simp only [It.fin]; omega
        · exfalso
          have hmem := of_items _ i hi1
          simp only [List.mem_reverse] at hmem
          have : .defl l ∈ ops ∨ .defg l ∈ ops := by
            apply hh
            simp [isUse] at hi2
            rcases hi2 with e | e <;> rw [e] at hmem
            · exact .inl hmem
            · exact .inr hmem
          rcases this with hm | hm
          · obtain ⟨j, hj, e⟩ := mem_items ops.reverse (.defl l) (by simpa using hm)
            exact hnone j hj (by simp [isDef, e])
          · obtain ⟨j, hj, e⟩ := mem_items ops.reverse (.defg l) (by simpa using hm)
            exact hnone j hj (by simp [isDef, e])
  unfold assert_all_labels_defined
  rw [List.all_eq_true]
  constructor
  · intro h l hl
    have := h l hl
    exact (key l).1 (by simpa using this)
  · intro h l hl
    have := (key l).2 (h l hl)
    simpa using this

/-- A program whose first operation emits a byte (pnut starts with a jump, exe.c:1735) defines no
label at position 0. -/
theorem C28_first_byte (w : Nat) (b : Int) (ops : List Op) : DefsPositive w (.emit b :: ops) := by
  intro pre o post l e ho
  cases pre with
  | nil => simp at e; rcases ho with rfl | rfl <;> simp at e
  | cons x pre =>
    simp at e
    rw [← e.1]
    simp only [size, size1]
    omega

/-! Where the full property fails: a label defined before any code is taken for undefined. -/
theorem C28_label_at_zero_false :
    ∃ s, run 8 (fun _ => .generic) [.defl 0, .emit 0xe9, .use 0] S.init = .ok s ∧
      cells s.code 1 4 = [0, 0, 0, 0] ∧
      ¬ Encodes 4 (0 - (1 + 4)) (cells s.code 1 4) := by
  refine ⟨_, rfl, by decide +kernel, ?_⟩
  intro h
  exact absurd h.2.2 (by decide +kernel)

/-! Non-vacuity: two forward uses and a backward use, a forward and a backward goto. -/
def demo : List Op := [.emit 0xe9, .use 0, .emit 0xe8, .use 0, .emit 0x90, .defl 0, .emit 0xe9, .use 0]
example : ∃ s, run 8 (fun _ => .generic) demo S.init = .ok s ∧
    cells s.code 0 16 = [0xe9, 6, 0, 0, 0, 0xe8, 1, 0, 0, 0, 0x90, 0xe9, 251, 255, 255, 255] :=
  ⟨_, rfl, by decide +kernel⟩
def demoG : List Op := [.emit 0x90, .setfs 3, .goto 1, .setfs 1, .emit 0x90, .defg 1, .setfs 4, .goto 1]
example : ∃ s, run 4 (fun _ => .goto) demoG S.init = .ok s ∧
    cells s.code 0 24 = [0x90, 0x81, 0xc4, 8, 0, 0, 0, 0xe9, 1, 0, 0, 0, 0x90,
      0x81, 0xc4, 12, 0, 0, 0, 0xe9, 0xf5, 255, 255, 255] :=
  ⟨_, rfl, by decide +kernel⟩
example : DefsPositive 8 demo ∧ DefsPositive 4 demoG := ⟨C28_first_byte _ _ _, C28_first_byte _ _ _⟩

end Verif.Code
