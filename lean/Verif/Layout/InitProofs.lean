import Verif.Layout.InitSpec
import Verif.Layout.Proofs
namespace Verif.Layout
open Verif Verif.Layout.Spec

theorem store_out : ∀ (k : Nat) (m : Mem) (a : Nat) (v : Int) (x : Nat), (x < a ∨ a + k ≤ x) →
    store m a v k x = m x := by
  intro k
  induction k with
  | zero => intro m a v x _; rfl
  | succ k ih =>
    intro m a v x h
    rw [store, ih _ _ _ _ (by omega)]
    rw [if_neg (by omega)]

theorem store_in : ∀ (k : Nat) (m : Mem) (a : Nat) (v : Int) (i : Nat), i < k →
    store m a v k (a + i) = (v / 256 ^ i % 256).toNat := by
  intro k
  induction k with
  | zero => intro m a v i h; omega
  | succ k ih =>
    intro m a v i h
    rw [store]
    cases i with
    | zero => rw [store_out _ _ _ _ _ (by omega)]; simp
    | succ i =>
      have := ih (fun x => if x = a then (v % 256).toNat else m x) (a + 1) (v / 256) i (by omega)
      rw [show a + (i + 1) = a + 1 + i by omega, this]
      congr 2
      rw [Int.pow_succ', Int.ediv_ediv_of_nonneg (by decide)]

theorem load_congr : ∀ (k : Nat) (m m' : Mem) (a a' : Nat), (∀ i, i < k → m (a + i) % 256 = m' (a' + i) % 256) →
    load m a k = load m' a' k := by
  intro k
  induction k with
  | zero => intro m m' a a' _; rfl
  | succ k ih =>
    intro m m' a a' h
    rw [load, load, ih m m' (a + 1) (a' + 1) (fun i hi => by
      have := h (i + 1) (by omega)
      rw [show a + (i + 1) = a + 1 + i by omega, show a' + (i + 1) = a' + 1 + i by omega] at this
      exact this)]
    have := h 0 (by omega)
    simp only [Nat.add_zero] at this
    rw [this]

theorem load_zero : ∀ (k : Nat) (m : Mem) (a : Nat), (∀ i, i < k → m (a + i) = 0) → load m a k = 0 := by
  intro k
  induction k with
  | zero => intro m a _; rfl
  | succ k ih =>
    intro m a h
    rw [load, ih m (a + 1) (fun i hi => by
      have := h (i + 1) (by omega)
      rwa [show a + (i + 1) = a + 1 + i by omega] at this)]
    have := h 0 (by omega)
    simp only [Nat.add_zero] at this
    rw [this]

theorem load_store : ∀ (k : Nat) (m : Mem) (a : Nat) (v : Int),
    (load (store m a v k) a k : Int) = v % (2 ^ (8 * k) : Nat) := by
  intro k
  induction k with
  | zero => intro m a v; simp [load]
  | succ k ih =>
    intro m a v
    rw [load, store]
    have h0 := store_out k (fun x => if x = a then (v % 256).toNat else m x) (a + 1) (v / 256) a (by omega)
    rw [h0]
    simp only [if_true]
    rw [Int.natCast_add, Int.natCast_mul, Int.natCast_emod, ih]
    have e : ((2 ^ (8 * (k + 1)) : Nat) : Int) = 256 * ((2 ^ (8 * k) : Nat) : Int) := by
      rw [show 8 * (k + 1) = 8 + 8 * k by omega, Nat.pow_add, Int.natCast_mul]; rfl
    rw [e]
    have hb : ((v % 256).toNat : Int) = v % 256 := Int.toNat_of_nonneg (Int.emod_nonneg _ (by decide))
    rw [hb]
    have hm : (v % 256) % ((256 : Nat) : Int) = v % 256 := Int.emod_emod_of_dvd _ (Int.dvd_refl _)
    rw [hm]
    rw [show ((256 : Nat) : Int) = 256 from rfl]
    generalize ((2 ^ (8 * k) : Nat) : Int) = P
    have h1 := Int.mul_ediv_add_emod v 256
    have h2 := Int.emod_def (v / 256) P
    have h3 := Int.emod_def v (256 * P)
    rw [← Int.ediv_ediv_of_nonneg (by decide : (0:Int) ≤ 256)] at h3
    rw [h2, h3]
    generalize v / 256 / P = c at *
    have : 256 * P * c = 256 * (P * c) := by rw [Int.mul_assoc]
    rw [this]
    generalize P * c = z
    omega

theorem load_byte : ∀ (k : Nat) (m : Mem) (a i : Nat), i < k →
    ((load m a k : Int) / 256 ^ i % 256).toNat = m (a + i) % 256 := by
  intro k
  induction k with
  | zero => intro m a i h; omega
  | succ k ih =>
    intro m a i h
    rw [load]
    cases i with
    | zero => simp; omega
    | succ i =>
      have := ih m (a + 1) i (by omega)
      rw [show a + (i + 1) = a + 1 + i by omega, ← this]
      congr 2
      rw [Int.pow_succ', ← Int.ediv_ediv_of_nonneg (by decide)]
      congr 1
      rw [Int.natCast_add, Int.natCast_mul, Int.natCast_emod, show ((256 : Nat) : Int) = 256 from rfl]
      omega

theorem zero_words_get (w : Nat) : ∀ (n : Nat) (m : Mem) (a x : Nat),
    zero_words w m a n x = if a ≤ x ∧ x < a + n * w then 0 else m x := by
  intro n
  induction n with
  | zero => intro m a x; rw [zero_words, if_neg (by omega)]
  | succ n ih =>
    intro m a x
    rw [zero_words, ih]
    have e : (n + 1) * w = n * w + w := by rw [Nat.add_mul]; omega
    by_cases h1 : a + w ≤ x ∧ x < a + w + n * w
    · rw [if_pos h1, if_pos (by omega)]
    · rw [if_neg h1]
      by_cases h2 : a ≤ x ∧ x < a + w
      · rw [if_pos (by omega)]
        obtain ⟨i, rfl⟩ : ∃ i, x = a + i := ⟨x - a, by omega⟩
        rw [store_in _ _ _ _ _ (by omega)]; simp
      · rw [if_neg (by omega), store_out _ _ _ _ _ (by omega)]

theorem zero_bytes_get : ∀ (n : Nat) (m : Mem) (a x : Nat),
    zero_bytes m a n x = if a ≤ x ∧ x < a + n then 0 else m x := by
  intro n
  induction n with
  | zero => intro m a x; rw [zero_bytes, if_neg (by omega)]
  | succ n ih =>
    intro m a x
    rw [zero_bytes, ih]
    by_cases h1 : a + 1 ≤ x ∧ x < a + 1 + n
    · rw [if_pos h1, if_pos (by omega)]
    · rw [if_neg h1]
      by_cases h2 : x = a
      · rw [if_pos (by omega)]; subst h2; simp [store]
      · rw [if_neg (by omega), store_out _ _ _ _ _ (by omega)]

theorem initialize_get {w : Nat} (m : Mem) (a width x : Nat) :
    initialize_memory w m a width x = if a ≤ x ∧ x < a + width then 0 else m x := by
  unfold initialize_memory
  rw [zero_bytes_get, zero_words_get]
  have h1 := Nat.mod_le width w
  have h2 := Nat.div_add_mod width w
  have h3 : width / w * w = width - width % w := by rw [Nat.mul_comm]; omega
  rw [h3]
  by_cases h : a + (width - width % w) ≤ x ∧ x < a + (width - width % w) + width % w
  · rw [if_pos h, if_pos (by omega)]
  · rw [if_neg h]
    by_cases h' : a ≤ x ∧ x < a + (width - width % w)
    · rw [if_pos h', if_pos (by omega)]
    · rw [if_neg h', if_neg (by omega)]

theorem copy_words_get (w : Nat) : ∀ (n : Nat) (m : Mem) (dst src : Nat),
    (src + n * w ≤ dst ∨ dst + n * w ≤ src) → ∀ x,
    copy_words w m dst src n x = if dst ≤ x ∧ x < dst + n * w then m (src + (x - dst)) % 256 else m x := by
  intro n
  induction n with
  | zero => intro m dst src _ x; rw [copy_words, if_neg (by omega)]
  | succ n ih =>
    intro m dst src hd x
    have e : (n + 1) * w = n * w + w := by rw [Nat.add_mul]; omega
    rw [e] at hd
    rw [copy_words, ih _ _ _ (by omega) x]
    by_cases h1 : dst + w ≤ x ∧ x < dst + w + n * w
    · rw [if_pos h1, if_pos (by omega), store_out _ _ _ _ _ (by omega)]
      congr 2; omega
    · rw [if_neg h1]
      by_cases h2 : dst ≤ x ∧ x < dst + w
      · rw [if_pos (by omega)]
        obtain ⟨i, rfl⟩ : ∃ i, x = dst + i := ⟨x - dst, by omega⟩
        rw [store_in _ _ _ _ _ (by omega), load_byte _ _ _ _ (by omega)]
        congr 2; omega
      · rw [if_neg (by omega), store_out _ _ _ _ _ (by omega)]

theorem copy_obj_get {w : Nat} (m : Mem) (dst src width : Nat) (hw : w ∣ width)
    (hd : src + width ≤ dst ∨ dst + width ≤ src) (x : Nat) :
    copy_obj w m dst src width x = if dst ≤ x ∧ x < dst + width then m (src + (x - dst)) % 256 else m x := by
  unfold copy_obj
  rw [Nat.mod_eq_zero_of_dvd hw]
  simp only [copy_bytes]
  have h3 : width / w * w = width := Nat.div_mul_cancel hw
  rw [copy_words_get w _ m dst src (by rw [h3]; exact hd), h3]

theorem string_go_get : ∀ (n : Nat) (m : Mem) (a : Nat) (bs : List Nat) (x : Nat),
    string_go m a bs n x = if a ≤ x ∧ x < a + n then bs.getD (x - a) 0 % 256 else m x := by
  intro n
  induction n with
  | zero => intro m a bs x; rw [string_go, if_neg (by omega)]
  | succ n ih =>
    intro m a bs x
    rw [string_go, ih]
    by_cases h1 : a + 1 ≤ x ∧ x < a + 1 + n
    · rw [if_pos h1, if_pos (by omega)]
      rw [show x - a = (x - (a + 1)) + 1 by omega]
      cases bs <;> simp [List.getD]
    · rw [if_neg h1]
      by_cases h2 : x = a
      · rw [if_pos (by omega)]; subst h2
        simp only [store, if_true, Nat.sub_self]
        cases bs <;> simp [List.getD] <;> omega
      · rw [if_neg (by omega), store_out _ _ _ _ _ (by omega)]

theorem word_align_of_dvd {w n : Nat} (hw : 0 < w) (h : w ∣ n) : word_size_align w n = n := by
  have := align_to_ok hw n
  unfold align_to at this
  rw [if_neg (by omega)] at this
  injection this with this
  unfold word_size_align
  rw [this, padTo_of_dvd h]

variable {w : Nat} {sp : List Nat → Int} {m0 : Mem} {loc : Bool} {lo hi : Nat}

/-- What is known before initialising `[off, off + n)`. -/
structure Pre (m0 : Mem) (loc : Bool) (lo hi : Nat) (off n : Nat) (m : Mem) : Prop where
  plo : lo ≤ off
  phi : off + n ≤ hi
  zero : loc = false → ∀ a, off ≤ a → a < off + n → m a = 0
  out : ∀ a, (a < lo ∨ hi ≤ a) → m a = m0 a

theorem Pre.later {off n off' n' : Nat} {m m' : Mem} (h : Pre m0 loc lo hi off n m)
    (h1 : off ≤ off') (h2 : off' + n' ≤ off + n)
    (hf : ∀ a, (a < off ∨ off' ≤ a) → m' a = m a) : Pre m0 loc lo hi off' n' m' := by
  have := h.plo; have := h.phi
  refine ⟨by omega, by omega, fun e a ha hb => ?_, fun a ha => ?_⟩
  · rw [hf a (by omega)]; exact h.zero e a (by omega) (by omega)
  · rw [hf a (by omega)]; exact h.out a ha

theorem scalar_size (hw : w = 4 ∨ w = 8) {T : Ty} (hl : Legal w T) (hs : Scalar T = true) :
    (sizeof w T = 1 ∨ sizeof w T = 2 ∨ sizeof w T = 4 ∨ sizeof w T = 8) ∧ sizeof w T ≤ w := by
  cases T <;> first | (simp [Scalar] at hs; done) | (simp only [Legal] at hl; simp [sizeof]; omega) | (simp [sizeof]; omega) | simp [sizeof]

theorem scalar_part {T : Ty} (hs : Scalar T = true) {p t} (h : part T p = some t) : p = [] ∧ t = T := by
  cases p with
  | nil =>
    cases T <;> simp only [part, Option.some.injEq] at h <;> exact ⟨rfl, h.symm⟩
  | cons i p => cases T <;> simp [Scalar] at hs <;> simp [part] at h

theorem write_ok (hw : w = 4 ∨ w = 8) {T : Ty} (hl : Legal w T) (hs : Scalar T = true) (m : Mem) (off : Nat) (v : Int) :
    write_mem_location w m off v (sizeof w T) = .ok (store m off v (sizeof w T)) := by
  obtain ⟨h1, h2⟩ := scalar_size hw hl hs
  unfold write_mem_location
  rw [if_neg (by omega), if_pos h1]

/-- A scalar stored with value `v`. -/
theorem post_scalar {T : Ty} (hs : Scalar T = true) (m : Mem) (off : Nat) (v : Int) {x : Init}
    (hx : ∀ u, expected w sp m0 T x [] = some u → u = v) :
    Initialised w sp m0 (store m off v (sizeof w T)) T off x ∧
    ∀ a, (a < off ∨ off + sizeof w T ≤ a) → store m off v (sizeof w T) a = m a := by
  refine ⟨?_, fun a ha => store_out _ _ _ _ _ ha⟩
  intro p t u hp _ he
  obtain ⟨rfl, rfl⟩ := scalar_part hs hp
  rw [hx u he]
  simp only [partOff, Nat.add_zero]
  exact load_store _ _ _ _

theorem load_region_zero {T : Ty} {p t} (m : Mem) (off : Nat) (hp : part T p = some t)
    (hz : ∀ a, off ≤ a → a < off + sizeof w T → m a = 0) :
    load m (off + partOff w T p) (sizeof w t) = 0 := by
  have := part_inside (w := w) p T t hp
  exact load_zero _ _ _ (fun i hi => hz _ (by omega) (by omega))

theorem zero_rest_get (hw : w = 4 ∨ w = 8) : ∀ (ms : Ms) (o base : Nat) (m : Mem), LegalMs w ms →
    DenseMs w false ms o → ∃ m', zero_rest w ms (base + o) m = .ok m' ∧
    ∀ x, m' x = if base + o ≤ x ∧ x < base + extent w ms o then 0 else m x := by
  intro ms
  induction ms using Ms.rec (motive_1 := fun _ => True) with
  | nil => intro o base m _ _; exact ⟨m, rfl, fun x => by rw [extent, if_neg (by omega)]⟩
  | cons nm t rest _ ih =>
    intro o base m hl hd
    simp only [LegalMs] at hl
    simp only [DenseMs] at hd
    have e : (if sizeof w t = 0 then o else padTo (alignof w t) o + sizeof w t) = o + sizeof w t := by
      rw [padTo_of_dvd (hd.2.1 trivial)]; split <;> omega
    obtain ⟨m', h1, h2⟩ := ih (o + sizeof w t) base (initialize_memory w m (base + o) (sizeof w t)) hl.2.2 (by simpa using hd.2.2)
    refine ⟨m', ?_, fun x => ?_⟩
    · simp only [zero_rest, (widths hw t hl.2.1).1, Res.bind_ok]
      rw [show base + o + sizeof w t = base + (o + sizeof w t) by omega]; exact h1
    · rw [h2, extent, e, initialize_get]
      have := extent_ge (w := w) rest (o + sizeof w t)
      by_cases k1 : base + (o + sizeof w t) ≤ x ∧ x < base + extent w rest (o + sizeof w t)
      · rw [if_pos k1, if_pos (by omega)]
      · rw [if_neg k1]
        by_cases k2 : base + o ≤ x ∧ x < base + o + sizeof w t
        · rw [if_pos k2, if_pos (by omega)]
        · rw [if_neg k2, if_neg (by omega)]
  | _ => trivial

mutual
theorem init_ok (hw : w = 4 ∨ w = 8) : ∀ (x : Init) (T : Ty) (off : Nat) (m : Mem), Legal w T → Dense w T →
    Fits w lo hi x T → Pre m0 loc lo hi off (sizeof w T) m →
    ∃ m', init_go w sp loc x T off m = .ok m' ∧ Initialised w sp m0 m' T off x ∧
      ∀ a, (a < off ∨ off + sizeof w T ≤ a) → m' a = m a
  | .expr v, T, off, m, hl, _, hf, _ => by
    simp only [Fits] at hf
    have hp := post_scalar (w := w) (sp := sp) (m0 := m0) (x := .expr v) hf m off v
      (fun u hu => by simpa [expected] using hu.symm)
    have hw' := write_ok hw hl hf m off v
    refine ⟨_, ?_, hp⟩
    have h1 := (widths hw T hl).1
    cases T <;> simp [Scalar] at hf <;> simp only [init_go, h1, Res.bind_ok, hw']
  | .str bs, T, off, m, hl, _, hf, hpre => by
    simp only [Fits] at hf
    obtain ⟨hb, ⟨n, rfl, hn⟩ | rfl⟩ := hf
    · refine ⟨string_go m off bs n, ?_, ?_, ?_⟩
      · simp only [init_go, init_string]; rw [if_neg (by omega)]
      · intro p t v hp hs he
        match p with
        | [] => simp only [part, Option.some.injEq] at hp; subst hp; simp [Scalar] at hs
        | [i] =>
          simp only [part] at hp
          split at hp
          · next hi =>
            simp only [Option.some.injEq] at hp; subst hp
            simp only [expected, Option.some.injEq] at he
            simp only [partOff, sizeof, load, string_go_get]
            rw [if_pos (by omega), show off + (i * 1 + 0) - off = i by omega, ← he]
            omega
          · exact absurd hp (by simp)
        | i :: j :: q =>
          simp only [part] at hp
          split at hp
          · exact absurd hp (by simp)
          · exact absurd hp (by simp)
      · intro a ha
        simp only [sizeof] at ha
        rw [string_go_get, if_neg (by omega)]
    · exact ⟨_, by simp only [init_go, init_string]; rfl, post_scalar (T := .ptr) rfl m off (sp bs)
        (fun u hu => by simpa [expected] using hu.symm)⟩
  | .obj src, T, off, m, hl, _, hf, hpre => by
    simp only [Fits] at hf
    obtain ⟨⟨u, ms, rfl⟩, hdv, hsrc⟩ := hf
    have hpos : 0 < w := by omega
    have := hpre.plo; have := hpre.phi
    have hget := copy_obj_get (w := w) m off src _ hdv (by omega)
    refine ⟨copy_obj w m off src (sizeof w (.agg u ms)), ?_, ?_, ?_⟩
    · simp only [init_go, type_width3, (widths hw _ hl).1, Res.bind_ok]
      simp [word_align_of_dvd hpos hdv]
    · intro p t v hp hs he
      have he' : v = (load m0 (src + partOff w (.agg u ms) p) (sizeof w t) : Nat) := by
        cases p <;> simp only [expected, hp, Option.some.injEq] at he <;> exact he.symm
      have hin := part_inside (w := w) p _ t hp
      have e : load (copy_obj w m off src (sizeof w (.agg u ms))) (off + partOff w (.agg u ms) p) (sizeof w t) =
          load m0 (src + partOff w (.agg u ms) p) (sizeof w t) := by
        refine load_congr _ _ _ _ _ (fun i hi' => ?_)
        rw [hget, if_pos (by omega), hpre.out _ (by omega), Nat.mod_mod]
        congr 2; omega
      rw [e, he']
      have hlt : ∀ (k : Nat) (m : Mem) (a : Nat), load m a k < 2 ^ (8 * k) := by
        intro k
        induction k with
        | zero => intro m a; simp [load]
        | succ k ih =>
          intro m a
          have := ih m (a + 1)
          rw [load, show 8 * (k + 1) = 8 + 8 * k by omega, Nat.pow_add]
          have : m a % 256 < 256 := Nat.mod_lt _ (by decide)
          omega
      have := hlt (sizeof w t) m0 (src + partOff w (.agg u ms) p)
      exact (Int.emod_eq_of_lt (by omega) (by omega)).symm
    · intro a ha
      rw [hget, if_neg (by omega)]
  | .list is, T, off, m, hl, hd, hf, hpre => by
    match T with
    | .arr n e =>
      simp only [Fits] at hf
      have hl' : Legal w e := by simpa only [Legal] using hl
      have hd' : Dense w e := by simpa only [Dense] using hd
      simp only [sizeof] at hpre
      obtain ⟨m', h1, h2, h3⟩ := arr_ok hw is e n off m hl' hd' hf hpre
      refine ⟨m', ?_, ?_, ?_⟩
      · simp only [init_go, (widths hw e hl').1, Res.bind_ok, h1]
      · intro p t v hp hs he
        match p with
        | [] => simp only [part, Option.some.injEq] at hp; subst hp; simp [Scalar] at hs
        | i :: q =>
          simp only [part] at hp
          split at hp
          · next hi =>
            simp only [partOff]
            have := h2 i hi q t v hp hs (by
              simp only [expected] at he
              cases hx : nthInit is i <;> simp only [hx] at he ⊢ <;> exact he)
            rw [← this, ← Nat.add_assoc]
          · exact absurd hp (by simp)
      · intro a ha
        simp only [sizeof] at ha
        exact h3 a ha
    | .agg false ms =>
      simp only [Fits] at hf
      simp only [Legal] at hl
      simp only [Dense] at hd
      have hge := padTo_ge (alignofMs w ms) (extent w ms 0)
      have hpre' : Pre m0 loc lo hi (off + 0) (extent w ms 0 - 0) m :=
        hpre.later (by omega) (by simp only [sizeof]; omega) (fun a _ => rfl)
      obtain ⟨m', h1, h2, h3⟩ := struct_ok hw is ms 0 off m hl.2 hd hf hpre'
      refine ⟨m', ?_, ?_, ?_⟩
      · simp only [init_go]; exact h1
      · intro p t v hp hs he
        match p with
        | [] => simp only [part, Option.some.injEq] at hp; subst hp; simp [Scalar] at hs
        | i :: q =>
          simp only [part] at hp
          split at hp
          · next nm t' hn =>
            simp only [partOff, hn]
            have := h2 i nm t' hn q t v hp hs (by
              simp only [expected, hn] at he
              cases hi : nthInit is i <;> simp only [hi] at he ⊢ <;> exact he)
            rw [← this]
            simp only [Bool.false_eq_true, if_false, ← Nat.add_assoc]
          · exact absurd hp (by simp)
      · intro a ha
        simp only [sizeof] at ha
        exact h3 a (by omega)
    | .agg true ms =>
      simp only [Fits] at hf
      match is, ms with
      | .nil, _ => simp [FitsU] at hf
      | .cons _ (.cons _ _), _ => simp [FitsU] at hf
      | .cons _ .nil, .nil => simp [FitsU] at hf
      | .cons x .nil, .cons nm t' rest =>
        simp only [FitsU] at hf
        simp only [Legal, LegalMs] at hl
        simp only [Dense, DenseMs] at hd
        have hge := padTo_ge (alignofMs w (.cons nm t' rest)) (widest w (.cons nm t' rest))
        have hwd := widest_ge (w := w) (.cons nm t' rest) 0 (nm := nm) (t := t') rfl
        have hpre' : Pre m0 loc lo hi off (sizeof w t') m :=
          hpre.later (by omega) (by simp only [sizeof]; omega) (fun a _ => rfl)
        obtain ⟨m', h1, h2, h3⟩ := init_ok hw x t' off m hl.2.2.1 hd.1 hf hpre'
        refine ⟨m', ?_, ?_, ?_⟩
        · simp only [init_go, union_go]; exact h1
        · intro p t v hp hs he
          match p with
          | [] => simp only [part, Option.some.injEq] at hp; subst hp; simp [Scalar] at hs
          | 0 :: q =>
            simp only [part, nth] at hp
            have := h2 q t v hp hs (by simpa only [expected, nth] using he)
            simp only [partOff, nth]
            simpa using this
          | (i + 1) :: q => simp [expected] at he
        · intro a ha
          simp only [sizeof] at ha
          exact h3 a (by omega)
    | .void | .char | .short | .int | .long | .enum | .ptr =>
      all_goals
        simp only [Fits] at hf
        obtain ⟨v, rfl⟩ | ⟨bs, rfl⟩ := hf
        · have hw' := write_ok hw hl rfl m off v
          refine ⟨_, ?_, post_scalar (w := w) (sp := sp) (m0 := m0) (x := .list (.cons (.expr v) .nil)) rfl m off v
            (fun u hu => by simpa [expected] using hu.symm)⟩
          simp only [init_go, (widths hw _ hl).1, Res.bind_ok, hw']
        · have hw' := write_ok hw hl rfl m off (sp bs)
          refine ⟨_, ?_, post_scalar (w := w) (sp := sp) (m0 := m0) (x := .list (.cons (.str bs) .nil)) rfl m off (sp bs)
            (fun u hu => by simpa [expected] using hu.symm)⟩
          simp only [init_go, (widths hw _ hl).1, Res.bind_ok, hw']
theorem arr_ok (hw : w = 4 ∨ w = 8) : ∀ (is : Inits) (e : Ty) (n off : Nat) (m : Mem), Legal w e → Dense w e →
    FitsAll w lo hi is e n → Pre m0 loc lo hi off (n * sizeof w e) m →
    ∃ m', arr_go w sp loc is e (sizeof w e) n off m = .ok m' ∧
      (∀ i, i < n → ∀ p t v, part e p = some t → Scalar t = true →
        (match nthInit is i with | some x => expected w sp m0 e x p | none => some 0) = some v →
        (load m' (off + i * sizeof w e + partOff w e p) (sizeof w t) : Int) = v % (2 ^ (8 * sizeof w t) : Nat)) ∧
      ∀ a, (a < off ∨ off + n * sizeof w e ≤ a) → m' a = m a
  | .nil, e, n, off, m, _, _, _, hpre => by
    refine ⟨_, rfl, ?_, ?_⟩
    · intro i hi p t v hp _ hv
      simp only [nthInit, Option.some.injEq] at hv
      subst hv
      rw [Int.zero_emod]
      have hmul : (i + 1) * sizeof w e ≤ n * sizeof w e := Nat.mul_le_mul_right _ hi
      rw [Nat.add_mul] at hmul
      rw [load_region_zero (T := e) _ (off + i * sizeof w e) hp]
      · rfl
      · intro a ha hb
        split
        · rw [initialize_get, Nat.mul_comm, if_pos (by omega)]
        · next hc =>
          have : loc = false := by
            cases loc
            · rfl
            · exact absurd ⟨rfl, by omega⟩ hc
          exact hpre.zero this a (by omega) (by omega)
    · intro a ha
      split
      · rw [initialize_get, Nat.mul_comm, if_neg (by omega)]
      · rfl
  | .cons x is, e, n, off, m, hl, hd, hf, hpre => by
    simp only [FitsAll] at hf
    obtain ⟨hn, hfx, hfr⟩ := hf
    obtain ⟨n, rfl⟩ : ∃ k, n = k + 1 := ⟨n - 1, by omega⟩
    rw [Nat.add_sub_cancel] at hfr
    have hmul : (n + 1) * sizeof w e = n * sizeof w e + sizeof w e := by rw [Nat.add_mul]; omega
    rw [hmul] at hpre
    obtain ⟨m1, h1, h2, h3⟩ := init_ok hw x e off m hl hd hfx (hpre.later (by omega) (by omega) (fun a _ => rfl))
    obtain ⟨m2, g1, g2, g3⟩ := arr_ok hw is e n (off + sizeof w e) m1 hl hd hfr
      (hpre.later (by omega) (by omega) (fun a ha => h3 a ha))
    refine ⟨m2, ?_, ?_, ?_⟩
    · rw [arr_go, if_neg (by omega), h1, Res.bind_ok, Nat.add_sub_cancel]; exact g1
    · intro i hi p t v hp hs hv
      cases i with
      | zero =>
        simp only [nthInit] at hv
        rw [← h2 p t v hp hs hv]
        have hin := part_inside (w := w) p e t hp
        congr 1
        refine load_congr _ _ _ _ _ (fun j hj => ?_)
        rw [g3 _ (by omega)]
        simp only [Nat.zero_mul, Nat.add_zero]
      | succ i =>
        have := g2 i (by omega) p t v hp hs (by simpa only [nthInit] using hv)
        rw [← this]
        congr 2
        rw [Nat.add_mul]; omega
    · intro a ha
      rw [g3 a (by omega), h3 a (by omega)]
theorem struct_ok (hw : w = 4 ∨ w = 8) : ∀ (is : Inits) (ms : Ms) (o base : Nat) (m : Mem), LegalMs w ms →
    DenseMs w false ms o → FitsMs w lo hi is ms → Pre m0 loc lo hi (base + o) (extent w ms o - o) m →
    ∃ m', struct_go w sp loc is ms (base + o) m = .ok m' ∧
      (∀ i nm t', nth ms i = some (nm, t') → ∀ p t v, part t' p = some t → Scalar t = true →
        (match nthInit is i with | some x => expected w sp m0 t' x p | none => some 0) = some v →
        (load m' (base + prevEnd w ms o i + partOff w t' p) (sizeof w t) : Int) = v % (2 ^ (8 * sizeof w t) : Nat)) ∧
      ∀ a, (a < base + o ∨ base + extent w ms o ≤ a) → m' a = m a
  | .nil, ms, o, base, m, hl, hd, _, hpre => by
    have hext := extent_ge (w := w) ms o
    obtain ⟨m', h1, h2⟩ := zero_rest_get hw ms o base m hl hd
    have key : ∃ m', struct_go w sp loc .nil ms (base + o) m = .ok m' ∧
        (∀ a, base + o ≤ a → a < base + extent w ms o → m' a = 0) ∧
        ∀ a, (a < base + o ∨ base + extent w ms o ≤ a) → m' a = m a := by
      cases hloc : loc with
      | true =>
        refine ⟨m', by rw [struct_go, if_pos rfl]; exact h1, fun a ha hb => ?_, fun a ha => ?_⟩
        · rw [h2, if_pos ⟨ha, hb⟩]
        · rw [h2, if_neg (by omega)]
      | false =>
        exact ⟨m, by rw [struct_go, if_neg (by simp)], fun a ha hb => hpre.zero hloc a ha (by omega), fun a _ => rfl⟩
    obtain ⟨m', h1, h2, h3⟩ := key
    refine ⟨m', h1, ?_, h3⟩
    intro i nm t' hn p t v hp _ hv
    simp only [nthInit, Option.some.injEq] at hv
    subst hv
    rw [Int.zero_emod]
    have k1 := prevEnd_ge (w := w) ms o i
    have k2 := prevEnd_extent (w := w) ms o i hn
    rw [load_region_zero (T := t') _ (base + prevEnd w ms o i) hp (fun a ha hb => h2 a (by omega) (by omega))]
    rfl
  | .cons x is, .nil, _, _, _, _, _, hf, _ => by simp [FitsMs] at hf
  | .cons x is, .cons nm t' rest, o, base, m, hl, hd, hf, hpre => by
    simp only [LegalMs] at hl
    simp only [DenseMs] at hd
    simp only [FitsMs] at hf
    have e : (if sizeof w t' = 0 then o else padTo (alignof w t') o + sizeof w t') = o + sizeof w t' := by
      rw [padTo_of_dvd (hd.2.1 trivial)]; split <;> omega
    have hext := extent_ge (w := w) rest (o + sizeof w t')
    have he' : extent w (.cons nm t' rest) o = extent w rest (o + sizeof w t') := by rw [extent, e]
    rw [he'] at hpre ⊢
    obtain ⟨m1, h1, h2, h3⟩ := init_ok hw x t' (base + o) m hl.2.1 hd.1 hf.1 (hpre.later (by omega) (by omega) (fun a _ => rfl))
    obtain ⟨m2, g1, g2, g3⟩ := struct_ok hw is rest (o + sizeof w t') base m1 hl.2.2 (by simpa using hd.2.2) hf.2
      (hpre.later (by omega) (by omega) (fun a ha => h3 a (by omega)))
    refine ⟨m2, ?_, ?_, ?_⟩
    · rw [struct_go, h1, Res.bind_ok, (widths hw t' hl.2.1).1, Res.bind_ok, Nat.add_assoc]; exact g1
    · intro i nm' t'' hn p t v hp hs hv
      cases i with
      | zero =>
        simp only [nth, Option.some.injEq, Prod.mk.injEq] at hn
        obtain ⟨rfl, rfl⟩ := hn
        simp only [nthInit] at hv
        rw [← h2 p t v hp hs hv]
        have hin := part_inside (w := w) p t' t hp
        simp only [prevEnd]
        congr 1
        refine load_congr _ _ _ _ _ (fun j hj => ?_)
        rw [g3 _ (by omega)]
      | succ i =>
        simp only [prevEnd, e]
        exact g2 i nm' t'' (by simpa only [nth] using hn) p t v hp hs (by simpa only [nthInit] using hv)
    · intro a ha
      rw [g3 a (by omega), h3 a (by omega)]
end

end Verif.Layout
