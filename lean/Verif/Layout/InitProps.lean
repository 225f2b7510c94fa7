import Verif.Layout.InitProofs
import Verif.Layout.Props
/-! # C26: aggregate initialisers -/
namespace Verif.Layout
open Verif Verif.Layout.Spec

/-- **C26 (partial)**: for every type whose structs need no padding between members and every
initialiser that suits it, the initialisation code leaves in memory an object whose every scalar
part, at the address at which it is later read, has the value its initialiser prescribes, or 0 if it
has none; nothing outside the object is written. A global starts out zeroed (`hzero`).
Missing: structs with padding between members (`C26_padding_false`), copied structs whose size is
not a whole number of words (`C26_copy_false`). -/
theorem C26_initializer_partial {w : Nat} (hw : w = 4 ∨ w = 8) (sp : List Nat → Int) (loc : Bool)
    {T : Ty} (hl : Legal w T) (hd : Dense w T) (x : Init) (a : Nat) (m : Mem)
    (hf : Fits w a (a + sizeof w T) x T)
    (hzero : loc = false → ∀ b, a ≤ b → b < a + sizeof w T → m b = 0) :
    ∃ m', init_go w sp loc x T a m = .ok m' ∧ Initialised w sp m m' T a x ∧
      ∀ b, (b < a ∨ a + sizeof w T ≤ b) → m' b = m b :=
  init_ok hw x T a m hl hd hf ⟨Nat.le_refl _, Nat.le_refl _, hzero, fun _ _ => rfl⟩

/-- **C26, through the access path**: after the initialisation, reading the part designated by a
member access `x.a[i].b...` at the displacement the compiler computes for that access yields the
prescribed value. -/
theorem C26_read_back_partial {w : Nat} (hw : w = 4 ∨ w = 8) (sp : List Nat → Int) (loc : Bool)
    {T : Ty} (hl : Legal w T) (hc : Clear T) (hd : Dense w T) (x : Init) (a : Nat) (m : Mem)
    (hf : Fits w a (a + sizeof w T) x T)
    (hzero : loc = false → ∀ b, a ≤ b → b < a + sizeof w T → m b = 0)
    {ss p t} (hD : Designates T ss p t) (hdir : Direct T ss) (hs : Scalar t = true)
    {v : Int} (hv : expected w sp m T x p = some v) :
    ∃ m' o s, init_go w sp loc x T a m = .ok m' ∧ lval_off w T false ss = .ok (o, t) ∧
      type_width w t = .ok s ∧ (load m' (a + o) s : Int) = v % (2 ^ (8 * s) : Nat) := by
  obtain ⟨m', h1, h2, _⟩ := C26_initializer_partial hw sp loc hl hd x a m hf hzero
  have ha := address hw hD hl hc hdir
  exact ⟨m', _, _, h1, ha.2 false (fun h => by cases h), (widths hw t (part_legal p hl ha.1)).1,
    h2 p t v ha.1 hs hv⟩

/-- **C26 (too many elements)**: an array initialiser with more elements than the array is
rejected, whatever the elements. -/
theorem C26_too_many {w : Nat} (sp : List Nat → Int) (loc : Bool) {e : Ty} {k : Nat} :
    ∀ (is : Inits) (n off : Nat) (m m' : Mem), nthInit is n ≠ none →
    arr_go w sp loc is e k n off m ≠ .ok m' := by
  intro is
  induction is using Inits.rec (motive_1 := fun _ => True) with
  | nil => intro n off m m' h; simp [nthInit] at h
  | cons x is _ ih =>
    intro n off m m' h hr
    rw [arr_go] at hr
    split at hr
    · cases hr
    · next hn =>
      obtain ⟨n, rfl⟩ : ∃ j, n = j + 1 := ⟨n - 1, by omega⟩
      rw [Res.bind_eq_ok] at hr
      obtain ⟨m1, _, hr⟩ := hr
      exact ih n _ _ _ (by simpa only [nthInit] using h) hr
  | _ => trivial

/-- `struct { char c; int x; char d; }` -/
def padded : Ty := .agg false (.cons (some 0) .char (.cons (some 1) .int (.cons (some 2) .char .nil)))
def threeInits : Init := .list (.cons (.expr 1) (.cons (.expr 2) (.cons (.expr 3) .nil)))

/-- **C26 is false as stated**: initialising `struct { char c; int x; char d; }` with `{1, 2, 3}`
stores 3 at offset 5, but `d` is then read at offset 8, where there is 0. -/
theorem C26_padding_false : Fits 8 0 12 threeInits padded ∧
    expected 8 (fun _ => 0) (fun _ => 0) padded threeInits [2] = some 3 ∧
    lval_off 8 padded false [.mem 2] = .ok (8, .char) ∧
    ∃ m', init_go 8 (fun _ => 0) false threeInits padded 0 (fun _ => 0) = .ok m' ∧ load m' 8 1 = 0 ∧ load m' 5 1 = 3 := by
  refine ⟨?_, by decide +kernel, by decide +kernel, _, rfl, by decide +kernel, by decide +kernel⟩
  simp only [threeInits, padded, Fits, FitsMs, Scalar, and_self]

/-- `struct { struct { char a[3]; } s; char d; }` -/
def copied : Ty := .agg false (.cons (some 0) (.agg false (.cons (some 1) (.arr 3 .char) .nil)) (.cons (some 2) .char .nil))

/-- **C26 is false for copied structs**: initialising the global
`struct { struct { char a[3]; } s; char d; } g = { t }` copies a whole word, so that `d`, which has no
initialiser, is not 0 but the byte that follows `t` in memory. -/
theorem C26_copy_false :
    expected 4 (fun _ => 0) (fun a => if 100 ≤ a ∧ a < 104 then 7 else 0) copied (.list (.cons (.obj 100) .nil)) [1] = some 0 ∧
    lval_off 4 copied false [.mem 2] = .ok (3, .char) ∧
    ∃ m', init_go 4 (fun _ => 0) false (.list (.cons (.obj 100) .nil)) copied 0
      (fun a => if 100 ≤ a ∧ a < 104 then 7 else 0) = .ok m' ∧ load m' 3 1 = 7 := by
  refine ⟨by decide +kernel, by decide +kernel, _, rfl, by decide +kernel⟩

/-- **C26: surplus initialisers of a struct are dropped silently** (an array rejects them,
`C26_too_many`). -/
theorem C26_surplus_false : ∃ m', init_go 8 (fun _ => 0) false
    (.list (.cons (.expr 1) (.cons (.expr 2) .nil))) (.agg false (.cons (some 0) .int .nil)) 0 (fun _ => 0) = .ok m' ∧
    load m' 0 4 = 1 ∧ load m' 4 4 = 0 :=
  ⟨_, rfl, by decide +kernel, by decide +kernel⟩

theorem copy_bytes_eq : ∀ (n : Nat) (m : Mem) (dst src : Nat), copy_bytes m dst src n = copy_words 1 m dst src n
  | 0, _, _, _ => rfl
  | n + 1, m, dst, src => by rw [copy_bytes, copy_words, copy_bytes_eq n]

/-- **C26, copying an object** (also for assignment and for passing a struct, exe.c:1132, 1548): for every size, also one that is no multiple of the
word size, and objects that do not overlap, exactly the bytes of the destination become the bytes of the source. -/
theorem C26_copy_object {w : Nat} (m : Mem) (dst src width : Nat)
    (hd : src + width ≤ dst ∨ dst + width ≤ src) (x : Nat) :
    copy_obj w m dst src width x = if dst ≤ x ∧ x < dst + width then m (src + (x - dst)) % 256 else m x := by
  unfold copy_obj
  have h1 : width / w * w = width - width % w := by have := Nat.div_add_mod' width w; omega
  have h2 : width % w ≤ width := Nat.mod_le _ _
  rw [copy_bytes_eq, copy_words_get 1 _ _ _ _ (by omega), Nat.mul_one]
  split
  · rename_i h
    rw [if_pos (by omega), copy_words_get w _ m dst src (by rw [h1]; omega), h1, if_neg (by omega)]
    congr 2; omega
  · rw [copy_words_get w _ m dst src (by rw [h1]; omega), h1]
    split
    · rw [if_pos (by omega)]
    · rw [if_neg (by omega)]
example : (copy_obj 8 (fun a => a) 100 200 11) 99 = 99 ∧ (copy_obj 8 (fun a => a) 100 200 11) 110 = 210 ∧
    (copy_obj 8 (fun a => a) 100 200 11) 111 = 111 := by decide +kernel

/-! ### Non-vacuity: `demo` of `Props.lean`, initialised with
`{ { { "x", 7, { 9 } }, { 0, -1 } }, 5 }` -/

def demoInit : Init := .list (.cons (.list
    (.cons (.list (.cons (.str [120]) (.cons (.expr 7) (.cons (.list (.cons (.expr 9) .nil)) .nil))))
    (.cons (.list (.cons (.expr 0) (.cons (.expr (-1)) .nil))) .nil)))
  (.cons (.expr 5) .nil))

example : Fits 8 1000 1072 demoInit demo := by
  simp [demoInit, demo, Fits, FitsMs, FitsAll, FitsU, Scalar]
example : expected 8 (fun _ => 4321) (fun _ => 0) demo demoInit [0, 0, 0] = some 4321 ∧
    expected 8 (fun _ => 4321) (fun _ => 0) demo demoInit [0, 1, 1] = some (-1) ∧
    expected 8 (fun _ => 4321) (fun _ => 0) demo demoInit [0, 3, 1] = some 0 ∧
    expected 8 (fun _ => 4321) (fun _ => 0) demo demoInit [1] = some 5 := by decide +kernel
example : ∃ m', init_go 8 (fun _ => 4321) true demoInit demo 1000 (fun _ => 255) = .ok m' ∧
    load m' 1000 8 = 4321 ∧ load m' 1008 4 = 7 ∧ load m' 1012 4 = 9 ∧ load m' 1024 4 = 2 ^ 32 - 1 ∧
    load m' 1056 4 = 0 ∧ load m' 1064 2 = 5 :=
  ⟨_, rfl, by decide +kernel, by decide +kernel, by decide +kernel, by decide +kernel,
    by decide +kernel, by decide +kernel⟩

end Verif.Layout
