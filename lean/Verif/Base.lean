/-! Shared vocabulary: outcomes of C code and updates of array-like memories. -/
namespace Verif

/-- Outcome of running a piece of the C code.  `fatal` is `fatal_error`/`syntax_error`
(pnut.c:282-306: message and `exit(1)`); `ub` is undefined behaviour of the C code
(out-of-bounds write, division by zero, ...); `diverge` is an exhausted fuel bound. -/
inductive Res (α : Type) where
  | ok (a : α)
  | fatal
  | ub
  | diverge
  deriving Repr, DecidableEq

namespace Res
def bind {α β : Type} (r : Res α) (f : α → Res β) : Res β :=
  match r with
  | ok a => f a
  | fatal => fatal
  | ub => ub
  | diverge => diverge

instance : Monad Res where
  pure := Res.ok
  bind := Res.bind

@[simp] theorem bind_ok {α β} (a : α) (f : α → Res β) : (Res.ok a).bind f = f a := rfl
@[simp] theorem bind_fatal {α β} (f : α → Res β) : (Res.fatal : Res α).bind f = .fatal := rfl
@[simp] theorem bind_ub {α β} (f : α → Res β) : (Res.ub : Res α).bind f = .ub := rfl
@[simp] theorem bind_diverge {α β} (f : α → Res β) : (Res.diverge : Res α).bind f = .diverge := rfl
@[simp] theorem mbind_eq {α β} (a : Res α) (f : α → Res β) : (a >>= f) = a.bind f := rfl
@[simp] theorem pure_eq {α} (a : α) : (pure a : Res α) = .ok a := rfl

theorem bind_eq_ok {α β} {r : Res α} {f : α → Res β} {b : β} :
    r.bind f = .ok b ↔ ∃ a, r = .ok a ∧ f a = .ok b := by
  cases r <;> simp

theorem bind_assoc {α β γ} (r : Res α) (f : α → Res β) (g : β → Res γ) :
    (r.bind f).bind g = r.bind (fun a => (f a).bind g) := by
  cases r <;> rfl
end Res

/-- `m[a] = v` on a memory seen as a function from addresses to cells. -/
def upd {α : Type} (m : Nat → α) (a : Nat) (v : α) : Nat → α :=
  fun x => if x = a then v else m x

theorem upd_same {α} (m : Nat → α) (a : Nat) (v : α) : upd m a v a = v := by simp [upd]
theorem upd_other {α} (m : Nat → α) {a x : Nat} (v : α) (h : x ≠ a) : upd m a v x = m x := by
  simp [upd, h]
theorem upd_apply {α} (m : Nat → α) (a x : Nat) (v : α) :
    upd m a v x = if x = a then v else m x := rfl

/-- Write consecutive cells starting at `a`. -/
def writeList {α : Type} (m : Nat → α) (a : Nat) : List α → (Nat → α)
  | [] => m
  | v :: vs => writeList (upd m a v) (a + 1) vs

theorem writeList_lt {α} (m : Nat → α) (a : Nat) (vs : List α) {x : Nat} (h : x < a) :
    writeList m a vs x = m x := by
  induction vs generalizing m a with
  | nil => rfl
  | cons v vs ih =>
    simp only [writeList]
    rw [ih _ _ (by omega), upd_other _ _ (by omega)]

theorem writeList_ge {α} (m : Nat → α) (a : Nat) (vs : List α) {x : Nat} (h : a + vs.length ≤ x) :
    writeList m a vs x = m x := by
  induction vs generalizing m a with
  | nil => rfl
  | cons v vs ih =>
    simp only [writeList, List.length_cons] at *
    rw [ih _ _ (by omega), upd_other _ _ (by omega)]

theorem writeList_get {α} (m : Nat → α) (a : Nat) (vs : List α) {i : Nat} (h : i < vs.length) :
    writeList m a vs (a + i) = vs[i] := by
  induction vs generalizing m a i with
  | nil => simp at h
  | cons v vs ih =>
    simp only [writeList]
    cases i with
    | zero => simp [writeList_lt, upd]
    | succ i =>
      have h' : i < vs.length := by simpa using h
      have := ih (upd m a v) (a + 1) h'
      rw [show a + (i + 1) = a + 1 + i by omega, this]
      simp

/-- Read `n` consecutive cells from `a`. -/
def readList {α : Type} (m : Nat → α) (a : Nat) : Nat → List α
  | 0 => []
  | n + 1 => m a :: readList m (a + 1) n

theorem readList_length {α} (m : Nat → α) (a n : Nat) : (readList m a n).length = n := by
  induction n generalizing a with
  | zero => rfl
  | succ n ih => simp [readList, ih]

theorem readList_congr {α} {m m' : Nat → α} {a n : Nat}
    (h : ∀ x, a ≤ x → x < a + n → m x = m' x) : readList m a n = readList m' a n := by
  induction n generalizing a with
  | zero => rfl
  | succ n ih =>
    simp only [readList]
    rw [h a (by omega) (by omega), ih (fun x h1 h2 => h x (by omega) (by omega))]

theorem readList_getElem {α} (m : Nat → α) (a n i : Nat) (h : i < (readList m a n).length) :
    (readList m a n)[i] = m (a + i) := by
  induction n generalizing a i with
  | zero => simp [readList] at h
  | succ n ih =>
    cases i with
    | zero => simp [readList]
    | succ i =>
      simp only [readList, List.getElem_cons_succ]
      rw [ih]; congr 1; omega

theorem readList_writeList {α} (m : Nat → α) (a : Nat) (vs : List α) :
    readList (writeList m a vs) a vs.length = vs := by
  apply List.ext_getElem
  · simp [readList_length]
  · intro i h1 h2
    rw [readList_getElem, writeList_get m a vs h2]

theorem readList_append {α} (m : Nat → α) (a n k : Nat) :
    readList m a (n + k) = readList m a n ++ readList m (a + n) k := by
  induction n generalizing a with
  | zero => simp [readList]
  | succ n ih =>
    rw [show n + 1 + k = (n + k) + 1 by omega]
    simp only [readList, ih, List.cons_append]
    rw [show a + 1 + n = a + (n + 1) by omega]

end Verif
