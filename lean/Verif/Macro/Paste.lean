import Verif.Macro.Object
import Verif.Macro.Mono
/-! `#` and `##`. -/
namespace Verif.Macro
open Verif Verif.Lex Spec

theorem noEof_start {src : List Tok} (h : Tok.eof ∉ src) : Inv (start src) := ⟨h, ⟨.inl (by simp [start]), by simp [start], trivial⟩, by simp [start]⟩

/-- If reading goes on at `s`, so does the expansion. -/
theorem expands_cont {D : Table} (hD : NoEof D) {st s : St} (hi : Inv s) (hc : Cont D true st s) {out : List Tok}
    (h : ∃ N, ∀ n, N ≤ n → expandF D n s = .ok out) : ∃ N, ∀ n, N ≤ n → expandF D n st = .ok out := by
  obtain ⟨N, h⟩ := h
  obtain ⟨M, r, h1, h2, -⟩ := get_tok_conv hD hi true true
  dsimp only at h2
  have e0 := h (N + M + 1) (by omega)
  rw [expandF, h2 (N + M) 0 (by omega) |> fun f => h2 (N + M) (N + M) (by omega) (by omega)] at e0
  cases r with
  | ok p =>
    obtain ⟨t, s1⟩ := p
    obtain ⟨K, g⟩ := hc t s1 ⟨M, fun n hn => h2 n n hn hn⟩
    refine ⟨N + M + K + 1, fun n hn => ?_⟩
    obtain ⟨k, rfl⟩ : ∃ k, n = k + 1 := ⟨n - 1, by omega⟩
    have e1 := h (k + 1) (by omega)
    rw [expandF, h2 k k (by omega) (by omega)] at e1
    rw [expandF, g k (by omega)]
    exact e1
  | fatal => cases e0
  | ub => cases e0
  | diverge => cases e0

theorem expands_reads {D : Table} (hD : NoEof D) {st s : St} {o : List Tok} (hr : Reads D true st o s) (ho : Tok.eof ∉ o) (hi : Inv s) {out : List Tok}
    (h : ∃ N, ∀ n, N ≤ n → expandF D n s = .ok out) : ∃ N, ∀ n, N ≤ n → expandF D n st = .ok (o ++ out) := by
  induction hr with
  | done hc => exact expands_cont hD hi hc h
  | @cons st t st1 ts _ g _ ih =>
    obtain ⟨N1, h1⟩ := ih (fun h => ho (by simp [h])) hi h
    obtain ⟨N2, h2⟩ := g
    refine ⟨N1 + N2 + 1, fun n hn => ?_⟩
    obtain ⟨k, rfl⟩ : ∃ k, n = k + 1 := ⟨n - 1, by omega⟩
    have ht : t ≠ .eof := fun h => ho (by simp [h])
    rw [expandF, h2 k (by omega)]
    simp only [Res.bind_ok]
    rw [h1 k (by omega)]
    cases t <;> first | exact absurd rfl ht | rfl

/-- Reading the body of `a ## b`. -/
theorem gets_paste {D : Table} {f : Name} {x y : Name} {src : List Tok} (hy : D y = none) (hxy : D (x ++ y) = none) :
    Gets D true (pushed (some f) [.arg 1, HH, .arg 0] [[.tok (.ident y)], [.tok (.ident x)]] (start src)) (.tok (.ident (x ++ y)))
      (pushed none [] [] (pushed (some f) [] [[.tok (.ident y)], [.tok (.ident x)]] (start src))) := by
  refine ⟨5, gets_of 5 ?_⟩
  let args : List (List BTok) := [[.tok (.ident y)], [.tok (.ident x)]]
  let C0 : Frame := ⟨[], [], none⟩
  have hA : get_tok D 5 true true (pushed (some f) [.arg 1, HH, .arg 0] args (start src)) =
      get_tok D 4 true true ⟨src, ⟨[.tok (.ident x)], [], none⟩, [⟨[.arg 0], args, some f⟩, C0], true, true⟩ := rfl
  have hB : get_tok D 4 true true ⟨src, ⟨[.tok (.ident x)], [], none⟩, [⟨[.arg 0], args, some f⟩, C0], true, true⟩ =
      (paste_tokens (get_tok D 3) (.tok (.ident x)) ⟨src, ⟨[.arg 0], args, some f⟩, [C0], false, true⟩).bind fun p => replay D (get_tok D 3) 3 true true p.1 p.2 := rfl
  have hC : get_tok D 3 false false ⟨src, ⟨[.arg 0], args, some f⟩, [C0], false, false⟩ = .ok (.arg 0, ⟨src, ⟨[], args, some f⟩, [C0], false, false⟩) := rfl
  have hE : get_tok D 3 false false ⟨src, ⟨[.tok (.ident y)], [], none⟩, [⟨[], args, some f⟩, C0], false, true⟩ =
      expand_ident D (get_tok D 2) 2 false false y ⟨src, ⟨[], [], none⟩, [⟨[], args, some f⟩, C0], false, true⟩ := rfl
  rw [hA, hB]
  rw [expand_ident, hy] at hE
  have hP : paste_tokens (get_tok D 3) (.tok (.ident x)) ⟨src, ⟨[.arg 0], args, some f⟩, [C0], false, true⟩ =
      .ok (.tok (.ident (x ++ y)), ⟨src, ⟨[], [], none⟩, [⟨[], args, some f⟩, C0], false, true⟩) := by
    rw [paste_tokens, hC]
    simp only [Res.bind_ok]
    have : get_macro_arg 0 ⟨src, ⟨[], args, some f⟩, [C0], false, true⟩ = .ok [.tok (.ident y)] := rfl
    rw [this, Res.bind_ok, if_neg (by simp)]
    show ((get_tok D 3 false false ⟨src, ⟨[.tok (.ident y)], [], none⟩, [⟨[], args, some f⟩, C0], false, true⟩).bind _) = _
    rw [hE]
    rfl
  rw [hP, Res.bind_ok]
  simp only [replay, expand_ident, hxy]
  rfl

theorem gets_stringify {D : Table} {f : Name} {x : Name} {src : List Tok} :
    Gets D true (pushed (some f) [.tok (.op (.ch 35)), .arg 0] [[.tok (.ident x)]] (start src)) (.tok (.str x))
      (pushed (some f) [] [[.tok (.ident x)]] (start src)) := by
  refine ⟨5, gets_of 5 ?_⟩
  rfl

end Verif.Macro
