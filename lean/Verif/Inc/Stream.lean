import Verif.Inc.Spec
/-! The include stack delivers the spliced text. -/
namespace Verif.Inc
open Verif Verif.Lex

theorem lastSlash_none : ∀ (p : Path) (i : Nat) (last : Option Nat), 47 ∉ p → lastSlash i last p = last := by
  intro p
  induction p with
  | nil => intro i last _; rfl
  | cons c r ih =>
    intro i last h
    have hc : c ≠ 47 := fun e => h (by simp [e])
    rw [lastSlash, if_neg hc, ih _ _ (fun e => h (by simp [e]))]

theorem lastSlash_append : ∀ (d b : Path) (i : Nat) (last : Option Nat), 47 ∉ b → lastSlash i last (d ++ 47 :: b) = some (i + d.length) := by
  intro d
  induction d with
  | nil => intro b i last h; simp [lastSlash, lastSlash_none b _ _ h]
  | cons c d ih =>
    intro b i last h
    rw [List.cons_append, lastSlash, ih b _ _ h]
    simp; omega

theorem split_slash (p : Path) : (47 ∉ p) ∨ ∃ d b, p = d ++ 47 :: b ∧ 47 ∉ b := by
  induction p with
  | nil => left; simp
  | cons c r ih =>
    rcases ih with h | ⟨d, b, rfl, h⟩
    · by_cases hc : c = 47
      · right; exact ⟨[], r, by rw [hc]; rfl, h⟩
      · left; simp [h, Ne.symm hc]
    · right; exact ⟨c :: d, b, rfl, h⟩

theorem parent_isDir (p : Path) : Spec.IsDir (file_parent_directory p) p := by
  rcases split_slash p with h | ⟨d, b, rfl, h⟩
  · refine ⟨p, ?_, h, .inl ?_⟩ <;> simp [file_parent_directory, lastSlash_none p 0 none h]
  · have e : file_parent_directory (d ++ 47 :: b) = d ++ [47] := by
      rw [file_parent_directory, lastSlash_append d b 0 none h]
      simp [List.take_append, List.take_of_length_le]
    exact ⟨b, by rw [e]; simp, h, .inr ⟨d, e⟩⟩

theorem isDir_unique {p d d' : Path} (h : Spec.IsDir d p) (h' : Spec.IsDir d' p) : d = d' := by
  have key : ∀ {p d : Path}, Spec.IsDir d p → file_parent_directory p = d := by
    rintro p d ⟨b, rfl, hb, h | ⟨e, h⟩⟩
    · subst h; simp [file_parent_directory, lastSlash_none b 0 none hb]
    · subst h
      have : e ++ [47] ++ b = e ++ 47 :: b := by simp
      rw [this, file_parent_directory, lastSlash_append e b 0 none hb]
      simp [List.take_append, List.take_of_length_le]
  rw [← key h, ← key h']

/-- The text that the include stack holds. -/
def textOf : List Frame → Nat → List Spec.Ch
  | [], _ => []
  | [f], l => Spec.annot f.filepath l f.rest
  | f :: g :: r, l => Spec.annot f.filepath l f.rest ++ (10, g.filepath, g.line) :: textOf (g :: r) g.line

/-- The stack belongs to the text. -/
structure Abs (dir : Path → Path) (st : St) (s : Spec.Src) : Prop where
  ne : st.stack ≠ []
  text : s.text = textOf st.stack st.line_number
  path : s.path = st.fp_filepath
  top : ∀ f r, st.stack = f :: r → f.filepath = st.fp_filepath
  line : s.line = st.line_number
  dirs : ∀ f ∈ st.stack, f.dirname = dir f.filepath

theorem textOf_line {f : Frame} {r : List Frame} (l c : Nat) : textOf ({ f with line := l, column := c } :: r) l = textOf (f :: r) l := by
  cases r <;> rfl

theorem run_sim {α : Type} {fs : FS} {dir : Path → Path} (hd : ∀ p, Spec.IsDir (dir p) p) : ∀ (p : Prog α) (st : St) (s : Spec.Src), Abs dir st s → run fs p st = Spec.run fs dir p s := by
  intro p
  induction p with
  | ret a => intro st s _; rfl
  | get k ih =>
    intro st s h
    rw [run, Spec.run]
    obtain ⟨stack, fpp, ln, col⟩ := st
    cases stack with
    | nil => exact absurd rfl h.ne
    | cons f r =>
      have ht : f.filepath = fpp := h.top f r rfl
      have hdf := h.dirs
      cases hr : f.rest with
      | nil =>
        cases r with
        | nil =>
          have e : s.text = [] := by rw [h.text]; simp [textOf, hr, Spec.annot]
          have e2 : get_ch ⟨[f], fpp, ln, col⟩ = .ok (none, ⟨[f], fpp, ln, col⟩) := by simp [get_ch, hr]
          rw [e, e2, Res.bind_ok]
          dsimp only
          rw [h.path, h.line]
          exact ih none fpp ln _ s h
        | cons g r =>
          have e : s.text = (10, g.filepath, g.line) :: textOf (g :: r) g.line := by rw [h.text]; simp [textOf, hr, Spec.annot]
          have e2 : get_ch ⟨f :: g :: r, fpp, ln, col⟩ = .ok (some 10, ⟨g :: r, g.filepath, g.line, g.column⟩) := by simp [get_ch, hr]
          rw [e, e2, Res.bind_ok]
          dsimp only
          refine ih _ _ _ _ _ ⟨by simp, rfl, rfl, ?_, rfl, fun q hq => hdf q (List.mem_cons_of_mem _ hq)⟩
          intro f' r' hfr
          cases hfr; rfl
      | cons c t =>
        have hdirs : ∀ q ∈ ({ f with rest := t } : Frame) :: r, q.dirname = dir q.filepath := by
          intro q hq
          rcases List.mem_cons.1 hq with rfl | hq
          · exact hdf f (List.mem_cons_self ..)
          · exact hdf q (List.mem_cons_of_mem _ hq)
        have e : s.text = (c, fpp, if c = 10 then ln + 1 else ln) :: textOf (({ f with rest := t } : Frame) :: r) (if c = 10 then ln + 1 else ln) := by
          rw [h.text]
          cases r with
          | nil => simp only [textOf, hr, Spec.annot, ht]; split <;> rfl
          | cons g r => simp only [textOf, hr, Spec.annot, ht]; split <;> rfl
        rw [e]
        simp only [get_ch, hr, Res.bind_ok]
        by_cases hc : c = 10
        · simp only [hc, if_true]
          exact ih _ _ _ _ _ ⟨by simp, rfl, rfl, fun f' r' hfr => by cases hfr; exact ht, rfl, hdirs⟩
        · simp only [hc, if_false]
          exact ih _ _ _ _ _ ⟨by simp, rfl, rfl, fun f' r' hfr => by cases hfr; exact ht, rfl, hdirs⟩
  | inc how name k ih =>
    intro st s h
    obtain ⟨stack, fpp, ln, col⟩ := st
    cases stack with
    | nil => exact absurd rfl h.ne
    | cons f r =>
      have ht : f.filepath = fpp := h.top f r rfl
      have hfd := h.dirs f (List.mem_cons_self ..)
      -- the path
      obtain ⟨rel, hrel, hpath⟩ : ∃ rel, relative how ⟨f :: r, fpp, ln, col⟩ = .ok rel ∧
          Spec.target dir s.path name how = source_path name rel := by
        cases how with
        | cmd => exact ⟨none, rfl, rfl⟩
        | angle p => exact ⟨some p, rfl, rfl⟩
        | quote => exact ⟨some f.dirname, rfl, by dsimp only [Spec.target, source_path]; rw [hfd, h.path, ← ht]⟩
      have e1 : run fs (.inc how name k) ⟨f :: r, fpp, ln, col⟩ = (include_file fs name rel ⟨f :: r, fpp, ln, col⟩).bind fun st => run fs k st := by
        rw [run, hrel, Res.bind_ok]
      rw [e1, Spec.run.eq_def, include_file.eq_def]
      dsimp only
      rw [hpath]
      generalize source_path name rel = path
      cases fs path with
      | none => rfl
      | some content =>
        rw [Res.bind_ok]
        refine ih _ _ ⟨by simp, ?_, rfl, fun f' r' hfr => by cases hfr; rfl, rfl, ?_⟩
        · show _ = Spec.annot path 1 content ++ (10, f.filepath, ln) :: textOf ({ f with line := ln, column := col } :: r) ln
          rw [textOf_line, h.text, h.path, h.line, ht]
        · intro q hq
          rcases List.mem_cons.1 hq with rfl | hq
          · exact isDir_unique (parent_isDir _) (hd _)
          rcases List.mem_cons.1 hq with rfl | hq
          · exact hfd
          · exact h.dirs q (List.mem_cons_of_mem _ hq)

end Verif.Inc
