import Verif.ShTop.Spec
/-! The runtime library of a script is closed: at any time every runtime function printed so far only
refers to names defined so far, and no function is printed twice. -/
namespace Verif.ShTop
open Verif Spec

/-! ### Lists of lines -/

theorem Spec.Met.mono {l m : List Cmd} {d : Need} (h : Met l d) (hs : ∀ c ∈ l, c ∈ m) : Met m d := by
  cases d with
  | fn n => obtain ⟨ds, h⟩ := h; exact ⟨ds, hs _ h⟩
  | var n => obtain ⟨c, h, h'⟩ := h; exact ⟨c, hs _ h, h'⟩

theorem Spec.Met.left {l m : List Cmd} {d : Need} (h : Met l d) : Met (l ++ m) d :=
  h.mono fun _ hc => List.mem_append_left _ hc

theorem Spec.Met.right {l m : List Cmd} {d : Need} (h : Met m d) : Met (l ++ m) d :=
  h.mono fun _ hc => List.mem_append_right _ hc

/-- Runtime functions: helpers, and the C functions provided. -/
def isRtFn : Nm → Bool
  | .rt _ => true
  | .g x => reserved.contains x
  | _ => false

def rtNeed : Need → Prop
  | .fn n => isRtFn n = true
  | .var _ => True

/-- Runtime functions only refer to runtime functions, and to things that are there. -/
def RtClosed (l : List Cmd) : Prop :=
  ∀ n ds, Cmd.defun n ds ∈ l → isRtFn n = true → ∀ d ∈ ds, rtNeed d ∧ Met l d

theorem reach_rt {l : List Cmd} (hc : RtClosed l) {d e : Need} (hr : Reach l d e) :
    rtNeed d → Met l d → Met l e := by
  induction hr with
  | refl d => exact fun _ h => h
  | step hm hd _ ih =>
    intro hn _
    obtain ⟨h1, h2⟩ := hc _ _ hm hn _ hd
    exact ih h1 h2

theorem complete_nil : Complete [] := by
  intro pre c post h
  simp at h

theorem complete_append {l m : List Cmd} (hl : Complete l)
    (hm : ∀ pre c post, m = pre ++ c :: post → Runs (l ++ pre) c) : Complete (l ++ m) := by
  intro pre c post h
  rw [List.append_eq_append_iff] at h
  rcases h with ⟨a, h1, h2⟩ | ⟨a, h1, h2⟩
  · rw [h1]; exact hm a c post h2
  · cases a with
    | nil =>
      simp only [List.nil_append, List.append_nil] at h1 h2
      have := hm [] c post (by simpa using h2.symm)
      rw [h1] at this
      simpa using this
    | cons x a =>
      simp only [List.cons_append, List.cons.injEq] at h2
      obtain ⟨rfl, rfl⟩ := h2
      exact hl pre _ a h1

theorem complete_left {l m : List Cmd} (h : Complete (l ++ m)) : Complete l := by
  intro pre c post e
  exact h pre c (post ++ m) (by rw [e]; simp)

theorem defNames_append (l m : List Cmd) : defNames (l ++ m) = defNames l ++ defNames m := by
  simp [defNames]

theorem mem_defNames {l : List Cmd} {n : Nm} : n ∈ defNames l ↔ ∃ ds, Cmd.defun n ds ∈ l := by
  unfold defNames
  rw [List.mem_filterMap]
  constructor
  · rintro ⟨c, hc, he⟩
    cases c <;> simp at he
    subst he
    exact ⟨_, hc⟩
  · rintro ⟨ds, h⟩
    exact ⟨_, h, rfl⟩

/-! ### What each runtime function provides -/

/-- The runtime function whose text defines a name. -/
def owner : Nm → Option Rt
  | .g 1 => some .putchar
  | .g 2 => some .getchar
  | .g 3 => some .exit
  | .g 4 => some .malloc
  | .g 5 => some .free
  | .g 6 => some .printf
  | .g 7 => some .fopen
  | .g 8 => some .fclose
  | .g 9 => some .fgetc
  | .g 10 => some .read
  | .g 11 => some .write
  | .g 12 => some .open_
  | .g 13 => some .close
  | .g 14 => some .put_pstr
  | .rt .defarr => some .defarr
  | .rt .initialize => some .initialize
  | .rt .unpack_string => some .unpack_string
  | .rt .make_argv => some .make_argv
  | .rt .next_sub_buffer => some .unpack_escaped_string
  | .rt .unpack_escaped_string => some .unpack_escaped_string
  | .rt .defstr => some .defstr
  | .rt .char_to_int => some .char_to_int
  | .rt .let_ => some .local_vars
  | .rt .endlet => some .local_vars
  | .rt .read_int => some .printf
  | .rt .pad => some .printf
  | .rt .printf_invalid_format_error => some .printf
  | .rt .printf_reset => some .printf
  | .rt .unpack_line => some .read_byte
  | .rt .refill_buffer => some .read_byte
  | .rt .read_byte => some .read_byte
  | _ => none

/-- What is there once a runtime function has been printed. -/
def prov (c : Cfg) : Rt → List Need
  | .local_vars => .var (.rt .under) :: (if c.saveSet then [] else [.fn (.rt .let_), .fn (.rt .endlet)])
  | .char_to_int => charCall c
  | .malloc => [.fn (.g idMalloc)]
  | .initialize => [.fn (.rt .initialize)]
  | .defarr => [.fn (.rt .defarr)]
  | .free => [.fn (.g idFree)]
  | .unpack_string => [.fn (.rt .unpack_string)]
  | .make_argv => [.fn (.rt .make_argv)]
  | .unpack_escaped_string => [.fn (.rt .unpack_escaped_string)]
  | .defstr => [.fn (.rt .defstr)]
  | .exit => [.fn (.g idExit)]
  | .putchar => [.fn (.g idPutchar)]
  | .getchar => [.fn (.g idGetchar)]
  | .put_pstr => [.fn (.g idPutPstr)]
  | .printf => [.fn (.g idPrintf)]
  | .open_ => [.fn (.g idOpen), .var (.rt .buffer_fd0), .var (.rt .cursor_fd0), .var (.rt .buflen_fd0)]
  | .read_byte => [.fn (.rt .read_byte)]
  | .read => [.fn (.g idRead)]
  | .write => [.fn (.g idWrite)]
  | .fopen => [.fn (.g idFopen)]
  | .close => [.fn (.g idClose)]
  | .fclose => [.fn (.g idFclose)]
  | .fgetc => [.fn (.g idFgetc)]

/-- Dependencies only go down. -/
def rank : Rt → Nat
  | .defarr | .unpack_string | .unpack_escaped_string | .getchar | .put_pstr | .read_byte => 1
  | .make_argv | .defstr | .printf | .open_ | .fgetc => 2
  | .read | .write | .fopen | .close => 3
  | .fclose => 4
  | _ => 0

/-- The state of the compiler while the runtime functions `P` are being printed. -/
structure Inv (c : Cfg) (P : Rt → Prop) (s : E) : Prop where
  complete : Complete s.out
  closed : RtClosed s.out
  prov : ∀ f, s.defined f = true → ¬ P f → ∀ d ∈ ShTop.prov c f, Met s.out d
  fresh : ∀ n ds, Cmd.defun n ds ∈ s.out → ∀ f, owner n = some f → s.defined f = true ∧ ¬ P f
  nodup : (defNames s.out).Nodup

/-- Printing runtime functions only adds lines and sets `defined` flags. -/
structure Ext (s s' : E) : Prop where
  use : s'.use = s.use
  chars : s'.chars = s.chars
  tag : s'.tag = s.tag
  counter : s'.counter = s.counter
  mainDefined : s'.mainDefined = s.mainDefined
  mainReturns : s'.mainReturns = s.mainReturns
  pend : s'.pend = s.pend
  defined : ∀ f, s.defined f = true → s'.defined f = true
  out : ∃ T, s'.out = s.out ++ T ∧ ∀ n ds, Cmd.defun n ds ∈ T → isRtFn n = true

theorem Ext.refl (s : E) : Ext s s := ⟨rfl, rfl, rfl, rfl, rfl, rfl, rfl, fun _ h => h, [], by simp, by simp⟩

theorem Ext.trans {a b d : E} (h : Ext a b) (k : Ext b d) : Ext a d := by
  refine ⟨k.use.trans h.use, k.chars.trans h.chars, k.tag.trans h.tag, k.counter.trans h.counter,
    k.mainDefined.trans h.mainDefined, k.mainReturns.trans h.mainReturns, k.pend.trans h.pend,
    fun f hf => k.defined f (h.defined f hf), ?_⟩
  obtain ⟨T, hT, hT'⟩ := h.out
  obtain ⟨U, hU, hU'⟩ := k.out
  refine ⟨T ++ U, by rw [hU, hT]; simp, ?_⟩
  intro n ds hm
  rcases List.mem_append.mp hm with hm | hm
  · exact hT' n ds hm
  · exact hU' n ds hm

/-- The text of a runtime function, printed after `l`. -/
structure TextOk (c : Cfg) (f : Rt) (l T : List Cmd) : Prop where
  runs : ∀ x ∈ T, ∀ d ∈ needs x, rtNeed d ∧ Met l d
  owner : ∀ n ds, Cmd.defun n ds ∈ T → isRtFn n = true ∧ ShTop.owner n = some f
  body : ∀ n ds, Cmd.defun n ds ∈ T → ∀ d ∈ ds, rtNeed d ∧ Met (l ++ T) d
  nodup : (defNames T).Nodup
  prov : ∀ d ∈ ShTop.prov c f, Met (l ++ T) d

theorem once_inv {c : Cfg} {f : Rt} {deps : E → E} {text : E → List Cmd} {P : Rt → Prop} {s : E}
    (h : Inv c P s) (hP : ¬ P f)
    (hd : Inv c (fun g => P g ∨ g = f) (s.markDefined f) →
      Inv c (fun g => P g ∨ g = f) (deps (s.markDefined f)) ∧
      Ext (s.markDefined f) (deps (s.markDefined f)) ∧
      TextOk c f (deps (s.markDefined f)).out (text (deps (s.markDefined f)))) :
    Inv c P (once f deps text s) ∧ Ext s (once f deps text s) ∧ (once f deps text s).defined f = true := by
  unfold once
  by_cases hdef : s.defined f = true
  · rw [if_pos hdef]
    exact ⟨h, .refl s, hdef⟩
  rw [if_neg hdef]
  have h0 : Inv c (fun g => P g ∨ g = f) (s.markDefined f) := by
    refine ⟨h.complete, h.closed, ?_, ?_, h.nodup⟩
    · intro g hg hg'
      have : g ≠ f := fun e => hg' (.inr e)
      exact h.prov g (by simpa [E.markDefined, this] using hg) (fun e => hg' (.inl e))
    · intro n ds hm g hg
      have hgf : g ≠ f := fun e => hdef (by rw [← e]; exact (h.fresh n ds hm g hg).1)
      refine ⟨by simp [E.markDefined, hgf, (h.fresh n ds hm g hg).1], ?_⟩
      rintro (e | e)
      · exact (h.fresh n ds hm g hg).2 e
      · exact hgf e
  obtain ⟨i, e, t⟩ := hd h0
  dsimp only
  generalize deps (s.markDefined f) = s1 at i e t
  have hdf : s1.defined f = true := e.defined f (by simp [E.markDefined])
  refine ⟨⟨?_, ?_, ?_, ?_, ?_⟩, ?_, hdf⟩
  · refine complete_append i.complete ?_
    intro pre x post he d hd' y hy
    have hx : x ∈ text s1 := by rw [he]; simp
    obtain ⟨h1, h2⟩ := t.runs x hx d hd'
    -- walk the call graph: runtime functions of `s1.out` and of `pre`
    have key : ∀ d y, Reach (s1.out ++ pre) d y → rtNeed d → Met s1.out d → Met (s1.out ++ pre) y := by
      intro d y hr
      induction hr with
      | refl d => exact fun _ h => h.left
      | @step n ds d e hm hd' _ ih =>
        intro hn hmet
        rcases List.mem_append.mp hm with hm | hm
        · obtain ⟨a, b⟩ := i.closed n ds hm hn d hd'
          exact ih a b
        · -- a function of the text itself cannot be reached: it is fresh
          exfalso
          obtain ⟨ds', hm'⟩ := hmet
          have ho := (t.owner n ds (by rw [he]; simp [hm])).2
          exact (i.fresh n ds' hm' f ho).2 (.inr rfl)
    exact key d y hy h1 h2
  · intro n ds hm hn d hd'
    show rtNeed d ∧ Met (s1.out ++ text s1) d
    rcases List.mem_append.mp hm with hm | hm
    · exact ⟨(i.closed n ds hm hn d hd').1, (i.closed n ds hm hn d hd').2.left⟩
    · exact t.body n ds hm d hd'
  · intro g hg hg' d hd'
    show Met (s1.out ++ text s1) d
    by_cases hgf : g = f
    · subst hgf; exact t.prov d hd'
    · exact (i.prov g hg (fun a => a.elim hg' hgf) d hd').left
  · intro n ds hm g hg
    rcases List.mem_append.mp hm with hm | hm
    · have := i.fresh n ds hm g hg
      exact ⟨this.1, fun a => this.2 (.inl a)⟩
    · have := (t.owner n ds hm).2
      rw [this] at hg
      cases hg
      exact ⟨hdf, hP⟩
  · show (defNames (s1.out ++ text s1)).Nodup
    rw [defNames_append, List.nodup_append]
    refine ⟨i.nodup, t.nodup, ?_⟩
    intro a ha b hb hab
    subst hab
    obtain ⟨ds, h1⟩ := mem_defNames.mp ha
    obtain ⟨ds', h2⟩ := mem_defNames.mp hb
    exact (i.fresh a ds h1 f (t.owner a ds' h2).2).2 (.inr rfl)
  · refine ⟨e.use, e.chars, e.tag, e.counter, e.mainDefined, e.mainReturns, e.pend, ?_, ?_⟩
    · intro g hg
      exact e.defined g (by by_cases hgf : g = f <;> simp [E.markDefined, hgf, hg])
    · obtain ⟨T, hT, hT'⟩ := e.out
      refine ⟨T ++ text s1, ?_, ?_⟩
      · show s1.out ++ text s1 = s.out ++ (T ++ text s1)
        rw [hT]; simp [E.markDefined]
      · intro n ds hm
        rcases List.mem_append.mp hm with hm | hm
        · exact hT' n ds hm
        · exact (t.owner n ds hm).1

end Verif.ShTop
