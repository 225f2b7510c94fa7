import Verif.ShTop.Runtime
/-! Each runtime function keeps the library closed. -/
namespace Verif.ShTop
open Verif Spec

/-- What printing a runtime function achieves. -/
structure Prints (c : Cfg) (P : Rt → Prop) (s s' : E) (f : Rt) : Prop where
  inv : Inv c P s'
  ext : Ext s s'
  defd : s'.defined f = true

theorem once_prints {c : Cfg} {f : Rt} {deps : E → E} {text : E → List Cmd} {P : Rt → Prop} {s : E}
    (h : Inv c P s) (hP : ∀ g, P g → rank f < rank g)
    (hd : ∀ s0, Inv c (fun g => P g ∨ g = f) s0 → (∀ g, (P g ∨ g = f) → rank f ≤ rank g) →
      Inv c (fun g => P g ∨ g = f) (deps s0) ∧ Ext s0 (deps s0) ∧
      TextOk c f (deps s0).out (text (deps s0))) :
    Prints c P s (once f deps text s) f := by
  have hp : ¬ P f := fun a => by have := hP f a; omega
  obtain ⟨a, b, d⟩ := once_inv (text := text) h hp fun i => hd _ i (by
    intro g hg
    rcases hg with hg | hg
    · have := hP g hg; omega
    · rw [hg]; omega)
  exact ⟨a, b, d⟩

theorem below {P : Rt → Prop} {f g : Rt} (h : ∀ x, P x → rank f ≤ rank x) (hr : rank g < rank f) :
    ∀ x, P x → rank g < rank x := fun x hx => by have := h x hx; omega

theorem Prints.met {c P s s' f} (h : Prints c P s s' f) (hp : ∀ g, P g → rank f < rank g) :
    ∀ d ∈ prov c f, Met s'.out d :=
  h.inv.prov f h.defd (fun a => by have := hp f a; omega)

theorem Ext.met {s s' : E} (h : Ext s s') {d : Need} (hm : Met s.out d) : Met s'.out d := by
  obtain ⟨T, hT, _⟩ := h.out
  rw [hT]; exact hm.left

/-- A text provides something. -/
def provides (T : List Cmd) : Need → Bool
  | .fn n => T.any fun c => match c with | .defun m _ => decide (m = n) | _ => false
  | .var n => T.any fun c => decide (n ∈ sets c)

theorem met_provides {l T : List Cmd} {d : Need} (h : provides T d = true) : Met (l ++ T) d := by
  cases d with
  | fn n =>
    obtain ⟨x, hx, he⟩ := List.any_eq_true.mp h
    cases x <;> simp at he
    subst he
    exact ⟨_, List.mem_append_right _ hx⟩
  | var n =>
    obtain ⟨x, hx, he⟩ := List.any_eq_true.mp h
    exact ⟨x, List.mem_append_right _ hx, by simpa using he⟩

def rtNeedB : Need → Bool
  | .fn n => isRtFn n
  | .var _ => true

theorem rtNeed_of {d} (h : rtNeedB d = true) : rtNeed d := by
  cases d with
  | fn n => exact h
  | var n => trivial

/-- Check of one line of a text, when `avail` is already there. -/
def checkLine (f : Rt) (avail : List Need) (T : List Cmd) (x : Cmd) : Bool :=
  (needs x).all (fun d => rtNeedB d && avail.contains d) &&
  match x with
  | .defun n ds => isRtFn n && decide (owner n = some f) &&
      ds.all fun d => rtNeedB d && (avail.contains d || provides T d)
  | _ => true

def checkText (f : Rt) (avail pr : List Need) (T : List Cmd) : Bool :=
  T.all (checkLine f avail T) && decide (defNames T).Nodup &&
  pr.all fun d => avail.contains d || provides T d

theorem textOk_of {c : Cfg} {f : Rt} {l T : List Cmd} (avail : List Need) (ha : ∀ d ∈ avail, Met l d)
    (h : checkText f avail (prov c f) T = true) : TextOk c f l T := by
  simp only [checkText, Bool.and_eq_true, decide_eq_true_eq, List.all_eq_true, Bool.or_eq_true,
    List.contains_iff_mem] at h
  obtain ⟨⟨h1, h2⟩, h3⟩ := h
  have hmet : ∀ d, (d ∈ avail ∨ provides T d = true) → Met (l ++ T) d := by
    intro d hd
    rcases hd with hd | hd
    · exact (ha d hd).left
    · exact met_provides hd
  have hl : ∀ x ∈ T, ∀ d ∈ needs x, rtNeed d ∧ Met l d := by
    intro x hx d hd
    have := h1 x hx
    simp only [checkLine, Bool.and_eq_true, List.all_eq_true, List.contains_iff_mem] at this
    obtain ⟨a, b⟩ := this.1 d hd
    exact ⟨rtNeed_of a, ha d b⟩
  have hdef : ∀ n ds, Cmd.defun n ds ∈ T → (isRtFn n = true ∧ owner n = some f) ∧
      ∀ d ∈ ds, rtNeed d ∧ Met (l ++ T) d := by
    intro n ds hx
    have := h1 _ hx
    simp only [checkLine, Bool.and_eq_true, List.all_eq_true, List.contains_iff_mem, decide_eq_true_eq,
      Bool.or_eq_true] at this
    obtain ⟨-, ⟨a, b⟩, d⟩ := this
    exact ⟨⟨a, b⟩, fun x hx => ⟨rtNeed_of (d x hx).1, hmet x (d x hx).2⟩⟩
  exact ⟨hl, fun n ds hx => (hdef n ds hx).1, fun n ds hx => (hdef n ds hx).2, h2, fun d hd => hmet d (h3 d hd)⟩

theorem no_avail {l : List Cmd} : ∀ d ∈ ([] : List Need), Met l d := by simp

/-! ### The functions without dependencies -/

theorem rtMalloc_prints {c P s} (h : Inv c P s) (hP : ∀ g, P g → rank .malloc < rank g) :
    Prints c P s (rtMalloc s) .malloc :=
  once_prints h hP fun _ i _ => ⟨i, .refl _, textOk_of [] no_avail (by simp only [ShTop.prov]; decide)⟩

theorem rtFree_prints {c P s} (h : Inv c P s) (hP : ∀ g, P g → rank .free < rank g) :
    Prints c P s (rtFree s) .free :=
  once_prints h hP fun _ i _ => ⟨i, .refl _, textOk_of [] no_avail (by simp only [ShTop.prov]; decide)⟩

theorem rtInitialize_prints {c P s} (h : Inv c P s) (hP : ∀ g, P g → rank .initialize < rank g) :
    Prints c P s (rtInitialize s) .initialize :=
  once_prints h hP fun _ i _ => ⟨i, .refl _, textOk_of [] no_avail (by simp only [ShTop.prov]; decide)⟩

theorem rtExit_prints {c P s} (h : Inv c P s) (hP : ∀ g, P g → rank .exit < rank g) :
    Prints c P s (rtExit s) .exit :=
  once_prints h hP fun _ i _ => ⟨i, .refl _, textOk_of [] no_avail (by simp only [ShTop.prov]; decide)⟩

theorem rtPutchar_prints {c P s} (h : Inv c P s) (hP : ∀ g, P g → rank .putchar < rank g) :
    Prints c P s (rtPutchar s) .putchar :=
  once_prints h hP fun _ i _ => ⟨i, .refl _, textOk_of [] no_avail (by simp only [ShTop.prov]; decide)⟩

theorem rtLocalVars_prints {c P s} (h : Inv c P s) (hP : ∀ g, P g → rank .local_vars < rank g) :
    Prints c P s (rtLocalVars c s) .local_vars :=
  once_prints h hP fun _ i _ => ⟨i, .refl _, textOk_of [] no_avail (by
    cases h : c.saveSet <;> simp only [ShTop.prov, h] <;> decide)⟩

theorem rtCharToInt_prints {c P s} (h : Inv c P s) (hP : ∀ g, P g → rank .char_to_int < rank g) :
    Prints c P s (rtCharToInt c s) .char_to_int :=
  once_prints h hP fun _ i _ => ⟨i, .refl _, textOk_of [] no_avail (by
    cases h : c.compact <;> simp only [ShTop.prov, charCall, h] <;> decide)⟩

/-! ### The others -/

/-- What is available after a dependency. -/
theorem mem_avail {c : Cfg} {f : Rt} {d : Need} (hd : d ∈ prov c f) {P s s'} (h : Prints c P s s' f)
    (hp : ∀ g, P g → rank f < rank g) : Met s'.out d := h.met hp d hd

theorem rtDefarr_prints {c P s} (hn : c.noInit = true) (h : Inv c P s) (hP : ∀ g, P g → rank .defarr < rank g) :
    Prints c P s (rtDefarr c s) .defarr :=
  once_prints h hP fun s0 i hr => by
    have b0 := below (g := .malloc) hr (by decide)
    have m := rtMalloc_prints i b0
    dsimp only
    rw [if_pos hn]
    by_cases hu : (rtMalloc s0).use .initialize = true
    · rw [if_pos hu]
      have b1 := below (g := .initialize) hr (by decide)
      have n := rtInitialize_prints m.inv b1
      refine ⟨n.inv, m.ext.trans n.ext, textOk_of [.fn (.g idMalloc), .fn (.rt .initialize)] ?_ ?_⟩
      · simp only [List.mem_cons, List.not_mem_nil, or_false]
        rintro d (rfl | rfl)
        · exact n.ext.met (m.met b0 _ (by simp [ShTop.prov]))
        · exact n.met b1 _ (by simp [ShTop.prov])
      · rw [if_pos hn, if_pos (by rw [n.ext.use]; exact hu)]
        simp only [ShTop.prov]; decide
    · rw [if_neg hu]
      refine ⟨m.inv, m.ext, textOk_of [.fn (.g idMalloc)] ?_ ?_⟩
      · simp only [List.mem_cons, List.not_mem_nil, or_false]
        rintro d rfl
        exact m.met b0 _ (by simp [ShTop.prov])
      · rw [if_pos hn, if_neg hu]
        simp only [ShTop.prov]; decide

theorem rtUnpackString_prints {c P s} (h : Inv c P s) (hP : ∀ g, P g → rank .unpack_string < rank g) :
    Prints c P s (rtUnpackString c s) .unpack_string :=
  once_prints h hP fun s0 i hr => by
    have b0 := below (g := .malloc) hr (by decide)
    have b1 := below (g := .char_to_int) hr (by decide)
    have m := rtMalloc_prints i b0
    have n := rtCharToInt_prints m.inv b1
    refine ⟨n.inv, m.ext.trans n.ext, textOk_of (.fn (.g idMalloc) :: charCall c) ?_ ?_⟩
    · simp only [List.mem_cons]
      rintro d (rfl | hd)
      · exact n.ext.met (m.met b0 _ (by simp [ShTop.prov]))
      · exact n.met b1 _ hd
    · cases h : c.compact <;> simp only [ShTop.prov, charCall, h] <;> decide

theorem rtMakeArgv_prints {c P s} (h : Inv c P s) (hP : ∀ g, P g → rank .make_argv < rank g) :
    Prints c P s (rtMakeArgv c s) .make_argv :=
  once_prints h hP fun s0 i hr => by
    have b0 := below (g := .malloc) hr (by decide)
    have b1 := below (g := .unpack_string) hr (by decide)
    have m := rtMalloc_prints i b0
    have n := rtUnpackString_prints m.inv b1
    refine ⟨n.inv, m.ext.trans n.ext, textOk_of [.fn (.g idMalloc), .fn (.rt .unpack_string)] ?_ (by simp only [ShTop.prov]; decide)⟩
    simp only [List.mem_cons, List.not_mem_nil, or_false]
    rintro d (rfl | rfl)
    · exact n.ext.met (m.met b0 _ (by simp [ShTop.prov]))
    · exact n.met b1 _ (by simp [ShTop.prov])

theorem rtUnpackEscaped_prints {c P s} (h : Inv c P s)
    (hP : ∀ g, P g → rank .unpack_escaped_string < rank g) :
    Prints c P s (rtUnpackEscaped c s) .unpack_escaped_string :=
  once_prints h hP fun s0 i hr => by
    have b0 := below (g := .malloc) hr (by decide)
    have b1 := below (g := .char_to_int) hr (by decide)
    have m := rtMalloc_prints i b0
    have n := rtCharToInt_prints m.inv b1
    refine ⟨n.inv, m.ext.trans n.ext, textOk_of (.fn (.g idMalloc) :: charCall c) ?_ ?_⟩
    · simp only [List.mem_cons]
      rintro d (rfl | hd)
      · exact n.ext.met (m.met b0 _ (by simp [ShTop.prov]))
      · exact n.met b1 _ hd
    · cases h : c.compact <;> cases h' : c.long <;> simp only [ShTop.prov, charCall, h] <;> decide

theorem rtDefstr_prints {c P s} (h : Inv c P s) (hP : ∀ g, P g → rank .defstr < rank g) :
    Prints c P s (rtDefstr c s) .defstr :=
  once_prints h hP fun s0 i hr => by
    have b0 := below (g := .unpack_escaped_string) hr (by decide)
    have m := rtUnpackEscaped_prints i b0
    refine ⟨m.inv, m.ext, textOk_of [.fn (.rt .unpack_escaped_string)] ?_ (by simp only [ShTop.prov]; decide)⟩
    simp only [List.mem_cons, List.not_mem_nil, or_false]
    rintro d rfl
    exact m.met b0 _ (by simp [ShTop.prov])

theorem rtGetchar_prints {c P s} (h : Inv c P s) (hP : ∀ g, P g → rank .getchar < rank g) :
    Prints c P s (rtGetchar c s) .getchar :=
  once_prints h hP fun s0 i hr => by
    have b0 := below (g := .char_to_int) hr (by decide)
    have m := rtCharToInt_prints i b0
    refine ⟨m.inv, m.ext, textOk_of (charCall c) (m.met b0) ?_⟩
    cases h : c.compact <;> cases h' : c.long <;> simp only [ShTop.prov, charCall, h] <;> decide

theorem rtPutPstr_prints {c P s} (h : Inv c P s) (hP : ∀ g, P g → rank .put_pstr < rank g) :
    Prints c P s (rtPutPstr c s) .put_pstr :=
  once_prints h hP fun s0 i hr => by
    cases hi : c.rtInlinePc
    · have b0 := below (g := .putchar) hr (by decide)
      have m := rtPutchar_prints i b0
      refine ⟨m.inv, m.ext, textOk_of [.fn (.g idPutchar)] ?_ (by simp only [ShTop.prov]; decide)⟩
      simp only [List.mem_cons, List.not_mem_nil, or_false]
      rintro d rfl
      exact m.met b0 _ (by simp [ShTop.prov])
    · exact ⟨i, .refl _, textOk_of [] no_avail (by simp only [ShTop.prov]; decide)⟩

theorem rtPrintf_prints {c P s} (h : Inv c P s) (hP : ∀ g, P g → rank .printf < rank g) :
    Prints c P s (rtPrintf c s) .printf :=
  once_prints h hP fun s0 i hr => by
    have b0 := below (g := .put_pstr) hr (by decide)
    have m := rtPutPstr_prints i b0
    refine ⟨m.inv, m.ext, textOk_of [.fn (.g idPutPstr)] ?_ (by simp only [ShTop.prov]; decide)⟩
    simp only [List.mem_cons, List.not_mem_nil, or_false]
    rintro d rfl
    exact m.met b0 _ (by simp [ShTop.prov])

theorem rtOpen_prints {c P s} (h : Inv c P s) (hP : ∀ g, P g → rank .open_ < rank g) :
    Prints c P s (rtOpen c s) .open_ :=
  once_prints h hP fun s0 i hr => by
    have b0 := below (g := .malloc) hr (by decide)
    have b1 := below (g := .put_pstr) hr (by decide)
    have m := rtMalloc_prints i b0
    have n := rtPutPstr_prints m.inv b1
    refine ⟨n.inv, m.ext.trans n.ext, textOk_of [.fn (.g idMalloc), .fn (.g idPutPstr)] ?_ (by simp only [ShTop.prov]; decide +kernel)⟩
    simp only [List.mem_cons, List.not_mem_nil, or_false]
    rintro d (rfl | rfl)
    · exact n.ext.met (m.met b0 _ (by simp [ShTop.prov]))
    · exact n.met b1 _ (by simp [ShTop.prov])

theorem rtReadByte_prints {c P s} (h : Inv c P s) (hP : ∀ g, P g → rank .read_byte < rank g) :
    Prints c P s (rtReadByte c s) .read_byte :=
  once_prints h hP fun s0 i hr => by
    have b0 := below (g := .malloc) hr (by decide)
    have b1 := below (g := .free) hr (by decide)
    have b2 := below (g := .char_to_int) hr (by decide)
    have m := rtMalloc_prints i b0
    have n := rtFree_prints m.inv b1
    have q := rtCharToInt_prints n.inv b2
    refine ⟨q.inv, (m.ext.trans n.ext).trans q.ext,
      textOk_of (.fn (.g idMalloc) :: .fn (.g idFree) :: charCall c) ?_ ?_⟩
    · simp only [List.mem_cons]
      rintro d (rfl | rfl | hd)
      · exact q.ext.met (n.ext.met (m.met b0 _ (by simp [ShTop.prov])))
      · exact q.ext.met (n.met b1 _ (by simp [ShTop.prov]))
      · exact q.met b2 _ hd
    · cases h : c.compact <;> simp only [ShTop.prov, charCall, h] <;> decide

theorem rtRead_prints {c P s} (h : Inv c P s) (hP : ∀ g, P g → rank .read < rank g) :
    Prints c P s (rtRead c s) .read :=
  once_prints h hP fun s0 i hr => by
    have b0 := below (g := .read_byte) hr (by decide)
    have b1 := below (g := .open_) hr (by decide)
    have m := rtReadByte_prints i b0
    have n := rtOpen_prints m.inv b1
    refine ⟨n.inv, m.ext.trans n.ext, textOk_of (.fn (.rt .read_byte) :: prov c .open_) ?_ (by simp only [ShTop.prov]; decide +kernel)⟩
    simp only [List.mem_cons]
    rintro d (rfl | hd)
    · exact n.ext.met (m.met b0 _ (by simp [ShTop.prov]))
    · exact n.met b1 _ hd

theorem rtWrite_prints {c P s} (h : Inv c P s) (hP : ∀ g, P g → rank .write < rank g) :
    Prints c P s (rtWrite c s) .write :=
  once_prints h hP fun s0 i hr => by
    have b0 := below (g := .open_) hr (by decide)
    have m := rtOpen_prints i b0
    exact ⟨m.inv, m.ext, textOk_of [] no_avail (by simp only [ShTop.prov]; decide)⟩

theorem rtFopen_prints {c P s} (h : Inv c P s) (hP : ∀ g, P g → rank .fopen < rank g) :
    Prints c P s (rtFopen c s) .fopen :=
  once_prints h hP fun s0 i hr => by
    have b0 := below (g := .malloc) hr (by decide)
    have b1 := below (g := .open_) hr (by decide)
    have m := rtMalloc_prints i b0
    have n := rtOpen_prints m.inv b1
    refine ⟨n.inv, m.ext.trans n.ext, textOk_of [.fn (.g idMalloc), .fn (.g idOpen)] ?_ (by simp only [ShTop.prov]; decide)⟩
    simp only [List.mem_cons, List.not_mem_nil, or_false]
    rintro d (rfl | rfl)
    · exact n.ext.met (m.met b0 _ (by simp [ShTop.prov]))
    · exact n.met b1 _ (by simp [ShTop.prov])

theorem rtClose_prints {c P s} (h : Inv c P s) (hP : ∀ g, P g → rank .close < rank g) :
    Prints c P s (rtClose c s) .close :=
  once_prints h hP fun s0 i hr => by
    have b0 := below (g := .open_) hr (by decide)
    have b1 := below (g := .free) hr (by decide)
    have m := rtOpen_prints i b0
    have n := rtFree_prints m.inv b1
    refine ⟨n.inv, m.ext.trans n.ext, textOk_of (.fn (.g idFree) :: prov c .open_) ?_ (by simp only [ShTop.prov]; decide)⟩
    simp only [List.mem_cons]
    rintro d (rfl | hd)
    · exact n.met b1 _ (by simp [ShTop.prov])
    · exact n.ext.met (m.met b0 _ hd)

theorem rtFclose_prints {c P s} (h : Inv c P s) (hP : ∀ g, P g → rank .fclose < rank g) :
    Prints c P s (rtFclose c s) .fclose :=
  once_prints h hP fun s0 i hr => by
    have b0 := below (g := .free) hr (by decide)
    have b1 := below (g := .close) hr (by decide)
    have m := rtFree_prints i b0
    have n := rtClose_prints m.inv b1
    refine ⟨n.inv, m.ext.trans n.ext, textOk_of [.fn (.g idFree), .fn (.g idClose)] ?_ (by simp only [ShTop.prov]; decide)⟩
    simp only [List.mem_cons, List.not_mem_nil, or_false]
    rintro d (rfl | rfl)
    · exact n.ext.met (m.met b0 _ (by simp [ShTop.prov]))
    · exact n.met b1 _ (by simp [ShTop.prov])

theorem rtFgetc_prints {c P s} (h : Inv c P s) (hP : ∀ g, P g → rank .fgetc < rank g) :
    Prints c P s (rtFgetc c s) .fgetc :=
  once_prints h hP fun s0 i hr => by
    have b0 := below (g := .read_byte) hr (by decide)
    have m := rtReadByte_prints i b0
    refine ⟨m.inv, m.ext, textOk_of [.fn (.rt .read_byte)] ?_ (by simp only [ShTop.prov]; decide)⟩
    simp only [List.mem_cons, List.not_mem_nil, or_false]
    rintro d rfl
    exact m.met b0 _ (by simp [ShTop.prov])

end Verif.ShTop
