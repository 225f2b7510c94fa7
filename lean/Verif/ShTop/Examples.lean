import Verif.ShTop.Props
/-! C45: a program meeting the hypotheses, and programs showing that they are needed. -/
namespace Verif.ShTop
open Verif Spec

/-- The release build of the shell backend (`RELEASE_PNUT_SH`): `RT_NO_INIT_GLOBALS`, `SH_INITIALIZE_PARAMS_WITH_LET`,
`SH_AVOID_PRINTF_USE`, `SH_INLINE_PUTCHAR`, `SH_INLINE_EXIT`, `OPTIMIZE_LONG_LINES`, `RT_INLINE_PUTCHAR`
(pnut.c:44-69, 82-107). -/
def cfg : Cfg := ⟨false, true, true, true, false, true, true, true, false⟩

/-- The plain build (`-Dsh`): `RT_NO_INIT_GLOBALS` and `OPTIMIZE_LONG_LINES` off. -/
def cfgInit : Cfg := { cfg with noInit := false, long := false }

/-- ```
enum { A = 1, B = 7 };            // 100, 101
struct P { int x; int y; };       // 110: 111, 112
int n = A + 2, a[3] = {1, 2, 3};  // 120, 121
char *s = "hi";                   // 122
int f(int k) { return k == 'q' ? n : sizeof(struct P); }   // 130, 131
int main(int argc, char **argv) { printf("%d%s\n", f(argc), s); putchar(a[0]); malloc(B); return 0; }
``` -/
def demo : List Top :=
  [.tag (.enum none [(100, 1), (101, 7)]),
   .tag (.struct (some 110) [(111, .scalar), (112, .scalar)]),
   .decls .basic false [.scalar 120 (some (.add (.name 100) (.int 2))), .array 121 3 (.list [.int 1, .int 2, .int 3])],
   .decls .basic false [.scalar 122 (some (.str [104, 105]))],
   .fn ⟨130, [131], [], 0, false, [.var 131, .chr 113, .var 120, .sizeofStruct 110]⟩,
   .fn ⟨idMain, [132, 133], [], 1, false,
     [.call idPrintf true (.fmt true), .call 130 false .one, .var 132, .var 122,
      .call idPutchar true .one, .var 121, .call idMalloc false .one, .var 101]⟩]

/-- The hypotheses of C45 hold of it. -/
theorem demo_ok : Ok cfg demo := by
  refine ⟨?_, ?_, by decide, by decide⟩
  · have key : ∀ f, Top.fn f ∈ demo →
        f = ⟨130, [131], [], 0, false, [.var 131, .chr 113, .var 120, .sizeofStruct 110]⟩ ∨
        f = ⟨idMain, [132, 133], [], 1, false,
          [.call idPrintf true (.fmt true), .call 130 false .one, .var 132, .var 122,
           .call idPutchar true .one, .var 121, .call idMalloc false .one, .var 101]⟩ := by
      intro f hf
      simpa [demo] using hf
    intro f hf
    rcases key f hf with rfl | rfl
    · intro e he
      simp only [List.mem_cons, List.not_mem_nil, or_false] at he
      rcases he with rfl | rfl | rfl | rfl
      · exact .inl (by decide)
      · exact trivial
      · exact .inr (by decide)
      · exact show 110 ∈ tags demo by decide
    · intro e he
      simp only [List.mem_cons, List.not_mem_nil, or_false] at he
      rcases he with rfl | rfl | rfl | rfl | rfl | rfl | rfl | rfl
      · exact .inr (.inl (by decide))
      · exact .inl (by decide)
      · exact .inl (by decide)
      · exact .inr (by decide)
      · exact .inr (.inl (by decide))
      · exact .inr (by decide)
      · exact .inr (.inl (by decide))
      · exact .inr (by decide)
  · intro pre sp ext ds post h
    match pre, h with
    | [], h => simp [demo] at h
    | [_], h => simp [demo] at h
    | [a, b], h =>
      simp only [demo, List.cons_append, List.nil_append, List.cons.injEq, Top.decls.injEq] at h
      obtain ⟨rfl, rfl, ⟨-, -, rfl⟩, -⟩ := h
      exact ⟨⟨List.mem_cons_self, trivial⟩, rfl, trivial⟩
    | [a, b, d], h =>
      simp only [demo, List.cons_append, List.nil_append, List.cons.injEq, Top.decls.injEq] at h
      obtain ⟨-, -, -, ⟨-, -, rfl⟩, -⟩ := h
      exact ⟨trivial, trivial⟩
    | [_, _, _, _], h => simp [demo] at h
    | [_, _, _, _, _], h => simp [demo] at h
    | _ :: _ :: _ :: _ :: _ :: _ :: rest, h => simp [demo] at h

/-- The number of lines of a script. -/
def linesOf : Res (List Cmd) → Nat
  | .ok l => l.length
  | _ => 0

/-- It compiles. -/
example : linesOf (script cfg demo) = 33 := by decide +kernel
example : (consts demo).Nodup ∧ ∀ x ∈ vars demo, Nm.g x ∉ consts demo := by decide

example : ∃ l, script cfg demo = .ok l ∧ Complete l ∧ (defNames l).Nodup :=
  ⟨_, rfl, C45_complete_partial cfg demo demo_ok _ rfl⟩

/-! ### Scripts with something missing -/

/-- A shell function calls a function that is not there, and can be reached. -/
theorem not_complete {l pre post : List Cmd} {x : Cmd} {d e : Need} (h : l = pre ++ x :: post)
    (hd : d ∈ needs x) (hr : Reach pre d e) (hm : ¬ Met pre e) : ¬ Complete l := fun hc => hm (hc pre x post h d hd e hr)

/-- Met, as a computation. -/
theorem not_met {l : List Cmd} {d : Need} (h : provides l d = false) : ¬ Met l d := by
  intro hm
  cases d with
  | fn n =>
    obtain ⟨ds, hx⟩ := hm
    have : provides l (.fn n) = true := List.any_eq_true.mpr ⟨_, hx, by simp⟩
    rw [h] at this; cases this
  | var n =>
    obtain ⟨x, hx, hn⟩ := hm
    have : provides l (.var n) = true := List.any_eq_true.mpr ⟨_, hx, by simpa using hn⟩
    rw [h] at this; cases this

/-- `int a[3];` — without `RT_NO_INIT_GLOBALS`, `defarr` calls `initialize_memory`, which no part of the
runtime defines (sh-runtime.c:326). -/
theorem C45_array_false : ∃ l, script cfgInit [.decls .basic false [.array 100 3 .none]] = .ok l ∧ ¬ Complete l := by
  refine ⟨_, rfl, ?_⟩
  refine not_complete (pre := [.set (.rt .alloc) 1, .defun (.g idMalloc) [.var (.rt .alloc)],
      .defun (.rt .initialize) [], .defun (.rt .defarr) [.fn (.g idMalloc), .fn (.rt .initialize_memory)]])
    (x := .defarr (.g 100) 3 []) (post := []) (d := .fn (.rt .defarr)) (e := .fn (.rt .initialize_memory))
    (by rfl) (by decide) ?_ (not_met (by decide))
  exact .step (n := .rt .defarr) (ds := [.fn (.g idMalloc), .fn (.rt .initialize_memory)]) (by decide)
    (by decide) (.refl _)

/-- `int x = 'a';` — the constants for characters are only set at the end of the script. -/
theorem C45_char_false : ∃ l, script cfg [.decls .basic false [.scalar 100 (some (.chr 97))]] = .ok l ∧ ¬ Complete l := by
  refine ⟨_, rfl, ?_⟩
  exact not_complete (pre := []) (x := .assign (.g 100) (.var (.chr 97))) (post := [.readonly (.chr 97) (.int 97)])
    (d := .var (.chr 97)) (by decide +kernel) (by decide) (.refl _) (not_met (by decide))

/-- `int main() { puts(s); }` with a variable `s`: there is no `_puts`. -/
theorem C45_puts_false : ∃ l, script cfg
    [.decls .basic false [.scalar 100 none], .fn ⟨idMain, [], [], 0, true, [.call idPuts true .one, .var 100]⟩] = .ok l ∧
    ¬ Complete l := by
  refine ⟨_, rfl, ?_⟩
  refine not_complete (pre := [.assign (.g 100) (.int 0),
      .defun (.g idMain) [.fn (.g idPuts), .var (.g 100)]])
    (x := .callMain false false) (post := []) (d := .fn (.g idMain)) (e := .fn (.g idPuts))
    (by decide +kernel) (by decide) ?_ (not_met (by decide))
  exact .step (n := .g idMain) (ds := [.fn (.g idPuts), .var (.g 100)]) (by decide) (by decide) (.refl _)

/-- `enum { A } e; int main() { return A; }`: constants of an `enum` inside a variable declaration are
never set (sh.c:2295). -/
theorem C45_inline_enum_false : ∃ l, script cfg
    [.decls (.enum none [(100, 0)]) false [.scalar 101 none], .fn ⟨idMain, [], [], 0, false, [.var 100]⟩] = .ok l ∧
    ¬ Complete l := by
  refine ⟨_, rfl, ?_⟩
  refine not_complete (pre := [.assign (.g 101) (.int 0), .defun (.g idMain) [.var (.g 100)], .set (.rt .code) 0])
    (x := .callMain true false) (post := []) (d := .fn (.g idMain)) (e := .var (.g 100))
    (by decide +kernel) (by decide) ?_ (not_met (by decide))
  exact .step (n := .g idMain) (ds := [.var (.g 100)]) (by decide) (by decide) (.refl _)

/-- `struct P { int x; } *p; int main() { p->x = 1; }`: the same for members. -/
theorem C45_inline_struct_false : ∃ l, script cfg
    [.decls (.struct (some 102) [(100, .scalar)]) false [.scalar 101 none],
     .fn ⟨idMain, [], [], 0, true, [.var 101, .member 100]⟩] = .ok l ∧ ¬ Complete l := by
  refine ⟨_, rfl, ?_⟩
  refine not_complete (pre := [.assign (.g 101) (.int 0), .defun (.g idMain) [.var (.g 101), .var (.mem 100)]])
    (x := .callMain false false) (post := []) (d := .fn (.g idMain)) (e := .var (.mem 100))
    (by decide +kernel) (by decide) ?_ (not_met (by decide))
  exact .step (n := .g idMain) (ds := [.var (.g 101), .var (.mem 100)]) (by decide) (by decide) (.refl _)

/-- A function of the program called `put_pstr` is replaced at the end of the script by the runtime's own
(here because of a `printf("%s", s)`). -/
theorem C45_put_pstr_false : ∃ l, script cfg
    [.fn ⟨idPutPstr, [], [], 0, true, []⟩,
     .fn ⟨idMain, [], [], 0, true, [.call idPrintf true (.fmt true), .call idPutPstr true .other]⟩] = .ok l ∧
    ¬ (defNames l).Nodup := ⟨_, rfl, by decide +kernel⟩

/-! ### Scripts that set a constant twice -/

theorem not_noClash {l pre post : List Cmd} {n : Nm} {r : Rv} {x : Cmd} (h : l = pre ++ x :: post)
    (hn : n ∈ sets x) (hr : Cmd.readonly n r ∈ pre) : ¬ NoClash l := fun hc => hc pre x post h n hn r hr

/-- `struct P; struct P { int x; };`: the forward declaration already sets the size, to 0, and makes it
readonly; the script stops at the definition. -/
theorem C45_forward_struct_false : ∃ l, script cfg
    [.tag (.struct (some 100) []), .tag (.struct (some 100) [(101, .scalar)])] = .ok l ∧ ¬ NoClash l :=
  ⟨_, rfl, not_noClash (n := .szof 100) (r := .int 0) (pre := [.readonly (.szof 100) (.int 0), .readonly (.mem 101) (.int 0)])
    (x := .readonly (.szof 100) (.int 1)) (post := []) (by decide +kernel) (by decide) (by decide)⟩

/-- `struct P { int x; }; typedef struct P P;`: the same. -/
theorem C45_typedef_struct_false : ∃ l, script cfg
    [.tag (.struct (some 100) [(101, .scalar)]), .typedef (.struct (some 100) [])] = .ok l ∧ ¬ NoClash l :=
  ⟨_, rfl, not_noClash (n := .szof 100) (r := .int 1) (pre := [.readonly (.mem 101) (.int 0), .readonly (.szof 100) (.int 1)])
    (x := .readonly (.szof 100) (.int 0)) (post := []) (by decide +kernel) (by decide) (by decide)⟩

/-- Two structures with a member of the same name (a documented limitation, sh.c:2410-2413). -/
theorem C45_members_false : ∃ l, script cfg
    [.tag (.struct (some 100) [(101, .scalar)]), .tag (.struct (some 102) [(101, .scalar)])] = .ok l ∧ ¬ NoClash l :=
  ⟨_, rfl, not_noClash (n := .mem 101) (r := .int 0) (pre := [.readonly (.mem 101) (.int 0), .readonly (.szof 100) (.int 1)])
    (x := .readonly (.mem 101) (.int 0)) (post := [.readonly (.szof 102) (.int 1)]) (by decide +kernel) (by decide) (by decide)⟩

end Verif.ShTop
