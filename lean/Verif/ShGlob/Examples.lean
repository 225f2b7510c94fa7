import Verif.ShGlob.Props
import Verif.ShTop.Examples
/-! C46: a program the theorem applies to, and programs whose variables do not get their values. -/
namespace Verif.ShGlob
open Verif ShTop ShTop.Spec Spec

/-- Numbers for the names of the runtime. -/
def encH : H → Nat
  | .defarr => 0 | .initialize => 1 | .initialize_memory => 2 | .unpack_string => 3 | .make_argv => 4
  | .next_sub_buffer => 5 | .unpack_escaped_string => 6 | .defstr => 7 | .char_to_int => 8 | .let_ => 9
  | .endlet => 10 | .read_int => 11 | .pad => 12 | .printf_invalid_format_error => 13 | .printf_reset => 14
  | .unpack_line => 15 | .refill_buffer => 16 | .read_byte => 17 | .alloc => 18 | .under => 19 | .sp => 20
  | .c2i => 21 | .stdin_buf => 22 | .stdin_line_ending => 23 | .stdin_buf16 => 24 | .stdin_buf256 => 25
  | .stdin_end => 26 | .buffer_fd0 => 27 | .cursor_fd0 => 28 | .buflen_fd0 => 29 | .argc_for_main => 30
  | .argv_for_main => 31 | .code => 32 | .state_fd k => 33 + k

def decH : Nat → H
  | 0 => .defarr | 1 => .initialize | 2 => .initialize_memory | 3 => .unpack_string | 4 => .make_argv
  | 5 => .next_sub_buffer | 6 => .unpack_escaped_string | 7 => .defstr | 8 => .char_to_int | 9 => .let_
  | 10 => .endlet | 11 => .read_int | 12 => .pad | 13 => .printf_invalid_format_error | 14 => .printf_reset
  | 15 => .unpack_line | 16 => .refill_buffer | 17 => .read_byte | 18 => .alloc | 19 => .under | 20 => .sp
  | 21 => .c2i | 22 => .stdin_buf | 23 => .stdin_line_ending | 24 => .stdin_buf16 | 25 => .stdin_buf256
  | 26 => .stdin_end | 27 => .buffer_fd0 | 28 => .cursor_fd0 | 29 => .buflen_fd0 | 30 => .argc_for_main
  | 31 => .argv_for_main | 32 => .code | n => .state_fd (n - 33)

theorem decH_encH (h : H) : decH (encH h) = h := by
  cases h with
  | state_fd k =>
    show decH (33 + k) = _
    rw [Nat.add_comm]
    rfl
  | _ => rfl

theorem encH_inj {a b : H} (h : encH a = encH b) : a = b := by
  rw [← decH_encH a, h, decH_encH]

/-- Numbers for the names of a script: different names get different numbers. -/
def num : Nm → Nat
  | .g x => 8 * x + 2
  | .loc x => 8 * x + 3
  | .tmp x => 8 * x + 4
  | .str x => 8 * x + 5
  | .chr x => 8 * x + 6
  | .mem x => 8 * x + 7
  | .szof x => 8 * x + 8
  | .rt h => 8 * encH h + 9

theorem num_inj : ∀ m n, num m = num n → m = n := by
  intro m n h
  cases m <;> cases n <;> simp only [num] at h <;>
    first
      | (exfalso; omega)
      | (have h' := Nat.eq_of_mul_eq_mul_left (by decide : 0 < 8) (Nat.add_right_cancel h)
         first
           | (subst h'; rfl)
           | (exact congrArg _ (encH_inj h')))

/-- Run with the arguments `sh` and `x y`. -/
def env : Env := ⟨{ cfg with inlineChar := true }, true, true, num, fun c => c, [[115, 104], [120, 32, 121]]⟩

theorem env_ok : EnvOk env :=
  ⟨num_inj, fun n => by cases n <;> simp only [env, num, ShHeap.addrVar, ShHeap.argvVar] <;> omega,
    fun c h1 h2 => by simp [env], by decide⟩

/-- ```
enum { A = 1, B = 7 };                          // 100, 101
struct P { int x; int y; };                     // 110: 111, 112
int n = A + 2 * B, a[4] = {1, 'x', -3};         // 120, 121
char *t[2] = {"hi", "a\"b"}, w[5] = "hey";      // 122, 123
char *s = "hi";                                 // 124
int u[3], z;                                    // 125, 126
int main(int argc, char **argv) { return n; }
``` -/
def prog : List Top :=
  [.tag (.enum none [(100, 1), (101, 7)]),
   .tag (.struct (some 110) [(111, .scalar), (112, .scalar)]),
   .decls .basic false [.scalar 120 (some (.add (.name 100) (.mul (.int 2) (.name 101)))),
     .array 121 4 (.list [.int 1, .chr 120, .int (-3)])],
   .decls .basic false [.array 122 2 (.list [.str [104, 105], .str [97, 34, 98]]), .array 123 5 (.str [104, 101, 121])],
   .decls .basic false [.scalar 124 (some (.str [104, 105]))],
   .decls .basic false [.array 125 3 .none, .scalar 126 none],
   .fn ⟨idMain, [132, 133], [], 1, false, [.var 120]⟩]

theorem prog_ok : Ok env prog := by
  refine ⟨⟨?_, ?_, by decide, by decide⟩, by decide, by decide, ?_, by decide⟩
  · intro f hf e he
    have : f = ⟨idMain, [132, 133], [], 1, false, [.var 120]⟩ := by simpa [prog] using hf
    subst this
    rw [List.mem_singleton] at he
    subst he
    exact .inr (by decide)
  · intro pre sp ext ds post h
    match pre, h with
    | [], h => simp [prog] at h
    | [_], h => simp [prog] at h
    | [a, b], h =>
      simp only [prog, List.cons_append, List.nil_append, List.cons.injEq, Top.decls.injEq] at h
      obtain ⟨rfl, rfl, ⟨-, -, rfl⟩, -⟩ := h
      exact ⟨⟨show 100 ∈ _ by decide, trivial, show 101 ∈ _ by decide⟩, rfl, trivial⟩
    | [a, b, d], h =>
      simp only [prog, List.cons_append, List.nil_append, List.cons.injEq, Top.decls.injEq] at h
      obtain ⟨-, -, -, ⟨-, -, rfl⟩, -⟩ := h
      exact ⟨rfl, trivial, trivial⟩
    | [a, b, d, f], h =>
      simp only [prog, List.cons_append, List.nil_append, List.cons.injEq, Top.decls.injEq] at h
      obtain ⟨-, -, -, -, ⟨-, -, rfl⟩, -⟩ := h
      exact ⟨trivial, trivial⟩
    | [a, b, d, f, g], h =>
      simp only [prog, List.cons_append, List.nil_append, List.cons.injEq, Top.decls.injEq] at h
      obtain ⟨-, -, -, -, -, ⟨-, -, rfl⟩, -⟩ := h
      exact ⟨rfl, trivial, trivial⟩
    | [_, _, _, _, _, _], h => simp [prog] at h
    | _ :: _ :: _ :: _ :: _ :: _ :: _ :: rest, h => simp [prog] at h
  · intro sp ext ds h d hd
    simp only [prog, List.mem_cons, List.not_mem_nil, or_false, Top.decls.injEq, reduceCtorEq, false_or] at h
    rcases h with ⟨-, -, rfl⟩ | ⟨-, -, rfl⟩ | ⟨-, -, rfl⟩ | ⟨-, -, rfl⟩ <;>
      simp only [List.mem_cons, List.not_mem_nil, or_false] at hd
    · rcases hd with rfl | rfl
      · exact ⟨trivial, trivial, trivial⟩
      · intro x hx
        simp only [List.mem_cons, List.not_mem_nil, or_false] at hx
        rcases hx with rfl | rfl | rfl <;> trivial
    · rcases hd with rfl | rfl
      · intro x hx
        simp only [List.mem_cons, List.not_mem_nil, or_false] at hx
        rcases hx with rfl | rfl
        · exact show ∀ b ∈ [104, 105], b < 256 by decide
        · exact show ∀ b ∈ [97, 34, 98], b < 256 by decide
      · exact show ∀ b ∈ [104, 101, 121], b < 256 by decide
    · subst hd
      exact show ∀ b ∈ [104, 105], b < 256 by decide
    · rcases hd with rfl | rfl <;> trivial

/-- The value of a global variable when `main` starts. -/
def global (x : Id) : Res Sh → Option Int
  | .ok s => s.var env (.g x)
  | _ => none

/-- The elements of an array when `main` starts. -/
def elems (x : Id) (n : Nat) : Res Sh → List (Option Int)
  | .ok s => match s.var env (.g x) with
    | some b => (List.range n).map fun i : Nat => s.mem.cell (b + i)
    | none => []
  | _ => []

/-- The theorem applies, and the values are as expected. -/
example : ∃ s L K, launch env prog = .ok s ∧ ShHeap.Reach env.heap env.ord s.mem L [] ∧
    (∀ t ∈ prog, TopInit env s K L t) ∧ Separate env s K prog ∧
    ∀ m, Top.fn m ∈ prog → m.name = idMain → m.params ≠ [] → Args env s :=
  C46_globals_partial env env_ok prog prog_ok _ rfl

example : global 120 (launch env prog) = some 15 := by decide +kernel
example : elems 121 4 (launch env (prog.take 3)) = [some 1, some 120, some (-3), some 0] := by decide +kernel
example : elems 123 5 (launch env [.decls .basic false [.array 123 5 (.str [104, 101, 121])]]) =
    [some 104, some 101, some 121, some 0, some 0] := by decide +kernel
example : global 126 (launch env prog) = some 0 := by decide +kernel

/-! ### Values that get lost -/

/-- `int a[3]; int b[3] = {1, 2, 3};` — the text of `defarr` is printed for `a`, before anything asked for
initialisers (sh-runtime.c:314-331): `b` keeps its cells unset. -/
theorem C46_list_false :
    elems 101 3 (launch env [.decls .basic false [.array 100 3 .none],
      .decls .basic false [.array 101 3 (.list [.int 1, .int 2, .int 3])]]) = [none, none, none] := by decide +kernel

/-- In the other order they are set. -/
example : elems 101 3 (launch env [.decls .basic false [.array 101 3 (.list [.int 1, .int 2, .int 3])],
    .decls .basic false [.array 100 3 .none]]) = [some 1, some 2, some 3] := by decide +kernel

/-- `int x = 5; int x;` — in C the second declaration is tentative and `x` is 5; the script sets it to 0
(sh.c:2346-2363). -/
theorem C46_tentative_false :
    global 100 (launch env [.decls .basic false [.scalar 100 (some (.int 5))], .decls .basic false [.scalar 100 none]])
      = some 0 := by decide +kernel

/-- `int a[2];` — the elements are unset variables: under `set -u` reading one ends the script. -/
theorem C46_unset_false :
    elems 100 2 (launch env [.decls .basic false [.array 100 2 .none]]) = [none, none] := by decide +kernel

end Verif.ShGlob
