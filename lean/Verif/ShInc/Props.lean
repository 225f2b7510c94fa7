import Verif.ShInc.Spec
import Verif.Inc.Stream
/-! # C58: `#include_shell` puts a shell file into the script, unchanged; C59: `#error` and `#warning` -/
namespace Verif.ShInc
open Verif Verif.Inc Verif.ShInc.Spec

theorem copy_eq : ∀ (c out : List Nat), copy c out = out ++ c
  | [], out => by simp [copy]
  | c :: r, out => by simp [copy, copy_eq r]

/-- `fp_filepath` after a directive. -/
def fpAfter (dir : Path) (p : Path) : Dir → Path
  | .shell n => dir ++ n
  | _ => p

def isShell : Dir → Bool
  | .shell _ => true
  | _ => false

/-- The state after the directives `ns` with the texts `bs`. -/
def after (dir : Path) (ns : List Dir) (bs : List Nat) (o : Out) : Out :=
  ⟨o.out ++ bs, ns.foldl (fpAfter dir) o.fp_filepath, o.use_put_pstr || ns.any isShell, o.use_unpack_string || ns.any isShell⟩

theorem get_tok_files {fs : FS} {dir : Path} {ns : List Dir} {bs : List Nat} (h : Texts fs dir ns bs) : ∀ (o : Out) (r : List Item), get_tok fs dir (ns.map .dir ++ r) o = get_tok fs dir r (after dir ns bs o) := by
  induction h with
  | nil => intro o r; simp [after]
  | @shell n ns c bs hn h ih =>
    intro o r
    rw [List.map_cons, List.cons_append, get_tok, handle_directive, handle_shell_include, source_path, hn]
    simp only [Res.bind_ok]
    rw [ih]
    congr 1
    simp [after, copy_eq, fpAfter, isShell]
  | @warning w ns bs h ih =>
    intro o r
    rw [List.map_cons, List.cons_append, get_tok, handle_directive]
    simp only [Res.bind_ok]
    rw [ih]
    congr 1
    simp [after, copy_eq, fpAfter, isShell]

theorem get_tok_missing {fs : FS} {dir : Path} : ∀ {ns : List Dir} (_ : ∃ n ∈ ns, Bad fs dir n) (o : Out) (r : List Item), get_tok fs dir (ns.map .dir ++ r) o = .fatal
  | [], h, _, _ => by simp at h
  | n :: ns, h, o, r => by
    rw [List.map_cons, List.cons_append, get_tok]
    cases n with
    | shell n =>
      rw [handle_directive, handle_shell_include, source_path]
      cases hn : fs (dir ++ n) with
      | none => rfl
      | some c =>
        simp only [Res.bind_ok]
        refine get_tok_missing ?_ _ _
        obtain ⟨m, hm, e⟩ := h
        rcases List.mem_cons.1 hm with rfl | hm
        · rw [Bad, hn] at e; cases e
        · exact ⟨m, hm, e⟩
    | warning w =>
      rw [handle_directive]
      simp only [Res.bind_ok]
      refine get_tok_missing ?_ _ _
      obtain ⟨m, hm, e⟩ := h
      rcases List.mem_cons.1 hm with rfl | hm
      · exact e.elim
      · exact ⟨m, hm, e⟩
    | error w => rfl

theorem files_or {fs : FS} {dir : Path} : ∀ ns : List Dir, (∃ bs, Texts fs dir ns bs) ∨ ∃ n ∈ ns, Bad fs dir n
  | [] => .inl ⟨_, .nil⟩
  | .shell n :: ns => by
    cases hn : fs (dir ++ n) with
    | none => exact .inr ⟨.shell n, by simp, hn⟩
    | some c =>
      rcases files_or (fs := fs) (dir := dir) ns with ⟨bs, h⟩ | ⟨m, hm, e⟩
      · exact .inl ⟨_, .shell hn h⟩
      · exact .inr ⟨m, by simp [hm], e⟩
  | .warning w :: ns => by
    rcases files_or (fs := fs) (dir := dir) ns with ⟨bs, h⟩ | ⟨m, hm, e⟩
    · exact .inl ⟨_, .warning h⟩
    · exact .inr ⟨m, by simp [hm], e⟩
  | .error w :: ns => .inr ⟨.error w, by simp, trivial⟩

theorem files_not_bad {fs : FS} {dir : Path} {ns : List Dir} {bs : List Nat} (h : Texts fs dir ns bs) {m : Dir} (hm : m ∈ ns) (hb : Bad fs dir m) : False := by
  induction h with
  | nil => simp at hm
  | shell hc _ ih =>
    rcases List.mem_cons.1 hm with rfl | hm
    · rw [Bad, hc] at hb; cases hb
    · exact ih hm
  | warning _ ih =>
    rcases List.mem_cons.1 hm with rfl | hm
    · exact hb
    · exact ih hm

theorem files_split {fs : FS} {dir : Path} : ∀ {ns ms : List Dir} {bs : List Nat}, Texts fs dir (ns ++ ms) bs → ∃ b c, bs = b ++ c ∧ Texts fs dir ns b ∧ Texts fs dir ms c
  | [], ms, bs, h => ⟨[], bs, rfl, .nil, h⟩
  | n :: ns, ms, bs, h => by
    cases h with
    | shell hn h =>
      obtain ⟨b, c, rfl, h1, h2⟩ := files_split h
      exact ⟨_, c, by simp only [List.append_assoc], .shell hn h1, h2⟩
    | warning h =>
      obtain ⟨b, c, rfl, h1, h2⟩ := files_split h
      exact ⟨_, c, by simp only [List.append_assoc], .warning h1, h2⟩

theorem after_after (dir : Path) (ns ms : List Dir) (bs cs : List Nat) (o : Out) : after dir ms cs (after dir ns bs o) = after dir (ns ++ ms) (bs ++ cs) o := by
  cases ms <;> cases ns <;> simp [after, Bool.or_assoc]

/-- The first token of what follows, without directives before it. -/
def head (r : List Item) : Option Nat × List Item :=
  match r with
  | .tok t :: r => (some t, r)
  | _ => (none, [])

/-- The rest of a source: the declarations to come. -/
def flat (ds : List Decl) : List Item := ds.flatMap fun d => d.flatMap fun x => .tok x.1 :: x.2.map .dir

theorem get_tok_flat {fs : FS} {dir : Path} {ends : List Nat → Bool} {ds : List Decl} (hd : ∀ d ∈ ds, IsDecl ends d) (o : Out) : get_tok fs dir (flat ds) o = .ok ((head (flat ds)).1, (head (flat ds)).2, o) := by
  cases ds with
  | nil => rfl
  | cons d ds =>
    obtain ⟨-, hn, -⟩ := hd d (by simp)
    cases d with
    | nil => exact absurd rfl hn
    | cons x d => simp [flat, get_tok, head]

theorem tokens_prefix {ends : List Nat → Bool} {seen : List Nat} {t : Nat} {rest : List Nat} (hf : ∀ p, p <+: seen ++ t :: rest → p ≠ seen ++ t :: rest → p ≠ [] → ends p = false) (hr : rest ≠ []) : ends (seen ++ [t]) = false :=
  hf _ ⟨rest, by simp⟩ (by simp [hr.symm]) (by simp)

theorem parse_ok {fs : FS} {dir : Path} {ends : List Nat → Bool} {ds : List Decl} (hd : ∀ d ∈ ds, IsDecl ends d) : ∀ (d : Decl) (n : Nat) (seen : List Nat) (t : Nat) (ns : List Dir) (bs : List Nat) (o : Out),
    Texts fs dir (dirs ((t, ns) :: d)) bs → ends (seen ++ t :: tokens d) = true → (∀ p, p <+: seen ++ t :: tokens d → p ≠ seen ++ t :: tokens d → p ≠ [] → ends p = false) → d.length < n →
    parse_declaration fs dir ends n seen t (ns.map .dir ++ flat (d :: ds)) o = .ok (seen ++ t :: tokens d, (head (flat ds)).1, (head (flat ds)).2, after dir (dirs ((t, ns) :: d)) bs o)
  | [], 0, _, _, _, _, _, _, _, _, hn => by simp at hn
  | _ :: _, 0, _, _, _, _, _, _, _, _, hn => by simp at hn
  | [], n + 1, seen, t, ns, bs, o, hf, he, _, _ => by
    simp only [dirs, List.flatMap_cons, List.flatMap_nil, List.append_nil] at hf ⊢
    rw [parse_declaration, get_tok_files hf, show flat ([] :: ds) = flat ds by simp [flat], get_tok_flat hd]
    simp only [Res.bind_ok]
    rw [if_pos (by simpa [tokens] using he)]
    simp [tokens]
  | (t', ns') :: d, n + 1, seen, t, ns, bs, o, hf, he, hp, hn => by
    have hs : dirs ((t, ns) :: (t', ns') :: d) = ns ++ dirs ((t', ns') :: d) := by simp [dirs]
    rw [hs] at hf ⊢
    obtain ⟨b, c, rfl, h1, h2⟩ := files_split hf
    have e : flat (((t', ns') :: d) :: ds) = .tok t' :: (ns'.map .dir ++ flat (d :: ds)) := by simp [flat]
    rw [parse_declaration, get_tok_files h1, e, get_tok]
    simp only [Res.bind_ok]
    have hq : ends (seen ++ [t]) = false := tokens_prefix (rest := tokens ((t', ns') :: d)) hp (by simp [tokens])
    rw [hq]
    simp only [Bool.false_eq_true, if_false]
    have e2 : seen ++ t :: tokens ((t', ns') :: d) = (seen ++ [t]) ++ t' :: tokens d := by simp [tokens]
    rw [e2] at he hp
    rw [parse_ok hd d n (seen ++ [t]) t' ns' c _ h2 he hp (by simp at hn; omega), after_after, e2]

theorem loop_ok {fs : FS} {dir : Path} {ends : List Nat → Bool} {code : List (List Nat) → List Nat} : ∀ (ds : List Decl) (n : Nat) (done : List (List Nat)) (bs : List Nat) (o : Out), (∀ d ∈ ds, IsDecl ends d) → Body fs dir code done ds bs → ds.length < n →
    loop fs dir ends code n done (head (flat ds)).1 (head (flat ds)).2 o = .ok (after dir (ds.flatMap dirs) bs o)
  | _, 0, _, _, _, _, _, hn => by simp at hn
  | [], n + 1, done, bs, o, _, hb, _ => by
    cases hb
    simp [flat, head, loop, after]
  | d :: ds, n + 1, done, bs, o, hd, hb, hn => by
    cases hb with
    | @cons _ _ _ b bs hf hb =>
      obtain ⟨he, hne, hp⟩ := hd d (by simp)
      cases d with
      | nil => exact absurd rfl hne
      | cons x d =>
        obtain ⟨t, ns⟩ := x
        have e : flat (((t, ns) :: d) :: ds) = .tok t :: (ns.map .dir ++ flat (d :: ds)) := by simp [flat]
        have ht : tokens ((t, ns) :: d) = [] ++ t :: tokens d := rfl
        rw [e]
        simp only [head]
        have hl : d.length < (ns.map Item.dir ++ flat (d :: ds)).length + 1 := by
          have h2 : ∀ d : Decl, d.length ≤ (d.flatMap fun x => Item.tok x.1 :: x.2.map Item.dir).length := by
            intro d
            induction d with
            | nil => simp
            | cons y d ih => simp only [List.flatMap_cons, List.length_append, List.length_cons]; omega
          have := h2 d
          simp only [flat, List.flatMap_cons, List.length_append]
          omega
        rw [loop, parse_ok (fun d' h' => hd d' (by simp [h'])) d _ [] t ns b o hf (by rw [← ht]; exact he) (by rw [← ht]; exact hp) hl, Res.bind_ok]
        dsimp only
        rw [← ht, loop_ok ds n _ bs _ (fun d' h' => hd d' (by simp [h'])) hb (by simp at hn; omega)]
        congr 1
        cases hds : ds.flatMap dirs <;> cases hns : dirs ((t, ns) :: d) <;> simp [after, hds, hns, Bool.or_assoc]

theorem flat_length {ends : List Nat → Bool} : ∀ ds : List Decl, (∀ d ∈ ds, IsDecl ends d) → ds.length ≤ (flat ds).length := by
  intro ds
  induction ds with
  | nil => simp
  | cons d ds ih =>
    intro h
    have := ih fun d' h' => h d' (by simp [h'])
    obtain ⟨-, hne, -⟩ := h d (by simp)
    cases d with
    | nil => exact absurd rfl hne
    | cons x d => simp only [flat, List.flatMap_cons, List.length_append, List.length_cons] at this ⊢; omega

theorem dirs_any (ds : List Dir) : ds.any isShell = !(ds.filterMap nameOf).isEmpty := by
  induction ds with
  | nil => rfl
  | cons d ds ih => cases d <;> simp_all [isShell, nameOf, List.filterMap_cons]

theorem dirs_fp (dir : Path) : ∀ (ds : List Dir) (p : Path), ds.foldl (fpAfter dir) p = (ds.filterMap nameOf).foldl (fun _ n => dir ++ n) p
  | [], _ => rfl
  | d :: ds, p => by
    rw [List.foldl_cons, dirs_fp dir ds]
    cases d <;> simp [fpAfter, nameOf, List.filterMap_cons]

theorem compile_ok {fs : FS} {file dir : Path} (hdir : Inc.Spec.IsDir dir file) {ends : List Nat → Bool} (code : List (List Nat) → List Nat) (prologue : List Nat) (epilogue : Bool → Bool → List Nat) {s : Source} (hd : ∀ d ∈ s.decls, IsDecl ends d) {b bs : List Nat}
    (hf : Texts fs dir s.first b) (hb : Body fs dir code [] s.decls bs) :
    compile fs file ends code prologue epilogue (items s) =
      .ok ⟨prologue ++ b ++ bs ++ epilogue (!s.names.isEmpty) (!s.names.isEmpty), s.names.foldl (fun _ n => dir ++ n) file, !s.names.isEmpty, !s.names.isEmpty⟩ := by
  have hdd : file_parent_directory file = dir := isDir_unique (parent_isDir file) hdir
  have hi : items s = s.first.map .dir ++ flat s.decls := rfl
  have hl : s.decls.length < (s.first.map Item.dir ++ flat s.decls).length + 1 := by
    have h := flat_length s.decls hd
    simp only [List.length_append]
    omega
  rw [compile, hdd, hi, get_tok_files hf, get_tok_flat hd, Res.bind_ok]
  dsimp only
  rw [loop_ok _ _ _ _ _ hd hb hl, Res.bind_ok, after_after]
  have e : s.first ++ s.decls.flatMap dirs = s.dirs := rfl
  rw [after, e, dirs_any, dirs_fp]
  simp [Source.names]

/-- **C58.** The script is: the prologue; the shell files included before the first declaration; for each declaration the shell files that are included in it and behind it, byte by byte, and then its code; the epilogue (warnings are among the files, C59), which has the run-time functions for packed strings if a file
was included.  So every file is there exactly as often as it is included, unchanged and in order, and never inside the code of a declaration.  The names are relative to the directory of the C file. -/
theorem C58_script {fs : FS} {file dir : Path} (hdir : Inc.Spec.IsDir dir file) {ends : List Nat → Bool} (code : List (List Nat) → List Nat) (prologue : List Nat) (epilogue : Bool → Bool → List Nat) {s : Source} (hd : ∀ d ∈ s.decls, IsDecl ends d) {b bs : List Nat}
    (hf : Texts fs dir s.first b) (hb : Body fs dir code [] s.decls bs) :
    ∃ o, compile fs file ends code prologue epilogue (items s) = .ok o ∧ o.out = prologue ++ b ++ bs ++ epilogue (!s.names.isEmpty) (!s.names.isEmpty) :=
  ⟨_, compile_ok hdir code prologue epilogue hd hf hb, rfl⟩

theorem parse_missing {fs : FS} {dir : Path} {ends : List Nat → Bool} {r : List Item} : ∀ (d : Decl) (n : Nat) (seen : List Nat) (t : Nat) (ns : List Dir) (o : Out),
    (∃ m ∈ dirs ((t, ns) :: d), Bad fs dir m) → (∀ p, p <+: seen ++ t :: tokens d → p ≠ seen ++ t :: tokens d → p ≠ [] → ends p = false) → d.length < n →
    parse_declaration fs dir ends n seen t (ns.map .dir ++ ((d.flatMap fun x => .tok x.1 :: x.2.map .dir) ++ r)) o = .fatal
  | [], 0, _, _, _, _, _, _, hn => by simp at hn
  | _ :: _, 0, _, _, _, _, _, _, hn => by simp at hn
  | d, n + 1, seen, t, ns, o, hm, hp, hn => by
    rw [parse_declaration]
    rcases files_or (fs := fs) (dir := dir) ns with ⟨b, hb⟩ | hx
    · rw [get_tok_files hb]
      cases d with
      | nil =>
        obtain ⟨m, h1, h2⟩ := hm
        simp [dirs] at h1
        exact (files_not_bad hb h1 h2).elim
      | cons x d =>
        obtain ⟨t', ns'⟩ := x
        simp only [List.flatMap_cons, List.cons_append, List.append_assoc]
        rw [get_tok, Res.bind_ok]
        dsimp only
        have hq : ends (seen ++ [t]) = false := tokens_prefix (rest := tokens ((t', ns') :: d)) hp (by simp [tokens])
        rw [hq]
        simp only [Bool.false_eq_true, if_false]
        have e2 : seen ++ t :: tokens ((t', ns') :: d) = (seen ++ [t]) ++ t' :: tokens d := by simp [tokens]
        rw [e2] at hp
        refine parse_missing d n (seen ++ [t]) t' ns' _ ?_ hp (by simp at hn; omega)
        obtain ⟨m, h1, h2⟩ := hm
        refine ⟨m, ?_, h2⟩
        simp only [dirs, List.flatMap_cons, List.mem_append] at h1 ⊢
        rcases h1 with h1 | h1
        · exact (files_not_bad hb h1 h2).elim
        · exact h1
    · rw [get_tok_missing hx]; rfl

theorem loop_missing {fs : FS} {dir : Path} {ends : List Nat → Bool} {code : List (List Nat) → List Nat} : ∀ (ds : List Decl) (n : Nat) (done : List (List Nat)) (o : Out), (∀ d ∈ ds, IsDecl ends d) → (∃ m ∈ ds.flatMap dirs, Bad fs dir m) → ds.length < n →
    loop fs dir ends code n done (head (flat ds)).1 (head (flat ds)).2 o = .fatal
  | _, 0, _, _, _, _, hn => by simp at hn
  | [], n + 1, _, _, _, hm, _ => by simp at hm
  | d :: ds, n + 1, done, o, hd, hm, hn => by
    obtain ⟨he, hne, hp⟩ := hd d (by simp)
    cases d with
    | nil => exact absurd rfl hne
    | cons x d =>
      obtain ⟨t, ns⟩ := x
      have e : flat (((t, ns) :: d) :: ds) = .tok t :: (ns.map .dir ++ flat (d :: ds)) := by simp [flat]
      have e' : flat (d :: ds) = (d.flatMap fun x => .tok x.1 :: x.2.map .dir) ++ flat ds := by simp [flat]
      have ht : tokens ((t, ns) :: d) = [] ++ t :: tokens d := rfl
      rw [e]
      simp only [head]
      have hl : d.length < (ns.map Item.dir ++ flat (d :: ds)).length + 1 := by
        have h2 : ∀ d : Decl, d.length ≤ (d.flatMap fun x => Item.tok x.1 :: x.2.map Item.dir).length := by
          intro d
          induction d with
          | nil => simp
          | cons y d ih => simp only [List.flatMap_cons, List.length_append, List.length_cons]; omega
        have := h2 d
        simp only [flat, List.flatMap_cons, List.length_append]
        omega
      rcases files_or (fs := fs) (dir := dir) (dirs ((t, ns) :: d)) with ⟨b, hb⟩ | hx
      · rw [loop, parse_ok (fun d' h' => hd d' (by simp [h'])) d _ [] t ns b o hb (by rw [← ht]; exact he) (by rw [← ht]; exact hp) hl, Res.bind_ok]
        dsimp only
        refine loop_missing ds n _ _ (fun d' h' => hd d' (by simp [h'])) ?_ (by simp at hn; omega)
        obtain ⟨m, h1, h2⟩ := hm
        refine ⟨m, ?_, h2⟩
        rw [List.flatMap_cons, List.mem_append] at h1
        rcases h1 with h1 | h1
        · exact (files_not_bad hb h1 h2).elim
        · exact h1
      · rw [loop]
        have := parse_missing (r := flat ds) d ((ns.map Item.dir ++ flat (d :: ds)).length + 1) [] t ns o hx (by rw [← ht]; exact hp) hl
        rw [← e'] at this
        rw [this]
        rfl

theorem compile_bad {fs : FS} {file dir : Path} (hdir : Inc.Spec.IsDir dir file) {ends : List Nat → Bool} (code : List (List Nat) → List Nat) (prologue : List Nat) (epilogue : Bool → Bool → List Nat) {s : Source} (hd : ∀ d ∈ s.decls, IsDecl ends d)
    (hm : ∃ n ∈ s.dirs, Bad fs dir n) : compile fs file ends code prologue epilogue (items s) = .fatal := by
  have hdd : file_parent_directory file = dir := isDir_unique (parent_isDir file) hdir
  have hi : items s = s.first.map .dir ++ flat s.decls := rfl
  have hl : s.decls.length < (s.first.map Item.dir ++ flat s.decls).length + 1 := by
    have h := flat_length s.decls hd
    simp only [List.length_append]
    omega
  rw [compile, hdd, hi]
  rcases files_or (fs := fs) (dir := dir) s.first with ⟨b, hb⟩ | hx
  · rw [get_tok_files hb, get_tok_flat hd, Res.bind_ok]
    dsimp only
    rw [loop_missing _ _ _ _ hd ?_ hl]
    · rfl
    · obtain ⟨m, h1, h2⟩ := hm
      refine ⟨m, ?_, h2⟩
      rw [Source.dirs, List.mem_append] at h1
      rcases h1 with h1 | h1
      · exact (files_not_bad hb h1 h2).elim
      · exact h1
  · rw [get_tok_missing hx]; rfl

/-- **C58, missing files.** If any of the files does not exist, the program is refused. -/
theorem C58_missing {fs : FS} {file dir : Path} (hdir : Inc.Spec.IsDir dir file) {ends : List Nat → Bool} (code : List (List Nat) → List Nat) (prologue : List Nat) (epilogue : Bool → Bool → List Nat) {s : Source} (hd : ∀ d ∈ s.decls, IsDecl ends d)
    (hm : ∃ n ∈ s.names, fs (dir ++ n) = none) : compile fs file ends code prologue epilogue (items s) = .fatal := by
  obtain ⟨n, h1, h2⟩ := hm
  refine compile_bad hdir code prologue epilogue hd ⟨.shell n, ?_, h2⟩
  obtain ⟨x, hx, e⟩ := List.mem_filterMap.1 h1
  cases x with
  | shell m => simp [nameOf] at e; subst e; exact hx
  | warning _ => simp [nameOf] at e
  | error _ => simp [nameOf] at e

/-- **C59, `#error`.** A source with an `#error` directive anywhere is refused. -/
theorem C59_error {fs : FS} {file dir : Path} (hdir : Inc.Spec.IsDir dir file) {ends : List Nat → Bool} (code : List (List Nat) → List Nat) (prologue : List Nat) (epilogue : Bool → Bool → List Nat) {s : Source} (hd : ∀ d ∈ s.decls, IsDecl ends d)
    {w : List Nat} (hm : .error w ∈ s.dirs) : compile fs file ends code prologue epilogue (items s) = .fatal :=
  compile_bad hdir code prologue epilogue hd ⟨_, hm, trivial⟩

/-- **C59, `#warning`: the program goes on.** A source in which no file is missing and there is no `#error` is compiled, whatever warnings there are. -/
theorem C59_warning_accepted {fs : FS} {file dir : Path} (hdir : Inc.Spec.IsDir dir file) {ends : List Nat → Bool} (code : List (List Nat) → List Nat) (prologue : List Nat) (epilogue : Bool → Bool → List Nat) {s : Source} (hd : ∀ d ∈ s.decls, IsDecl ends d)
    (hm : ∀ d ∈ s.dirs, ¬ Bad fs dir d) : ∃ o, compile fs file ends code prologue epilogue (items s) = .ok o := by
  have hb : ∀ (ds : List Decl) (done : List (List Nat)), (∀ d ∈ ds.flatMap dirs, ¬ Bad fs dir d) → ∃ bs, Body fs dir code done ds bs := by
    intro ds
    induction ds with
    | nil => exact fun _ _ => ⟨_, .nil⟩
    | cons d ds ih =>
      intro done h
      obtain ⟨bs, h1⟩ := ih (done ++ [tokens d]) fun x hx => h x (by simp only [List.flatMap_cons, List.mem_append]; exact .inr hx)
      rcases files_or (fs := fs) (dir := dir) (dirs d) with ⟨b, hb⟩ | ⟨x, hx, e⟩
      · exact ⟨_, .cons hb h1⟩
      · exact absurd e (h x (by simp only [List.flatMap_cons, List.mem_append]; exact .inl hx))
  obtain ⟨bs, h1⟩ := hb s.decls [] fun d h => hm d (by rw [Source.dirs, List.mem_append]; exact .inr h)
  rcases files_or (fs := fs) (dir := dir) s.first with ⟨b, h2⟩ | ⟨x, hx, e⟩
  · exact ⟨_, compile_ok hdir code prologue epilogue hd h2 h1⟩
  · exact absurd e (hm x (by rw [Source.dirs, List.mem_append]; exact .inl hx))

/-- **C59, `#warning` changes the program: false.** The message is written into the script, as a line between prologue and code, where a shell takes it for a command `warning:`: whatever the program, it has one line more with the warning than without. -/
theorem C59_warning_false {fs : FS} {file dir : Path} (hdir : Inc.Spec.IsDir dir file) {ends : List Nat → Bool} (code : List (List Nat) → List Nat) (prologue : List Nat) (epilogue : Bool → Bool → List Nat) {s : Source} (hd : ∀ d ∈ s.decls, IsDecl ends d) {b bs : List Nat}
    (hf : Texts fs dir s.first b) (hb : Body fs dir code [] s.decls bs) (w : List Nat) :
    ∃ o o' rest, compile fs file ends code prologue epilogue (items s) = .ok o ∧ compile fs file ends code prologue epilogue (items ⟨.warning w :: s.first, s.decls⟩) = .ok o' ∧
      o.out = prologue ++ rest ∧ o'.out = prologue ++ ("warning:".toList.map Char.toNat ++ w ++ [10]) ++ rest := by
  have e : Source.names ⟨.warning w :: s.first, s.decls⟩ = s.names := by simp [Source.names, Source.dirs, nameOf, List.filterMap_cons]
  refine ⟨_, _, b ++ bs ++ epilogue (!s.names.isEmpty) (!s.names.isEmpty), compile_ok hdir code prologue epilogue hd hf hb, compile_ok hdir code prologue epilogue (s := ⟨.warning w :: s.first, s.decls⟩) hd (.warning hf) hb, ?_, ?_⟩
  · simp
  · rw [e]; simp

/-- **C58, the place: false.** A file that is included behind a declaration stands in the script before the code of the declaration, for every declaration and file (so it cannot use, when it runs, the variable that was just defined). -/
theorem C58_behind_false {fs : FS} {file dir : Path} (hdir : Inc.Spec.IsDir dir file) {ends : List Nat → Bool} (code : List (List Nat) → List Nat) (prologue : List Nat) (epilogue : Bool → Bool → List Nat) {ts : List Nat} {t : Nat} {n : Path} {c : List Nat}
    (hd : IsDecl ends (ts.map (·, []) ++ [(t, [.shell n])])) (hn : fs (dir ++ n) = some c) :
    ∃ o, compile fs file ends code prologue epilogue (items ⟨[], [ts.map (·, []) ++ [(t, [.shell n])]]⟩) = .ok o ∧ o.out = prologue ++ (c ++ [10]) ++ code [ts ++ [t]] ++ epilogue true true := by
  have e1 : dirs (ts.map (·, ([] : List Dir)) ++ [(t, [.shell n])]) = [.shell n] := by simp [dirs]
  have e2 : tokens (ts.map (·, ([] : List Dir)) ++ [(t, [.shell n])]) = ts ++ [t] := by simp [tokens, Function.comp_def]
  have hb : Body fs dir code [] [ts.map (·, []) ++ [(t, [.shell n])]] (c ++ [10] ++ [] ++ code ([] ++ [tokens (ts.map (·, []) ++ [(t, [.shell n])])]) ++ []) := .cons (by rw [e1]; exact .shell hn .nil) .nil
  obtain ⟨o, h1, h2⟩ := C58_script hdir code prologue epilogue (s := ⟨[], _⟩) (by simpa using hd) .nil hb
  refine ⟨o, h1, ?_⟩
  rw [h2, e2]
  simp [Source.names, Source.dirs, e1, nameOf]

/-- **C58, the name of the file: false.** After `#include_shell` the name of the shell file is taken for the name of the file being read (by error messages and by `__FILE__`), up to the end of the C file. -/
theorem C58_location_false {fs : FS} {file dir : Path} (hdir : Inc.Spec.IsDir dir file) {ends : List Nat → Bool} (code : List (List Nat) → List Nat) (prologue : List Nat) (epilogue : Bool → Bool → List Nat) {s : Source} (hd : ∀ d ∈ s.decls, IsDecl ends d) {b bs : List Nat}
    (hf : Texts fs dir s.first b) (hb : Body fs dir code [] s.decls bs) {ns : List Path} {n : Path} (hs : s.names = ns ++ [n]) :
    ∃ o, compile fs file ends code prologue epilogue (items s) = .ok o ∧ o.fp_filepath = dir ++ n := by
  refine ⟨_, compile_ok hdir code prologue epilogue hd hf hb, ?_⟩
  rw [hs]
  simp

/-- `#include_shell "b"` / `1 2` / `#include_shell "c"` / `#warning!` / `3 0` / `4 0`, where 0 ends a declaration, in the file `a/x`. -/
example : ∃ o, compile (fun p => if p = [97, 47, 98] then some [1, 2] else if p = [97, 47, 99] then some [3] else none) [97, 47, 120] (fun d => d.getLast? == some 0) (fun ds => [100, ds.length]) [7] (fun u v => if u && v then [8, 8] else [9])
    (items ⟨[.shell [98]], [[(1, []), (2, [.shell [99], .warning [33]]), (3, []), (0, [])], [(4, []), (0, [])]]⟩) = .ok o ∧ o.out = [7, 1, 2, 10, 3, 10, 119, 97, 114, 110, 105, 110, 103, 58, 33, 10, 100, 1, 100, 2, 8, 8] := by
  have hdir : Inc.Spec.IsDir [97, 47] [97, 47, 120] := ⟨[120], rfl, by decide, .inr ⟨[97], rfl⟩⟩
  have hd : ∀ d ∈ ([[(1, []), (2, [.shell [99], .warning [33]]), (3, []), (0, [])], [(4, []), (0, [])]] : List Decl), IsDecl (fun d => d.getLast? == some 0) d := by
    intro d hd
    simp only [List.mem_cons, List.not_mem_nil, or_false] at hd
    rcases hd with rfl | rfl
    · refine ⟨rfl, by simp, fun p hp h1 h2 => ?_⟩
      have := List.prefix_iff_eq_take.1 hp
      rw [this]
      have hl := hp.length_le
      simp [tokens] at hl h1 this ⊢
      match p, hl, this with
      | [], _, _ => exact absurd rfl h2
      | [_], _, _ | [_, _], _, _ | [_, _, _], _, _ => simp
      | [_, _, _, _], _, this => simp at this; simp [this] at h1
      | _ :: _ :: _ :: _ :: _ :: _, hl, _ => simp at hl
    · refine ⟨rfl, by simp, fun p hp h1 h2 => ?_⟩
      have := List.prefix_iff_eq_take.1 hp
      rw [this]
      have hl := hp.length_le
      simp [tokens] at hl h1 this ⊢
      match p, hl, this with
      | [], _, _ => exact absurd rfl h2
      | [_], _, _ => simp
      | [_, _], _, this => simp at this; simp [this] at h1
      | _ :: _ :: _ :: _, hl, _ => simp at hl
  exact C58_script hdir (fun ds => [100, ds.length]) [7] (fun u v => if u && v then [8, 8] else [9]) (s := ⟨_, _⟩) hd (b := [1, 2] ++ [10] ++ []) (bs := ([3] ++ [10] ++ ("warning:".toList.map Char.toNat ++ [33] ++ [10] ++ [])) ++ [100, 1] ++ ([] ++ [100, 2] ++ []))
    (.shell (by simp) .nil) (.cons (.shell (by simp) (.warning .nil)) (.cons .nil .nil))

end Verif.ShInc
