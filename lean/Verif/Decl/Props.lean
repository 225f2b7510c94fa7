import Verif.Decl.Proofs5
/-! C42: the parser gives the declared names the types (and storage classes, initializers) that C gives them. -/
namespace Verif.Decl
open Verif Verif.Decl.Spec

/-- No typedef names. -/
def noTypes : Types := fun _ => none

/-- **C42** (partial). For every translation unit of the grammar (`SUnit`, with the types that C gives: `Dr.ty`), of any length and depth, the parser accepts it, reads all the tokens, and builds for
each declaration, in order, nodes that stand for exactly the declared names with their types and initializers; the typedef names at the end are the right ones. The storage class of variables is the
declared one if no type name occurs in their declarators and initializers.
Missing (see the `_false` theorems): inner variadic parameters, storage classes when a type name occurs later in the declaration, abstract function declarators without a pointer, typedef names used
in the declaration that declares them, other orders of type words, `volatile` pointers. Enumerations, expressions and bodies are single tokens here. -/
theorem C42_unit_partial (ts : List Tok) (os : List SOut) (env : Env) (hu : SUnit (fun _ => none) ts os env) (sc : Option SC) (va : Bool) :
    ∃ outs types s, s.toks = [] ∧ All2 (OutIs s.heap) outs os ∧ TypesAre s.heap types env ∧ ∃ N, ∀ n, N ≤ n → unitF n noTypes [] ⟨ts, [], sc, va⟩ = .ok (outs, types, s) := by
  obtain ⟨outs, types, h, sc', va', _, r, k, N, hN⟩ := unit_ok hu (types := noTypes) (h := []) ⟨fun _ => ⟨fun _ => rfl, fun _ => rfl⟩, fun _ _ _ h _ => by cases h⟩ sc va []
  exact ⟨outs, types, _, rfl, r, k, N, by simpa using hN⟩

/-- **C42** (partial), one declaration in the middle of a file: what was declared before is not changed (the nodes stay where they are). -/
theorem C42_declaration_partial {env env' : Env} {types : Types} {s : S} (k : TypesAre s.heap types env) {ts rest : List Tok} {o : SOut} (hd : SDecl env ts o env') (hs : s.toks = ts ++ rest) :
    ∃ out types' s', s'.toks = rest ∧ (∀ i, i < s.heap.length → s'.heap[i]? = s.heap[i]?) ∧ OutIs s'.heap out o ∧ TypesAre s'.heap types' env' ∧
      ∃ N, ∀ n, N ≤ n → declarationF types n s = .ok (out, types', s') := by
  obtain ⟨toks, h, sc, va⟩ := s
  dsimp only at hs k ⊢
  subst hs
  obtain ⟨out, types', h', sc', va', hx, r, k', N, hN⟩ := declaration_ok k hd sc va rest
  exact ⟨out, types', _, rfl, hx.2, r, k', N, hN⟩

/-- Whatever the tokens: a unit is accepted only when all of it has been read. -/
theorem C42_reads_all : ∀ (n : Nat) {types types' : Types} {acc outs : List Out} {s s' : S}, unitF n types acc s = .ok (outs, types', s') → s'.toks = []
  | 0, _, _, _, _, _, _, h => by rw [unitF] at h; cases h
  | n + 1, types, types', acc, outs, s, s', h => by
    rw [unitF.eq_def] at h
    dsimp only at h
    split at h
    · rename_i e
      cases h
      exact e
    · obtain ⟨⟨o, ty, s1⟩, _, h2⟩ := Res.bind_eq_ok.1 h
      exact C42_reads_all n h2

/-! ## The types are determined by the nodes: the theorem leaves the parser no choice -/

mutual
theorem repN_fun {h : List Node} {Q Q' : Nat → Prop} : ∀ {nd t t'}, RepN h Q nd t → RepN h Q' nd t' → t = t'
  | _, _, _, .base, .base => rfl
  | _, _, _, .ptr r, .ptr r' => by rw [rep_fun r r']
  | _, _, _, .arr r, .arr r' => by rw [rep_fun r r']
  | _, _, _, .fn r l, .fn r' l' => by rw [rep_fun r r', repL_fun l l']
  | _, _, _, .su l, .su l' => by rw [repL_fun l l']
  | _, _, _, .enum, .enum => rfl
theorem rep_fun {h : List Node} {Q Q' : Nat → Prop} : ∀ {i t t'}, Rep h Q i t → Rep h Q' i t' → t = t'
  | _, _, _, .mk _ e r, .mk _ e' r' => by rw [e] at e'; cases e'; exact repN_fun r r'
theorem repL_fun {h : List Node} {Q Q' : Nat → Prop} : ∀ {l p p'}, RepL h Q l p → RepL h Q' l p' → p = p'
  | _, _, _, .nil, .nil => rfl
  | _, _, _, .cons _ e r l, .cons _ e' r' l' => by rw [e] at e'; cases e'; rw [rep_fun r r', repL_fun l l']
end

/-- A node stands for at most one type, and a `DECL` for at most one name and type. -/
theorem C42_meaning_unique {h : List Node} {d : Nat} {x x' : Option Nat} {t t' : Ty} (a : Declares h d x t) (b : Declares h d x' t') : x = x' ∧ t = t' := by
  obtain ⟨i, e, r⟩ := a
  obtain ⟨j, e', r'⟩ := b
  rw [e] at e'
  cases e'
  exact ⟨rfl, rep_fun r r'⟩

/-! ## A unit that meets the hypotheses -/

/-- `typedef unsigned char T, *P; struct S { T a; const char *b, c[2]; struct { P d; }; }; static T x, (*f)(T y, ...) = 0, *t[2][3]; int g(void), h(P, struct S *); int main(int c, char *v[]) { }` -/
def unit1 : List Tok :=
  [.sc .typedef, .kw .unsigned, .kw .char, .ident 1, .comma, .star, .ident 2, .semi] ++ (
  [.su .struct, .ident 3, .lbrace, .ident 1, .ident 4, .semi, .const, .kw .char, .star, .ident 5, .comma, .ident 6, .lbrk, .expr 2 false, .rbrk, .semi,
    .su .struct, .lbrace, .ident 2, .ident 7, .semi, .rbrace, .semi, .rbrace, .semi] ++ (
  [.sc .static, .ident 1, .ident 8, .comma, .lpar, .star, .ident 9, .rpar, .lpar, .ident 1, .ident 10, .comma, .ellipsis, .rpar, .eq, .expr 0 false, .comma,
    .star, .ident 11, .lbrk, .expr 2 false, .rbrk, .lbrk, .expr 3 false, .rbrk, .semi] ++ (
  [.kw .int, .ident 12, .lpar, .kw .void, .rpar, .comma, .ident 13, .lpar, .ident 2, .comma, .su .struct, .ident 3, .star, .rpar, .semi] ++ (
  [.kw .int, .ident 14, .lpar, .kw .int, .ident 15, .comma, .kw .char, .star, .ident 16, .lbrk, .rbrk, .rpar, .body 0] ++ []))))

abbrev uchar : Ty := .base .char true noQ
abbrev intT : Ty := .base .int false noQ
abbrev charT (q : Q) : Ty := .base .char false q

/-- The typedef names of `unit1`. -/
def env1 : Env := addTypes (.cons (some 1) uchar (.cons (some 2) (.ptr noQ uchar) .nil)) fun _ => none

/-- The members of `struct S`. -/
def membersS : Ps := .cons (some 4) uchar (.cons (some 5) (.ptr noQ (charT ⟨true, false⟩)) (.cons (some 6) (.arr (charT ⟨true, false⟩) 2)
  (.cons none (.su .struct noQ none (.cons (some 7) (.ptr noQ uchar) .nil)) .nil)))

theorem specs_plain {env : Env} {ts : List Tok} {t : Ty} (h : TypeSpec env ts t) : Specs env ts none t := by
  have := Specs.mk .nil h .nil .left (.inl (Q.or_no _))
  rw [Q.or_no, qualify_no] at this
  simpa using this

theorem unit1_ok : ∃ os env, SUnit (fun _ => none) unit1 os env ∧ env = env1 ∧ os.length = 5 ∧
    (∃ t, os[1]? = some (.tag t) ∧ t = .su .struct noQ (some 3) membersS) ∧
    ∃ l p, os[2]? = some (.vars l (some .static) p) ∧ l = [⟨some 8, uchar, none⟩, ⟨some 9, .ptr noQ (.fn uchar (.cons (some 10) uchar .nil) true), some (.expr 0)⟩,
      ⟨some 11, .arr (.arr (.ptr noQ uchar) 3) 2, none⟩] := by
  have nm : ∀ {env : Env} {abs : Bool} {x : Nat}, env x = none → PtrD env abs [.ident x] (.name (some x)) := fun h => .dir (.ident h)
  have uc : Specs (fun _ => none) [.sc .typedef, .kw .unsigned, .kw .char] (some .typedef) uchar := by
    have := Specs.mk (env := fun _ => none) (.storage .nil) (.words (.unsignedS .char)) .nil (.left (c := some .typedef)) (.inl (Q.or_no _))
    rw [Q.or_no, qualify_no] at this
    exact this
  have d1 : SDecl (fun _ => none) [.sc .typedef, .kw .unsigned, .kw .char, .ident 1, .comma, .star, .ident 2, .semi]
      (.typedefs (.cons (some 1) uchar (.cons (some 2) (.ptr noQ uchar) .nil))) env1 :=
    SDecl.typedefs uc (ts := [.ident 1, .comma, .star, .ident 2]) (.more (nm rfl) trivial (.one (.star (nm rfl)) trivial)) (by intro x hx; simp [Ps.names] at hx; rcases hx with rfl | rfl <;> rfl)
  have tT : TypeSpec env1 [.ident 1] uchar := .typedef rfl
  have tP : TypeSpec env1 [.ident 2] (.ptr noQ uchar) := .typedef rfl
  have cc : Specs env1 [.const, .kw .char] none (charT ⟨true, false⟩) := by
    have := Specs.mk (env := env1) (.const .nil) (.words (.plain .char)) .nil (.left (c := none)) (.inr fun h => h)
    exact this
  have arr : ∀ {env : Env} {abs : Bool} {x : Nat} {v : Int}, env x = none → PtrD env abs [.ident x, .lbrk, .expr v false, .rbrk] (.arr (.name (some x)) v) := fun h => .dir (.arr (.ident h))
  have mS : Members env1 [.ident 1, .ident 4, .semi, .const, .kw .char, .star, .ident 5, .comma, .ident 6, .lbrk, .expr 2 false, .rbrk, .semi,
      .su .struct, .lbrace, .ident 2, .ident 7, .semi, .rbrace, .semi] membersS :=
    .line (specs_plain tT) (.one (nm rfl) trivial) <| .line cc (ds := [.star, .ident 5, .comma, .ident 6, .lbrk, .expr 2 false, .rbrk])
      (.more (.star (nm rfl)) trivial (.one (arr rfl) ⟨fun h => h, fun h => h, trivial⟩)) <|
    .anon (specs_plain (.untagged (ts := [.ident 2, .ident 7, .semi]) (.line (specs_plain tP) (.one (nm rfl) trivial) .nil) (by intro e; cases e))) trivial .nil
  have d2 := SDecl.tag (env := env1) (specs_plain (.tagged (k := .struct) (x := 3) mS (by intro e; cases e))) (by intro e; cases e) trivial
  have st : Specs env1 [.sc .static, .ident 1] (some .static) uchar := by
    have := Specs.mk (env := env1) (.storage .nil) tT .nil (.left (c := some .static)) (.inl (Q.or_no _))
    rw [Q.or_no, qualify_no] at this
    exact this
  have dT : ∀ {x}, env1 x = none → PtrD env1 true [.ident x] (.name (some x)) := fun h => nm h
  have pf : PtrD env1 false [.lpar, .star, .ident 9, .rpar, .lpar, .ident 1, .ident 10, .comma, .ellipsis, .rpar] (.fn (.ptr false (.name (some 9))) (.cons (some 10) uchar .nil) true) :=
    .dir (.fn (ts := [.lpar, .star, .ident 9, .rpar]) (tp := [.ident 1, .ident 10, .comma, .ellipsis]) (.paren (ts := [.star, .ident 9]) (.star (nm rfl)) (by simp)) (by simp)
      (.ellipsis (ts := [.ident 1, .ident 10]) (.one (specs_plain tT) (by intro e; cases e) (nm rfl) trivial fun h => h)))
  have pt : PtrD env1 false [.star, .ident 11, .lbrk, .expr 2 false, .rbrk, .lbrk, .expr 3 false, .rbrk] (.ptr false (.arr (.arr (.name (some 11)) 2) 3)) :=
    .star (.dir (.arr (ts := [.ident 11, .lbrk, .expr 2 false, .rbrk]) (.arr (.ident rfl))))
  have pfv : Dr.Valid (.fn (.ptr false (.name (some 9))) (.cons (some 10) uchar .nil) true) uchar := ⟨fun h => h, trivial⟩
  have ptv : Dr.Valid (.ptr false (.arr (.arr (.name (some 11)) 2) 3)) uchar := ⟨fun h => h, fun h => h, fun h => h, fun h => h, trivial⟩
  have d3 := SDecl.vars (env := env1) st (by intro e; cases e) (ts := [.ident 8, .comma, .lpar, .star, .ident 9, .rpar, .lpar, .ident 1, .ident 10, .comma, .ellipsis, .rpar, .eq, .expr 0 false, .comma,
    .star, .ident 11, .lbrk, .expr 2 false, .rbrk, .lbrk, .expr 3 false, .rbrk])
    (.more (.plain (nm rfl) trivial) (.more (.init pf pfv .expr) (.one (.plain pt ptv))))
  have ti : Specs env1 [.kw .int] none intT := specs_plain (.words (.plain .int))
  have fnv : ∀ x ps va, Dr.Valid (.fn (.name x) ps va) intT := fun _ _ _ => ⟨fun h => h, trivial⟩
  have g1 : PtrD env1 false [.ident 12, .lpar, .kw .void, .rpar] (.fn (.name (some 12)) .nil false) := .dir (.fn (ts := [.ident 12]) (.ident rfl) (by simp) .void)
  have g2 : PtrD env1 false [.ident 13, .lpar, .ident 2, .comma, .su .struct, .ident 3, .star, .rpar]
      (.fn (.name (some 13)) (.cons none (.ptr noQ uchar) (.cons none (.ptr noQ (.su .struct noQ (some 3) .nil)) .nil)) false) :=
    .dir (.fn (ts := [.ident 13]) (tp := [.ident 2, .comma, .su .struct, .ident 3, .star]) (.ident rfl) (by simp)
      (.list (.more (ss := [.ident 2]) (ts := []) (specs_plain tP) (by intro e; cases e) (.dir .empty) trivial (fun h => h)
        (.one (ss := [.su .struct, .ident 3]) (ts := [.star]) (specs_plain .ref) (by intro e; cases e) (.star (.dir .empty)) trivial fun h => h)) (by simp)))
  have d4 := SDecl.vars (env := env1) ti (by intro e; cases e) (ts := [.ident 12, .lpar, .kw .void, .rpar, .comma, .ident 13, .lpar, .ident 2, .comma, .su .struct, .ident 3, .star, .rpar])
    (.more (.plain g1 (fnv _ _ _)) (.one (.plain g2 (fnv _ _ _))))
  have pv : PtrD env1 true [.star, .ident 16, .lbrk, .rbrk] (.ptr false (.arr (.name (some 16)) 0)) := .star (.dir (.open (.ident rfl)))
  have m1 : PtrD env1 false [.ident 14, .lpar, .kw .int, .ident 15, .comma, .kw .char, .star, .ident 16, .lbrk, .rbrk, .rpar]
      (.fn (.name (some 14)) (.cons (some 15) intT (.cons (some 16) (.arr (.ptr noQ (charT noQ)) 0) .nil)) false) :=
    .dir (.fn (ts := [.ident 14]) (tp := [.kw .int, .ident 15, .comma, .kw .char, .star, .ident 16, .lbrk, .rbrk]) (.ident rfl) (by simp)
      (.list (.more (ss := [.kw .int]) (ts := [.ident 15]) ti (by intro e; cases e) (nm rfl) trivial (fun h => h)
        (.one (ss := [.kw .char]) (specs_plain (.words (.plain .char))) (by intro e; cases e) pv ⟨fun h => h, fun h => h, trivial⟩ fun h => h)) (by simp)))
  have d5 := SDecl.func (env := env1) (b := 0) ti (by intro e; cases e) m1 (fnv _ _ _) (by simp [Dr.ty, NamedFn, Ps.names])
  exact ⟨_, _, .cons d1 (.cons d2 (.cons d3 (.cons d4 (.cons d5 .nil)))), rfl, rfl, ⟨_, rfl, rfl⟩, ⟨_, _, rfl, rfl⟩⟩

/-- The theorem applies to it. -/
example : ∃ outs types s os, s.toks = [] ∧ All2 (OutIs s.heap) outs os ∧ os.length = 5 ∧ TypesAre s.heap types env1 ∧ ∃ N, ∀ n, N ≤ n → unitF n noTypes [] ⟨unit1, [], none, false⟩ = .ok (outs, types, s) := by
  obtain ⟨os, env, hu, rfl, hl, _⟩ := unit1_ok
  obtain ⟨outs, types, s, h1, h2, h3, h4⟩ := C42_unit_partial unit1 os _ hu none false
  exact ⟨outs, types, s, os, h1, h2, hl, h3, h4⟩

/-! ## Where pnut departs from C -/

/-- The nodes that are built, if the unit is accepted. -/
def nodes : Res (List Out × Types × S) → Option (List Node)
  | .ok (_, _, s) => some s.heap
  | _ => none

/-- The storage classes of the variables. -/
def storage : Res (List Out × Types × S) → Option (List (Option SC))
  | .ok (os, _, _) => some (os.filterMap fun o => match o with | .vars _ sc => some sc | _ => none)
  | _ => none

def refused : Res (List Out × Types × S) → Bool
  | .fatal => true
  | _ => false

def accepted : Res (List Out × Types × S) → Bool
  | .ok _ => true
  | _ => false

def undefd : Res (List Out × Types × S) → Bool
  | .ub => true
  | _ => false

/-- The parser on a whole file. -/
def parse (ts : List Tok) : Res (List Out × Types × S) := unitF 40 noTypes [] ⟨ts, [], none, false⟩

/-- `int f(int (*g)(int, ...));`: `f`, which takes one argument, is taken for variadic (node 7), because `parse_param_list_is_variadic` is not restored after the inner list. -/
theorem C42_variadic_false : nodes (parse [.kw .int, .ident 1, .lpar, .kw .int, .lpar, .star, .ident 2, .rpar, .lpar, .kw .int, .comma, .ellipsis, .rpar, .rpar, .semi]) =
    some [.base .int false noQ, .decl (some 1) 8, .base .int false noQ, .ptr noQ 7, .decl (some 2) 3, .base .int false noQ, .decl none 5, .fn 2 [6] true, .fn 0 [4] true] := by
  decide +kernel

/-- `static int (*p)(int);` and `static int x = sizeof(int);` are not `static`, `int f(register int x);` is `register`: the storage class is kept in one global variable. -/
theorem C42_storage_false :
    storage (parse [.sc .static, .kw .int, .lpar, .star, .ident 1, .rpar, .lpar, .kw .int, .rpar, .semi]) = some [none] ∧
    storage (parse [.sc .static, .kw .int, .ident 1, .eq, .expr 4 true, .semi]) = some [none] ∧
    storage (parse [.kw .int, .ident 1, .lpar, .sc .register, .kw .int, .ident 2, .rpar, .semi]) = some [some .register] ∧
    storage (parse [.sc .static, .kw .int, .ident 1, .semi]) = some [some .static] := by
  decide +kernel

/-- Abstract function declarators: in `int f(int ());` the parameter is taken for an `int`, and `int f(int (int));` is refused. -/
theorem C42_abstract_false :
    nodes (parse [.kw .int, .ident 1, .lpar, .kw .int, .lpar, .rpar, .rpar, .semi]) = some [.base .int false noQ, .decl (some 1) 4, .base .int false noQ, .decl none 2, .fn 0 [3] false] ∧
    refused (parse [.kw .int, .ident 1, .lpar, .kw .int, .lpar, .kw .int, .rpar, .rpar, .semi]) = true := by
  decide +kernel

/-- `typedef int T, (*F)(T);`: inside the declaration `T` is not a type yet; it is taken for a parameter named `T` of type `int` (old style), nodes 4 and 5. -/
theorem C42_typedef_scope_false :
    nodes (parse [.sc .typedef, .kw .int, .ident 1, .comma, .lpar, .star, .ident 2, .rpar, .lpar, .ident 1, .rpar, .semi]) =
      some [.base .int false noQ, .decl (some 1) 0, .ptr noQ 6, .decl (some 2) 2, .base .int false noQ, .decl (some 1) 4, .fn 0 [5] false] := by
  decide +kernel

/-- Valid declarations that are refused: `const` on a typedef name for an array, `int unsigned x;`, `long unsigned x;`, `int * volatile p;`;
`typedef struct S { int a; };` makes pnut read a declarator that does not exist. -/
theorem C42_refused_false :
    refused (parse [.sc .typedef, .kw .int, .ident 1, .lbrk, .expr 3 false, .rbrk, .semi, .const, .ident 1, .ident 2, .semi]) = true ∧
    refused (parse [.kw .int, .kw .unsigned, .ident 1, .semi]) = true ∧
    refused (parse [.kw .long, .kw .unsigned, .ident 1, .semi]) = true ∧
    refused (parse [.kw .int, .star, .volatile, .ident 1, .semi]) = true ∧
    undefd (parse [.sc .typedef, .su .struct, .ident 1, .lbrace, .kw .int, .ident 2, .semi, .rbrace, .semi]) = true := by
  decide +kernel

/-- Invalid declarations that are accepted: `struct { void x; } s;`, `struct { int a[]; int b; } s;`, `int f(int a int b);`, `int f(int a,);`, `unsigned signed int x;`, `unsigned void f();`. -/
theorem C42_accepted_false :
    accepted (parse [.su .struct, .lbrace, .kw .void, .ident 1, .semi, .rbrace, .ident 2, .semi]) = true ∧
    accepted (parse [.su .struct, .lbrace, .kw .int, .ident 1, .lbrk, .rbrk, .semi, .kw .int, .ident 3, .semi, .rbrace, .ident 2, .semi]) = true ∧
    accepted (parse [.kw .int, .ident 1, .lpar, .kw .int, .ident 2, .kw .int, .ident 3, .rpar, .semi]) = true ∧
    accepted (parse [.kw .int, .ident 1, .lpar, .kw .int, .ident 2, .comma, .rpar, .semi]) = true ∧
    accepted (parse [.kw .unsigned, .kw .signed, .kw .int, .ident 1, .semi]) = true ∧
    accepted (parse [.kw .unsigned, .kw .void, .ident 1, .lpar, .rpar, .semi]) = true := by
  decide +kernel

/-- An array of `void`, a `void` parameter among others, `typedef` inside a structure, two storage classes, two types: refused. -/
example :
    refused (parse [.kw .void, .ident 1, .lbrk, .expr 3 false, .rbrk, .semi]) = true ∧
    refused (parse [.kw .int, .ident 1, .lpar, .kw .int, .comma, .kw .void, .rpar, .semi]) = true ∧
    refused (parse [.su .struct, .lbrace, .sc .typedef, .kw .int, .ident 1, .semi, .rbrace, .semi]) = true ∧
    refused (parse [.sc .static, .sc .extern, .kw .int, .ident 1, .semi]) = true ∧
    refused (parse [.kw .int, .kw .char, .ident 1, .semi]) = true ∧
    refused (parse [.kw .int, .semi]) = true := by
  decide +kernel

end Verif.Decl
