import Verif.Base
/-! Model of the parser of declarations of the native compilers (pnut.c:2545-2622, 2699-3250): specifiers, declarators, parameter lists, structures, typedefs, initializers, whole translation units.

Simplifications (all of this file): the current token is the head of the list of tokens to come, the empty list is the end of the file; whether an identifier is a typedef name is looked up when
the token is tested (pnut looks when it reads the token; the table changes only while the current token is `;`); an assignment expression (an array size or an initializer), an `enum` specifier and
the body of a function are one token each; a list of nodes (`LIST` cells) is a list; nodes are numbered by a counter instead of heap addresses. `DEBUG_PARSER` is off. -/
namespace Verif.Decl
open Verif

/-- Type keywords. -/
inductive Kw where
  | char | int | void | short | long | signed | unsigned | float | double
  deriving DecidableEq, Repr

/-- Storage classes. -/
inductive SC where
  | auto | register | static | extern | typedef
  deriving DecidableEq, Repr

inductive SU where
  | struct | union
  deriving DecidableEq, Repr

/-- Tokens. -/
inductive Tok where
  | ident (x : Nat)
  | kw (k : Kw)
  | sc (c : SC)
  | inline | const | volatile
  | su (k : SU)
  /-- a whole `enum` specifier -/
  | enum (e : Nat)
  /-- a whole assignment expression with its value; whether a type name occurs in it -/
  | expr (v : Int) (ty : Bool)
  /-- a whole function body -/
  | body (b : Nat)
  | star | lpar | rpar | lbrk | rbrk | lbrace | rbrace | comma | semi | eq | ellipsis
  deriving DecidableEq, Repr

/-- Type qualifiers. -/
structure Q where
  const : Bool
  volatile : Bool
  deriving DecidableEq, Repr

def noQ : Q := ⟨false, false⟩

/-- The node of a basic type: `CHAR_KW`, `INT_KW`, `VOID_KW`, `SHORT_KW`, `LONG_KW`. -/
inductive Base where
  | char | int | void | short | long
  deriving DecidableEq, Repr

/-- The nodes of types and declarations; numbers are the indices of other nodes. The qualifiers and the unsigned flag are child 0 (for a basic type: its value). -/
inductive Node where
  | base (k : Base) (uns : Bool) (q : Q)
  | ptr (q : Q) (inner : Nat)
  | arr (inner : Nat) (n : Int)
  | fn (inner : Nat) (params : List Nat) (va : Bool)
  | decl (name : Option Nat) (inner : Nat)
  | su (k : SU) (q : Q) (tag : Option Nat) (members : List Nat)
  | enum (q : Q) (e : Nat)
  deriving DecidableEq, Repr

/-- The state of the parser: the tokens, the nodes, `glo_specifier_storage_class` and `parse_param_list_is_variadic`. -/
structure S where
  toks : List Tok
  heap : List Node
  sc : Option SC
  va : Bool
  deriving DecidableEq, Repr

/-- The typedef names with the node of their type: `heap[ident + 3]` where `heap[ident + 2]` is `TYPE`. -/
abbrev Types := Nat → Option Nat

/-- `new_ast0` … `new_ast3`. -/
def alloc (nd : Node) (s : S) : S := { s with heap := s.heap ++ [nd] }

/-- `get_tok`. -/
def next (s : S) : S := { s with toks := s.toks.tail }

/-- `expect_tok` (pnut.c:2531-2543). -/
def expect (t : Tok) (s : S) : Res S := if s.toks.head? = some t then .ok (next s) else .fatal

/-- `is_type_starter` (pnut.c:2605-2621). -/
def isTypeStarter (types : Types) : Tok → Bool
  | .kw _ | .sc _ | .inline | .const | .volatile | .su _ | .enum _ => true
  | .ident x => (types x).isSome
  | _ => false

/-- `parse_type_specifier` (pnut.c:2770-2831): the basic type, or none (0), and the tokens to come. -/
def typeSpec : List Tok → Option (Base × Bool) × List Tok
  | .kw .char :: r => (some (.char, false), r)
  | .kw .int :: r => (some (.int, false), r)
  | .kw .void :: r => (some (.void, false), r)
  | .kw .short :: r =>
    match r with
    | .kw .int :: r' => (some (.short, false), r')
    | _ => (some (.short, false), r)
  | .kw .signed :: r =>
    match typeSpec r with
    | (none, r) => (some (.int, false), r)
    | p => p
  | .kw .unsigned :: r =>
    match typeSpec r with
    | (none, r) => (some (.int, true), r)
    | (some (k, _), r) => (some (k, true), r)
  | .kw .long :: r =>
    match r with
    | .kw .long :: .kw .int :: r' => (some (.long, false), r')
    | .kw .long :: r' => (some (.long, false), r')
    | .kw .int :: r' => (some (.int, false), r')
    | _ => (some (.int, false), r)
  | r => (none, r)

/-- `get_child(type, 0) | qualifiers` (pnut.c:2917). -/
def Q.or (a b : Q) : Q := ⟨a.const || b.const, a.volatile || b.volatile⟩

/-- The qualifiers are added to the node; array and function types are refused (pnut.c:2911-2918). -/
def addQ (q : Q) : Node → Res Node
  | .base k u q' => .ok (.base k u (q'.or q))
  | .ptr q' i => .ok (.ptr (q'.or q) i)
  | .su k q' t m => .ok (.su k (q'.or q) t m)
  | .enum q' e => .ok (.enum (q'.or q) e)
  | .arr .. => .fatal
  | .fn .. => .fatal
  | .decl .. => .ub

/-- The end of `parse_declaration_specifiers` (pnut.c:2839-2921). -/
def specEnd (ts : Option Nat) (q : Q) (sc : Option SC) (s : S) : Res (Nat × S) :=
  match ts with
  | none => .fatal
  | some i =>
    if q = noQ then .ok (i, { s with sc := sc })
    else
      match s.heap[i]? with
      | none => .ub
      | some nd => (addQ q nd).bind fun nd => .ok (i, { s with heap := s.heap.set i nd, sc := sc })

/-- `get_inner_type` (pnut.c:2969-2981). -/
def innerOf : Node → Res Nat
  | .decl _ i => .ok i
  | .ptr _ i => .ok i
  | .arr i _ => .ok i
  | .fn i _ _ => .ok i
  | _ => .fatal

/-- `update_inner_type` (pnut.c:2983-2995). -/
def setInner (j : Nat) : Node → Node
  | .decl n _ => .decl n j
  | .ptr q _ => .ptr q j
  | .arr _ n => .arr j n
  | .fn _ ps va => .fn j ps va
  | nd => nd

/-- `get_op(node) == VOID_KW`. -/
def isVoid : Node → Bool
  | .base .void _ _ => true
  | _ => false

/-- A structure, union or enumeration type. -/
def isTagged : Node → Bool
  | .su .. => true
  | .enum .. => true
  | _ => false

/-- The array or function node that has just been made is put around the inner type of the node `b` (pnut.c:3082-3084, 3088-3090). -/
def wrap (nd : Node) (b : Nat) (s : S) : Res S :=
  match s.heap[b]? with
  | none => .ub
  | some bn => .ok { s with heap := (s.heap ++ [nd]).set b (setInner s.heap.length bn) }

/-- The size of an array, behind `[` (pnut.c:3075-3081): `[]` is 0. -/
def arraySize (s : S) : Res (Int × S) :=
  match s.toks with
  | .rbrk :: _ => .ok (0, s)
  | .expr v ty :: r => .ok (v, { s with toks := r, sc := if ty then none else s.sc })
  | _ => .fatal

mutual
/-- The loop of `parse_declaration_specifiers` (pnut.c:2839-2921); `n` bounds the recursion. -/
def specsF (types : Types) : Nat → Bool → Option Nat → Q → Option SC → S → Res (Nat × S)
  | 0, _, _, _, _, _ => .diverge
  | n + 1, allow, ts, q, sc, s =>
    match s.toks with
    | .sc c :: _ =>
      if sc ≠ none then .fatal
      else if c = .typedef ∧ allow = false then .fatal
      else specsF types n allow ts q (some c) (next s)
    | .inline :: _ => specsF types n allow ts q sc (next s)
    | .const :: _ => specsF types n allow ts { q with const := true } sc (next s)
    | .volatile :: _ => specsF types n allow ts { q with volatile := true } sc (next s)
    | .kw _ :: _ =>
      if ts ≠ none then .fatal
      else
        match (typeSpec s.toks).1 with
        | none => .fatal
        | some (k, u) => specsF types n allow (some s.heap.length) q sc (alloc (.base k u noQ) { s with toks := (typeSpec s.toks).2 })
    | .su k :: _ =>
      if ts ≠ none then .fatal
      else (structF types n k (next s)).bind fun (i, s) => specsF types n allow (some i) q sc s
    | .enum e :: _ =>
      if ts ≠ none then .fatal
      else specsF types n allow (some s.heap.length) q sc (alloc (.enum noQ e) (next s))
    | .ident x :: _ =>
      match types x with
      | none => specEnd ts q sc s
      | some i =>
        if ts ≠ none then .fatal
        else
          match s.heap[i]? with
          | none => .ub
          | some nd => specsF types n allow (some s.heap.length) q sc (alloc nd (next s))
    | _ => specEnd ts q sc s

/-- `parse_struct_or_union` (pnut.c:2699-2768), behind the keyword. -/
def structF (types : Types) : Nat → SU → S → Res (Nat × S)
  | 0, _, _ => .diverge
  | n + 1, k, s =>
    match s.toks with
    | .ident x :: .lbrace :: _ => (membersF types n [] (next (next s))).bind fun (ms, s) => (expect .rbrace s).bind fun s =>
        .ok (s.heap.length, alloc (.su k noQ (some x) ms) s)
    | .ident x :: _ => .ok (s.heap.length, alloc (.su k noQ (some x) []) (next s))
    | .lbrace :: _ => (membersF types n [] (next s)).bind fun (ms, s) => (expect .rbrace s).bind fun s =>
        .ok (s.heap.length, alloc (.su k noQ none ms) s)
    | _ => .ok (s.heap.length, alloc (.su k noQ none []) s)

/-- The loop over the members (pnut.c:2722-2757). The tests for `void` members and for flexible array members compare a node with a token code and never succeed (nodes have greater numbers). -/
def membersF (types : Types) : Nat → List Nat → S → Res (List Nat × S)
  | 0, _, _ => .diverge
  | n + 1, acc, s =>
    match s.toks with
    | .rbrace :: _ => .ok (acc, s)
    | [] => .fatal
    | t :: _ =>
      if isTypeStarter types t = false then .fatal
      else
        (specsF types n false none noQ none s).bind fun (i, s) =>
          if s.toks.head? = some .semi then
            match s.heap[i]? with
            | none => .ub
            | some nd =>
              if isTagged nd then membersF types n (acc ++ [s.heap.length]) (next (alloc (.decl none i) s))
              else .fatal
          else
            (memberDeclsF types n i acc s).bind fun (acc, s) => (expect .semi s).bind fun s => membersF types n acc s

/-- The declarators of one line of members (pnut.c:2738-2754). -/
def memberDeclsF (types : Types) : Nat → Nat → List Nat → S → Res (List Nat × S)
  | 0, _, _, _ => .diverge
  | n + 1, i, acc, s =>
    (declaratorF types n false i s).bind fun (d, _, s) =>
      if s.toks.head? = some .comma then memberDeclsF types n i (acc ++ [d]) (next s)
      else .ok (acc ++ [d], s)

/-- The loop of `parse_param_list` (pnut.c:2924-2967). -/
def paramsF (types : Types) : Nat → List Nat → S → Res (List Nat × S)
  | 0, _, _ => .diverge
  | n + 1, acc, s =>
    match s.toks with
    | [] => .ok (acc, s)
    | .rpar :: _ => .ok (acc, s)
    | t :: _ =>
      if isTypeStarter types t then
        (specsF types n false none noQ none s).bind fun (i, s) =>
          (declaratorF types n true i s).bind fun (d, _, s) =>
            match s.heap[d]? with
            | some (.decl _ j) =>
              match s.heap[j]? with
              | none => .ub
              | some nd =>
                if isVoid nd then
                  if s.toks.head? ≠ some .rpar ∨ acc ≠ [] then .fatal else .ok (acc, s)
                else paramsF types n (acc ++ [d]) (if s.toks.head? = some .comma then next s else s)
            | _ => .ub
      else
        match t with
        | .ident x =>
          let s' := alloc (.decl (some x) s.heap.length) (alloc (.base .int false noQ) (next s))
          paramsF types n (acc ++ [s.heap.length + 1]) (if s'.toks.head? = some .comma then next s' else s')
        | .ellipsis => if acc = [] then .fatal else .ok (acc, { next s with va := true })
        | _ => .fatal

/-- `parse_param_list` (pnut.c:2924-2967). -/
def paramListF (types : Types) : Nat → S → Res (List Nat × S)
  | 0, _ => .diverge
  | n + 1, s =>
    (expect .lpar { s with va := false }).bind fun s => (paramsF types n [] s).bind fun (ps, s) => (expect .rpar s).bind fun s => .ok (ps, s)

/-- `parse_declarator` (pnut.c:3024-3104): the `DECL` node and `parse_declarator_parent_type_parent`. -/
def declaratorF (types : Types) : Nat → Bool → Nat → S → Res (Nat × Nat × S)
  | 0, _, _, _ => .diverge
  | n + 1, abs, p, s =>
    match s.toks with
    | .star :: .const :: _ =>
      (declaratorF types n abs s.heap.length (alloc (.ptr ⟨true, false⟩ p) (next (next s)))).bind fun (d, _, s') => .ok (d, s.heap.length, s')
    | .star :: _ =>
      (declaratorF types n abs s.heap.length (alloc (.ptr noQ p) (next s))).bind fun (d, _, s') => .ok (d, s.heap.length, s')
    | .lpar :: _ =>
      (declaratorF types n abs p (next s)).bind fun (d, b, s) => (expect .rpar s).bind fun s =>
        match s.heap[d]? with
        | some (.decl _ i) => suffixF types n i d b s
        | _ => .ub
    | .ident x :: _ =>
      if types x = none then suffixF types n p s.heap.length s.heap.length (alloc (.decl (some x) p) (next s))
      else if abs then suffixF types n p s.heap.length s.heap.length (alloc (.decl none p) s)
      else .fatal
    | _ => if abs then suffixF types n p s.heap.length s.heap.length (alloc (.decl none p) s) else .fatal

/-- The loop of `parse_declarator` (pnut.c:3024-3104): `res` is `result`, `b` is `parent_type_parent`. -/
def suffixF (types : Types) : Nat → Nat → Nat → Nat → S → Res (Nat × Nat × S)
  | 0, _, _, _, _ => .diverge
  | n + 1, res, d, b, s =>
    match s.toks with
    | .lbrk :: _ =>
      match s.heap[res]?, s.heap[b]? with
      | some r, some bn =>
        if isVoid r then .fatal
        else
          (arraySize (next s)).bind fun (v, s') => (innerOf bn).bind fun i => (wrap (.arr i v) b s').bind fun s'' => (expect .rbrk s'').bind fun s'' =>
            suffixF types n s'.heap.length d s'.heap.length s''
      | _, _ => .ub
    | .lpar :: _ =>
      match s.heap[b]? with
      | none => .ub
      | some bn =>
        (innerOf bn).bind fun i => (paramListF types n s).bind fun (ps, s') => (wrap (.fn i ps s'.va) b s').bind fun s'' =>
          suffixF types n s'.heap.length d s'.heap.length s''
    | _ => .ok (d, b, s)
end

/-- Initializers. -/
inductive Init where
  | expr (v : Int)
  | list (l : List Init)

mutual
/-- `parse_initializer` (pnut.c:3130-3136). -/
def initF : Nat → S → Res (Init × S)
  | 0, _ => .diverge
  | n + 1, s =>
    match s.toks with
    | .lbrace :: _ => (initListF n [] (next s)).bind fun (l, s) => (expect .rbrace s).bind fun s => .ok (.list l, s)
    | .expr v ty :: r => .ok (.expr v, { s with toks := r, sc := if ty then none else s.sc })
    | _ => .fatal

/-- The loop of `parse_initializer_list` (pnut.c:3106-3128). -/
def initListF : Nat → List Init → S → Res (List Init × S)
  | 0, _, _ => .diverge
  | n + 1, acc, s =>
    match s.toks with
    | [] => .ok (acc, s)
    | .rbrace :: _ => .ok (acc, s)
    | _ =>
      (initF n s).bind fun (i, s) =>
        if s.toks.head? = some .comma then initListF n (acc ++ [i]) (next s) else .ok (acc ++ [i], s)
end

/-- `parse_declarator_and_initializer` (pnut.c:3138-3150). -/
def declInitF (types : Types) (n : Nat) (td : Bool) (i : Nat) (s : S) : Res ((Nat × Option Init) × S) :=
  (declaratorF types n false i s).bind fun (d, _, s) =>
    if td = false ∧ s.toks.head? = some .eq then (initF n (next s)).bind fun (e, s) => .ok ((d, some e), s)
    else .ok ((d, none), s)

/-- The loop of `parse_declarators` (pnut.c:3152-3168). -/
def declsF (types : Types) : Nat → Bool → Nat → List (Nat × Option Init) → S → Res (List (Nat × Option Init) × S)
  | 0, _, _, _, _ => .diverge
  | n + 1, td, i, acc, s =>
    match s.toks with
    | .semi :: _ => .ok (acc, s)
    | .comma :: _ => (declInitF types n td i (next s)).bind fun (d, s) => declsF types n td i (acc ++ [d]) s
    | _ => .fatal

/-- What a declaration is. -/
inductive Out where
  /-- a structure, union or enumeration type only -/
  | tag (i : Nat)
  | typedefs (ds : List Nat)
  | vars (ds : List (Nat × Option Init)) (sc : Option SC)
  | func (d : Nat) (body : Nat)

/-- `add_typedef` (pnut.c:3170-3189), for each declarator. -/
def addTypedefs (heap : List Node) : List Nat → Types → Res Types
  | [], types => .ok types
  | d :: r, types =>
    match heap[d]? with
    | some (.decl (some x) i) => addTypedefs heap r fun y => if y = x then some i else types y
    | _ => .ub

/-- The parameters of a function that is defined have names (`parse_fun_def`, pnut.c:3192-3206). -/
def named (heap : List Node) : List Nat → Bool
  | [] => true
  | d :: r =>
    match heap[d]? with
    | some (.decl (some _) _) => named heap r
    | _ => false

/-- `parse_declaration` at file scope (pnut.c:3208-3252) with `parse_fun_def` (pnut.c:3191-3204). -/
def declarationF (types : Types) (n : Nat) (s : S) : Res (Out × Types × S) :=
  (specsF types n true none noQ none s).bind fun (i, s) =>
    match s.heap[i]? with
    | none => .ub
    | some nd =>
      if s.toks.head? = some .semi then
        if isTagged nd = false then .fatal
        else if s.sc = some .typedef then .ub
        else .ok (.tag i, types, next s)
      else if s.sc = some .typedef then
        (declInitF types n true i s).bind fun (d, s) => (declsF types n true i [d] s).bind fun (ds, s) => (addTypedefs s.heap (ds.map (·.1)) types).bind fun types' =>
          (expect .semi s).bind fun s => .ok (.typedefs (ds.map (·.1)), types', s)
      else
        (declInitF types n false i s).bind fun (d, s) =>
          match s.heap[d.1]? with
          | some (.decl _ j) =>
            match s.heap[j]?, s.toks with
            | some (.fn _ ps _), .body b :: _ =>
              if named s.heap ps = false ∨ d.2.isSome then .fatal else .ok (.func d.1 b, types, next s)
            | _, _ => (declsF types n false i [d] s).bind fun (ds, s) => (expect .semi s).bind fun s => .ok (.vars ds s.sc, types, s)
          | _ => .ub

/-- The loop of `main` over the declarations (pnut.c:4086-4110). -/
def unitF : Nat → Types → List Out → S → Res (List Out × Types × S)
  | 0, _, _, _ => .diverge
  | n + 1, types, acc, s =>
    match s.toks with
    | [] => .ok (acc, types, s)
    | _ => (declarationF types n s).bind fun (o, types, s) => unitF n types (acc ++ [o]) s

end Verif.Decl
