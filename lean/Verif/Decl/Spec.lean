import Verif.Decl.Model
/-! Specification of declarations: the grammar of C declarations and the types that they give to the names they declare. -/
namespace Verif.Decl.Spec
open Verif

mutual
/-- Types. The parameters of a function and the members of a structure are lists of declarations. -/
inductive Ty where
  | base (k : Base) (uns : Bool) (q : Q)
  | ptr (q : Q) (t : Ty)
  | arr (t : Ty) (n : Int)
  | fn (t : Ty) (ps : Ps) (va : Bool)
  | su (k : SU) (q : Q) (tag : Option Nat) (ms : Ps)
  | enum (q : Q) (e : Nat)
/-- Names (or none) with their types. -/
inductive Ps where
  | nil
  | cons (x : Option Nat) (t : Ty) (r : Ps)
end

def Ps.append : Ps → Ps → Ps
  | .nil, b => b
  | .cons x t r, b => .cons x t (r.append b)

/-- A declarator without its parentheses: how the name is used. -/
inductive Dr where
  | name (x : Option Nat)
  /-- `* D`, the pointer being `const` or not -/
  | ptr (c : Bool) (d : Dr)
  | arr (d : Dr) (n : Int)
  | fn (d : Dr) (ps : Ps) (va : Bool)

/-- The name. -/
def Dr.nm : Dr → Option Nat
  | .name x => x
  | .ptr _ d => d.nm
  | .arr d _ => d.nm
  | .fn d _ _ => d.nm

/-- The type that the declarator gives to the name, when the specifiers are `t`: in `t * D`, `D` is declared as if the specifiers were "pointer to `t`"; in `t D[n]` as if they were "array of `t`", and so on. -/
def Dr.ty : Dr → Ty → Ty
  | .name _, t => t
  | .ptr c d, t => d.ty (.ptr ⟨c, false⟩ t)
  | .arr d n, t => d.ty (.arr t n)
  | .fn d ps va, t => d.ty (.fn t ps va)

def isVoidTy : Ty → Prop
  | .base .void _ _ => True
  | _ => False

def isTaggedTy : Ty → Prop
  | .su .. => True
  | .enum .. => True
  | _ => False

def isArrFn : Ty → Prop
  | .arr .. => True
  | .fn .. => True
  | _ => False

def isFnTy : Ty → Prop
  | .fn .. => True
  | _ => False

/-- The constraints of C on the types: no array of `void` or of functions, no function that returns an array or a function. -/
def Dr.Valid : Dr → Ty → Prop
  | .name _, _ => True
  | .ptr c d, t => d.Valid (.ptr ⟨c, false⟩ t)
  | .arr d n, t => ¬ isVoidTy t ∧ ¬ isFnTy t ∧ d.Valid (.arr t n)
  | .fn d ps va, t => ¬ isArrFn t ∧ d.Valid (.fn t ps va)

/-- The type with more qualifiers. -/
def qualify (q : Q) : Ty → Ty
  | .base k u q' => .base k u (q'.or q)
  | .ptr q' t => .ptr (q'.or q) t
  | .su k q' t m => .su k (q'.or q) t m
  | .enum q' e => .enum (q'.or q) e
  | t => t

/-- The spellings of the integer types without `signed` or `unsigned`. pnut's `long` is its `int` (32 bits), its `long long` is `long`. -/
inductive Sized : List Kw → Base → Prop
  | char : Sized [.char] .char
  | short : Sized [.short] .short
  | shortInt : Sized [.short, .int] .short
  | int : Sized [.int] .int
  | long : Sized [.long] .int
  | longInt : Sized [.long, .int] .int
  | longLong : Sized [.long, .long] .long
  | longLongInt : Sized [.long, .long, .int] .long

/-- The spellings of the basic types, in the usual order of the words. -/
inductive Words : List Kw → Base → Bool → Prop
  | void : Words [.void] .void false
  | plain {ws k} : Sized ws k → Words ws k false
  | signed : Words [.signed] .int false
  | unsigned : Words [.unsigned] .int true
  | signedS {ws k} : Sized ws k → Words (.signed :: ws) k false
  | unsignedS {ws k} : Sized ws k → Words (.unsigned :: ws) k true

/-- The typedef names and their types. -/
abbrev Env := Nat → Option Ty

/-- Specifiers that say nothing about the type, with qualifiers and storage class. -/
inductive Side : List Tok → Q → Option SC → Prop
  | nil : Side [] noQ none
  | inline {ts q c} : Side ts q c → Side (.inline :: ts) q c
  | const {ts q c} : Side ts q c → Side (.const :: ts) (q.or ⟨true, false⟩) c
  | volatile {ts q c} : Side ts q c → Side (.volatile :: ts) (q.or ⟨false, true⟩) c
  | storage {ts q c} : Side ts q none → Side (.sc c :: ts) q (some c)

/-- At most one of two. -/
inductive One : Option SC → Option SC → Option SC → Prop
  | left {c} : One c none c
  | right {c} : One none c c

mutual
/-- Declaration specifiers: the type and the storage class. The one type specifier may have qualifiers, storage class and `inline` on both sides. Qualifiers are not applied to array and function
types (which a typedef name may be). -/
inductive Specs (env : Env) : List Tok → Option SC → Ty → Prop
  | mk {a ts b q q' c c' c'' t} : Side a q c → TypeSpec env ts t → Side b q' c' → One c c' c'' → (q.or q' = noQ ∨ ¬ isArrFn t) → Specs env (a ++ (ts ++ b)) c'' (qualify (q.or q') t)

/-- Type specifiers. -/
inductive TypeSpec (env : Env) : List Tok → Ty → Prop
  | words {ws k u} : Words ws k u → TypeSpec env (ws.map .kw) (.base k u noQ)
  | typedef {x t} : env x = some t → TypeSpec env [.ident x] t
  | enum {e} : TypeSpec env [.enum e] (.enum noQ e)
  | ref {k x} : TypeSpec env [.su k, .ident x] (.su k noQ (some x) .nil)
  | tagged {k x ts ms} : Members env ts ms → ms ≠ .nil → TypeSpec env (.su k :: .ident x :: .lbrace :: (ts ++ [.rbrace])) (.su k noQ (some x) ms)
  | untagged {k ts ms} : Members env ts ms → ms ≠ .nil → TypeSpec env (.su k :: .lbrace :: (ts ++ [.rbrace])) (.su k noQ none ms)

/-- The members of a structure or union. -/
inductive Members (env : Env) : List Tok → Ps → Prop
  | nil : Members env [] .nil
  /-- a structure or union without a name -/
  | anon {ss t ts ms} : Specs env ss none t → isTaggedTy t → Members env ts ms → Members env (ss ++ .semi :: ts) (.cons none t ms)
  | line {ss t ds ps ts ms} : Specs env ss none t → MemberDecls env t ds ps → Members env ts ms → Members env (ss ++ (ds ++ .semi :: ts)) (ps.append ms)

/-- The declarators of one line, whose specifiers are `t`. -/
inductive MemberDecls (env : Env) : Ty → List Tok → Ps → Prop
  | one {t ts d} : PtrD env false ts d → d.Valid t → MemberDecls env t ts (.cons d.nm (d.ty t) .nil)
  | more {t ts d ts' ps} : PtrD env false ts d → d.Valid t → MemberDecls env t ts' ps → MemberDecls env t (ts ++ .comma :: ts') (.cons d.nm (d.ty t) ps)

/-- Declarators; `true`: abstract ones too (without a name). A typedef name is not a name that can be declared. -/
inductive PtrD (env : Env) : Bool → List Tok → Dr → Prop
  | dir {abs ts d} : DirD env abs ts d → PtrD env abs ts d
  | star {abs ts d} : PtrD env abs ts d → PtrD env abs (.star :: ts) (.ptr false d)
  | starConst {abs ts d} : PtrD env abs ts d → PtrD env abs (.star :: .const :: ts) (.ptr true d)

/-- Direct declarators. An abstract one may be empty, but is then not followed by a parameter list (pnut reads `int (int)` and `int ()` differently). -/
inductive DirD (env : Env) : Bool → List Tok → Dr → Prop
  | ident {abs x} : env x = none → DirD env abs [.ident x] (.name (some x))
  | empty : DirD env true [] (.name none)
  | paren {abs ts d} : PtrD env abs ts d → ts ≠ [] → DirD env abs (.lpar :: (ts ++ [.rpar])) d
  | arr {abs ts d v ty} : DirD env abs ts d → DirD env abs (ts ++ [.lbrk, .expr v ty, .rbrk]) (.arr d v)
  | open {abs ts d} : DirD env abs ts d → DirD env abs (ts ++ [.lbrk, .rbrk]) (.arr d 0)
  | fn {abs ts d tp ps va} : DirD env abs ts d → ts ≠ [] → Params env tp ps va → DirD env abs (ts ++ .lpar :: (tp ++ [.rpar])) (.fn d ps va)

/-- What stands between the parentheses of a function declarator, and whether it ends with an ellipsis. -/
inductive Params (env : Env) : List Tok → Ps → Bool → Prop
  | none : Params env [] .nil false
  | void : Params env [.kw .void] .nil false
  /-- (a parameter must not be a variadic function itself: pnut takes the ellipsis for that of the outer list) -/
  | list {ts ps} : ParamList env ts ps → .ellipsis ∉ ts → Params env ts ps false
  | ellipsis {ts ps} : ParamList env ts ps → Params env (ts ++ [.comma, .ellipsis]) ps true

/-- One or more parameters. -/
inductive ParamList (env : Env) : List Tok → Ps → Prop
  | one {ss c t ts d} : Specs env ss c t → c ≠ some .typedef → PtrD env true ts d → d.Valid t → ¬ isVoidTy (d.ty t) → ParamList env (ss ++ ts) (.cons d.nm (d.ty t) .nil)
  | more {ss c t ts d ts' ps} : Specs env ss c t → c ≠ some .typedef → PtrD env true ts d → d.Valid t → ¬ isVoidTy (d.ty t) → ParamList env ts' ps →
      ParamList env (ss ++ (ts ++ .comma :: ts')) (.cons d.nm (d.ty t) ps)
end

/-- The token is no part of a type name. -/
def Quiet (env : Env) : Tok → Prop
  | .kw _ => False
  | .su _ => False
  | .enum _ => False
  | .ident x => env x = none
  | .expr _ ty => ty = false
  | _ => True

/-! ## What the nodes mean -/

mutual
/-- The node is the type. All the nodes it is made of satisfy `Q`. -/
inductive RepN (h : List Node) (Q : Nat → Prop) : Node → Ty → Prop
  | base {k u q} : RepN h Q (.base k u q) (.base k u q)
  | ptr {q i t} : Rep h Q i t → RepN h Q (.ptr q i) (.ptr q t)
  | arr {i n t} : Rep h Q i t → RepN h Q (.arr i n) (.arr t n)
  | fn {i ps va t Ps} : Rep h Q i t → RepL h Q ps Ps → RepN h Q (.fn i ps va) (.fn t Ps va)
  | su {k q tag ms Ms} : RepL h Q ms Ms → RepN h Q (.su k q tag ms) (.su k q tag Ms)
  | enum {q e} : RepN h Q (.enum q e) (.enum q e)
inductive Rep (h : List Node) (Q : Nat → Prop) : Nat → Ty → Prop
  | mk {i nd t} : Q i → h[i]? = some nd → RepN h Q nd t → Rep h Q i t
/-- A list of `DECL` nodes. -/
inductive RepL (h : List Node) (Q : Nat → Prop) : List Nat → Ps → Prop
  | nil : RepL h Q [] .nil
  | cons {d x i t r R} : Q d → h[d]? = some (.decl x i) → Rep h Q i t → RepL h Q r R → RepL h Q (d :: r) (.cons x t R)
end

/-! ## Initializers, declarations, translation units -/

mutual
/-- Initializers. -/
inductive InitG : List Tok → Init → Prop
  | expr {v ty} : InitG [.expr v ty] (.expr v)
  | braces {ts l} : InitL ts l → InitG (.lbrace :: (ts ++ [.rbrace])) (.list l)
  /-- with a comma behind the last one -/
  | trailing {ts l} : InitL ts l → InitG (.lbrace :: (ts ++ [.comma, .rbrace])) (.list l)
/-- One or more initializers. -/
inductive InitL : List Tok → List Init → Prop
  | one {ts i} : InitG ts i → InitL ts [i]
  | more {ts i ts' l} : InitG ts i → InitL ts' l → InitL (ts ++ .comma :: ts') (i :: l)
end

/-- A declared variable or function: its name, its type, its initializer. -/
structure Item where
  name : Option Nat
  ty : Ty
  init : Option Init

/-- A declarator with or without initializer. -/
inductive ItemD (env : Env) (t : Ty) : List Tok → Item → Prop
  | plain {ts d} : PtrD env false ts d → d.Valid t → ItemD env t ts ⟨d.nm, d.ty t, none⟩
  | init {ts d ts' i} : PtrD env false ts d → d.Valid t → InitG ts' i → ItemD env t (ts ++ .eq :: ts') ⟨d.nm, d.ty t, some i⟩

/-- Declarators with initializers, separated by commas. -/
inductive Items (env : Env) (t : Ty) : List Tok → List Item → Prop
  | one {ts i} : ItemD env t ts i → Items env t ts [i]
  | more {ts i ts' l} : ItemD env t ts i → Items env t ts' l → Items env t (ts ++ .comma :: ts') (i :: l)

/-- The names. -/
def Ps.names : Ps → List (Option Nat)
  | .nil => []
  | .cons x _ r => x :: r.names

/-- The typedef names after a declaration. -/
def addTypes : Ps → Env → Env
  | .nil, env => env
  | .cons (some x) t r, env => addTypes r fun y => if y = x then some t else env y
  | .cons none _ r, env => addTypes r env

/-- What a declaration declares. -/
inductive SOut where
  | tag (t : Ty)
  | typedefs (ps : Ps)
  /-- `plain`: no type name occurs in the declarators and initializers (pnut loses the storage class otherwise) -/
  | vars (l : List Item) (c : Option SC) (plain : Prop)
  | func (x : Option Nat) (t : Ty) (body : Nat)

/-- A function type, all of whose parameters have names. -/
def NamedFn : Ty → Prop
  | .fn _ ps _ => none ∉ ps.names
  | _ => False

/-- A declaration at file scope. -/
inductive SDecl (env : Env) : List Tok → SOut → Env → Prop
  | tag {ss c t} : Specs env ss c t → c ≠ some .typedef → isTaggedTy t → SDecl env (ss ++ [.semi]) (.tag t) env
  /-- (each of the names stands only where it is declared: pnut takes it for a type only after the whole declaration) -/
  | typedefs {ss t ts ps} : Specs env ss (some .typedef) t → MemberDecls env t ts ps → (∀ x, some x ∈ ps.names → ts.count (.ident x) = 1) →
      SDecl env (ss ++ (ts ++ [.semi])) (.typedefs ps) (addTypes ps env)
  | vars {ss c t ts l} : Specs env ss c t → c ≠ some .typedef → Items env t ts l → SDecl env (ss ++ (ts ++ [.semi])) (.vars l c (∀ t ∈ ts, Quiet env t)) env
  | func {ss c t ts d b} : Specs env ss c t → c ≠ some .typedef → PtrD env false ts d → d.Valid t → NamedFn (d.ty t) → SDecl env (ss ++ (ts ++ [.body b])) (.func d.nm (d.ty t) b) env

/-- A translation unit. -/
inductive SUnit : Env → List Tok → List SOut → Env → Prop
  | nil {env} : SUnit env [] [] env
  | cons {env ts o env' ts' os env''} : SDecl env ts o env' → SUnit env' ts' os env'' → SUnit env (ts ++ ts') (o :: os) env''

/-- The node `i` is the type `t`. -/
def Is (h : List Node) (i : Nat) (t : Ty) : Prop := Rep h (fun _ => True) i t

/-- The node `d` declares the name `x` with the type `t`. -/
def Declares (h : List Node) (d : Nat) (x : Option Nat) (t : Ty) : Prop := ∃ i, h[d]? = some (.decl x i) ∧ Is h i t

/-- A variable with its initializer. -/
def IsItem (h : List Node) (d : Nat × Option Init) (i : Item) : Prop := Declares h d.1 i.name i.ty ∧ d.2 = i.init

/-- The two lists have the same length and correspond element by element. -/
inductive All2 {α β : Type} (R : α → β → Prop) : List α → List β → Prop
  | nil : All2 R [] []
  | cons {a b l m} : R a b → All2 R l m → All2 R (a :: l) (b :: m)

/-- The parser's result is what is declared. -/
inductive OutIs (h : List Node) : Out → SOut → Prop
  | tag {i t} : Is h i t → OutIs h (.tag i) (.tag t)
  | typedefs {ds ps} : RepL h (fun _ => True) ds ps → OutIs h (.typedefs ds) (.typedefs ps)
  | vars {ds sc l c plain} : All2 (IsItem h) ds l → (plain → sc = c) → OutIs h (.vars ds sc) (.vars l c plain)
  | func {d b x t} : Declares h d x t → OutIs h (.func d b) (.func x t b)

/-- The typedef names are right. -/
def TypesAre (h : List Node) (types : Types) (env : Env) : Prop := (∀ x, types x = none ↔ env x = none) ∧ ∀ x i t, types x = some i → env x = some t → Is h i t

end Verif.Decl.Spec
