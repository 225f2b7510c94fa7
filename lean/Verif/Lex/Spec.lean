import Verif.Lex.Tok
import Verif.Str.Spec
/-! Specification: the lexical grammar of C99 (6.4), translation phases 2 and 3. -/
namespace Verif.Lex.Spec
open Verif.Lit.Spec Verif.Str.Spec

/-- Phase 2: each backslash followed by a newline is deleted. -/
def splice : List Nat → List Nat
  | 92 :: 10 :: r => splice r
  | c :: r => c :: splice r
  | [] => []

/-- White-space characters: space, tab, newline, vertical tab, form feed. -/
def Space (c : Nat) : Prop := c = 32 ∨ c = 9 ∨ c = 10 ∨ c = 11 ∨ c = 12

/-- White space and comments between tokens. -/
inductive Gap : List Nat → Prop
  | nil : Gap []
  | space {c g} : Space c → Gap g → Gap (c :: g)
  /-- a comment ends at the first `*/` -/
  | block {body g} : ¬ [42, 47] <:+: body → Gap g → Gap (47 :: 42 :: body ++ 42 :: 47 :: g)
  | line {body g} : 10 ∉ body → Gap g → Gap (47 :: 47 :: body ++ 10 :: g)

/-- White space and comments inside a line (a block comment may run over several lines). -/
inductive HGap : List Nat → Prop
  | nil : HGap []
  | space {c g} : Space c → c ≠ 10 → HGap g → HGap (c :: g)
  | block {body g} : ¬ [42, 47] <:+: body → HGap g → HGap (47 :: 42 :: body ++ 42 :: 47 :: g)

/-- At the end of the file a `//` comment needs no newline. -/
inductive GapEnd : List Nat → Prop
  | gap {g} : Gap g → GapEnd g
  | line {g body} : Gap g → 10 ∉ body → GapEnd (g ++ 47 :: 47 :: body)

/-- Letters and underscore. -/
def NonDigit (c : Nat) : Prop := (97 ≤ c ∧ c ≤ 122) ∨ (65 ≤ c ∧ c ≤ 90) ∨ c = 95
def Digit (c : Nat) : Prop := 48 ≤ c ∧ c ≤ 57

inductive Identifier : List Nat → Prop
  | one {c} : NonDigit c → Identifier [c]
  | more {s c} : Identifier s → NonDigit c ∨ Digit c → Identifier (s ++ [c])

/-- Preprocessing numbers (6.4.8). -/
inductive PPNumber : List Nat → Prop
  | digit {c} : Digit c → PPNumber [c]
  | dot {c} : Digit c → PPNumber [46, c]
  | more {s c} : PPNumber s → NonDigit c ∨ Digit c ∨ c = 46 → PPNumber (s ++ [c])
  | sign {s e c} : PPNumber s → e ∈ [101, 69, 112, 80] → c = 43 ∨ c = 45 → PPNumber (s ++ [e, c])

/-- Contents of a character constant or string literal. -/
inductive Chars (quote : Nat) : List Nat → Prop
  | nil : Chars quote []
  | plain {c s} : c ≠ quote → c ≠ 92 → c ≠ 10 → Chars quote s → Chars quote (c :: s)
  | simple {e s} : e ∈ [39, 34, 63, 92, 97, 98, 102, 110, 114, 116, 118] → Chars quote s → Chars quote (92 :: e :: s)
  | oct {d s} : 48 ≤ d → d ≤ 55 → Chars quote s → Chars quote (92 :: d :: s)
  | hex {c d s} : IsDigit c d → d < 16 → Chars quote s → Chars quote (92 :: 120 :: c :: s)

/-- The punctuators supported by pnut and the token each of them is.  -/
def punctuators : List (List Nat × Op) :=
  [([91], .ch 91), ([93], .ch 93), ([40], .ch 40), ([41], .ch 41), ([123], .ch 123), ([125], .ch 125), ([46], .ch 46),
   ([45, 62], .arrow), ([43, 43], .plusPlus), ([45, 45], .minusMinus), ([38], .ch 38), ([42], .ch 42), ([43], .ch 43), ([45], .ch 45),
   ([126], .ch 126), ([33], .ch 33), ([47], .ch 47), ([37], .ch 37), ([60, 60], .lShift), ([62, 62], .rShift), ([60], .ch 60),
   ([62], .ch 62), ([60, 61], .ltEq), ([62, 61], .gtEq), ([61, 61], .eqEq), ([33, 61], .exclEq), ([94], .ch 94), ([124], .ch 124),
   ([38, 38], .ampAmp), ([124, 124], .barBar), ([63], .ch 63), ([58], .ch 58), ([59], .ch 59), ([46, 46, 46], .ellipsis),
   ([61], .ch 61), ([42, 61], .starEq), ([47, 61], .slashEq), ([37, 61], .percentEq), ([43, 61], .plusEq), ([45, 61], .minusEq),
   ([60, 60, 61], .lShiftEq), ([62, 62, 61], .rShiftEq), ([38, 61], .ampEq), ([94, 61], .caretEq), ([124, 61], .barEq),
   ([44], .ch 44), ([35], .ch 35), ([35, 35], .hashHash)]

/-- The alternative spellings `<:`, `:>`, `<%`, `%>`, `%:`, `%:%:`. -/
def digraphs : List (List Nat) := [[60, 58], [58, 62], [60, 37], [37, 62], [37, 58], [37, 58, 37, 58]]

/-- Preprocessing tokens (6.4), without universal character names and header names. -/
inductive PP : List Nat → Prop
  | ident {s} : Identifier s → PP s
  | number {s} : PPNumber s → PP s
  | char {s} : s ≠ [] → Chars 39 s → PP (39 :: s ++ [39])
  | lchar {s} : s ≠ [] → Chars 39 s → PP (76 :: 39 :: s ++ [39])
  | string {s} : Chars 34 s → PP (34 :: s ++ [34])
  | lstring {s} : Chars 34 s → PP (76 :: 34 :: s ++ [34])
  | punct {s o} : (s, o) ∈ punctuators → PP s
  | digraph {s} : s ∈ digraphs → PP s

/-- `lex` is the longest preprocessing token that the text `lex ++ rest` starts with. -/
def Longest (lex rest : List Nat) : Prop := ∀ k, 0 < k → k ≤ rest.length → ¬ PP (lex ++ rest.take k)

/-- The text does not start with a comment. -/
def NoComment (s : List Nat) : Prop := ¬ [47, 42] <+: s ∧ ¬ [47, 47] <+: s

/-- Integer suffixes (6.4.4.1). -/
def suffixes : List (List Nat × Lit.Kind) :=
  [([], .int), ([117], .intU), ([85], .intU), ([108], .intL), ([76], .intL), ([108, 108], .intLL), ([76, 76], .intLL),
   ([117, 108], .intUL), ([117, 76], .intUL), ([85, 108], .intUL), ([85, 76], .intUL), ([108, 117], .intUL), ([108, 85], .intUL),
   ([76, 117], .intUL), ([76, 85], .intUL), ([117, 108, 108], .intULL), ([117, 76, 76], .intULL), ([85, 108, 108], .intULL),
   ([85, 76, 76], .intULL), ([108, 108, 117], .intULL), ([108, 108, 85], .intULL), ([76, 76, 117], .intULL), ([76, 76, 85], .intULL)]

/-- Is a literal without suffix marked with its base in the shell backend? Zero is not. -/
def shKind (b v : Nat) : Lit.Kind := if b = 16 then .hex else if b = 8 ∧ v ≠ 0 then .oct else .int

/-- `Token sh lex rest t`: the preprocessing token `lex`, followed by `rest`, is the token `t`.  Integers of 32 bits (stored negated), characters of one byte,
strings with hexadecimal escapes of at most two digits; suffixes only outside the shell backend. -/
inductive Token (sh : Bool) : List Nat → List Nat → Tok → Prop
  | ident {s rest} : Identifier s → Token sh s rest (.ident s)
  | int {cs sfx b ds k rest} : Literal cs b ds → value b ds ≤ 2147483648 → (sfx, k) ∈ suffixes →
      (sh = true → sfx = []) → Token sh (cs ++ sfx) rest (.int (if sh then shKind b (value b ds) else k) (-(value b ds : Int)))
  | chr {cs b rest} : Item 39 cs b (39 :: rest) → (∀ t, cs = 92 :: 120 :: t → t.length ≤ 2) → Token sh (39 :: cs ++ [39]) rest (.chr b)
  | str {cs bs rest} : ShortHex 34 cs bs (34 :: rest) → Token sh (34 :: cs ++ [34]) rest (.str bs)
  /-- two dots in a row that are not `...` are an error for pnut -/
  | op {s o rest} : (s, o) ∈ punctuators → (s = [46] → ¬ [46] <+: rest) → Token sh s rest (.op o)

/-- The text splits into these tokens. -/
inductive Splits (sh : Bool) : List Nat → List Tok → Prop
  | done {g} : GapEnd g → Splits sh g []
  | cons {g lex rest t ts} : Gap g → Token sh lex rest t → Longest lex rest → NoComment (lex ++ rest) → Splits sh rest ts →
      Splits sh (g ++ (lex ++ rest)) (t :: ts)

end Verif.Lex.Spec
