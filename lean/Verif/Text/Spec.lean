import Verif.Text.Model
/-! Documents: what a text is meant to be, independently of the pool. -/
namespace Verif.Text.Spec
open Verif

/-- A document: empty, a character, an integer, a C string (its address and its characters), a slice of
a string (its addresses and its characters), the concatenation of `n` documents, or a document to be
printed escaped for the shell. -/
inductive Doc where
  | nil
  | chr (c : Nat)
  | int (n : Num.IntText)
  | str (s : Int) (bs : List Nat)
  | slice (s e : Int) (bs : List Nat)
  | cat (n : Nat) (f : Nat → Doc)
  | esc (fp : Bool) (d : Doc)

/-- Concatenation of `n` pieces, if all exist. -/
def catO : Nat → (Nat → Option (List Nat)) → Option (List Nat)
  | 0, _ => some []
  | n + 1, f => (f 0).bind fun a => (catO n fun i => f (i + 1)).map (a ++ ·)

/-- The characters of the document, each byte of its leaves escaped for the shell; there is no escaping
twice. -/
def escaped (fp : Bool) : Doc → Option (List Nat)
  | .nil => some []
  | .chr c => some (ShStr.escapeChar fp c)
  | .int n => some ((Num.printInt n).map Int.toNat)
  | .str _ bs => some (bs.flatMap (ShStr.escapeChar fp))
  | .slice _ _ bs => some (bs.flatMap (ShStr.escapeChar fp))
  | .cat n f => catO n fun i => escaped fp (f i)
  | .esc _ _ => none

/-- The characters of the document: the concatenation of its leaves. -/
def plain : Doc → Option (List Nat)
  | .nil => some []
  | .chr c => some [c]
  | .int n => some ((Num.printInt n).map Int.toNat)
  | .str _ bs => some bs
  | .slice _ _ bs => some bs
  | .cat n f => catO n fun i => plain (f i)
  | .esc fp d => escaped fp d

/-- The characters `bs` are at `s`. -/
def At (cm : Int → Nat) (s : Int) (bs : List Nat) : Prop := ∀ i : Nat, i < bs.length → cm (s + i) = bs[i]!

/-- `bs` is the C string at `s`. -/
def IsStr (cm : Int → Nat) (s : Int) (bs : List Nat) : Prop :=
  At cm s bs ∧ (∀ b ∈ bs, b ≠ 0) ∧ cm (s + bs.length) = 0

/-- The leaves are what they claim to be: characters are not NUL, strings and slices are in memory. -/
def Valid (cm : Int → Nat) : Doc → Prop
  | .nil => True
  | .chr c => 0 < c ∧ c < 256
  | .int _ => True
  | .str s bs => IsStr cm s bs
  | .slice s e bs => At cm s bs ∧ e = s + bs.length ∧ e ≠ 0
  | .cat n f => ∀ i, i < n → Valid cm (f i)
  | .esc _ d => Valid cm d

/-- Slices that are not escaped end at a NUL. -/
def SlicesEnd (cm : Int → Nat) : Doc → Prop
  | .slice _ e _ => cm e = 0
  | .cat n f => ∀ i, i < n → SlicesEnd cm (f i)
  | _ => True

/-- Separator between two documents when both are there. -/
def withSep : Doc → Doc → Doc → Doc
  | .nil, d2, _ => d2
  | d1, .nil, _ => d1
  | d1, d2, sep => .cat 3 fun i => if i = 0 then d1 else if i = 1 then sep else d2

/-- A step of a code generator: build a text out of texts built before (numbered from 0). -/
inductive Op where
  | chr (c : Nat)
  | int (n : Num.IntText)
  | str (s : Int) (bs : List Nat)
  | slice (s e : Int) (bs : List Nat)
  | cat (parts : List Nat)
  | esc (fp : Bool) (i : Nat)
  | sep (i j k : Nat)

/-- The document a step builds, `get` giving the earlier ones. -/
def Op.doc (get : Nat → Doc) : Op → Doc
  | .chr c => .chr c
  | .int n => .int n
  | .str s bs => .str s bs
  | .slice s e bs => .slice s e bs
  | .cat parts => .cat parts.length fun i => get ((parts[i]?).getD 0)
  | .esc fp i => .esc fp (get i)
  | .sep i j k => withSep (get i) (get j) (get k)

/-- The documents built, in order. -/
def docs : List Op → List Doc → List Doc
  | [], ds => ds
  | op :: ops, ds => docs ops (ds ++ [op.doc fun i => (ds[i]?).getD .nil])

/-- The same with the functions of the program. -/
def Op.text (get : Nat → Int) (st : TP) : Op → Res (Int × TP)
  | .chr c => .ok (wrap_char c, st)
  | .int (.dec n) => wrap_int n st
  | .int (.hex n) => wrap_int_hex n st
  | .int (.oct n) => wrap_int_oct n st
  | .str s _ => wrap_str_lit s st
  | .slice s e _ => wrap_str_imm s e st
  | .cat parts => string_concat (parts.map get) st
  | .esc fp i => escape_text (get i) fp st
  | .sep i j k => concatenate_strings_with (get i) (get j) (get k) st

/-- The texts built, in order. -/
def build : List Op → List Int → TP → Res (List Int × TP)
  | [], hs, st => .ok (hs, st)
  | op :: ops, hs, st => (op.text (fun i => (hs[i]?).getD 0) st).bind fun (t, st) => build ops (hs ++ [t]) st

end Verif.Text.Spec
