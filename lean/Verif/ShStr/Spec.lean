/-! POSIX shell double quotes (XCU 2.2.3), independent of the model. -/
namespace Verif.ShStr.Spec

/-- Read the inside of a double-quoted word up to its closing quote.  A backslash keeps its meaning
only before `$`, `` ` ``, `"`, `\` and newline (where the pair disappears).  An unescaped `$` or
`` ` `` starts an expansion: the word is then not a literal (`none`). -/
def dquoted : List Nat → Option (List Nat × List Nat)
  | [] => none
  | c :: t =>
    if c = 34 then some ([], t)
    else if c = 36 ∨ c = 96 then none
    else if c = 92 then
      match t with
      | [] => none
      | e :: t' =>
        if e = 36 ∨ e = 96 ∨ e = 34 ∨ e = 92 then
          (dquoted t').map fun p => (e :: p.1, p.2)
        else if e = 10 then dquoted t'
        else (dquoted t').map fun p => (92 :: e :: p.1, p.2)
    else (dquoted t).map fun p => (c :: p.1, p.2)

/-- What `printf "%d" "'c"` may print for a non-NUL byte in the POSIX locale: the code of the byte,
or, for bytes above 127 on shells with signed characters, that code minus 256. -/
def OrdOk (ord : Nat → Int) : Prop :=
  ∀ c : Nat, 1 ≤ c → c < 256 → ord c = c ∨ (128 ≤ c ∧ ord c = (c : Int) - 256)

end Verif.ShStr.Spec
