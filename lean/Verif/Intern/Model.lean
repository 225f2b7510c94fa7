import Verif.Base
/-! Model of the identifier/string table of pnut.c. -/
namespace Verif.Intern
open Verif

/-- pnut.c:317 `STRING_POOL_SIZE`. -/
def POOL_SIZE : Nat := 500000
/-- pnut.c:326 `HEAP_SIZE`. -/
def HEAP_SIZE : Nat := 2000000
/-- pnut.c:325 `HASH_PRIME`: number of buckets, which are the first heap cells. -/
def HASH_PRIME : Nat := 1009
/-- pnut.c:324 `HASH_PARAM`. -/
def HASH_PARAM : Nat := 1026
/-- The token code `IDENTIFIER` stored in cell 2 of a new entry (pnut.c:254);
its numeric value does not matter here. -/
def IDENTIFIER : Int := 500

/-- Globals of pnut.c:317-330: `heap`, `heap_alloc`, `string_pool`, `string_pool_alloc`,
`string_start`, `hash`.  Heap cells are integers, pool cells bytes 0..255. -/
structure St where
  heap : Nat → Int
  heapAlloc : Nat
  pool : Nat → Nat
  poolAlloc : Nat
  start : Nat
  hash : Nat

/-- Initial state: buckets zeroed (pnut.c:1598-1603), `heap_alloc = HASH_PRIME` (pnut.c:328). -/
def init : St :=
  { heap := fun _ => 0, heapAlloc := HASH_PRIME, pool := fun _ => 0, poolAlloc := 0,
    start := 0, hash := 0 }

/-- pnut.c:332-343 `alloc_obj`. -/
def allocObj (s : St) (size : Nat) : Res (Nat × St) :=
  if s.heapAlloc + size > HEAP_SIZE then .fatal
  else .ok (s.heapAlloc, { s with heapAlloc := s.heapAlloc + size })

/-- pnut.c:576-579 `begin_string`. -/
def beginString (s : St) : St := { s with start := s.poolAlloc, hash := 0 }

/-- The integer that the C code adds to the hash for byte `b`: `accum_string` (pnut.c:583) adds
the `int` `ch` (0..255); `accum_string_char` (pnut.c:593) adds a `char`, negative for `b ≥ 128`
on targets with signed `char`. -/
def charVal (signed : Bool) (b : Nat) : Int :=
  if signed && b ≥ 128 then (b : Int) - 256 else b

/-- One hash step, pnut.c:583 and pnut.c:593: `(ch + (hash ^ HASH_PARAM)) % HASH_PRIME`
(C remainder). -/
def hashStep (signed : Bool) (h b : Nat) : Nat :=
  ((charVal signed b + ((h ^^^ HASH_PARAM : Nat) : Int)).tmod HASH_PRIME).toNat

/-- pnut.c:582-589 `accum_string` (`signed = false`) and pnut.c:592-599 `accum_string_char`
(`signed = true`).  Writing past the pool is undefined behaviour. -/
def accum (signed : Bool) (s : St) (b : Nat) : Res St :=
  if s.poolAlloc ≥ POOL_SIZE then .ub
  else if s.poolAlloc + 1 ≥ POOL_SIZE then .fatal
  else .ok { s with hash := hashStep signed s.hash b,
                    pool := upd s.pool s.poolAlloc b, poolAlloc := s.poolAlloc + 1 }

/-- Loop over the characters of a string being accumulated. -/
def accumAll (signed : Bool) (s : St) : List Nat → Res St
  | [] => .ok s
  | b :: bs => (accum signed s b).bind (fun s' => accumAll signed s' bs)

/-- pnut.c:645-655, inner `while (c1 == c2)` loop: compare the NUL-terminated strings at `a` and
`b`.  `some true` = match found.  Fuel is the length of the new string; `none` = out of fuel. -/
def cmpLoop (pool : Nat → Nat) : Nat → Nat → Nat → Option Bool
  | 0, _, _ => none
  | fuel + 1, a, b =>
    if pool a = pool b then
      if pool a = 0 then some true else cmpLoop pool fuel (a + 1) (b + 1)
    else some false

/-- pnut.c:642-659, outer `while (probe != 0)` loop.  `cell` plays the role of `hash` (the cell
that holds `probe`).  Result: `inl probe` = found, `inr cell` = end of chain at `cell`. -/
def walk (s : St) : Nat → Nat → Res (Nat ⊕ Nat)
  | 0, _ => .diverge
  | fuel + 1, cell =>
    let probe := (s.heap cell).toNat
    if probe = 0 then .ok (.inr cell)
    else match cmpLoop s.pool (s.poolAlloc - s.start) s.start (s.heap (probe + 1)).toNat with
      | none => .diverge
      | some true => .ok (.inl probe)
      | some false => walk s fuel probe

/-- pnut.c:638-675 `end_ident`/`end_string`. -/
def endIdent (s : St) : Res (Nat × St) :=
  if s.poolAlloc ≥ POOL_SIZE then .ub
  else
    let s1 := { s with pool := upd s.pool s.poolAlloc 0, poolAlloc := s.poolAlloc + 1 }
    (walk s1 (s1.heapAlloc + 1) s1.hash).bind fun r =>
      match r with
      | .inl probe => .ok (probe, { s1 with poolAlloc := s1.start })
      | .inr cell =>
        (allocObj s1 5).bind fun (p, s2) =>
          let h0 := upd s2.heap cell (p : Int)
          let h1 := upd h0 p 0
          let h2 := upd h1 (p + 1) (s2.start : Int)
          let h3 := upd h2 (p + 2) IDENTIFIER
          let h4 := upd h3 (p + 3) 0
          let h5 := upd h4 (p + 4) ((s2.poolAlloc - s2.start - 1 : Nat) : Int)
          .ok (p, { s2 with heap := h5 })

/-- Interning a whole spelling: `begin_string`, accumulate, `end_ident`, as in `get_ident`
(pnut.c:1555-1569), `intern_str` (pnut.c:1571-1588), string literals (pnut.c:2234-2237) with
`signed = false`, and in `paste_tokens` (pnut.c:1965-1986) and adjacent string literals
(pnut.c:3301-3308) with `signed = true`. -/
def intern (signed : Bool) (s : St) (bs : List Nat) : Res (Nat × St) :=
  (accumAll signed (beginString s) bs).bind endIdent

/-- The spelling of a handle, as read through `STRING_BUF`/`STRING_LEN` (pnut.c:572-574). -/
def spelling (s : St) (h : Nat) : List Nat :=
  readList s.pool (s.heap (h + 1)).toNat (s.heap (h + 4)).toNat

/-- Operations of a compilation that touch the heap or the pool. -/
inductive Op where
  /-- intern a spelling -/
  | intern (signed : Bool) (bs : List Nat)
  /-- allocate another object (`new_ast0..4`, `clone_ast`, macro lists, bindings...) -/
  | alloc (cells : List Int)
  /-- overwrite cell `j` of the `i`-th such object (`set_child`, `set_val`) -/
  | poke (i j : Nat) (v : Int)
  /-- `heap[h+2] = v`: token kind of the `i`-th interned spelling (pnut.c:1592, 1502, 1264) -/
  | setKind (i : Nat) (v : Int)
  /-- `heap[h+3] = v`: tag of the `i`-th interned spelling (pnut.c:1264-1268, sh.c:549-558) -/
  | setTag (i : Nat) (v : Int)

/-- A run: the state, the handles returned by the `intern` operations so far (in order) and the
other objects allocated so far (address, size). -/
structure World where
  st : St
  handles : List Nat
  objs : List (Nat × Nat)

def World.init : World := { st := Intern.init, handles := [], objs := [] }

/-- One operation. Pokes with an index that does not exist are no-ops. -/
def step (w : World) : Op → Res World
  | .intern sg bs =>
    (Intern.intern sg w.st bs).bind fun (h, s) => .ok { w with st := s, handles := w.handles ++ [h] }
  | .alloc cells =>
    (allocObj w.st cells.length).bind fun (p, s) =>
      .ok { w with st := { s with heap := writeList s.heap p cells },
                   objs := w.objs ++ [(p, cells.length)] }
  | .poke i j v =>
    match w.objs[i]? with
    | some (p, n) => if j < n then .ok { w with st := { w.st with heap := upd w.st.heap (p + j) v } }
                     else .ok w
    | none => .ok w
  | .setKind i v =>
    match w.handles[i]? with
    | some h => .ok { w with st := { w.st with heap := upd w.st.heap (h + 2) v } }
    | none => .ok w
  | .setTag i v =>
    match w.handles[i]? with
    | some h => .ok { w with st := { w.st with heap := upd w.st.heap (h + 3) v } }
    | none => .ok w

/-- A history of operations. -/
def run (w : World) : List Op → Res World
  | [] => .ok w
  | o :: os => (step w o).bind fun w' => run w' os

end Verif.Intern
