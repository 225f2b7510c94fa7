import Verif.ShGlob.Spec
import Verif.ShHeap.Props
import Verif.ShTop.Readonly
/-! C46: running the lines of a well-formed script.  What the compiler guarantees about the lines is `Wf`
(proved in `Struct`); here: such a script runs up to the call of `main`, and every line leaves its mark. -/
namespace Verif.ShGlob
open Verif ShTop ShTop.Spec Spec
open Verif.ShHeap (Reach Obj Act StrAt)

/-! ### Well-formed scripts -/

/-- What a runtime text must refer to. -/
def textNeeds (c : ShTop.Cfg) : Nm → List Nm
  | .rt .defarr => [.g idMalloc]
  | .rt .defstr => [.rt .unpack_escaped_string]
  | .rt .unpack_escaped_string => .g idMalloc :: charFns c ++ (if c.long then [.rt .next_sub_buffer] else [])
  | .rt .make_argv => [.g idMalloc, .rt .unpack_string]
  | .rt .unpack_string => .g idMalloc :: charFns c
  | _ => []

/-- A variable an initialiser may read. -/
def VarOk (I : List (Nat × List Nat)) (n : Nm) : Prop :=
  (∃ y, n = .g y) ∨ ∃ k t, n = .str k ∧ (k, t) ∈ I

/-- The lines a script may have. -/
def LineOk (c : ShTop.Cfg) (I : List (Nat × List Nat)) : Cmd → Prop
  | .defun n ds => (∀ m ∈ textNeeds c n, Need.fn m ∈ ds) ∧
      (n = .rt .defarr → c.noInit = true → Need.fn (.rt .initialize_memory) ∉ ds)
  | .set n _ => ∃ h, n = .rt h ∧ h ≠ .argc_for_main ∧ h ≠ .argv_for_main
  | .zero ns => ∀ n ∈ ns, (∃ x, n = .loc x) ∨ ∃ k, n = .tmp k
  | .assign n r => (∃ x, n = .g x) ∧ ∀ m ∈ rvVars r, VarOk I m
  | .readonly n r => (∀ h, n ≠ .rt h) ∧ (∀ k, n ≠ .str k) ∧ ∃ v, r = .int v
  | .malloc n _ => ∃ h, n = .rt h ∧ h ≠ .argc_for_main ∧ h ≠ .argv_for_main ∧ h ≠ .alloc
  | .defarr n len args => (∃ x, n = .g x) ∧ args.length ≤ len ∧ c.noInit = true ∧
      ∀ a ∈ args, ∀ m ∈ rvVars a, VarOk I m
  | .defstr n t size => Bytes t ∧ ((∃ x k, n = .g x ∧ size = some k ∧ t.length < k) ∨
      ∃ k, n = .str k ∧ size = none ∧ (k, t) ∈ I)
  | _ => True

/-- The name if it is that of a global variable or enumeration constant. -/
def gOf : Nm → List Id
  | .g x => [x]
  | _ => []

/-- The global variables the lines set. -/
def gs (l : List Cmd) : List Id := l.flatMap fun x => (sets x).flatMap gOf

/-- `__ALLOC=1` is followed by the definition of `_malloc`, and there is no other assignment to it. -/
def allocOk : List Cmd → Bool
  | [] => true
  | .set (.rt .alloc) v :: l => v == 1 && (match l with | .defun (.g 4) _ :: _ => true | _ => false) && allocOk l
  | _ :: l => allocOk l

structure Wf (c : ShTop.Cfg) (I : List (Nat × List Nat)) (l : List Cmd) : Prop where
  complete : Complete l
  clash : NoClash l
  nodup : (defNames l).Nodup
  line : ∀ x ∈ l, LineOk c I x
  alloc : allocOk l = true
  gs : (ShGlob.gs l).Nodup
  fn : ∀ k t u, (k, t) ∈ I → (k, u) ∈ I → t = u
  inits : ∀ n len args, Cmd.defarr n len args ∈ l → args ≠ [] →
    ∀ ds, Cmd.defun (.rt .defarr) ds ∈ l → Need.fn (.rt .initialize) ∈ ds

/-! ### Small facts -/

theorem mem_gs {l : List Cmd} {x : Id} : x ∈ gs l ↔ ∃ y ∈ l, Nm.g x ∈ sets y := by
  unfold gs
  simp only [List.mem_flatMap]
  constructor
  · rintro ⟨y, hy, n, hn, hx⟩
    cases n <;> simp [gOf] at hx
    subst hx
    exact ⟨y, hy, hn⟩
  · rintro ⟨y, hy, hn⟩
    exact ⟨y, hy, _, hn, by simp [gOf]⟩

theorem gs_append (l m : List Cmd) : gs (l ++ m) = gs l ++ gs m := by simp [gs]

/-- A global set before is not set again. -/
theorem gs_once {pre post : List Cmd} {y : Cmd} (h : (gs (pre ++ y :: post)).Nodup) {x : Id}
    (hx : Met pre (.var (.g x))) : Nm.g x ∉ sets y := by
  intro hy
  rw [gs_append, List.nodup_append] at h
  exact h.2.2 x (mem_gs.mpr hx) x (mem_gs.mpr ⟨y, List.mem_cons_self, hy⟩) rfl

theorem var_put {e : Env} (he : EnvOk e) (s : Sh) (n m : Nm) (v : Int) :
    (⟨s.mem.put (.var (e.num n)) v, s.fns, s.ro⟩ : Sh).var e m = if m = n then some v else s.var e m := by
  unfold Sh.var
  simp only [ShHeap.S.put, upd]
  by_cases h : m = n
  · subst h; simp
  · rw [if_neg h, if_neg (fun hh => h (he.inj _ _ hh))]

/-- The variables of the state. -/
def Same (e : Env) (s s' : Sh) (n : Nm) : Prop := s'.var e n = s.var e n

theorem evalRv_same {e : Env} {s s' : Sh} : ∀ {r : Rv}, (∀ n ∈ rvVars r, Same e s s' n) → evalRv e s' r = evalRv e s r
  | .int _, _ => rfl
  | .var n, h => by
    have := h n (by simp [rvVars])
    unfold Same at this
    simp only [evalRv, this]
  | .neg a, h => by simp only [evalRv]; rw [evalRv_same (r := a) h]
  | .add a b, h => by
    simp only [evalRv]
    rw [evalRv_same (r := a) fun n hn => h n (List.mem_append_left _ hn),
      evalRv_same (r := b) fun n hn => h n (List.mem_append_right _ hn)]
  | .sub a b, h => by
    simp only [evalRv]
    rw [evalRv_same (r := a) fun n hn => h n (List.mem_append_left _ hn),
      evalRv_same (r := b) fun n hn => h n (List.mem_append_right _ hn)]
  | .mul a b, h => by
    simp only [evalRv]
    rw [evalRv_same (r := a) fun n hn => h n (List.mem_append_left _ hn),
      evalRv_same (r := b) fun n hn => h n (List.mem_append_right _ hn)]

theorem evalArgs_same {e : Env} {s s' : Sh} : ∀ {as : List Rv}, (∀ a ∈ as, ∀ n ∈ rvVars a, Same e s s' n) →
    evalArgs e s' as = evalArgs e s as
  | [], _ => rfl
  | a :: as, h => by
    simp only [evalArgs]
    rw [evalRv_same (h a List.mem_cons_self), evalArgs_same fun x hx => h x (List.mem_cons_of_mem _ hx)]

/-- Right-hand sides whose variables are set have a value. -/
theorem evalRv_ok {e : Env} {s : Sh} : ∀ {r : Rv}, (∀ n ∈ rvVars r, ∃ v, s.var e n = some v) → ∃ v, evalRv e s r = .ok v
  | .int v, _ => ⟨v, rfl⟩
  | .var n, h => by
    obtain ⟨v, hv⟩ := h n (by simp [rvVars])
    exact ⟨v, by simp only [evalRv, hv, ShHeap.expand]⟩
  | .neg a, h => by
    obtain ⟨v, hv⟩ := evalRv_ok (r := a) h
    exact ⟨_, by simp only [evalRv, hv, Res.bind_ok]; rfl⟩
  | .add a b, h => by
    obtain ⟨v, hv⟩ := evalRv_ok (r := a) fun n hn => h n (List.mem_append_left _ hn)
    obtain ⟨w, hw⟩ := evalRv_ok (r := b) fun n hn => h n (List.mem_append_right _ hn)
    exact ⟨_, by simp only [evalRv, hv, hw, Res.bind_ok]; rfl⟩
  | .sub a b, h => by
    obtain ⟨v, hv⟩ := evalRv_ok (r := a) fun n hn => h n (List.mem_append_left _ hn)
    obtain ⟨w, hw⟩ := evalRv_ok (r := b) fun n hn => h n (List.mem_append_right _ hn)
    exact ⟨_, by simp only [evalRv, hv, hw, Res.bind_ok]; rfl⟩
  | .mul a b, h => by
    obtain ⟨v, hv⟩ := evalRv_ok (r := a) fun n hn => h n (List.mem_append_left _ hn)
    obtain ⟨w, hw⟩ := evalRv_ok (r := b) fun n hn => h n (List.mem_append_right _ hn)
    exact ⟨_, by simp only [evalRv, hv, hw, Res.bind_ok]; rfl⟩

theorem evalArgs_ok {e : Env} {s : Sh} : ∀ {as : List Rv}, (∀ a ∈ as, ∀ n ∈ rvVars a, ∃ v, s.var e n = some v) →
    ∃ vs, evalArgs e s as = .ok vs
  | [], _ => ⟨[], rfl⟩
  | a :: as, h => by
    obtain ⟨v, hv⟩ := evalRv_ok (h a List.mem_cons_self)
    obtain ⟨vs, hvs⟩ := evalArgs_ok fun x hx => h x (List.mem_cons_of_mem a hx)
    exact ⟨_, by simp only [evalArgs, hv, hvs, Res.bind_ok]; rfl⟩

theorem evalArgs_length {e : Env} {s : Sh} : ∀ {as : List Rv} {vs}, evalArgs e s as = .ok vs → vs.length = as.length
  | [], vs, h => by cases h; rfl
  | a :: as, vs, h => by
    simp only [evalArgs] at h
    obtain ⟨x, -, h⟩ := Res.bind_eq_ok.mp h
    obtain ⟨xs, h2, h⟩ := Res.bind_eq_ok.mp h
    cases h
    simp [evalArgs_length h2]

/-! ### What each line does -/

/-- Memory after a line: cells in use keep their contents, the heap only grows, cells above the heap are
unset or 0, and the blocks `os` were allocated. -/
structure MemStep (e : Env) (m m' : ShHeap.S) (os : List Obj) : Prop where
  frame : ∀ a, a < m.alloc → m'.cell a = m.cell a
  grow : m.alloc ≤ m'.alloc
  high : (∀ a, m.alloc ≤ a → m.cell a = some 0 ∨ m.cell a = none) →
    ∀ a, m'.alloc ≤ a → m'.cell a = some 0 ∨ m'.cell a = none
  reach : ∀ L, Reach e.heap e.ord m L [] → ∃ L', Reach e.heap e.ord m' (L' ++ L) [] ∧ ∀ o ∈ os, o ∈ L'

theorem MemStep.refl (e : Env) (m) : MemStep e m m [] :=
  ⟨fun _ _ => rfl, Int.le_refl _, fun h => h, fun L h => ⟨[], h, by simp⟩⟩

theorem MemStep.trans {e : Env} {a b d os ps} (h : MemStep e a b os) (k : MemStep e b d ps) :
    MemStep e a d (os ++ ps) := by
  refine ⟨fun x hx => ?_, Int.le_trans h.grow k.grow, fun hh => k.high (h.high hh), fun L hL => ?_⟩
  · rw [k.frame x (Int.lt_of_lt_of_le hx h.grow), h.frame x hx]
  · obtain ⟨L1, h1, o1⟩ := h.reach L hL
    obtain ⟨L2, h2, o2⟩ := k.reach _ h1
    refine ⟨L2 ++ L1, by rw [List.append_assoc]; exact h2, fun o ho => ?_⟩
    rcases List.mem_append.mp ho with ho | ho
    · exact List.mem_append_right _ (o1 o ho)
    · exact List.mem_append_left _ (o2 o ho)

theorem memStep_put (e : Env) (m : ShHeap.S) (i : Nat) (v : Int) : MemStep e m (m.put (.var i) v) [] :=
  ⟨fun _ _ => rfl, Int.le_refl _, fun h => h, fun L h => ⟨[], .act (.setVar i v) h trivial rfl, by simp⟩⟩

theorem alloc_pos {e : Env} {m L F} (h : Reach e.heap e.ord m L F) : 1 ≤ m.alloc := (ShHeap.reach_inv h).pos

theorem malloc_cell {hc : ShHeap.Cfg} {m : ShHeap.S} {v : Nat} {n : Int} {a : Int}
    (ha : m.alloc + hc.h ≤ a) : (ShHeap.malloc hc m (.var v) n).cell a = m.cell a := by
  have hp := hc.h_pos
  unfold ShHeap.malloc
  split
  · rename_i hh
    have := ShHeap.Cfg.h_hdr hh
    simp only [ShHeap.S.put]
    exact ShHeap.updI_other _ _ (by omega)
  · rfl

theorem memStep_malloc {e : Env} (m : ShHeap.S) (v : Nat) (n : Nat) :
    MemStep e m (ShHeap.malloc e.heap m (.var v) n) [⟨m.alloc + e.heap.h, n⟩] := by
  have g := ShHeap.got_malloc e.heap m (.var v) n (by simp)
  have hp := e.heap.h_pos
  refine ⟨fun a ha => g.frame a ha (by simp), by rw [g.alloc]; omega, fun hh a ha => ?_, fun L hL => ?_⟩
  · rw [g.alloc] at ha
    rw [malloc_cell (by omega)]
    exact hh a (by omega)
  · refine ⟨_, .act (.malloc (.var v) n) hL ⟨trivial, by omega⟩ rfl, ?_⟩
    intro o ho
    have hd := g.dst
    simp only [ShHeap.created, hd, Option.getD_some]
    exact ho

/-- The cells of a block allocated by `defarr`. -/
def Block (m : ShHeap.S) (b : Int) (len : Nat) (vs : List Int) : Prop :=
  (∀ i (h : i < vs.length), m.cell (b + i) = some vs[i]) ∧
  ∀ i : Nat, vs.length ≤ i → i < len →
    (m.cell (b + i) = some 0 ∨ m.cell (b + i) = none) ∧ (vs ≠ [] → m.cell (b + i) = some 0)

theorem Block.same {m m' : ShHeap.S} {b len vs} (h : Block m b len vs)
    (hl : vs.length ≤ len) (hf : ∀ i : Nat, i < len → m'.cell (b + i) = m.cell (b + i)) : Block m' b len vs := by
  refine ⟨fun i hi => ?_, fun i h1 h2 => ?_⟩
  · rw [hf i (by omega)]; exact h.1 i hi
  · rw [hf i h2]; exact h.2 i h1 h2

theorem defarr_ok {e : Env} (m : ShHeap.S) (v len : Nat) (vs : List Int) (hn : e.c.noInit = true)
    (hl : vs.length ≤ len) (hh : ∀ a, m.alloc ≤ a → m.cell a = some 0 ∨ m.cell a = none) :
    ∃ m', ShHeap.defarr e.heap m (.var v) len vs = .ok m' ∧ MemStep e m m' [⟨m.alloc + e.heap.h, len⟩] ∧
      m'.var v = some (m.alloc + e.heap.h) ∧ (∀ i, i ≠ v → m'.var i = m.var i) ∧
      m'.alloc = m.alloc + e.heap.h + len ∧ Block m' (m.alloc + e.heap.h) len vs := by
  have hp := e.heap.h_pos
  have hn' : e.heap.noInit = true := hn
  have hok : ∃ m', ShHeap.defarr e.heap m (.var v) len vs = .ok m' := by
    unfold ShHeap.defarr
    simp only [hn', if_true]
    split
    · rw [ShHeap.initMem_got]; exact ⟨_, rfl⟩
    · exact ⟨_, rfl⟩
  obtain ⟨m', hm⟩ := hok
  obtain ⟨g, hv⟩ := ShHeap.got_defarr hm
  have hc : ∀ a, m.alloc + e.heap.h + len ≤ a → m'.cell a = m.cell a := by
    intro a ha
    unfold ShHeap.defarr at hm
    simp only [hn', if_true] at hm
    split at hm
    · rw [ShHeap.initMem_got] at hm
      cases hm
      dsimp only
      rw [ShHeap.zeroFrom_out _ _ _ _ (by omega), ShHeap.writeAll_out _ _ _ _ (by omega), malloc_cell (by omega)]
    · cases hm
      exact malloc_cell (by omega)
  have hd := g.dst
  refine ⟨m', hm, ⟨fun a ha => g.frame a ha (by simp), by rw [g.alloc]; omega, fun _ a ha => ?_, fun L hL => ?_⟩,
    hd, fun i hi => g.vars i (by simpa using fun h => hi h.symm), g.alloc, ?_⟩
  · rw [g.alloc] at ha
    rw [hc a ha]
    exact hh a (by omega)
  · refine ⟨_, .act (.defarr v len vs) hL (show (vs.length : Int) ≤ len by omega) hm, ?_⟩
    intro o ho
    simp only [ShHeap.S.get] at hd
    simp only [ShHeap.created, hd, Option.getD_some]
    exact ho
  · by_cases hne : vs = []
    · subst hne
      refine ⟨by simp, fun i _ hi => ⟨?_, fun h => absurd rfl h⟩⟩
      have : m'.cell (m.alloc + e.heap.h + i) = m.cell (m.alloc + e.heap.h + i) := by
        unfold ShHeap.defarr at hm
        simp only [hn', if_true, List.length_nil, gt_iff_lt, Nat.lt_irrefl, if_false] at hm
        cases hm
        exact malloc_cell (by omega)
      rw [this]
      exact hh _ (by omega)
    · obtain ⟨h1, h2⟩ := hv hne
      refine ⟨fun i hi => h1 i hi, fun i hi hi2 => ?_⟩
      have := h2 i hi (by omega)
      exact ⟨.inl this, fun _ => this⟩

/-- `defstr` into a variable that is unset (or 0). -/
theorem defstr_new {e : Env} (he : EnvOk e) (m : ShHeap.S) (n : Nm) (t : List Nat) (w : List Nat)
    (hw : ShStr.unpackShort e.ord w = .ok (t.map Int.ofNat)) (hlen : t.length ≤ w.length) (size : Option Nat)
    (hs : ∀ k, size = some k → t.length < k) (hv : (m.var (e.num n)).getD 0 = 0)
    (hh : ∀ a, m.alloc ≤ a → m.cell a = some 0 ∨ m.cell a = none) :
    ∃ m' sz, ShHeap.defstr e.heap e.ord m (e.num n) w (size.map Int.ofNat) = .ok m' ∧ t.length < sz ∧
      (∀ k, size = some k → sz = k) ∧
      MemStep e m m' [⟨m.alloc + e.heap.h, (sz : Int)⟩] ∧ m'.var (e.num n) = some (m.alloc + e.heap.h) ∧
      (∀ k, k ≠ n → m'.var (e.num k) = m.var (e.num k)) ∧ m'.alloc = m.alloc + e.heap.h + sz ∧
      (∀ i (h : i < t.length), m'.cell (m.alloc + e.heap.h + i) = some (t[i] : Int)) ∧
      (∀ i : Nat, t.length ≤ i → i < sz → m'.cell (m.alloc + e.heap.h + i) = some 0) := by
  have hp := e.heap.h_pos
  have hx : ShHeap.expand false (m.var (e.num n)) = .ok ((m.var (e.num n)).getD 0) := by
    cases m.var (e.num n) <;> rfl
  have hok : ∃ m', ShHeap.defstr e.heap e.ord m (e.num n) w (size.map Int.ofNat) = .ok m' := by
    unfold ShHeap.defstr
    rw [hx]
    simp only [Res.bind_ok]
    rw [if_pos hv]
    obtain ⟨s1, e1⟩ := ShHeap.unpackEsc_total e.heap e.ord m w (size.map Int.ofNat) hw
    obtain ⟨ws, -, g, -, -⟩ := ShHeap.got_unpackEsc e1
    have hd := g.dst
    simp only [ShHeap.S.get] at hd
    rw [e1]
    simp only [Res.bind_ok, hd, ShHeap.expand]
    exact ⟨_, rfl⟩
  obtain ⟨m', hm⟩ := hok
  rcases ShHeap.got_defstr hm with ⟨h0, -⟩ | ⟨h0, vs, hvs, ⟨g1, g2, g3, g4, g5⟩, g6, g7⟩
  · exact absurd hv h0
  rw [hw] at hvs
  cases hvs
  have hsz : ∃ sz : Nat, (size.map Int.ofNat).getD (w.length + 1) = (sz : Int) ∧ t.length < sz ∧
      ∀ k, size = some k → sz = k := by
    cases size with
    | none => exact ⟨w.length + 1, by simp, by omega, by simp⟩
    | some k => exact ⟨k, rfl, hs k rfl, fun _ h => by cases h; rfl⟩
  obtain ⟨sz, hsz, hlt, hk⟩ := hsz
  rw [hsz] at g2 g7
  have hc : ∀ a, m.alloc + e.heap.h + sz < a → m'.cell a = m.cell a := by
    intro a ha
    unfold ShHeap.defstr at hm
    rw [hx] at hm
    simp only [Res.bind_ok] at hm
    rw [if_pos hv] at hm
    obtain ⟨s1, h1, h2⟩ := Res.bind_eq_ok.mp hm
    obtain ⟨us, hus, hs1⟩ := ShHeap.unpackEsc_ok _ _ _ _ _ _ h1
    obtain ⟨x, -, h3⟩ := Res.bind_eq_ok.mp h2
    cases h3
    rw [hw] at hus
    cases hus
    rw [hsz] at hs1
    simp only [ShHeap.S.put, hs1]
    rw [ShHeap.zeroFrom_out _ _ _ _ (by simp; omega), ShHeap.writeAll_out _ _ _ _ (by simp; omega), malloc_cell (by omega)]
  have hc0 : m'.cell (m.alloc + e.heap.h + sz) = some 0 := by
    unfold ShHeap.defstr at hm
    rw [hx] at hm
    simp only [Res.bind_ok] at hm
    rw [if_pos hv] at hm
    obtain ⟨s1, h1, h2⟩ := Res.bind_eq_ok.mp hm
    obtain ⟨us, hus, hs1⟩ := ShHeap.unpackEsc_ok _ _ _ _ _ _ h1
    obtain ⟨x, -, h3⟩ := Res.bind_eq_ok.mp h2
    cases h3
    rw [hw] at hus
    cases hus
    rw [hsz] at hs1
    simp only [ShHeap.S.put, hs1]
    rw [ShHeap.zeroFrom_in _ _ _ _ (by simp; omega) (by simp; omega)]
  refine ⟨m', sz, hm, hlt, hk, ⟨g4, by rw [g2]; omega, fun _ a ha => ?_, fun L hL => ?_⟩, g1, fun k hkn => ?_, g2, ?_, ?_⟩
  · rw [g2] at ha
    by_cases h : a = m.alloc + e.heap.h + sz
    · subst h; exact .inl hc0
    · rw [hc a (by omega)]; exact hh a (by omega)
  · refine ⟨_, .act (.defstr (e.num n) w (size.map Int.ofNat)) hL ?_ hm, ?_⟩
    · intro k hk'
      refine ⟨_, hw, ?_⟩
      cases size with
      | none => simp at hk'
      | some j =>
        simp only [Option.map_some, Option.some.injEq] at hk'
        have := hs j rfl
        subst hk'
        simp; omega
    · intro o ho
      simp only [ShHeap.created, if_pos hv, g1, Option.getD_some, hsz]
      exact ho
  · refine g5 _ (fun h => hkn (he.inj _ _ h)) (he.addr k).1
  · intro i hi
    have := g6 i (by simpa using hi)
    simpa using this
  · intro i hi hi2
    exact g7 i (by simpa using hi) (by omega)

/-- `defstr` into a variable that already has an address. -/
theorem defstr_old {e : Env} {m : ShHeap.S} {i : Nat} {w size} (hv : (m.var i).getD 0 ≠ 0) :
    ShHeap.defstr e.heap e.ord m i w size = .ok m := by
  unfold ShHeap.defstr
  have hx : ShHeap.expand false (m.var i) = .ok ((m.var i).getD 0) := by cases m.var i <;> rfl
  rw [hx]
  simp only [Res.bind_ok]
  rw [if_neg hv]

end Verif.ShGlob
