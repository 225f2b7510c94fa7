import Verif.ShGlob.Proofs
/-! C46: the arguments of the script. -/
namespace Verif.ShGlob
open Verif ShTop ShTop.Spec Spec
open Verif.ShHeap (Reach Obj Act StrAt)

def High (m : ShHeap.S) : Prop := ∀ a, m.alloc ≤ a → m.cell a = some 0 ∨ m.cell a = none

theorem malloc_high_cell {hc : ShHeap.Cfg} {m : ShHeap.S} {p n : Int} (hn : 0 ≤ n) (hp : p < m.alloc) (h : High m) :
    High (ShHeap.malloc hc m (.cell p) n) := by
  have hh := hc.h_pos
  intro a ha
  have g := ShHeap.got_malloc hc m (.cell p) n (by simpa using hp)
  rw [g.alloc] at ha
  have : (ShHeap.malloc hc m (.cell p) n).cell a = m.cell a := by
    unfold ShHeap.malloc
    split
    · rename_i hx
      have := ShHeap.Cfg.h_hdr hx
      simp only [ShHeap.S.put]
      rw [ShHeap.updI_other _ _ (by omega), ShHeap.updI_other _ _ (by omega)]
    · simp only [ShHeap.S.put]
      exact ShHeap.updI_other _ _ (by omega)
  rw [this]
  exact h a (by omega)

theorem unpack_high {hc : ShHeap.Cfg} {ord : Nat → Int} {m m' : ShHeap.S} {p : Int} {str : List Nat}
    (hp : p < m.alloc) (h : High m) (hs : ShHeap.unpackString hc ord m (.cell p) str = .ok m') :
    High m' ∧ m.alloc ≤ m'.alloc := by
  have hh := hc.h_pos
  rw [ShHeap.unpackString_ok hc ord m (.cell p) str (by simpa using hp)] at hs
  cases hs
  have g := ShHeap.got_malloc hc m (.cell p) (str.length + 1) (by simpa using hp)
  have k := malloc_high_cell (hc := hc) (n := str.length + 1) (by omega) hp h
  refine ⟨fun a ha => ?_, by dsimp only; rw [g.alloc]; omega⟩
  dsimp only at ha ⊢
  have ha' := ha
  rw [g.alloc] at ha
  rw [ShHeap.updI_other _ _ (by omega), ShHeap.writeAll_out _ _ _ _ (by rw [ShHeap.strVals_length]; omega)]
  exact k a ha'

theorem argvLoop_high {hc : ShHeap.Cfg} {ord : Nat → Int} : ∀ {args : List (List Nat)} {m m' : ShHeap.S} {p : Int},
    p + args.length ≤ m.alloc → High m → ShHeap.argvLoop hc ord m p args = .ok m' → High m'
  | [], m, m', p, _, h, hs => by cases hs; exact h
  | a :: as, m, m', p, hp, h, hs => by
    simp only [ShHeap.argvLoop] at hs
    simp only [List.length_cons] at hp
    obtain ⟨m1, h1, h2⟩ := Res.bind_eq_ok.mp hs
    obtain ⟨k1, k2⟩ := unpack_high (by omega) h h1
    exact argvLoop_high (by omega) k1 h2

/-- `argc` and `argv`, with everything below the top of the heap. -/
def ArgsB (e : Env) (s : Sh) : Prop :=
  s.var e (.rt .argc_for_main) = some (e.args.length : Int) ∧
  ∃ a, s.var e (.rt .argv_for_main) = some a ∧ a + e.args.length ≤ s.mem.alloc ∧
    ∀ i (h : i < e.args.length), ∃ b, s.mem.cell (a + i) = some b ∧ StrAt s.mem b e.args[i] ∧
      b + e.args[i].length < s.mem.alloc

theorem argvObjs_mem {m : ShHeap.S} : ∀ {args : List (List Nat)} {p : Int} {i : Nat} (h : i < args.length) {b : Int},
    m.cell (p + i) = some b → ⟨b, args[i].length + 1⟩ ∈ ShHeap.argvObjs m p args
  | [], _, _, h, _, _ => by simp at h
  | a :: as, p, 0, _, b, hb => by
    have hb' : m.cell p = some b := by simpa using hb
    simp [ShHeap.argvObjs, hb']
  | a :: as, p, i + 1, h, b, hb => by
    simp only [ShHeap.argvObjs, List.getElem_cons_succ]
    refine List.mem_cons_of_mem _ (argvObjs_mem (p := p + 1) (by simpa using h) ?_)
    rw [← hb]; congr 1; push_cast; omega

theorem strAt_frame {m m' : ShHeap.S} {b : Int} {t : List Nat} (h : StrAt m b t)
    (hf : ∀ a, a ≤ b + t.length → m'.cell a = m.cell a) : StrAt m' b t := by
  refine ⟨fun i hi => ?_, ?_⟩
  · rw [hf _ (by omega)]; exact h.1 i hi
  · rw [hf _ (by omega)]; exact h.2

/-- The line setting up `argc` and `argv`. -/
theorem argv_ok {e : Env} (he : EnvOk e) {s : Sh} {L} (hr : Reach e.heap e.ord s.mem L [])
    (hh : High s.mem) (hro : (.rt .argc_for_main) ∉ s.ro ∧ (.rt .argv_for_main) ∉ s.ro)
    (hf : ∀ n ∈ argvFns e.c, (s.fns.lookup n).isSome) :
    ∃ s', s.argv e = .ok s' ∧ MemStep e s.mem s'.mem [] ∧ s'.fns = s.fns ∧ s'.ro = s.ro ∧ ArgsB e s' ∧
      ∀ n, n ≠ .rt .argc_for_main → n ≠ .rt .argv_for_main → s'.var e n = s.var e n := by
  let m1 := s.mem.put (.var (e.num (.rt .argc_for_main))) e.args.length
  have st1 : MemStep e s.mem m1 [] := memStep_put e s.mem _ _
  obtain ⟨L1, hr1, -⟩ := st1.reach L hr
  have I1 := ShHeap.reach_inv hr1
  obtain ⟨m0, m2, h2, -, -, I2, hv2, hg2, fr2, vr2, bs2⟩ := ShHeap.makeArgv_ok e.heap e.ord e.args I1
  have hh1 : High m1 := hh
  have hhp := e.heap.h_pos
  have hh2 : High m2 := by
    unfold ShHeap.makeArgv at h2
    have g := ShHeap.got_malloc e.heap m1 (.var ShHeap.argvVar) e.args.length (by simp)
    have hd := g.dst
    simp only [ShHeap.S.get] at hd
    simp only [hd, ShHeap.expand, Res.bind_ok] at h2
    refine argvLoop_high ?_ ?_ h2
    · rw [g.alloc]; exact Int.le_refl _
    · intro a ha
      rw [g.alloc] at ha
      rw [malloc_cell (by omega)]
      exact hh1 a (by omega)
  let m3 := m2.put (.var (e.num (.rt .argv_for_main))) (m1.alloc + e.heap.h)
  have st3 : MemStep e m2 m3 [] := memStep_put e m2 _ _
  have st2 : MemStep e m1 m2 [] := by
    refine ⟨fr2, hg2, fun _ => hh2, fun L' hL' => ⟨_, .act (.argv e.args) hL' trivial h2, by simp⟩⟩
  have hne : Nm.rt .argc_for_main ≠ Nm.rt .argv_for_main := by decide
  refine ⟨⟨m3, s.fns, s.ro⟩, ?_, (st1.trans st2).trans st3, rfl, rfl, ⟨?_, ?_⟩, ?_⟩
  · unfold Sh.argv Sh.assign
    rw [if_neg hro.1]
    simp only [Res.bind_ok, Sh.calls]
    rw [if_pos (List.all_eq_true.mpr hf), show ShHeap.makeArgv e.heap e.ord
      (s.mem.put (.var (e.num (.rt .argc_for_main))) e.args.length) e.args = .ok m2 from h2]
    simp only [Res.bind_ok, hv2, ShHeap.expand]
    rw [if_neg hro.2]
  · rw [show (⟨m3, s.fns, s.ro⟩ : Sh).var e (.rt .argc_for_main) = m3.var (e.num (.rt .argc_for_main)) from rfl]
    simp only [m3, ShHeap.S.put, upd]
    rw [if_neg (fun h => hne (he.inj _ _ h)), vr2 _ (he.addr _).2]
    simp [m1, ShHeap.S.put, upd]
  · refine ⟨m1.alloc + e.heap.h, ?_, ?_, ?_⟩
    · simp [Sh.var, m3, ShHeap.S.put, upd]
    · have := I2.hi ⟨m1.alloc + e.heap.h, e.args.length⟩ (by simp)
      exact this
    · intro i hi
      obtain ⟨b, hb1, hb2⟩ := bs2 i hi
      refine ⟨b, hb1, ?_, ?_⟩
      · exact ShHeap.valsAt_str (c := e.heap) he.ord (he.args _ (List.getElem_mem hi)) hb2
      · have := I2.hi _ (List.mem_append_left _ (argvObjs_mem hi hb1))
        simp only at this
        show b + _ < m2.alloc
        omega
  · intro n h1 h2
    rw [show (⟨m3, s.fns, s.ro⟩ : Sh).var e n = m3.var (e.num n) from rfl]
    simp only [m3, ShHeap.S.put, upd]
    rw [if_neg (fun h => h2 (he.inj _ _ h)), vr2 _ (he.addr _).2]
    simp only [m1, ShHeap.S.put, upd]
    rw [if_neg (fun h => h1 (he.inj _ _ h))]
    rfl

end Verif.ShGlob
