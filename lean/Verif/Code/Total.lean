import Verif.Code.Props
/-! C28 continued: the patching loops always terminate and never read outside the buffer; the address
of a label is loaded right. -/
namespace Verif.Code
open Spec

def Good {α} (r : Res α) : Prop := r ≠ .ub ∧ r ≠ .diverge

theorem good_ok {α} (a : α) : Good (Res.ok a) := ⟨by simp, by simp⟩
theorem good_fatal {α} : Good (Res.fatal : Res α) := ⟨by simp, by simp⟩
theorem good_bind {α β} {r : Res α} {f : α → Res β} (h : Good r) (hf : ∀ a, r = .ok a → Good (f a)) :
    Good (r.bind f) := by
  cases r with
  | ok a => exact hf a rfl
  | fatal => exact good_fatal
  | ub => exact absurd rfl h.1
  | diverge => exact absurd rfl h.2

theorem good_emits (bs : List Nat) (s : S) : Good (emits bs s) := by
  rcases emits_total bs s with ⟨_, s', h⟩ | ⟨_, h⟩ | h
  · rw [h]; exact good_ok _
  · rw [h]; exact good_fatal
  · subst h; exact good_ok _

theorem good_i32 (n : Int) (s : S) : Good (emit_i32_le n s) := by rw [emits_i32]; exact good_emits _ _

theorem good_patch {w l : Nat} {U : List It} : ∀ {fuel : Nat} {a : Int} {L : Nat} {s : S},
    Chain w s.code a U → (∀ i ∈ U, i.op = .use l) → U.Pairwise (fun a b => b.fin w ≤ a.p) →
    U.length < fuel → Good (patch fuel a L s) := by
  induction U with
  | nil =>
    intro fuel a L s hc hu hp hf
    cases fuel with
    | zero => simp at hf
    | succ fuel => simp only [Chain] at hc; simp [patch, hc]; exact good_ok _
  | cons i U ih =>
    intro fuel a L s hc hu hp hf
    cases fuel with
    | zero => simp at hf
    | succ fuel =>
      obtain ⟨h1, h2, h3⟩ := hc
      have hi : i.op = .use l := hu i (by simp)
      simp only [List.pairwise_cons] at hp
      have hfin : i.fin w = i.p + 4 := by simp [It.fin, hi, size1]
      simp only [patch]
      rw [if_neg (by omega), if_neg (by omega)]
      refine good_bind (good_i32 _ _) fun s1 hs1 => ?_
      rw [emits_i32] at hs1
      have e := emits_ok (i32le_lt _) hs1
      have hn : a.toNat - 4 = i.p := by omega
      have hn1 : a.toNat - 1 = i.fin w - 1 := by omega
      rw [hn1]
      have hu' : ∀ i ∈ U, i.op = .use l := fun j hj => hu j (List.mem_cons_of_mem _ hj)
      refine ih ?_ hu' hp.2 (by simp at hf; omega)
      refine Chain_congr (l := l) (fun j hj => by simp [isUse, hu' j hj]) ?_ h3
      intro j hj x hx1 hx2
      rw [e]
      simp only [hn]
      exact writeList_lt _ _ _ (by have := hp.1 j hj; omega)

theorem good_patch_goto {w l : Nat} {U : List It} : ∀ {fuel : Nat} {a : Int} {L : Nat} {s : S},
    Chain w s.code a U → (∀ i ∈ U, i.op = .goto l) → U.Pairwise (fun a b => b.fin w ≤ a.p) →
    U.length < fuel → Good (patch_goto w fuel a L s) := by
  induction U with
  | nil =>
    intro fuel a L s hc hu hp hf
    cases fuel with
    | zero => simp at hf
    | succ fuel => simp only [Chain] at hc; simp [patch_goto, hc]; exact good_ok _
  | cons i U ih =>
    intro fuel a L s hc hu hp hf
    cases fuel with
    | zero => simp at hf
    | succ fuel =>
      obtain ⟨h1, h2, h3⟩ := hc
      have hi : i.op = .goto l := hu i (by simp)
      obtain ⟨hg, hst⟩ := h2 l hi
      simp only [List.pairwise_cons] at hp
      have hfin : i.fin w = i.p + if w = 8 then 12 else 11 := by simp [It.fin, hi, size1]
      have h11 : i.p + 11 ≤ i.fin w := by rw [hfin]; split <;> omega
      have hn1 : a.toNat - 1 = i.fin w - 1 := by omega
      have hn2 : a.toNat - 2 = i.fin w - 2 := by omega
      have hn3 : a.toNat - 3 = i.fin w - 3 := by omega
      simp only [patch_goto]
      rw [if_neg (by omega), if_neg (by omega), hn1, hn2, hn3, hg, hst, if_neg (by omega)]
      refine good_bind (good_emits _ _) fun s1 ha => good_bind (good_emits _ _) fun s2 hb =>
        good_bind (good_emits _ _) fun s3 hc => ?_
      have ha' := emits_ok (add_reg_imm_lt _ _ _) ha
      have hb' := emits_ok (jump_rel_lt _) hb
      have hc' := emits_ok (jump_rel_lt _) hc
      have hu' : ∀ i ∈ U, i.op = .goto l := fun j hj => hu j (List.mem_cons_of_mem _ hj)
      have e1 : s1.n ≥ i.p := by rw [ha']; simp
      refine ih ?_ hu' hp.2 (by simp at hf; omega)
      refine Chain_congr (l := l) (fun j hj => by simp [isUse, hu' j hj]) ?_ h3
      intro j hj x hx1 hx2
      have hx : x < i.p := by have := hp.1 j hj; omega
      rw [hc']
      simp only
      rw [writeList_lt _ _ _ (by omega), hb']
      simp only
      rw [writeList_lt _ _ _ (by omega), ha']
      exact writeList_lt _ _ _ (by simpa using hx)

theorem uses_length (w : Nat) (h : List Op) (l : Nat) : 4 * (uses w h l).length ≤ size w h := by
  induction h with
  | nil => simp [uses, items, size]
  | cons o h ih =>
    simp only [uses, items, size] at *
    by_cases hu : isUse l o
    · have := size1_use (w := w) hu
      simp only [hu, List.filter_cons_of_pos, List.length_cons]
      omega
    · simp only [hu, List.filter_cons]
      simp
      omega

theorem good_step {w : Nat} {kind : Nat → Kind} {h : List Op} {s : S} (iv : Inv w kind h s) (o : Op)
    (hpos : ∀ d ∈ items w h, ∀ l, isDef l d.op → 0 < d.p) : Good (o.run w kind s) := by
  cases o with
  | emit b => simp only [Op.run, emit_i8]; split; exact good_fatal; exact good_ok _
  | setfs v => exact good_ok _
  | use l =>
    simp only [Op.run, use_label]
    split
    · exact good_fatal
    split
    · exact good_i32 _ _
    · exact good_bind (good_i32 _ _) fun _ _ => good_ok _
  | goto l =>
    simp only [Op.run, jump_to_goto_label]
    split
    · exact good_fatal
    split
    · exact good_bind (good_emits _ _) fun _ _ => good_bind (good_emits _ _) fun _ _ => good_emits _ _
    · exact good_bind (good_emits _ _) fun _ _ => good_bind (good_emits _ _) fun _ _ => good_ok _
  | defl l =>
    simp only [Op.run, def_label]
    split
    · exact good_fatal
    rename_i hk
    have hk : kind l = .generic := by simpa using hk
    split
    · exact good_fatal
    rename_i hneg
    have hnone : ∀ d ∈ items w h, ¬ isDef l d.op := by
      intro d hd hdef
      have := addr_defined iv hd hdef (hpos d hd l hdef)
      omega
    have hops : ∀ i ∈ uses w h l, i.op = .use l := by
      intro i hi
      obtain ⟨hi1, hi2⟩ := mem_uses.1 hi
      simp [isUse] at hi2
      rcases hi2 with e | e
      · exact e
      · have := (iv.kuse i hi1).2 l e; rw [hk] at this; cases this
    refine good_bind (good_patch (w := w) (U := uses w h l) (by exact iv.pend l hnone) hops
      (uses_pairwise w h l) ?_) fun _ _ => good_ok _
    have := uses_length w h l
    rw [iv.n]; omega
  | defg l =>
    simp only [Op.run, def_goto_label]
    split
    · exact good_fatal
    rename_i hk
    have hk : kind l = .goto := by simpa using hk
    split
    · exact good_fatal
    rename_i hneg
    have hnone : ∀ d ∈ items w h, ¬ isDef l d.op := by
      intro d hd hdef
      have := addr_defined iv hd hdef (hpos d hd l hdef)
      omega
    have hops : ∀ i ∈ uses w h l, i.op = .goto l := by
      intro i hi
      obtain ⟨hi1, hi2⟩ := mem_uses.1 hi
      simp [isUse] at hi2
      rcases hi2 with e | e
      · have := (iv.kuse i hi1).1 l e; rw [hk] at this; cases this
      · exact e
    refine good_bind (good_patch_goto (w := w) (U := uses w h l) (by exact iv.pend l hnone) hops
      (uses_pairwise w h l) ?_) fun _ _ => good_ok _
    have := uses_length w h l
    rw [iv.n]; omega

theorem good_run {w : Nat} {kind : Nat → Kind} : ∀ {os h : List Op} {s : S}, Inv w kind h s →
    (∀ d ∈ items w (os.reverse ++ h), ∀ l, isDef l d.op → 0 < d.p) → Good (run w kind os s) := by
  intro os
  induction os with
  | nil => intro h s _ _; exact good_ok _
  | cons o os ih =>
    intro h s iv hpos
    have hsub : ∀ (a b : List Op), ∀ d ∈ items w b, d ∈ items w (a ++ b) := by
      intro a b d hd
      induction a with
      | nil => exact hd
      | cons x a iha => simp only [List.cons_append, items, List.mem_cons]; exact .inr iha
    have e : (o :: os).reverse ++ h = os.reverse ++ (o :: h) := by simp
    rw [e] at hpos
    have hp1 : ∀ d ∈ items w h, ∀ l, isDef l d.op → 0 < d.p :=
      fun d hd => hpos d (hsub _ _ d (by simp [items, hd]))
    simp only [run]
    refine good_bind (good_step iv o hp1) fun s1 h1 => ih (step_inv iv hp1 h1) hpos

/-- **C28, termination.** Resolving labels never loops and never reads or writes outside the buffer:
any sequence of operations ends in a complete state or in one of the error messages. -/
theorem C28_no_loop (w : Nat) (kind : Nat → Kind) (ops : List Op) (hpos : DefsPositive w ops) :
    (∃ s, run w kind ops S.init = .ok s) ∨ run w kind ops S.init = .fatal := by
  have : Good (run w kind ops S.init) := by
    refine good_run (h := []) (Inv.init w kind) ?_
    intro d hd l hdef
    simp only [List.append_nil] at hd
    obtain ⟨pre, post, e1, e2, _⟩ := items_inv w _ d hd
    rw [List.reverse_reverse] at e1
    rw [e2]
    exact hpos pre d.op post l e1 (by simpa [isDef] using hdef)
  cases hr : run w kind ops S.init with
  | ok s => exact .inl ⟨s, rfl⟩
  | fatal => exact .inr rfl
  | ub => exact absurd hr this.1
  | diverge => exact absurd hr this.2

def emitOps (bs : List Nat) : List Op := bs.map (fun (b : Nat) => Op.emit (b : Int))

theorem size_emitOps (w : Nat) (bs : List Nat) : size w (emitOps bs) = bs.length := by
  induction bs with
  | nil => rfl
  | cons b bs ih => simp [emitOps, size, size1] at *; omega

/-- `mov_reg_lbl` (x86.c:671-685): `call lbl_for_pc`, the definition of `lbl_for_pc`, `pop reg`,
`add reg, lbl` and `add reg, 8` (7 on i386). -/
def mov_reg_lbl (w reg pc l : Nat) : List Op :=
  [.emit 0xe8, .use pc, .defl pc] ++ emitOps (X86.pop_reg reg) ++
  emitOps (X86.add_reg_lbl_head w reg) ++ [.use l] ++
  emitOps (X86.add_reg_imm w reg (if w = 8 then 8 else 7))

/-- **C28, address of a label.** In the code of `mov_reg_lbl(reg, l)`, the call continues with the next
instruction, which pops its own address; with the displacement added by the `add reg, lbl`
instruction and the constant added by the last one, this is the address of the definition of `l`. -/
theorem C28_mov_reg_lbl (w : Nat) (hw : w = 4 ∨ w = 8) (kind : Nat → Kind) (reg pc l : Nat)
    (ops pre post pre' post' : List Op) (s : S)
    (hu : ops = pre ++ mov_reg_lbl w reg pc l ++ post) (hd : ops = pre' ++ .defl l :: post')
    (hpos : DefsPositive w ops) (hr : run w kind ops S.init = .ok s) :
    Encodes 4 0 (cells s.code (size w pre + 1) 4) ∧
    ∃ d, Encodes 4 d (cells s.code (size w pre + (if w = 8 then 9 else 8)) 4) ∧
      (size w pre + 5 : Int) + d + (if w = 8 then 8 else 7) = size w pre' := by
  have hpop : (X86.pop_reg reg).length = 1 := rfl
  have hhead : (X86.add_reg_lbl_head w reg).length = if w = 8 then 3 else 2 := by
    unfold X86.add_reg_lbl_head X86.rex_prefix X86.mod_rm
    rcases hw with rfl | rfl <;> rfl
  constructor
  · have := C28_use w kind ops s hpos hr pc (pre ++ [.emit 0xe8])
      ([.defl pc] ++ emitOps (X86.pop_reg reg) ++ emitOps (X86.add_reg_lbl_head w reg) ++ [.use l] ++
        emitOps (X86.add_reg_imm w reg (if w = 8 then 8 else 7)) ++ post)
      (pre ++ [.emit 0xe8, .use pc])
      (emitOps (X86.pop_reg reg) ++ emitOps (X86.add_reg_lbl_head w reg) ++ [.use l] ++
        emitOps (X86.add_reg_imm w reg (if w = 8 then 8 else 7)) ++ post)
      (by rw [hu]; simp [mov_reg_lbl]) (by rw [hu]; simp [mov_reg_lbl])
    simp only [size_append, size, size1] at this
    have e : ((size w pre + (1 + (4 + 0)) : Nat) : Int) - (((size w pre + (1 + 0) : Nat) : Int) + 4) = 0 := by
      omega
    rwa [e] at this
  · have := C28_use w kind ops s hpos hr l
      (pre ++ [.emit 0xe8, .use pc, .defl pc] ++ emitOps (X86.pop_reg reg) ++
        emitOps (X86.add_reg_lbl_head w reg))
      (emitOps (X86.add_reg_imm w reg (if w = 8 then 8 else 7)) ++ post) pre' post'
      (by rw [hu]; simp [mov_reg_lbl]) hd
    simp only [size_append, size_emitOps, size, size1, hpop, hhead] at this
    have e : size w pre + (1 + (4 + (0 + 0))) + 1 + (if w = 8 then 3 else 2) =
        size w pre + (if w = 8 then 9 else 8) := by
      rcases hw with rfl | rfl <;> simp <;> omega
    rw [e] at this
    refine ⟨_, this, ?_⟩
    rcases hw with rfl | rfl <;> simp <;> omega

end Verif.Code
