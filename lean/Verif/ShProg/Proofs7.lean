import Verif.ShProg.Proofs6
import Verif.Frame.Props
/-! Calls of functions. -/
namespace Verif.ShProg
open Verif Verif.Stmt Verif.Frame Verif.ShProg.Spec
open Verif.Hoist (Expr Args Rv Dest Cmd Machine obind omap)

variable {L : Lang}

/-- The body of a function does not end with `break` or `continue`. -/
theorem top_out {σ : Type} {locals : Bool} {params : List Nat} {b : Sts} {ls : List Line} (hok : b.ok = true) (h : comp_glo_fun_decl locals params (.block b) = .ok ls) (I : Interp σ) (n : Nat) (s s' : σ) (o : CO)
    (hx : cseq I n b s = some (o, s')) : o = .norm ∨ o = .ret := by
  simp only [comp_glo_fun_decl] at h
  rw [Res.bind_eq_ok] at h
  obtain ⟨⟨t, tail', l⟩, h1, h⟩ := h
  cases hb : b.isNil with
  | true =>
    cases b with
    | nil => simp only [cseq, Option.some.injEq, Prod.mk.injEq] at hx; exact .inl hx.1.symm
    | cons => simp [Sts.isNil] at hb
  | false =>
    obtain ⟨_, _, c, hl, hw, hr⟩ := seq_sound I b hok false [] (by simp [nearSw]) true t tail' l h1 hb
    have := hr n s
    rw [hx] at this
    cases o with
    | norm => exact .inl rfl
    | ret => exact .inr rfl
    | brk => exact this.elim
    | cont => exact this.elim

theorem findIdx_nodup : ∀ (l : List Nat) (i : Nat) (p : Nat), l.Nodup → l[i]? = some p → l.findIdx? (· == p) = some i := by
  intro l
  induction l with
  | nil => intro i p _ h; simp at h
  | cons a r ih =>
    intro i p hn h
    simp only [List.nodup_cons] at hn
    rw [List.findIdx?_cons]
    cases i with
    | zero =>
      simp only [List.getElem?_cons_zero, Option.some.injEq] at h
      subst h; simp
    | succ i =>
      simp only [List.getElem?_cons_succ] at h
      have : a ≠ p := fun e => hn.1 (e ▸ List.mem_of_getElem? h)
      simp [this, ih i p hn.2 h]

/-- `Ok` at the end of the body, whatever `r` is in the variable of the result. -/
theorem Ok.retOk {vars : List Name} {s0 : Store} {ret : Name} {S : Sh L.X} {w : CW L.X} (h : Ok vars s0 S w) : RetOk vars s0 ret S (S.s ret) w.g :=
  ⟨rfl, by rw [← h.glob]; exact (gset_same S).symm, fun y hy hn _ => h.others y hy hn, h.sp, h.stack⟩

theorem mem_params {f : Fn} {others : List Nat} (hw : f.vars.locals_fun = (others.map fun x => (x, false)).reverse ++ (f.params.map fun x => (x, true)).reverse) {p : Nat} (hp : p ∈ f.params) : Name.loc p ∈ pushed f := by
  rw [pushed_eq hw]
  simp [hp]

theorem call_ok {P : Nat → Option FDef} {Q : Nat → Option CFn} (hs : Spec.Script P Q) (n : Nat) : ∀ d, CallOK (May L P d) (scall L Q n d) := by
  intro d
  induction d with
  | zero => intro k args ret S S' _ h; cases h
  | succ d ih =>
    intro k args ret S S' hret h
    obtain ⟨n1, n2, n3⟩ := isVar_ne hret
    cases hq : Q k with
    | none =>
      simp only [scall, hq] at h
      obtain ⟨⟨v, g⟩, h1, h2⟩ := omap h
      have hp := hs.none k hq
      cases v with
      | none =>
        simp only [setRes] at h2
        subst h2
        refine ⟨(putG S g).s ret, g, ?_, rfl, ?_, ?_, ?_, ?_⟩
        · simp only [May, hp]; exact ⟨none, h1, by simp⟩
        · have := gset_same (x := ret) (putG S g)
          rw [getG_putG] at this
          rw [getG_putG]; exact this.symm
        · intro y hy _; exact putG_other S g (by cases y <;> simp_all [Name.own, Name.isGlob])
        · exact putG_other S g rfl
        · intro i _; exact putG_other S g rfl
      | some v =>
        simp only [setRes] at h2
        subst h2
        refine ⟨v, g, ?_, ?_, ?_, ?_, ?_, ?_⟩
        · simp only [May, hp]; exact ⟨some v, h1, by simp⟩
        · simp [Sh.set, Frame.set]
        · rw [getG_set, getG_putG]
        · intro y hy hne
          simp only [Sh.set, Frame.set, hne, if_false]
          exact putG_other S g (by cases y <;> simp_all [Name.own, Name.isGlob])
        · simp only [Sh.set, Frame.set, n1.symm, if_false]; exact putG_other S g rfl
        · intro i _
          simp only [Sh.set, Frame.set, (n3 i).symm, if_false]; exact putG_other S g rfl
    | some f =>
      simp only [scall, hq] at h
      obtain ⟨fd, N, hp, hc, hok, hfr⟩ := hs.some k f hq
      have hw : f.frame.wf := C12_table f.frame fd.vars (by show f.params.Nodup; rw [hc.params]; exact hc.nodup) (by
        show f.vars.locals_fun = _
        rw [hc.vars]; show _ = fd.vars.foldl _ (f.params.foldl _ []); rw [hc.params])
      -- the code is what C13 describes
      obtain ⟨code, e1, _, _, hfun⟩ := C13_function_partial f.locals [] f.body _ hok hc.lines
      have := C13_lines_unique _ _ _ _ e1
      subst this
      have hf2 := hfun (Sh L.X) (shI (scall L Q n d) f args ret) (by intro hl; simp [shI, hl]) n S
      rw [hf2] at h
      simp only [cfun, Interp.acts, Option.bind_some] at h
      obtain ⟨⟨o, S2⟩, h1, h2⟩ := omap h
      simp only at h2
      -- on entry
      have hn := pushed_nodup hw
      obtain ⟨l1, l2, l3, l4, l5⟩ := lets_spec (entry f.frame args) S.s
        (fun p hp => pushed_own hw (by rw [← entry_fst f.frame args]; exact List.mem_map_of_mem hp)) (by rw [entry_fst]; exact hn)
      rw [entry_fst] at l3 l4
      have hlen : (entry f.frame args).length = (pushed f.frame).length := by rw [← entry_fst f.frame args]; simp
      have hs1 : (shI (scall L Q n d) f args ret).save S = { S with s := lets (entry f.frame args) S.s } := by
        simp only [shI]
        cases hl : f.locals with
        | true => simp [enter_eq]
        | false =>
          have := no_locals hw hl
          have he : entry f.frame args = [] := List.eq_nil_of_length_eq_zero (by rw [hlen, this]; rfl)
          simp [he, lets]
      rw [hs1] at h1
      have hvars : ∀ y, y ∈ restore_local_vars f.vars ↔ y ∈ pushed f.frame := fun y => by
        rw [show restore_local_vars f.vars = restore_local_vars f.frame.vars from rfl, restore_eq hw]; simp
      have hglob : ∀ i, lets (entry f.frame args) S.s (.glob i) = S.s (.glob i) := fun i =>
        l4 _ (fun hm => absurd (pushed_own hw hm) (by simp [Name.own])) (by simp) (by simp)
      have init : Ok (restore_local_vars f.vars) (lets (entry f.frame args) S.s) (⟨lets (entry f.frame args) S.s, S.x⟩ : Sh L.X) ⟨fun i => lets (entry f.frame args) S.s (.loc i), getG S⟩ := by
        refine ⟨fun _ _ => rfl, ?_, fun _ _ _ => rfl, rfl, fun _ _ => rfl⟩
        simp only [getG, gv, mc, hglob]
      -- the body
      obtain ⟨body', hb⟩ : ∃ b, f.body = .block b := by
        have := hc.body
        simp only [num] at this
        obtain ⟨⟨b, t⟩, _, hb⟩ := Res.bind_eq_ok.1 this
        simp only [Res.ok.injEq, Prod.mk.injEq] at hb
        exact ⟨b, hb.1.symm⟩
      have hel : El N f.tab (.block fd.body) f.body := (num_el _ _ _ _ hc.body).2 _ .refl
      obtain ⟨o', w', ex, en⟩ := exec_sim (s0 := lets (entry f.frame args) S.s) (args := args) ⟨ih, hc.scope, hret⟩ (.block fd.body) f.body hel (by simpa [Spec.frag] using hfr) _ _ _ _ init h1
      have hout : o = .norm ∨ o = .ret := by
        rw [hb] at h1 hok
        have hl := hc.lines
        rw [hb] at hl
        simp only [cexec] at h1
        exact top_out (by simpa [St.ok] using hok) hl _ _ _ _ _ h1
      have hret' : ∃ r, Result o' r ∧ RetOk (restore_local_vars f.vars) (lets (entry f.frame args) S.s) ret S2 r w'.g := by
        rcases hout with rfl | rfl
        · obtain ⟨rfl, ok2⟩ := en.norm
          exact ⟨S2.s ret, trivial, ok2.retOk⟩
        · obtain ⟨v, rfl⟩ := en.ret
          cases v with
          | none => exact ⟨S2.s ret, trivial, Ok.retOk en⟩
          | some v => exact ⟨v, rfl, en⟩
      obtain ⟨r, hr, ro⟩ := hret'
      have hmay : May L P (d + 1) k args (getG S) r w'.g := by
        simp only [May, hp]
        refine ⟨_, o', w', ?_, ex, rfl, hr⟩
        intro i p a hi ha
        have hi' : f.frame.params[i]? = some p := by show f.params[i]? = _; rw [hc.params]; exact hi
        have hm : Name.loc p ∈ pushed f.frame := by
          obtain ⟨_, others, _, e⟩ := hw
          exact mem_params e (List.mem_of_getElem? hi')
        show lets (entry f.frame args) S.s (.loc p) = a
        rw [entry_val hw args S.s S.s hm]
        simp only [start, findIdx_nodup _ _ _ (by show f.params.Nodup; rw [hc.params]; exact hc.nodup) hi', List.getD, ha, Option.getD_some]
      refine ⟨r, w'.g, ?_⟩
      subst h2
      cases hl : f.locals with
      | false =>
        have hnil := no_locals hw hl
        have he : entry f.frame args = [] := List.eq_nil_of_length_eq_zero (by rw [hlen, hnil]; rfl)
        simp only [shI, hl, Bool.false_eq_true, if_false, id_eq]
        rw [he] at ro
        simp only [lets, List.foldl_nil] at ro
        refine ⟨hmay, ro.result, ro.glob, fun y hy hne => ro.others y hy ?_ hne, ro.sp, ro.stack⟩
        rw [hvars, hnil]; simp
      | true =>
        simp only [shI, hl, if_true]
        obtain ⟨p1, p2, p3, p4⟩ := endlet_own hw ret hret (S.s .sp) S.s S2.s (by rw [ro.sp, l1, hlen])
          (cells_mono _ _ _ _ (fun k hk1 hk2 => ro.stack k (by rw [l1, hlen]; exact hk2)) (fun _ _ => rfl) l3)
        have hg : ∀ i, endlet ret (restore_local_vars f.vars) S2.s (.glob i) = S2.s (.glob i) := by
          intro i
          by_cases hgr : Name.glob i = ret
          · rw [hgr]; exact p4
          · exact p3 _ (fun hm => absurd (pushed_own hw hm) (by simp [Name.own])) hgr (by simp) (by simp)
        refine ⟨hmay, p4.trans ro.result, ?_, ?_, p1, ?_⟩
        · rw [← ro.glob]
          simp only [getG, gv, mc, hg]
        · intro y hy hne
          by_cases hm : y ∈ pushed f.frame
          · exact p2 y hm hne
          · have := p3 y hm hne (own_ne_sp hy) (own_ne_tmp hy)
            refine this.trans ?_
            rw [ro.others y hy (by rw [hvars]; exact hm) hne, l4 y hm (own_ne_stk hy) (own_ne_sp hy)]
        · intro i hi
          refine (p3 _ (fun hm => absurd (pushed_own hw hm) (by simp [Name.own])) (n3 i).symm (by simp) (by simp)).trans ?_
          rw [ro.stack i (by rw [l1]; omega), l2 i hi]

end Verif.ShProg
