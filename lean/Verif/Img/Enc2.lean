import Verif.Img.Enc
import Verif.Sys.Props
/-! Every item of a compiled program can be encoded if its numbers fit. -/
namespace Verif.Img
open Verif Verif.Gen Verif.X86 Verif.X86.Spec Verif.Cg Verif.Sys Verif.Rt
open Spec (SmallE Small)

theorem AQ_fun {w : Nat} (hw : w = 4 ∨ w = 8) {T : Tags} {Γ : Env} {f : Fun} {l : Nat} {c : List Asm} {l' : Nat} (h : codegen_glo_fun_decl w T Γ f l = .ok (c, l')) : AQ w c := by
  unfold codegen_glo_fun_decl at h
  repeat' split at h
  all_goals first
    | (cases h; done)
    | (simp only [Res.bind_eq_ok, Res.ok.injEq, Prod.mk.injEq] at h
       obtain ⟨ls, _, ⟨c1, f1, l1, s1⟩, h1, rfl, rfl⟩ := h
       have := (enc_stmt hw T _).1 _ _ _ _ _ _ _ _ h1
       have R4 := regOk hw (r := 4) (by decide)
       simp [grow_stack, AQ_append, AQ_cons, AQ_nil, AQ_I, IQ_cons, IQ_nil, Small, SmallE, Spec.Encodable, Emit.ok, this, R4])

theorem IQ_string {w : Nat} (hw : w = 4 ∨ w = 8) : ∀ {n : Nat} {off : Int} {bs : List Nat} {c : List Emit}, string_code w off bs n = .ok c → IQ w c
  | 0, off, bs, c, h => by simp [string_code] at h; subst h; simp [IQ]
  | n + 1, off, bs, c, h => by
    simp only [string_code, Res.bind_eq_ok, Res.ok.injEq] at h
    obtain ⟨st, h1, r, h2, rfl⟩ := h
    have q1 := IQ_write hw h1 (by decide)
    have q2 := IQ_string hw h2
    have R0 := regOk hw (r := 0) (by decide)
    simp only [IQ_append, IQ_cons, IQ_nil, q1, q2, and_true]
    exact fun h => ⟨R0, h⟩

theorem AQ_scalar {w : Nat} (hw : w = 4 ∨ w = 8) {T : Tags} {Γ : Env} {e : E} {t : CTy} {off : Int} {l : Nat} {c : List Asm} {l' : Nat} (h : scalar_code w T Γ e t off l = .ok (c, l')) : AQ w c := by
  simp only [scalar_code, Res.bind_eq_ok, Res.ok.injEq, Prod.mk.injEq] at h
  obtain ⟨⟨c1, f1, l1⟩, h1, k, _, st, h2, rfl, rfl⟩ := h
  have q1 := (enc_expr hw T _ _).1 _ _ _ _ _ h1
  have q2 := IQ_write hw h2 (by decide)
  have R0 := regOk hw (r := 0) (by decide)
  simp [AQ_append, AQ_I, IQ_cons, IQ_nil, Emit.ok, q1, q2, R0]

theorem enc_ini {w : Nat} (hw : w = 4 ∨ w = 8) (T : Tags) (mm : Nat → List Nat) (Γ : Env) (i : Ini) :
    (∀ t off l c l', init_code w T mm Γ i t off l = .ok (c, l') → AQ w c) ∧
    (∀ e k n off l c l', init_elems w T mm Γ i e k n off l = .ok (c, l') → AQ w c) ∧
    (∀ tag ms off l c l', init_members w T mm Γ i tag ms off l = .ok (c, l') → AQ w c) ∧
    (∀ tag ms off l c l', init_union w T mm Γ i tag ms off l = .ok (c, l') → AQ w c) ∧
    (∀ t off l c l', init_scalar w T mm Γ i t off l = .ok (c, l') → AQ w c) := by
  induction i with
  | expr e =>
    refine ⟨?_, ?_, ?_, ?_, ?_⟩ <;> intros <;> rename_i h
    · simp only [init_code] at h
      repeat' split at h
      all_goals first | (cases h; done) | exact AQ_scalar hw h
    · simp [init_elems] at h
    · simp [init_members] at h
    · simp [init_union] at h
    · simp [init_scalar] at h
  | str k bs =>
    refine ⟨?_, ?_, ?_, ?_, ?_⟩ <;> intros <;> rename_i h
    · simp only [init_code] at h
      repeat' split at h
      all_goals first
        | (cases h; done)
        | exact AQ_scalar hw h
        | (simp only [Res.bind_eq_ok, Res.ok.injEq, Prod.mk.injEq] at h
           obtain ⟨c1, h1, rfl, rfl⟩ := h
           exact (AQ_I w _).2 (IQ_string hw h1))
    · simp [init_elems] at h
    · simp [init_members] at h
    · simp [init_union] at h
    · simp [init_scalar] at h
  | list is ih =>
    refine ⟨?_, ?_, ?_, ?_, ?_⟩ <;> intros <;> rename_i h
    · simp only [init_code] at h
      split at h
      · simp only [Res.bind_eq_ok] at h
        obtain ⟨k, _, h⟩ := h
        exact ih.2.1 _ _ _ _ _ _ _ h
      · exact ih.2.2.1 _ _ _ _ _ _ h
      · exact ih.2.2.2.1 _ _ _ _ _ _ h
      · exact ih.2.2.2.2 _ _ _ _ _ h
    · simp [init_elems] at h
    · simp [init_members] at h
    · simp [init_union] at h
    · simp [init_scalar] at h
  | nil =>
    refine ⟨?_, ?_, ?_, ?_, ?_⟩ <;> intros <;> rename_i h
    · simp [init_code] at h
    · simp only [init_elems, Res.ok.injEq, Prod.mk.injEq] at h; rw [← h.1]; simp [AQ]
    · simp only [init_members, Res.ok.injEq, Prod.mk.injEq] at h; rw [← h.1]; simp [AQ]
    · simp [init_union] at h
    · simp [init_scalar] at h
  | cons x is ihx ihs =>
    refine ⟨?_, ?_, ?_, ?_, ?_⟩ <;> intros <;> rename_i h
    · simp [init_code] at h
    · simp only [init_elems] at h
      split at h
      · cases h
      · simp only [Res.bind_eq_ok, Res.ok.injEq, Prod.mk.injEq] at h
        obtain ⟨⟨c1, l1⟩, h1, ⟨c2, l2⟩, h2, rfl, rfl⟩ := h
        exact (AQ_append _ _ _).2 ⟨ihx.1 _ _ _ _ _ h1, ihs.2.1 _ _ _ _ _ _ _ h2⟩
    · simp only [init_members] at h
      split at h
      · simp only [Res.ok.injEq, Prod.mk.injEq] at h; rw [← h.1]; simp [AQ]
      · split at h
        · cases h
        · simp only [Res.bind_eq_ok, Res.ok.injEq, Prod.mk.injEq] at h
          obtain ⟨⟨c1, l1⟩, h1, k, _, ⟨c2, l2⟩, h2, rfl, rfl⟩ := h
          exact (AQ_append _ _ _).2 ⟨ihx.1 _ _ _ _ _ h1, ihs.2.2.1 _ _ _ _ _ _ h2⟩
    · cases is with
      | nil =>
        simp only [init_union] at h
        repeat' split at h
        all_goals first | (cases h; done) | exact ihx.1 _ _ _ _ _ h
      | _ => simp [init_union] at h
    · cases is with
      | nil =>
        cases x with
        | expr e => simp only [init_scalar] at h; exact AQ_scalar hw h
        | str k bs => simp only [init_scalar] at h; exact AQ_scalar hw h
        | _ => simp [init_scalar] at h
      | _ => simp [init_scalar] at h

/-- The code of every declaration. -/
def DQ (w : Nat) (ds : List Decl) : Prop := ∀ d ∈ ds, match d with | .code c => AQ w c | .init _ c => AQ w c

theorem enc_tops {w : Nat} (hw : w = 4 ∨ w = 8) {T : Tags} {mm : Nat → List Nat} {Γ : Env} : ∀ {ts : List Top} {l : Nat} {ds : List Decl} {l' : Nat}, genTops w T mm Γ ts l = .ok (ds, l') → DQ w ds
  | [], l, ds, l', h => by simp [genTops] at h; rw [h.1]; simp [DQ]
  | .fn f :: ts, l, ds, l', h => by
    simp only [genTops, Res.bind_eq_ok, Res.ok.injEq, Prod.mk.injEq] at h
    obtain ⟨⟨c, l1⟩, h1, ⟨ds1, l2⟩, h2, rfl, rfl⟩ := h
    have := enc_tops hw h2
    simp only [DQ, List.mem_cons, forall_eq_or_imp]
    exact ⟨AQ_fun hw h1, this⟩
  | .var x t none :: ts, l, ds, l', h => by
    simp only [genTops] at h
    exact enc_tops hw h
  | .var x t (some i) :: ts, l, ds, l', h => by
    simp only [genTops] at h
    split at h
    · cases h
    · simp only [Res.bind_eq_ok, Res.ok.injEq, Prod.mk.injEq] at h
      obtain ⟨⟨c, l1⟩, h1, ⟨ds1, l2⟩, h2, rfl, rfl⟩ := h
      have := enc_tops hw h2
      simp only [DQ, List.mem_cons, forall_eq_or_imp]
      exact ⟨(enc_ini hw T mm Γ i).1 _ _ _ _ _ h1, this⟩

theorem enc_decls {w : Nat} : ∀ {ds : List Decl} {n : Nat}, DQ w ds → AQ w (genDecls n ds).1
  | [], n, h => by simp [genDecls, AQ]
  | .code c :: ds, n, h => by
    simp only [DQ, List.mem_cons, forall_eq_or_imp] at h
    have := enc_decls (n := n) h.2
    simp [genDecls, AQ_append, this, h.1]
  | .init l c :: ds, n, h => by
    simp only [DQ, List.mem_cons, forall_eq_or_imp] at h
    have := enc_decls (n := l) h.2
    simp [genDecls, AQ_append, AQ_cons, Spec.Encodable, this, h.1, AQ_nil]

theorem enc_end {w : Nat} (hw : w = 4 ∨ w = 8) (L : Labels) (ga : Int) (mr : Bool) : AQ w (codegen_end w L ga mr) := by
  have hdbg : ∀ msg, IQ w (rt_crash w msg) := by
    intro msg
    have hp : IQ w (rt_putchar w) := by
      rcases hw with rfl | rfl <;> simp [rt_putchar, os_write, syscall_3, movOpt, IQ_append, IQ_cons, IQ_nil, SmallE, Emit.ok, Reg]
    have hx : IQ w (os_exit w) := by
      rcases hw with rfl | rfl <;> simp [os_exit, syscall_3, movOpt, IQ_append, IQ_cons, IQ_nil, SmallE, Emit.ok, Reg]
    have R0 := regOk hw (r := 0) (by decide)
    have h1 : IQ w (msg.flatMap (fun (c : Nat) => [Emit.mov_reg_imm 0 (c : Int)] ++ rt_putchar w)) := by
      induction msg with
      | nil => simp [IQ]
      | cons c cs ih =>
        rw [List.flatMap_cons]
        simp only [IQ_append, IQ_cons, IQ_nil, hp, ih, and_true]
        exact fun h => ⟨R0, h⟩
    simp only [rt_crash, rt_debug, IQ_append, IQ_cons, IQ_nil, hp, hx, h1, true_and, and_true]
    exact fun h => ⟨R0, h⟩
  have hm := hdbg heapMsg
  have hp := hdbg printfMsg
  rcases hw with rfl | rfl <;> cases mr <;>
    simp [codegen_end, setupCode, mainCode, readFn, writeFn, openFn, closeFn, seekFn, unlinkFn, putcharFn, getcharFn, fopenFn, fgetcFn, printfFn, malloc, free, rt_malloc, rt_fgetc, rt_fopen, rt_putchar,
      setup_proc_args, args3, os_allocate_memory, os_exit, os_read, os_write, os_open, os_close, os_seek, os_unlink, syscall_3, movOpt, jump_cond_reg_reg, mov_reg_mem, mov_mem_reg, RT_HEAP_SIZE,
      AQ_append, AQ_cons, AQ_nil, AQ_I, IQ_append, IQ_cons, IQ_nil, Small, SmallE, Spec.Encodable, Emit.ok, Reg, I32, hm, hp]

end Verif.Img
