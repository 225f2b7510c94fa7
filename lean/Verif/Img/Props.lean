import Verif.Img.Proofs3
import Verif.Img.Enc2
/-! C49: the executable file, executed byte by byte, does what C says. -/
namespace Verif.Img
open Verif Verif.Gen Verif.X86 Verif.X86.Spec Verif.Cg Verif.Cg.Spec Verif.Code Verif.Sys Verif.Sys.Spec

section
variable {W : Type} {os : OS W} {C : Ctx} {L : Labels} {P : List Asm} {ga : Int} {mr : Bool} {ds : List Decl} (h : Compiled C.w L P ga mr ds)
include h

/-- **C49.** The code of a compiled program can be written to a file only if no label is defined twice; when the loader has read the file, every execution of the items of code (with the labels as
names of places) is an execution of the bytes in memory by the processor, with displacements and return addresses as numbers. -/
theorem C49_bytes {file : List Int} {m : Int → Nat} {entry : Int} (hf : executable C.w P = .ok file) (hl : Spec.ExecFile C.w file m entry) (hok : ∀ a ∈ P, Spec.Encodable C.w a)
    {s : MS} {σ : W} {n : Nat} {σ' : W} (hp : PSteps os C.w entry P (.run 0 s σ) (.done n σ')) : Spec.BSteps os C.w m (.run entry s σ) (.done n σ') := by
  have hpos : Code.Spec.DefsPositive C.w (codeOps C.w P) := by rw [h.code]; exact pos_of_jmp
  obtain ⟨st, hm, -⟩ := inMem_of_file h.w48 hpos hf hl hok
  have := hm.psteps hp
  rwa [show down C.w entry P (.run 0 s σ) = .run entry s σ by simp [down, adr]] at this

/-- **C49, encodings.** The instructions that the compiler chooses for a program always exist on the machine (their registers and condition codes are those of registers and conditions); so the items of
code can be encoded as soon as the numbers in them fit in their fields. -/
theorem C49_encodable {mm : Nat → List Nat} {Γ : Cg.Env} {ts : List Top} {l0 l1 : Nat} (hgen : genTops C.w C.T mm Γ ts l0 = .ok (ds, l1)) (hs : ∀ a ∈ P, Spec.Small a) : ∀ a ∈ P, Spec.Encodable C.w a := by
  intro a ha
  have hq : AQ C.w P := by
    rw [h.code]
    simp only [program, AQ_append, AQ_cons, AQ_nil, and_true]
    exact ⟨by simp [Spec.Encodable], enc_decls (enc_tops h.w48 hgen), enc_end h.w48 L ga mr⟩
  exact hq a ha (hs a ha)

/-- **C49 with C26, C28, C29, C30, C31, C35, C44.** The file that the compiler writes for a C program of the fragment, loaded and started at its entry point, asks the system for just what C says and ends with the
status that C says; no other end is possible. -/
theorem C49_executable_partial {file : List Int} {entry : Int} {p : Program} {lab : Nat → Nat} {what : Nat → Option LibFn} {mm : Nat → List Nat} {ts : List Top} {l0 l1 : Nat} {f : Nat} {r : CTy} {s : MS}
    {σ σ1 : W} {sp G H v : Int} {M M1 M' : Mem} {vs : List Int}
    (hf : executable C.w P = .ok file) (hl : Spec.ExecFile C.w file s.mem entry) (hsm : ∀ a ∈ P, Spec.Small a)
    (hgen : genTops C.w C.T mm (envOf p lab) ts l0 = .ok (ds, l1)) (hfuns : p.funs = funsOf ts) (hG : p.InSpace C G)
    (hsup : Supported C p lab) (hsupI : SupTops C mm (envOf p lab) p.kind ts = true) (hd : Declares p lab L what) (hlib : C.lib = library os σ1 C.w G what)
    (hfm : p.kind f = some (.fn r)) (hlab : lab f = L.main) (hr : mr = true → r ≠ .void)
    (hga : 2 * C.w ≤ ga ∧ ga < 2147483648) (hs : Started C.w sp s) (hg : Given os C.w sp ga σ G H σ1)
    (hvs : vs = [] ∨ vs = [Sys.Spec.word C.w s.mem sp, sp + C.w])
    (hM : MemOk C sp M) (hio : M.io = []) (hargc : ∀ a, sp ≤ a → a < sp + C.w → M a = none)
    (hstr : StrAt C entry P)
    (hbytes : ∀ a b, M a = some (some b) → (G ≤ a ∧ a < G + 2 * C.w ∧ b = heapByte C.w G H a) ∨ (G + 2 * C.w ≤ a ∧ a < G + ga ∧ b = 0) ∨ OtherByte C.w sp ga G H entry P s.mem a b)
    (hinit : Initialises C p mm G sp ts M M1) (hcall : p.calls C G f vs (sp - 2 * C.w) M1 v M') :
    Spec.BSteps os C.w s.mem (.run entry s σ) (.done (if mr then (v % 256).toNat else 0) (world os σ1 M'.io)) ∧
    ∀ n σ', Spec.BSteps os C.w s.mem (.run entry s σ) (.done n σ') → n = (if mr then (v % 256).toNat else 0) ∧ σ' = world os σ1 M'.io := by
  have hok := C49_encodable h hgen hsm
  have hpos : Code.Spec.DefsPositive C.w (codeOps C.w P) := by rw [h.code]; exact pos_of_jmp
  obtain ⟨st, hm, -⟩ := inMem_of_file h.w48 hpos hf hl hok
  have hp := C44_c_program_init_partial (base := entry) h (uniq_of_asm hpos hm.asm) hm.nonneg hm.fit hgen hfuns hG hsup hsupI hd hlib hfm hlab hr hga hs hg hvs hM hio hargc hstr (hm.image hok) hbytes hinit hcall
  have hb := C49_bytes h hf hl hok hp
  exact ⟨hb, fun n σ' h2 => bsteps_det h.w48 h2 hb⟩

end
end Verif.Img
