import Verif.Cli.Spec
import Verif.Inc.Stream
/-! Proofs for the command line. -/
namespace Verif.Cli
open Verif Verif.Inc

/-! ## Tables -/

theorem sets_notin {n : Name} : ∀ (l : List (Name × Entry)) (tab : Tab), (∀ p ∈ l, p.1 ≠ n) → tab.sets l n = tab n := by
  intro l
  induction l with
  | nil => intro tab _; rfl
  | cons p r ih =>
    intro tab h
    obtain ⟨m, e⟩ := p
    rw [Tab.sets, ih _ (fun p hp => h p (List.mem_cons_of_mem _ hp)), Tab.set, if_neg]
    intro e; exact h _ (List.mem_cons_self ..) e.symm

theorem sets_mem {n : Name} {e : Entry} : ∀ (l : List (Name × Entry)) (tab : Tab), (l.map (·.1)).Nodup → (n, e) ∈ l → tab.sets l n = e := by
  intro l
  induction l with
  | nil => intro tab _ h; cases h
  | cons p r ih =>
    intro tab hn h
    obtain ⟨m, e'⟩ := p
    rw [List.map_cons, List.nodup_cons] at hn
    rw [Tab.sets]
    rcases List.mem_cons.1 h with h | h
    · cases h
      rw [sets_notin, Tab.set, if_pos rfl]
      intro p hp e
      exact hn.1 (List.mem_map.2 ⟨p, hp, e⟩)
    · exact ih _ hn.2 h

theorem sets_append (a b : List (Name × Entry)) : ∀ tab : Tab, (tab.sets a).sets b = tab.sets (a ++ b) := by
  induction a with
  | nil => intro tab; rfl
  | cons p r ih => intro tab; exact ih _

/-- All the entries. -/
def inits (t : Target) : List (Name × Entry) :=
  keywordInits.map (fun n => (n, Entry.keyword)) ++ (identInits.map (fun n => (n, Entry.ident)) ++ (commonInits.map (fun p => (p.1, Entry.macro p.2)) ++
    (targetInits t).map fun p => (p.1, Entry.macro p.2)))

theorem initTab_eq (t : Target) : initTab t = noTab.sets (inits t) := by
  rw [initTab, sets_append, sets_append, sets_append]; rfl

theorem inits_nodup (t : Target) : ((inits t).map (·.1)).Nodup := by
  cases t <;> decide +kernel

theorem initTab_iff (t : Target) (n : Name) (e : Entry) (he : e ≠ .ident) : initTab t n = e ↔ (n, e) ∈ inits t := by
  rw [initTab_eq]
  constructor
  · intro h
    by_cases hm : ∃ p ∈ inits t, p.1 = n
    · obtain ⟨⟨m, e'⟩, hp, rfl⟩ := hm
      rw [sets_mem _ _ (inits_nodup t) hp] at h
      rw [← h]; exact hp
    · rw [sets_notin _ _ (fun p hp e => hm ⟨p, hp, e⟩)] at h
      exact absurd h.symm he
  · exact sets_mem _ _ (inits_nodup t)

theorem initial (t : Target) : Spec.Initial t (initTab t) := by
  constructor
  · intro n
    rw [initTab_iff t n _ (by simp), inits]
    have : keywordInits = Spec.keywords := rfl
    simp [this]
  · intro n v
    rw [initTab_iff t n _ (by simp), inits]
    have : Spec.predefined t = commonInits ++ targetInits t := by cases t <;> rfl
    simp [this]

/-! ## `-D` -/

theorem splitEq_no {n : List Nat} (h : 61 ∉ n) : splitEq n = (n, []) := by
  induction n with
  | nil => rfl
  | cons c r ih =>
    simp at h
    rw [splitEq, if_neg (Ne.symm h.1), ih h.2]

theorem splitEq_eq {n : List Nat} (h : 61 ∉ n) (s : List Nat) : splitEq (n ++ 61 :: s) = (n, 61 :: s) := by
  induction n with
  | nil => rfl
  | cons c r ih =>
    simp at h
    rw [List.cons_append, splitEq, if_neg (Ne.symm h.1), ih h.2]

theorem untilQuote_some {s : List Nat} (h : 34 ∉ s) (r : List Nat) : untilQuote (s ++ 34 :: r) = some s := by
  induction s with
  | nil => rfl
  | cons c t ih =>
    simp at h
    rw [List.cons_append, untilQuote, if_neg (Ne.symm h.1), ih h.2]; rfl

theorem untilQuote_none {s : List Nat} (h : 34 ∉ s) : untilQuote s = none := by
  induction s with
  | nil => rfl
  | cons c t ih =>
    simp at h
    rw [untilQuote, if_neg (Ne.symm h.1), ih h.2]; rfl

theorem decimal_append {s : List Nat} {k : Nat} (h : Spec.Decimal s k) : k < 2 ^ 31 → ∀ r, decimal 0 (s ++ r) = decimal k r := by
  induction h with
  | @one d hd =>
    intro _ r
    rw [List.singleton_append, decimal, if_pos (by omega), if_neg (by omega)]
    congr 1; omega
  | @more s n d _ hd ih =>
    intro hk r
    rw [List.append_assoc, ih (by omega), List.singleton_append, decimal, if_pos (by omega), if_neg (by omega)]
    congr 1; omega

theorem decimal_cons {s : List Nat} {k : Nat} (h : Spec.Decimal s k) : ∃ c t, s = c :: t ∧ 48 ≤ c ∧ c ≤ 57 := by
  induction h with
  | @one d hd => exact ⟨_, _, rfl, by omega, by omega⟩
  | more _ _ ih => obtain ⟨c, t, rfl, h⟩ := ih; exact ⟨c, _, rfl, h⟩

theorem defText_ok {s : List Nat} {n : Name} {v : Val} (h : Spec.DefText s n v) : handle_macro_D s = .ok (n, v) ∧ s ≠ [] := by
  cases h with
  | one h hn => exact ⟨by rw [handle_macro_D, splitEq_no h], hn⟩
  | empty h hn => exact ⟨by rw [handle_macro_D, splitEq_eq h], by simp⟩
  | @int n s k h hn hd _ hk =>
    refine ⟨?_, by simp⟩
    obtain ⟨c, t, rfl, hc⟩ := decimal_cons hd
    rw [handle_macro_D, splitEq_eq h]
    dsimp only
    have := decimal_append hd hk []
    rw [List.append_nil] at this
    rw [if_neg (by omega), if_pos hc, this]
    rfl
  | @str n s h hn hs _ =>
    refine ⟨?_, by simp⟩
    rw [handle_macro_D, splitEq_eq h]
    dsimp only
    rw [if_pos rfl, untilQuote_some hs]

/-! ## One option -/

/-- A source file is opened. -/
def push (f : Path) (content : List Nat) (st : Inc.St) : Inc.St :=
  let below := match st.stack with
    | [] => []
    | f :: r => { f with line := st.line_number, column := st.column_number } :: r
  ⟨⟨content, file_parent_directory f, f, 1, 0⟩ :: below, f, 1, 1⟩

/-- The effect of an option. -/
def apply (st : St) : Spec.Opt → St
  | .define n v => { st with tab := st.tab.set n (.macro v) }
  | .undef n => { st with tab := st.tab.set n .ident }
  | .search d => { st with search := some d }
  | .output f => openOut f st
  | .file f => { st with inc := push f ((st.fs f).getD []) st.inc }

/-- The option can be taken. -/
def Can (st : St) : Spec.Opt → Prop
  | .search _ => st.search = none
  | .file f => st.fs f ≠ none
  | _ => True

theorem options_used {sh : Bool} {a b : Path} {rest : List Path} {st st' : St} (h : option sh a (some b) st = .ok (st', true)) :
    options sh (a :: b :: rest) st = options sh rest st' := by
  rw [options, h, Res.bind_ok]; rfl

theorem options_one {sh : Bool} {a : Path} {rest : List Path} {st st' : St} (h : ∀ next, option sh a next st = .ok (st', false)) :
    options sh (a :: rest) st = options sh rest st' := by
  cases rest with
  | nil => show (option sh a none st).bind _ = _; rw [h, Res.bind_ok]; rfl
  | cons b rest => rw [options, h, Res.bind_ok]; rfl

theorem options_fatal {sh : Bool} {a : Path} {rest : List Path} {st : St} (h : ∀ next, (next = none → rest = []) → option sh a next st = .fatal) :
    options sh (a :: rest) st = .fatal := by
  cases rest with
  | nil => show (option sh a none st).bind _ = _; rw [h _ (by simp)]; rfl
  | cons b rest => rw [options, h _ (by simp)]; rfl

/-- An operand that is attached or not. -/
theorem attach_ok {sh : Bool} {letter : Nat} {s : List Nat} {as : List Path} (h : Spec.Attach letter s as) {st st' : St}
    (hk : ∀ opnd next used, operand opnd next = some (s, used) → option sh (45 :: letter :: opnd) next st = .ok (st', used)) (rest : List Path) :
    options sh (as ++ rest) st = options sh rest st' := by
  cases h with
  | one hs =>
    refine options_one fun next => hk s next false ?_
    cases s with
    | nil => exact absurd rfl hs
    | cons c r => rfl
  | two => exact options_used (hk [] (some s) true rfl)

theorem attach_fatal {sh : Bool} {letter : Nat} {s : List Nat} {as : List Path} (h : Spec.Attach letter s as) {st : St}
    (hk : ∀ opnd next used, operand opnd next = some (s, used) → option sh (45 :: letter :: opnd) next st = .fatal) (rest : List Path) :
    options sh (as ++ rest) st = .fatal := by
  cases h with
  | one hs =>
    refine options_fatal fun next _ => hk s next false ?_
    cases s with
    | nil => exact absurd rfl hs
    | cons c r => rfl
  | two => rw [List.cons_append, List.cons_append, options, hk [] (some s) true rfl]; rfl

theorem option_file {sh : Bool} {f : Path} (hf : f.head? ≠ some 45) (next : Option Path) (st : St) :
    option sh f next st = (include_file st.fs f none st.inc).bind fun inc => .ok ({ st with inc := inc }, false) := by
  rw [option.eq_def]
  split
  · exact absurd rfl hf
  · exact absurd rfl hf
  · rfl

theorem include_push {fs : FS} {f : Path} (h : fs f ≠ none) (st : Inc.St) : include_file fs f none st = .ok (push f ((fs f).getD []) st) := by
  rw [include_file.eq_def]
  dsimp only [source_path]
  cases e : fs f with
  | none => exact absurd e h
  | some c => rfl

theorem file_ok {sh : Bool} {f : Path} {st : St} (hf : f.head? ≠ some 45) (h : st.fs f ≠ none) (rest : List Path) :
    options sh (f :: rest) st = options sh rest (apply st (.file f)) := by
  refine options_one fun next => ?_
  rw [option_file hf, include_push h, Res.bind_ok]
  rfl

theorem undef_ok {sh : Bool} {n : Name} {as : List Path} (h : Spec.Attach 85 n as) (st : St) (rest : List Path) :
    options sh (as ++ rest) st = options sh rest (apply st (.undef n)) := by
  refine attach_ok h (fun opnd next used ho => ?_) rest
  show flag _ _ _ _ _ = _; rw [flag]
  rw [if_neg (by omega), if_neg (by omega), if_neg (by omega), if_pos rfl, ho]
  rfl

theorem search_ok {sh : Bool} {d : Path} {as : List Path} (h : Spec.Attach 73 d as) {st : St} (hs : st.search = none) (rest : List Path) :
    options sh (as ++ rest) st = options sh rest (apply st (.search d)) := by
  refine attach_ok h (fun opnd next used ho => ?_) rest
  show flag _ _ _ _ _ = _; rw [flag]
  rw [if_neg (by omega), if_neg (by omega), if_neg (by omega), if_neg (by omega), if_pos rfl, if_neg (by simp [hs]), ho]
  rfl

theorem written_ok {o : Spec.Opt} {as : List Path} (h : Spec.Written o as) {st : St} (hc : Can st o) (rest : List Path) :
    options false (as ++ rest) st = options false rest (apply st o) := by
  cases h with
  | @define s n v _ hd ha =>
    refine attach_ok ha (fun opnd next used ho => ?_) rest
    show flag _ _ _ _ _ = _; rw [flag]
    rw [if_neg (by omega), if_pos (by simp), ho]
    dsimp only
    rw [(defText_ok hd).1, Res.bind_ok]
    rfl
  | undef ha => exact undef_ok ha st rest
  | search ha => exact search_ok ha hc rest
  | output ha =>
    refine attach_ok ha (fun opnd next used ho => ?_) rest
    show flag _ _ _ _ _ = _; rw [flag]
    rw [if_pos (by simp), ho]
    rfl
  | file hf => exact file_ok hf hc rest

theorem writtenSh_ok {o : Spec.Opt} {as : List Path} (h : Spec.WrittenSh o as) {st : St} (hc : Can st o) (rest : List Path) :
    options true (as ++ rest) st = options true rest (apply st o) := by
  cases h with
  | @define n _ hn =>
    refine options_one fun next => ?_
    show flag _ _ _ _ _ = _; rw [flag]
    rw [if_neg (by simp), if_neg (by simp), if_pos rfl]
    rfl
  | undef ha => exact undef_ok ha st rest
  | search ha => exact search_ok ha hc rest
  | file hf => exact file_ok hf hc rest

/-! ## All options -/

def applyAll : St → List Spec.Opt → St
  | st, [] => st
  | st, o :: r => applyAll (apply st o) r

theorem applyAll_append (a b : List Spec.Opt) : ∀ st, applyAll st (a ++ b) = applyAll (applyAll st a) b := by
  induction a with
  | nil => intro st; rfl
  | cons o r ih => intro st; exact ih _

/-- The options can be taken one after the other. -/
def CanAll (st : St) (opts : List Spec.Opt) : Prop := ∀ a o b, opts = a ++ o :: b → Can (applyAll st a) o

theorem line_ok {sh : Bool} {w : Spec.Opt → List Path → Prop}
    (hw : ∀ {o as}, w o as → ∀ {st}, Can st o → ∀ rest, options sh (as ++ rest) st = options sh rest (apply st o))
    {opts : List Spec.Opt} {args : List Path} (h : Spec.Line w opts args) :
    ∀ st, CanAll st opts → ∀ rest, options sh (args ++ rest) st = options sh rest (applyAll st opts) := by
  induction h with
  | nil => intro st _ rest; rfl
  | @cons o os a as ho _ ih =>
    intro st hc rest
    rw [List.append_assoc, hw ho (st := st) (hc [] o os rfl), ih _ (fun x y z e => hc (o :: x) y z (by rw [e]; rfl))]
    rfl

theorem cmdLine_ok {t : Target} {opts : List Spec.Opt} {args : List Path} (h : Spec.CmdLine t opts args) (st : St) (hc : CanAll st opts) (rest : List Path) :
    options (t == .sh) (args ++ rest) st = options (t == .sh) rest (applyAll st opts) := by
  rw [Spec.CmdLine] at h
  split at h
  · rename_i ht; subst ht; exact line_ok (w := Spec.WrittenSh) (fun h _ => writtenSh_ok h) h st hc rest
  · rename_i ht
    have : (t == Target.sh) = false := by cases t <;> simp_all
    rw [this]
    exact line_ok (w := Spec.Written) (fun h _ => written_ok h) h st hc rest

/-! ## The state -/

theorem files_append (a b : List Spec.Opt) : Spec.files (a ++ b) = Spec.files a ++ Spec.files b := by
  induction a with
  | nil => rfl
  | cons o r ih => cases o <;> simp [Spec.files, ih]
theorem searches_append (a b : List Spec.Opt) : Spec.searches (a ++ b) = Spec.searches a ++ Spec.searches b := by
  induction a with
  | nil => rfl
  | cons o r ih => cases o <;> simp [Spec.searches, ih]
theorem outputs_append (a b : List Spec.Opt) : Spec.outputs (a ++ b) = Spec.outputs a ++ Spec.outputs b := by
  induction a with
  | nil => rfl
  | cons o r ih => cases o <;> simp [Spec.outputs, ih]

/-- Induction from the end. -/
theorem rev_ind {α : Type} {P : List α → Prop} (h0 : P []) (h1 : ∀ l a, P l → P (l ++ [a])) (l : List α) : P l := by
  have : ∀ l : List α, P l.reverse := by
    intro l
    induction l with
    | nil => exact h0
    | cons a l ih => rw [List.reverse_cons]; exact h1 _ _ ih
  have := this l.reverse
  rwa [List.reverse_reverse] at this

theorem applyAll_snoc (a : List Spec.Opt) (o : Spec.Opt) (st : St) : applyAll st (a ++ [o]) = apply (applyAll st a) o := by
  rw [applyAll_append]; rfl

theorem fs_all (opts : List Spec.Opt) (st : St) : (applyAll st opts).fs = Spec.emptied (Spec.outputs opts) st.fs := by
  refine rev_ind (P := fun opts => (applyAll st opts).fs = Spec.emptied (Spec.outputs opts) st.fs) ?_ ?_ opts
  · funext p; simp [applyAll, Spec.emptied, Spec.outputs]
  · intro l o ih
    rw [applyAll_snoc, outputs_append]
    cases o with
    | output f =>
      funext p
      show (if p = f then some [] else (applyAll st l).fs p) = _
      rw [ih]
      simp only [Spec.emptied, Spec.outputs, List.mem_append, List.mem_singleton]
      by_cases h1 : p = f <;> by_cases h2 : p ∈ Spec.outputs l <;> simp [h1, h2]
    | _ => simpa [apply, Spec.outputs] using ih

theorem search_all (opts : List Spec.Opt) (st : St) (hs : st.search = none) : (Spec.searches opts).length ≤ 1 →
    (applyAll st opts).search = (Spec.searches opts).head? := by
  refine rev_ind (P := fun opts => (Spec.searches opts).length ≤ 1 → (applyAll st opts).search = (Spec.searches opts).head?) ?_ ?_ opts
  · intro _; exact hs
  · intro l o ih
    rw [applyAll_snoc, searches_append, List.length_append]
    cases o with
    | search d =>
      intro h
      have h0 : Spec.searches l = [] := List.eq_nil_of_length_eq_zero (by have : (Spec.searches [Spec.Opt.search d]).length = 1 := rfl
                                                                          omega)
      rw [h0]; rfl
    | _ => intro h; simpa [apply, Spec.searches, openOut] using ih (by omega)

theorem out_all (opts : List Spec.Opt) (st : St) (hs : st.out = none) : (applyAll st opts).out = (Spec.outputs opts).getLast? := by
  refine rev_ind (P := fun opts => (applyAll st opts).out = (Spec.outputs opts).getLast?) ?_ ?_ opts
  · exact hs
  · intro l o ih
    rw [applyAll_snoc, outputs_append]
    cases o with
    | output f => simp [Spec.outputs]; rfl
    | _ => simpa [apply, Spec.outputs] using ih

theorem says_tab (n : Name) (o : Spec.Opt) (st : St) : (apply st o).tab n = (Spec.says n o).getD (st.tab n) := by
  cases o with
  | define m v =>
    show (if n = m then _ else _) = _
    rw [Spec.says]
    by_cases h : n = m
    · rw [if_pos h, if_pos h.symm]; rfl
    · rw [if_neg h, if_neg (Ne.symm h)]; rfl
  | undef m =>
    show (if n = m then _ else _) = _
    rw [Spec.says]
    by_cases h : n = m
    · rw [if_pos h, if_pos h.symm]; rfl
    · rw [if_neg h, if_neg (Ne.symm h)]; rfl
  | _ => rfl

theorem tab_all (opts : List Spec.Opt) (st : St) (n : Name) : Spec.Means st.tab opts n ((applyAll st opts).tab n) := by
  refine rev_ind (P := fun opts => Spec.Means st.tab opts n ((applyAll st opts).tab n)) ?_ ?_ opts
  · exact .inr ⟨by simp, rfl⟩
  · intro l o ih
    rw [applyAll_snoc, says_tab]
    cases h : Spec.says n o with
    | some e => exact .inl ⟨l, o, [], rfl, h, by simp⟩
    | none =>
      show Spec.Means _ _ _ ((applyAll st l).tab n)
      rcases ih with ⟨a, q, b, e, hq, hb⟩ | ⟨hl, e⟩
      · refine .inl ⟨a, q, b ++ [o], by simp [e], hq, ?_⟩
        intro q' hq'
        rcases List.mem_append.1 hq' with h' | h'
        · exact hb q' h'
        · rw [List.mem_singleton.1 h']; exact h
      · refine .inr ⟨?_, e⟩
        intro q' hq'
        rcases List.mem_append.1 hq' with h' | h'
        · exact hl q' h'
        · rw [List.mem_singleton.1 h']; exact h

/-- At most one meaning. -/
theorem means_unique {base : Tab} {n : Name} {e e' : Entry} : ∀ {opts : List Spec.Opt}, Spec.Means base opts n e → Spec.Means base opts n e' → e = e' := by
  intro opts
  refine rev_ind (P := fun opts => Spec.Means base opts n e → Spec.Means base opts n e' → e = e') ?_ ?_ opts
  · rintro (⟨a, o, b, h, _⟩ | ⟨_, rfl⟩) (⟨a', o', b', h', _⟩ | ⟨_, rfl⟩)
    · simp at h
    · simp at h
    · simp at h'
    · rfl
  · intro l o ih
    have key : ∀ {e}, Spec.Means base (l ++ [o]) n e → Spec.says n o = some e ∨ (Spec.says n o = none ∧ Spec.Means base l n e) := by
      rintro e (⟨a, q, b, h, hq, hb⟩ | ⟨h, he⟩)
      · rcases List.eq_nil_or_concat b with rfl | ⟨b', x, rfl⟩
        · have := List.append_inj' h rfl
          rw [List.cons.inj this.2 |>.1]; exact .inl hq
        · have h' : l ++ [o] = (a ++ q :: b') ++ [x] := by simpa using h
          have := List.append_inj' h' rfl
          have hx : o = x := (List.cons.inj this.2).1
          refine .inr ⟨?_, .inl ⟨a, q, b', this.1, hq, fun y hy => hb y (by simp [hy])⟩⟩
          rw [hx]; exact hb x (by simp)
      · exact .inr ⟨h o (by simp), .inr ⟨fun q hq => h q (by simp [hq]), he⟩⟩
    intro h h'
    rcases key h with h | ⟨h0, h⟩ <;> rcases key h' with h' | ⟨h0', h'⟩
    · rw [h] at h'; exact Option.some.inj h'
    · rw [h] at h0'; cases h0'
    · rw [h'] at h0; cases h0
    · exact ih h h'

/-- The include stack holds the files. -/
structure Holds (st : St) (files : List Path) : Prop where
  paths : st.inc.stack.map (·.filepath) = files.reverse
  line : st.inc.line_number = 1
  top : ∀ f r, st.inc.stack = f :: r → f.filepath = st.inc.fp_filepath
  frames : ∀ f ∈ st.inc.stack, f.rest = (st.fs f.filepath).getD [] ∧ f.dirname = file_parent_directory f.filepath ∧ f.line = 1

theorem holds_start (t : Target) (fs : FS) : Holds (start t fs) [] := ⟨rfl, rfl, fun _ _ h => (by cases h), fun _ h => (by cases h)⟩

theorem holds_apply {st : St} {files : List Path} (h : Holds st files) (o : Spec.Opt) : Holds (apply st o) (files ++ Spec.files [o]) := by
  cases o with
  | define n v => simpa [Spec.files] using (⟨h.1, h.2, h.3, h.4⟩ : Holds (apply st (.define n v)) files)
  | undef n => simpa [Spec.files] using (⟨h.1, h.2, h.3, h.4⟩ : Holds (apply st (.undef n)) files)
  | search d => simpa [Spec.files] using (⟨h.1, h.2, h.3, h.4⟩ : Holds (apply st (.search d)) files)
  | output f =>
    have : Holds (apply st (.output f)) files := by
      refine ⟨?_, h.2, ?_, ?_⟩
      · rw [← h.1]
        show (st.inc.stack.map _).map _ = _
        rw [List.map_map]
        refine List.map_congr_left fun fr _ => ?_
        dsimp only [Function.comp]
        split <;> rfl
      · intro fr r e
        have e : st.inc.stack.map (fun (fr : Frame) => if fr.filepath = f then { fr with rest := [] } else fr) = fr :: r := e
        cases hs : st.inc.stack with
        | nil => rw [hs] at e; cases e
        | cons x y =>
          rw [hs, List.map_cons] at e
          have := (List.cons.inj e).1
          rw [← this]
          show _ = st.inc.fp_filepath
          rw [← h.top x y hs]
          split <;> rfl
      · intro fr hf
        have hf : fr ∈ st.inc.stack.map (fun (fr : Frame) => if fr.filepath = f then { fr with rest := [] } else fr) := hf
        obtain ⟨x, hx, rfl⟩ := List.mem_map.1 hf
        obtain ⟨h1, h2, h3⟩ := h.frames x hx
        show _ = ((if _ = f then some [] else st.fs _).getD []) ∧ _
        by_cases e : x.filepath = f
        · simp [e, h2, h3]
        · simp [e, h1, h2, h3]
    simpa [Spec.files] using this
  | file f =>
    refine ⟨?_, rfl, ?_, ?_⟩
    · show (push f _ st.inc).stack.map _ = _
      rw [push, List.map_cons, List.reverse_append, ← h.1]
      cases st.inc.stack <;> rfl
    · intro fr r e
      have e := (List.cons.inj e).1
      rw [← e]; rfl
    · intro fr hf
      rcases List.mem_cons.1 hf with rfl | hf
      · exact ⟨rfl, rfl, rfl⟩
      · cases hs : st.inc.stack with
        | nil => rw [hs] at hf; cases hf
        | cons x y =>
          rw [hs] at hf
          rcases List.mem_cons.1 hf with rfl | hf
          · obtain ⟨h1, h2, h3⟩ := h.frames x (by rw [hs]; exact List.mem_cons_self ..)
            exact ⟨h1, h2, h.line⟩
          · exact h.frames fr (by rw [hs]; exact List.mem_cons_of_mem _ hf)

theorem holds_all (t : Target) (fs : FS) (opts : List Spec.Opt) : Holds (applyAll (start t fs) opts) (Spec.files opts) := by
  refine rev_ind (P := fun opts => Holds (applyAll (start t fs) opts) (Spec.files opts)) (holds_start t fs) ?_ opts
  intro l o ih
  rw [applyAll_snoc, files_append]
  exact holds_apply ih o

theorem joined_text (fs : FS) : ∀ (stack : List Frame), (∀ f ∈ stack, f.rest = (fs f.filepath).getD [] ∧ f.dirname = file_parent_directory f.filepath ∧ f.line = 1) →
    Spec.joined fs (stack.map (·.filepath)) = textOf stack 1 := by
  intro stack
  induction stack with
  | nil => intro _; rfl
  | cons f r ih =>
    intro h
    have h0 := (h f (List.mem_cons_self ..)).1
    have ih := ih (fun x hx => h x (List.mem_cons_of_mem _ hx))
    cases r with
    | nil => simp only [List.map_cons, List.map_nil, Spec.joined, textOf, h0]
    | cons g r =>
      have hg := (h g (by simp)).2.2
      simp only [List.map_cons, Spec.joined, textOf, h0, hg] at ih ⊢
      rw [ih]

/-- All options can be taken. -/
theorem canAll {t : Target} {fs : FS} {opts : List Spec.Opt} (hf : ∀ f ∈ Spec.files opts, fs f ≠ none) (hs : (Spec.searches opts).length ≤ 1) : CanAll (start t fs) opts := by
  rintro a o b rfl
  rw [files_append] at hf
  rw [searches_append, List.length_append] at hs
  cases o with
  | search d =>
    have h0 : Spec.searches a = [] := List.eq_nil_of_length_eq_zero (by simp [Spec.searches] at hs; omega)
    show (applyAll _ a).search = none
    rw [search_all a _ rfl (by simp [h0]), h0]; rfl
  | file f =>
    show (applyAll _ a).fs f ≠ none
    rw [fs_all, Spec.emptied]
    split
    · simp
    · exact hf f (by simp [Spec.files])
  | _ => trivial

theorem main_eq {α : Type} {t : Target} {fs : FS} {opts : List Spec.Opt} {args : List Path} (h : Spec.CmdLine t opts args)
    (hf : ∀ f ∈ Spec.files opts, fs f ≠ none) (hs : (Spec.searches opts).length ≤ 1) (body : Tab → Option Path → Option Path → Prog α) :
    main t fs args body = if (applyAll (start t fs) opts).inc.stack = [] then .fatal else
      run (Spec.emptied (Spec.outputs opts) fs) (body (applyAll (start t fs) opts).tab (Spec.searches opts).head? (Spec.outputs opts).getLast?) (applyAll (start t fs) opts).inc := by
  have := cmdLine_ok h (start t fs) (canAll hf hs) []
  rw [List.append_nil, options] at this
  rw [main, this, Res.bind_ok, fs_all, search_all _ _ rfl hs, out_all _ _ rfl]
  rfl

theorem run_eq {α : Type} {fs : FS} {dir : Path → Path} (hd : ∀ p, Inc.Spec.IsDir (dir p) p) {st : St} {files : List Path} {last : Path} (h : Holds st (files ++ [last]))
    (hfs : st.fs = fs) (p : Prog α) : run fs p st.inc = Inc.Spec.run fs dir p ⟨Spec.joined fs (last :: files.reverse), last, 1⟩ := by
  subst hfs
  have hp : st.inc.stack.map (·.filepath) = last :: files.reverse := by rw [h.paths, List.reverse_append]; rfl
  have ht : st.inc.fp_filepath = last := by
    cases hs : st.inc.stack with
    | nil => rw [hs] at hp; cases hp
    | cons f r =>
      rw [hs, List.map_cons] at hp
      rw [← h.top f r hs]; exact (List.cons.inj hp).1
  refine run_sim hd p _ _ ⟨?_, ?_, ht.symm, h.top, h.line.symm, ?_⟩
  · intro e; rw [e] at hp; cases hp
  · show Spec.joined _ _ = _
    rw [h.line, ← hp]; exact joined_text _ _ h.frames
  · intro f hf
    rw [(h.frames f hf).2.1]
    exact isDir_unique (parent_isDir _) (hd _)

end Verif.Cli
