import Verif.Asm.Traverse
/-!
# C37, C38: reports, result and addresses
-/

namespace Buxn.Asm
open Buxn.VM Spec

/-! ## The symbol table -/

/-- A state function that leaves the symbol table alone. -/
theorem andThen_symtab {r : Bool × Asm} {f : Asm → Bool × Asm} (hf : ∀ s, (f s).2.symtab = s.symtab) : (andThen r f).2.symtab = r.2.symtab := by
  unfold andThen
  split
  · exact hf _
  · rfl

theorem emit2_symtab (t : Token) (x : Short) (p : Bool) (s : Asm) : (emit2 t x p s).2.symtab = s.symtab := by
  unfold emit2
  rw [andThen_symtab, emit_symtab]
  intro s
  rw [andThen_symtab, emit_symtab]
  intro s; rfl

theorem emitPlaceholder_symtab (t : Token) (k : RefKind) (z : RefSize) (name : Option Str) (id : Short) (r : Bool) (s : Asm) :
    (emitPlaceholder t k z name id r s).2.symtab = s.symtab := by
  unfold emitPlaceholder
  cases z
  · dsimp only; rw [andThen_symtab, emit_symtab]; intro s; rfl
  · dsimp only; rw [andThen_symtab, emit2_symtab]; intro s; rfl

theorem numberLabel_symtab (e : Entry) (s : Asm) : (numberLabel e s).symtab = s.symtab := by
  unfold numberLabel; split <;> rfl

theorem emitAddr_symtab (t : Token) (k : RefKind) (z : RefSize) (a : Int) (i : Option SymInfo) (p : Bool) (s : Asm) :
    (emitAddr t k z a i p s).2.symtab = s.symtab := by
  unfold emitAddr
  cases z with
  | byte =>
    dsimp only
    split
    · rfl
    · rw [andThen_symtab, emit_symtab]; intro s; cases i <;> rfl
  | short => dsimp only; rw [andThen_symtab, emit2_symtab]; intro s; cases i <;> rfl

theorem emitBackwardRef_symtab (t : Token) (k : RefKind) (z : RefSize) (name : Option Str) (id a : Short) (w r : Bool) (s : Asm) :
    (emitBackwardRef t k z name id a w r s).2.symtab = s.symtab := by
  unfold emitBackwardRef
  dsimp only
  rw [andThen_symtab, emitAddr_symtab, (calculateAddr_quiet t k s.writeAddr a s).symtab]
  intro s
  split <;> rfl

theorem patchAll_symtab (name : Str) (id a : Short) (rs : List FRef) (s : Asm) : (patchAll name id a rs s).symtab = s.symtab := by
  induction rs generalizing s with
  | nil => rfl
  | cons r rs ih => rw [patchAll, ih, emitBackwardRef_symtab]

theorem addForwardRef_symtab (t : Token) (k : RefKind) (z : RefSize) (name : Str) (n : Node) (id : Short) (refs : List FRef) (r : Bool) (s : Asm)
    (key : Str) (h : key ≠ name) : (addForwardRef t k z name n id refs r s).2.symtab key = s.symtab key := by
  unfold addForwardRef andThen
  dsimp only
  split <;> simp only [setNode, if_neg h, emitPlaceholder_symtab]

theorem emitForwardRef_symtab (t : Token) (k : RefKind) (z : RefSize) (name : Str) (n : Node) (r : Bool) (s : Asm) (key : Str) (h : key ≠ name) :
    (emitForwardRef t k z name n r s).2.symtab key = s.symtab key := by
  unfold emitForwardRef
  dsimp only
  rw [addForwardRef_symtab _ _ _ _ _ _ _ _ _ _ h, numberLabel_symtab]

theorem placeLabel_symtab (t : Token) (name : Str) (n : Node) (id : Short) (refs : List FRef) (s : Asm) (key : Str) (h : key ≠ name) :
    (placeLabel t name n id refs s).2.symtab key = s.symtab key := by
  unfold placeLabel
  simp only [putSymbol, setNode, if_neg h, patchAll_symtab]

theorem processLambdaClose_symtab (t : Token) (s : Asm) : (processLambdaClose t s).2.symtab = s.symtab := by
  unfold processLambdaClose
  split
  · rfl
  · dsimp only
    rw [andThen_symtab, emitAddr_symtab]
    · exact (calculateAddr_quiet _ _ _ _ _).symtab
    · intro s; rfl

theorem emitLambdaRef_symtab (t : Token) (k : RefKind) (z : RefSize) (r : Bool) (s : Asm) : (emitLambdaRef t k z r s).2.symtab = s.symtab := by
  unfold emitLambdaRef
  rw [andThen_symtab, emitPlaceholder_symtab]; intro s; rfl

theorem KeepsMacros.same {s s' : Asm} (h : s'.symtab = s.symtab) : KeepsMacros s s' := fun name n hn hm => ⟨n, by rw [h]; exact hn, hm⟩

theorem keepsMacros_atoms : Atoms KeepsMacros where
  trans h h' name n hn hm := by
    obtain ⟨n1, hn1, hm1⟩ := h name n hn hm
    exact h' name n1 hn1 hm1
  frame h := .same h.symtab
  error _ _ _ := .same rfl
  event _ _ _ := .same rfl
  opcode _ _ _ _ := .same (emitOpcode_symtab _ _ _ _)
  byte _ _ _ _ := .same ((andThen_symtab fun _ => rfl).trans (emit_symtab _ _ _ _))
  short _ _ _ _ := .same ((andThen_symtab fun _ => rfl).trans (emit2_symtab _ _ _ _))
  text _ _ _ _ _ := .same ((andThen_symtab fun _ => rfl).trans (emit_symtab _ _ _ _))
  findOrCreate t name s key n hn hm := by
    refine ⟨n, ?_, hm⟩
    unfold findOrCreate
    split
    · exact hn
    · split
      · exact hn
      · split
        · exact hn
        · split
          · exact hn
          · split
            · exact hn
            · rename_i hnone
              simp only [setNode]
              rw [if_neg]
              · exact hn
              · rintro rfl; rw [hnone] at hn; cases hn
  referenced name n s hn key m hm he := by
    by_cases hk : key = name
    · subst hk
      rw [hn] at hm; cases hm
      exact ⟨{ n with referenced := true }, by simp [setNode], he⟩
    · exact ⟨m, by simp only [setNode, if_neg hk]; exact hm, he⟩
  setMacro name n body id x s hn h key m hm he := by
    by_cases hk : key = name
    · subst hk
      exact ⟨{ n with entry := .macro body id x }, by simp [setNode], trivial⟩
    · exact ⟨m, by simp only [setNode, if_neg hk]; exact hm, he⟩
  forward t k z name n r s hn hf key m hm he := by
    by_cases hk : key = name
    · subst hk
      rw [hn] at hm; cases hm
      cases h : n.entry <;> rw [h] at hf he <;> first | exact hf.elim | exact he.elim
    · exact ⟨m, by rw [emitForwardRef_symtab _ _ _ _ _ _ _ _ hk]; exact hm, he⟩
  lambda _ _ _ _ _ := .same (emitLambdaRef_symtab _ _ _ _ _)
  backward _ _ _ _ _ _ _ _ _ _ _ := .same (emitBackwardRef_symtab _ _ _ _ _ _ _ _ _)
  atRef _ _ _ _ _ _ _ _ := .same (by rw [emitBackwardRef_symtab])
  atLabel _ _ := .same rfl
  define t name n s hn key m hm he := by
    unfold defineLabel
    by_cases hk : key = name
    · subst hk
      rw [hn] at hm; cases hm
      split
      · rename_i h; rw [h] at he; cases he
      · rename_i h; rw [h] at he; cases he
      · exact ⟨n, hn, he⟩
      · exact ⟨n, hn, he⟩
    · refine ⟨m, ?_, he⟩
      split
      · rw [placeLabel_symtab _ _ _ _ _ _ _ hk]; exact hm
      · rw [placeLabel_symtab _ _ _ _ _ _ _ hk]; exact hm
      · exact hm
      · exact hm
  close _ _ := .same (processLambdaClose_symtab _ _)

/-- Any relation that allows the atoms can be used for a traversal. -/
theorem Molecules.closed {R : Asm → Asm → Prop} (A : Molecules R) : Closed (fun s s' => R s s' ∧ KeepsMacros s s') where
  trans h h' := ⟨A.trans h.1 h'.1, keepsMacros_atoms.trans h.2 h'.2⟩
  frame h := ⟨A.frame h, keepsMacros_atoms.frame h⟩
  error _ _ _ := ⟨A.error _ _ _, keepsMacros_atoms.error _ _ _⟩
  event _ _ h := ⟨A.event _ _ h, keepsMacros_atoms.event _ _ h.1⟩
  comment _ _ _ := ⟨A.comment _ _ _, keepsMacros_atoms.molecules.comment _ _ _⟩
  opcode _ _ _ _ := ⟨A.opcode _ _ _ _, keepsMacros_atoms.opcode _ _ _ _⟩
  byte _ _ _ _ := ⟨A.byte _ _ _ _, keepsMacros_atoms.byte _ _ _ _⟩
  short _ _ _ _ := ⟨A.short _ _ _ _, keepsMacros_atoms.short _ _ _ _⟩
  text _ _ _ _ h := ⟨A.text _ _ _ _ h, keepsMacros_atoms.text _ _ _ _ h⟩
  findOrCreate _ _ _ := ⟨A.findOrCreate _ _ _, keepsMacros_atoms.findOrCreate _ _ _⟩
  referenced _ _ _ h := ⟨A.referenced _ _ _ h, keepsMacros_atoms.referenced _ _ _ h⟩
  setMacro _ _ _ _ _ _ h h' := ⟨A.setMacro _ _ _ _ _ _ h h', keepsMacros_atoms.setMacro _ _ _ _ _ _ h h'⟩
  forward _ _ _ _ _ _ _ h h' := ⟨A.forward _ _ _ _ _ _ _ h h', keepsMacros_atoms.forward _ _ _ _ _ _ _ h h'⟩
  lambda _ _ _ _ _ := ⟨A.lambda _ _ _ _ _, keepsMacros_atoms.lambda _ _ _ _ _⟩
  backward _ _ _ _ _ _ _ _ _ h h' := ⟨A.backward _ _ _ _ _ _ _ _ _ h h', keepsMacros_atoms.backward _ _ _ _ _ _ _ _ _ h h'⟩
  atRef _ _ _ _ _ _ _ h := ⟨A.atRef _ _ _ _ _ _ _ h, keepsMacros_atoms.atRef _ _ _ _ _ _ _ h⟩
  atLabel _ _ := ⟨A.atLabel _ _, keepsMacros_atoms.atLabel _ _⟩
  define _ _ _ _ h := ⟨A.define _ _ _ _ h, keepsMacros_atoms.define _ _ _ _ h⟩
  close _ _ := ⟨A.close _ _, keepsMacros_atoms.close _ _⟩
  keeps h := h.2

theorem Atoms.closed {R : Asm → Asm → Prop} (A : Atoms R) : Closed (fun s s' => R s s' ∧ KeepsMacros s s') :=
  A.molecules.closed

/-! ## What is appended to the log -/

/-- Every byte written in a piece of log is outside of the zero page. -/
def Spec.OutsideZeroPage (l : List Event) : Prop := ∀ a v p, Event.rom a v p ∈ l → 0x100 ≤ a.toNat

/-- Append to the log; remember whether there is an error. -/
def Ext (s s' : Asm) : Prop :=
  ∃ new, s'.log = new ++ s.log ∧ OutsideZeroPage new ∧ (s'.success = true ↔ s.success = true ∧ errors new = [])

theorem errors_append (a b : List Event) : errors (a ++ b) = errors a ++ errors b := by simp [errors]

theorem Ext.trans {a b c : Asm} (h : Ext a b) (h' : Ext b c) : Ext a c := by
  obtain ⟨n, e, z, ok⟩ := h
  obtain ⟨n', e', z', ok'⟩ := h'
  refine ⟨n' ++ n, by rw [e', e, List.append_assoc], ?_, ?_⟩
  · intro a v p hm
    rcases List.mem_append.1 hm with hm | hm
    exacts [z' a v p hm, z a v p hm]
  · rw [ok', ok, errors_append, List.append_eq_nil_iff]; tauto

theorem outside_nil : OutsideZeroPage [] := by intro a v p h; cases h

theorem Ext.same {s s' : Asm} (hl : s'.log = s.log) (hs : s'.success = s.success) : Ext s s' :=
  ⟨[], hl, outside_nil, by rw [hs]; simp [errors]⟩

theorem Ext.refl (s : Asm) : Ext s s := .same rfl rfl

/-- One more event that is neither an error nor a byte. -/
theorem Ext.event {s s' : Asm} (e : Event) (hl : s'.log = e :: s.log) (hs : s'.success = s.success) (he : errors [e] = []) (hw : written [e] = []) :
    Ext s s' := by
  refine ⟨[e], hl, ?_, by rw [hs, he]; simp⟩
  intro a v p hm
  rw [List.mem_singleton] at hm
  subst hm
  cases hw

theorem error_ext (m : String) (r : Region) (s : Asm) : Ext s (error m r s).2 :=
  ⟨[.error m r], rfl, by intro a v p h; simp at h, by simp [error]⟩

theorem event_ext (e : Event) (s : Asm) (h : quietEvent e) : Ext s { s with log := e :: s.log } := by
  refine .event e rfl rfl ?_ ?_ <;> cases e <;> first | rfl | cases h

theorem Hush.ext {s s' : Asm} (h : Hush s s') : Ext s s' := by
  induction h with
  | frame h => exact .same h.log h.success
  | error => exact error_ext _ _ _
  | trans _ _ h1 h2 => exact h1.trans h2

theorem Quiet.ext {s s' : Asm} (h : Quiet s s') : Ext s s' := by
  induction h with
  | frame h => exact .same h.log h.success
  | error => exact error_ext _ _ _
  | event e s h => exact event_ext e s h.1
  | comment t u s =>
    exact processComment_rel (R := Ext) (fun h h' => h.trans h') Hush.ext (fun a i s h => event_ext (.sym a i) s (by
      show i.type ≠ .label ∧ _
      rw [h]; decide)) t u s
  | trans _ _ h1 h2 => exact h1.trans h2

theorem warning_ext (m : String) (r : Region) (s : Asm) : Ext s (warning m r s) := .event (.warning m r) rfl rfl rfl rfl

theorem Closing.ext {s s' : Asm} (h : Closing s s') : Ext s s' := by
  induction h with
  | quiet h => exact h.ext
  | report m r s => exact warning_ext m r s
  | trans _ _ h1 h2 => exact h1.trans h2

/-- Warnings leave the macros alone. -/
theorem reported {R : Asm → Asm → Prop} (h : ∀ m r s, R s (warning m r s)) (m : String) (r : Region) (s : Asm) : R s (warning m r s) ∧ KeepsMacros s (warning m r s) :=
  ⟨h m r s, .same rfl⟩

theorem emit_ext (t : Token) (b : Byte) (p : Bool) (s : Asm) : Ext s (emit t b p s).2 := by
  unfold emit
  dsimp only
  split
  · exact Ext.trans (b := { s with writeAddr := s.writeAddr + 1 }) (.same rfl rfl) (error_ext _ _ _)
  · rename_i h
    refine ⟨[.rom s.writeAddr b p], rfl, ?_, by simp [errors]⟩
    intro a v q hm
    rw [List.mem_singleton] at hm
    cases hm
    rw [BitVec.lt_def] at h
    simp only [RESET_VECTOR, BitVec.reduceToNat] at h
    omega

theorem andThen_ext {s : Asm} {r : Bool × Asm} {f : Asm → Bool × Asm} (h : Ext s r.2) (hf : ∀ s', Ext s' (f s').2) : Ext s (andThen r f).2 := by
  unfold andThen
  split
  · exact h.trans (hf _)
  · exact h

theorem emit2_ext (t : Token) (x : Short) (p : Bool) (s : Asm) : Ext s (emit2 t x p s).2 :=
  andThen_ext (emit_ext _ _ _ _) fun _ => andThen_ext (emit_ext _ _ _ _) fun s => .refl s

theorem putSymbol_ext (a : Short) (i : SymInfo) (s : Asm) : Ext s (putSymbol a i s) := .event _ rfl rfl rfl rfl

theorem putSymbol2_ext (a : Short) (i : SymInfo) (s : Asm) : Ext s (putSymbol2 a i s) := (putSymbol_ext a i s).trans (putSymbol_ext _ i _)

theorem markRef_ext (a : Short) (k : RefKind) (z : RefSize) (n : Option Str) (i : Short) (s : Asm) : Ext s (markRef a k z n i s) := .event _ rfl rfl rfl rfl

theorem setNode_ext (n : Str) (x : Node) (s : Asm) : Ext s (setNode n x s) := .same rfl rfl

theorem emitPlaceholder_ext (t : Token) (k : RefKind) (z : RefSize) (name : Option Str) (id : Short) (r : Bool) (s : Asm) :
    Ext s (emitPlaceholder t k z name id r s).2 := by
  unfold emitPlaceholder
  cases z
  · exact andThen_ext (emit_ext _ _ _ _) fun _ => (markRef_ext _ _ _ _ _ _).trans (putSymbol_ext _ _ _)
  · exact andThen_ext (emit2_ext _ _ _ _) fun _ => (markRef_ext _ _ _ _ _ _).trans (putSymbol2_ext _ _ _)

theorem numberLabel_ext (e : Entry) (s : Asm) : Ext s (numberLabel e s) := by
  unfold numberLabel
  split
  · exact .same rfl rfl
  · exact .refl s

theorem emitAddr_ext (t : Token) (k : RefKind) (z : RefSize) (a : Int) (i : Option SymInfo) (p : Bool) (s : Asm) : Ext s (emitAddr t k z a i p s).2 := by
  unfold emitAddr
  cases z with
  | byte =>
    dsimp only
    split
    · exact error_ext _ _ _
    · refine andThen_ext (emit_ext _ _ _ _) fun s' => ?_
      cases i
      · exact .refl s'
      · exact putSymbol_ext _ _ _
  | short =>
    refine andThen_ext (emit2_ext _ _ _ _) fun s' => ?_
    cases i
    · exact .refl s'
    · exact putSymbol2_ext _ _ _

theorem emitBackwardRef_ext (t : Token) (k : RefKind) (z : RefSize) (name : Option Str) (id a : Short) (w r : Bool) (s : Asm) :
    Ext s (emitBackwardRef t k z name id a w r s).2 := by
  unfold emitBackwardRef
  refine (calculateAddr_quiet t k s.writeAddr a s).ext.trans (andThen_ext (emitAddr_ext _ _ _ _ _ _ _) fun s' => ?_)
  dsimp only
  split
  · exact markRef_ext _ _ _ _ _ _
  · exact .refl s'

theorem patchAll_ext (name : Str) (id a : Short) (rs : List FRef) (s : Asm) : Ext s (patchAll name id a rs s) := by
  induction rs generalizing s with
  | nil => exact .refl s
  | cons r rs ih =>
    rw [patchAll]
    exact (Ext.trans (b := { s with writeAddr := r.addr }) (.same rfl rfl) (emitBackwardRef_ext _ _ _ _ _ _ _ _ _)).trans (ih _)

theorem placeLabel_ext (t : Token) (name : Str) (n : Node) (id : Short) (refs : List FRef) (s : Asm) : Ext s (placeLabel t name n id refs s).2 := by
  unfold placeLabel
  refine Ext.trans (setNode_ext name { n with entry := .label id s.writeAddr } s) (Ext.trans (patchAll_ext name id s.writeAddr refs _) ?_)
  exact Ext.event _ rfl rfl rfl rfl

theorem ext_atoms : Atoms Ext where
  trans h h' := h.trans h'
  frame h := .same h.log h.success
  error _ _ _ := error_ext _ _ _
  event e s h := event_ext e s h
  opcode _ _ _ _ := andThen_ext (emit_ext _ _ _ _) fun _ => Ext.event _ rfl rfl rfl rfl
  byte _ _ _ _ := andThen_ext (emit_ext _ _ _ _) fun _ => Ext.event _ rfl rfl rfl rfl
  short _ _ _ _ := andThen_ext (emit2_ext _ _ _ _) fun _ => putSymbol2_ext _ _ _
  text _ _ _ _ _ := andThen_ext (emit_ext _ _ _ _) fun _ => Ext.event _ rfl rfl rfl rfl
  findOrCreate t n s := by
    unfold findOrCreate
    split
    · exact error_ext _ _ _
    · split
      · exact error_ext _ _ _
      · split
        · exact error_ext _ _ _
        · split
          · exact error_ext _ _ _
          · split
            · exact .refl s
            · exact .same rfl rfl
  referenced _ _ _ _ := setNode_ext _ _ _
  setMacro _ _ _ _ _ _ _ _ := setNode_ext _ _ _
  forward t k z name n r s _ _ := by
    unfold emitForwardRef addForwardRef
    exact (numberLabel_ext _ _).trans (Ext.trans (setNode_ext _ _ _) (andThen_ext (emitPlaceholder_ext _ _ _ _ _ _ _) fun _ => setNode_ext _ _ _))
  lambda t k z r s := Ext.trans (b := { s with numLabels := s.numLabels + 1 }) (.same rfl rfl)
    (andThen_ext (emitPlaceholder_ext _ _ _ _ _ _ _) fun _ => .same rfl rfl)
  backward _ _ _ _ _ _ _ _ _ _ _ := emitBackwardRef_ext _ _ _ _ _ _ _ _ _
  atRef t k z r s l ls _ := Ext.trans (b := { s with atLabels := ls }) (.same rfl rfl) (emitBackwardRef_ext _ _ _ _ _ _ _ _ _)
  atLabel t s := .event _ rfl rfl rfl rfl
  define t name n s _ := by
    unfold defineLabel
    split
    · exact Ext.trans (b := { s with numLabels := s.numLabels + 1 }) (.same rfl rfl) (placeLabel_ext _ _ _ _ _ _)
    · exact placeLabel_ext _ _ _ _ _ _
    · exact error_ext _ _ _
    · exact error_ext _ _ _
  close t s := by
    unfold processLambdaClose
    split
    · exact error_ext _ _ _
    · rename_i r rs _
      dsimp only
      refine (calculateAddr_quiet r.token r.kind r.addr s.writeAddr s).ext.trans ?_
      refine Ext.trans (b := { (calculateAddr r.token r.kind r.addr s.writeAddr s).2 with writeAddr := r.addr }) (.same rfl rfl) ?_
      exact andThen_ext (emitAddr_ext _ _ _ _ _ _ _) fun _ => .event _ rfl rfl rfl rfl

/-- **C37.** The assembler returns `true` exactly if no error was reported: for every set of files (including unreadable
ones), every main file, every amount of fuel that suffices. -/
theorem C37_result (files : Files) (fuel : Nat) (filename : Str) (ok : Bool) (s : Asm) (h : assemble files fuel filename = some (ok, s)) :
    ok = true ↔ errors s.log = [] := by
  obtain ⟨⟨⟨new, hl, _, hs⟩, _⟩, hr⟩ := assemble_good ext_atoms.closed (reported warning_ext) files fuel filename _ h
  simp only at hr hl hs
  rw [hr, hs, hl]
  simp [initial, errors_append, errors]

/-- **C37.** No part of a source is given up silently: a unit that returns failure has reported an error, and no later step
turns a failure into a success. -/
theorem C37_no_silent_failure (files : Files) (fuel levels : Nat) (u : Unit) (s s' : Asm) (ok : Bool) (h : processUnit files fuel levels u s = some (ok, s')) :
    (∃ new, s'.log = new ++ s.log ∧ (ok = false → s.success = true → errors new ≠ [])) ∧ (s.success = false → s'.success = false) := by
  obtain ⟨⟨⟨new, hl, _, hs⟩, _⟩, hr⟩ := processUnit_good ext_atoms.closed files fuel levels u s _ h
  simp only at hl hs
  refine ⟨⟨new, hl, ?_⟩, ?_⟩
  · intro hok hs0 hnil
    have := hr hok
    simp only at this
    rw [this] at hs
    simp [hs0, hnil] at hs
  · intro hs0
    rw [hs0] at hs
    simpa using hs

/-- **C38.** No byte is ever written to the zero page. -/
theorem C38_no_zero_page (files : Files) (fuel : Nat) (filename : Str) (ok : Bool) (s : Asm) (h : assemble files fuel filename = some (ok, s))
    (a : Short) (v : Byte) (hw : (a, v) ∈ written s.log) : 0x100 ≤ a.toNat := by
  obtain ⟨⟨⟨new, hl, hz, _⟩, _⟩, _⟩ := assemble_good ext_atoms.closed (reported warning_ext) files fuel filename _ h
  simp only at hl
  rw [hl] at hw
  simp only [initial, List.append_nil, written, List.mem_filterMap] at hw
  obtain ⟨e, he, hv⟩ := hw
  cases e with
  | rom a' v' p => cases hv; exact hz a v p he
  | _ => cases hv

end Buxn.Asm
