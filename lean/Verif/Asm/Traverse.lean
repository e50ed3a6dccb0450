import Verif.Asm.Numbers
/-!
# Walking through the assembler

`Quiet` describes the functions that only read and report. `Atoms R` lists the steps that change symbols or code; a
relation that allows them all holds between the states before and after every function of the assembler (`*_good`).
-/

namespace Buxn.Asm
open Buxn.VM Spec

/-! ## Quiet functions -/

/-- The warnings of the end of an assembly, `asm.c:1396-1405, 1433`. -/
def isFinal (m : String) : Prop := m = "Unreferenced symbol" ∨ m = "Unreferenced @-label"

/-- Events that concern neither code nor labels, before the end of the assembly. -/
def quietEvent : Event → Prop
  | .warning m _ => ¬ isFinal m
  | .fopen _ | .fclose _ => True
  | .sym _ i => i.type ≠ .label ∧ i.type ≠ .labelRef ∧ i.type ≠ .opcode ∧ i.type ≠ .number ∧ i.type ≠ .text
  | _ => False

/-- The fields that a frame change leaves alone. -/
structure Frame (s s' : Asm) : Prop where
  log : s'.log = s.log
  success : s'.success = s.success
  symtab : s'.symtab = s.symtab
  names : s'.names = s.names
  lambdas : s'.lambdas = s.lambdas
  numLabels : s'.numLabels = s.numLabels
  numLambdas : s'.numLambdas = s.numLambdas
  atLabels : ∀ l ∈ s'.atLabels, l ∈ s.atLabels

/-- Quiet events that are not part of a comment; such symbols have names. -/
def plainEvent (e : Event) : Prop := quietEvent e ∧ ∀ a i, e = .sym a i → i.type ≠ .comment ∧ i.name ≠ none

/-- Reading tokens: no event except errors. -/
inductive Hush : Asm → Asm → Prop
  | frame {s s' : Asm} : Frame s s' → Hush s s'
  | error (m : String) (r : Region) (s : Asm) : Hush s (error m r s).2
  | trans {a b c : Asm} : Hush a b → Hush b c → Hush a c

/-- Comments are kept in one piece. -/
inductive Quiet : Asm → Asm → Prop
  | frame {s s' : Asm} : Frame s s' → Quiet s s'
  | error (m : String) (r : Region) (s : Asm) : Quiet s (error m r s).2
  | event (e : Event) (s : Asm) : plainEvent e → Quiet s { s with log := e :: s.log }
  | comment (t : Token) (u : Unit) (s : Asm) : Quiet s (processComment t u s).2.2
  | trans {a b c : Asm} : Quiet a b → Quiet b c → Quiet a c

theorem Hush.quiet {s s' : Asm} (h : Hush s s') : Quiet s s' := by
  induction h with
  | frame h => exact .frame h
  | error m r s => exact .error m r s
  | trans _ _ h1 h2 => exact h1.trans h2

theorem Frame.rfl' (s : Asm) : Frame s s := ⟨rfl, rfl, rfl, rfl, rfl, rfl, rfl, fun _ h => h⟩

theorem Quiet.refl (s : Asm) : Quiet s s := .frame (.rfl' s)

theorem Hush.refl (s : Asm) : Hush s s := .frame (.rfl' s)

theorem Hush.setReadBuf (c : Option Ch) (s : Asm) : Hush s { s with readBuf := c } := .frame ⟨rfl, rfl, rfl, rfl, rfl, rfl, rfl, fun _ h => h⟩

theorem warning_quiet (m : String) (r : Region) (s : Asm) (h : ¬ isFinal m := by unfold isFinal; decide) : Quiet s (warning m r s) := .event _ _ ⟨h, fun _ _ h => by cases h⟩

/-- The end of an assembly also gives the final warnings. -/
inductive Closing : Asm → Asm → Prop
  | quiet {s s' : Asm} : Quiet s s' → Closing s s'
  | report (m : String) (r : Region) (s : Asm) : Closing s (warning m r s)
  | trans {a b c : Asm} : Closing a b → Closing b c → Closing a c

theorem Closing.refl (s : Asm) : Closing s s := .quiet (.refl s)

theorem putSymbol_quiet (a : Short) (i : SymInfo) (s : Asm) (h : i.type ≠ .label ∧ i.type ≠ .labelRef ∧ i.type ≠ .opcode ∧ i.type ≠ .number ∧ i.type ≠ .text)
    (hc : i.type ≠ .comment ∧ i.name ≠ none) : Quiet s (putSymbol a i s) := .event _ _ ⟨h, fun _ _ e => by cases e; exact hc⟩

theorem setReadBuf_quiet (c : Option Ch) (s : Asm) : Quiet s { s with readBuf := c } := .frame ⟨rfl, rfl, rfl, rfl, rfl, rfl, rfl, fun _ h => h⟩

theorem setDepth_quiet (d : Nat) (s : Asm) : Quiet s { s with depth := d } := .frame ⟨rfl, rfl, rfl, rfl, rfl, rfl, rfl, fun _ h => h⟩

theorem setWriteAddr_quiet (a : Short) (s : Asm) : Quiet s { s with writeAddr := a } := .frame ⟨rfl, rfl, rfl, rfl, rfl, rfl, rfl, fun _ h => h⟩

theorem setScope_quiet (a : Str) (s : Asm) : Quiet s { s with scope := a } := .frame ⟨rfl, rfl, rfl, rfl, rfl, rfl, rfl, fun _ h => h⟩

theorem peekChar_hush (u : FileUnit) (s : Asm) : Hush s (peekChar u s).2.2 := by
  unfold peekChar
  split
  · exact Hush.refl s
  · dsimp only
    split
    · exact ((Hush.setReadBuf _ s)).trans (.error _ _ _)
    · exact (Hush.setReadBuf _ s)

theorem getChar_hush (u : FileUnit) (s : Asm) : Hush s (getChar u s).2.2 := by
  unfold getChar
  have h1 := peekChar_hush u s
  generalize peekChar u s = p at h1
  obtain ⟨c, u1, s1⟩ := p
  have h2 : Hush s (consumeChar s1) := h1.trans (Hush.setReadBuf _ _)
  dsimp only
  split
  · exact h2
  · split
    · exact h2
    · split
      · have h3 := peekChar_hush { u1 with pos := { u1.pos with byte := u1.pos.byte + 1, col := u1.pos.col + 1 } } (consumeChar s1)
        generalize peekChar _ (consumeChar s1) = q at h3
        obtain ⟨c', u2, s2⟩ := q
        dsimp only at h3 ⊢
        split
        · exact (h2.trans h3).trans (Hush.setReadBuf _ _)
        · exact h2.trans h3
      · exact h2

theorem scanRegular_hush (start : Pos) (left : Nat) (acc : Str) (c : Byte) (stop : Pos) (u : FileUnit) (s : Asm) :
    Hush s (scanRegular start left acc c stop u s).2.2 := by
  induction left generalizing acc c stop u s with
  | zero => exact .error _ _ _
  | succ left ih =>
    rw [scanRegular]
    have h1 := getChar_hush u s
    generalize getChar u s = p at h1
    obtain ⟨c', u1, s1⟩ := p
    dsimp only at h1 ⊢
    split
    · exact h1
    · exact h1
    · split
      · exact h1
      · exact h1.trans (ih _ _ _ _ _)

theorem scanLong_hush (start : Pos) (left : Nat) (acc : Str) (u : FileUnit) (s : Asm) : Hush s (scanLong start left acc u s).2.2 := by
  induction left generalizing acc u s with
  | zero =>
    rw [scanLong]
    have h1 := getChar_hush u s
    generalize getChar u s = p at h1
    obtain ⟨c', u1, s1⟩ := p
    dsimp only at h1 ⊢
    split
    · exact h1
    · exact h1.trans (.error _ _ _)
    · split
      · exact h1
      · exact h1.trans (.error _ _ _)
  | succ left ih =>
    rw [scanLong]
    have h1 := getChar_hush u s
    generalize getChar u s = p at h1
    obtain ⟨c', u1, s1⟩ := p
    dsimp only at h1 ⊢
    split
    · exact h1
    · exact h1.trans (.error _ _ _)
    · split
      · exact h1
      · exact h1.trans (ih _ _ _)

theorem nextInFileLoop_hush (fuel : Nat) (u : FileUnit) (s : Asm) : Hush s (nextInFileLoop fuel u s).2.2 := by
  induction fuel generalizing u s with
  | zero => exact Hush.refl s
  | succ fuel ih =>
    rw [nextInFileLoop]
    have h1 := getChar_hush u s
    generalize getChar u s = p at h1
    obtain ⟨c', u1, s1⟩ := p
    dsimp only at h1 ⊢
    split
    · exact h1
    · exact h1
    · split
      · exact h1.trans (ih _ _)
      · split
        · have h2 := peekChar_hush u1 s1
          generalize peekChar u1 s1 = q at h2
          obtain ⟨c2, u2, s2⟩ := q
          dsimp only at h2 ⊢
          split
          · exact (h1.trans h2).trans ((getChar_hush u2 s2).trans (scanLong_hush _ _ _ _ _))
          · exact (h1.trans h2).trans (scanRegular_hush _ _ _ _ _ _ _)
        · exact h1.trans (scanRegular_hush _ _ _ _ _ _ _)

theorem nextInMacro_hush (u : MacroUnit) (s : Asm) : Hush s (nextInMacro u s).2.2 := by
  unfold nextInMacro
  split
  · exact Hush.refl s
  · split
    · exact Hush.refl s
    · split
      · exact .error _ _ _
      · dsimp only
        rename_i rev _
        generalize (if rev.reverse.head? = some (ch '"') then MAX_LONG_STRING_LEN else MAX_TOKEN_LEN) = lim
        split
        · exact .error _ _ _
        · exact Hush.refl s

theorem nextToken_hush (u : Unit) (s : Asm) : Hush s (nextToken u s).2.2 := by
  cases u with
  | file u => unfold nextToken; exact nextInFileLoop_hush _ u s
  | «macro» u => unfold nextToken; exact nextInMacro_hush u s

theorem nextToken_quiet (u : Unit) (s : Asm) : Quiet s (nextToken u s).2.2 := (nextToken_hush u s).quiet

/-- A relation that allows reading tokens and the symbols of comments allows comments. -/
theorem commentLoop_rel {R : Asm → Asm → Prop} (trans : ∀ {a b c}, R a b → R b c → R a c) (hush : ∀ {s s'}, Hush s s' → R s s')
    (sym : ∀ a i s, i.type = .comment → R s (putSymbol a i s)) (fuel depth : Nat) (u : Unit) (s : Asm) :
    R s (commentLoop fuel depth u s).2.2 := by
  induction fuel generalizing depth u s with
  | zero => exact hush (.refl s)
  | succ fuel ih =>
    rw [commentLoop]
    split
    · exact hush (.refl s)
    · have h := hush (nextToken_hush u s)
      split
      · rename_i heq; rw [heq] at h; exact h
      · rename_i heq; rw [heq] at h
        exact trans h (trans (sym _ _ _ rfl) (ih _ _ _))

theorem processComment_rel {R : Asm → Asm → Prop} (trans : ∀ {a b c}, R a b → R b c → R a c) (hush : ∀ {s s'}, Hush s s' → R s s')
    (sym : ∀ a i s, i.type = .comment → R s (putSymbol a i s)) (t : Token) (u : Unit) (s : Asm) :
    R s (processComment t u s).2.2 := by
  unfold processComment
  dsimp only
  have h := commentLoop_rel (R := R) trans hush sym (unitFuel u) 1 u (putSymbol s.writeAddr { type := .comment, name := some t.lex, region := t.region } s)
  generalize commentLoop (unitFuel u) 1 u (putSymbol s.writeAddr { type := .comment, name := some t.lex, region := t.region } s) = p at h
  obtain ⟨d, u1, s1⟩ := p
  have h2 := trans (sym s.writeAddr { type := .comment, name := some t.lex, region := t.region } s rfl) h
  dsimp only
  split
  · exact trans h2 (hush (.error _ _ _))
  · exact h2

theorem Hush.symtab {s s' : Asm} (h : Hush s s') : s'.symtab = s.symtab := by
  induction h with
  | frame h => exact h.symtab
  | error => rfl
  | trans _ _ h1 h2 => rw [h2, h1]

theorem Quiet.symtab {s s' : Asm} (h : Quiet s s') : s'.symtab = s.symtab := by
  induction h with
  | frame h => exact h.symtab
  | error => rfl
  | event => rfl
  | comment t u s => exact processComment_rel (R := fun s s' => s'.symtab = s.symtab) (fun h h' => h'.trans h) Hush.symtab (fun _ _ _ _ => rfl) t u s
  | trans _ _ h1 h2 => rw [h2, h1]

theorem Closing.symtab {s s' : Asm} (h : Closing s s') : s'.symtab = s.symtab := by
  induction h with
  | quiet h => exact h.symtab
  | report => rfl
  | trans _ _ h1 h2 => rw [h2, h1]

/-- The result is a failure only if it was reported. -/
def Said (r : Bool × Asm) : Prop := r.1 = false → r.2.success = false

theorem processComment_said (t : Token) (u : Unit) (s : Asm) : Said ((processComment t u s).1, (processComment t u s).2.2) := by
  unfold processComment
  dsimp only
  generalize commentLoop (unitFuel u) 1 u (putSymbol s.writeAddr { type := .comment, name := some t.lex, region := t.region } s) = p
  obtain ⟨d, u1, s1⟩ := p
  dsimp only
  split
  · exact fun _ => rfl
  · exact fun h => by cases h

theorem processComment_quiet (t : Token) (u : Unit) (s : Asm) :
    Quiet s (processComment t u s).2.2 ∧ Said ((processComment t u s).1, (processComment t u s).2.2) :=
  ⟨.comment t u s, processComment_said t u s⟩

theorem processMark_quiet (t : Token) (s : Asm) : Quiet s (processMark t s) := putSymbol_quiet _ _ _ (by simp) (by simp)

theorem macroHead_quiet (start : Token) (fuel : Nat) (u : Unit) (s : Asm) :
    Quiet s (macroHead start fuel u s).2.2 ∧ Said ((macroHead start fuel u s).1, (macroHead start fuel u s).2.2) := by
  induction fuel generalizing u s with
  | zero => exact ⟨.error _ _ _, fun _ => rfl⟩
  | succ fuel ih =>
    rw [macroHead]
    have h := nextToken_quiet u s
    split
    · rename_i heq; rw [heq] at h
      exact ⟨h.trans (.error _ _ _), fun _ => rfl⟩
    · rename_i t u1 s1 heq; rw [heq] at h
      dsimp only at h ⊢
      split
      · have hc := processComment_quiet t u1 s1
        split
        · rename_i heq2; rw [heq2] at hc
          exact ⟨h.trans hc.1, hc.2⟩
        · rename_i heq2; rw [heq2] at hc
          exact ⟨h.trans (hc.1.trans (ih _ _).1), (ih _ _).2⟩
      · split
        · exact ⟨h.trans ((processMark_quiet t s1).trans (ih _ _).1), (ih _ _).2⟩
        · split
          · split
            · exact ⟨h.trans (.error _ _ _), fun _ => rfl⟩
            · exact ⟨h.trans ((processMark_quiet t s1).trans (ih _ _).1), (ih _ _).2⟩
          · split
            · exact ⟨h, fun h => by cases h⟩
            · exact ⟨h.trans (.error _ _ _), fun _ => rfl⟩

theorem macroBody_quiet (start : Token) (fuel depth : Nat) (acc : List Token) (u : Unit) (s : Asm) :
    Quiet s (macroBody start fuel depth acc u s).2.2 ∧ ((macroBody start fuel depth acc u s).1 = none → (macroBody start fuel depth acc u s).2.2.success = false) := by
  induction fuel generalizing depth acc u s with
  | zero => exact ⟨.error _ _ _, fun _ => rfl⟩
  | succ fuel ih =>
    rw [macroBody]
    have h := nextToken_quiet u s
    split
    · rename_i heq; rw [heq] at h
      exact ⟨h.trans (.error _ _ _), fun _ => rfl⟩
    · rename_i t u1 s1 heq; rw [heq] at h
      split
      · exact ⟨h.trans (.error _ _ _), fun _ => rfl⟩
      · dsimp only at h ⊢
        generalize (if t.lex = [ch '}'] then depth - 1 else if opensLambda t.lex = true then depth + 1 else depth) = d
        split
        · exact ⟨h, fun h => by cases h⟩
        · exact ⟨h.trans (ih _ _ _ _).1, (ih _ _ _ _).2⟩

theorem calculateAddr_quiet (t : Token) (k : RefKind) (a b : Short) (s : Asm) : Quiet s (calculateAddr t k a b s).2 := by
  cases k with
  | zero =>
    unfold calculateAddr
    dsimp only
    split
    · exact warning_quiet _ _ _
    · exact .refl s
  | abs => exact .refl s
  | rel => exact .refl s

theorem resolveLocalName_quiet (t : Token) (n : Str) (s : Asm) :
    Quiet s (resolveLocalName t n s).2 ∧ ((resolveLocalName t n s).1 = none → (resolveLocalName t n s).2.success = false) := by
  unfold resolveLocalName
  split
  · exact ⟨.error _ _ _, fun _ => rfl⟩
  · exact ⟨.refl s, fun h => by cases h⟩

theorem resolveLabelRef_quiet (t : Token) (n : Str) (s : Asm) :
    Quiet s (resolveLabelRef t n s).2 ∧ ((resolveLabelRef t n s).1 = none → (resolveLabelRef t n s).2.success = false) := by
  unfold resolveLabelRef
  split
  · exact ⟨.error _ _ _, fun _ => rfl⟩
  · split
    · exact resolveLocalName_quiet _ _ _
    · exact ⟨.refl s, fun h => by cases h⟩

theorem reportRefs_quiet (rs : List FRef) (s : Asm) : Quiet s (reportRefs rs s) := by
  induction rs generalizing s with
  | nil => exact .refl s
  | cons r rs ih => exact (Quiet.error _ _ _).trans (ih _)

theorem ite_quiet {c : Prop} [Decidable c] {s a b : Asm} (ha : Quiet s a) (hb : Quiet s b) : Quiet s (if c then a else b) := by
  split
  exacts [ha, hb]

theorem ite_closing {c : Prop} [Decidable c] {s a b : Asm} (ha : Closing s a) (hb : Closing s b) : Closing s (if c then a else b) := by
  split
  exacts [ha, hb]

theorem reportSymbols_quiet (ks : List Str) (s : Asm) : Closing s (reportSymbols ks s) := by
  induction ks generalizing s with
  | nil => exact .refl s
  | cons k ks ih =>
    unfold reportSymbols
    refine Closing.trans ?_ (ih _)
    split
    · exact .refl s
    · dsimp only
      split
      · exact .quiet (reportRefs_quiet _ _)
      · exact .quiet (.error _ _ _)
      · exact ite_closing (.report _ _ _) (.refl s)
      · exact ite_closing (.report _ _ _) (.refl s)

theorem reportLambdas_quiet (rs : List FRef) (s : Asm) : Quiet s (reportLambdas rs s) := by
  induction rs generalizing s with
  | nil => exact .refl s
  | cons r rs ih => exact (Quiet.error _ _ _).trans (ih _)

theorem reportAtLabels_quiet (rs : List FRef) (s : Asm) : Closing s (reportAtLabels rs s) := by
  induction rs generalizing s with
  | nil => exact .refl s
  | cons r rs ih => exact (Closing.report _ _ _).trans (ih _)

/-! ## Atoms -/

def isMacro : Entry → Prop
  | .macro _ _ _ => True
  | _ => False

/-- Symbols that are macros stay macros. -/
def KeepsMacros (s s' : Asm) : Prop := ∀ name n, s.symtab name = some n → isMacro n.entry → ∃ n', s'.symtab name = some n' ∧ isMacro n'.entry

def isForward : Entry → Prop
  | .forward _ _ | .unknown => True
  | _ => False

/-- One step of `textLoop`. -/
def textStep (t : Token) (sym : SymInfo) (c : Byte) (s : Asm) : Bool × Asm :=
  andThen (emit t c false s) fun s1 => (true, putSymbol s.writeAddr sym s1)

/-- The steps that change symbols or code. -/
structure Steps (R : Asm → Asm → Prop) : Prop where
  trans : ∀ {a b c}, R a b → R b c → R a c
  frame : ∀ {s s'}, Frame s s' → R s s'
  error : ∀ m r s, R s (error m r s).2
  opcode : ∀ t b r s, R s (emitOpcode t b r s).2
  byte : ∀ t b r s, R s (emitByte t b r s).2
  short : ∀ t x r s, R s (emitShort t x r s).2
  text : ∀ t i c s, i.type = .text → R s (textStep t i c s).2
  findOrCreate : ∀ t n s, R s (findOrCreate t n s).2
  referenced : ∀ name n s, s.symtab name = some n → R s (setNode name { n with referenced := true } s)
  setMacro : ∀ name n body id x s, s.symtab name = some n → n.entry = .unknown ∨ isMacro n.entry → R s (setNode name { n with entry := .macro body id x } s)
  forward : ∀ t k z name n r s, s.symtab name = some n → isForward n.entry → R s (emitForwardRef t k z name n r s).2
  lambda : ∀ t k z r s, R s (emitLambdaRef t k z r s).2
  backward : ∀ t k z name id addr r s n, s.symtab name = some n → n.entry = .label id addr → R s (emitBackwardRef t k z (some name) id addr true r s).2
  atRef : ∀ t k z r s l ls, s.atLabels = l :: ls → R s (emitBackwardRef t k z none l.labelId l.addr true r { s with atLabels := ls }).2
  atLabel : ∀ t s, R s (processAtLabel t s)
  define : ∀ t name n s, s.symtab name = some n → R s (defineLabel t name n s).2
  close : ∀ t s, R s (processLambdaClose t s).2

/-- A relation that looks at comments symbol by symbol. -/
structure Atoms (R : Asm → Asm → Prop) : Prop extends Steps R where
  event : ∀ e s, quietEvent e → R s { s with log := e :: s.log }

/-- A relation that looks at a comment in one piece. -/
structure Molecules (R : Asm → Asm → Prop) : Prop extends Steps R where
  event : ∀ e s, plainEvent e → R s { s with log := e :: s.log }
  comment : ∀ t u s, R s (processComment t u s).2.2

theorem Steps.hush {R : Asm → Asm → Prop} (A : Steps R) {s s' : Asm} (h : Hush s s') : R s s' := by
  induction h with
  | frame h => exact A.frame h
  | error m r s => exact A.error m r s
  | trans _ _ h1 h2 => exact A.trans h1 h2

theorem Atoms.molecules {R : Asm → Asm → Prop} (A : Atoms R) : Molecules R where
  toSteps := A.toSteps
  event e s h := A.event e s h.1
  comment := processComment_rel A.trans A.hush (fun a i s h => A.event (.sym a i) s (by
    show i.type ≠ .label ∧ _
    rw [h]; decide))

/-- What a traversal needs. -/
structure Closed (R : Asm → Asm → Prop) : Prop extends Molecules R where
  keeps : ∀ {s s'}, R s s' → KeepsMacros s s'

section
variable {R : Asm → Asm → Prop} (C : Closed R)
include C

theorem Closed.quiet {s s' : Asm} (h : Quiet s s') : R s s' := by
  induction h with
  | frame h => exact C.frame h
  | error m r s => exact C.error m r s
  | event e s h => exact C.event e s h
  | comment t u s => exact C.comment t u s
  | trans _ _ h1 h2 => exact C.trans h1 h2

theorem Closed.closing (hrep : ∀ m r s, R s (warning m r s)) {s s' : Asm} (h : Closing s s') : R s s' := by
  induction h with
  | quiet h => exact C.quiet h
  | report m r s => exact hrep m r s
  | trans _ _ h1 h2 => exact C.trans h1 h2

theorem Closed.refl (s : Asm) : R s s := C.quiet (.refl s)

end

/-- A function with a result. -/
def Good (R : Asm → Asm → Prop) (s : Asm) (r : Bool × Asm) : Prop := R s r.2 ∧ Said r

def GoodO (R : Asm → Asm → Prop) {α : Type} (s : Asm) (r : Option α × Asm) : Prop := R s r.2 ∧ (r.1 = none → r.2.success = false)

section
variable {R : Asm → Asm → Prop} (C : Closed R)
include C

theorem Closed.ok {s s' : Asm} (h : R s s') : Good R s (true, s') := ⟨h, fun h => by cases h⟩

theorem Closed.err (m : String) (r : Region) (s : Asm) : Good R s (Asm.error m r s) := ⟨C.error _ _ _, fun _ => rfl⟩

theorem Closed.from {s s' : Asm} {r : Bool × Asm} (h : R s s') (h' : Good R s' r) : Good R s r := ⟨C.trans h h'.1, h'.2⟩

theorem Closed.andThen {s : Asm} {r : Bool × Asm} {f : Asm → Bool × Asm} (h : Good R s r) (hf : ∀ s', Good R s' (f s')) : Good R s (andThen r f) := by
  obtain ⟨b, s1⟩ := r
  cases b with
  | false => exact h
  | true => exact C.from h.1 (hf s1)

end

section
variable {R : Asm → Asm → Prop} (C : Closed R)
include C

theorem Closed.andThen' {s : Asm} {r : Bool × Asm} {f : Asm → Bool × Asm} (h : Good R s r) (hf : r.1 = true → Good R r.2 (f r.2)) : Good R s (Asm.andThen r f) := by
  obtain ⟨b, s1⟩ := r
  cases b with
  | false => exact h
  | true => exact C.from h.1 (hf rfl)

end

/-! ## Who fails has said so -/

theorem said_andThen {r : Bool × Asm} {f : Asm → Bool × Asm} (h : Said r) (hf : ∀ s', Said (f s')) : Said (andThen r f) := by
  obtain ⟨b, s1⟩ := r
  cases b with
  | false => exact h
  | true => exact hf s1

theorem said_ok (s : Asm) : Said (true, s) := fun h => by cases h

theorem said_error (m : String) (r : Region) (s : Asm) : Said (error m r s) := fun _ => rfl

theorem emit_said (t : Token) (b : Byte) (p : Bool) (s : Asm) : Said (emit t b p s) := by
  unfold emit
  dsimp only
  split
  · exact said_error _ _ _
  · exact said_ok _

theorem emit2_said (t : Token) (x : Short) (p : Bool) (s : Asm) : Said (emit2 t x p s) :=
  said_andThen (emit_said _ _ _ _) fun _ => said_andThen (emit_said _ _ _ _) fun _ => said_ok _

theorem emitPlaceholder_said (t : Token) (k : RefKind) (z : RefSize) (name : Option Str) (id : Short) (r : Bool) (s : Asm) :
    Said (emitPlaceholder t k z name id r s) := by
  unfold emitPlaceholder
  cases z
  · exact said_andThen (emit_said _ _ _ _) fun _ => said_ok _
  · exact said_andThen (emit2_said _ _ _ _) fun _ => said_ok _

theorem emitForwardRef_said (t : Token) (k : RefKind) (z : RefSize) (name : Str) (n : Node) (r : Bool) (s : Asm) :
    Said (emitForwardRef t k z name n r s) := said_andThen (emitPlaceholder_said _ _ _ _ _ _ _) fun _ => said_ok _

theorem emitLambdaRef_said (t : Token) (k : RefKind) (z : RefSize) (r : Bool) (s : Asm) : Said (emitLambdaRef t k z r s) :=
  said_andThen (emitPlaceholder_said _ _ _ _ _ _ _) fun _ => said_ok _

theorem emitAddr_said (t : Token) (k : RefKind) (z : RefSize) (a : Int) (i : Option SymInfo) (p : Bool) (s : Asm) : Said (emitAddr t k z a i p s) := by
  unfold emitAddr
  cases z with
  | byte =>
    dsimp only
    split
    · exact said_error _ _ _
    · exact said_andThen (emit_said _ _ _ _) fun _ => said_ok _
  | short => exact said_andThen (emit2_said _ _ _ _) fun _ => said_ok _

theorem emitBackwardRef_said (t : Token) (k : RefKind) (z : RefSize) (name : Option Str) (id a : Short) (w r : Bool) (s : Asm) :
    Said (emitBackwardRef t k z name id a w r s) := said_andThen (emitAddr_said _ _ _ _ _ _ _) fun _ => said_ok _

theorem defineLabel_said (t : Token) (name : Str) (n : Node) (s : Asm) : Said (defineLabel t name n s) := by
  unfold defineLabel
  split
  · exact said_ok _
  · exact said_ok _
  · exact said_error _ _ _
  · exact said_error _ _ _

theorem findOrCreate_said (t : Token) (n : Str) (s : Asm) : (findOrCreate t n s).1 = none → (findOrCreate t n s).2.success = false := by
  unfold findOrCreate
  split
  · exact fun _ => rfl
  · split
    · exact fun _ => rfl
    · split
      · exact fun _ => rfl
      · split
        · exact fun _ => rfl
        · split
          · exact fun h => by cases h
          · exact fun h => by cases h

/-- The node found is in the table. -/
theorem findOrCreate_node (t : Token) (name : Str) (s s' : Asm) (n : Node) (h : findOrCreate t name s = (some n, s')) : s'.symtab name = some n := by
  unfold findOrCreate at h
  split at h
  · cases h
  · split at h
    · cases h
    · split at h
      · cases h
      · split at h
        · cases h
        · split at h
          · rename_i hn; cases h; exact hn
          · cases h; simp [setNode]

theorem processLambdaClose_said (t : Token) (s : Asm) : Said (processLambdaClose t s) := by
  unfold processLambdaClose
  split
  · exact said_error _ _ _
  · exact said_andThen (emitAddr_said _ _ _ _ _ _ _) fun _ => said_ok _

/-! ## Code -/

section
variable {R : Asm → Asm → Prop} (C : Closed R)
include C

theorem emitOpcode_good (t : Token) (op : Byte) (r : Bool) (s : Asm) : Good R s (emitOpcode t op r s) :=
  ⟨C.opcode _ _ _ _, said_andThen (emit_said _ _ _ _) fun _ => said_ok _⟩

omit C in
theorem emit_symtab (t : Token) (b : Byte) (p : Bool) (s : Asm) : (emit t b p s).2.symtab = s.symtab := by
  unfold emit
  dsimp only
  split <;> rfl

omit C in
theorem emitOpcode_symtab (t : Token) (op : Byte) (r : Bool) (s : Asm) : (emitOpcode t op r s).2.symtab = s.symtab := by
  unfold emitOpcode Asm.andThen
  dsimp only
  split <;> exact emit_symtab _ _ _ _

theorem emitByte_good (t : Token) (op : Byte) (r : Bool) (s : Asm) : Good R s (emitByte t op r s) :=
  ⟨C.byte _ _ _ _, said_andThen (emit_said _ _ _ _) fun _ => said_ok _⟩

theorem emitShort_good (t : Token) (x : Short) (r : Bool) (s : Asm) : Good R s (emitShort t x r s) :=
  ⟨C.short _ _ _ _, said_andThen (emit2_said _ _ _ _) fun _ => said_ok _⟩

theorem registerLabel_good (t : Token) (name : Str) (s : Asm) : Good R s (registerLabel t name s) := by
  unfold registerLabel
  have h := C.findOrCreate t name s
  have hs := findOrCreate_said t name s
  split
  · rename_i heq; rw [heq] at h hs
    exact ⟨h, fun _ => hs rfl⟩
  · rename_i n s1 heq
    have hn := findOrCreate_node t name s s1 n heq
    rw [heq] at h
    exact C.from h ⟨C.define t name n s1 hn, defineLabel_said _ _ _ _⟩

theorem emitLabelRef_good (t : Token) (k : RefKind) (z : RefSize) (name : Str) (r : Bool) (s : Asm) : Good R s (emitLabelRef t k z name r s) := by
  unfold emitLabelRef
  split
  · exact ⟨C.lambda _ _ _ _ _, emitLambdaRef_said _ _ _ _ _⟩
  · have h := resolveLabelRef_quiet t name s
    generalize resolveLabelRef t name s = p at h
    obtain ⟨o, s1⟩ := p
    cases o with
    | none => exact ⟨C.quiet h.1, fun _ => h.2 rfl⟩
    | some full =>
      refine C.from (C.quiet h.1) ?_
      dsimp only
      split
      · split
        · rename_i l ls hl
          exact ⟨C.atRef _ _ _ _ _ l ls hl, emitBackwardRef_said _ _ _ _ _ _ _ _ _⟩
        · exact C.err _ _ _
      · split
        · exact C.err _ _ _
        · rename_i c cs _
          split
          · exact C.err _ _ _
          · have h2 := C.findOrCreate t (c :: cs) s1
            have hs2 := findOrCreate_said t (c :: cs) s1
            split
            · rename_i s2 heq
              rw [heq] at h2 hs2
              exact ⟨h2, fun _ => hs2 rfl⟩
            · rename_i n s2 heq
              have hn := findOrCreate_node t (c :: cs) s1 s2 n heq
              rw [heq] at h2
              refine C.from h2 ?_
              split
              · rename_i id addr hent
                refine C.from (C.referenced _ n s2 hn) ⟨?_, emitBackwardRef_said _ _ _ _ _ _ _ _ _⟩
                exact C.backward _ _ _ _ _ _ _ _ { n with referenced := true } (by simp [setNode]) hent
              · rename_i hent
                exact ⟨C.forward _ _ _ _ _ _ _ hn (by rw [hent]; trivial), emitForwardRef_said _ _ _ _ _ _ _⟩
              · rename_i hent
                exact ⟨C.forward _ _ _ _ _ _ _ hn (by rw [hent]; trivial), emitForwardRef_said _ _ _ _ _ _ _⟩
              · exact C.err _ _ _

theorem emitJsi_good (t : Token) (s : Asm) : Good R s (emitJsi t s) :=
  C.andThen (emitOpcode_good C _ _ _ _) fun _ => emitLabelRef_good C _ _ _ _ _ _

/-! ## Directives -/

/-- The state of a unit's result. -/
abbrev GoodU (R : Asm → Asm → Prop) (s : Asm) (r : Bool × Unit × Asm) : Prop := Good R s (r.1, r.2.2)

theorem createMacro_good (start : Token) (name : Str) (n : Node) (u : Unit) (s : Asm) (hn : s.symtab name = some n) (he : n.entry = .unknown) :
    GoodU R s (createMacro start name n u s) := by
  unfold createMacro
  dsimp only
  have q1 : Quiet s (putSymbol 0 { type := .macro, name := some name, region := start.region, id := s.numMacros + 1 } { s with numMacros := s.numMacros + 1 }) :=
    .trans (b := { s with numMacros := s.numMacros + 1 }) (.frame ⟨rfl, rfl, rfl, rfl, rfl, rfl, rfl, fun _ h => h⟩) (putSymbol_quiet _ _ _ (by simp) (by simp))
  generalize putSymbol 0 { type := .macro, name := some name, region := start.region, id := s.numMacros + 1 } { s with numMacros := s.numMacros + 1 } = s1 at q1
  have hh := macroHead_quiet start (unitFuel u) u s1
  split
  · rename_i heq; rw [heq] at hh
    exact ⟨C.quiet (q1.trans hh.1), hh.2⟩
  · rename_i u2 s2 heq; rw [heq] at hh
    have q2 := q1.trans hh.1
    have hn2 : s2.symtab name = some n := by rw [q2.symtab]; exact hn
    have r2 : R s (setNode name { n with entry := .macro [] 0 false } s2) := C.trans (C.quiet q2) (C.setMacro name n [] 0 false s2 hn2 (.inl he))
    have hb := macroBody_quiet start (unitFuel u2) 1 [] u2 (setNode name { n with entry := .macro [] 0 false } s2)
    split
    · rename_i heq; rw [heq] at hb
      exact ⟨C.trans r2 (C.quiet hb.1), fun _ => hb.2 rfl⟩
    · rename_i acc u3 s3 heq; rw [heq] at hb
      have hn3 : s3.symtab name = some { n with entry := .macro [] 0 false } := by rw [hb.1.symtab]; simp [setNode]
      have := C.setMacro name { n with entry := .macro [] 0 false } acc.reverse (s.numMacros + 1) false s3 hn3 (.inr trivial)
      exact C.ok (C.trans r2 (C.trans (C.quiet hb.1) this))

theorem processMacro_good (start : Token) (u : Unit) (s : Asm) : GoodU R s (processMacro start u s) := by
  unfold processMacro
  have h := C.findOrCreate start (popFront start.lex) s
  have hs := findOrCreate_said start (popFront start.lex) s
  split
  · rename_i heq; rw [heq] at h hs
    exact ⟨h, fun _ => hs rfl⟩
  · rename_i n s1 heq
    have hn := findOrCreate_node _ _ _ _ _ heq
    rw [heq] at h
    split
    · rename_i he
      exact C.from h (createMacro_good C start _ n u s1 hn he)
    · exact C.from h (C.err _ _ _)

theorem processGlobalLabel_good (t : Token) (s : Asm) : Good R s (processGlobalLabel t s) := by
  unfold processGlobalLabel
  dsimp only
  split
  · exact C.ok (C.atLabel t s)
  · exact C.andThen (registerLabel_good C _ _ _) fun _ => C.ok (C.quiet (setScope_quiet _ _))

theorem processLocalLabel_good (t : Token) (s : Asm) : Good R s (processLocalLabel t s) := by
  unfold processLocalLabel
  have h := resolveLocalName_quiet t (popFront t.lex) s
  split
  · rename_i heq; rw [heq] at h
    exact ⟨C.quiet h.1, fun _ => h.2 rfl⟩
  · rename_i heq; rw [heq] at h
    exact C.from (C.quiet h.1) (registerLabel_good C _ _ _)

theorem resolvePadding_good (t : Token) (s : Asm) : GoodO R s (resolvePadding t s) := by
  unfold resolvePadding
  dsimp only
  split
  · exact ⟨C.error _ _ _, fun _ => rfl⟩
  · split
    · split
      · exact ⟨C.error _ _ _, fun _ => rfl⟩
      · exact ⟨C.refl s, fun h => by cases h⟩
    · have h := resolveLabelRef_quiet t (popFront t.lex) s
      split
      · rename_i heq; rw [heq] at h
        exact ⟨C.quiet h.1, fun _ => h.2 rfl⟩
      · rename_i name s1 heq; rw [heq] at h
        have h1 := C.quiet h.1
        split
        · split
          · exact ⟨C.trans h1 (C.error _ _ _), fun _ => rfl⟩
          · rename_i l ls hl
            refine ⟨C.trans h1 (C.frame ⟨rfl, rfl, rfl, rfl, rfl, rfl, rfl, ?_⟩), fun h => by cases h⟩
            intro x hx
            dsimp only at hl hx ⊢
            rw [hl]; exact List.mem_cons_of_mem _ hx
        · split
          · exact ⟨C.trans h1 (C.error _ _ _), fun _ => rfl⟩
          · rename_i n hn
            split
            · exact ⟨C.trans h1 (C.referenced _ n _ hn), fun h => by cases h⟩
            · exact ⟨C.trans h1 (C.error _ _ _), fun _ => rfl⟩

theorem processAbsPadding_good (t : Token) (s : Asm) : Good R s (processAbsPadding t s) := by
  unfold processAbsPadding
  have h := resolvePadding_good C t s
  split
  · rename_i heq; rw [heq] at h
    exact ⟨h.1, fun _ => h.2 rfl⟩
  · rename_i heq; rw [heq] at h
    exact C.ok (C.trans h.1 (C.quiet (setWriteAddr_quiet _ _)))

theorem processRelPadding_good (t : Token) (s : Asm) : Good R s (processRelPadding t s) := by
  unfold processRelPadding
  have h := resolvePadding_good C t s
  split
  · rename_i heq; rw [heq] at h
    exact ⟨h.1, fun _ => h.2 rfl⟩
  · rename_i heq; rw [heq] at h
    dsimp only
    refine C.ok (C.trans h.1 ?_)
    split
    · exact C.quiet ((setWriteAddr_quiet _ _).trans (warning_quiet _ _ _))
    · exact C.quiet (setWriteAddr_quiet _ _)

theorem processLitNumber_good (t : Token) (s : Asm) : Good R s (processLitNumber t s) := by
  unfold processLitNumber
  split
  · exact C.err _ _ _
  · split
    · exact C.andThen (emitOpcode_good C _ _ _ _) fun _ => emitByte_good C _ _ _ _
    · exact C.andThen (emitOpcode_good C _ _ _ _) fun _ => emitShort_good C _ _ _ _

theorem processRawNumber_good (t : Token) (s : Asm) : Good R s (processRawNumber t s) := by
  unfold processRawNumber
  split
  · exact C.err _ _ _
  · split
    · exact emitByte_good C _ _ _ _
    · exact emitShort_good C _ _ _ _

omit C in
theorem textLoop_cons (t : Token) (i : SymInfo) (c : Byte) (cs : Str) (s : Asm) :
    textLoop t i (c :: cs) s.writeAddr s = andThen (textStep t i c s) fun s' => textLoop t i cs s'.writeAddr s' := by
  rw [textLoop, textStep]
  unfold emit
  dsimp only
  by_cases h : s.writeAddr < RESET_VECTOR
  · rw [if_pos h]; rfl
  · rw [if_neg h]; rfl

theorem textLoop_good (t : Token) (i : SymInfo) (hi : i.type = .text) (cs : Str) (s : Asm) : Good R s (textLoop t i cs s.writeAddr s) := by
  induction cs generalizing s with
  | nil => exact C.ok (C.refl s)
  | cons c cs ih =>
    rw [textLoop_cons]
    exact C.andThen ⟨C.text _ _ _ _ hi, said_andThen (emit_said _ _ _ _) fun _ => said_ok _⟩ fun s' => ih s'

theorem processText_good (t : Token) (s : Asm) : Good R s (processText t s) := by
  unfold processText
  split
  · exact C.err _ _ _
  · exact textLoop_good C _ _ rfl _ _

/-! ## Nested units -/

/-- What is assumed of a nested unit. -/
def GoodN (R : Asm → Asm → Prop) (rec : Nested) : Prop := ∀ u s r, rec u s = some r → Good R s r

theorem runMacro_good (rec : Nested) (hrec : GoodN R rec) (t : Token) (name : Str) (n : Node) (body : List Token) (id : Short) (arg : Str) (u : Unit) (s : Asm)
    (hn : s.symtab name = some n) (he : isMacro n.entry) (r : Bool × Unit × Asm) (h : runMacro rec t name n body id arg u s = some r) : GoodU R s r := by
  unfold runMacro at h
  dsimp only at h
  have r0 := C.setMacro name n body id true s hn (.inr he)
  generalize hs0 : setNode name { n with entry := .macro body id true } s = s0 at h r0
  have hs0n : s0.symtab name = some { n with entry := .macro body id true } := by rw [← hs0]; simp [setNode]
  have r1 := C.quiet (setDepth_quiet (s0.depth + 1) s0)
  split at h
  · cases h
  · rename_i ok s2 heq
    have r2 := hrec _ _ _ heq
    have r3 := C.quiet (setDepth_quiet (s2.depth - 1) s2)
    have rr : R s { s2 with depth := s2.depth - 1 } := C.trans r0 (C.trans r1 (C.trans r2.1 r3))
    obtain ⟨n', hn', hm'⟩ := C.keeps (C.trans r1 (C.trans r2.1 r3)) name _ hs0n trivial
    rw [hn'] at h
    dsimp only at h
    have r4 := C.setMacro name n' body id false _ hn' (.inr hm')
    cases h
    cases ok with
    | true => exact C.ok (C.trans rr r4)
    | false => exact ⟨C.trans (C.trans rr r4) (C.error _ _ _), fun _ => rfl⟩

theorem expandMacro_good (rec : Nested) (hrec : GoodN R rec) (t : Token) (name : Str) (n : Node) (body : List Token) (id : Short) (x : Bool) (u : Unit) (s : Asm)
    (hn : s.symtab name = some n) (he : isMacro n.entry) (r : Bool × Unit × Asm) (h : expandMacro rec t name n body id x u s = some r) : GoodU R s r := by
  unfold expandMacro at h
  split at h
  · cases h; exact C.err _ _ _
  · split at h
    · cases h; exact C.err _ _ _
    · dsimp only at h
      have q1 := putSymbol_quiet 0 { type := .macroRef, name := some name, region := t.region, id := id } s (by simp) (by simp)
      generalize putSymbol 0 { type := .macroRef, name := some name, region := t.region, id := id } s = s1 at h q1
      split at h
      · have q2 := nextToken_quiet u s1
        split at h
        · rename_i u2 s2 heq; rw [heq] at q2
          have q := q1.trans q2
          cases h
          by_cases hs : s2.success = true
          · simp only [hs, if_true]
            exact ⟨C.quiet (q.trans (.error _ _ _)), fun _ => rfl⟩
          · simp only [hs]
            exact ⟨C.quiet q, fun _ => by simpa using hs⟩
        · rename_i a u2 s2 heq; rw [heq] at q2
          have q := q1.trans q2
          exact C.from (C.quiet q) (runMacro_good C rec hrec _ _ _ _ _ _ _ _ (by rw [q.symtab]; exact hn) he r h)
      · exact C.from (C.quiet q1) (runMacro_good C rec hrec _ _ _ _ _ _ _ _ (by rw [q1.symtab]; exact hn) he r h)

theorem processWord_good (rec : Nested) (hrec : GoodN R rec) (t : Token) (u : Unit) (s : Asm) (r : Bool × Unit × Asm) (h : processWord rec t u s = some r) :
    GoodU R s r := by
  unfold processWord at h
  split at h
  · rename_i op red _
    cases red with
    | false =>
      cases h
      exact emitOpcode_good C _ _ _ _
    | true =>
      cases h
      exact C.from (C.quiet (warning_quiet _ _ _)) (emitOpcode_good C _ _ _ _)
  · have h2 := C.findOrCreate t t.lex s
    have hs2 := findOrCreate_said t t.lex s
    split at h
    · rename_i heq; rw [heq] at h2 hs2
      cases h
      exact ⟨h2, fun _ => hs2 rfl⟩
    · rename_i n s1 heq
      have hn := findOrCreate_node _ _ _ _ _ heq
      rw [heq] at h2
      refine C.from h2 ?_
      split at h
      · rename_i body id x hent
        dsimp only at h
        refine C.from (C.referenced t.lex n s1 hn) (expandMacro_good C rec hrec _ _ { n with referenced := true } _ _ _ _ _ (by simp [setNode]) ?_ r h)
        dsimp only; rw [hent]; trivial
      · rename_i id addr hent
        cases h
        refine C.from (C.referenced t.lex n s1 hn) (C.andThen' (emitOpcode_good C _ _ _ _) fun hok => ?_)
        refine ⟨C.backward _ _ _ _ _ _ _ _ { n with referenced := true } ?_ hent, emitBackwardRef_said _ _ _ _ _ _ _ _ _⟩
        rw [emitOpcode_symtab]; simp [setNode]
      · rename_i hent
        cases h
        refine C.andThen' (emitOpcode_good C _ _ _ _) fun hok => ?_
        exact ⟨C.forward _ _ _ _ _ _ _ (by rw [emitOpcode_symtab]; exact hn) (by rw [hent]; trivial), emitForwardRef_said _ _ _ _ _ _ _⟩
      · rename_i hent
        cases h
        refine C.andThen' (emitOpcode_good C _ _ _ _) fun hok => ?_
        exact ⟨C.forward _ _ _ _ _ _ _ (by rw [emitOpcode_symtab]; exact hn) (by rw [hent]; trivial), emitForwardRef_said _ _ _ _ _ _ _⟩

theorem processFile_good (files : Files) (rec : Nested) (hrec : GoodN R rec) (path : Str) (s : Asm) (r : Bool × Asm) (h : processFile files rec path s = some r) :
    Good R s r := by
  unfold processFile at h
  dsimp only at h
  have q : Quiet s { s with log := .fopen (cstr path) :: s.log } := .event _ _ ⟨trivial, fun _ _ h => by cases h⟩
  split at h
  · cases h; exact C.from (C.quiet q) (C.err _ _ _)
  · split at h
    · cases h
    · rename_i ok s1 heq
      have h1 := hrec _ _ _ heq
      cases h
      have q2 : Quiet s1 { s1 with log := .fclose (cstr path) :: s1.log } := .event _ _ ⟨trivial, fun _ _ h => by cases h⟩
      exact ⟨C.trans (C.quiet q) (C.trans h1.1 (C.quiet q2)), h1.2⟩

theorem processInclude_good (files : Files) (rec : Nested) (hrec : GoodN R rec) (name : Str) (t : Token) (s : Asm) (r : Bool × Asm)
    (h : processInclude files rec name t s = some r) : Good R s r := by
  unfold processInclude at h
  split at h
  · cases h; exact C.ok (C.refl s)
  · dsimp only at h
    have q : Quiet s { s with includes := name :: s.includes, depth := s.depth + 1 } := .frame ⟨rfl, rfl, rfl, rfl, rfl, rfl, rfl, fun _ h => h⟩
    split at h
    · cases h
    · rename_i ok s1 heq
      have h1 := processFile_good C files rec hrec _ _ _ heq
      have rr := C.trans (C.quiet q) (C.trans h1.1 (C.quiet (setDepth_quiet (s1.depth - 1) s1)))
      cases h
      cases ok with
      | true => exact C.ok rr
      | false => exact C.from rr (C.err _ _ _)

theorem processTilde_good (files : Files) (rec : Nested) (hrec : GoodN R rec) (t : Token) (s : Asm) (r : Bool × Asm)
    (h : processTilde files rec t s = some r) : Good R s r := by
  unfold processTilde at h
  split at h
  · cases h; exact C.err _ _ _
  · dsimp only at h
    generalize hf : (if decide ((popFront t.lex).head? = some (ch '~')) = true then popFront (popFront t.lex) else popFront t.lex) = f at h
    have q := putSymbol_quiet s.writeAddr { type := .include, name := some f, region := t.region } s (by simp) (by simp)
    generalize putSymbol s.writeAddr { type := .include, name := some f, region := t.region } s = s1 at h q
    split at h
    · cases h
      refine C.ok (C.trans (C.quiet q) ?_)
      split
      · exact C.refl _
      · exact C.frame ⟨rfl, rfl, rfl, rfl, rfl, rfl, rfl, fun _ h => h⟩
    · exact C.from (C.quiet q) (processInclude_good C files rec hrec _ _ _ _ h)

theorem keep_good {u : Unit} {s : Asm} {x : Bool × Asm} {r : Bool × Unit × Asm} (hx : Good R s x) (h : keep u x = some r) : GoodU R s r := by
  cases h; exact hx

omit C in
theorem ite_some {α : Type} {P : α → Prop} {c : Prop} [Decidable c] {a b : Option α} (ha : ∀ r, a = some r → P r) (hb : ∀ r, b = some r → P r) :
    ∀ r, (if c then a else b) = some r → P r := by
  intro r h
  split at h
  exacts [ha r h, hb r h]

theorem ite_good {c : Prop} [Decidable c] {s : Asm} {a b : Bool × Asm} (ha : Good R s a) (hb : Good R s b) : Good R s (if c then a else b) := by
  split
  exacts [ha, hb]

theorem processToken_good (files : Files) (rec : Nested) (hrec : GoodN R rec) (t : Token) (u : Unit) (s : Asm) :
    ∀ r, processToken files rec t u s = some r → GoodU R s r := by
  have lab : ∀ op k z, Good R s (Asm.andThen (emitOpcode t op true s) fun s => emitLabelRef t k z (popFront t.lex) true s) := fun op k z =>
    C.andThen (emitOpcode_good C _ _ _ _) fun _ => emitLabelRef_good C _ _ _ _ _ _
  unfold processToken
  dsimp only
  refine ite_some (fun r h => ?_) <| ite_some (fun r h => ?_) <| ite_some (fun r h => ?_) <| ite_some (fun r h => ?_) <| ite_some (fun r h => ?_) <|
    ite_some (fun r h => ?_) <| ite_some (fun r h => ?_) <| ite_some (fun r h => ?_) <| ite_some (fun r h => ?_) <| ite_some (fun r h => ?_) <|
    ite_some (fun r h => ?_) <| ite_some (fun r h => ?_) <| ite_some (fun r h => ?_) <| ite_some (fun r h => ?_) <| ite_some (fun r h => ?_) <|
    ite_some (fun r h => ?_) <| ite_some (fun r h => ?_) <| ite_some (fun r h => ?_) <| ite_some (fun r h => ?_) <| ite_some (fun r h => ?_) <|
    ite_some (fun r h => ?_) <| ite_some (fun r h => ?_) <| ite_some (fun r h => ?_) <| ite_some (fun r h => ?_) (fun r h => ?_)
  · cases h
    have := processComment_quiet t u s
    exact ⟨C.quiet this.1, this.2⟩
  · exact keep_good C (C.err _ _ _) h
  · exact keep_good C (C.ok (C.quiet (processMark_quiet _ _))) h
  · exact keep_good C (ite_good C (C.err _ _ _) (C.ok (C.quiet (processMark_quiet _ _)))) h
  · rw [Option.map_eq_some_iff] at h
    obtain ⟨x, hx, rfl⟩ := h
    exact processTilde_good C files rec hrec t s x hx
  · cases h; exact processMacro_good C _ _ _
  · exact keep_good C (processGlobalLabel_good C _ _) h
  · exact keep_good C (processLocalLabel_good C _ _) h
  · exact keep_good C (lab _ _ _) h
  · exact keep_good C (lab _ _ _) h
  · exact keep_good C (ite_good C (C.err _ _ _) ⟨C.close _ _, processLambdaClose_said _ _⟩) h
  · exact keep_good C (ite_good C (C.err _ _ _) (emitJsi_good C _ _)) h
  · exact keep_good C (emitJsi_good C _ _) h
  · exact keep_good C (processAbsPadding_good C _ _) h
  · exact keep_good C (processRelPadding_good C _ _) h
  · exact keep_good C (processLitNumber_good C _ _) h
  · exact keep_good C (lab _ _ _) h
  · exact keep_good C (emitLabelRef_good C _ _ _ _ _ _) h
  · exact keep_good C (lab _ _ _) h
  · exact keep_good C (emitLabelRef_good C _ _ _ _ _ _) h
  · exact keep_good C (lab _ _ _) h
  · exact keep_good C (emitLabelRef_good C _ _ _ _ _ _) h
  · exact keep_good C (processText_good C _ _) h
  · exact keep_good C (processRawNumber_good C _ _) h
  · exact processWord_good C rec hrec t u s r h

theorem unitLoop_good (files : Files) (rec : Nested) (hrec : GoodN R rec) (fuel : Nat) (u : Unit) (s : Asm) (r : Bool × Asm)
    (h : unitLoop files rec fuel u s = some r) : Good R s r := by
  induction fuel generalizing u s with
  | zero => cases h
  | succ fuel ih =>
    rw [unitLoop] at h
    have q := nextToken_quiet u s
    split at h
    · rename_i s1 heq; rw [heq] at q
      cases h
      exact ⟨C.quiet q, fun h => h⟩
    · rename_i t u1 s1 heq; rw [heq] at q
      split at h
      · cases h
      · rename_i u2 s2 heq2
        cases h
        exact C.from (C.quiet q) (processToken_good C files rec hrec t u1 s1 _ heq2)
      · rename_i u2 s2 heq2
        have h2 := processToken_good C files rec hrec t u1 s1 _ heq2
        exact C.from (C.trans (C.quiet q) h2.1) (ih _ _ h)

theorem processUnit_good (files : Files) (fuel levels : Nat) : GoodN R (processUnit files fuel levels) := by
  induction levels with
  | zero =>
    intro u s r h
    exact unitLoop_good C files _ (fun _ _ _ h => by cases h) fuel u s r h
  | succ levels ih =>
    intro u s r h
    exact unitLoop_good C files _ ih fuel u s r h

theorem deferredLoop_good (files : Files) (rec : Nested) (hrec : GoodN R rec) (fuel i : Nat) (s : Asm) (r : Bool × Asm)
    (h : deferredLoop files rec fuel i s = some r) : Good R s r := by
  induction fuel generalizing i s with
  | zero => cases h
  | succ fuel ih =>
    rw [deferredLoop] at h
    split at h
    · cases h; exact C.ok (C.refl s)
    · split at h
      · cases h
      · rename_i heq
        cases h
        exact processInclude_good C files rec hrec _ _ _ _ heq
      · rename_i heq
        exact C.from (processInclude_good C files rec hrec _ _ _ _ heq).1 (ih _ _ h)

theorem resolve_good (hrep : ∀ m r s, R s (warning m r s)) (files : Files) (rec : Nested) (hrec : GoodN R rec) (fuel : Nat) (s : Asm) (r : Bool × Asm)
    (h : resolve files rec fuel s = some r) : Good R s r := by
  unfold resolve at h
  split at h
  · cases h
  · rename_i heq
    cases h
    exact deferredLoop_good C files rec hrec _ _ _ _ heq
  · rename_i s1 heq
    cases h
    have := (deferredLoop_good C files rec hrec _ _ _ _ heq).1
    refine ⟨C.trans this (C.closing hrep ?_), fun h => h⟩
    exact ((Closing.quiet (reportLambdas_quiet _ _)).trans (reportAtLabels_quiet _ _)).trans (reportSymbols_quiet _ _)

/-- The whole assembler. -/
theorem assemble_good (hrep : ∀ m r s, R s (warning m r s)) (files : Files) (fuel : Nat) (filename : Str) (r : Bool × Asm) (h : assemble files fuel filename = some r) :
    R initial r.2 ∧ r.1 = r.2.success := by
  unfold assemble at h
  dsimp only at h
  have hrec := processUnit_good C files fuel MAX_DEPTH
  split at h
  · cases h
  · rename_i heq
    cases h
    exact ⟨(processFile_good C files _ hrec _ _ _ heq).1, rfl⟩
  · rename_i s1 heq
    have h1 := (processFile_good C files _ hrec _ _ _ heq).1
    split at h
    · cases h
    · rename_i heq2
      cases h
      exact ⟨C.trans h1 (resolve_good C hrep files _ hrec _ _ _ heq2).1, rfl⟩

end

end Buxn.Asm
