import Verif.Chess.Trail
import Verif.Asm.DbgSyms
/-!
# What the checker reads (C93)

The checker asks for the bytes of the ROM one at a time (`buxn_chess_get_rom`). Here it is shown that what it reports, and its verdict, depend on nothing but the bytes for which the
assembler has reported a symbol, and these are the bytes that it has emitted (C42): what is in memory beside the program does not matter.
-/

namespace Buxn.Chess

open Buxn.Asm (Str SymInfo SymType)
open Buxn.VM (dispatch)

/-- A program with other bytes in memory. -/
abbrev Program.onto (P : Program) (rom : Short → Byte) : Program := { P with rom := rom }

/-- The same bytes where there are symbols. -/
def Alike (P : Program) (rom : Short → Byte) : Prop := ∀ a, P.sym a ≠ none → rom a = P.rom a

variable {P : Program} {rom : Short → Byte}

theorem immediate_onto (h : Alike P rom) (c : Run) : immediate (P.onto rom) c = immediate P c := by
  unfold immediate
  dsimp only
  cases h1 : P.sym c.pc with
  | none => rfl
  | some x =>
    cases h2 : P.sym (c.pc + 1) with
    | none => rfl
    | some y =>
      dsimp only
      have e : rom2 (P.onto rom) c.pc (c.pc + 1) = rom2 P c.pc (c.pc + 1) := by
        unfold rom2
        show (rom _).setWidth 16 <<< 8 ||| (rom _).setWidth 16 = _
        rw [h _ (by rw [h1]; simp), h _ (by rw [h2]; simp)]
      rw [e]

theorem litByte_onto (h : Alike P rom) (a : Short) (c : Run) : litByte (P.onto rom) a (P.sym a) c = litByte P a (P.sym a) c := by
  unfold litByte
  cases h1 : P.sym a with
  | none => rfl
  | some x =>
    dsimp only
    rw [h a (by rw [h1]; simp)]

theorem lit2_onto (h : Alike P rom) (c : Run) : lit2 (P.onto rom) c = lit2 P c := by
  unfold lit2
  dsimp only
  cases hl : P.label c.pc with
  | some sig =>
    dsimp only
    cases hm : P.label (c.pc + 1) with
    | some sig' => rfl
    | none =>
      dsimp only
      have e := litByte_onto h (c.pc + 1) (push (labelValue sig) { c with pc := c.pc + 2 })
      cases h2 : P.sym (c.pc + 1) with
      | none => rfl
      | some s =>
        rw [h2] at e
        dsimp only
        rw [e]
  | none =>
    dsimp only
    split
    · rename_i hs
      cases h1 : P.sym c.pc with
      | none => rfl
      | some s =>
        dsimp only
        have h2 : P.sym (c.pc + 1) ≠ none := by
          intro e
          rw [h1, e] at hs
          cases hs
        have e : rom2 (P.onto rom) c.pc (c.pc + 1) = rom2 P c.pc (c.pc + 1) := by
          unfold rom2
          show (rom _).setWidth 16 <<< 8 ||| (rom _).setWidth 16 = _
          rw [h _ (by rw [h1]; simp), h _ h2]
        rw [e]
    · rw [litByte_onto h, litByte_onto h]

theorem opLIT_onto (h : Alike P rom) (c : Run) : opLIT (P.onto rom) c = opLIT P c := by
  unfold opLIT
  split
  · exact lit2_onto h c
  dsimp only
  cases hl : P.label c.pc with
  | some sig => rfl
  | none =>
    dsimp only
    have e := litByte_onto h c.pc { c with pc := c.pc + 1 }
    cases h1 : P.sym c.pc with
    | none => rfl
    | some s =>
      rw [h1] at e
      dsimp only
      rw [e]

theorem opPoly_onto (op : Buxn.VM.Op) (c : Run) : opPoly (P.onto rom) op c = opPoly P op c := by
  cases op <;> rfl

theorem perform_onto (h : Alike P rom) (c : Run) : perform (P.onto rom) c = perform P c := by
  unfold perform
  split
  · rfl
  · unfold opJCI; rw [immediate_onto h]; rfl
  · unfold opJMI; rw [immediate_onto h]; rfl
  · unfold opJSI; rw [immediate_onto h]; rfl
  · exact opLIT_onto h c
  · exact opPoly_onto _ c
  · rfl

/-- Two states of the checker that differ at most in the opcode that a trace has ended with. -/
def Twins (c c' : Run) : Prop := ∃ o, c' = { c with opcode := o } ∧ (c.running = true → c.terminated = false → o = c.opcode)

theorem Twins.refl (c : Run) : Twins c c := ⟨c.opcode, rfl, fun _ _ => rfl⟩

theorem instruction_onto (h : Alike P rom) (c : Run) : Twins (instruction P c) (instruction (P.onto rom) c) := by
  unfold instruction
  dsimp only
  cases h1 : P.sym c.pc with
  | none =>
    refine ⟨rom c.pc, rfl, fun _ ht => ?_⟩
    cases ht
  | some s =>
    dsimp only
    rw [h c.pc (by rw [h1]; simp)]
    split
    · exact .refl _
    · rw [perform_onto h]
      exact .refl _

theorem round_onto (h : Alike P rom) (c : Run) : Twins (round P c) (round (P.onto rom) c) := by
  unfold round
  split
  · exact .refl _
  · have e : isRoutine (P.onto rom) c.pc = isRoutine P c.pc := rfl
    rw [e]
    split
    · exact .refl _
    · exact instruction_onto h c

theorem advance_onto (h : Alike P rom) {c c' : Run} (ht : Twins c c') :
    (advance P c = none ∧ advance (P.onto rom) c' = none) ∨ ∃ d d', advance P c = some d ∧ advance (P.onto rom) c' = some d' ∧ Twins d d' := by
  obtain ⟨o, rfl, ho⟩ := ht
  unfold advance
  dsimp only
  by_cases hr : c.running = true
  · rw [if_pos hr, if_pos hr]
    by_cases hm : c.terminated = true
    · rw [if_pos hm, if_pos hm]
      refine .inr ⟨_, _, rfl, rfl, o, rfl, fun hx => ?_⟩
      cases hx
    · rw [if_neg hm, if_neg hm]
      have : o = c.opcode := ho hr (by simpa using hm)
      subst this
      exact .inr ⟨_, _, rfl, rfl, round_onto h c⟩
  · rw [if_neg hr, if_neg hr]
    cases hq : c.queue with
    | nil => exact .inl ⟨rfl, rfl⟩
    | cons e q =>
      refine .inr ⟨_, _, rfl, rfl, ?_⟩
      unfold startTrace
      dsimp only
      cases P.sym e.address with
      | none => exact .refl _
      | some s => exact .refl _

theorem steps_onto (h : Alike P rom) (n : Nat) {c c' : Run} (ht : Twins c c') : Twins (steps P n c) (steps (P.onto rom) n c') := by
  induction n generalizing c c' with
  | zero => exact ht
  | succ n ih =>
    unfold steps
    rcases advance_onto h ht with ⟨e1, e2⟩ | ⟨d, d', e1, e2, h2⟩
    · rw [e1, e2]
      exact ht
    · rw [e1, e2]
      exact ih h2

theorem checkTermination_onto (keys : List Short) {c c' : Run} (h : ∃ o, c' = { c with opcode := o }) :
    ∃ o, checkTermination keys c' = { checkTermination keys c with opcode := o } := by
  induction keys generalizing c c' with
  | nil => exact h
  | cons a as ih =>
    obtain ⟨o, rfl⟩ := h
    unfold checkTermination
    dsimp only
    split
    · exact ih ⟨o, rfl⟩
    · exact ih ⟨o, rfl⟩

/-! ## The symbols -/

/-- A symbol stands for a byte, `chess.c:2609-2612`. -/
def IsByte (t : SymType) : Prop := t = .opcode ∨ t = .labelRef ∨ t = .number ∨ t = .text

/-- Reading annotations does not touch the symbols. -/
theorem signatureToken_sym (t : Str) (r : Reader) : (signatureToken t r).sym = r.sym := by
  unfold signatureToken
  have h : (if r.isSealed then r.reject .sealed else r).sym = r.sym := by split <;> rfl
  generalize (if r.isSealed then r.reject .sealed else r) = r' at h
  dsimp only
  rw [← h]
  repeat' split
  all_goals rfl

theorem castToken_sym (t : Str) (r : Reader) : (castToken t r).sym = r.sym := by
  unfold castToken
  have h : (if r.isSealed then r.reject .sealed else r).sym = r.sym := by split <;> rfl
  generalize (if r.isSealed then r.reject .sealed else r) = r' at h
  dsimp only
  rw [← h]
  repeat' split
  all_goals rfl

theorem secondStage_sym (k : Handler) (t : Str) (r : Reader) : (secondStage k t r).sym = r.sym := by
  unfold secondStage
  split
  · rfl
  · split
    · exact signatureToken_sym t r
    · exact castToken_sym t r

theorem buffer_sym (b : Bool) (k : Handler) (t : Str) (r : Reader) : (buffer b k t r).sym = r.sym := by
  unfold buffer
  dsimp only
  split
  · rw [secondStage_sym]
    have : ∀ (ts : List Str) (r : Reader), (ts.foldl (fun r t => secondStage k t r) r).sym = r.sym := by
      intro ts
      induction ts with
      | nil => intro r; rfl
      | cons t ts ih => intro r; rw [List.foldl_cons, ih, secondStage_sym]
    rw [this]
  · repeat' split
    all_goals rfl

theorem annotate_sym (t : Str) (r : Reader) : (annotate t r).sym = r.sym := by
  unfold annotate
  split
  · rfl
  · dsimp only
    rw [buffer_sym]
    split <;> rfl
  · exact signatureToken_sym t r
  · dsimp only
    rw [buffer_sym]
    split <;> rfl
  · exact castToken_sym t r

theorem annotationEnd_sym (r : Reader) : (annotationEnd r).sym = r.sym := by
  unfold annotationEnd
  split
  · rfl
  · show (signatureEnd r).sym = _
    unfold signatureEnd
    repeat' split
    all_goals first | rfl | (dsimp only; split <;> rfl)
  · show (castEnd r).sym = _
    unfold castEnd
    split <;> rfl
  · rfl

theorem handleComment_sym (i : SymInfo) (r : Reader) : (handleComment i r).sym = r.sym := by
  unfold handleComment
  dsimp only
  split
  · repeat' split
    all_goals rfl
  split
  · exact annotationEnd_sym r
  split
  · exact annotate_sym _ r
  · rfl

theorem ensure_sym (a : Short) (r : Reader) : (r.ensure a).sym = r.sym := by
  unfold Reader.ensure
  split <;> rfl

theorem finish_sym (r : Reader) : r.finish.sym = r.sym := by
  unfold Reader.finish
  dsimp only
  split
  · exact ensure_sym _ _
  · exact ensure_sym _ _

theorem handleCode_sym (a : Short) (i : SymInfo) (r : Reader) : ∃ s, (handleCode a i r).sym = Buxn.upd r.sym a (some s) := by
  unfold handleCode
  dsimp only
  have h : ∀ r0 : Reader, (if i.type = .opcode then
      { r0 with curType := i.type, curGenerated := i.generated, curAddr := a, handler := none, hasCur := true }
    else r0).sym = r0.sym := by intro r0; split <;> rfl
  have h := h { r with lowCode := r.lowCode || decide (a.toNat < 256) }
  generalize (if i.type = .opcode then
      { r with lowCode := r.lowCode || decide (a.toNat < 256), curType := i.type, curGenerated := i.generated, curAddr := a, handler := none, hasCur := true }
    else { r with lowCode := r.lowCode || decide (a.toNat < 256) }) = r' at h ⊢
  have h : r'.sym = r.sym := h
  rw [← h]
  split
  · split <;> exact ⟨_, rfl⟩
  · exact ⟨_, rfl⟩

theorem handleSymbol_sym (a : Short) (i : SymInfo) (r : Reader) (b : Short) (h : (handleSymbol a i r).sym b ≠ none) :
    r.sym b ≠ none ∨ a = b ∧ IsByte i.type := by
  unfold handleSymbol at h
  split at h
  · rw [handleComment_sym] at h; exact .inl h
  · split at h
    · exact .inl h
    · rw [ensure_sym] at h; exact .inl h
  all_goals first
    | (exact .inl h)
    | (rename_i ht
       obtain ⟨s, e⟩ := handleCode_sym a i r
       rw [e] at h
       by_cases hb : b = a
       · exact .inr ⟨hb.symm, by unfold IsByte; rw [ht]; simp⟩
       · rw [Buxn.upd_other _ _ hb] at h; exact .inl h)

/-- An address has a symbol only if the assembler has reported one there that stands for a byte. -/
theorem readAll_sym (events : List Asm.Event) (b : Short) (h : (readAll events).finish.sym b ≠ none) : ∃ i, .sym b i ∈ events ∧ IsByte i.type := by
  rw [finish_sym] at h
  unfold readAll at h
  have : ∀ (es : List Asm.Event) (r : Reader), (es.foldl (fun r e => match e with
      | .sym a i => handleSymbol a i r
      | _ => r) r).sym b ≠ none → r.sym b ≠ none ∨ ∃ i, .sym b i ∈ es ∧ IsByte i.type := by
    intro es
    induction es with
    | nil => intro r h; exact .inl h
    | cons e es ih =>
      intro r h
      rw [List.foldl_cons] at h
      rcases ih _ h with h | ⟨i, h1, h2⟩
      · split at h
        · rename_i a i
          rcases handleSymbol_sym _ _ r b h with h | ⟨rfl, hb⟩
          · exact .inl h
          · exact .inr ⟨_, List.mem_cons_self, hb⟩
        · exact .inl h
      · exact .inr ⟨i, List.mem_cons_of_mem _ h1, h2⟩
  rcases this events Reader.begin h with h | h
  · exact absurd rfl h
  · exact h

/-! ## C93 -/

/-- Two memories that are the same wherever the assembler has reported a symbol that stands for a byte. -/
def SameBytes (events : List Asm.Event) (rom rom' : Short → Byte) : Prop := ∀ a i, .sym a i ∈ events → IsByte i.type → rom a = rom' a

/-- What the host of the checker gets to know: everything that is reported, and the verdict. -/
def Run.verdict (c : Run) : List Event × Bool := (c.log, c.success)

theorem alike_of {events : List Asm.Event} {rom rom' : Short → Byte} (h : SameBytes events rom rom') : Alike ((readAll events).finish.program rom) rom' := by
  intro a ha
  obtain ⟨i, h1, h2⟩ := readAll_sym events a ha
  exact (h a i h1 h2).symm

/-- **C93.** The checker reads nothing but the bytes of the program: whatever else is in memory, it reports the same and comes to the same verdict, in as many steps. -/
theorem C93_reads (rom rom' : Short → Byte) (events : List Asm.Event) (n : Nat) (h : SameBytes events rom rom') :
    (check rom events n).map Run.verdict = (check rom' events n).map Run.verdict := by
  have ha := alike_of h
  unfold check
  dsimp only
  rw [show (readAll events).finish.program rom' = ((readAll events).finish.program rom).onto rom' from rfl]
  have ht := steps_onto ha n (Twins.refl (readAll events).finish.run)
  rcases advance_onto ha ht with ⟨e1, e2⟩ | ⟨d, d', e1, e2, -⟩
  · rw [e1, e2]
    dsimp only
    obtain ⟨o, e, -⟩ := ht
    obtain ⟨o', e'⟩ := checkTermination_onto (readAll events).finish.keys ⟨o, e⟩
    rw [e']
    rfl
  · rw [e1, e2]

/-- **C93.** For a program that is assembled these bytes are those that the assembler has emitted (C42): two memories that hold the same program are the same to the checker. -/
theorem C93_program (files : Asm.Files) (fuel : Nat) (filename : Str) (s : Asm.Asm) (h : Asm.assemble files fuel filename = some (true, s)) (rom rom' : Short → Byte)
    (hr : ∀ a ∈ Asm.Spec.emitted s.log, rom a = rom' a) (n : Nat) :
    (check rom s.log.reverse n).map Run.verdict = (check rom' s.log.reverse n).map Run.verdict := by
  refine C93_reads rom rom' _ n fun a i hi ht => hr a ?_
  rw [← Asm.C42_bytes files fuel filename s h]
  unfold Asm.symbolBytes
  refine List.mem_filterMap.2 ⟨.sym a i, List.mem_reverse.1 hi, ?_⟩
  rcases ht with e | e | e | e <;> (dsimp only; rw [e]; rfl)

end Buxn.Chess
