import Verif.Asm.Warnings
import Verif.Asm.Mnemonics
/-!
# C86: warnings about one token

Redundant flags of an instruction, padding that wraps around, zero-page references to labels past the zero page.
-/

namespace Buxn.Asm.Meaning
open Buxn.VM Buxn.Asm Buxn.Asm.Spec

/-- The message of `asm.c:2035`. -/
def redundantFlags : String := "Opcode contains redundant flags"

/-- The message of `asm.c:1857`. -/
def wrapsAround : String := "Relative padding caused wrap around"

theorem emitOpcode_mute {Q : String → Prop} (t : Token) (op : Byte) (r : Bool) (s : Asm) : Mute Q s (emitOpcode t op r s).2 := by
  unfold emitOpcode
  exact mute_andThen (emit_mute _ _ _ _) fun _ => putSymbol_mute _ _ _

/-- What a word that is an instruction reports. -/
theorem opcode_warned (files : Files) (rec : Nested) (t : Token) (u : Unit) (s : Asm) (op : Byte) (red : Bool) (hp : parseOpcode t.lex = some (op, red))
    (hup : isUppercased (t.lex.headD 0) = true) :
    ∃ ok s', processToken files rec t u s = some (ok, u, s') ∧ warned redundantFlags s'.log = warned redundantFlags s.log ++ if red then [t.region] else [] := by
  rw [processToken_upper files rec t u s hup, processWord, hp]
  refine ⟨(emitOpcode t op false (if red = true then warning redundantFlags t.region s else s)).1, (emitOpcode t op false (if red = true then warning redundantFlags t.region s else s)).2, rfl, ?_⟩
  rw [(emitOpcode_mute (Q := fun _ => True) t op false _).warned _ trivial]
  cases red with
  | true => exact warned_warning _ _ _
  | false => simp

/-- **C86.** An instruction is reported for redundant flags exactly if a flag occurs twice or, after `LIT`, if there is a `k`; it is reported once, at the word. -/
theorem C86_redundant_flags (files : Files) (rec : Nested) (t : Token) (u : Unit) (s : Asm) (fl : Str) (hfl : Flags fl) (n : String) (hn : n = "LIT" ∨ ∃ o, n = opName o) (ht : t.lex = str n ++ fl) :
    ∃ ok s', processToken files rec t u s = some (ok, u, s') ∧
      (¬ fl.Nodup ∨ n = "LIT" ∧ ch 'k' ∈ fl → warned redundantFlags s'.log = warned redundantFlags s.log ++ [t.region]) ∧
      (fl.Nodup → (n = "LIT" → ch 'k' ∉ fl) → warned redundantFlags s'.log = warned redundantFlags s.log) := by
  rcases hn with rfl | ⟨o, rfl⟩
  · obtain ⟨r, hr, -⟩ := opFlags_ok fl 0x80 false hfl
    have hp : parseOpcode t.lex = some (0x80 ||| maskOf fl, r) := by rw [ht, parse_lit, hr]
    have hred := (C33_redundant fl hfl _ r).1 (by rw [parse_lit, hr])
    obtain ⟨ok, s', h1, h2⟩ := opcode_warned files rec t u s _ r hp (by rw [ht]; rfl)
    refine ⟨ok, s', h1, fun h => ?_, fun h h' => ?_⟩
    · rw [h2, if_pos (hred.2 (h.imp id (·.2)))]
    · rw [h2, if_neg, List.append_nil]
      intro hx
      rcases hred.1 hx with h'' | h''
      · exact h'' h
      · exact h' rfl h''
  · obtain ⟨r, hr, -⟩ := opFlags_ok fl (BitVec.ofNat 8 (Buxn.VM.Spec.mnemonics.idxOf o + 1)) false hfl
    have hp : parseOpcode t.lex = some (BitVec.ofNat 8 (Buxn.VM.Spec.mnemonics.idxOf o + 1) ||| maskOf fl, r) := by rw [ht, parse_op, hr]
    have hred := (C33_redundant fl hfl _ r).2 o (by rw [parse_op, hr])
    have hne : opName o ≠ "LIT" := by cases o <;> decide
    obtain ⟨ok, s', h1, h2⟩ := opcode_warned files rec t u s _ r hp (by rw [ht]; cases o <;> rfl)
    refine ⟨ok, s', h1, fun h => ?_, fun h _ => ?_⟩
    · rw [h2, if_pos (hred.2 (h.resolve_right fun h => hne h.1))]
    · rw [h2, if_neg (fun hx => hred.1 hx h), List.append_nil]

theorem resolvePadding_mute {Q : String → Prop} (t : Token) (s : Asm) : Mute Q s (resolvePadding t s).2 ∧ (resolvePadding t s).2.writeAddr = s.writeAddr := by
  unfold resolvePadding
  dsimp only
  by_cases h1 : (popFront t.lex).length = 0
  · rw [if_pos h1]; exact ⟨error_mute _ _ _, rfl⟩
  rw [if_neg h1]
  by_cases h2 : isNumber (popFront t.lex) = true
  · rw [if_pos h2]
    split
    · exact ⟨error_mute _ _ _, rfl⟩
    · exact ⟨.refl s, rfl⟩
  rw [if_neg h2]
  have h3 : Mute Q s (resolveLabelRef t (popFront t.lex) s).2 ∧ (resolveLabelRef t (popFront t.lex) s).2.writeAddr = s.writeAddr := by
    unfold resolveLabelRef
    split
    · exact ⟨error_mute _ _ _, rfl⟩
    · split
      · unfold resolveLocalName
        split
        · exact ⟨error_mute _ _ _, rfl⟩
        · exact ⟨.refl s, rfl⟩
      · exact ⟨.refl s, rfl⟩
  generalize resolveLabelRef t (popFront t.lex) s = q at h3 ⊢
  obtain ⟨name, s1⟩ := q
  cases name with
  | none => exact h3
  | some name =>
    dsimp only at h3 ⊢
    obtain ⟨h3, h4⟩ := h3
    split
    · split
      · exact ⟨h3.trans (error_mute _ _ _), h4⟩
      · rename_i l ls hl
        exact ⟨h3.trans ⟨fun _ _ => rfl, fun _ h => h, fun x hx => by rw [hl]; exact List.mem_cons_of_mem _ hx, rfl, fun _ h => h⟩, h4⟩
    · split
      · exact ⟨h3.trans (error_mute _ _ _), h4⟩
      · split
        · exact ⟨h3.trans (setNode_mute _ _ _), h4⟩
        · exact ⟨h3.trans (error_mute _ _ _), h4⟩

/-- **C86.** Relative padding that goes through is reported exactly if the address after it is below the address before it; once, at the word. -/
theorem C86_wraps (files : Files) (rec : Nested) (t : Token) (u u' : Unit) (s s' : Asm) (hd : t.lex.headD 0 = ch '$') (h : processToken files rec t u s = some (true, u', s')) :
    warned wrapsAround s'.log = warned wrapsAround s.log ++ if s'.writeAddr.toNat < s.writeAddr.toNat then [t.region] else [] := by
  have hstep : processToken files rec t u s = keep u (processRelPadding t s) := by
    rw [processToken]
    rw [hd]
    rfl
  rw [hstep] at h
  unfold keep processRelPadding at h
  obtain ⟨hm, hw⟩ := resolvePadding_mute (Q := fun _ => True) t s
  have hlog := hm.warned wrapsAround trivial
  generalize resolvePadding t s = q at h hw hlog
  obtain ⟨p, s1⟩ := q
  cases p with
  | none => cases h
  | some p =>
    simp only [Option.some.injEq, Prod.mk.injEq, true_and] at h
    obtain ⟨-, rfl⟩ := h
    dsimp only at hw hlog
    by_cases hlt : s1.writeAddr + p < s1.writeAddr
    · rw [if_pos hlt]
      rw [if_pos (show (warning "Relative padding caused wrap around" t.region { s1 with writeAddr := s1.writeAddr + p }).writeAddr.toNat < s.writeAddr.toNat by rw [← hw]; exact hlt), ← hlog]
      exact warned_warning _ _ _
    · rw [if_neg hlt]
      rw [if_neg (by rw [← hw]; exact hlt), List.append_nil]
      exact hlog

theorem calculateAddr_warned (t : Token) (k : RefKind) (a l : Short) (s : Asm) :
    warned zeroPage (calculateAddr t k a l s).2.log = warned zeroPage s.log ++ if k = .zero ∧ 0xff < l.toNat then [t.region] else [] := by
  unfold calculateAddr
  cases k with
  | zero =>
    dsimp only
    by_cases h : (0xff : Short) < l
    · rw [if_pos h, if_pos ⟨rfl, h⟩]
      exact warned_warning _ _ _
    · rw [if_neg h, if_neg (fun hx => h hx.2), List.append_nil]
  | abs => simp
  | rel => simp

theorem emitBackwardRef_warned (t : Token) (k : RefKind) (z : RefSize) (n : Option Str) (id l : Short) (w r : Bool) (s : Asm) :
    warned zeroPage (emitBackwardRef t k z n id l w r s).2.log = warned zeroPage s.log ++ if k = .zero ∧ 0xff < l.toNat then [t.region] else [] := by
  rw [← calculateAddr_warned t k s.writeAddr l s]
  unfold emitBackwardRef
  dsimp only
  refine Mute.warned (Q := fun _ => True) (mute_andThen (emitAddr_mute _ _ _ _ _ _ _) fun s => ?_) _ trivial
  cases w with
  | true => exact markRef_mute _ _ _ _ _ _
  | false => exact .refl s

theorem patchAll_warned (name : Str) (id l : Short) (fs : List FRef) (s : Asm) :
    warned zeroPage (patchAll name id l fs s).log = warned zeroPage s.log ++ if 0xff < l.toNat then (fs.filter fun f => f.kind = .zero).map (·.token.region) else [] := by
  induction fs generalizing s with
  | nil => simp [patchAll]
  | cons f fs ih =>
    rw [patchAll, ih, emitBackwardRef_warned]
    by_cases hl : 0xff < l.toNat
    · by_cases hk : f.kind = .zero
      · simp [hl, hk]
      · simp [hl, hk]
    · simp [hl]

/-- **C86.** When a label is placed, the zero-page references to it that came before are reported, each once, exactly if the label is past the zero page. -/
theorem C86_zero_page_forward (t : Token) (name : Str) (n : Node) (id : Short) (fs : List FRef) (s : Asm) (he : n.entry = .forward id fs) :
    warned zeroPage (defineLabel t name n s).2.log = warned zeroPage s.log ++ if 0xff < s.writeAddr.toNat then (fs.filter fun f => f.kind = .zero).map (·.token.region) else [] := by
  unfold defineLabel
  rw [he]
  unfold placeLabel
  dsimp only
  rw [← patchAll_warned name id s.writeAddr fs s]
  have h : warned zeroPage (patchAll name id s.writeAddr fs (setNode name { n with entry := .label id s.writeAddr } s)).log = warned zeroPage (patchAll name id s.writeAddr fs s).log := by
    rw [patchAll_warned, patchAll_warned]; rfl
  rw [← h]
  exact warned_cons _ _ _ fun _ _ h => by cases h

/-- The words that take the zero-page address of a label. -/
def ZeroRune (c : Byte) : Prop := c = ch '.' ∨ c = ch '-'

/-- **C86.** A zero-page reference to a label that is already placed is reported exactly if the label is past the zero page; once, at the word. -/
theorem C86_zero_page (files : Files) (rec : Nested) (t : Token) (u u' : Unit) (s s' : Asm) (ok : Bool) (c : Byte) (name : Str) (hc : ZeroRune c) (ht : t.lex = c :: name)
    (n : Node) (id a : Short) (hn : s.symtab name = some n) (he : n.entry = .label id a) (hw : (findOrCreate t name s).1 = some n)
    (hl : name ≠ [ch '{'] ∧ name ≠ [ch '@'] ∧ name.head? ≠ some (ch '&') ∧ name.head? ≠ some (ch '/')) (hz : 0x100 ≤ s.writeAddr.toNat)
    (h : processToken files rec t u s = some (ok, u', s')) :
    warned zeroPage s'.log = warned zeroPage s.log ++ if 0xff < a.toNat then [t.region] else [] := by
  have hfind : findOrCreate t name s = (some n, s) := by
    revert hw
    unfold findOrCreate
    split
    · intro h; cases h
    · split
      · intro h; cases h
      split
      · intro h; cases h
      split
      · intro h; cases h
      rw [hn]
      intro _; rfl
  have hrunic : ∃ d rest, name = d :: rest ∧ isRunic d = false := by
    revert hw
    unfold findOrCreate
    split
    · intro h; cases h
    · rename_i d rest
      by_cases hr : isRunic d = true
      · rw [if_pos hr]; intro h; cases h
      · exact fun _ => ⟨d, rest, rfl, by simpa using hr⟩
  obtain ⟨d, rest, rfl, hrun⟩ := hrunic
  have href : ∀ s0 : Asm, s0.symtab = s.symtab → warned zeroPage s0.log = warned zeroPage s.log →
      warned zeroPage (emitLabelRef t .zero .byte (d :: rest) true s0).2.log = warned zeroPage s.log ++ if 0xff < a.toNat then [t.region] else [] := by
    intro s0 h0 hlog
    have hfind0 : findOrCreate t (d :: rest) s0 = (some n, s0) := by
      unfold findOrCreate at hfind ⊢
      dsimp only at hfind ⊢
      rw [h0, hn]
      rw [hn] at hfind
      split at hfind
      · cases hfind
      rename_i h1
      rw [if_neg h1]
      split at hfind
      · cases hfind
      rename_i h1
      rw [if_neg h1]
      split at hfind
      · cases hfind
      rename_i h1
      rw [if_neg h1]
    unfold emitLabelRef
    rw [if_neg hl.1]
    have hres : resolveLabelRef t (d :: rest) s0 = (some (d :: rest), s0) := by
      unfold resolveLabelRef
      exact if_neg (fun hx => hx.elim (fun h => hl.2.2.1 (by rw [h]; rfl)) (fun h => hl.2.2.2 (by rw [h]; rfl)))
    rw [hres]
    dsimp only
    rw [if_neg hl.2.1]
    rw [hrun, hfind0]
    dsimp only
    rw [he]
    simp only [Bool.false_eq_true, if_false]
    rw [emitBackwardRef_warned]
    show warned zeroPage s0.log ++ _ = _
    rw [hlog]
    simp
  rcases hc with rfl | rfl
  · have hstep : processToken files rec t u s = keep u (andThen (emitOpcode t 0x80 true s) fun s => emitLabelRef t .zero .byte (d :: rest) true s) := by
      rw [processToken]
      rw [ht]
      rfl
    rw [hstep] at h
    simp only [keep, Option.some.injEq, Prod.mk.injEq] at h
    rw [← h.2.2]
    have he1 : (emitOpcode t 0x80 true s).1 = true ∧ (emitOpcode t 0x80 true s).2.symtab = s.symtab := by
      unfold emitOpcode emit andThen
      dsimp only
      have : ¬ s.writeAddr < RESET_VECTOR := by
        rw [BitVec.lt_def]
        show ¬ _ < 256
        omega
      rw [if_neg this]
      exact ⟨rfl, rfl⟩
    have hm := (emitOpcode_mute (Q := fun _ => True) t 0x80 true s).warned zeroPage trivial
    unfold andThen
    rw [if_pos he1.1]
    exact href _ he1.2 hm
  · have hstep : processToken files rec t u s = keep u (emitLabelRef t .zero .byte (d :: rest) true s) := by
      rw [processToken]
      rw [ht]
      rfl
    rw [hstep] at h
    simp only [keep, Option.some.injEq, Prod.mk.injEq] at h
    rw [← h.2.2]
    exact href s rfl rfl

/-! ## Instances -/

/-- A program with each of the three warnings: `ADD22`, `$ff00` at 0x0201, `.two` before and after the label at 0x200. -/
def warnedSample : Files := filesOf [("m", "ADD22 ADD2k .two |200 @two LITk #01 .two $ff00 |300 INC")]

theorem C86_local_sample : (assemble warnedSample 30 (str "m")).map (fun r => (r.1, (warned redundantFlags r.2.log).map (·.start.col), (warned wrapsAround r.2.log).map (·.start.col), (warned zeroPage r.2.log).map (·.start.col))) =
    some (true, [1, 28], [42], [13, 37]) := by decide +kernel

/-- A state in which `C86_zero_page` applies: the label `two` at 0x200. -/
example : ∃ (s : Asm) (t : Token) (n : Node), t.lex = str ".two" ∧ s.symtab (str "two") = some n ∧ n.entry = .label 1 0x200 ∧ (findOrCreate t (str "two") s).1 = some n ∧ 0x100 ≤ s.writeAddr.toNat :=
  ⟨setNode (str "two") ⟨⟨str "@two", ⟨[], noPos, noPos⟩⟩, false, .label 1 0x200⟩ initial, ⟨str ".two", ⟨[], noPos, noPos⟩⟩, _, rfl, rfl, rfl, rfl, by decide⟩

example : Flags (str "2k2") ∧ ¬ (str "2k2").Nodup ∧ Flags (str "2k") ∧ (str "2k").Nodup := by
  refine ⟨?_, by decide, ?_, by decide⟩ <;> (intro f hf; revert hf; revert f; decide +kernel)

end Buxn.Asm.Meaning
