import Verif.Chess.C84Addresses
/-!
# C84: cases

Programs that meet the hypotheses of the theorems, and programs that show why they are needed.
-/

namespace Buxn.Chess.Types

open Buxn.Asm (Str SymType SymInfo str)
open Buxn.VM (Instr Op dispatch)

/-! ## Deciding -/

def recastB : List Value → List Tag → Bool
  | [], _ => true
  | v :: vs, ts =>
    (v.short || (ts.take 1).all fun t => (match t.type with | some (_, p) => decide (p = .whole) | none => true) && (!t.address || v.address)) &&
      recastB vs (ts.drop (if v.short then 2 else 1))

theorem recast_of : ∀ (vs : List Value) (ts : List Tag), recastB vs ts = true → Recast vs ts
  | [], _, _ => trivial
  | v :: vs, ts, h => by
    rw [recastB, Bool.and_eq_true] at h
    refine ⟨fun hs t ht => ?_, recast_of vs _ h.2⟩
    have h1 := h.1
    rw [hs, Bool.false_or] at h1
    have h2 := List.all_eq_true.mp h1 t ht
    rw [Bool.and_eq_true] at h2
    refine ⟨fun U p hp => ?_, fun ha => ?_⟩
    · have h3 := h2.1
      rw [hp] at h3
      exact of_decide_eq_true h3
    · have h3 := h2.2
      rw [ha] at h3
      simpa using h3

def cleanB (k : Option Cast) (T : Tags) : Bool :=
  match k with
  | none => true
  | some c => recastB c.wst.reverse (T false) && recastB c.rst.reverse (T true)

theorem clean_of {k : Option Cast} {T : Tags} (h : cleanB k T = true) : Clean k T := by
  intro c hc
  rw [hc] at h
  have h : (recastB c.wst.reverse (T false) && recastB c.rst.reverse (T true)) = true := h
  rw [Bool.and_eq_true] at h
  exact ⟨recast_of _ _ h.1, recast_of _ _ h.2⟩

def speltB (P : Program) (pc : Short) : Bool :=
  match dispatch (P.rom pc) with
  | some (.LIT _ true) => !(P.label (pc + 2)).isSome || (P.label (pc + 1)).isSome
  | _ => true

theorem spelt_of {P : Program} {pc : Short} (h : speltB P pc = true) : Spelt P pc := by
  intro r hr hl
  unfold speltB at h
  rw [hr] at h
  have h : (!(P.label (pc + 2)).isSome || (P.label (pc + 1)).isSome) = true := h
  rw [hl] at h
  simpa using h

def plainB (P : Program) (c : Run) (T : Tags) : Bool :=
  decide (fallsInto P c) || (speltB P c.pc && cleanB (P.cast c.pc) (landed P (target P c) (instr P c.pc T)))

theorem plain_of {P : Program} {c : Run} {T : Tags} (h : plainB P c T = true) : Plainspoken P c T := by
  intro hf
  unfold plainB at h
  rw [Bool.or_eq_true, decide_eq_true_iff, Bool.and_eq_true] at h
  rcases h with h | h
  · exact absurd h hf
  · exact ⟨spelt_of h.1, clean_of h.2⟩

instance (U : Str) (g : List Tag) : Decidable (Of U g) := by unfold Of; infer_instance

def ofB (U : Str) (g : List Tag) : Bool := decide (Of U g)

/-- The type of a value can only be that of its first byte. -/
def acceptB : List Value → List Tag → Bool
  | [], _ => true
  | v :: vs, ts =>
    let n := if v.short then 2 else 1
    decide (n ≤ ts.length) && (!v.nominal || match ts.head?.bind Tag.type with
      | some (U, _) => v.type.isPrefixOf U && ofB U (ts.take n)
      | none => false) && acceptB vs (ts.drop n)

theorem accept_iff : ∀ (vs : List Value) (ts : List Tag), acceptB vs ts = true ↔ Accept vs ts
  | [], _ => by simp [acceptB, Accept]
  | v :: vs, ts => by
    rw [acceptB, Accept]
    rw [Bool.and_eq_true, Bool.and_eq_true, accept_iff vs, decide_eq_true_iff, and_assoc]
    refine and_congr_right fun hlen => and_congr_left fun _ => ?_
    rw [Bool.or_eq_true, Bool.not_eq_true']
    cases hv : v.nominal with
    | false => simp
    | true =>
      cases ts with
      | nil => split at hlen <;> simp at hlen
      | cons t ts =>
        have hn : ∀ U, Of U ((t :: ts).take (if v.short = true then 2 else 1)) → ∃ p, t.type = some (U, p) := by
          intro U h
          cases hs : v.short with
          | false =>
            rw [hs] at h
            have h : [t.type] = [some (U, Part.whole)] := h
            exact ⟨_, (List.cons.inj h).1⟩
          | true =>
            rw [hs] at h hlen
            cases ts with
            | nil => exact absurd hlen (by show ¬ 2 ≤ 1; omega)
            | cons t2 ts =>
              have h : [t.type, t2.type] = [some (U, Part.low), some (U, Part.high)] := h
              exact ⟨_, (List.cons.inj h).1⟩
        constructor
        · rintro (h | h)
          · cases h
          intro _
          cases ht : t.type with
          | none => rw [show ((t :: ts).head?.bind Tag.type) = t.type from rfl, ht] at h; cases h
          | some x =>
            obtain ⟨U, p⟩ := x
            rw [show ((t :: ts).head?.bind Tag.type) = t.type from rfl, ht] at h
            have h : (v.type.isPrefixOf U && ofB U _) = true := h
            rw [Bool.and_eq_true] at h
            exact ⟨U, isPrefixOf_prefix h.1, of_decide_eq_true h.2⟩
        · intro h
          obtain ⟨U, h1, h2⟩ := h rfl
          obtain ⟨p, hp⟩ := hn U h2
          right
          rw [show ((t :: ts).head?.bind Tag.type) = t.type from rfl, hp]
          show (v.type.isPrefixOf U && ofB U _) = true
          rw [Bool.and_eq_true]
          exact ⟨List.isPrefixOf_iff_prefix.mpr h1, decide_eq_true h2⟩

instance (sig : Sig) (T : Tags) : Decidable (Suits sig T) :=
  decidable_of_iff (acceptB sig.wstIn.reverse (T false) = true ∧ acceptB sig.rstIn.reverse (T true) = true)
    (and_congr (accept_iff _ _) (accept_iff _ _))

/-! ## Programs -/

/-- A stack assertion behind the last opcode. -/
def castOf (tokens : List String) : List Asm.Event :=
  symbolAt 0 0 .comment "(" 0 :: tokens.map (fun t => symbolAt 0 0 .comment t 1) ++ [symbolAt 0 0 .comment ")" 1]

/-- A literal byte. -/
def litAt (a : Short) : List Asm.Event := opsAt [a] ++ numAt (a + 1)

/-- A jump or call with its operand. -/
def callAt (a : Short) : List Asm.Event := opsAt [a] ++ refAt (a + 1)

/-- `|0100 @main ( -> ) #01 ( Suit ! ) #03 make-card POP BRK @make-card ( Suit value -- Card ) ADD JMP2r`. -/
def cardCode : List Nat := [0x80, 0x01, 0x80, 0x03, 0x60, 0x00, 0x02, 0x02, 0x00, 0x18, 0x6c]
def cardEvents : List Asm.Event :=
  signedAt 0x100 ["->"] ++ litAt 0x100 ++ castOf ["Suit", "!"] ++ litAt 0x102 ++ callAt 0x104 ++ opsAt [0x107, 0x108] ++
  signedAt 0x109 ["Suit", "value", "--", "Card"] ++ opsAt [0x109, 0x10a]
def cardReader : Reader := (readAll cardEvents).finish
def cardProgram : Program := cardReader.program (romOf cardCode)

theorem card_accepted : (check (romOf cardCode) cardEvents 40).map (fun c => (c.success, c.wrapped)) = some (true, false) := by
  decide +kernel

theorem card_queue : (steps cardProgram 4 cardReader.run).queue = [routineEntry 0x100 {} 1] := by
  rfl

/-- The tags when the program is about to call `make-card`. -/
theorem card_followed : ∃ T, Followed cardProgram cardReader.run 7 T ∧
    T false = [⟨none, false⟩, ⟨some (str "Suit", .whole), false⟩] ∧ (steps cardProgram 7 cardReader.run).terminated = false ∧
    Plainspoken cardProgram (steps cardProgram 7 cardReader.run) T ∧ target cardProgram (steps cardProgram 7 cardReader.run) = some 0x109 := by
  refine ⟨_, .next (.next (.entry (i := 4) (a := 0x100) (sig := {}) (t := 1) (q := []) (by decide +kernel) (by decide +kernel) card_queue)
    (by decide +kernel) (plain_of (by decide +kernel))) (by decide +kernel) (plain_of (by decide +kernel)), ?_, ?_, plain_of ?_, ?_⟩ <;> decide +kernel

/-- The theorem says that the arguments of `make-card` have their types. -/
example : ∃ T, Followed cardProgram cardReader.run 7 T ∧ Suits (sigAt cardProgram 0x109) (instr cardProgram 0x104 T) := by
  have ha := card_accepted
  cases hc : check (romOf cardCode) cardEvents 40 with
  | none => rw [hc] at ha; cases ha
  | some c =>
    rw [hc] at ha
    simp only [Option.map_some, Option.some.injEq, Prod.mk.injEq] at ha
    obtain ⟨T, h1, _, h3, h4, h5⟩ := card_followed
    have := C84_accepted_calls_partial (romOf cardCode) cardEvents 40 c cardReader rfl hc ha.1 ha.2 h1 h3 h4
    have hp : (steps cardProgram 7 cardReader.run).pc = 0x104 := by decide +kernel
    have hf : ¬ fallsInto cardProgram (steps cardProgram 7 cardReader.run) := by decide +kernel
    exact ⟨T, h1, by rw [← hp]; exact this.calls hf 0x109 h5 (by decide +kernel)⟩

/-- The signature asks for a type. -/
example : (sigAt cardProgram 0x109).wstIn.map (fun v => (v.nominal, v.type)) = [(true, str "Suit"), (false, [])] := by decide +kernel

/-- `|0100 @main ( -> ) #03 #01 ( Suit ! ) make-card POP BRK @make-card ( Suit value -- Card ) ADD JMP2r`: the arguments are the wrong
way round, and the checker says so. -/
example : (check (romOf cardCode) (signedAt 0x100 ["->"] ++ litAt 0x100 ++ litAt 0x102 ++ castOf ["Suit", "!"] ++ callAt 0x104 ++
    opsAt [0x107, 0x108] ++ signedAt 0x109 ["Suit", "value", "--", "Card"] ++ opsAt [0x109, 0x10a]) 40).map
      (fun c => (c.success, c.log.filter (fun e => match e with | .error _ _ => true | _ => false))) =
    some (false, [.error 1 .wrongType]) := by decide +kernel

/-! ## What is missing -/

/-- One instruction of straight code, with the assertion behind it. -/
def straight (P : Program) (pc : Short) (T : Tags) : Tags := asserted (P.cast pc) (instr P pc T)

/-- `|0100 @main ( -> ) #1234 ( Card* ! ) SWP ( Suit Suit ! ) SWP take BRK @take ( Card* -- ) POP2 JMP2r`. -/
def reviveCode : List Nat := [0xa0, 0x12, 0x34, 0x04, 0x04, 0x60, 0x00, 0x01, 0x00, 0x22, 0x6c]
def reviveEvents : List Asm.Event :=
  signedAt 0x100 ["->"] ++ opsAt [0x100] ++ [symbolAt 0x101 1 .number "1234", symbolAt 0x102 1 .number "1234"] ++ castOf ["Card*", "!"] ++
  opsAt [0x103] ++ castOf ["Suit", "Suit", "!"] ++ opsAt [0x104] ++ callAt 0x105 ++ opsAt [0x108] ++
  signedAt 0x109 ["Card*", "--"] ++ opsAt [0x109, 0x10a]
def reviveProgram : Program := (readAll reviveEvents).finish.program (romOf reviveCode)

/-- **What is missing.** Two bytes that were halves of a card are asserted to be suits, and then put together: the checker takes them for a
card again. -/
theorem C84_revived_violated :
    (check (romOf reviveCode) reviveEvents 60).map (fun c => (c.success, c.wrapped)) = some (true, false) ∧
    ∃ T, T = straight reviveProgram 0x104 (straight reviveProgram 0x103 (straight reviveProgram 0x100 (entered (sigAt reviveProgram 0x100)))) ∧
      T false = [⟨some (str "Suit", .whole), false⟩, ⟨some (str "Suit", .whole), false⟩] ∧
      ¬ Suits (sigAt reviveProgram 0x109) (instr reviveProgram 0x105 T) := by
  refine ⟨by decide +kernel, _, rfl, ?_, ?_⟩ <;> decide +kernel

/-- `|0100 @main ( -> ) #00 ( Suit ! ) #00 ( Card ! ) #00 ( Card ! ) #01 ?&loop POP POP POP BRK &loop take !&loop
@take ( Card -- ) POP JMP2r`. -/
def thirdCode : List Nat :=
  [0x80, 0x00, 0x80, 0x00, 0x80, 0x00, 0x80, 0x01, 0x20, 0x00, 0x04, 0x02, 0x02, 0x02, 0x00, 0x60, 0x00, 0x03, 0x40, 0xff, 0xfa, 0x02, 0x6c]
def thirdEvents : List Asm.Event :=
  signedAt 0x100 ["->"] ++ litAt 0x100 ++ castOf ["Suit", "!"] ++ litAt 0x102 ++ castOf ["Card", "!"] ++ litAt 0x104 ++ castOf ["Card", "!"] ++
  litAt 0x106 ++ callAt 0x108 ++ opsAt [0x10b, 0x10c, 0x10d, 0x10e] ++ [symbolAt 0x10f 0 .label "loop"] ++ callAt 0x10f ++ callAt 0x112 ++
  signedAt 0x115 ["Card", "--"] ++ opsAt [0x115, 0x116]
def thirdProgram : Program := (readAll thirdEvents).finish.program (romOf thirdCode)

/-- The tags on the way round the loop. -/
def thirdLoop (T : Tags) : Tags := called (sigAt thirdProgram 0x115) (instr thirdProgram 0x10f T)
def thirdStart : Tags := instr thirdProgram 0x108 (straight thirdProgram 0x106 (straight thirdProgram 0x104 (straight thirdProgram 0x102
  (straight thirdProgram 0x100 (entered (sigAt thirdProgram 0x100))))))

/-- **What is missing.** The checker goes round a loop twice. The third time a routine is given a value of the wrong type. -/
theorem C84_third_time_violated :
    (check (romOf thirdCode) thirdEvents 80).map (fun c => (c.success, c.wrapped)) = some (true, false) ∧
    Suits (sigAt thirdProgram 0x115) (instr thirdProgram 0x10f thirdStart) ∧
    Suits (sigAt thirdProgram 0x115) (instr thirdProgram 0x10f (thirdLoop thirdStart)) ∧
    ¬ Suits (sigAt thirdProgram 0x115) (instr thirdProgram 0x10f (thirdLoop (thirdLoop thirdStart))) := by
  refine ⟨?_, ?_, ?_, ?_⟩ <;> decide +kernel

/-- `|0100 @main ( -> ) #05 #05 EQU ( Flag ! ) take BRK @take ( Flag -- ) POP JMP2r`. -/
def flagCode : List Nat := [0x80, 0x05, 0x80, 0x05, 0x08, 0x60, 0x00, 0x01, 0x00, 0x02, 0x6c]
def flagEvents : List Asm.Event :=
  signedAt 0x100 ["->"] ++ litAt 0x100 ++ litAt 0x102 ++ opsAt [0x104] ++ castOf ["Flag", "!"] ++ callAt 0x105 ++ opsAt [0x108] ++
  signedAt 0x109 ["Flag", "--"] ++ opsAt [0x109, 0x10a]
def flagProgram : Program := (readAll flagEvents).finish.program (romOf flagCode)

/-- **What is missing.** A program whose only call gets what it asks for is rejected: an assertion behind a comparison is only made on one of
the two branches that the checker follows. -/
theorem C84_assertion_on_branch_rejected :
    (check (romOf flagCode) flagEvents 80).map (fun c => (c.success, c.log.filter (fun e => match e with | .error _ _ => true | _ => false))) =
      some (false, [.error 3 .wrongType]) ∧
    Suits (sigAt flagProgram 0x109) (instr flagProgram 0x105 (straight flagProgram 0x104 (straight flagProgram 0x102 (straight flagProgram 0x100
      (entered (sigAt flagProgram 0x100)))))) := by
  refine ⟨?_, ?_⟩ <;> decide +kernel

/-- `|00 @Suit &spade $1 |0100 @main ( -> ) LIT2 05 &door .Suit/spade take POP BRK @take ( Suit/ -- ) POP JMP2r`. -/
def doorCode : List Nat := [0xa0, 0x05, 0x00, 0x60, 0x00, 0x02, 0x02, 0x00, 0x02, 0x6c]
def doorEvents : List Asm.Event :=
  signedAt 0x100 ["->"] ++ opsAt [0x100] ++ numAt 0x101 ++ [symbolAt 0x102 0 .label "main/door", symbolAt 0x102 5 .labelRef "Suit/spade"] ++
  callAt 0x103 ++ opsAt [0x106, 0x107] ++ signedAt 0x108 ["Suit/", "--"] ++ opsAt [0x108, 0x109]
def doorProgram : Program := (readAll doorEvents).finish.program (romOf doorCode)

/-- **What is missing.** A label makes a literal a variable, and it loses its type; not so when only the second byte of a literal has a label. -/
theorem C84_second_byte_violated :
    (check (romOf doorCode) doorEvents 80).map (fun c => (c.success, c.wrapped)) = some (true, false) ∧
    ¬ Suits (sigAt doorProgram 0x108) (instr doorProgram 0x103 (instr doorProgram 0x100 (entered (sigAt doorProgram 0x100)))) := by
  refine ⟨?_, ?_⟩ <;> decide +kernel

end Buxn.Chess.Types
