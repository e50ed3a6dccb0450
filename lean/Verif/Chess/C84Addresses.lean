import Verif.Chess.C84
/-!
# C84: loads and stores without an address are pointed out
-/

namespace Buxn.Chess.Types

open Buxn.VM (Instr Op dispatch)
open Buxn.VM.Spec (operandSizes)

/-- The bytes of the address that an operation loads from or stores to. -/
def addressSize : Op → Option Nat
  | .LDZ | .STZ | .LDR | .STR | .DEI | .DEO => some 1
  | .LDA | .STA => some 2
  | _ => none

/-- A warning has been given. -/
def Doubts (c c' : Run) : Prop := ∃ es w, c'.log = c.log ++ es ∧ Event.warning c.trace w ∈ es

theorem Doubts.then {a b c : Run} (h : Doubts a b) (h' : Onward b c) : Doubts a c := by
  obtain ⟨es, p, e, hp⟩ := h
  obtain ⟨fs, f⟩ := h'.log
  exact ⟨es ++ fs, p, by rw [f, e, List.append_assoc], List.mem_append_left _ hp⟩

theorem Doubts.after {a b c : Run} (h : Onward a b) (h' : Doubts b c) : Doubts a c := by
  obtain ⟨es, p, e, hp⟩ := h'
  obtain ⟨fs, f⟩ := h.log
  exact ⟨fs ++ es, p, by rw [e, f, List.append_assoc], List.mem_append_right _ (by rw [← h.trace]; exact hp)⟩

theorem warning_doubts (w : Doubt) (c : Run) : Doubts c (warning w c) := ⟨_, w, rfl, by simp⟩

theorem isAddress_displaced (pc : Short) (a : Value) : isAddress (displaced pc a) = isAddress a := by
  unfold isAddress displaced
  split <;> rfl

/-- What an operation notes about an address that is none. -/
theorem note_doubts (P : Program) (op : Op) {n : Nat} (hn : addressSize op = some n) (two : Bool) (vs : List Value)
    (hv : vs.map Value.short = operands two op) (c : Run) (ht : c.terminated = false) (ha : isAddress (vs.headD {}) = false) :
    Doubts c (note P op vs c) := by
  have ld : ∀ a, isAddress a = false → Doubts c (noteLoad P a c) := by
    intro a h
    have hc : a.const = false := by
      unfold isAddress at h
      rw [Bool.or_eq_false_iff] at h; exact h.2
    unfold noteLoad
    rw [if_neg (by rw [ht]; simp)]
    dsimp only
    rw [if_neg (show ¬ a.const = true by rw [hc]; simp), if_neg (show ¬ isAddress a = true by rw [h]; simp)]
    exact warning_doubts _ _
  have st : ∀ a, isAddress a = false → Doubts c (store P a c) := by
    intro a h
    have hc : a.const = false := by
      unfold isAddress at h
      rw [Bool.or_eq_false_iff] at h; exact h.2
    unfold store
    rw [if_neg (by rw [ht]; simp)]
    dsimp only
    rw [if_neg (show ¬ a.const = true by rw [hc]; simp), if_neg (show ¬ isAddress a = true by rw [h]; simp)]
    exact warning_doubts _ _
  have one : ∀ b, vs.map Value.short = [b] → ∃ a, vs = [a] := by
    intro b h
    cases vs with
    | nil => cases h
    | cons a t => cases t with
      | nil => exact ⟨a, rfl⟩
      | cons _ _ => simp at h
  have two_ : ∀ b b', vs.map Value.short = [b, b'] → ∃ a v, vs = [a, v] := by
    intro b b' h
    cases vs with
    | nil => cases h
    | cons a t => cases t with
      | nil => simp at h
      | cons v t => cases t with
        | nil => exact ⟨a, v, rfl⟩
        | cons _ _ => simp at h
  cases op <;> first | (cases hn; done) | skip
  case LDZ => obtain ⟨a, rfl⟩ := one _ hv; exact ld a ha
  case LDA => obtain ⟨a, rfl⟩ := one _ hv; exact ld a ha
  case LDR => obtain ⟨a, rfl⟩ := one _ hv; exact ld _ (by rw [isAddress_displaced]; exact ha)
  case STZ => obtain ⟨a, v, rfl⟩ := two_ _ _ hv; exact st a ha
  case STA => obtain ⟨a, v, rfl⟩ := two_ _ _ hv; exact st a ha
  case STR => obtain ⟨a, v, rfl⟩ := two_ _ _ hv; exact st _ (by rw [isAddress_displaced]; exact ha)
  case DEI =>
    obtain ⟨a, rfl⟩ := one _ hv
    have ha : isAddress a = false := ha
    show Doubts c (if isAddress a then c else warning .deiNonAddress c)
    rw [if_neg (by rw [ha]; simp)]
    exact warning_doubts _ _
  case DEO =>
    obtain ⟨a, v, rfl⟩ := two_ _ _ hv
    have ha : isAddress a = false := ha
    have hc : a.const = false := by
      unfold isAddress at ha
      rw [Bool.or_eq_false_iff] at ha; exact ha.2
    unfold note
    dsimp only
    rw [if_neg (show ¬ isAddress a = true by rw [ha]; simp), if_neg (show ¬ (a.const && v.const) = true by rw [hc]; simp)]
    exact warning_doubts _ _

theorem opPoly_doubts (P : Program) (op : Op) {n : Nat} (hn : addressSize op = some n) (c : Run) {T : Tags} (h : Proceeds T c)
    (hp : popStack (flagR c) c = realStack (flagR c) c) :
    Reports c (opPoly P op c) ∨ Doubts c (opPoly P op c) ∨ isAddr ((T (flagR c)).take n) = true ∨
      ((popList (flagR c) (operands (flag2 c) op) c).1.headD {}).const = true := by
  have hj : isJump op = false := by cases op <;> first | rfl | cases hn
  by_cases hneed : widths (operands (flag2 c) op) ≤ (realStack (flagR c) c).size.toNat
  swap
  · obtain ⟨h1, h2⟩ := popList_short (bs := operands (flag2 c) op) h.running h.ok hp (by omega)
    refine .inl ?_
    have h3 := (opPoly_underflow P op c hj h.ok h.running hp (by rw [← widths_operands]; omega)).1
    exact (opPoly_plainly P op c hj).reports h.running h3
  obtain ⟨gs, tk⟩ := take_tells (bs := operands (flag2 c) op) h.typed h.ok h.running hp hneed
  have hon := (popList_plainly (flagR c) (operands (flag2 c) op) c).on
  rw [opPoly_shape P op c hj]
  have hshorts := tk.shorts
  by_cases ha : isAddress ((popList (flagR c) (operands (flag2 c) op) c).1.headD {}) = true
  swap
  · refine .inr (.inl ?_)
    have := note_doubts P op hn (flag2 c) _ hshorts _ (tk.running h.running) (by simpa using ha)
    exact ((this.then (pushAll_plainly _ _ _).on)).after hon
  refine .inr (.inr ?_)
  unfold isAddress at ha
  rw [Bool.or_eq_true] at ha
  rcases ha with ha | ha
  swap
  · exact .inr ha
  left
  have hgood := tk.good
  have hgr := tk.groups
  generalize (popList (flagR c) (operands (flag2 c) op) c).1 = vs at *
  generalize (popList (flagR c) (operands (flag2 c) op) c).2 = c2 at *
  cases hgood with
  | nil => cases op <;> first | (cases hn; done) | (cases hshorts; done)
  | cons hv _ =>
    rename_i v g vs' gs' _
    have e : g = (T (flagR c)).take n := by
      revert hgr
      cases op <;> first | (cases hn; done) | skip
      all_goals
        cases hn
        intro hgr
        simp only [operands, List.map_cons, groups, List.cons.injEq] at hgr
        exact hgr.1.symm
    rw [← e, isAddr_iff]
    exact hv.addr ha

/-- **C84, addresses.** A round that loads or stores, without an error or a warning: the address carries an address tag, or the checker
knows its value. -/
theorem C84_addresses_partial (P : Program) (c : Run) {T : Tags} (h : Proceeds T c) (hf : ¬ fallsInto P c)
    {op : Op} {k r b : Bool} (hi : dispatch (P.rom c.pc) = some (.poly op k r b)) {n : Nat} (hn : addressSize op = some n)
    (hr : ¬ Reports c (round P c)) (hd : ¬ Doubts c (round P c)) :
    isAddr ((T r).take n) = true ∨ ((popList r (operands b op) (fetched P c)).1.headD {}).const = true := by
  have hz : ¬ (¬ c.inner = true ∧ c.pc.toNat < 256) := by
    intro hz
    apply hr
    unfold round
    rw [if_pos hz]
    exact error_reports _ _
  have hround : round P c = instruction P c := by
    unfold round
    rw [if_neg hz, if_neg (show ¬ (c.pc ≠ c.key ∧ isRoutine P c.pc = true) from hf)]
  rw [hround] at hr hd
  have hsym : ∃ s, P.sym c.pc = some s ∧ s.type = .opcode := by
    by_contra hx
    apply hr
    unfold instruction
    dsimp only
    split
    · exact (error_reports _ _).after (.same rfl rfl rfl rfl rfl rfl rfl rfl rfl rfl)
    · rename_i sym hsym
      rw [if_pos (fun e => hx ⟨sym, hsym, e⟩)]
      exact (error_reports _ _).after (.same rfl rfl rfl rfl rfl rfl rfl rfl rfl rfl)
  obtain ⟨s, hs, hty⟩ := hsym
  rw [instruction_fetched hs hty] at hr hd
  have hon := (fetched_plainly P c).on
  have hc := (applyCasts_plainly (P.cast c.pc) (perform P (fetched P c))).on
  have hperf : perform P (fetched P c) = opPoly P op (fetched P c) := by
    show (match dispatch (P.rom c.pc) with
      | some .BRK => opBRK P (fetched P c)
      | some .JCI => opJCI P (fetched P c)
      | some .JMI => opJMI P (fetched P c)
      | some .JSI => opJSI P (fetched P c)
      | some (.LIT _ _) => opLIT P (fetched P c)
      | some (.poly op _ _ _) => opPoly P op (fetched P c)
      | none => fetched P c) = _
    rw [hi]
  obtain ⟨b7, b6, b5⟩ := poly_bits hi
  have f6 : flagR (fetched P c) = r := b6
  have f5 : flag2 (fetched P c) = b := b5
  have hpop : popStack (flagR (fetched P c)) (fetched P c) = realStack (flagR (fetched P c)) (fetched P c) := by
    rw [fetched_popStack, f6]; cases r <;> rfl
  rw [hperf] at hr hd hc
  rcases opPoly_doubts P op hn (fetched P c) (fetched_proceeds P h) hpop with k1 | k1 | k1 | k1
  · exact absurd ((k1.then hc).after hon) hr
  · exact absurd ((k1.then hc).after hon) hd
  · rw [f6] at k1; exact .inl k1
  · rw [f6, f5] at k1; exact .inr k1

end Buxn.Chess.Types
