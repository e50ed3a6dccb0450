import Verif.Chess.Entry
import Verif.Chess.Effect
/-!
# The operands of an instruction are where the checker sees them
-/

namespace Buxn.Chess

open Buxn.VM (Instr Op dispatch VM)
open Buxn.VM.Spec (operandSizes)

theorem perform_short {P : Program} {c : Run} {i : Instr} (hi : dispatch c.opcode = some i) (hok : c.Ok) (ht : c.terminated = false)
    (hp : ∀ r, popStack r c = realStack r c) {r : Bool} (hr : ∀ op k r' b, i = .poly op k r' b → flagR c = r' ∧ flag2 c = b)
    (hkeep : i = .JCI → c.keep = false) (h : (realStack r c).size.toNat < reach i r) : Reports c (perform P c) := by
  unfold perform
  rw [hi]
  cases i with
  | BRK => exact absurd h (Nat.not_lt_zero _)
  | JMI => exact absurd h (Nat.not_lt_zero _)
  | JSI => exact absurd h (Nat.not_lt_zero _)
  | LIT _ _ => exact absurd h (Nat.not_lt_zero _)
  | JCI =>
    cases r
    swap
    · exact absurd h (Nat.not_lt_zero _)
    have h : (realStack false c).size.toNat < 1 := h
    show Reports c (jumpConditional P _ _ (popEx false false (immediate P c).2).2)
    have hi1 := (immediate_plainly P c).on
    have key : Reports c (popEx false false (immediate P c).2).2 := by
      cases ht1 : (immediate P c).2.terminated
      · have e : realStack false (immediate P c).2 = realStack false c ∧ (immediate P c).2.keep = c.keep := by
          unfold immediate; dsimp only; split <;> [split; skip] <;> exact ⟨rfl, rfl⟩
        have e2 : popStack false (immediate P c).2 = realStack false c := by
          unfold popStack; rw [e.2, hkeep rfl]; exact e.1
        have : (popEx false false (immediate P c).2).2 = error .underflow (immediate P c).2 := by
          unfold popEx
          rw [if_neg (by rw [ht1]; simp), e2]
          show setPop false (popFrom (realStack false c) false _).2.1 (popFrom (realStack false c) false _).2.2 = _
          unfold popFrom popByte
          rw [if_neg (by simp), if_pos h]
          unfold setPop
          rw [show (error .underflow (immediate P c).2).keep = (immediate P c).2.keep from rfl, e.2, hkeep rfl]
          show setReal false (realStack false c) _ = _
          rw [← e.1]
          rfl
        rw [this]
        exact (error_reports _ _).after hi1
      · exact ((immediate_plainly P c).reports ht ht1).then (popEx_plainly _ _ _).on
    exact key.then (jumpConditional_onward P _ _ _)
  | poly op k r' b =>
    obtain ⟨f1, f2⟩ := hr op k r' b rfl
    unfold reach at h
    dsimp only at h
    by_cases e : r = r'
    swap
    · rw [if_neg e] at h; exact absurd h (Nat.not_lt_zero _)
    subst e
    rw [if_pos rfl] at h
    show Reports c (opPoly P op c)
    cases hj : isJump op
    · exact (opPoly_plainly P op c hj).reports ht (opPoly_underflow P op c hj hok ht (hp _) (by rw [f1, f2]; exact h)).1
    · rw [← f2, ← widths_operands, ← f1] at h
      obtain ⟨h1, _⟩ := popList_short ht hok (hp _) h
      have : op = .JMP ∨ op = .JCN ∨ op = .JSR := by revert hj; cases op <;> simp [isJump]
      rcases this with rfl | rfl | rfl
      · exact h1.then (jump_onward P _ _)
      · have e0 : opPoly P .JCN c = jumpConditional P ((popList (flagR c) [flag2 c, false] c).1.getD 1 {})
            ((popList (flagR c) [flag2 c, false] c).1.headD {}) (popList (flagR c) [flag2 c, false] c).2 := by
          show opJCN P c = _
          unfold opJCN pop
          dsimp only
          rw [flagR_popEx]
          rfl
        rw [e0]
        exact h1.then (jumpConditional_onward P _ _ _)
      · exact h1.then (jumpStash_onward P _ _ _)

/-- An instruction that is not objected to has its operands on the simulated stacks. -/
theorem reach_fits {P : Program} {c : Run} {i : Instr} (hi : dispatch (P.rom c.pc) = some i) (hok : c.Ok) (ht : c.terminated = false)
    (hn : ¬ Reports c (instruction P c)) (r : Bool) : reach i r ≤ total (items (c.stacks r)) := by
  have hsound : (realStack r c).size.toNat = total (items (realStack r c)) := (hok.real r).sound
  show _ ≤ total (items (realStack r c))
  rw [← hsound]
  by_contra hlt
  apply hn
  by_cases hcode : ∃ sym, P.sym c.pc = some sym ∧ sym.type = .opcode
  swap
  · unfold instruction
    dsimp only
    split
    · exact (error_reports _ _).after (.same rfl rfl rfl rfl rfl rfl rfl rfl rfl rfl)
    · rename_i sym hsym
      rw [if_pos (fun e => hcode ⟨sym, hsym, e⟩)]
      exact (error_reports _ _).after (.same rfl rfl rfl rfl rfl rfl rfl rfl rfl rfl)
  obtain ⟨sym, hsym, hty⟩ := hcode
  rw [instruction_fetched hsym hty]
  refine Reports.then (Reports.after (fetched_plainly P c).on ?_) (applyCasts_plainly _ _).on
  refine perform_short (i := i) (r := r) hi (fetched_ok hok) ht (fun r => ?_) ?_ ?_ ?_
  · rw [fetched_popStack]; cases r <;> rfl
  · rintro op k r' b rfl
    obtain ⟨_, b6, b5⟩ := poly_bits hi
    exact ⟨b6, b5⟩
  · rintro rfl
    exact jci_bits hi
  · have : realStack r (fetched P c) = realStack r c := by cases r <;> rfl
    rw [this]
    omega

end Buxn.Chess
