import Verif.Chess.Literal
import Verif.VM.Frame
/-!
# What one instruction of the VM does to the stacks

How far below the pointer an instruction reads, and which cells it can change.
-/

namespace Buxn.Chess

open Buxn.VM (Instr Op dispatch VM Host Cfg StackEffect)
open Buxn.VM.Spec (pushValue ptr stack setPtr Sys KeepsStacks operation operandSizes resultSizes Action)

variable {σ : Type}

/-- How many bytes below the pointer of a stack an instruction looks at: its operands. -/
def reach (i : Instr) (r : Bool) : Nat :=
  match i with
  | .JCI => if r then 0 else 1
  | .poly op _ r' b => if r = r' then (operandSizes (width b) op).sum else 0
  | _ => 0

theorem sz_width (b : Bool) : Buxn.VM.sz b = width b := by cases b <;> rfl

/-- The stack that an operation does not take its operands from. -/
theorem perform_other {cfg : Cfg} {H : Host σ} (hk : KeepsStacks H) {r s : Bool} {pc : Nat} {vm : VM} {h : σ} {a : Action} {x : Sys σ}
    (e : Buxn.VM.Spec.perform cfg H r (Buxn.VM.sz s) pc vm h a = .ok x) :
    ∃ m, m ≤ 2 ∧ StackEffect (!r) (ptr (!r) vm) m vm x.vm := by
  have hpush : ∀ n v (vm : VM), ptr (!r) (pushValue r n v vm) = ptr (!r) vm ∧ stack (!r) (pushValue r n v vm) = stack (!r) vm :=
    fun n v vm => Buxn.VM.pushValue_other r n v vm
  have hz : Buxn.VM.sz s ≤ 2 := by cases s <;> decide
  cases a with
  | push vs =>
    cases e
    obtain ⟨_, h2, h3, _⟩ := Buxn.VM.pushAll_effect r s vs vm
    exact ⟨0, by omega, Buxn.VM.effect_none _ _ _ h2 h3⟩
  | pushByte v => cases e; exact ⟨0, by omega, Buxn.VM.effect_none _ _ _ (hpush _ _ _).1 (hpush _ _ _).2⟩
  | stash v => cases e; exact ⟨_, hz, Buxn.VM.effect_push (!r) s v vm⟩
  | jump t => cases e; exact ⟨0, by omega, Buxn.VM.effect_none _ _ _ rfl rfl⟩
  | call t => cases e; exact ⟨2, le_refl _, Buxn.VM.effect_push (!r) true _ vm⟩
  | load a p => cases e; exact ⟨0, by omega, Buxn.VM.effect_none _ _ _ (hpush _ _ _).1 (hpush _ _ _).2⟩
  | store a p v =>
    cases e
    exact ⟨0, by omega, Buxn.VM.effect_none _ _ _ (Buxn.VM.ptr_pokeMem _ _ _ _ _ _) (Buxn.VM.stack_pokeMem _ _ _ _ _ _)⟩
  | deviceIn p =>
    simp only [Buxn.VM.Spec.perform, bind, Except.bind, pure, Except.pure] at e
    split at e
    · cases e
    · rename_i y hy
      cases e
      have := Buxn.VM.keeps_deviceIn hk hy (!r)
      exact ⟨0, by omega, Buxn.VM.effect_none _ _ _ ((hpush _ _ _).1.trans this.1) ((hpush _ _ _).2.trans this.2)⟩
  | deviceOut p v =>
    simp only [Buxn.VM.Spec.perform, bind, Except.bind, pure, Except.pure] at e
    split at e
    · cases e
    · rename_i y hy
      cases e
      have := Buxn.VM.keeps_deviceOut hk hy (!r)
      exact ⟨0, by omega, Buxn.VM.effect_none _ _ _ this.1 this.2⟩

theorem operation_other {cfg : Cfg} {H : Host σ} (hk : KeepsStacks H) {op : Op} {r s k : Bool} {pc : Nat} {vm : VM} {h : σ} {x : Sys σ}
    (e : operation cfg H op s r k pc vm h = .ok x) : ∃ m, m ≤ 2 ∧ StackEffect (!r) (ptr (!r) vm) m vm x.vm := by
  unfold operation at e
  simp only [show (if s = true then 2 else 1) = Buxn.VM.sz s from rfl] at e
  obtain ⟨m, h1, h2⟩ := perform_other hk e
  refine ⟨m, h1, ?_⟩
  revert h2
  cases k
  · simp only [Bool.false_eq_true, if_false]
    intro h2
    have e1 : ∀ p, ptr (!r) (setPtr r p vm) = ptr (!r) vm := fun p => by cases r <;> rfl
    rw [e1] at h2
    exact h2.left (Buxn.VM.stack_setPtr _ _ _ _)
  · simp only [if_true]
    exact id

theorem results_few (op : Op) (b : Bool) : (resultSizes (width b) op).sum ≤ 6 := by
  cases op <;> cases b <;> decide

theorem operands_few (op : Op) (b : Bool) : (operandSizes (width b) op).sum ≤ 6 := by
  cases op <;> cases b <;> decide

/-- An instruction takes at most its operands off a stack and puts at most six bytes there; nothing else changes. -/
theorem step_effect {cfg : Cfg} {H : Host σ} (hk : KeepsStacks H) {s s' : Sys σ} {i : Instr}
    (hi : dispatch (s.vm.memory s.pc) = some i) (h : Buxn.VM.Spec.step cfg H s = .ok (some s')) (r : Bool) :
    ∃ n m, n ≤ reach i r ∧ m ≤ 6 ∧ StackEffect r (ptr r s.vm - BitVec.ofNat 8 n) m s.vm s'.vm := by
  rw [step_execute cfg H s hi] at h
  have none : ∀ vm vm' : VM, ptr r vm' = ptr r vm → stack r vm' = stack r vm → ∀ k, ∃ n m, n ≤ k ∧ m ≤ 6 ∧
      StackEffect r (ptr r vm - BitVec.ofNat 8 n) m vm vm' := fun vm vm' h1 h2 k =>
    ⟨0, 0, Nat.zero_le _, Nat.zero_le _, by simpa using Buxn.VM.effect_none r vm vm' h1 h2⟩
  have pushed : ∀ (r' b : Bool) (v : Nat) (vm : VM) (k : Nat), ∃ n m, n ≤ k ∧ m ≤ 6 ∧
      StackEffect r (ptr r vm - BitVec.ofNat 8 n) m vm (pushValue r' (width b) v vm) := by
    intro r' b v vm k
    by_cases e : r = r'
    · subst e
      refine ⟨0, width b, Nat.zero_le _, by cases b <;> decide, ?_⟩
      have := Buxn.VM.effect_push r b v vm
      rw [sz_width] at this
      simpa using this
    · have e : r = !r' := by cases r <;> cases r' <;> simp_all
      subst e
      have := Buxn.VM.pushValue_other r' (width b) v vm
      exact none _ _ this.1 this.2 k
  cases i with
  | BRK => cases h
  | JCI =>
    cases h
    cases r
    · refine ⟨1, 0, le_refl _, Nat.zero_le _, ?_, fun j _ _ => rfl⟩
      show s.vm.wsp - 1 = _
      rw [BitVec.add_zero]
      rfl
    · exact none _ _ rfl rfl _
  | JMI => cases h; exact none _ _ rfl rfl _
  | JSI => cases h; exact pushed true true _ _ _
  | LIT r' b => cases h; exact pushed r' b _ _ _
  | poly op k r' b =>
    have h : Except.ok (some s') = (operation cfg H op b r' k ((s.pc + 1) % 65536) s.vm s.host).map some := h.symm
    cases hx : operation cfg H op b r' k ((s.pc + 1) % 65536) s.vm s.host with
    | error e => rw [hx] at h; cases h
    | ok y =>
      rw [hx] at h
      have h : s' = y := Option.some.inj (Except.ok.inj h)
      subst h
      unfold reach
      dsimp only
      by_cases e : r = r'
      · subst e
        rw [if_pos rfl]
        have h1 := Buxn.VM.operation_effect (fun _ => hk) hx
        rw [sz_width] at h1
        cases k
        · exact ⟨_, _, le_refl _, results_few op b, h1⟩
        · refine ⟨0, _, Nat.zero_le _, results_few op b, ?_⟩
          simpa using h1
      · rw [if_neg e]
        have e : r = !r' := by cases r <;> cases r' <;> simp_all
        subst e
        obtain ⟨m, h1, h2⟩ := operation_other hk hx
        exact ⟨0, m, Nat.zero_le _, by omega, by simpa using h2⟩

end Buxn.Chess
