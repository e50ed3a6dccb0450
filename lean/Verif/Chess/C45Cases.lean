import Verif.Chess.C45
/-!
# C45: cases

The hypotheses of the theorems of C45 are met by real programs, and the two exceptions they name are real.
-/

namespace Buxn.Chess

open Buxn.Asm (Str SymType)
open Buxn.VM (Instr Op dispatch)

/-- A program of opcodes at `0x0100`, where a vector begins that takes some values. -/
def caseProgram (sig : List Value) (code : List Byte) : Program :=
  { rom := fun a => code.getD (a.toNat - 256) 0
    sym := fun a => some ⟨a.toNat, .opcode, []⟩
    label := fun a => if a = 0x100 then some (some { wstIn := sig }) else none
    keys := [0x100]
    cast := fun _ => none }

def caseStart (sig : List Value) : Run :=
  { Reader.begin.run with queue := [routineEntry 0x100 { wstIn := sig } 1], markedAt := fun a => a == 0x100 }

/-- Three bytes; the first instruction is `ROT`, the second `ADD2`. -/
def caseBytes : Run := steps (caseProgram [{}, {}, {}] [0x05, 0x38]) 1 (caseStart [{}, {}, {}])

/-- The hypotheses of `C45_operation`: a trace that is about to execute `ROT` with its operands on the stack. -/
example : At (caseProgram [{}, {}, {}] [0x05, 0x38]) caseBytes .ROT false false false ∧ caseBytes.Ok ∧
    (Buxn.VM.Spec.operandSizes (width false) .ROT).sum ≤ (realStack false caseBytes).size.toNat ∧
    Fits .ROT false false (width false) caseBytes := by
  refine ⟨⟨by decide +kernel, ⟨_, rfl, rfl⟩, rfl, by decide +kernel⟩, ?_, by decide +kernel, ?_⟩
  · refine ⟨⟨List.nodup_nil, fun _ h => (by cases h), fun _ h => (by cases h), fun _ h => absurd h (Nat.not_lt_zero _)⟩, ?_, ?_⟩
    · refine ⟨show _ = _ by decide +kernel, fun v hv => ?_⟩
      have : items caseBytes.wst = [{}, {}, {}] := by decide +kernel
      rw [show items caseBytes.wst = [{}, {}, {}] from this] at hv
      have hv' : v = {} := by simpa using hv
      rw [hv']
      exact whole_tidy _ rfl rfl
    · refine ⟨show _ = _ by decide +kernel, fun v hv => ?_⟩
      have : items caseBytes.rst = [] := by decide +kernel
      rw [show items caseBytes.rst = [] from this] at hv
      cases hv
  · exact ⟨by decide +kernel, fun h => (by cases h)⟩

/-- The next instruction, `ADD2`, wants four bytes and there are three: underflow. -/
example : Event.error 1 .underflow ∈ (steps (caseProgram [{}, {}, {}] [0x05, 0x38]) 3 (caseStart [{}, {}, {}])).log := by
  decide +kernel

/-- The first exception of `C45_bookkeeping`: five shorts and 41 times `ROT2k` put 256 bytes on the stack. The checker
records none, sees nothing wrong and calls the program good (the declared output is empty). -/
theorem C45_wrapped_accepted :
    let c := steps (caseProgram (List.replicate 5 { short := true }) (List.replicate 41 0xa5)) 44
      (caseStart (List.replicate 5 { short := true }))
    c.wrapped = true ∧ c.wst.len.toNat = 128 ∧ c.wst.size = 0 ∧ c.success = true ∧ c.running = false ∧ c.queue = [] := by
  decide +kernel

/-- Why `C45_bookkeeping` has to exclude that: with 257 bytes recorded as one and 256 values as none, a byte is then read through `content[-1]`
of an "empty" stack. -/
theorem C45_wrapped_out_of_bounds :
    (steps (caseProgram [{ short := true }, {}, {}, {}] (List.replicate 84 0x85 ++ [0x02])) 87
      (caseStart [{ short := true }, {}, {}, {}])).oob = true := by
  decide +kernel

end Buxn.Chess
