import Verif.Chess.C54Cases
/-!
# C46: device output, and cases
-/

namespace Buxn.Chess

open Buxn.Asm (Str SymType)
open Buxn.VM (Instr Op dispatch VM Host Cfg plainHost plainHost_keepsStacks booted)
open Buxn.VM.Spec (valueAt operandsAt ptr stack operandSizes Sys KeepsStacks)

/-- The writes of a `DEO` of `v` to port `p`, as the host of the checker is told of them: the high byte first. -/
def writes (two : Bool) (t v p : Nat) : List Event :=
  if two then [.deo t (BitVec.ofNat 8 (v / 256)) (BitVec.ofNat 8 p), .deo t (BitVec.ofNat 8 v) (BitVec.ofNat 8 (p + 1))]
  else [.deo t (BitVec.ofNat 8 v) (BitVec.ofNat 8 p)]

/-- **C46.** If the host of the checker is told of device writes, they are the writes that the VM makes: the operands are those
that the VM takes. -/
theorem C46_deo {P : Program} {E : Env} {base : Bool → Byte} {c : Run} {s : Sys σ} (h : Meets E base c s) (hE : Exact c)
    {k r b : Bool} (hi : dispatch (P.rom c.pc) = some (.poly .DEO k r b)) (hneed : width b + 1 ≤ (realStack r c).size.toNat) :
    ∃ v p ws, operandsAt (stack r s.vm) (ptr r s.vm - BitVec.ofNat 8 (width b + 1)) (operandSizes (width b) .DEO) = [v, p] ∧
      (∀ e ∈ ws, ∃ t w, e = Event.warning t w) ∧
      ((perform P (fetched P c)).log = c.log ++ ws ∨ (perform P (fetched P c)).log = c.log ++ ws ++ writes b c.trace v p) := by
  obtain ⟨b7, b6, b5⟩ := poly_bits hi
  have f6 : flagR (fetched P c) = r := b6
  have f5 : flag2 (fetched P c) = b := b5
  have hperf : perform P (fetched P c) = opPoly P .DEO (fetched P c) := by
    unfold perform
    rw [show (fetched P c).opcode = P.rom c.pc from rfl, hi]
  have hpop : popStack r (fetched P c) = realStack r (fetched P c) := by
    rw [fetched_popStack]; cases r <;> rfl
  have hreal : realStack r (fetched P c) = realStack r c := by cases r <;> rfl
  obtain ⟨E', tk⟩ := take_sim (bs := operands b .DEO) (fetched_sim (P := P) h.sim) (fetched_ok (P := P) h.ok) h.running hpop
    (by rw [widths_operands, hreal]; show [width b, 1].sum ≤ _; simp; exact hneed) (by rw [hreal]; exact hE r)
  have hdown := operandsAt_down (stack r s.vm) (operandSizes (width b) .DEO) (ptr r s.vm)
  rw [← operands_sizes] at hdown
  have hsum : (operandSizes (width b) .DEO).sum = width b + 1 := by cases b <;> rfl
  rw [hsum] at hdown
  rw [hperf, opPoly_shape P .DEO _ rfl, f6, f5, hdown]
  obtain ⟨sp, mp, hform⟩ := tk.form
  have hsh := tk.shorts
  have hg := tk.good
  have hsm := tk.small
  generalize (popList r (operands b .DEO) (fetched P c)).1 = vs at *
  generalize (popList r (operands b .DEO) (fetched P c)).2 = c2 at *
  have hlog : c2.log = c.log := by rw [hform, setPop_log]; rfl
  have htr : c2.trace = c.trace := by rw [hform]; unfold setPop; split <;> cases r <;> rfl
  generalize readDown (stack r s.vm) (ptr r s.vm) ((operands b .DEO).map width) = xs at *
  rcases vs with _ | ⟨a, _ | ⟨v, _ | ⟨z, vs⟩⟩⟩
  · cases hsh
  · simp [operands] at hsh
  swap
  · simp [operands] at hsh
  have hsa : a.short = false ∧ v.short = b := by simpa [operands] using hsh
  cases hg with
  | cons ga hg => cases hg with
    | cons gv hg =>
      cases hg
      rename_i x y
      refine ⟨y, x, if isAddress a then [] else [.warning c.trace .deoNonAddress], rfl, ?_, ?_⟩
      · intro e he
        split at he
        · cases he
        · exact ⟨_, _, List.mem_singleton.mp he⟩
      have hw : (if isAddress a = true then c2 else warning .deoNonAddress c2).log =
          c.log ++ (if isAddress a then [] else [.warning c.trace .deoNonAddress]) := by
        split
        · rw [hlog, List.append_nil]
        · unfold warning
          rw [← hlog, ← htr]
      have hwt : (if isAddress a = true then c2 else warning .deoNonAddress c2).trace = c.trace := by
        split <;> exact htr
      show (note P .DEO [a, v] c2).log = _ ∨ (note P .DEO [a, v] c2).log = _
      unfold note
      dsimp only
      generalize (if isAddress a = true then c2 else warning .deoNonAddress c2) = c3 at *
      split
      swap
      · exact .inl hw
      rename_i hc
      rw [Bool.and_eq_true] at hc
      right
      have ea := ga.2.const hc.1
      have ev := gv.2.const hc.2
      unfold Value.size at ea ev
      rw [hsa.1] at ea
      rw [hsa.2] at ev ⊢
      have ea : a.value.toNat % 256 = x := ea
      have hp : lo a.value = BitVec.ofNat 8 x := by
        apply BitVec.eq_of_toNat_eq; rw [← ea]; simp [lo]
      have hq : lo (a.value + 1) = BitVec.ofNat 8 (x + 1) := by
        apply BitVec.eq_of_toNat_eq
        rw [← ea]
        unfold lo
        rw [BitVec.toNat_setWidth, BitVec.toNat_add, BitVec.toNat_ofNat]
        show (a.value.toNat + 1) % 65536 % 256 = _
        omega
      unfold writes
      cases b
      · have ev : v.value.toNat % 256 = y := ev
        have hv : lo v.value = BitVec.ofNat 8 y := by apply BitVec.eq_of_toNat_eq; rw [← ev]; simp [lo]
        simp only [Bool.false_eq_true, if_false]
        show c3.log ++ [_] = _
        rw [hw, hwt, hp, hv]
      · have ev : v.value.toNat % 65536 = y := ev
        have hv : lo v.value = BitVec.ofNat 8 y := by
          apply BitVec.eq_of_toNat_eq; rw [← ev]; unfold lo; rw [BitVec.toNat_setWidth, BitVec.toNat_ofNat]; omega
        have hh : Buxn.hi v.value = BitVec.ofNat 8 (y / 256) := by
          apply BitVec.eq_of_toNat_eq
          rw [← ev]
          unfold Buxn.hi
          rw [BitVec.toNat_setWidth, BitVec.toNat_ushiftRight, BitVec.toNat_ofNat, Nat.shiftRight_eq_div_pow]
          have := v.value.isLt
          rw [Nat.mod_eq_of_lt this]
        simp only [if_true]
        show c3.log ++ [_] ++ [_] = _
        rw [hw, hwt, List.append_assoc]
        show _ ++ ([Event.deo c.trace (Buxn.hi v.value) (lo a.value)] ++ [Event.deo c3.trace _ _]) = _
        rw [hwt, hp, hv, hq, hh]
        rfl
/-! ## Cases -/

/-- `|0100 @main ( -> ) #00 #01 SUB #02 DIV #18 DEO BRK`. -/
def borrowCode : List Nat := [0x80, 0x00, 0x80, 0x01, 0x19, 0x80, 0x02, 0x1b, 0x80, 0x18, 0x17, 0x00]
def borrowEvents : List Asm.Event :=
  signedAt 0x100 ["->"] ++ opsAt [0x100] ++ numAt 0x101 ++ opsAt [0x102] ++ numAt 0x103 ++ opsAt [0x104, 0x105] ++ numAt 0x106 ++
  opsAt [0x107, 0x108] ++ numAt 0x109 ++ opsAt [0x10a, 0x10b]

/-- **What is missing.** The checker computes with 16 bits where the VM has 8, and does not cut the result off: a byte made by
borrowing is still too large when it is divided. The host is told of a write of `ff`, the VM writes `7f`. -/
theorem C46_bytes_folded_wide :
    (check (romOf borrowCode) borrowEvents 60).map (fun c => c.log.filter fun e => match e with | .deo _ _ _ => true | _ => false) =
      some [.deo 1 0xff 0x18] ∧
    (after ⟨true, true⟩ plainHost 7 (bootedSys borrowCode)).map (fun s => (s.vm.device 0x18, s.vm.memory s.pc)) = some (0x7f, 0) := by
  refine ⟨by decide +kernel, by decide +kernel⟩

/-- `|0100 @main ( -> ) #1234 POP #00 ?&else #5678 STH POP STHr #18 DEO2 BRK &else POP BRK`. -/
def halfCode : List Nat :=
  [0xa0, 0x12, 0x34, 0x02, 0x80, 0x00, 0x20, 0x00, 0x0a, 0xa0, 0x56, 0x78, 0x0f, 0x02, 0x4f, 0x80, 0x18, 0x37, 0x00, 0x02, 0x00]
def halfEvents : List Asm.Event :=
  signedAt 0x100 ["->"] ++ opsAt [0x100] ++ [symbolAt 0x101 1 .number "1234", symbolAt 0x102 1 .number "1234"] ++ opsAt [0x103, 0x104] ++
  numAt 0x105 ++ opsAt [0x106] ++ refAt 0x107 ++ opsAt [0x109] ++ [symbolAt 0x10a 2 .number "5678", symbolAt 0x10b 2 .number "5678"] ++
  opsAt [0x10c, 0x10d, 0x10e, 0x10f] ++ numAt 0x110 ++ opsAt [0x111, 0x112] ++ [symbolAt 0x113 0 .label "else"] ++ opsAt [0x113, 0x114]

/-- **What is missing.** A half of a short that is on the stack at a branch names the short by a node; when the first trace has
ended the node is used again, and the trace that was set aside takes its half for the half of another short. The host is told of a
write of `5678`, the VM writes `1278`. -/
theorem C46_halves_confused :
    (check (romOf halfCode) halfEvents 60).map (fun c => (c.success, c.log.filter fun e => match e with | .deo _ _ _ => true | _ => false)) =
      some (true, [.deo 2 0x56 0x18, .deo 2 0x78 0x19]) ∧
    (after ⟨true, true⟩ plainHost 10 (bootedSys halfCode)).map (fun s => (s.vm.device 0x18, s.vm.device 0x19, s.vm.memory s.pc)) =
      some (0x12, 0x78, 0) := by
  refine ⟨by decide +kernel, by decide +kernel⟩

/-- The state at the first instruction of `countCode` and the VM that was just booted meet the hypotheses of `C46_step_partial`. -/
theorem count_meets : ∃ E base, Meets E base (startTrace countProgram (routineEntry 0x100 (sigAt countProgram 0x100) 1) countReader.run)
    (bootedSys countCode) := by
  have hP := program_ok (romOf countCode) countEvents
  have hl : countProgram.label 0x100 = some (some (sigAt countProgram 0x100)) := by
    have h := count_routine
    unfold isRoutine at h
    unfold sigAt
    rcases e : countProgram.label 0x100 with _ | _ | s
    · rw [e] at h; cases h
    · rw [e] at h; cases h
    · rfl
  have hs := entry_described (P := countProgram) hP hl 1 (booted countCode) (fun _ => 0)
  refine ⟨_, bottom countProgram 0x100 (booted countCode), (start_meets (by decide +kernel) (run_safe (finish_ok (readAll_ok countEvents))).ok.nodes ?_ rfl
    (fun r => (hs r).2) (fun r => (hs r).1)).1⟩
  have h := routineEntry_ok 0x100 (hP.sigs _ _ hl) 1 countReader.run.nodes
  intro r
  cases r
  · exact h.1
  · exact h.2

end Buxn.Chess
