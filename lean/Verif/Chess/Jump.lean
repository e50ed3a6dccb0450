import Verif.Chess.Poly
/-!
# C46: jumps, on both sides
-/

namespace Buxn.Chess

open Buxn.VM (Instr Op dispatch VM Host Cfg)
open Buxn.VM.Spec (valueAt operandsAt pushValue ptr stack setPtr Action action operandSizes Sys KeepsStacks operation)

variable {σ : Type}

/-- An error of this trace is among the new reports. -/
def Reports (c c' : Run) : Prop := ∃ es p, c'.log = c.log ++ es ∧ Event.error c.trace p ∈ es

theorem Reports.then {a b c : Run} (h : Reports a b) (h' : Onward b c) : Reports a c := by
  obtain ⟨es, p, e, hp⟩ := h
  obtain ⟨fs, f⟩ := h'.log
  exact ⟨es ++ fs, p, by rw [f, e, List.append_assoc], List.mem_append_left _ hp⟩

theorem Reports.after {a b c : Run} (h : Onward a b) (h' : Reports b c) : Reports a c := by
  obtain ⟨es, p, e, hp⟩ := h'
  obtain ⟨fs, f⟩ := h.log
  exact ⟨fs ++ es, p, by rw [e, f, List.append_assoc], by rw [← h.trace]; exact List.mem_append_right _ hp⟩

theorem Plainly.reports {c c' : Run} (h : Plainly c c') (ht : c.terminated = false) (ht' : c'.terminated = true) :
    Reports c c' := h.blunt ht ht'

theorem error_reports (p : Problem) (c : Run) : Reports c (error p c) := ⟨_, p, rfl, by simp⟩

/-- What a routine leaves on the stacks. -/
def Sig.outs (s : Sig) (r : Bool) : List Value := if r then s.rstOut else s.wstOut

/-- The VM has returned from the routine, and both stacks have as many bytes as declared. -/
structure Returned (P : Program) (E : Env) (base : Bool → Byte) (c : Run) (s' : Sys σ) : Prop where
  kind : (sigAt P c.key).kind = .subroutine
  pc : s'.pc = E.ret
  sizes : ∀ r, ptr r s'.vm = base r + BitVec.ofNat 8 (total ((sigAt P c.key).outs r))

/-- The VM is at the beginning of a routine that has a signature, and the checker has taken the routine at its word: `c1`
is the state it was in before. -/
structure CallTo (P : Program) (E : Env) (base : Bool → Byte) (c c' : Run) (s' : Sys σ) (k : Option Cast) (b : Short) (c1 : Run) :
    Prop where
  routine : isRoutine P b = true
  pc : s'.pc = b.toNat
  running : c1.terminated = false
  ok : c1.Ok
  exact : Exact c1
  onward : Onward c c1
  sim : ∃ E', E'.ret = E.ret ∧ Sim E' base s'.vm c1.stacks c1.nodes
  result : c' = applyCasts k (shortCircuit P b c1)
  cast : k ≠ none → Exact (shortCircuit P b c1) ∧ ∃ a, k = P.cast a

/-- The VM has followed a jump that some trace has followed before. -/
structure Seen (E : Env) (base : Bool → Byte) (c c' : Run) (s' : Sys σ) : Prop where
  again : c'.again = true
  arc : ∃ f : Short, (f, c'.pc) ∈ c.arcs
  pc : s'.pc = c'.pc.toNat
  ok : c'.Ok
  sim : ∃ E', E'.ret = E.ret ∧ Sim E' base s'.vm c'.stacks c'.nodes

/-- What can be said about the VM after an instruction; `k` are the casts that have been applied to what it left. -/
def Outcome (P : Program) (E : Env) (base : Bool → Byte) (c c' : Run) (s' : Sys σ) (k : Option Cast := none) : Prop :=
  c'.wrapped = true ∨ Reports c c' ∨ Here E base c c' s' ∨ (∃ e, Later E base c c' s' e) ∨
    (∃ b c1, CallTo P E base c c' s' k b c1) ∨ Seen E base c c' s' ∨
    Returned P E base c s'

theorem Describes.ptr {E : Env} {stk : Byte → Byte} {base : Byte} : ∀ {vs : List Value} {p : Byte},
    Describes E stk base vs p → p = base + BitVec.ofNat 8 (total vs)
  | [], p, h => by rw [total_nil]; rw [show p = base from h]; simp
  | v :: vs, p, h => by
    have := Describes.ptr h.2
    rw [total_cons, BitVec.ofNat_add, BitVec.add_comm (BitVec.ofNat 8 v.size), ← BitVec.add_assoc, ← this, BitVec.sub_add_cancel]

/-! ## Returning -/

theorem checkValues_other (d : Direction) (r : Bool) : ∀ (vs : List Value) (c : Run),
    realStack (!r) (checkValues d r vs c) = realStack (!r) c
  | [], _ => rfl
  | v :: vs, c => by
    rw [checkValues]
    dsimp only
    rw [checkValues_other d r vs]
    have h1 : ∀ (want got : Value) (c : Run), realStack (!r) (checkValue d want got c) = realStack (!r) c := by
      intro want got c
      unfold checkValue
      cases r <;> (dsimp only; split <;> split <;> split <;> first | rfl | (split <;> rfl))
    rw [h1]
    have h2 : realStack (!r) (popReal v.short r c).2 = realStack (!r) c := by
      unfold popReal
      dsimp only
      rw [setReal_other]
      rcases popFrom_form (realStack r c) v.short c with ⟨_, e⟩ | ⟨_, _, m, o, e⟩
      · rw [e]; cases r <;> rfl
      · rw [e]; cases r <;> rfl
    exact h2

/-- A check that leaves the trace running has found the declared number of bytes. -/
theorem checkStack_out {r : Bool} {sig : List Value} {c : Run} (ht : (checkStack .out r sig c).terminated = false) :
    (realStack r c).size = sigSize sig ∧ realStack (!r) (checkStack .out r sig c) = realStack (!r) c := by
  have key : ∀ c1 : Run, c1 = (if (realStack r c).size = sigSize sig then c else error .sizeMismatch c) →
      checkStack .out r sig c = if c1.terminated then c1 else checkValues .out r sig.reverse c1 := by
    rintro c1 rfl
    unfold checkStack
    simp only [decide_eq_true_eq]
  rw [key _ rfl] at ht ⊢
  by_cases h : (realStack r c).size = sigSize sig
  · rw [if_pos h] at ht ⊢
    refine ⟨h, ?_⟩
    split
    · rfl
    · exact checkValues_other _ _ _ _
  · rw [if_neg h] at ht
    have : (error .sizeMismatch c).terminated = true := rfl
    rw [if_pos this, this] at ht
    cases ht

theorem checkReturn_sizes {P : Program} {c : Run} (ht : (checkReturn P c).terminated = false) :
    c.wst.size = sigSize (sigAt P c.key).wstOut ∧ c.rst.size = sigSize (sigAt P c.key).rstOut := by
  unfold checkReturn at ht
  dsimp only at ht
  obtain ⟨h1, h2⟩ := checkStack_out ht
  have ht2 : (checkStack .out false (sigAt P c.key).wstOut c).terminated = false := by
    cases h : (checkStack .out false (sigAt P c.key).wstOut c).terminated
    · rfl
    · rw [(checkStack_plainly .out true _ _).on.stopped h] at ht; cases ht
  obtain ⟨h3, h4⟩ := checkStack_out ht2
  refine ⟨h3, ?_⟩
  have h4' : realStack true (checkStack .out false (sigAt P c.key).wstOut c) = realStack true c := h4
  rw [h4'] at h1
  exact h1

/-- The declared sizes, in terms of the VM. -/
theorem sizes_declared {P : Program} (hP : P.Ok) {c : Run} (hok : c.Ok) {E : Env} {base : Bool → Byte} {vm : VM}
    (hsim : Sim E base vm c.stacks c.nodes) (hw : c.wst.size = sigSize (sigAt P c.key).wstOut)
    (hr : c.rst.size = sigSize (sigAt P c.key).rstOut) (r : Bool) :
    ptr r vm = base r + BitVec.ofNat 8 (total ((sigAt P c.key).outs r)) := by
  have hs := sigAt_ok hP c.key
  rw [(hsim.cells r).ptr]
  congr 2
  cases r
  · show total (items c.wst) = total (sigAt P c.key).wstOut
    rw [← sigSize_total hs.wstOut.1, ← hw]
    exact hok.wst.sound.symm
  · show total (items c.rst) = total (sigAt P c.key).rstOut
    rw [← sigSize_total hs.rstOut.1, ← hr]
    exact hok.rst.sound.symm

/-- Ending a trace at a return or at `BRK`. -/
theorem endCheck {P : Program} (c : Run) : Reports c (terminate (checkReturn P c)) ∨ c.terminated = true ∨
    (c.wst.size = sigSize (sigAt P c.key).wstOut ∧ c.rst.size = sigSize (sigAt P c.key).rstOut) := by
  cases ht : c.terminated
  · cases h : (checkReturn P c).terminated
    · exact .inr (.inr (checkReturn_sizes h))
    · exact .inl (((checkReturn_plainly P c).reports ht h).then (terminate_onward _))
  · exact .inr (.inl rfl)

/-! ## The jump itself -/

theorem relative_toNat (pc v : Short) : (relative pc v).toNat = Buxn.VM.Spec.relative pc.toNat (v.toNat % 256) :=
  Buxn.VM.pcRel_toNat pc v

/-- Where a jump lands, before anything is made of it. -/
def landing (P : Program) (addr : Value) (c : Run) : Run :=
  if addr.short then (absJmp P addr c).2
  else if addr.const then { c with pc := relative c.pc addr.value }
  else error .unknownAddress c

theorem jump_landing {P : Program} {addr : Value} {c c1 : Run} (ht : c.terminated = false) (h : landing P addr c = c1) :
    jump P addr c = if c1.terminated then c1
      else if isRoutine P c1.pc then shortCircuit P c1.pc c1
      else if (c.pc, c1.pc) ∈ c1.arcs then terminate { c1 with again := true }
      else { c1 with arcs := (c.pc, c1.pc) :: c1.arcs } := by
  subst h
  unfold jump
  rw [if_neg (by rw [ht]; simp)]
  rfl

/-- A jump whose operand is described. -/
theorem jump_sim {P : Program} (hP : P.Ok) (addr : Value) (c : Run) {E : Env} {base : Bool → Byte} {vm : VM} {h : σ} {x : Nat}
    (hsim : Sim E base vm c.stacks c.nodes) (hok : c.Ok) (ht : c.terminated = false) (hE : Exact c)
    (hg : Good E addr x) : Outcome P E base c (jump P addr c)
      { vm := vm, host := h, pc := Buxn.VM.Spec.target addr.size c.pc.toNat x } := by
  have fin : ∀ a : Short, Buxn.VM.Spec.target addr.size c.pc.toNat x = a.toNat →
      jump P addr c = (if isRoutine P a then shortCircuit P a { c with pc := a }
        else if (c.pc, a) ∈ c.arcs then terminate { c with pc := a, again := true }
        else { c with pc := a, arcs := (c.pc, a) :: c.arcs }) →
      Outcome P E base c (jump P addr c) { vm := vm, host := h, pc := Buxn.VM.Spec.target addr.size c.pc.toNat x } := by
    intro a ha e
    rw [ha, e]
    cases hr : isRoutine P a
    · rw [if_neg (by simp)]
      by_cases hm : (c.pc, a) ∈ c.arcs
      · rw [if_pos hm]
        refine .inr (.inr (.inr (.inr (.inr (.inl ⟨rfl, ⟨c.pc, hm⟩, rfl, ⟨hok.nodes, hok.wst, hok.rst⟩, E, rfl, hsim.meaning, ?_, ?_⟩)))))
        · intro r; cases r
          · exact hsim.cells false
          · exact hsim.cells true
        · intro r; cases r
          · exact hsim.alive false
          · exact hsim.alive true
      · rw [if_neg hm]
        refine .inr (.inr (.inl ⟨ht, rfl, ⟨hok.nodes, hok.wst, hok.rst⟩, E, rfl, hsim.meaning, ?_, ?_⟩))
        · intro r; cases r
          · exact hsim.cells false
          · exact hsim.cells true
        · intro r; cases r
          · exact hsim.alive false
          · exact hsim.alive true
    · rw [if_pos rfl]
      refine .inr (.inr (.inr (.inr (.inl ⟨a, { c with pc := a }, hr, rfl, ht, ⟨hok.nodes, hok.wst, hok.rst⟩, ?_,
        (pc_plainly a c).on, ⟨E, rfl, hsim.meaning, ?_, ?_⟩, rfl, fun h => absurd rfl h⟩))))
      · intro r; cases r
        · exact hE false
        · exact hE true
      · intro r; cases r
        · exact hsim.cells false
        · exact hsim.cells true
      · intro r; cases r
        · exact hsim.alive false
        · exact hsim.alive true
  have hrep : ∀ p : Problem, jump P addr c = error p c →
      Outcome P E base c (jump P addr c) { vm := vm, host := h, pc := Buxn.VM.Spec.target addr.size c.pc.toNat x } :=
    fun p e => .inr (.inl (by rw [e]; exact error_reports p c))
  cases hs : addr.short
  · have hz := (size_eq_one addr).mpr hs
    by_cases hc : addr.const = true
    · refine fin (relative c.pc addr.value) ?_ ?_
      · rw [relative_toNat]
        have := hg.2.const hc
        rw [hz] at this ⊢
        unfold Buxn.VM.Spec.target
        rw [if_neg (by decide), ← this]
        rfl
      · rw [jump_landing ht (c1 := { c with pc := relative c.pc addr.value })
          (by unfold landing; rw [if_neg (by rw [hs]; simp), if_pos hc]), if_neg (by rw [ht]; simp)]
    · refine hrep .unknownAddress ?_
      rw [jump_landing ht (c1 := error .unknownAddress c)
        (by unfold landing; rw [if_neg (by rw [hs]; simp), if_neg hc]), if_pos (show (error .unknownAddress c).terminated = true from rfl)]
  · have hz := (size_eq_two addr).mpr hs
    have htgt : Buxn.VM.Spec.target addr.size c.pc.toNat x = x := by rw [hz]; rfl
    by_cases hret : (addr.address && addr.ret) = true
    · have hx : x = E.ret := hg.2.ret (by rw [Bool.and_eq_true] at hret; exact hret.2)
      have e : jump P addr c = terminate (checkReturn P (setTerminatedAt true
          (if (sigAt P c.key).kind = .vector then error .returnFromVector c else c))) := by
        have h1 : landing P addr c = terminate (checkReturn P (setTerminatedAt true
            (if (sigAt P c.key).kind = .vector then error .returnFromVector c else c))) := by
          unfold landing absJmp
          rw [if_pos hs, if_pos hret]
        rw [jump_landing ht h1, if_pos (show (terminate _).terminated = true from rfl)]
      by_cases hv : (sigAt P c.key).kind = .vector
      · refine .inr (.inl ?_)
        rw [e, if_pos hv]
        exact (error_reports _ c).then (((setTerminatedAt_plainly true _).on.trans (checkReturn_plainly P _).on).trans
          (terminate_onward _))
      · rw [if_neg hv] at e
        rw [e]
        rcases endCheck (P := P) (setTerminatedAt true c) with h1 | h1 | ⟨h1, h2⟩
        · exact .inr (.inl (h1.after (setTerminatedAt_plainly true c).on))
        · rw [show (setTerminatedAt true c).terminated = c.terminated from rfl, ht] at h1; cases h1
        · refine .inr (.inr (.inr (.inr (.inr (.inr ⟨?_, by rw [htgt]; exact hx, ?_⟩)))))
          · cases hk : (sigAt P c.key).kind
            · exact absurd hk hv
            · rfl
          · exact sizes_declared hP hok hsim h1 h2
    · by_cases hc : addr.const = true
      · refine fin addr.value ?_ ?_
        · rw [htgt, ← hg.2.const hc, hz]; exact Nat.mod_eq_of_lt addr.value.isLt
        · rw [jump_landing ht (c1 := { c with pc := addr.value })
            (by unfold landing; rw [if_pos hs]; unfold absJmp; rw [if_neg hret, if_pos hc]), if_neg (by rw [ht]; simp)]
      · refine hrep .unknownAddress ?_
        rw [jump_landing ht (c1 := error .unknownAddress c)
          (by unfold landing; rw [if_pos hs]; unfold absJmp; rw [if_neg hret, if_neg hc]), if_pos (show (error .unknownAddress c).terminated = true from rfl)]

end Buxn.Chess
