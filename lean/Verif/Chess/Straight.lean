import Verif.Chess.Devices
/-!
# Code that goes straight on

When the checker follows code without setting anything aside, without meeting a routine that has a signature and without complaint, the machine that runs the code is at every
instruction as the checker describes it (C46). This is what the interactive prompt relies on (C71): there, the last thing that is checked is a `BRK` with values on the stacks, so
that the check as a whole does not succeed and C54 says nothing.
-/

namespace Buxn.Chess

open Buxn.VM (Instr Op dispatch VM Host Cfg)
open Buxn.VM.Spec (valueAt operandsAt ptr stack Sys KeepsStacks)

variable {σ : Type}

/-- The next `k` steps of the checker are instructions of one trace: no branch is set aside, no jump has been followed before, nothing is complained about, no routine is taken at its
word; no stack is full, and folding is exact (C46). -/
structure Straight (P : Program) (c : Run) (k : Nat) : Prop where
  running : ∀ i, i < k → (steps P i c).running = true ∧ (steps P i c).terminated = false
  code : ∀ i, i < k → 256 ≤ (steps P i c).pc.toNat ∧ ¬ ((steps P i c).pc ≠ (steps P i c).key ∧ isRoutine P (steps P i c).pc = true)
  alone : ∀ i, i < k → (steps P (i + 1) c).queue.length = (steps P i c).queue.length
  new : ∀ i, i < k → (steps P (i + 1) c).again = false
  calm : ∀ t p, Event.error t p ∉ (steps P k c).log.drop c.log.length
  room : (steps P k c).wrapped = false
  exact : ∀ i, i < k → Exact (steps P i c)
  exactCast : ∀ i, i < k → P.cast (steps P i c).pc ≠ none → Exact (perform P (fetched P (steps P i c)))
  fixed : ∀ i, i < k → ¬ IncrementsReturn P (steps P i c)

theorem steps_one {P : Program} {c : Run} (hr : c.running = true) (ht : c.terminated = false) (hp : 256 ≤ c.pc.toNat)
    (hn : ¬ (c.pc ≠ c.key ∧ isRoutine P c.pc = true)) : steps P 1 c = instruction P c := by
  show (match advance P c with | none => c | some c => steps P 0 c) = _
  have : advance P c = some (instruction P c) := by
    unfold advance
    rw [if_pos hr, if_neg (by rw [ht]; simp)]
    unfold round
    rw [if_neg (by omega), if_neg hn]
  rw [this]
  rfl

theorem Straight.tail {P : Program} {c : Run} {k : Nat} (h : Straight P c (k + 1)) : Straight P (steps P 1 c) k := by
  have e : ∀ i, steps P i (steps P 1 c) = steps P (i + 1) c := fun i => by rw [Nat.add_comm, steps_add]
  refine ⟨fun i hi => ?_, fun i hi => ?_, fun i hi => ?_, fun i hi => ?_, fun t p hx => ?_, ?_, fun i hi => ?_, fun i hi => ?_, fun i hi => ?_⟩
  · rw [e]; exact h.running (i + 1) (by omega)
  · rw [e]; exact h.code (i + 1) (by omega)
  · rw [e, e]; exact h.alone (i + 1) (by omega)
  · rw [e]; exact h.new (i + 1) (by omega)
  · rw [e] at hx
    obtain ⟨es, e1⟩ := (steps_trail P 1 c).1
    refine h.calm t p ?_
    rw [e1, List.length_append, ← List.drop_drop] at hx
    exact List.mem_of_mem_drop hx
  · rw [e]; exact h.room
  · rw [e]; exact h.exact (i + 1) (by omega)
  · rw [e]; exact h.exactCast (i + 1) (by omega)
  · rw [e]; exact h.fixed (i + 1) (by omega)

/-- **C46**, many instructions. As long as the checker goes straight on in a vector, the machine is as the checker describes it; provided that it does not change the code that it runs
and does not reach a routine that has a signature. -/
theorem C46_straight {P : Program} (hP : P.Ok) {cfg : Cfg} {H : Host σ} (hk : KeepsStacks H) {base : Bool → Byte} :
    ∀ (k : Nat) (c : Run) (E : Env) (s t : Sys σ), Straight P c k → (sigAt P c.key).kind = .vector → Meets E base c s →
      (∀ l u, l < k → after cfg H l s = some u → ∀ a : Short, u.pc = a.toNat → Intact P u.vm.memory a) →
      (∀ l u, 0 < l → l ≤ k → after cfg H l s = some u → ∀ a : Short, u.pc = a.toNat → isRoutine P a = false) →
      after cfg H k s = some t → ∃ E', Meets E' base (steps P k c) t ∧ (steps P k c).key = c.key
  | 0, c, E, s, t, _, _, hm, _, _, ha => by cases ha; exact ⟨E, hm, rfl⟩
  | k + 1, c, E, s, t, h, hv, hm, hi, hr, ha => by
    obtain ⟨r1, r2⟩ := h.running 0 (by omega)
    obtain ⟨r3, r4⟩ := h.code 0 (by omega)
    have e1 : steps P 1 c = instruction P c := steps_one r1 r2 r3 r4
    have hlast : ∀ i, steps P i (steps P 1 c) = steps P (i + 1) c := fun i => by rw [Nat.add_comm, steps_add]
    rw [after] at ha
    split at ha
    · rename_i s' hs
      have eA : ∀ l, after cfg H (l + 1) s = after cfg H l s' := fun l => by rw [after, hs]
      have hf : Fair P c s.vm.memory := ⟨hi 0 s (by omega) rfl c.pc hm.pc, h.exact 0 (by omega), h.exactCast 0 (by omega), h.fixed 0 (by omega)⟩
      have out := C46_step_partial hP hk hm hf hs
      rw [← e1] at out
      have hkey : (steps P 1 c).key = c.key := by rw [e1]; exact (instruction_onward P c).key
      have next : ∃ E1, Meets E1 base (steps P 1 c) s' := by
        rcases out with o | o | o | ⟨e, o⟩ | ⟨b, c1, o⟩ | o | o
        · have := (steps_trail P k (steps P 1 c)).2 o
          rw [hlast, h.room] at this
          cases this
        · obtain ⟨es, p, e2, hp⟩ := o
          obtain ⟨fs, e3⟩ := (steps_trail P k (steps P 1 c)).1
          rw [hlast] at e3
          refine absurd ?_ (h.calm c.trace p)
          rw [e3, e2, List.append_assoc, List.drop_left]
          exact List.mem_append_left _ hp
        · obtain ⟨E', -, hsim⟩ := o.sim
          exact ⟨E', o.running, o.pc, o.ok, hsim⟩
        · obtain ⟨es, e2, he⟩ := o.queue
          have hl := h.alone 0 (by omega)
          rw [show steps P (0 + 1) c = steps P 1 c from rfl, e2, List.length_append] at hl
          have : es = [] := List.length_eq_zero_iff.1 (by have : (steps P 0 c).queue = c.queue := rfl; rw [this] at hl; omega)
          rw [this] at he
          cases he
        · have := hr 1 s' (by omega) (by omega) (by rw [eA]; rfl) b o.pc
          rw [o.routine] at this
          cases this
        · have := h.new 0 (by omega)
          rw [show steps P (0 + 1) c = steps P 1 c from rfl, o.again] at this
          cases this
        · have := o.kind
          rw [hv] at this
          cases this
      obtain ⟨E1, hm1⟩ := next
      obtain ⟨E2, m2, k2⟩ := C46_straight hP hk k (steps P 1 c) E1 s' t h.tail (by rw [hkey]; exact hv) hm1
        (fun l u hl hu => hi (l + 1) u (by omega) (by rw [eA]; exact hu)) (fun l u h0 hl hu => hr (l + 1) u (by omega) (by omega) (by rw [eA]; exact hu)) ha
      refine ⟨E2, ?_, ?_⟩
      · rw [← hlast]; exact m2
      · rw [← hlast, k2, hkey]
    · cases ha

/-- What the checker says about a stack, when it describes the machine from the bottom of the stack: the number of bytes on it, and the bytes of what it takes for constants. -/
theorem Meets.sizes {E : Env} {c : Run} {s : Sys σ} (h : Meets E (fun _ => 0) c s) (r : Bool) : ptr r s.vm = (c.stacks r).size := by
  have h1 := (h.sim.cells r).ptr
  have h2 : Sound (c.stacks r) := by cases r <;> [exact h.ok.wst.sound; exact h.ok.rst.sound]
  rw [h1, ← h2]
  show 0 + BitVec.ofNat 8 (c.stacks r).size.toNat = _
  rw [BitVec.ofNat_toNat, BitVec.setWidth_eq]
  exact BitVec.zero_add _

end Buxn.Chess
