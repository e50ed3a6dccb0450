import Verif.Chess.C47
import Verif.Chess.Branch
/-!
# C47: cases

A program that sends the checker into an endless loop, and one for which the hypotheses of the theorem are met.
-/

namespace Buxn.Chess

open Buxn.Asm (Str SymType)

/-- `|0100 @main ( -> ) &loop ;&loop STH2 !sub @sub ( -- ) JMP2r`: the routine that is called "returns" to the
beginning. -/
def endless : Program :=
  { rom := fun a => [0xa0, 0x01, 0x00, 0x2f, 0x40, 0x00, 0x00, 0x6c].getD (a.toNat - 256) 0
    sym := fun a =>
      if a = 0x101 ∨ a = 0x102 then some ⟨1, .labelRef, []⟩
      else if a = 0x105 ∨ a = 0x106 then some ⟨2, .labelRef, []⟩
      else some ⟨a.toNat, .opcode, []⟩
    label := fun a => if a = 0x100 then some (some {}) else if a = 0x107 then some (some { kind := .subroutine }) else none
    keys := [0x100, 0x107]
    cast := fun _ => none }

def endlessStart : Run :=
  { Reader.begin.run with
    queue := [routineEntry 0x107 { kind := .subroutine } 2, routineEntry 0x100 {} 1]
    markedAt := fun a => a == 0x100 || a == 0x107 }

theorem endless_cast (a : Short) : endless.cast a = none := rfl

theorem fetched_opcode (P : Program) (c : Run) : (fetched P c).opcode = P.rom c.pc := rfl

theorem fetched_keep (P : Program) (c : Run) : (fetched P c).keep = (P.rom c.pc).getLsbD 7 := rfl

attribute [local irreducible] endless

/-- The checker is at the beginning of the loop, with empty stacks. -/
structure AtLoop (c : Run) : Prop where
  running : c.running = true
  terminated : c.terminated = false
  key : c.key = 0x100
  pc : c.pc = 0x100
  empty : c.wst.len = 0 ∧ c.wst.size = 0 ∧ c.rst.len = 0 ∧ c.rst.size = 0

theorem endless_advance {c : Run} (h1 : c.running = true) (h2 : c.terminated = false) (h3 : c.key = 0x100) {a : Short} (h4 : c.pc = a)
    (ha : a = 0x100 ∨ a = 0x103 ∨ a = 0x104) : advance endless c = some (perform endless (fetched endless c)) := by
  unfold advance
  rw [if_pos h1, if_neg (by rw [h2]; simp)]
  have e1 : round endless c = instruction endless c := by
    unfold round
    rw [if_neg, if_neg]
    · rw [h3, h4]
      rcases ha with rfl | rfl | rfl <;> decide +kernel
    · rw [h4]
      rcases ha with rfl | rfl | rfl <;> exact fun h => absurd h.2 (by decide +kernel)
  rw [e1, instruction_fetched (s := ⟨a.toNat, .opcode, []⟩) ?_ rfl, endless_cast]
  · rfl
  · rw [h4]
    rcases ha with rfl | rfl | rfl <;> decide +kernel

theorem popFrom_only {s : Stack} {c : Run} {v : Value} (h1 : s.len = 1) (h2 : s.size = 2) (h3 : s.content 0 = v) (h4 : v.short = true) :
    popFrom s true c = (v, { s with len := 0, size := 0 }, c) := by
  have ht : top s = v := by
    unfold top
    rw [h1, show (1 : Byte) - 1 = 0 from rfl, h3]
  have hx : touchTop s c = c := by
    unfold touchTop
    rw [if_neg (by rw [h1]; decide)]
  unfold popFrom popShort
  rw [if_pos rfl, if_neg (by rw [h2]; decide), hx, ht]
  dsimp only
  rw [if_pos ((size_eq_two v).mpr h4), h1, h2]
  rfl

theorem endless_one {c : Run} (h : AtLoop c) : ∃ c', advance endless c = some c' ∧ c'.running = true ∧ c'.terminated = false ∧
    c'.key = 0x100 ∧ c'.pc = 0x103 ∧ c'.wst.len = 1 ∧ c'.wst.size = 2 ∧
      c'.wst.content 0 = { short := true, address := true, const := true, value := 0x100 } ∧ c'.rst.len = 0 ∧ c'.rst.size = 0 := by
  obtain ⟨h1, h2, h3, h4, h5, h6, h7, h8⟩ := h
  refine ⟨_, endless_advance h1 h2 h3 h4 (.inl rfl), ?_⟩
  have g0 : (fetched endless c).opcode = 0xa0 := by
    rw [fetched_opcode, h4]
    decide +kernel
  have g1 : perform endless (fetched endless c) = opLIT endless (fetched endless c) := by
    unfold perform
    rw [g0, show Buxn.VM.dispatch 0xa0 = some (.LIT false true) by decide +kernel]
  have g2 : (fetched endless c).pc = 0x101 := by
    show c.pc + 1 = _
    rw [h4]
    decide
  have e3 : flag2 (fetched endless c) = true := by unfold flag2; rw [g0]; decide
  have e4 : ∀ pc, flagR { fetched endless c with pc := pc } = false := by
    intro pc; unfold flagR; dsimp only; rw [g0]; decide
  have e6 : opLIT endless (fetched endless c) = pushEx false { short := true, address := true, const := true, value := 0x100 }
      { fetched endless c with pc := 0x103 } := by
    unfold opLIT
    rw [if_pos e3]
    unfold lit2 push
    dsimp only
    rw [g2]
    rw [show endless.label 0x101 = none by decide +kernel, show endless.sym 0x101 = some ⟨1, .labelRef, []⟩ by decide +kernel,
      show (0x101 : Short) + 1 = 0x102 by decide, show (0x101 : Short) + 2 = 0x103 by decide,
      show endless.sym 0x102 = some ⟨1, .labelRef, []⟩ by decide +kernel]
    dsimp only
    rw [if_pos (by decide), if_pos rfl, e4, show rom2 endless 0x101 0x102 = 0x100 by decide +kernel]
  rw [g1, e6, pushEx_whole (by exact h2) (by show c.wst.size.toNat + _ ≤ _; rw [h6]; decide) rfl]
  refine ⟨h1, h2, h3, rfl, ?_, ?_, ?_, h7, h8⟩
  · show c.wst.len + 1 = 1
    rw [h5]; decide
  · show c.wst.size + BitVec.ofNat 8 2 = 2
    rw [h6]; decide
  · show upd c.wst.content c.wst.len _ 0 = _
    rw [h5]
    exact upd_same _ _ _

theorem endless_two {c : Run} (h1 : c.running = true) (h2 : c.terminated = false) (h3 : c.key = 0x100) (h4 : c.pc = 0x103)
    (h5 : c.wst.len = 1) (h6 : c.wst.size = 2) (h9 : c.wst.content 0 = { short := true, address := true, const := true, value := 0x100 })
    (h7 : c.rst.len = 0) (h8 : c.rst.size = 0) : ∃ c', advance endless c = some c' ∧ c'.running = true ∧ c'.terminated = false ∧
    c'.key = 0x100 ∧ c'.pc = 0x104 ∧ c'.rst.len = 1 ∧ c'.rst.size = 2 ∧
      c'.rst.content 0 = { short := true, address := true, const := true, value := 0x100 } ∧ c'.wst.len = 0 ∧ c'.wst.size = 0 := by
  refine ⟨_, endless_advance h1 h2 h3 h4 (.inr (.inl rfl)), ?_⟩
  have g0 : (fetched endless c).opcode = 0x2f := by
    rw [fetched_opcode, h4]
    decide +kernel
  have g1 : perform endless (fetched endless c) = opSTH (fetched endless c) := by
    unfold perform
    rw [g0, show Buxn.VM.dispatch 0x2f = some (.poly .STH false false true) by decide +kernel]
    rfl
  have g2 : (fetched endless c).pc = 0x104 := by
    show c.pc + 1 = _
    rw [h4]
    decide
  have gk : (fetched endless c).keep = false := by
    rw [fetched_keep, h4]
    decide +kernel
  have e3 : flag2 (fetched endless c) = true := by unfold flag2; rw [g0]; decide
  have e4 : flagR (fetched endless c) = false := by unfold flagR; rw [g0]; decide
  have ht : top c.wst = { short := true, address := true, const := true, value := 0x100 } := by
    unfold top
    rw [h5, show (1 : Byte) - 1 = 0 from rfl, h9]
  have e5 : pop (fetched endless c) = ({ short := true, address := true, const := true, value := 0x100 },
      { fetched endless c with wst := { c.wst with len := 0, size := 0 } }) := by
    unfold pop popEx
    rw [if_neg (by show ¬ c.terminated = true; rw [h2]; simp), e3, e4]
    have e6 : popStack false (fetched endless c) = c.wst := by unfold popStack; rw [gk]; rfl
    have e7 := popFrom_only (c := fetched endless c) h5 h6 h9 rfl
    rw [e6, e7]
    dsimp only
    unfold setPop
    rw [if_neg (by rw [gk]; simp)]
    rfl
  rw [g1]
  unfold opSTH
  rw [e5]
  dsimp only
  rw [show flagR { fetched endless c with wst := { c.wst with len := 0, size := 0 } } = false from e4,
    pushEx_whole (by exact h2) (by show c.rst.size.toNat + _ ≤ _; rw [h8]; decide) rfl]
  refine ⟨h1, h2, h3, g2, ?_, ?_, ?_, rfl, rfl⟩
  · show c.rst.len + 1 = 1
    rw [h7]; decide
  · show c.rst.size + BitVec.ofNat 8 2 = 2
    rw [h8]; decide
  · show upd c.rst.content c.rst.len _ 0 = _
    rw [h7]
    exact upd_same _ _ _

theorem endless_three {c : Run} (h1 : c.running = true) (h2 : c.terminated = false) (h3 : c.key = 0x100) (h4 : c.pc = 0x104)
    (h5 : c.rst.len = 1) (h6 : c.rst.size = 2) (h9 : c.rst.content 0 = { short := true, address := true, const := true, value := 0x100 })
    (h7 : c.wst.len = 0) (h8 : c.wst.size = 0) : ∃ c', advance endless c = some c' ∧ AtLoop c' := by
  refine ⟨_, endless_advance h1 h2 h3 h4 (.inr (.inr rfl)), ?_⟩
  have g0 : (fetched endless c).opcode = 0x40 := by
    rw [fetched_opcode, h4]
    decide +kernel
  have g1 : perform endless (fetched endless c) = opJMI endless (fetched endless c) := by
    unfold perform
    rw [g0, show Buxn.VM.dispatch 0x40 = some .JMI by decide +kernel]
  have g2 : (fetched endless c).pc = 0x105 := by
    show c.pc + 1 = _
    rw [h4]
    decide
  have e5 : immediate endless (fetched endless c) = ({ short := true, address := true, const := true, value := 0x107 },
      { fetched endless c with pc := 0x107 }) := by
    unfold immediate
    dsimp only
    rw [g2, show (0x105 : Short) + 1 = 0x106 by decide, show (0x105 : Short) + 2 = 0x107 by decide,
      show endless.sym 0x105 = some ⟨2, .labelRef, []⟩ by decide +kernel, show endless.sym 0x106 = some ⟨2, .labelRef, []⟩ by decide +kernel]
    dsimp only
    rw [if_pos ⟨rfl, rfl⟩, show (0x107 : Short) + rom2 endless 0x105 0x106 = 0x107 by decide +kernel]
  have hs : sigAt endless 0x107 = { kind := .subroutine } := by decide +kernel
  have hk : sigAt endless 0x100 = {} := by decide +kernel
  rw [g1]
  unfold opJMI
  rw [e5]
  dsimp only
  unfold jump
  rw [if_neg (by show ¬ c.terminated = true; rw [h2]; simp)]
  dsimp only
  rw [if_pos rfl]
  have e6 : ∀ c' : Run, absJmp endless { short := true, address := true, const := true, value := 0x107 } c' = (.proceed, { c' with pc := 0x107 }) := by
    intro c'; rfl
  rw [e6]
  dsimp only
  rw [if_neg (by show ¬ c.terminated = true; rw [h2]; simp), if_pos (by decide +kernel)]
  unfold shortCircuit
  dsimp only
  rw [hs, if_neg (by rw [show (fetched endless c).key = 0x100 from h3, hk]; decide)]
  dsimp only
  have ht : top c.rst = { short := true, address := true, const := true, value := 0x100 } := by
    unfold top
    rw [h5, show (1 : Byte) - 1 = 0 from rfl, h9]
  have e7 : ∀ c' r, c'.terminated = false → checkStack .into r [] c' = c' := by
    intro c' r h
    unfold checkStack
    rw [show sigSize [] = 0 from rfl]
    simp [h, checkValues]
  have ht' : (fetched endless c).terminated = false := h2
  rw [e7 _ false (by exact h2), e7 _ true (by exact h2)]
  rw [show ∀ r c', pushAll r [] c' = c' from fun _ _ => rfl, show ∀ r c', pushAll r [] c' = c' from fun _ _ => rfl]
  rw [if_pos rfl, if_pos (by show 2 ≤ c.rst.size.toNat; rw [h6]; decide)]
  have e8 : popReal true true { fetched endless c with pc := 0x107 } = ({ short := true, address := true, const := true, value := 0x100 },
      { fetched endless c with pc := 0x107, rst := { c.rst with len := 0, size := 0 } }) := by
    unfold popReal
    have e7 := popFrom_only (c := { fetched endless c with pc := 0x107 }) h5 h6 h9 rfl
    rw [show realStack true { fetched endless c with pc := 0x107 } = c.rst from rfl, e7]
    rfl
  rw [e8]
  have e9 : ∀ c' : Run, absJmp endless { short := true, address := true, const := true, value := 0x100 } c' = (.proceed, { c' with pc := 0x100 }) := by
    intro c'; rfl
  rw [e9]
  dsimp only
  rw [if_neg (by simp)]
  exact ⟨h1, h2, h3, rfl, h7, h8, rfl, rfl⟩

theorem steps_add (P : Program) : ∀ (i j : Nat) (c : Run), steps P (i + j) c = steps P j (steps P i c)
  | i, 0, c => rfl
  | i, j + 1, c => by
    rw [show i + (j + 1) = i + j + 1 from rfl, steps_succ, steps_add P i j c, ← steps_succ]

theorem endless_round {c : Run} (h : AtLoop c) : AtLoop (steps endless 3 c) := by
  obtain ⟨c1, e1, a1, a2, a3, a4, a5, a6, a7, a8, a9⟩ := endless_one h
  obtain ⟨c2, e2, b1, b2, b3, b4, b5, b6, b7, b8, b9⟩ := endless_two a1 a2 a3 a4 a5 a6 a7 a8 a9
  obtain ⟨c3, e3, hc⟩ := endless_three b1 b2 b3 b4 b5 b6 b7 b8 b9
  have : steps endless 3 c = c3 := by
    show steps endless (2 + 1) c = c3
    rw [steps, e1]
    show steps endless (1 + 1) c1 = c3
    rw [steps, e2]
    show steps endless (0 + 1) c2 = c3
    rw [steps, e3]
    rfl
  rw [this]
  exact hc

/-- **C47 is violated**: the checker never finishes with this program. -/
theorem C47_endless (n : Nat) : advance endless (steps endless n endlessStart) ≠ none := by
  have h0 : AtLoop (steps endless 4 endlessStart) := ⟨by decide +kernel, by decide +kernel, by decide +kernel, by decide +kernel, by decide +kernel⟩
  have h1 : ∀ k, AtLoop (steps endless (4 + 3 * k) endlessStart) := by
    intro k
    induction k with
    | zero => exact h0
    | succ k ih =>
      rw [show 4 + 3 * (k + 1) = 4 + 3 * k + 3 by omega, steps_add]
      exact endless_round ih
  intro hn
  have h2 : ∀ d, steps endless (n + d) endlessStart = steps endless n endlessStart := by
    intro d
    rw [steps_add]
    cases d with
    | zero => rfl
    | succ d => rw [steps, hn]
  have h3 := h1 n
  rw [show 4 + 3 * n = n + (4 + 2 * n) by omega, h2] at h3
  obtain ⟨c1, e1, _⟩ := endless_one h3
  rw [hn] at e1
  cases e1

/-- A loop and two branches: `|0100 #00 &loop DUP #01 EQU ,&loop JCN POP BRK`. -/
def loopProgram : Program := caseProgram [] [0x80, 0x00, 0x06, 0x80, 0x01, 0x08, 0x80, 0xf9, 0x0d, 0x02, 0x00]

/-- Calling back takes a subroutine. -/
theorem no_subroutines {P : Program} (h : ∀ a, (sigAt P a).kind = .vector) (c : Run) : ¬ CallsBack P c := by
  rintro ⟨_, _, h1, ⟨b, c1, k, _, _, e⟩, _⟩
  have h2 : (shortCircuit P b c1).terminated = true := by
    unfold shortCircuit
    dsimp only
    rw [if_neg (by rw [h, h]; simp), if_neg (by rw [h]; simp)]
    rfl
  rw [e, (applyCasts_plainly k _).on.stopped h2] at h1
  cases h1

/-- Programs without signatures of subroutines are always checked in finite time. -/
theorem C47_vectors_only (P : Program) (c : Run) (hc : c.arcs.Nodup) (h : ∀ a, (sigAt P a).kind = .vector) :
    ∃ n, advance P (steps P n c) = none :=
  C47_terminates P c hc 0 (fun n _ => no_subroutines h (steps P n c))

/-- The hypotheses are met: the program above has a loop; it takes 40 steps at most. -/
example : (∀ n, 0 ≤ n → ¬ CallsBack loopProgram (steps loopProgram n (caseStart []))) ∧ (caseStart []).arcs.Nodup ∧
    (steps loopProgram 40 (caseStart [])).arcs = [(0x109, 0x102)] ∧ (advance loopProgram (steps loopProgram 40 (caseStart []))).isNone := by
  refine ⟨fun n _ => no_subroutines ?_ _, by decide, by decide +kernel, by decide +kernel⟩
  intro a
  unfold sigAt loopProgram caseProgram
  dsimp only
  by_cases h : a = 0x100
  · rw [if_pos h]
  · rw [if_neg h]

end Buxn.Chess
