import Verif.Tools.ReplWhole
import Verif.Chess.Reads
/-!
# C93 at the prompt: what the machine holds does not matter to the checker

The prompt assembles each line into the memory of a machine that lives on, and the checker reads that memory (`repl.c:618-621`). What the lines before have left there does not matter:
whether a line is accepted, and what is told about the stacks, is a matter of the line and of the signature.
-/

namespace Buxn.Repl
open Buxn.VM
open Buxn.Asm (Str ch str)

theorem put_cover (l : List (Short × Byte)) (vm vm' : VM) (a : Short) (h : vm.memory a.toNat = vm'.memory a.toNat ∨ ∃ p ∈ l, p.1 = a) :
    (put l vm).memory a.toNat = (put l vm').memory a.toNat := by
  induction l generalizing vm vm' with
  | nil =>
    rcases h with h | ⟨p, hp, -⟩
    · exact h
    · cases hp
  | cons q l ih =>
    refine ih _ _ ?_
    by_cases e : q.1 = a
    · left
      dsimp only
      rw [e, upd_same, upd_same]
    · have hn : a.toNat ≠ q.1.toNat := fun h => e (BitVec.eq_of_toNat_eq h.symm)
      rcases h with h | ⟨p, hp, hpa⟩
      · left
        dsimp only
        rw [upd_other _ _ hn, upd_other _ _ hn]
        exact h
      · right
        rcases List.mem_cons.1 hp with rfl | hp
        · exact absurd hpa e
        · exact ⟨p, hp, hpa⟩

/-- An emitted byte has been put. -/
theorem emitted_put {log : List Asm.Event} {a : Short} (h : a ∈ Asm.Spec.emitted log) : ∃ p ∈ bytesPut log.reverse, p.1 = a := by
  unfold Asm.Spec.emitted at h
  obtain ⟨e, h1, h2⟩ := List.mem_filterMap.1 h
  split at h2
  · rename_i b v
    cases h2
    exact ⟨(a, v), List.mem_filterMap.2 ⟨_, List.mem_reverse.2 h1, rfl⟩, rfl⟩
  · cases h2

theorem program_alike {files : Asm.Files} {fuel : Nat} {filename : Str} {s : Asm.Asm} (h : Asm.assemble files fuel filename = some (true, s)) (vm vm' : VM) :
    Chess.Alike (program s.log.reverse vm) (program s.log.reverse vm').rom := by
  refine Chess.alike_of (rom := (program s.log.reverse vm).rom) (events := s.log.reverse) fun a i hi ht => ?_
  have ha : a ∈ Asm.Spec.emitted s.log := by
    rw [← Asm.C42_bytes files fuel filename s h]
    unfold Asm.symbolBytes
    refine List.mem_filterMap.2 ⟨.sym a i, List.mem_reverse.1 hi, ?_⟩
    rcases ht with e | e | e | e <;> (dsimp only; rw [e]; rfl)
  exact put_cover _ vm vm' a (.inr (emitted_put ha))

variable {P : Chess.Program} {rom : Short → Byte} {names : Nat → Bool → Nat → Str} {events : List Asm.Event}

/-- The prompt has heard the same. -/
structure WatchTwins (w w' : Watch) : Prop where
  run : Chess.Twins w.run w'.run
  file : w'.file = w.file
  told : w'.told = w.told
  errors : w'.errors = w.errors

theorem executes_onto {c c' : Chess.Run} (h : Chess.Twins c c') : executes (P.onto rom) c' = executes P c := by
  obtain ⟨o, rfl, -⟩ := h
  rfl

theorem fetched_onto {c c' : Chess.Run} (h : Chess.Twins c c') (hr : rom c.pc = P.rom c.pc) : Chess.fetched (P.onto rom) c' = Chess.fetched P c := by
  obtain ⟨o, rfl, -⟩ := h
  have key : ∀ b : Byte, b = P.rom c.pc → ({ c with
    opcode := b, inner := false, lowRom := c.lowRom || decide (c.pc.toNat < 256), pc := c.pc + 1
    shadowWst := if b.getLsbD 7 then c.wst else c.shadowWst
    shadowRst := if b.getLsbD 7 then c.rst else c.shadowRst
    keep := b.getLsbD 7 } : Chess.Run) = Chess.fetched P c := by
    rintro b rfl
    rfl
  exact key _ hr

theorem watch1_onto (ha : Chess.Alike P rom) {w w' : Watch} (h : WatchTwins w w') {c c' : Chess.Run} (hc : Chess.Twins c c') :
    WatchTwins (watch1 names events P w c) (watch1 names events (P.onto rom) w' c') := by
  obtain ⟨r, f, t, e⟩ := w
  obtain ⟨r', f', t', e'⟩ := w'
  obtain ⟨h1, h2, h3, h4⟩ := h
  dsimp only at h1 h2 h3 h4
  subst h2 h3 h4
  have hx := executes_onto (P := P) (rom := rom) h1
  have hlog : c'.log = c.log ∧ r'.log = r.log := by
    obtain ⟨o, rfl, -⟩ := hc
    obtain ⟨o', rfl, -⟩ := h1
    exact ⟨rfl, rfl⟩
  have hplace : place events (P.onto rom) ⟨r', f', t', e'⟩ = place events P ⟨r, f', t', e'⟩ := by
    unfold place
    dsimp only
    rw [hx]
    obtain ⟨o', rfl, -⟩ := h1
    rfl
  refine ⟨hc, hplace, ?_, ?_⟩
  · unfold watch1
    dsimp only
    rw [hx, hlog.1, hlog.2]
    by_cases hX : executes P r = true
    · rw [if_pos hX, if_pos hX]
      have hs : P.sym r.pc ≠ none := by
        unfold executes at hX
        simp only [Bool.and_eq_true] at hX
        intro hn
        have := hX.2
        unfold Chess.isOpcode at this
        rw [hn] at this
        cases this
      have hp : Chess.perform (P.onto rom) (Chess.fetched (P.onto rom) r') = Chess.perform P (Chess.fetched P r) := by
        rw [Chess.perform_onto ha, fetched_onto h1 (ha _ hs)]
      rw [hp]
    · rw [if_neg hX, if_neg hX]
  · unfold watch1
    dsimp only
    rw [hplace, hlog.1, hlog.2]

theorem watch_onto (ha : Chess.Alike P rom) (n : Nat) {w w' : Watch} (h : WatchTwins w w') : WatchTwins (watch names events P n w) (watch names events (P.onto rom) n w') := by
  induction n generalizing w w' with
  | zero => exact h
  | succ n ih =>
    unfold watch
    rcases Chess.advance_onto ha h.run with ⟨e1, e2⟩ | ⟨d, d', e1, e2, h2⟩
    · rw [e1, e2]
      exact h
    · rw [e1, e2]
      exact ih (watch1_onto ha h h2)

/-- **C93**, at the prompt. What a line comes to (the bytes that it is assembled to, whether it is accepted, what the checker tells about the stacks) does not depend on the machine: not
on what the lines before have left in memory, not on the stacks themselves; but on its text and on the signature alone. -/
theorem C93_prompt (disk : Asm.Files) (names : Nat → Bool → Nat → Str) (fuel n : Nat) (text : Str) (ended : Bool) (sig : Str) (vm vm' : VM) :
    let o := outcome disk names fuel n text ended sig vm
    let o' := outcome disk names fuel n text ended sig vm'
    (o.ok = true ∨ o'.ok = true → o = o') ∧ o.rom = o'.rom ∧ o.line = o'.line := by
  dsimp only
  unfold outcome
  cases ha : Asm.assemble (files sig text disk) fuel (str "/repl/main") with
  | none => exact ⟨fun _ => rfl, rfl, rfl⟩
  | some r =>
    obtain ⟨ok, s⟩ := r
    dsimp only
    cases ok with
    | false =>
      refine ⟨fun h => ?_, ?_, ?_⟩
      · exfalso
        rcases h with h | h <;> (split at h <;> cases h)
      · split <;> split <;> rfl
      · split <;> split <;> rfl
    | true =>
      have hal := program_alike ha vm vm'
      have e : program s.log.reverse vm' = (program s.log.reverse vm).onto (program s.log.reverse vm').rom := rfl
      have hw := watch_onto (names := names) (events := s.log.reverse) hal n (w := unwatched s.log.reverse) ⟨Chess.Twins.refl _, rfl, rfl, rfl⟩
      rw [← e] at hw
      have hadv := Chess.advance_onto hal hw.run
      rw [← e] at hadv
      have hend : endless s.log.reverse (Chess.readAll s.log.reverse).finish.keys (watch names s.log.reverse (program s.log.reverse vm') n (unwatched s.log.reverse)).run =
          endless s.log.reverse (Chess.readAll s.log.reverse).finish.keys (watch names s.log.reverse (program s.log.reverse vm) n (unwatched s.log.reverse)).run := by
        obtain ⟨x, hx, -⟩ := hw.run
        rw [hx]
        unfold endless
        obtain ⟨y, hy⟩ := Chess.checkTermination_onto (Chess.readAll s.log.reverse).finish.keys (c := (watch names s.log.reverse (program s.log.reverse vm) n (unwatched s.log.reverse)).run) ⟨x, rfl⟩
        rw [hy]
      rcases hadv with ⟨e1, e2⟩ | ⟨d, d', e1, e2, -⟩
      · rw [e1, e2]
        dsimp only
        rw [hw.told, hw.errors, hend]
        exact ⟨fun _ => rfl, rfl, rfl⟩
      · rw [e1, e2]
        exact ⟨fun _ => rfl, rfl, rfl⟩

/-! ## Concrete cases -/

/-- A machine with something everywhere. -/
def full : VM := ⟨16 * 65536, 7, 9, fun _ => 1, fun _ => 2, fun _ => 3, fun i => BitVec.ofNat 8 i⟩

/-- A line that is accepted, on a machine with nothing in it as on one with something everywhere: `C93_prompt` says more than that both are refused. -/
example : let o := outcome (fun _ => none) (fun _ _ _ => []) 60 200 (str "#01\n") false (str "( . -> )") Sample.machine
    o.ok = true ∧ o.line = true ∧ o.errors = 0 ∧ o.rom.length = 13 ∧ o.told.length = 1 := by decide +kernel

example : outcome (fun _ => none) (fun _ _ _ => []) 60 200 (str "#01\n") false (str "( . -> )") Sample.machine =
    outcome (fun _ => none) (fun _ _ _ => []) 60 200 (str "#01\n") false (str "( . -> )") full :=
  (C93_prompt (fun _ => none) (fun _ _ _ => []) 60 200 (str "#01\n") false (str "( . -> )") Sample.machine full).1 (.inl (by decide +kernel))

end Buxn.Repl
