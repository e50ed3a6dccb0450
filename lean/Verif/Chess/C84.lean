import Verif.Chess.TagRounds
import Verif.Chess.C54Cases
/-!
# C84: nominal types and address semantics

What acceptance by the checker says about the types of the values on the stacks: at every point the checker comes to, the tags
that signatures, casts and literals have put on the bytes (`Verif/Chess/Tags.lean`) bear out what it believes, and wherever a
routine is called its inputs have the declared types.
-/

namespace Buxn.Chess.Types

open Buxn.Asm (Str SymType str)
open Buxn.VM (Instr Op dispatch)

/-- The trace has come to another routine without a jump. -/
def fallsInto (P : Program) (c : Run) : Prop := c.pc ≠ c.key ∧ isRoutine P c.pc = true

instance (P : Program) (c : Run) : Decidable (fallsInto P c) := by unfold fallsInto; infer_instance

/-- The tags after one round: another routine is taken at its word; otherwise the instruction is executed, the routine it calls is
taken at its word, and the cast behind it is believed. -/
def onward (P : Program) (c : Run) (T : Tags) : Tags :=
  if fallsInto P c then called (sigAt P c.pc) T
  else asserted (P.cast c.pc) (landed P (target P c) (instr P c.pc T))

/-- What is asked of a round: only labelled literals whose first byte is labelled too, and no cast on a half of a typed short. -/
def Plainspoken (P : Program) (c : Run) (T : Tags) : Prop :=
  ¬ fallsInto P c → Spelt P c.pc ∧ Clean (P.cast c.pc) (landed P (target P c) (instr P c.pc T))

/-- What a round that reports nothing has made sure of. -/
structure Upheld (P : Program) (c : Run) (T : Tags) (c' : Run) : Prop where
  /-- The inputs of a routine the trace has come to have their types. -/
  falls : fallsInto P c → Suits (sigAt P c.pc) T
  /-- The inputs of a routine that is called have their types. -/
  calls : ¬ fallsInto P c → ∀ b, target P c = some b → isRoutine P b = true → Suits (sigAt P b) (instr P c.pc T)
  /-- The trace goes on with what the tags say. -/
  typed : c'.terminated = false → Proceeds (onward P c T) c'
  /-- So does the other branch. -/
  forks : Adds (instr P c.pc T) c c'

/-- **C84, one round.** -/
theorem C84_round_partial {P : Program} (hP : P.Ok) (c : Run) {T : Tags} (h : Proceeds T c) (hp : Plainspoken P c T) :
    (round P c).wrapped = true ∨ Reports c (round P c) ∨ Upheld P c T (round P c) := by
  unfold round
  split
  · exact .inr (.inl (error_reports _ c))
  by_cases hf : fallsInto P c
  · rw [if_pos (show c.pc ≠ c.key ∧ isRoutine P c.pc = true from hf)]
    have h1 : Proceeds T { c with inner := true } := h.congr rfl rfl rfl rfl
    rcases shortCircuit_tells hP c.pc { c with inner := true } h1 with k | k | k
    · exact .inl k
    · exact .inr (.inl k)
    · refine .inr (.inr ⟨fun _ => k.1, fun hx => absurd hf hx, fun ht => ?_, .same (shortCircuit_turns P c.pc _).queue⟩)
      unfold onward
      rw [if_pos hf]
      exact k.2 ht
  · rw [if_neg (show ¬ (c.pc ≠ c.key ∧ isRoutine P c.pc = true) from hf)]
    obtain ⟨hsp, hcl⟩ := hp hf
    rcases hs : P.sym c.pc with _ | s
    · refine .inr (.inl ?_)
      unfold instruction
      dsimp only
      rw [hs]
      exact error_reports _ { c with opcode := P.rom c.pc, inner := false, lowRom := c.lowRom || decide (c.pc.toNat < 256) }
    by_cases ht : s.type = .opcode
    swap
    · refine .inr (.inl ?_)
      unfold instruction
      dsimp only
      rw [hs]
      dsimp only
      rw [if_pos ht]
      exact error_reports _ { c with opcode := P.rom c.pc, inner := false, lowRom := c.lowRom || decide (c.pc.toNat < 256) }
    rw [instruction_fetched hs ht]
    have hon := (fetched_plainly P c).on
    have hc := (applyCasts_plainly (P.cast c.pc) (perform P (fetched P c))).on
    rcases perform_tells hP c h hsp with k | k | k
    · exact .inl (hc.wrapped k)
    · exact .inr (.inl ((k.then hc).after hon))
    · have hq : (applyCasts (P.cast c.pc) (perform P (fetched P c))).queue = (perform P (fetched P c)).queue :=
        (applyCasts_stays _ _).queue
      have ad : Adds (instr P c.pc T) c (applyCasts (P.cast c.pc) (perform P (fetched P c))) := by
        intro e he
        rw [hq] at he
        exact k.adds e he
      by_cases hstop : (perform P (fetched P c)).terminated = true
      · refine .inr (.inr ⟨fun hx => absurd hx hf, fun _ => k.jumps.suits, fun hx => ?_, ad⟩)
        rw [hc.stopped hstop] at hx
        cases hx
      · have pr := k.jumps.typed (by simpa using hstop)
        rcases applyCasts_tells hP c.pc _ pr hcl with g | g
        · exact .inr (.inl ((g.after (perform_onward P _)).after hon))
        · refine .inr (.inr ⟨fun hx => absurd hx hf, fun _ => k.jumps.suits, fun _ => ?_, ad⟩)
          unfold onward
          rw [if_neg hf]
          exact g

/-! ## Beginnings -/

/-- The tags when a routine is entered: what its signature declares. -/
def entered (sig : Sig) : Tags := fun r =>
  if r then pile (sig.rstIn.map declared) (if sig.kind = .subroutine then mark 2 none true else [])
  else pile (sig.wstIn.map declared) []

/-- Values that are whole need no nodes. -/
theorem tells_whole {m m' : Nodes} : ∀ (vs : List Value) (ts : List Tag), (∀ v ∈ vs, Whole v) → Tells m vs ts → Tells m' vs ts
  | [], _, _, h => h
  | v :: vs, ts, hw, h => by
    obtain ⟨g, rest, e, k, h⟩ := h
    obtain ⟨w1, w2⟩ := hw v List.mem_cons_self
    refine ⟨g, rest, e, ⟨k.size, k.typed, k.addr, fun hx => ?_, fun hx => ?_⟩, tells_whole vs rest (fun v hv => hw v (List.mem_cons_of_mem _ hv)) h⟩
    · rw [w1] at hx; cases hx
    · rw [w2] at hx; cases hx

/-- A trace begins with tags that bear out its stacks. -/
theorem start_proceeds {P : Program} {e : Entry} {c : Run} {T : Tags} (hs : P.sym e.address ≠ none) (hn : c.nodes.Ok)
    (he : ∀ r, (e.stacks r).Ok c.nodes) (hw : ∀ r, ∀ v ∈ items (e.stacks r), Whole v) {m : Nodes}
    (ht : ∀ r, Tells m (items (e.stacks r)) (T r)) : Proceeds T (startTrace P e c) := by
  unfold startTrace
  dsimp only
  split
  · rename_i h; exact absurd h hs
  refine ⟨rfl, ⟨⟨?_, hn.pool, fun _ h => (by cases h), hn.shorts⟩, he false |>.mono (le_refl _), he true |>.mono (le_refl _)⟩, fun r => ?_⟩
  · rw [List.append_nil]; exact (List.nodup_append.mp hn.distinct).1
  · cases r
    · exact tells_whole _ _ (hw false) (ht false)
    · exact tells_whole _ _ (hw true) (ht true)

theorem declared_vouched {m : Nodes} {v : Value} (h : Plain v) : Vouched m v (declared v) := by
  have e : declared v = mark v.size (if v.nominal then some v.type else none) v.address := rfl
  refine ⟨?_, fun hn => ?_, fun ha t ht => ?_, fun hx => ?_, fun hx => ?_⟩
  · rw [e]; exact mark_length _ (size_cases v) _ _
  · rw [e, if_pos hn]; exact mark_of _ (size_cases v) _ _
  · rw [e] at ht; rw [mark_address _ _ _ t ht]; exact ha
  · rw [h.2.2.2.2.1] at hx; cases hx
  · rw [h.2.2.2.2.2.1] at hx; cases hx

theorem tells_pile {m : Nodes} : ∀ (vs ws : List Value) (ts : List Tag), (∀ v ∈ vs, Plain v) → Tells m ws ts →
    Tells m (vs.reverse ++ ws) (pile (vs.map declared) ts)
  | [], _, _, _, h => h
  | v :: vs, ws, ts, hv, h => by
    have e : (v :: vs).reverse ++ ws = vs.reverse ++ (v :: ws) := by simp
    rw [e, List.map_cons, pile_cons]
    exact tells_pile vs (v :: ws) _ (fun v h => hv v (List.mem_cons_of_mem _ h))
      ⟨declared v, ts, rfl, declared_vouched (hv v List.mem_cons_self), h⟩

theorem entered_tells {P : Program} (hP : P.Ok) {a : Short} {sig : Sig} (hl : P.label a = some (some sig)) (t : Nat) (m : Nodes) (r : Bool) :
    Tells m (items ((routineEntry a sig t).stacks r)) (entered sig r) := by
  have hok := hP.sigs a sig hl
  obtain ⟨e1, e2⟩ := entry_items hP hl t
  cases r
  · show Tells m (items (routineEntry a sig t).wst) (pile _ _)
    rw [e1]
    have := tells_pile (m := m) sig.wstIn [] [] hok.wstIn.2 rfl
    rwa [List.append_nil] at this
  · show Tells m (items (routineEntry a sig t).rst) (pile _ _)
    rw [e2]
    refine tells_pile _ _ _ hok.rstIn.2 ?_
    split
    · refine ⟨mark 2 none true, [], by simp, ⟨rfl, fun h => (by cases h), fun _ => mark_address _ _ _, fun h => (by cases h), fun h => (by cases h)⟩, rfl⟩
    · rfl

theorem entry_whole {P : Program} (hP : P.Ok) {a : Short} {sig : Sig} (hl : P.label a = some (some sig)) (t : Nat) (r : Bool) :
    ∀ v ∈ items ((routineEntry a sig t).stacks r), Whole v :=
  (entry_described hP hl t (Buxn.VM.booted []) (fun _ => 0) r).2

/-! ## All of a check -/

/-- The `i`-th step of a check is one of a trace on which the tags are followed: the trace began at a routine, with the tags of its
signature, or where a branch was put aside, with the tags of that moment, and it has been plainspoken so far. -/
inductive Followed (P : Program) (c0 : Run) : Nat → Tags → Prop
  | entry {i a sig t q} : P.label a = some (some sig) → (steps P i c0).running = false →
      (steps P i c0).queue = routineEntry a sig t :: q → Followed P c0 (i + 1) (entered sig)
  | next {i T} : Followed P c0 i T → (steps P i c0).terminated = false → Plainspoken P (steps P i c0) T →
      Followed P c0 (i + 1) (onward P (steps P i c0) T)
  | branch {i j T e q} : Followed P c0 i T → (steps P i c0).terminated = false → Plainspoken P (steps P i c0) T →
      e ∈ (steps P (i + 1) c0).queue → e ∉ (steps P i c0).queue → (∀ r, ∀ v ∈ items (e.stacks r), Whole v) →
      i < j → (steps P j c0).running = false → (steps P j c0).queue = e :: q →
      Followed P c0 (j + 1) (instr P (steps P i c0).pc T)

theorem safe_at {P : Program} (hP : P.Ok) {c0 : Run} {n : Nat} (hs : Safe c0) (hn : Accepts P c0 n) (i : Nat) : Safe (steps P i c0) := by
  rcases steps_fine hP i c0 (.inr hs) with h | h
  · rw [hn.narrow_at i] at h; cases h
  · exact h

theorem started {P : Program} (hP : P.Ok) {c0 : Run} {n : Nat} (hs : Safe c0) (hn : Accepts P c0 n) {j : Nat} {e : Entry} {q : List Entry}
    (hr : (steps P j c0).running = false) (hq : (steps P j c0).queue = e :: q) (hw : ∀ r, ∀ v ∈ items (e.stacks r), Whole v)
    {T : Tags} {m : Nodes} (ht : ∀ r, Tells m (items (e.stacks r)) (T r)) :
    (steps P (j + 1) c0).running = true ∧ Proceeds T (steps P (j + 1) c0) := by
  have j4 : steps P (j + 1) c0 = startTrace P e { steps P j c0 with queue := q } := by
    rw [steps_succ]
    unfold advance
    rw [if_neg (by rw [hr]; simp), hq]
    rfl
  have hsym : P.sym e.address ≠ none := by
    intro hx
    apply hn.calm_at (j + 1) e.trace .nonOpcode
    rw [j4]
    unfold startTrace
    dsimp only
    rw [hx]
    simp [error]
  have hsj := safe_at hP hs hn j
  rw [j4]
  refine ⟨?_, start_proceeds hsym hsj.ok.nodes (fun r => ?_) hw ht⟩
  · unfold startTrace
    dsimp only
    split
    · rename_i h; exact absurd h hsym
    · rfl
  · obtain ⟨x, y⟩ := hsj.queue e (by rw [hq]; exact List.mem_cons_self)
    cases r
    · exact x
    · exact y

/-- One step of a trace that is followed. -/
theorem round_upheld {P : Program} (hP : P.Ok) {c0 : Run} {n : Nat} (hn : Accepts P c0 n) {i : Nat} {T : Tags}
    (hr : (steps P i c0).running = true) (h : Proceeds T (steps P i c0)) (hp : Plainspoken P (steps P i c0) T) :
    Upheld P (steps P i c0) T (steps P (i + 1) c0) ∧ (steps P (i + 1) c0).running = true := by
  obtain ⟨e, h1, h2⟩ := hn.next hr h.running
  rw [e]
  refine ⟨?_, (round_onward P _).running.trans hr⟩
  rcases C84_round_partial hP _ h hp with k | k | k
  · rw [h2] at k; cases k
  · exact absurd k h1
  · exact k

/-- What is true of a trace that is followed: it runs, and unless it has ended the tags bear out what the checker believes. -/
theorem followed {P : Program} (hP : P.Ok) {c0 : Run} {n : Nat} (hs : Safe c0) (hn : Accepts P c0 n) : ∀ {i : Nat} {T : Tags},
    Followed P c0 i T → (steps P i c0).running = true ∧ ((steps P i c0).terminated = false → Proceeds T (steps P i c0)) := by
  intro i T h
  induction h with
  | entry hl hr hq =>
    have := started hP hs hn hr hq (entry_whole hP hl _) (m := c0.nodes) (entered_tells hP hl _ _)
    exact ⟨this.1, fun _ => this.2⟩
  | next _ ht hp ih =>
    obtain ⟨u, r⟩ := round_upheld hP hn ih.1 (ih.2 ht) hp
    exact ⟨r, u.typed⟩
  | branch _ ht hp he hne hw hij hr hq ih =>
    obtain ⟨u, _⟩ := round_upheld hP hn ih.1 (ih.2 ht) hp
    rcases u.forks _ he with k | ⟨m, k⟩
    · exact absurd k hne
    · have := started hP hs hn hr hq hw k
      exact ⟨this.1, fun _ => this.2⟩

/-- **C84.** The checker has accepted a program. Then on every trace that is followed, at every plainspoken round: the inputs of a routine
that is called, or into which the trace runs, have the types its signature asks for, and the tags go on to bear out what the checker
believes, on this branch and on the other one. -/
theorem C84_accepted_calls_partial (rom : Short → Byte) (events : List Asm.Event) (n : Nat) (c : Run) (r : Reader)
    (hr : r = (readAll events).finish) (hc : check rom events n = some c) (hs : c.success = true) (hw : c.wrapped = false)
    {i : Nat} {T : Tags} (hf : Followed (r.program rom) r.run i T) (ht : (steps (r.program rom) i r.run).terminated = false)
    (hp : Plainspoken (r.program rom) (steps (r.program rom) i r.run) T) :
    Upheld (r.program rom) (steps (r.program rom) i r.run) T (steps (r.program rom) (i + 1) r.run) := by
  subst hr
  have hP := program_ok rom events
  have hn := accepted hc hs hw
  have hsafe : Safe (readAll events).finish.run := run_safe (finish_ok (readAll_ok events))
  obtain ⟨h1, h2⟩ := followed hP hsafe hn hf
  exact (round_upheld hP hn h1 (h2 ht) hp).1

/-- Every routine whose signature is not sealed is followed from its beginning. -/
theorem C84_routines_followed (rom : Short → Byte) (events : List Asm.Event) (n : Nat) (c : Run) (r : Reader)
    (hr : r = (readAll events).finish) (hc : check rom events n = some c) (hs : c.success = true) (hw : c.wrapped = false)
    {a : Short} {sig : Sig} (hl : (r.program rom).label a = some (some sig)) (hm : r.marked a = true) :
    ∃ i, (steps (r.program rom) i r.run).pc = a ∧ (steps (r.program rom) i r.run).key = a ∧
      Followed (r.program rom) r.run i (entered sig) := by
  subst hr
  have hn := accepted hc hs hw
  obtain ⟨t, ht⟩ := (finish_listed (readAll_listed events)).queued a sig hl hm
  obtain ⟨j, q, _, j2, j3, j4⟩ := hn.taken_up (i := 0) ht
  refine ⟨j + 1, ?_, ?_, .entry hl j2 j3⟩ <;>
  · rw [j4]
    unfold startTrace
    dsimp only
    split <;> rfl

end Buxn.Chess.Types
