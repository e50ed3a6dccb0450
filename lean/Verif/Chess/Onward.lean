import Verif.Chess.Safety
/-!
# What execution never takes back

Reports, queued traces and followed arcs only get more, for every function of the checker; and a trace that ends
although it has executed no jump and no `BRK` has reported an error.
-/

namespace Buxn.Chess

open Buxn.Asm (Str)
open Buxn.VM (Instr Op dispatch)

/-- The verdict so far is negative exactly when an error has been reported. -/
def Honest (c : Run) : Prop := c.success = false ↔ ∃ t p, Event.error t p ∈ c.log

/-- Something that is said during a trace. -/
def Said (t : Nat) : Event → Prop
  | .error t' _ | .warning t' _ | .deo t' _ _ => t' = t
  | _ => False

structure Onward (c c' : Run) : Prop where
  key : c'.key = c.key
  trace : c'.trace = c.trace
  running : c'.running = c.running
  marked : c'.markedAt = c.markedAt
  log : ∃ es, c'.log = c.log ++ es
  queue : ∃ es, c'.queue = es ++ c.queue ∧ ∀ e ∈ es, e.key = c.key
  arcs : ∃ l, c'.arcs = l ++ c.arcs
  success : c.success = false → c'.success = false
  wrapped : c.wrapped = true → c'.wrapped = true
  stopped : c.terminated = true → c'.terminated = true
  honest : Honest c → Honest c'
  said : ∀ es, c'.log = c.log ++ es → ∀ e ∈ es, Said c.trace e
  ok : c.ok = false → c'.ok = false

namespace Onward

theorem honest_same {c c' : Run} (h : c'.log = c.log) (h' : c'.success = c.success) : Honest c → Honest c' := by
  unfold Honest; rw [h, h']; exact id

theorem said_same {c c' : Run} (h : c'.log = c.log) : ∀ es, c'.log = c.log ++ es → ∀ e ∈ es, Said c.trace e := by
  intro es h' e he
  rw [h] at h'
  rw [List.self_eq_append_right.mp h'] at he
  cases he

theorem said_one {c c' : Run} {e : Event} (h : c'.log = c.log ++ [e]) (hs : Said c.trace e) :
    ∀ es, c'.log = c.log ++ es → ∀ e ∈ es, Said c.trace e := by
  intro es h' x hx
  rw [h] at h'
  rw [← List.append_cancel_left h', List.mem_singleton] at hx
  rw [hx]; exact hs

theorem refl (c : Run) : Onward c c :=
  ⟨rfl, rfl, rfl, rfl, ⟨[], by simp⟩, ⟨[], by simp, fun _ h => (by cases h)⟩, ⟨[], by simp⟩, id, id, id, id, said_same rfl, id⟩

theorem trans {a b c : Run} (h : Onward a b) (h' : Onward b c) : Onward a c := by
  obtain ⟨l1, e1⟩ := h.log
  obtain ⟨l2, e2⟩ := h'.log
  obtain ⟨q1, f1, g1⟩ := h.queue
  obtain ⟨q2, f2, g2⟩ := h'.queue
  obtain ⟨a1, i1⟩ := h.arcs
  obtain ⟨a2, i2⟩ := h'.arcs
  refine ⟨h'.key.trans h.key, h'.trace.trans h.trace, h'.running.trans h.running, h'.marked.trans h.marked,
    ⟨l1 ++ l2, by rw [e2, e1, List.append_assoc]⟩, ⟨q2 ++ q1, by rw [f2, f1, List.append_assoc], ?_⟩,
    ⟨a2 ++ a1, by rw [i2, i1, List.append_assoc]⟩, fun x => h'.success (h.success x), fun x => h'.wrapped (h.wrapped x),
    fun x => h'.stopped (h.stopped x), fun x => h'.honest (h.honest x), fun es he x hx => ?_, fun x => h'.ok (h.ok x)⟩
  · intro e he
    rcases List.mem_append.mp he with he | he
    · rw [g2 e he, h.key]
    · exact g1 e he
  · rw [e2, e1, List.append_assoc] at he
    rw [← List.append_cancel_left he] at hx
    rcases List.mem_append.mp hx with hx | hx
    · exact h.said l1 e1 x hx
    · rw [← h.trace]; exact h'.said l2 e2 x hx

/-- Only fields that do not matter have changed. -/
theorem same {c c' : Run} (h1 : c'.key = c.key) (h2 : c'.trace = c.trace) (h3 : c'.running = c.running)
    (h4 : c'.markedAt = c.markedAt) (h5 : c'.log = c.log) (h6 : c'.queue = c.queue) (h7 : c'.arcs = c.arcs)
    (h8 : c'.success = c.success) (h9 : c'.wrapped = c.wrapped) (h10 : c'.terminated = c.terminated)
    (h11 : c'.ok = c.ok := by rfl) : Onward c c' :=
  ⟨h1, h2, h3, h4, ⟨[], by rw [h5, List.append_nil]⟩, ⟨[], by rw [h6]; rfl, fun _ h => (by cases h)⟩,
    ⟨[], by rw [h7]; rfl⟩, fun h => by rw [h8, h], fun h => by rw [h9, h], fun h => by rw [h10, h], honest_same h5 h8, said_same h5, fun h => by rw [h11, h]⟩

theorem ite {p : Prop} [Decidable p] {c a b : Run} (ha : Onward c a) (hb : Onward c b) : Onward c (if p then a else b) := by
  split <;> assumption

end Onward

/-- Ending the trace comes with an error. -/
def Blunt (c c' : Run) : Prop :=
  c.terminated = false → c'.terminated = true → ∃ es p, c'.log = c.log ++ es ∧ Event.error c.trace p ∈ es

/-- Both. -/
structure Plainly (c c' : Run) : Prop where
  on : Onward c c'
  blunt : Blunt c c'

namespace Plainly

theorem refl (c : Run) : Plainly c c := ⟨.refl c, fun h h' => by rw [h] at h'; cases h'⟩

theorem trans {a b c : Run} (h : Plainly a b) (h' : Plainly b c) : Plainly a c := by
  refine ⟨h.on.trans h'.on, ?_⟩
  intro ha hc
  cases hb : b.terminated
  · obtain ⟨es, p, e, hp⟩ := h'.blunt hb hc
    obtain ⟨fs, f⟩ := h.on.log
    exact ⟨fs ++ es, p, by rw [e, f, List.append_assoc], by rw [← h.on.trace]; exact List.mem_append_right _ hp⟩
  · obtain ⟨es, p, e, hp⟩ := h.blunt ha hb
    obtain ⟨fs, f⟩ := h'.on.log
    exact ⟨es ++ fs, p, by rw [f, e, List.append_assoc], List.mem_append_left _ hp⟩

theorem of_on {c c' : Run} (h : Onward c c') (ht : c.terminated = false → c'.terminated = false) : Plainly c c' :=
  ⟨h, fun h1 h2 => by rw [ht h1] at h2; cases h2⟩

theorem ite {p : Prop} [Decidable p] {c a b : Run} (ha : Plainly c a) (hb : Plainly c b) : Plainly c (if p then a else b) := by
  split <;> assumption

theorem same {c c' : Run} (h1 : c'.key = c.key) (h2 : c'.trace = c.trace) (h3 : c'.running = c.running)
    (h4 : c'.markedAt = c.markedAt) (h5 : c'.log = c.log) (h6 : c'.queue = c.queue) (h7 : c'.arcs = c.arcs)
    (h8 : c'.success = c.success) (h9 : c'.wrapped = c.wrapped) (h10 : c'.terminated = c.terminated)
    (h11 : c'.ok = c.ok := by rfl) : Plainly c c' :=
  .of_on (.same h1 h2 h3 h4 h5 h6 h7 h8 h9 h10 h11) (fun h => by rw [h10, h])

end Plainly

/-! ## Function by function -/

theorem error_plainly (p : Problem) (c : Run) : Plainly c (error p c) := by
  refine ⟨⟨rfl, rfl, rfl, rfl, ⟨_, rfl⟩, ⟨[], by rw [List.nil_append]; rfl, fun _ h => (by cases h)⟩, ⟨[], rfl⟩, fun _ => rfl,
    id, fun _ => rfl, fun _ => ⟨fun _ => ⟨c.trace, p, by simp [error]⟩, fun _ => rfl⟩, Onward.said_one rfl rfl, fun _ => rfl⟩, ?_⟩
  intro _ _
  exact ⟨_, p, rfl, by simp⟩

theorem warning_plainly (w : Doubt) (c : Run) : Plainly c (warning w c) :=
  .of_on ⟨rfl, rfl, rfl, rfl, ⟨_, rfl⟩, ⟨[], rfl, fun _ h => (by cases h)⟩, ⟨[], rfl⟩, id, id, id,
    by intro h; unfold Honest at *; simp only [warning, List.mem_append, List.mem_singleton]; simpa using h, Onward.said_one rfl rfl, id⟩ id

theorem tellDeo_plainly (v p : Byte) (c : Run) : Plainly c (tellDeo v p c) :=
  .of_on ⟨rfl, rfl, rfl, rfl, ⟨_, rfl⟩, ⟨[], rfl, fun _ h => (by cases h)⟩, ⟨[], rfl⟩, id, id, id,
    by intro h; unfold Honest at *; simp only [tellDeo, List.mem_append, List.mem_singleton]; simpa using h, Onward.said_one rfl rfl, id⟩ id

theorem terminate_onward (c : Run) : Onward c (terminate c) :=
  ⟨rfl, rfl, rfl, rfl, ⟨[], by simp [terminate]⟩, ⟨[], rfl, fun _ h => (by cases h)⟩, ⟨[], rfl⟩, id, id, fun _ => rfl,
    Onward.honest_same rfl rfl, Onward.said_same rfl, id⟩

theorem setReal_plainly (r : Bool) (s : Stack) (c : Run) : Plainly c (setReal r s c) := by
  cases r <;> exact .same rfl rfl rfl rfl rfl rfl rfl rfl rfl rfl

theorem setPop_plainly (r : Bool) (s : Stack) (c : Run) : Plainly c (setPop r s c) := by
  unfold setPop
  split
  · cases r <;> exact .same rfl rfl rfl rfl rfl rfl rfl rfl rfl rfl
  · exact setReal_plainly r s c

theorem popFrom_plainly (s : Stack) (b : Bool) (c : Run) : Plainly c (popFrom s b c).2.2 := by
  rcases popFrom_form s b c with ⟨_, e⟩ | ⟨_, _, m, o, e⟩
  · rw [e]; exact error_plainly _ c
  · rw [e]; exact .same rfl rfl rfl rfl rfl rfl rfl rfl rfl rfl

theorem popEx_plainly (b r : Bool) (c : Run) : Plainly c (popEx b r c).2 := by
  unfold popEx
  split
  · exact .refl c
  · exact (popFrom_plainly _ b c).trans (setPop_plainly r _ _)

theorem popReal_plainly (b r : Bool) (c : Run) : Plainly c (popReal b r c).2 := by
  unfold popReal
  exact (popFrom_plainly _ b c).trans (setReal_plainly r _ _)

theorem popList_plainly (r : Bool) : ∀ (bs : List Bool) (c : Run), Plainly c (popList r bs c).2
  | [], c => .refl c
  | b :: bs, c => by
    rw [popList]
    exact (popEx_plainly b r c).trans (popList_plainly r bs _)

theorem pushEx_plainly (r : Bool) (v : Value) (c : Run) : Plainly c (pushEx r v c) := by
  unfold pushEx
  split
  · exact .refl c
  · dsimp only
    split
    · exact error_plainly _ c
    · have h0 : Plainly c { c with wrapped := c.wrapped || decide ((realStack r c).size.toNat + v.size = 256) } := by
        refine .of_on ⟨rfl, rfl, rfl, rfl, ⟨[], by simp⟩, ⟨[], rfl, fun _ h => (by cases h)⟩, ⟨[], rfl⟩, id, ?_, id,
          Onward.honest_same rfl rfl, Onward.said_same rfl, id⟩ id
        intro h; dsimp only; rw [h]; rfl
      refine h0.trans ?_
      repeat' split
      all_goals first
        | exact setReal_plainly r _ _
        | exact .same rfl rfl rfl rfl rfl rfl rfl rfl rfl rfl

theorem push_plainly (v : Value) (c : Run) : Plainly c (push v c) := pushEx_plainly _ v c

theorem pushAll_plainly (r : Bool) : ∀ (vs : List Value) (c : Run), Plainly c (pushAll r vs c)
  | [], c => .refl c
  | v :: vs, c => by
    rw [pushAll_cons]
    exact (pushEx_plainly r v c).trans (pushAll_plainly r vs _)

theorem fork_plainly (e : Entry) (c : Run) (h : e.key = c.key) : Plainly c (fork e c) :=
  .of_on ⟨rfl, rfl, rfl, rfl, ⟨[], by simp [fork]⟩, ⟨[e], rfl, fun x hx => by
    rw [List.mem_singleton] at hx; rw [hx, h]⟩, ⟨[], rfl⟩, id, id, id,
    Onward.honest_same rfl rfl, Onward.said_same rfl, id⟩ id

theorem branch_plainly (c : Run) : Plainly c (branch c) := by
  have h0 : Plainly c { c with wrapped := c.wrapped || decide ((realStack (flagR c) c).size.toNat + 1 = 256) } := by
    refine .of_on ⟨rfl, rfl, rfl, rfl, ⟨[], by simp⟩, ⟨[], rfl, fun _ h => (by cases h)⟩, ⟨[], rfl⟩, id, ?_, id,
          Onward.honest_same rfl rfl, Onward.said_same rfl, id⟩ id
    intro h; dsimp only; rw [h]; rfl
  unfold branch
  dsimp only
  refine h0.trans (fork_plainly _ _ ?_)
  split <;> rfl

theorem noteLoad_plainly (P : Program) (a : Value) (c : Run) : Plainly c (noteLoad P a c) := by
  unfold noteLoad
  split
  · exact .refl c
  · dsimp only
    refine Plainly.trans (b := if isAddress a = true then c else warning .loadNonAddress c)
      (.ite (.refl c) (warning_plainly _ c)) ?_
    generalize (if isAddress a = true then c else warning .loadNonAddress c) = c1
    split
    · split
      · exact .refl _
      · exact .ite (warning_plainly _ _) (.refl _)
    · exact .refl _

theorem store_plainly (P : Program) (a : Value) (c : Run) : Plainly c (store P a c) := by
  unfold store
  split
  · exact .refl c
  · dsimp only
    refine Plainly.trans (b := if isAddress a = true then c else warning .storeNonAddress c)
      (.ite (.refl c) (warning_plainly _ c)) ?_
    generalize (if isAddress a = true then c else warning .storeNonAddress c) = c1
    split
    · split
      · exact .refl _
      · exact .ite (warning_plainly _ _) (.refl _)
    · exact .refl _

theorem note_plainly (P : Program) (op : Op) (vs : List Value) (c : Run) : Plainly c (note P op vs c) := by
  unfold note
  split
  all_goals first
    | exact .ite (.refl c) (branch_plainly c)
    | exact noteLoad_plainly P _ c
    | exact store_plainly P _ c
    | exact .ite (.refl c) (warning_plainly _ c)
    | exact .refl c
    | skip
  · rename_i a v
    dsimp only
    refine Plainly.trans (b := if isAddress a = true then c else warning .deoNonAddress c)
      (.ite (.refl c) (warning_plainly _ c)) ?_
    generalize (if isAddress a = true then c else warning .deoNonAddress c) = c1
    split
    · exact .ite ((tellDeo_plainly _ _ _).trans (tellDeo_plainly _ _ _)) (tellDeo_plainly _ _ _)
    · exact .refl _
  · exact .ite (.same rfl rfl rfl rfl rfl rfl rfl rfl rfl rfl) (.refl c)

theorem opPoly_plainly (P : Program) (op : Op) (c : Run) (hj : isJump op = false) : Plainly c (opPoly P op c) := by
  rw [opPoly_shape P op c hj]
  exact ((popList_plainly _ _ c).trans (note_plainly P op _ _)).trans (pushAll_plainly _ _ _)

theorem checkValue_plainly (d : Direction) (want got : Value) (c : Run) : Plainly c (checkValue d want got c) := by
  unfold checkValue
  dsimp only
  have h1 : Plainly c (if want.address && (!got.address && !got.const) then warning .nonAddress c else c) :=
    .ite (warning_plainly _ c) (.refl c)
  generalize (if want.address && (!got.address && !got.const) then warning .nonAddress c else c) = c1 at *
  refine h1.trans ?_
  have h2 : Plainly c1 (if want.routine && !got.routine then error .notRoutine c1 else c1) :=
    .ite (error_plainly _ c1) (.refl c1)
  generalize (if want.routine && !got.routine then error .notRoutine c1 else c1) = c2 at *
  refine h2.trans ?_
  exact .ite (.ite (.refl _) (error_plainly _ _)) (.refl _)

theorem checkValues_plainly (d : Direction) (r : Bool) : ∀ (vs : List Value) (c : Run), Plainly c (checkValues d r vs c)
  | [], c => .refl c
  | v :: vs, c => by
    rw [checkValues]
    exact ((popReal_plainly _ r c).trans (checkValue_plainly d v _ _)).trans (checkValues_plainly d r vs _)

theorem checkStack_plainly (d : Direction) (r : Bool) (sig : List Value) (c : Run) : Plainly c (checkStack d r sig c) := by
  have key : ∀ c1 : Run, Plainly c c1 → Plainly c (if c1.terminated then c1 else checkValues d r sig.reverse c1) :=
    fun c1 h => h.trans (.ite (.refl _) (checkValues_plainly d r _ _))
  unfold checkStack
  exact key _ (.ite (.refl c) (error_plainly _ c))

theorem checkReturn_plainly (P : Program) (c : Run) : Plainly c (checkReturn P c) := by
  unfold checkReturn
  exact (checkStack_plainly _ _ _ c).trans (checkStack_plainly _ _ _ _)

theorem setTerminatedAt_plainly (b : Bool) (c : Run) : Plainly c (setTerminatedAt b c) :=
  .same rfl rfl rfl rfl rfl rfl rfl rfl rfl rfl

theorem opBRK_onward (P : Program) (c : Run) : Onward c (opBRK P c) := by
  unfold opBRK
  dsimp only
  have h1 : Onward c (if (sigAt P c.key).kind = .subroutine then error .brkInSubroutine c else c) :=
    .ite (error_plainly _ c).on (.refl c)
  generalize (if (sigAt P c.key).kind = .subroutine then error .brkInSubroutine c else c) = c1 at *
  exact ((h1.trans (setTerminatedAt_plainly true c1).on).trans (checkReturn_plainly P _).on).trans (terminate_onward _)

theorem absJmp_onward (P : Program) (a : Value) (c : Run) : Onward c (absJmp P a c).2 := by
  unfold absJmp
  split
  · dsimp only
    have h1 : Onward c (if (sigAt P c.key).kind = .vector then error .returnFromVector c else c) :=
      .ite (error_plainly _ c).on (.refl c)
    generalize (if (sigAt P c.key).kind = .vector then error .returnFromVector c else c) = c1 at *
    exact ((h1.trans (setTerminatedAt_plainly true c1).on).trans (checkReturn_plainly P _).on).trans (terminate_onward _)
  · split
    · exact .same rfl rfl rfl rfl rfl rfl rfl rfl rfl rfl
    · exact (error_plainly _ c).on

theorem shortCircuit_onward (P : Program) (a : Short) (c : Run) : Onward c (shortCircuit P a c) := by
  unfold shortCircuit
  dsimp only
  split
  · exact (error_plainly _ c).on
  · refine ((((checkStack_plainly .into false (sigAt P a).wstIn c).trans
      (checkStack_plainly .into true (sigAt P a).rstIn _)).trans (pushAll_plainly false (sigAt P a).wstOut _)).trans
      (pushAll_plainly true (sigAt P a).rstOut _)).on.trans ?_
    generalize pushAll true (sigAt P a).rstOut (pushAll false (sigAt P a).wstOut
      (checkStack .into true (sigAt P a).rstIn (checkStack .into false (sigAt P a).wstIn c))) = c1
    split
    · split
      · refine (popReal_plainly true true c1).on.trans ((absJmp_onward P (popReal true true c1).1 _).trans ?_)
        exact .ite (setTerminatedAt_plainly _ _).on (.refl _)
      · exact (error_plainly _ _).on
    · exact ((checkReturn_plainly P c1).on.trans (terminate_onward _)).trans (setTerminatedAt_plainly _ _).on

theorem jump_onward (P : Program) (a : Value) (c : Run) : Onward c (jump P a c) := by
  unfold jump
  split
  · exact .refl c
  · dsimp only
    have h1 : Onward c (if a.short = true then (absJmp P a c).2
        else if a.const = true then { c with pc := relative c.pc a.value } else error .unknownAddress c) :=
      .ite (absJmp_onward P a c) (.ite (.same rfl rfl rfl rfl rfl rfl rfl rfl rfl rfl) (error_plainly _ c).on)
    generalize (if a.short = true then (absJmp P a c).2
        else if a.const = true then { c with pc := relative c.pc a.value } else error .unknownAddress c) = c1 at *
    refine h1.trans ?_
    refine .ite (.refl _) (.ite (shortCircuit_onward P _ _) (.ite ?_ ?_))
    · exact ⟨rfl, rfl, rfl, rfl, ⟨[], by simp [terminate]⟩, ⟨[], rfl, fun _ h => (by cases h)⟩, ⟨[], rfl⟩, id, id, fun _ => rfl,
    Onward.honest_same rfl rfl, Onward.said_same rfl, id⟩
    exact ⟨rfl, rfl, rfl, rfl, ⟨[], by simp⟩, ⟨[], rfl, fun _ h => (by cases h)⟩, ⟨[_], rfl⟩, id, id, id,
      Onward.honest_same rfl rfl, Onward.said_same rfl, id⟩

theorem jumpStash_onward (P : Program) (a : Value) (r : Bool) (c : Run) : Onward c (jumpStash P a r c) :=
  (pushEx_plainly _ _ c).on.trans (jump_onward P a _)

theorem jumpConditional_onward (P : Program) (b a : Value) (c : Run) : Onward c (jumpConditional P b a c) := by
  unfold jumpConditional
  exact .ite (.ite (jump_onward P a c) (.refl c)) ((fork_plainly _ _ rfl).on.trans (jump_onward P a _))

theorem opPoly_onward (P : Program) (op : Op) (c : Run) : Onward c (opPoly P op c) := by
  cases hj : isJump op
  · exact (opPoly_plainly P op c hj).on
  · cases op <;> first | cases hj | skip
    · exact (popEx_plainly _ _ c).on.trans (jump_onward P _ _)
    · refine ((popEx_plainly (flag2 c) (flagR c) c).on.trans (popEx_plainly false (flagR (pop c).2) (pop c).2).on).trans ?_
      exact jumpConditional_onward P _ _ _
    · exact (popEx_plainly _ _ c).on.trans (jumpStash_onward P _ _ _)

theorem pc_plainly (pc : Short) (c : Run) : Plainly c { c with pc := pc } := .same rfl rfl rfl rfl rfl rfl rfl rfl rfl rfl

theorem immediate_plainly (P : Program) (c : Run) : Plainly c (immediate P c).2 := by
  unfold immediate
  dsimp only
  refine (pc_plainly (c.pc + 2) c).trans ?_
  split
  · split
    · exact .refl _
    · exact error_plainly _ _
  · exact error_plainly _ _

theorem litByte_plainly (P : Program) (a : Short) (s : Option Sym) (c : Run) : Plainly c (litByte P a s c).2 := by
  unfold litByte
  split
  · exact warning_plainly _ c
  · split <;> exact .refl c

theorem opLIT_plainly (P : Program) (c : Run) : Plainly c (opLIT P c) := by
  unfold opLIT
  split
  · unfold lit2
    dsimp only
    refine (pc_plainly (c.pc + 2) c).trans ?_
    split
    · split
      · exact (push_plainly _ _).trans (push_plainly _ _)
      · split
        · exact push_plainly _ _
        · exact ((push_plainly _ _).trans (litByte_plainly P _ _ _)).trans (push_plainly _ _)
    · split
      · split
        · split
          · exact push_plainly _ _
          · split
            · exact push_plainly _ _
            · exact (warning_plainly _ _).trans (push_plainly _ _)
        · exact (warning_plainly _ _).trans (push_plainly _ _)
      · exact (((litByte_plainly P _ _ _).trans (push_plainly _ _)).trans (litByte_plainly P _ _ _)).trans (push_plainly _ _)
  · dsimp only
    refine (pc_plainly (c.pc + 1) c).trans ?_
    split
    · exact push_plainly _ _
    · split
      · exact (litByte_plainly P _ _ _).trans (push_plainly _ _)
      · exact push_plainly _ _

theorem perform_onward (P : Program) (c : Run) : Onward c (perform P c) := by
  unfold perform
  split
  · exact opBRK_onward P c
  · refine ((immediate_plainly P c).on.trans (popEx_plainly false false (immediate P c).2).on).trans ?_
    exact jumpConditional_onward P _ _ _
  · exact (immediate_plainly P c).on.trans (jump_onward P _ _)
  · exact (immediate_plainly P c).on.trans (jumpStash_onward P _ _ _)
  · exact (opLIT_plainly P c).on
  · exact opPoly_onward P _ c
  · exact .refl c

theorem popInputs_plainly (r : Bool) : ∀ (vs acc : List Value) (c : Run), Plainly c (popInputs r vs acc c).2
  | [], _, c => .refl c
  | v :: vs, acc, c => by
    rw [popInputs]
    exact (popReal_plainly _ r c).trans (popInputs_plainly r vs _ _)

theorem applyCast_plainly (r : Bool) (k : List Value) (c : Run) : Plainly c (applyCast r k c) := by
  unfold applyCast
  split
  · exact (popInputs_plainly r _ _ c).trans (setReal_plainly r _ _)
  · exact error_plainly _ c

theorem applyCasts_plainly (k : Option Cast) (c : Run) : Plainly c (applyCasts k c) := by
  unfold applyCasts
  split
  · exact .refl c
  · exact (applyCast_plainly _ _ c).trans (applyCast_plainly _ _ _)

theorem fetched_plainly (P : Program) (c : Run) : Plainly c (fetched P c) := .same rfl rfl rfl rfl rfl rfl rfl rfl rfl rfl

theorem instruction_onward (P : Program) (c : Run) : Onward c (instruction P c) := by
  have h0 : Onward c { c with opcode := P.rom c.pc, inner := false, lowRom := c.lowRom || decide (c.pc.toNat < 256) } :=
    .same rfl rfl rfl rfl rfl rfl rfl rfl rfl rfl
  rcases hs : P.sym c.pc with _ | s
  · unfold instruction
    dsimp only
    rw [hs]
    exact h0.trans (error_plainly _ _).on
  · by_cases ht : s.type = .opcode
    · rw [instruction_fetched hs ht]
      exact ((fetched_plainly P c).on.trans (perform_onward P _)).trans (applyCasts_plainly _ _).on
    · unfold instruction
      dsimp only
      rw [hs]
      dsimp only
      rw [if_pos ht]
      exact h0.trans (error_plainly _ _).on

theorem round_onward (P : Program) (c : Run) : Onward c (round P c) := by
  unfold round
  refine .ite (error_plainly _ c).on (.ite ?_ (instruction_onward P c))
  have h0 : Onward c { c with inner := true } := .same rfl rfl rfl rfl rfl rfl rfl rfl rfl rfl
  exact h0.trans (shortCircuit_onward P _ _)

end Buxn.Chess
