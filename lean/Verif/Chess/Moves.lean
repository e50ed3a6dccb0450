import Verif.Chess.Onward
/-!
# C47: where a trace goes

What each function does to the program counter, to the set of arcs and to the list of waiting traces.
-/

namespace Buxn.Chess

open Buxn.VM (Instr Op dispatch)

/-- Nothing that matters for termination changes. -/
structure Stays (c c' : Run) : Prop where
  pc : c'.pc = c.pc
  arcs : c'.arcs = c.arcs
  queue : c'.queue = c.queue
  inner : c'.inner = c.inner

namespace Stays

theorem refl (c : Run) : Stays c c := ⟨rfl, rfl, rfl, rfl⟩

theorem trans {a b c : Run} (h : Stays a b) (h' : Stays b c) : Stays a c :=
  ⟨h'.pc.trans h.pc, h'.arcs.trans h.arcs, h'.queue.trans h.queue, h'.inner.trans h.inner⟩

theorem ite {p : Prop} [Decidable p] {c a b : Run} (ha : Stays c a) (hb : Stays c b) : Stays c (if p then a else b) := by
  split
  · exact ha
  · exact hb

end Stays

theorem error_stays (p : Problem) (c : Run) : Stays c (error p c) := ⟨rfl, rfl, rfl, rfl⟩

theorem warning_stays (w : Doubt) (c : Run) : Stays c (warning w c) := ⟨rfl, rfl, rfl, rfl⟩

theorem tellDeo_stays (v p : Byte) (c : Run) : Stays c (tellDeo v p c) := ⟨rfl, rfl, rfl, rfl⟩

theorem terminate_stays (c : Run) : Stays c (terminate c) := ⟨rfl, rfl, rfl, rfl⟩

theorem setTerminatedAt_stays (b : Bool) (c : Run) : Stays c (setTerminatedAt b c) := ⟨rfl, rfl, rfl, rfl⟩

theorem setReal_stays (r : Bool) (s : Stack) (c : Run) : Stays c (setReal r s c) := by cases r <;> exact ⟨rfl, rfl, rfl, rfl⟩

theorem setPop_stays (r : Bool) (s : Stack) (c : Run) : Stays c (setPop r s c) := by
  unfold setPop
  split
  · cases r <;> exact ⟨rfl, rfl, rfl, rfl⟩
  · exact setReal_stays r s c

theorem popFrom_stays (s : Stack) (b : Bool) (c : Run) : Stays c (popFrom s b c).2.2 := by
  rcases popFrom_form s b c with ⟨_, e⟩ | ⟨_, _, m, o, e⟩
  · rw [e]; exact error_stays _ c
  · rw [e]; exact ⟨rfl, rfl, rfl, rfl⟩

theorem popEx_stays (b r : Bool) (c : Run) : Stays c (popEx b r c).2 := by
  unfold popEx
  split
  · exact .refl c
  · exact (popFrom_stays _ b c).trans (setPop_stays r _ _)

theorem popReal_stays (b r : Bool) (c : Run) : Stays c (popReal b r c).2 := by
  unfold popReal
  exact (popFrom_stays _ b c).trans (setReal_stays r _ _)

theorem popList_stays (r : Bool) : ∀ (bs : List Bool) (c : Run), Stays c (popList r bs c).2
  | [], c => .refl c
  | b :: bs, c => by
    rw [popList]
    exact (popEx_stays b r c).trans (popList_stays r bs _)

theorem pushEx_stays (r : Bool) (v : Value) (c : Run) : Stays c (pushEx r v c) := by
  unfold pushEx
  split
  · exact .refl c
  · dsimp only
    split
    · exact error_stays _ c
    · have h0 : Stays c { c with wrapped := c.wrapped || decide ((realStack r c).size.toNat + v.size = 256) } := ⟨rfl, rfl, rfl, rfl⟩
      refine h0.trans ?_
      repeat' split
      all_goals first
        | exact setReal_stays r _ _
        | exact ⟨rfl, rfl, rfl, rfl⟩

theorem push_stays (v : Value) (c : Run) : Stays c (push v c) := pushEx_stays _ v c

theorem pushAll_stays (r : Bool) : ∀ (vs : List Value) (c : Run), Stays c (pushAll r vs c)
  | [], c => .refl c
  | v :: vs, c => by
    rw [pushAll_cons]
    exact (pushEx_stays r v c).trans (pushAll_stays r vs _)

theorem noteLoad_stays (P : Program) (a : Value) (c : Run) : Stays c (noteLoad P a c) := by
  unfold noteLoad
  split
  · exact .refl c
  · dsimp only
    refine Stays.trans (b := if isAddress a = true then c else warning .loadNonAddress c)
      (.ite (.refl c) (warning_stays _ c)) ?_
    generalize (if isAddress a = true then c else warning .loadNonAddress c) = c1
    split
    · split
      · exact .refl _
      · exact .ite (warning_stays _ _) (.refl _)
    · exact .refl _

theorem store_stays (P : Program) (a : Value) (c : Run) : Stays c (store P a c) := by
  unfold store
  split
  · exact .refl c
  · dsimp only
    refine Stays.trans (b := if isAddress a = true then c else warning .storeNonAddress c)
      (.ite (.refl c) (warning_stays _ c)) ?_
    generalize (if isAddress a = true then c else warning .storeNonAddress c) = c1
    split
    · split
      · exact .refl _
      · exact .ite (warning_stays _ _) (.refl _)
    · exact .refl _

theorem checkValue_stays (d : Direction) (want got : Value) (c : Run) : Stays c (checkValue d want got c) := by
  unfold checkValue
  dsimp only
  have h1 : Stays c (if want.address && (!got.address && !got.const) then warning .nonAddress c else c) :=
    .ite (warning_stays _ c) (.refl c)
  generalize (if want.address && (!got.address && !got.const) then warning .nonAddress c else c) = c1 at *
  refine h1.trans ?_
  have h2 : Stays c1 (if want.routine && !got.routine then error .notRoutine c1 else c1) :=
    .ite (error_stays _ c1) (.refl c1)
  generalize (if want.routine && !got.routine then error .notRoutine c1 else c1) = c2 at *
  refine h2.trans ?_
  exact .ite (.ite (.refl _) (error_stays _ _)) (.refl _)

theorem checkValues_stays (d : Direction) (r : Bool) : ∀ (vs : List Value) (c : Run), Stays c (checkValues d r vs c)
  | [], c => .refl c
  | v :: vs, c => by
    rw [checkValues]
    exact ((popReal_stays _ r c).trans (checkValue_stays d v _ _)).trans (checkValues_stays d r vs _)

theorem checkStack_stays (d : Direction) (r : Bool) (sig : List Value) (c : Run) : Stays c (checkStack d r sig c) := by
  have key : ∀ c1 : Run, Stays c c1 → Stays c (if c1.terminated then c1 else checkValues d r sig.reverse c1) :=
    fun c1 h => h.trans (.ite (.refl _) (checkValues_stays d r _ _))
  unfold checkStack
  exact key _ (.ite (.refl c) (error_stays _ c))

theorem checkReturn_stays (P : Program) (c : Run) : Stays c (checkReturn P c) := by
  unfold checkReturn
  exact (checkStack_stays _ _ _ c).trans (checkStack_stays _ _ _ _)

theorem popInputs_stays (r : Bool) : ∀ (vs acc : List Value) (c : Run), Stays c (popInputs r vs acc c).2
  | [], _, c => .refl c
  | v :: vs, acc, c => by
    rw [popInputs]
    exact (popReal_stays _ r c).trans (popInputs_stays r vs _ _)

theorem applyCast_stays (r : Bool) (k : List Value) (c : Run) : Stays c (applyCast r k c) := by
  unfold applyCast
  split
  · exact (popInputs_stays r _ _ c).trans (setReal_stays r _ _)
  · exact error_stays _ c

theorem applyCasts_stays (k : Option Cast) (c : Run) : Stays c (applyCasts k c) := by
  unfold applyCasts
  split
  · exact .refl c
  · exact (applyCast_stays _ _ c).trans (applyCast_stays _ _ _)

/-! ## Branches -/

/-- At most one trace is set aside; it continues here. -/
structure Splits (c c' : Run) : Prop where
  pc : c'.pc = c.pc
  arcs : c'.arcs = c.arcs
  inner : c'.inner = c.inner
  queue : ∃ es, c'.queue = es ++ c.queue ∧ es.length ≤ 1 ∧ ∀ e ∈ es, e.address = c.pc

namespace Splits

theorem of_stays {c c' : Run} (h : Stays c c') : Splits c c' :=
  ⟨h.pc, h.arcs, h.inner, [], h.queue, Nat.zero_le _, fun _ h => (by cases h)⟩

theorem after {a b c : Run} (h : Stays a b) (h' : Splits b c) : Splits a c := by
  obtain ⟨es, h1, h2, h3⟩ := h'.queue
  exact ⟨h'.pc.trans h.pc, h'.arcs.trans h.arcs, h'.inner.trans h.inner, es, by rw [h1, h.queue], h2, by rw [← h.pc]; exact h3⟩

theorem before {a b c : Run} (h : Splits a b) (h' : Stays b c) : Splits a c := by
  obtain ⟨es, h1, h2, h3⟩ := h.queue
  exact ⟨h'.pc.trans h.pc, h'.arcs.trans h.arcs, h'.inner.trans h.inner, es, by rw [h'.queue, h1], h2, h3⟩

end Splits

theorem fork_splits (e : Entry) (c : Run) (h : e.address = c.pc) : Splits c (fork e c) :=
  ⟨rfl, rfl, rfl, [e], rfl, by simp, fun x hx => by rw [List.mem_singleton] at hx; rw [hx, h]⟩

theorem branch_splits (c : Run) : Splits c (branch c) := by
  have h0 : Stays c { c with wrapped := c.wrapped || decide ((realStack (flagR c) c).size.toNat + 1 = 256) } := ⟨rfl, rfl, rfl, rfl⟩
  unfold branch
  dsimp only
  refine .after h0 (fork_splits _ _ ?_)
  split <;> rfl

theorem note_splits (P : Program) (op : Op) (vs : List Value) (c : Run) : Splits c (note P op vs c) := by
  unfold note
  split
  all_goals first
    | (split <;> [exact .of_stays (.refl c); exact branch_splits c])
    | exact .of_stays (noteLoad_stays P _ c)
    | exact .of_stays (store_stays P _ c)
    | exact .of_stays (.ite (.refl c) (warning_stays _ c))
    | exact .of_stays (.refl c)
    | skip
  · rename_i a v
    dsimp only
    refine .of_stays (Stays.trans (b := if isAddress a = true then c else warning .deoNonAddress c)
      (.ite (.refl c) (warning_stays _ c)) ?_)
    generalize (if isAddress a = true then c else warning .deoNonAddress c) = c1
    split
    · exact .ite ((tellDeo_stays _ _ _).trans (tellDeo_stays _ _ _)) (tellDeo_stays _ _ _)
    · exact .refl _
  · exact .of_stays (.ite ⟨rfl, rfl, rfl, rfl⟩ (.refl c))

theorem opPoly_splits (P : Program) (op : Op) (c : Run) (hj : isJump op = false) : Splits c (opPoly P op c) := by
  rw [opPoly_shape P op c hj]
  exact (Splits.after (popList_stays _ _ c) (note_splits P op _ _)).before (pushAll_stays _ _ _)

/-! ## Jumps -/

/-- Only the program counter moves. -/
structure Turns (c c' : Run) : Prop where
  arcs : c'.arcs = c.arcs
  queue : c'.queue = c.queue
  inner : c'.inner = c.inner

namespace Turns

theorem of_stays {c c' : Run} (h : Stays c c') : Turns c c' := ⟨h.arcs, h.queue, h.inner⟩

theorem trans {a b c : Run} (h : Turns a b) (h' : Turns b c) : Turns a c :=
  ⟨h'.arcs.trans h.arcs, h'.queue.trans h.queue, h'.inner.trans h.inner⟩

theorem ite {p : Prop} [Decidable p] {c a b : Run} (ha : Turns c a) (hb : Turns c b) : Turns c (if p then a else b) := by
  split
  · exact ha
  · exact hb

end Turns

theorem absJmp_turns (P : Program) (a : Value) (c : Run) : Turns c (absJmp P a c).2 := by
  unfold absJmp
  split
  · dsimp only
    have h1 : Stays c (if (sigAt P c.key).kind = .vector then error .returnFromVector c else c) :=
      .ite (error_stays _ c) (.refl c)
    generalize (if (sigAt P c.key).kind = .vector then error .returnFromVector c else c) = c1 at *
    exact .of_stays (((h1.trans (setTerminatedAt_stays true c1)).trans (checkReturn_stays P _)).trans (terminate_stays _))
  · split
    · exact ⟨rfl, rfl, rfl⟩
    · exact .of_stays (error_stays _ c)

theorem shortCircuit_turns (P : Program) (a : Short) (c : Run) : Turns c (shortCircuit P a c) := by
  unfold shortCircuit
  dsimp only
  split
  · exact .of_stays (error_stays _ c)
  · refine Turns.trans (.of_stays (((checkStack_stays .into false (sigAt P a).wstIn c).trans
      (checkStack_stays .into true (sigAt P a).rstIn _)).trans ((pushAll_stays false (sigAt P a).wstOut _).trans
      (pushAll_stays true (sigAt P a).rstOut _)))) ?_
    generalize pushAll true (sigAt P a).rstOut (pushAll false (sigAt P a).wstOut
      (checkStack .into true (sigAt P a).rstIn (checkStack .into false (sigAt P a).wstIn c))) = c1
    split
    · split
      · refine (Turns.of_stays (popReal_stays true true c1)).trans ((absJmp_turns P (popReal true true c1).1 _).trans ?_)
        exact .ite (.of_stays (setTerminatedAt_stays _ _)) (.of_stays (.refl _))
      · exact .of_stays (error_stays _ _)
    · exact .of_stays (((checkReturn_stays P c1).trans (terminate_stays _)).trans (setTerminatedAt_stays _ _))

/-- What can become of a jump. -/
inductive Jumped (P : Program) (c c' : Run) : Prop where
  /-- the trace ends -/
  | ended (h : c'.terminated = true) (t : Turns c c')
  /-- an arc is followed for the first time -/
  | followed (x : Short × Short) (h : x ∉ c.arcs) (e : c'.arcs = x :: c.arcs) (q : c'.queue = c.queue) (i : c'.inner = c.inner)
  /-- the target has a signature -/
  | called (b : Short) (c1 : Run) (h : isRoutine P b = true) (on : Onward c c1) (e : c' = shortCircuit P b c1) (t : Turns c c')

theorem jump_jumped (P : Program) (a : Value) (c : Run) : Jumped P c (jump P a c) := by
  unfold jump
  split
  · rename_i h
    exact .ended h (.of_stays (.refl c))
  · dsimp only
    have h1 : Turns c (if a.short = true then (absJmp P a c).2
        else if a.const = true then { c with pc := relative c.pc a.value } else error .unknownAddress c) :=
      .ite (absJmp_turns P a c) (.ite ⟨rfl, rfl, rfl⟩ (.of_stays (error_stays _ c)))
    have h2 : Onward c (if a.short = true then (absJmp P a c).2
        else if a.const = true then { c with pc := relative c.pc a.value } else error .unknownAddress c) :=
      .ite (absJmp_onward P a c) (.ite (.same rfl rfl rfl rfl rfl rfl rfl rfl rfl rfl) (error_plainly _ c).on)
    generalize (if a.short = true then (absJmp P a c).2
        else if a.const = true then { c with pc := relative c.pc a.value } else error .unknownAddress c) = c1 at *
    split
    · rename_i h
      exact .ended h h1
    · split
      · rename_i h
        exact .called _ c1 h h2 rfl (h1.trans (shortCircuit_turns P _ _))
      · split
        · exact .ended rfl (h1.trans (.of_stays ⟨rfl, rfl, rfl, rfl⟩))
        · rename_i h
          refine .followed (c.pc, c1.pc) ?_ ?_ h1.queue h1.inner
          · rw [← h1.arcs]; exact h
          · show _ = _ :: c.arcs
            rw [← h1.arcs]

theorem Jumped.after {P : Program} {a b c : Run} (h : Stays a b) (hon : Onward a b) (h' : Jumped P b c) : Jumped P a c := by
  cases h' with
  | ended e t => exact .ended e ((Turns.of_stays h).trans t)
  | followed x hx e q i => exact .followed x (by rw [← h.arcs]; exact hx) (by rw [e, h.arcs]) (by rw [q, h.queue]) (by rw [i, h.inner])
  | called b' c1 hb on e t => exact .called b' c1 hb (hon.trans on) e ((Turns.of_stays h).trans t)

theorem jumpStash_jumped (P : Program) (a : Value) (r : Bool) (c : Run) : Jumped P c (jumpStash P a r c) :=
  (jump_jumped P a _).after (pushEx_stays _ _ c) (pushEx_plainly _ _ c).on

/-! ## One round -/

/-- Behind an instruction. -/
def Next (p q : Short) : Prop := q = p + 1 ∨ q = p + 2 ∨ q = p + 3

/-- What can become of the trace itself. -/
inductive Moved (P : Program) (c c' : Run) : Prop where
  | ended (h : c'.terminated = true) (e : c'.arcs = c.arcs)
  | followed (x : Short × Short) (h : x ∉ c.arcs) (e : c'.arcs = x :: c.arcs)
  | went (h : Next c.pc c'.pc) (e : c'.arcs = c.arcs) (i : c'.inner = false)
  | called (b : Short) (c1 : Run) (k : Option Cast) (h : isRoutine P b = true) (on : Onward c c1)
      (e : c' = applyCasts k (shortCircuit P b c1)) (a : c'.arcs = c.arcs)

/-- At most one trace is set aside, and it begins behind the instruction. -/
def SetAside (c c' : Run) : Prop := ∃ es, c'.queue = es ++ c.queue ∧ es.length ≤ 1 ∧ ∀ e ∈ es, Next c.pc e.address

theorem next_one (p : Short) : Next p (p + 1) := .inl rfl

theorem next_two (p : Short) : Next p (p + 1 + 1) := .inr (.inl (by rw [BitVec.add_assoc]; rfl))

theorem next_three (p : Short) : Next p (p + 1 + 2) := .inr (.inr (by rw [BitVec.add_assoc]; rfl))

theorem SetAside.none {c c' : Run} (h : c'.queue = c.queue) : SetAside c c' := ⟨[], h, Nat.zero_le _, fun _ h => (by cases h)⟩

/-- The state before an instruction and one behind it. -/
structure Behind (c c1 : Run) : Prop where
  next : Next c.pc c1.pc
  arcs : c1.arcs = c.arcs
  queue : c1.queue = c.queue
  inner : c1.inner = false
  on : Onward c c1

theorem Behind.stays {c c1 c2 : Run} (h : Behind c c1) (h' : Stays c1 c2) (hon : Onward c1 c2) : Behind c c2 :=
  ⟨by rw [h'.pc]; exact h.next, h'.arcs.trans h.arcs, h'.queue.trans h.queue, h'.inner.trans h.inner, h.on.trans hon⟩

theorem fetched_behind (P : Program) (c : Run) : Behind c (fetched P c) :=
  ⟨next_one _, rfl, rfl, rfl, (fetched_plainly P c).on⟩

/-- Casts come last. -/
theorem moved_splits {P : Program} {c c1 c2 : Run} {k : Option Cast} (h : Behind c c1) (h' : Splits c1 c2) :
    Moved P c (applyCasts k c2) ∧ SetAside c (applyCasts k c2) := by
  have hk := applyCasts_stays k c2
  obtain ⟨es, h1, h2, h3⟩ := h'.queue
  refine ⟨.went ?_ ?_ ?_, es, ?_, h2, ?_⟩
  · rw [hk.pc, h'.pc]; exact h.next
  · rw [hk.arcs, h'.arcs, h.arcs]
  · rw [hk.inner, h'.inner, h.inner]
  · rw [hk.queue, h1, h.queue]
  · intro e he; rw [h3 e he]; exact h.next

theorem moved_jumped {P : Program} {c c1 c2 : Run} {k : Option Cast} (h : Behind c c1) (h' : Jumped P c1 c2) :
    Moved P c (applyCasts k c2) ∧ c2.queue = c1.queue := by
  have hk := applyCasts_stays k c2
  cases h' with
  | ended e t => exact ⟨.ended ((applyCasts_plainly k c2).on.stopped e) (by rw [hk.arcs, t.arcs, h.arcs]), t.queue⟩
  | followed x hx e q i => exact ⟨.followed x (by rw [← h.arcs]; exact hx) (by rw [hk.arcs, e, h.arcs]), q⟩
  | called b c' hb on e t => exact ⟨.called b c' k hb (h.on.trans on) (by rw [e]) (by rw [hk.arcs, t.arcs, h.arcs]), t.queue⟩

theorem moved_jump {P : Program} {c c1 c2 : Run} {k : Option Cast} (h : Behind c c1) (h' : Jumped P c1 c2) :
    Moved P c (applyCasts k c2) ∧ SetAside c (applyCasts k c2) := by
  obtain ⟨h1, h2⟩ := moved_jumped (k := k) h h'
  exact ⟨h1, .none (by rw [(applyCasts_stays k c2).queue, h2, h.queue])⟩

theorem moved_conditional {P : Program} {c c1 : Run} {k : Option Cast} (h : Behind c c1) (b a : Value) :
    Moved P c (applyCasts k (jumpConditional P b a c1)) ∧ SetAside c (applyCasts k (jumpConditional P b a c1)) := by
  unfold jumpConditional
  split
  · split
    · exact moved_jump h (jump_jumped P a c1)
    · exact moved_splits h (.of_stays (.refl c1))
  · have hk := (applyCasts_stays k (jump P a (fork (forked c1) c1))).queue
    have h2 : ∀ c2 : Run, c2.arcs = c1.arcs → c2.inner = c1.inner → Onward c1 c2 → Jumped P c2 (jump P a c2) →
        Moved P c (applyCasts k (jump P a c2)) ∧ (jump P a c2).queue = c2.queue := by
      intro c2 e1 e2 hon hj
      have hk := applyCasts_stays k (jump P a c2)
      cases hj with
      | ended e t => exact ⟨.ended ((applyCasts_plainly k _).on.stopped e) (by rw [hk.arcs, t.arcs, e1, h.arcs]), t.queue⟩
      | followed x hx e q i => exact ⟨.followed x (by rw [← h.arcs, ← e1]; exact hx) (by rw [hk.arcs, e, e1, h.arcs]), q⟩
      | called b c' hb on e t =>
        exact ⟨.called b c' k hb ((h.on.trans hon).trans on) (by rw [e]) (by rw [hk.arcs, t.arcs, e1, h.arcs]), t.queue⟩
    obtain ⟨m1, m2⟩ := h2 (fork (forked c1) c1) rfl rfl (fork_plainly _ _ rfl).on (jump_jumped P a _)
    refine ⟨m1, [forked c1], ?_, by simp, ?_⟩
    · rw [hk, m2]
      show forked c1 :: c1.queue = _
      rw [h.queue]; rfl
    · intro e he
      rw [List.mem_singleton] at he
      rw [he]
      exact h.next

theorem immediate_behind (P : Program) (c : Run) : Behind c (immediate P (fetched P c)).2 := by
  have hon := (fetched_plainly P c).on.trans (immediate_plainly P (fetched P c)).on
  have key : (immediate P (fetched P c)).2.pc = c.pc + 1 + 2 ∧ (immediate P (fetched P c)).2.arcs = c.arcs ∧
      (immediate P (fetched P c)).2.queue = c.queue ∧ (immediate P (fetched P c)).2.inner = false := by
    unfold immediate
    dsimp only
    split
    · split <;> exact ⟨rfl, rfl, rfl, rfl⟩
    · exact ⟨rfl, rfl, rfl, rfl⟩
  exact ⟨by rw [key.1]; exact next_three _, key.2.1, key.2.2.1, key.2.2.2, hon⟩

theorem litByte_stays (P : Program) (a : Short) (s : Option Sym) (c : Run) : Stays c (litByte P a s c).2 := by
  unfold litByte
  split
  · exact warning_stays _ c
  · split <;> exact .refl c

theorem opLIT_behind (P : Program) (c : Run) : Behind c (opLIT P (fetched P c)) := by
  have hon := (fetched_plainly P c).on.trans (opLIT_plainly P (fetched P c)).on
  have key : ∃ c1 : Run, Next c.pc c1.pc ∧ c1.arcs = c.arcs ∧ c1.queue = c.queue ∧ c1.inner = false ∧
      Stays c1 (opLIT P (fetched P c)) := by
    unfold opLIT
    split
    · unfold lit2
      refine ⟨{ fetched P c with pc := (fetched P c).pc + 2 }, next_three _, rfl, rfl, rfl, ?_⟩
      dsimp only
      split
      · split
        · exact (push_stays _ _).trans (push_stays _ _)
        · split
          · exact push_stays _ _
          · exact ((push_stays _ _).trans (litByte_stays P _ _ _)).trans (push_stays _ _)
      · split
        · split
          · split
            · exact push_stays _ _
            · split
              · exact push_stays _ _
              · exact (warning_stays _ _).trans (push_stays _ _)
          · exact (warning_stays _ _).trans (push_stays _ _)
        · exact (((litByte_stays P _ _ _).trans (push_stays _ _)).trans (litByte_stays P _ _ _)).trans (push_stays _ _)
    · refine ⟨{ fetched P c with pc := (fetched P c).pc + 1 }, next_two _, rfl, rfl, rfl, ?_⟩
      dsimp only
      split
      · exact push_stays _ _
      · split
        · exact (litByte_stays P _ _ _).trans (push_stays _ _)
        · exact push_stays _ _
  obtain ⟨c1, h1, h2, h3, h4, h5⟩ := key
  exact ⟨by rw [h5.pc]; exact h1, h5.arcs.trans h2, h5.queue.trans h3, h5.inner.trans h4, hon⟩

theorem instruction_moves (P : Program) (c : Run) : Moved P c (instruction P c) ∧ SetAside c (instruction P c) := by
  have hbad : ∀ c1 : Run, c1.arcs = c.arcs → c1.queue = c.queue → Moved P c (error .nonOpcode c1) ∧ SetAside c (error .nonOpcode c1) :=
    fun c1 h1 h2 => ⟨.ended rfl h1, .none h2⟩
  rcases hs : P.sym c.pc with _ | s
  · unfold instruction
    dsimp only
    rw [hs]
    exact hbad _ rfl rfl
  · by_cases ht : s.type = .opcode
    swap
    · unfold instruction
      dsimp only
      rw [hs]
      dsimp only
      rw [if_pos ht]
      exact hbad _ rfl rfl
    rw [instruction_fetched hs ht]
    generalize P.cast c.pc = k
    have hb := fetched_behind P c
    unfold perform
    split
    · unfold opBRK
      dsimp only
      have h1 : Stays (fetched P c) (if (sigAt P (fetched P c).key).kind = .subroutine then error .brkInSubroutine (fetched P c) else fetched P c) :=
        .ite (error_stays _ _) (.refl _)
      generalize (if (sigAt P (fetched P c).key).kind = .subroutine then error .brkInSubroutine (fetched P c) else fetched P c) = c1 at *
      have h2 := ((h1.trans (setTerminatedAt_stays true c1)).trans (checkReturn_stays P _)).trans (terminate_stays _)
      have hk := applyCasts_stays k (terminate (checkReturn P (setTerminatedAt true c1)))
      refine ⟨.ended ((applyCasts_plainly k _).on.stopped rfl) ?_, .none ?_⟩
      · rw [hk.arcs, h2.arcs]; rfl
      · rw [hk.queue, h2.queue]; rfl
    · exact moved_conditional ((immediate_behind P c).stays (popEx_stays false false _) (popEx_plainly _ _ _).on)
        (popEx false false (immediate P (fetched P c)).2).1 (immediate P (fetched P c)).1
    · exact moved_jump (immediate_behind P c) (jump_jumped P _ _)
    · exact moved_jump (immediate_behind P c) (jumpStash_jumped P _ _ _)
    · exact moved_splits (opLIT_behind P c) (.of_stays (.refl _))
    · rename_i op _ _ _ _
      cases hj : isJump op
      · exact moved_splits hb (opPoly_splits P op _ hj)
      · cases op <;> first | cases hj | skip
        · exact moved_jump (hb.stays (popEx_stays _ _ _) (popEx_plainly _ _ _).on) (jump_jumped P _ _)
        · exact moved_conditional ((hb.stays (popEx_stays (flag2 (fetched P c)) (flagR (fetched P c)) _) (popEx_plainly _ _ _).on).stays
            (popEx_stays false (flagR (pop (fetched P c)).2) (pop (fetched P c)).2) (popEx_plainly _ _ _).on) _ _
        · exact moved_jump (hb.stays (popEx_stays _ _ _) (popEx_plainly _ _ _).on) (jumpStash_jumped P _ _ _)
    · exact moved_splits hb (.of_stays (.refl _))

end Buxn.Chess
