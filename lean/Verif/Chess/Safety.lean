import Verif.Chess.Accounting
/-!
# C45: the bookkeeping of the checker stays right

Every state the checker reaches is `Fine`: the recorded sizes are the sums of the sizes of the values and no stack is
accessed out of bounds, unless a stack was filled to exactly 256 bytes.
-/

namespace Buxn.Chess

open Buxn.Asm (Str)
open Buxn.VM (Instr Op dispatch)

/-- Fine, and so are some values. -/
def FineWith (c : Run) (vs : List Value) : Prop :=
  c.wrapped = true ∨ (Safe c ∧ ∀ v ∈ vs, Tidy c.nodes.fresh v)

theorem FineWith.fine {c : Run} {vs : List Value} (h : FineWith c vs) : Fine c := h.imp id fun h => h.1

theorem Fine.with {c : Run} (h : Fine c) {vs : List Value} (hv : ∀ v ∈ vs, v.halfHi = false ∧ v.halfLo = false) :
    FineWith c vs := h.imp id fun h => ⟨h, fun v hm => whole_tidy _ (hv v hm).1 (hv v hm).2⟩

/-! ## Changes that do not matter -/

theorem Safe.of_same {c c' : Run} (h : Safe c) (h1 : c'.nodes = c.nodes) (h2 : c'.wst = c.wst) (h3 : c'.rst = c.rst)
    (h4 : c'.keep = c.keep) (h5 : c'.shadowWst = c.shadowWst) (h6 : c'.shadowRst = c.shadowRst)
    (h7 : ∀ e ∈ c'.queue, e ∈ c.queue ∨ e.wst.Ok c.nodes ∧ e.rst.Ok c.nodes) (h8 : c'.oob = c.oob) : Safe c' := by
  refine ⟨⟨by rw [h1]; exact h.ok.nodes, by rw [h1, h2]; exact h.ok.wst, by rw [h1, h3]; exact h.ok.rst⟩, ?_, ?_, ?_⟩
  · rw [h1, h4, h5, h6]; exact h.shadow
  · intro e he
    rw [h1]
    rcases h7 e he with hq | hq
    · exact h.queue e hq
    · exact hq
  · rw [h8]; exact h.unharmed

theorem error_fine {c : Run} (p : Problem) (h : Fine c) : Fine (error p c) :=
  h.imp id fun h => h.of_same rfl rfl rfl rfl rfl rfl (fun _ h => .inl h) rfl

theorem warning_fine {c : Run} (w : Doubt) (h : Fine c) : Fine (warning w c) :=
  h.imp id fun h => h.of_same rfl rfl rfl rfl rfl rfl (fun _ h => .inl h) rfl

theorem terminate_fine {c : Run} (h : Fine c) : Fine (terminate c) :=
  h.imp id fun h => h.of_same rfl rfl rfl rfl rfl rfl (fun _ h => .inl h) rfl

theorem setTerminatedAt_fine {c : Run} (b : Bool) (h : Fine c) : Fine (setTerminatedAt b c) :=
  h.imp id fun h => h.of_same rfl rfl rfl rfl rfl rfl (fun _ h => .inl h) rfl

theorem error_with {c : Run} {vs : List Value} (p : Problem) (h : FineWith c vs) : FineWith (error p c) vs :=
  h.imp id fun h => ⟨h.1.of_same rfl rfl rfl rfl rfl rfl (fun _ h => .inl h) rfl, h.2⟩

theorem warning_with {c : Run} {vs : List Value} (w : Doubt) (h : FineWith c vs) : FineWith (warning w c) vs :=
  h.imp id fun h => ⟨h.1.of_same rfl rfl rfl rfl rfl rfl (fun _ h => .inl h) rfl, h.2⟩

theorem fork_fine {c : Run} (h : Fine c) : Fine (fork (forked c) c) :=
  h.imp id fun h => h.of_same rfl rfl rfl rfl rfl rfl (fun e he => by
    rcases List.mem_cons.mp he with e1 | he
    · rw [e1]; exact .inr ⟨h.ok.wst, h.ok.rst⟩
    · exact .inl he) rfl

theorem Fine.ite {p : Prop} [Decidable p] {a b : Run} (ha : Fine a) (hb : Fine b) : Fine (if p then a else b) := by
  split <;> assumption

/-! ## Pops -/

/-- Stacks may be replaced and nodes may be added. -/
theorem Safe.setPop {c : Run} (h : Safe c) (r : Bool) {s : Stack} {m : Nodes} (hs : s.Ok m) (hm : m.Ok)
    (hf : c.nodes.fresh ≤ m.fresh) : Safe (setPop r s { c with nodes := m }) := by
  have h1 : Stack.Ok m c.wst := h.ok.wst.mono hf
  have h2 : Stack.Ok m c.rst := h.ok.rst.mono hf
  have hq : ∀ e ∈ c.queue, e.wst.Ok m ∧ e.rst.Ok m := fun e he => ⟨(h.queue e he).1.mono hf, (h.queue e he).2.mono hf⟩
  unfold Chess.setPop
  cases hk : c.keep
  · rw [if_neg (by simp)]
    cases r
    · exact ⟨⟨hm, hs, h2⟩, fun hk' => (by cases hk'), hq, h.unharmed⟩
    · exact ⟨⟨hm, h1, hs⟩, fun hk' => (by cases hk'), hq, h.unharmed⟩
  · rw [if_pos (by simp)]
    have hsh := h.shadow hk
    have h3 : Stack.Ok m c.shadowWst := hsh.1.mono hf
    have h4 : Stack.Ok m c.shadowRst := hsh.2.mono hf
    cases r
    · exact ⟨⟨hm, h1, h2⟩, fun _ => ⟨hs, h4⟩, hq, h.unharmed⟩
    · exact ⟨⟨hm, h1, h2⟩, fun _ => ⟨h3, hs⟩, hq, h.unharmed⟩

theorem Safe.setReal {c : Run} (h : Safe c) (r : Bool) {s : Stack} {m : Nodes} (hs : s.Ok m) (hm : m.Ok)
    (hf : c.nodes.fresh ≤ m.fresh) : Safe (setReal r s { c with nodes := m }) := by
  have h1 : Stack.Ok m c.wst := h.ok.wst.mono hf
  have h2 : Stack.Ok m c.rst := h.ok.rst.mono hf
  have hq : ∀ e ∈ c.queue, e.wst.Ok m ∧ e.rst.Ok m := fun e he => ⟨(h.queue e he).1.mono hf, (h.queue e he).2.mono hf⟩
  have hsh : c.keep = true → c.shadowWst.Ok m ∧ c.shadowRst.Ok m :=
    fun hk => ⟨(h.shadow hk).1.mono hf, (h.shadow hk).2.mono hf⟩
  cases r
  · exact ⟨⟨hm, hs, h2⟩, hsh, hq, h.unharmed⟩
  · exact ⟨⟨hm, h1, hs⟩, hsh, hq, h.unharmed⟩

@[simp] theorem setPop_wrapped (r : Bool) (s : Stack) (c : Run) : (setPop r s c).wrapped = c.wrapped := by
  unfold setPop; split <;> cases r <;> rfl
@[simp] theorem setReal_wrapped (r : Bool) (s : Stack) (c : Run) : (setReal r s c).wrapped = c.wrapped := by
  cases r <;> rfl

theorem popFrom_wrapped (s : Stack) (b : Bool) (c : Run) : (popFrom s b c).2.2.wrapped = c.wrapped := by
  rcases popFrom_form s b c with ⟨_, e⟩ | ⟨_, _, m, o, e⟩
  · rw [e]; rfl
  · rw [e]

theorem popEx_wrapped (b r : Bool) (c : Run) : (popEx b r c).2.wrapped = c.wrapped := by
  unfold popEx
  split
  · rfl
  · dsimp only; rw [setPop_wrapped, popFrom_wrapped]

theorem popReal_wrapped (b r : Bool) (c : Run) : (popReal b r c).2.wrapped = c.wrapped := by
  unfold popReal
  dsimp only; rw [setReal_wrapped, popFrom_wrapped]

theorem Safe.popStack {c : Run} (h : Safe c) (r : Bool) : (popStack r c).Ok c.nodes := by
  unfold Chess.popStack
  cases hk : c.keep
  · exact h.ok.real r
  · cases r
    · exact (h.shadow hk).1
    · exact (h.shadow hk).2

theorem valueError_tidy (f : Nat) : Tidy f valueError := whole_tidy _ rfl rfl

theorem error_nodes (p : Problem) (m : Nodes) (c : Run) : error p { c with nodes := m } = { error p c with nodes := m } := rfl

theorem popEx_fine {c : Run} {vs : List Value} (b r : Bool) (h : FineWith c vs) :
    FineWith (popEx b r c).2 ((popEx b r c).1 :: vs) := by
  rcases h with h | ⟨h, hv⟩
  · left; rw [popEx_wrapped]; exact h
  · right
    unfold popEx
    cases ht : c.terminated
    · rw [if_neg (by simp)]
      by_cases hw : width b ≤ (popStack r c).size.toNat
      · obtain ⟨v, s', m', e, p⟩ := popFrom_ok h.ok.nodes (h.popStack r) hw
        rw [e]
        dsimp only
        refine ⟨h.setPop r p.stack p.nodes p.fresh, fun w hm => ?_⟩
        rw [setPop_nodes]
        rcases List.mem_cons.mp hm with e | hm
        · rw [e]; exact p.value
        · exact (hv w hm).mono p.fresh
      · rw [popFrom_underflow _ (by omega)]
        dsimp only
        have h2 : Safe (error .underflow c) := h.of_same rfl rfl rfl rfl rfl rfl (fun _ h => .inl h) rfl
        refine ⟨h2.setPop r (m := c.nodes) (h.popStack r) h.ok.nodes (le_refl _), fun w hm => ?_⟩
        rw [setPop_nodes]
        rcases List.mem_cons.mp hm with e | hm
        · rw [e]; exact valueError_tidy _
        · exact hv w hm
    · rw [if_pos rfl]
      refine ⟨h, fun w hm => ?_⟩
      rcases List.mem_cons.mp hm with e | hm
      · rw [e]; exact valueError_tidy _
      · exact hv w hm

theorem popReal_fine {c : Run} {vs : List Value} (b r : Bool) (h : FineWith c vs) :
    FineWith (popReal b r c).2 ((popReal b r c).1 :: vs) := by
  rcases h with h | ⟨h, hv⟩
  · left; rw [popReal_wrapped]; exact h
  · right
    unfold popReal
    by_cases hw : width b ≤ (realStack r c).size.toNat
    · obtain ⟨v, s', m', e, p⟩ := popFrom_ok h.ok.nodes (h.ok.real r) hw
      rw [e]
      dsimp only
      refine ⟨h.setReal r p.stack p.nodes p.fresh, fun w hm => ?_⟩
      rw [setReal_nodes]
      rcases List.mem_cons.mp hm with e | hm
      · rw [e]; exact p.value
      · exact (hv w hm).mono p.fresh
    · rw [popFrom_underflow _ (by omega)]
      dsimp only
      have h2 : Safe (error .underflow c) := h.of_same rfl rfl rfl rfl rfl rfl (fun _ h => .inl h) rfl
      refine ⟨h2.setReal r (m := c.nodes) (h.ok.real r) h.ok.nodes (le_refl _), fun w hm => ?_⟩
      rw [setReal_nodes]
      rcases List.mem_cons.mp hm with e | hm
      · rw [e]; exact valueError_tidy _
      · exact hv w hm

theorem popList_fine (r : Bool) : ∀ (bs : List Bool) (c : Run) (vs : List Value), FineWith c vs →
    FineWith (popList r bs c).2 ((popList r bs c).1 ++ vs)
  | [], _, _, h => h
  | b :: bs, c, vs, h => by
    have h1 := popEx_fine b r h
    have h2 := popList_fine r bs _ _ h1
    rw [popList]
    dsimp only
    exact h2.imp id fun ⟨h3, h4⟩ => ⟨h3, fun v hv => h4 v (by simp at hv ⊢; tauto)⟩

/-! ## Pushes -/

theorem pushEx_wrapped (r : Bool) (v : Value) (c : Run) (h : c.wrapped = true) : (pushEx r v c).wrapped = true := by
  unfold pushEx
  split
  · exact h
  · dsimp only
    split
    · exact h
    · split
      all_goals
        split
        · split
          · rw [setReal_wrapped]; simp [h]
          · simp [h]
        · rw [setReal_wrapped]; simp [h]

theorem pushEx_full (r : Bool) (v : Value) (c : Run) (ht : c.terminated = false)
    (h : (realStack r c).size.toNat + v.size = 256) : (pushEx r v c).wrapped = true := by
  unfold pushEx
  rw [if_neg (by rw [ht]; simp)]
  dsimp only
  rw [if_neg (by omega)]
  split
  all_goals
    split
    · split
      · rw [setReal_wrapped]; simp [h]
      · simp [h]
    · rw [setReal_wrapped]; simp [h]

theorem pushEx_with {c : Run} {v : Value} {vs : List Value} (r : Bool) (h : FineWith c (v :: vs)) :
    FineWith (pushEx r v c) vs := by
  rcases h with h | ⟨h, hv⟩
  · exact .inl (pushEx_wrapped r v c h)
  · cases ht : c.terminated
    · by_cases h1 : (realStack r c).size.toNat + v.size ≤ 255
      · right
        obtain ⟨s', e, p⟩ := pushEx_ok h.ok.nodes (h.ok.real r) (hv v List.mem_cons_self) ht h1
        rw [e]
        refine ⟨h.setReal r (m := c.nodes) p.stack h.ok.nodes (le_refl _), fun w hw => ?_⟩
        rw [setReal_nodes]
        exact hv w (List.mem_cons_of_mem _ hw)
      · by_cases h2 : (realStack r c).size.toNat + v.size = 256
        · exact .inl (pushEx_full r v c ht h2)
        · rw [pushEx_overflow ht (by omega)]
          exact error_with _ (.inr ⟨h, fun w hw => hv w (List.mem_cons_of_mem _ hw)⟩)
    · rw [pushEx_terminated ht]
      exact .inr ⟨h, fun w hw => hv w (List.mem_cons_of_mem _ hw)⟩

theorem pushEx_fine {c : Run} {v : Value} (r : Bool) (h : FineWith c [v]) : Fine (pushEx r v c) :=
  (pushEx_with r h).fine

theorem pushAll_fine (r : Bool) : ∀ (vs : List Value) (c : Run), FineWith c vs → Fine (pushAll r vs c)
  | [], _, h => h.fine
  | v :: vs, c, h => by
    rw [pushAll_cons]
    exact pushAll_fine r vs _ (pushEx_with r h)

/-! ## Operations -/

theorem branchEntry_ok {c : Run} (h : Safe c) (hs : (realStack (flagR c) c).size.toNat + 1 ≤ 255) :
    (branchEntry c).wst.Ok c.nodes ∧ (branchEntry c).rst.Ok c.nodes := by
  have hp := (rawPush_ok (v := truth false) (h.ok.real (flagR c)) (truth_tidy _ _) hs).stack
  unfold branchEntry
  cases hf : flagR c <;> rw [hf] at hp
  · exact ⟨hp, h.ok.rst⟩
  · exact ⟨h.ok.wst, hp⟩

theorem note_fine (P : Program) (op : Op) (vs : List Value) (c : Run) (ws : List Value) (h : FineWith c ws) :
    FineWith (note P op vs c) ws := by
  obtain ⟨hn, hq⟩ := note_noted' P op vs c
  generalize note P op vs c = c' at *
  rcases h with h | ⟨h, hv⟩
  · left
    rcases hq with hq | ⟨_, _, hq⟩
    · rw [hq.2]; exact h
    · rw [hq, h]; rfl
  · rcases hq with hq | ⟨_, hq, hw⟩
    · right
      refine ⟨h.of_same (by rw [hn.eq]) (by rw [hn.eq]) (by rw [hn.eq]) (by rw [hn.eq]) (by rw [hn.eq])
        (by rw [hn.eq]) (fun e he => .inl (by rw [hq.1] at he; exact he)) (by rw [hn.eq]), ?_⟩
      rw [hn.nodes]; exact hv
    · by_cases hs : (realStack (flagR c) c).size.toNat + 1 = 256
      · left; rw [hw]; simp [hs]
      · right
        have := (realStack (flagR c) c).size.isLt
        have hb := branchEntry_ok h (by omega)
        refine ⟨h.of_same (by rw [hn.eq]) (by rw [hn.eq]) (by rw [hn.eq]) (by rw [hn.eq]) (by rw [hn.eq])
          (by rw [hn.eq]) (fun e he => ?_) (by rw [hn.eq]), ?_⟩
        · rw [hq] at he
          rcases List.mem_cons.mp he with e1 | he
          · rw [e1]; exact .inr hb
          · exact .inl he
        · rw [hn.nodes]; exact hv

theorem opPoly_fine (P : Program) (op : Op) (c : Run) (hj : isJump op = false) (h : Fine c) : Fine (opPoly P op c) := by
  rw [opPoly_shape P op c hj]
  have h0 : FineWith c [] := h.imp id fun h => ⟨h, fun _ hv => (by cases hv)⟩
  have h1 := popList_fine (flagR c) (operands (flag2 c) op) c [] h0
  rw [List.append_nil] at h1
  generalize popList (flagR c) (operands (flag2 c) op) c = p at *
  apply pushAll_fine
  have h2 := note_fine P op p.1 p.2 p.1 h1
  exact h2.imp id fun h => ⟨h.1, results_tidy P (flag2 c) c.pc op p.1 _ h.2⟩

/-! ## Signatures -/

theorem checkValue_fine {c : Run} (d : Direction) (want got : Value) (h : Fine c) : Fine (checkValue d want got c) := by
  unfold checkValue
  dsimp only
  have h1 : Fine (if want.address && (!got.address && !got.const) then warning .nonAddress c else c) :=
    .ite (warning_fine _ h) h
  generalize (if want.address && (!got.address && !got.const) then warning .nonAddress c else c) = c1 at *
  have h2 : Fine (if want.routine && !got.routine then error .notRoutine c1 else c1) := .ite (error_fine _ h1) h1
  generalize (if want.routine && !got.routine then error .notRoutine c1 else c1) = c2 at *
  exact .ite (.ite h2 (error_fine _ h2)) h2

theorem Fine.nil {c : Run} (h : Fine c) : FineWith c [] := h.imp id fun h => ⟨h, fun _ hv => (by cases hv)⟩

theorem checkValues_fine (d : Direction) (r : Bool) : ∀ (vs : List Value) (c : Run), Fine c → Fine (checkValues d r vs c)
  | [], _, h => h
  | v :: vs, c, h => by
    rw [checkValues]
    dsimp only
    exact checkValues_fine d r vs _ (checkValue_fine _ _ _ (popReal_fine v.short r h.nil).fine)

theorem checkStack_fine (d : Direction) (r : Bool) (sig : List Value) (c : Run) (h : Fine c) :
    Fine (checkStack d r sig c) := by
  unfold checkStack
  dsimp only
  exact .ite (.ite h (error_fine _ h)) (checkValues_fine _ _ _ _ (.ite h (error_fine _ h)))

theorem checkReturn_fine (P : Program) (c : Run) (h : Fine c) : Fine (checkReturn P c) := by
  unfold checkReturn
  dsimp only
  exact checkStack_fine _ _ _ _ (checkStack_fine _ _ _ _ h)

theorem opBRK_fine (P : Program) (c : Run) (h : Fine c) : Fine (opBRK P c) := by
  unfold opBRK
  dsimp only
  exact terminate_fine (checkReturn_fine _ _ (setTerminatedAt_fine _ (.ite (error_fine _ h) h)))

theorem absJmp_fine (P : Program) (a : Value) (c : Run) (h : Fine c) : Fine (absJmp P a c).2 := by
  unfold absJmp
  split
  · dsimp only
    exact terminate_fine (checkReturn_fine _ _ (setTerminatedAt_fine _ (.ite (error_fine _ h) h)))
  · split
    · exact h.imp id fun h => h.of_same rfl rfl rfl rfl rfl rfl (fun _ h => .inl h) rfl
    · exact error_fine _ h

theorem sigAt_ok {P : Program} (hP : P.Ok) (a : Short) : (sigAt P a).Ok := by
  unfold sigAt
  split
  · exact hP.sigs _ _ (by assumption)
  · have : PlainArgs [] := ⟨by simp, fun _ h => (by cases h)⟩
    exact ⟨this, this, this, this⟩

theorem Fine.plain {c : Run} (h : Fine c) {vs : List Value} (hv : PlainArgs vs) : FineWith c vs :=
  h.with fun v hm => ⟨(hv.2 v hm).2.2.2.2.1, (hv.2 v hm).2.2.2.2.2.1⟩

theorem shortCircuit_fine {P : Program} (hP : P.Ok) (a : Short) (c : Run) (h : Fine c) : Fine (shortCircuit P a c) := by
  unfold shortCircuit
  dsimp only
  split
  · exact error_fine _ h
  · have h1 := checkStack_fine .into true (sigAt P a).rstIn _ (checkStack_fine .into false (sigAt P a).wstIn c h)
    have h2 := pushAll_fine false (sigAt P a).wstOut _ (h1.plain (sigAt_ok hP a).wstOut)
    have h3 := pushAll_fine true (sigAt P a).rstOut _ (h2.plain (sigAt_ok hP a).rstOut)
    generalize pushAll true (sigAt P a).rstOut (pushAll false (sigAt P a).wstOut (checkStack .into true (sigAt P a).rstIn
      (checkStack .into false (sigAt P a).wstIn c))) = c1 at *
    split
    · split
      · have h4 := (popReal_fine true true h3.nil).fine
        have h5 := absJmp_fine P (popReal true true c1).1 _ h4
        exact .ite (setTerminatedAt_fine _ h5) h5
      · exact error_fine _ h3
    · exact setTerminatedAt_fine _ (terminate_fine (checkReturn_fine _ _ h3))

theorem jump_fine {P : Program} (hP : P.Ok) (a : Value) (c : Run) (h : Fine c) : Fine (jump P a c) := by
  unfold jump
  dsimp only
  have h1 : Fine (if a.short then (absJmp P a c).2
      else if a.const then { c with pc := relative c.pc a.value }
      else error .unknownAddress c) :=
    .ite (absJmp_fine _ _ _ h) (.ite (h.imp id fun h => h.of_same rfl rfl rfl rfl rfl rfl (fun _ h => .inl h) rfl)
      (error_fine _ h))
  generalize (if a.short then (absJmp P a c).2
      else if a.const then { c with pc := relative c.pc a.value }
      else error .unknownAddress c) = c1 at *
  refine .ite h (.ite h1 (.ite (shortCircuit_fine hP _ _ h1) (.ite (terminate_fine (h1.imp id fun h => h.of_same rfl rfl rfl rfl rfl rfl (fun _ h => .inl h) rfl)) ?_)))
  exact h1.imp id fun h => h.of_same rfl rfl rfl rfl rfl rfl (fun _ h => .inl h) rfl

theorem jumpStash_fine {P : Program} (hP : P.Ok) (a : Value) (r : Bool) (c : Run) (h : Fine c) :
    Fine (jumpStash P a r c) := by
  unfold jumpStash
  refine jump_fine hP _ _ (pushEx_fine _ (h.with fun v hv => ?_))
  rw [List.mem_singleton.mp hv]
  exact ⟨rfl, rfl⟩

theorem jumpConditional_fine {P : Program} (hP : P.Ok) (b a : Value) (c : Run) (h : Fine c) :
    Fine (jumpConditional P b a c) := by
  unfold jumpConditional
  exact .ite (.ite (jump_fine hP _ _ h) h) (jump_fine hP _ _ (fork_fine h))

theorem opPoly_fine_all {P : Program} (hP : P.Ok) (op : Op) (c : Run) (h : Fine c) : Fine (opPoly P op c) := by
  cases hj : isJump op
  · exact opPoly_fine P op c hj h
  · have h1 := (popEx_fine (flag2 c) (flagR c) h.nil).fine
    cases op <;> first | (cases hj; done) | skip
    · exact jump_fine hP _ _ h1
    · have h2 := (popEx_fine false (flagR (popEx (flag2 c) (flagR c) c).2) h1.nil).fine
      exact jumpConditional_fine hP _ _ _ h2
    · exact jumpStash_fine hP _ _ _ h1

/-! ## Immediates -/

theorem pc_fine {c : Run} (pc : Short) (h : Fine c) : Fine { c with pc := pc } :=
  h.imp id fun h => h.of_same rfl rfl rfl rfl rfl rfl (fun _ h => .inl h) rfl

theorem immediate_fine (P : Program) (c : Run) (h : Fine c) : Fine (immediate P c).2 := by
  unfold immediate
  dsimp only
  split
  · split
    · exact pc_fine _ h
    · exact error_fine _ (pc_fine _ h)
  · exact error_fine _ (pc_fine _ h)

theorem opJCI_fine {P : Program} (hP : P.Ok) (c : Run) (h : Fine c) : Fine (opJCI P c) := by
  unfold opJCI
  exact jumpConditional_fine hP _ _ _ (popEx_fine false false (immediate_fine P c h).nil).fine

theorem litByte_fine (P : Program) (a : Short) (s : Option Sym) (c : Run) (h : Fine c) :
    FineWith (litByte P a s c).2 [(litByte P a s c).1] := by
  unfold litByte
  split
  · refine (warning_fine _ h).with fun v hv => ?_
    rw [List.mem_singleton.mp hv]; exact ⟨rfl, rfl⟩
  · split
    · refine h.with fun v hv => ?_
      rw [List.mem_singleton.mp hv]; exact ⟨rfl, rfl⟩
    · refine h.with fun v hv => ?_
      rw [List.mem_singleton.mp hv]; exact ⟨rfl, rfl⟩

theorem push_whole {c : Run} (v : Value) (h : Fine c) (h1 : v.halfHi = false) (h2 : v.halfLo = false) :
    Fine (push v c) :=
  pushEx_fine _ (h.with fun w hw => by rw [List.mem_singleton.mp hw]; exact ⟨h1, h2⟩)

theorem opLIT_fine (P : Program) (c : Run) (h : Fine c) : Fine (opLIT P c) := by
  unfold opLIT
  split
  · unfold lit2
    dsimp only
    have h0 := pc_fine (c.pc + 2) h
    split
    · split
      · exact push_whole _ (push_whole _ h0 rfl rfl) rfl rfl
      · split
        · exact push_whole _ h0 rfl rfl
        · exact pushEx_fine _ (litByte_fine _ _ _ _ (push_whole _ h0 rfl rfl))
    · split
      · split
        · split
          · exact push_whole _ h0 rfl rfl
          · split
            · exact push_whole _ h0 rfl rfl
            · exact push_whole _ (warning_fine _ h0) rfl rfl
        · exact push_whole _ (warning_fine _ h0) rfl rfl
      · exact pushEx_fine _ (litByte_fine _ _ _ _ (pushEx_fine _ (litByte_fine _ _ _ _ h0)))
  · dsimp only
    have h0 := pc_fine (c.pc + 1) h
    split
    · exact push_whole _ h0 rfl rfl
    · split
      · exact pushEx_fine _ (litByte_fine _ _ _ _ h0)
      · exact push_whole _ h0 rfl rfl

theorem perform_fine {P : Program} (hP : P.Ok) (c : Run) (h : Fine c) : Fine (perform P c) := by
  unfold perform
  split
  · exact opBRK_fine P c h
  · exact opJCI_fine hP c h
  · exact jump_fine hP _ _ (immediate_fine P c h)
  · exact jumpStash_fine hP _ _ _ (immediate_fine P c h)
  · exact opLIT_fine P c h
  · exact opPoly_fine_all hP _ c h
  · exact h

/-! ## Casts -/

theorem foldl_size : ∀ (vs : List Value) (n : Byte), n.toNat + total vs ≤ 255 →
    (vs.foldl (fun n v => n + BitVec.ofNat 8 v.size) n).toNat = n.toNat + total vs
  | [], n, _ => rfl
  | v :: vs, n, h => by
    rw [total_cons] at h
    rw [List.foldl_cons]
    have e : (n + BitVec.ofNat 8 v.size).toNat = n.toNat + v.size := toNat_add_byte _ _ (by omega)
    rw [foldl_size vs _ (by rw [e]; omega), e, total_cons]
    omega

theorem total_le (vs : List Value) : total vs ≤ 2 * vs.length := by
  induction vs with
  | nil => simp [total]
  | cons v vs ih => have := size_le v; rw [total_cons, List.length_cons]; omega

theorem sigSize_total {vs : List Value} (h : vs.length ≤ 8) : (sigSize vs).toNat = total vs := by
  have := total_le vs
  unfold sigSize
  rw [foldl_size vs 0 (by rw [show (0 : Byte).toNat = 0 from rfl]; omega)]
  exact Nat.zero_add _

theorem foldl_rawPush_ok (m : Nodes) : ∀ (vs : List Value) (s : Stack), s.Ok m → (∀ v ∈ vs, Tidy m.fresh v) →
    s.size.toNat + total vs ≤ 255 → (vs.foldl rawPush s).Ok m ∧ (vs.foldl rawPush s).size.toNat = s.size.toNat + total vs
  | [], s, h, _, _ => ⟨h, rfl⟩
  | v :: vs, s, h, hv, hsz => by
    rw [total_cons] at hsz
    have p := rawPush_ok h (hv v List.mem_cons_self) (by omega)
    have hp := p.size
    obtain ⟨h1, h2⟩ := foldl_rawPush_ok m vs _ p.stack (fun w hw => hv w (List.mem_cons_of_mem _ hw)) (by omega)
    exact ⟨h1, by rw [List.foldl_cons, h2, total_cons]; omega⟩

theorem popInputs_ok (r : Bool) : ∀ (vs acc : List Value) (c : Run), c.nodes.Ok → (realStack r c).Ok c.nodes →
    total vs ≤ (realStack r c).size.toNat → (∀ v ∈ acc, Tidy c.nodes.fresh v) →
    ∃ xs s' m', popInputs r vs acc c = (xs, setReal r s' { c with nodes := m' }) ∧
      xs.map Value.short = (vs.map Value.short).reverse ++ acc.map Value.short ∧ (∀ v ∈ xs, Tidy m'.fresh v) ∧
      s'.Ok m' ∧ m'.Ok ∧ c.nodes.fresh ≤ m'.fresh ∧ s'.size.toNat + total vs = (realStack r c).size.toNat
  | [], acc, c, hm, hs, _, ha => ⟨acc, realStack r c, c.nodes, by rw [popInputs]; exact congrArg _ (setReal_self r c).symm,
      by simp, ha, hs, hm, le_refl _, rfl⟩
  | v :: vs, acc, c, hm, hs, hw, ha => by
    rw [total_cons] at hw
    obtain ⟨x, s1, m1, e1, p1⟩ := popFrom_ok (short := v.short) hm hs (by rw [← size_width]; omega)
    have hx : x.size = v.size := by rw [size_width, size_width, p1.short_eq]
    have hsz := p1.size
    obtain ⟨xs, s2, m2, e2, h1, h2, h3, h4, h5, h6⟩ := popInputs_ok r vs (x :: acc) (setReal r s1 { c with nodes := m1 })
      (by rw [setReal_nodes]; exact p1.nodes) (by rw [setReal_nodes, setReal_realStack]; exact p1.stack)
      (by rw [setReal_realStack]; omega)
      (by
        rw [setReal_nodes]
        intro w hw'
        rcases List.mem_cons.mp hw' with e | hw'
        · rw [e]; exact p1.value
        · exact (ha w hw').mono p1.fresh)
    rw [setReal_nodes] at h5
    rw [setReal_realStack] at h6
    refine ⟨xs, s2, m2, ?_, ?_, h2, h3, h4, le_trans p1.fresh h5, ?_⟩
    · rw [popInputs]
      unfold popReal
      rw [e1]
      dsimp only
      rw [e2]
      congr 1
      cases r <;> rfl
    · rw [h1]
      simp [p1.short_eq]
    · rw [total_cons]; omega

theorem castValue_tidy {f : Nat} {x y : Value} (hx : Tidy f x) (hy : Plain y) (hs : x.short = y.short) :
    Tidy f (castValue x y) := by
  obtain ⟨_, _, _, _, h5, h6, h7⟩ := hy
  constructor
  · intro h
    have h' : x.short = true := by rw [hs]; exact h
    obtain ⟨h1, h2⟩ := hx.whole_short h'
    exact ⟨by show (y.halfHi || x.halfHi) = false; rw [h5, h1]; rfl, by show (y.halfLo || x.halfLo) = false; rw [h6, h2]; rfl⟩
  · intro h
    have h' : x.halfHi = true ∨ x.halfLo = true := by
      rcases h with h | h
      · left
        have h : (y.halfHi || x.halfHi) = true := h
        rw [h5] at h; simpa using h
      · right
        have h : (y.halfLo || x.halfLo) = true := h
        rw [h6] at h; simpa using h
    obtain ⟨n, e, hn⟩ := hx.known h'
    refine ⟨n, ?_, hn⟩
    show (if (x.halfHi || x.halfLo) = true then x.whole else y.whole) = some n
    rw [if_pos (by simpa using h')]
    exact e

theorem zip_cast {f : Nat} : ∀ (xs ys : List Value), xs.map Value.short = ys.map Value.short →
    (∀ x ∈ xs, Tidy f x) → (∀ y ∈ ys, Plain y) →
    (∀ v ∈ List.zipWith castValue xs ys, Tidy f v) ∧ total (List.zipWith castValue xs ys) = total ys
  | [], [], _, _, _ => ⟨fun _ h => (by cases h), rfl⟩
  | [], _ :: _, h, _, _ => by cases h
  | _ :: _, [], h, _, _ => by cases h
  | x :: xs, y :: ys, h, hx, hy => by
    simp only [List.map_cons, List.cons.injEq] at h
    obtain ⟨h1, h2⟩ := zip_cast xs ys h.2 (fun v hv => hx v (List.mem_cons_of_mem _ hv))
      (fun v hv => hy v (List.mem_cons_of_mem _ hv))
    rw [List.zipWith_cons_cons]
    refine ⟨?_, ?_⟩
    · intro v hv
      rcases List.mem_cons.mp hv with e | hv
      · rw [e]; exact castValue_tidy (hx x List.mem_cons_self) (hy y List.mem_cons_self) h.1
      · exact h1 v hv
    · rw [total_cons, total_cons, h2]; rfl

theorem total_reverse (vs : List Value) : total vs.reverse = total vs := by
  unfold total; rw [List.map_reverse, List.sum_reverse]

/-- A cast that fits leaves the sizes as they are. -/
theorem applyCast_ok (r : Bool) (cast : List Value) (c : Run) (h : Safe c) (hc : PlainArgs cast)
    (hf : total cast ≤ (realStack r c).size.toNat) :
    ∃ s' m', applyCast r cast c = setReal r s' { c with nodes := m' } ∧ s'.Ok m' ∧ m'.Ok ∧
      c.nodes.fresh ≤ m'.fresh ∧ s'.size = (realStack r c).size := by
  obtain ⟨xs, s1, m1, e1, h1, h2, h3, h4, h5, h6⟩ := popInputs_ok r cast.reverse [] c h.ok.nodes (h.ok.real r)
    (by rw [total_reverse]; exact hf) (fun _ hv => (by cases hv))
  rw [total_reverse] at h6
  simp only [List.map_reverse, List.reverse_reverse, List.map_nil, List.append_nil] at h1
  obtain ⟨hz1, hz2⟩ := zip_cast xs cast h1 h2 hc.2
  have hlt := (realStack r c).size.isLt
  obtain ⟨h7, h8⟩ := foldl_rawPush_ok m1 (List.zipWith castValue xs cast) s1 h3 hz1 (by rw [hz2]; omega)
  refine ⟨_, m1, ?_, h7, h4, h5, ?_⟩
  · unfold applyCast
    rw [sigSize_total hc.1, if_pos hf, e1]
    dsimp only
    rw [setReal_realStack, setReal_setReal]
  · apply BitVec.eq_of_toNat_eq
    rw [h8, hz2]; omega

theorem applyCast_mismatch (r : Bool) (cast : List Value) (c : Run) (hc : PlainArgs cast)
    (hf : (realStack r c).size.toNat < total cast) : applyCast r cast c = error .castMismatch c := by
  unfold applyCast
  rw [sigSize_total hc.1, if_neg (by omega)]

theorem popInputs_wrapped (r : Bool) : ∀ (vs acc : List Value) (c : Run), (popInputs r vs acc c).2.wrapped = c.wrapped
  | [], _, _ => rfl
  | v :: vs, acc, c => by
    rw [popInputs]
    dsimp only
    rw [popInputs_wrapped r vs, popReal_wrapped]

theorem applyCast_fine (r : Bool) (cast : List Value) (c : Run) (h : Fine c) (hc : PlainArgs cast) :
    Fine (applyCast r cast c) := by
  rcases h with h | h
  · left
    unfold applyCast
    split
    · dsimp only
      rw [setReal_wrapped, popInputs_wrapped]; exact h
    · exact h
  · by_cases hf : total cast ≤ (realStack r c).size.toNat
    · obtain ⟨s', m', e, h1, h2, h3, _⟩ := applyCast_ok r cast c h hc hf
      rw [e]
      exact .inr (h.setReal r h1 h2 h3)
    · rw [applyCast_mismatch r cast c hc (by omega)]
      exact error_fine _ (.inr h)

theorem applyCasts_fine {P : Program} (hP : P.Ok) (a : Short) (c : Run) (h : Fine c) : Fine (applyCasts (P.cast a) c) := by
  unfold applyCasts
  split
  · exact h
  · rename_i k hk
    obtain ⟨h1, h2⟩ := hP.casts a k hk
    exact applyCast_fine _ _ _ (applyCast_fine _ _ _ h h1) h2

/-! ## Traces -/

theorem fetched_fine (P : Program) (c : Run) (h : Fine c) : Fine (fetched P c) := by
  refine h.imp id fun h => ⟨fetched_ok h.ok, ?_, h.queue, h.unharmed⟩
  intro hk
  have hk : (P.rom c.pc).getLsbD 7 = true := hk
  show Stack.Ok c.nodes (if (P.rom c.pc).getLsbD 7 then c.wst else c.shadowWst) ∧
    Stack.Ok c.nodes (if (P.rom c.pc).getLsbD 7 then c.rst else c.shadowRst)
  rw [if_pos hk, if_pos hk]
  exact ⟨h.ok.wst, h.ok.rst⟩

theorem instruction_fine {P : Program} (hP : P.Ok) (c : Run) (h : Fine c) : Fine (instruction P c) := by
  rcases hs : P.sym c.pc with _ | s
  · unfold instruction
    rw [hs]
    exact error_fine _ (h.imp id fun h => h.of_same rfl rfl rfl rfl rfl rfl (fun _ h => .inl h) rfl)
  · by_cases ht : s.type = .opcode
    · rw [instruction_fetched hs ht]
      exact applyCasts_fine hP _ _ (perform_fine hP _ (fetched_fine P c h))
    · unfold instruction
      rw [hs]
      dsimp only
      rw [if_pos ht]
      exact error_fine _ (h.imp id fun h => h.of_same rfl rfl rfl rfl rfl rfl (fun _ h => .inl h) rfl)

theorem round_fine {P : Program} (hP : P.Ok) (c : Run) (h : Fine c) : Fine (round P c) := by
  unfold round
  refine .ite (error_fine _ h) (.ite (shortCircuit_fine hP _ _ ?_) (instruction_fine hP _ h))
  exact h.imp id fun h => h.of_same rfl rfl rfl rfl rfl rfl (fun _ h => .inl h) rfl

theorem advance_fine {P : Program} (hP : P.Ok) {c c' : Run} (h : Fine c) (e : advance P c = some c') : Fine c' := by
  unfold advance at e
  split at e
  · split at e
    · cases e
      refine h.imp id fun h => ⟨⟨⟨?_, ?_, fun _ hn => (by cases hn), h.ok.nodes.shorts⟩, ⟨h.ok.wst.sound, h.ok.wst.tidy⟩,
        ⟨h.ok.rst.sound, h.ok.rst.tidy⟩⟩, fun hk => ⟨⟨(h.shadow hk).1.sound, (h.shadow hk).1.tidy⟩,
        ⟨(h.shadow hk).2.sound, (h.shadow hk).2.tidy⟩⟩, fun e he => ⟨⟨(h.queue e he).1.sound, (h.queue e he).1.tidy⟩,
        ⟨(h.queue e he).2.sound, (h.queue e he).2.tidy⟩⟩, h.unharmed⟩
      · have hd := h.ok.nodes.distinct
        show ((c.nodes.taken.reverse ++ c.nodes.pool) ++ []).Nodup
        rw [List.append_nil]
        exact (((List.reverse_perm c.nodes.taken).append_right c.nodes.pool).trans List.perm_append_comm).nodup_iff.mpr hd
      intro n hn
      rcases List.mem_append.mp hn with hn | hn
      · exact h.ok.nodes.taken n (List.mem_reverse.mp hn)
      · exact h.ok.nodes.pool n hn
    · cases e
      exact round_fine hP c h
  · split at e
    · cases e
    · rename_i x q hq
      cases e
      have hx : x ∈ c.queue := by rw [hq]; exact List.mem_cons_self
      have key : Fine { c with
          queue := q, key := x.key, wst := x.wst, rst := x.rst, trace := x.trace, parent := x.parent
          nodes := { c.nodes with taken := [] }, pc := x.address, opcode := 0, keep := false, terminated := false
          ok := false, inner := false, running := true, again := false
          log := c.log ++ [.beginTrace x.trace x.parent] } := by
        refine h.imp id fun h => ⟨⟨⟨by
            rw [List.append_nil]; exact (List.nodup_append.mp h.ok.nodes.distinct).1, h.ok.nodes.pool, fun _ hn => (by cases hn), h.ok.nodes.shorts⟩,
          ⟨(h.queue x hx).1.sound, (h.queue x hx).1.tidy⟩, ⟨(h.queue x hx).2.sound, (h.queue x hx).2.tidy⟩⟩,
          fun hk => (by cases hk), fun y hy => ?_, h.unharmed⟩
        have hy' : y ∈ c.queue := by rw [hq]; exact List.mem_cons_of_mem _ hy
        exact ⟨⟨(h.queue y hy').1.sound, (h.queue y hy').1.tidy⟩, ⟨(h.queue y hy').2.sound, (h.queue y hy').2.tidy⟩⟩
      unfold startTrace
      dsimp only
      split
      · exact (error_fine .nonOpcode key).imp id fun h => h.of_same rfl rfl rfl rfl rfl rfl (fun _ h => .inl h) rfl
      · exact key

theorem steps_fine {P : Program} (hP : P.Ok) : ∀ (n : Nat) (c : Run), Fine c → Fine (steps P n c)
  | 0, _, h => h
  | n + 1, c, h => by
    rw [steps]
    rcases e : advance P c with _ | c'
    · exact h
    · exact steps_fine hP n c' (advance_fine hP h e)

end Buxn.Chess
