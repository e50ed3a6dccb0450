import Verif.Chess.Onward
import Verif.Chess.Listed
import Verif.Chess.C47
/-!
# C55: what the host of the checker is told
-/

namespace Buxn.Chess

/-! ## The verdict -/

theorem advance_honest {P : Program} {c c' : Run} (h : advance P c = some c') (hc : Honest c) : Honest c' := by
  have plain : ∀ (c c' : Run) (e : Event), c'.log = c.log ++ [e] → c'.success = c.success → (∀ t p, e ≠ .error t p) → Honest c → Honest c' := by
    intro c c' e h1 h2 h3 hc
    unfold Honest at *
    rw [h1, h2, hc]
    constructor
    · rintro ⟨t, p, hp⟩; exact ⟨t, p, List.mem_append_left _ hp⟩
    · rintro ⟨t, p, hp⟩
      rcases List.mem_append.mp hp with hp | hp
      · exact ⟨t, p, hp⟩
      · exact absurd (List.mem_singleton.mp hp).symm (h3 t p)
  unfold advance at h
  split at h
  · split at h
    · cases h
      exact plain c _ _ rfl rfl (fun _ _ => by simp) hc
    · cases h
      exact (round_onward P c).honest hc
  · split at h
    · cases h
    · rename_i e q _
      cases h
      unfold startTrace
      dsimp only
      split
      · exact ⟨fun _ => ⟨e.trace, .nonOpcode, by simp [error]⟩, fun _ => rfl⟩
      · exact plain c _ (.beginTrace e.trace e.parent) rfl rfl (fun _ _ => by simp) hc

theorem steps_honest {P : Program} : ∀ (n : Nat) (c : Run), Honest c → Honest (steps P n c)
  | 0, _, h => h
  | n + 1, c, h => by
    rw [steps]
    rcases e : advance P c with _ | c'
    · exact h
    · exact steps_honest n c' (advance_honest e h)

/-- The list of the routines that do not terminate. -/
theorem checkTermination_log : ∀ (ks : List Short) (c : Run),
    (checkTermination ks c).log = c.log ++ (ks.filter fun a => decide (c.markedAt a = true ∧ ¬ c.errorAt a = true ∧ ¬ c.terminatedAt a = true)).map
      Event.noTermination ∧
    (checkTermination ks c).success = (c.success &&
      !(ks.any fun a => decide (c.markedAt a = true ∧ ¬ c.errorAt a = true ∧ ¬ c.terminatedAt a = true)))
  | [], c => by simp [checkTermination]
  | a :: ks, c => by
    rw [checkTermination]
    by_cases h : c.markedAt a = true ∧ ¬ c.errorAt a = true ∧ ¬ c.terminatedAt a = true
    · rw [if_pos (by simpa using h)]
      obtain ⟨h1, h2⟩ := checkTermination_log ks { c with log := c.log ++ [.noTermination a], success := false }
      rw [h1, h2]
      simp [h]
    · rw [if_neg (by simpa using h)]
      obtain ⟨h1, h2⟩ := checkTermination_log ks c
      rw [h1, h2]
      rw [List.filter_cons_of_neg (by simpa using h), List.any_cons, decide_eq_false h, Bool.false_or]
      exact ⟨rfl, rfl⟩

/-- **C55.** The checker says no exactly when it has reported an error, or a routine that does not terminate. -/
theorem C55_verdict (rom : Short → Byte) (events : List Asm.Event) (n : Nat) (c : Run) (hc : check rom events n = some c) :
    c.success = false ↔ (∃ t p, Event.error t p ∈ c.log) ∨ ∃ a, Event.noTermination a ∈ c.log := by
  unfold check at hc
  dsimp only at hc
  split at hc
  swap
  · cases hc
  have h0 : Honest (readAll events).finish.run := ⟨fun h => (by cases h), fun ⟨_, _, h⟩ => (by cases h)⟩
  have h := steps_honest (P := (readAll events).finish.program rom) n _ h0
  generalize hs : steps _ n _ = c1 at *
  simp only [Option.some.injEq] at hc
  rw [← hc]
  obtain ⟨h1, h2⟩ := checkTermination_log (readAll events).finish.keys c1
  rw [h1, h2]
  unfold Honest at h
  have hno : ∀ (m : Nat) (c : Run), (∀ a, Event.noTermination a ∉ c.log) → ∀ a, Event.noTermination a ∉ (steps ((readAll events).finish.program rom) m c).log := by
    intro m
    induction m with
    | zero => exact fun _ h => h
    | succ m ih =>
      intro c h
      rw [steps]
      rcases e : advance ((readAll events).finish.program rom) c with _ | c'
      · exact h
      · refine ih c' fun a ha => ?_
        unfold advance at e
        split at e
        · split at e
          · cases e
            rcases List.mem_append.mp ha with ha | ha
            · exact h a ha
            · exact absurd (List.mem_singleton.mp ha) (by simp)
          · cases e
            obtain ⟨es, e1⟩ := (round_onward ((readAll events).finish.program rom) c).log
            rw [e1] at ha
            rcases List.mem_append.mp ha with ha | ha
            · exact h a ha
            · exact (round_onward _ c).said es e1 _ ha
        · split at e
          · cases e
          · cases e
            revert ha
            unfold startTrace
            dsimp only
            split
            · intro ha
              have ha : Event.noTermination a ∈ c.log ++ [_] ++ [_] := ha
              simp at ha
              exact h a ha
            · intro ha
              have ha : Event.noTermination a ∈ c.log ++ [_] := ha
              simp at ha
              exact h a ha
  have hno := hno n (readAll events).finish.run (fun a h => by cases h)
  rw [hs] at hno
  constructor
  · intro hf
    rw [Bool.and_eq_false_iff] at hf
    rcases hf with hf | hf
    · obtain ⟨t, p, hp⟩ := h.mp hf
      exact .inl ⟨t, p, List.mem_append_left _ hp⟩
    · rw [Bool.not_eq_false', List.any_eq_true] at hf
      obtain ⟨a, ha, hp⟩ := hf
      exact .inr ⟨a, List.mem_append_right _ (List.mem_map.mpr ⟨a, List.mem_filter.mpr ⟨ha, hp⟩, rfl⟩)⟩
  · rintro (⟨t, p, hp⟩ | ⟨a, ha⟩)
    · rcases List.mem_append.mp hp with hp | hp
      · rw [h.mpr ⟨t, p, hp⟩]; rfl
      · obtain ⟨a, _, ha⟩ := List.mem_map.mp hp
        cases ha
    · rcases List.mem_append.mp ha with ha | ha
      · exact absurd ha (hno a)
      · obtain ⟨b, hb, _⟩ := List.mem_map.mp ha
        rw [Bool.and_eq_false_iff]
        right
        rw [Bool.not_eq_false', List.any_eq_true]
        exact ⟨b, (List.mem_filter.mp hb).1, (List.mem_filter.mp hb).2⟩

/-! ## Traces -/

/-- What the host is told about one trace: a beginning, then reports that name the trace, then an end that says it failed. A trace
that starts where no code is has an error and no end. -/
inductive Telling : List Event → Prop
  | full (t p : Nat) (es : List Event) : (∀ e ∈ es, Said t e) → Telling (.beginTrace t p :: es ++ [.endTrace t false])
  | cut (t p : Nat) : Telling [.beginTrace t p, .error t .nonOpcode]

/-- One trace after the other; the last one may not have ended. -/
def Told (c : Run) : Prop :=
  c.ok = false ∧ ∃ ls : List (List Event), (∀ l ∈ ls, Telling l) ∧
    (c.running = false ∧ c.log = ls.flatten ∨
      c.running = true ∧ ∃ p es, (∀ e ∈ es, Said c.trace e) ∧ c.log = ls.flatten ++ .beginTrace c.trace p :: es)

theorem advance_told {P : Program} {c c' : Run} (h : advance P c = some c') (hc : Told c) : Told c' := by
  obtain ⟨hok, ls, hl, hc⟩ := hc
  unfold advance at h
  by_cases hr : c.running = true
  · rw [if_pos hr] at h
    rcases hc with ⟨hc, _⟩ | ⟨_, p, es, he, hlog⟩
    · rw [hc] at hr; cases hr
    split at h
    · cases h
      refine ⟨hok, ls ++ [.beginTrace c.trace p :: es ++ [.endTrace c.trace false]], fun l hm => ?_, .inl ⟨rfl, ?_⟩⟩
      · rcases List.mem_append.mp hm with hm | hm
        · exact hl l hm
        · rw [List.mem_singleton.mp hm]; exact .full _ _ _ he
      · show c.log ++ [.endTrace c.trace c.ok] = _
        rw [hlog, hok, List.flatten_append]
        simp
    · cases h
      have hon := round_onward P c
      obtain ⟨fs, hf⟩ := hon.log
      refine ⟨hon.ok hok, ls, hl, .inr ⟨hon.running.trans hr, p, es ++ fs, fun e hm => ?_, ?_⟩⟩
      · rw [hon.trace]
        rcases List.mem_append.mp hm with hm | hm
        · exact he e hm
        · exact hon.said fs hf e hm
      · rw [hf, hlog, hon.trace]; simp
  · rw [if_neg hr] at h
    rcases hc with ⟨_, hlog⟩ | ⟨hc, _⟩
    swap
    · exact absurd hc hr
    split at h
    · cases h
    · rename_i e q _
      cases h
      unfold startTrace
      dsimp only
      split
      · refine ⟨rfl, ls ++ [[.beginTrace e.trace e.parent, .error e.trace .nonOpcode]], fun l hm => ?_, .inl ⟨rfl, ?_⟩⟩
        · rcases List.mem_append.mp hm with hm | hm
          · exact hl l hm
          · rw [List.mem_singleton.mp hm]; exact .cut _ _
        · simp [error, hlog]
      · exact ⟨rfl, ls, hl, .inr ⟨rfl, e.parent, [], fun _ h => (by cases h), by rw [hlog]⟩⟩

theorem steps_told {P : Program} : ∀ (n : Nat) (c : Run), Told c → Told (steps P n c)
  | 0, _, h => h
  | n + 1, c, h => by
    rw [steps]
    rcases e : advance P c with _ | c'
    · exact h
    · exact steps_told n c' (advance_told e h)

/-- **C55.** What the host is told falls into traces, one after the other, and then the routines that do not terminate. Every
trace is said to have failed: the flag in `buxn_chess_exec_ctx_t` is never set. -/
theorem C55_traces (rom : Short → Byte) (events : List Asm.Event) (n : Nat) (c : Run) (hc : check rom events n = some c) :
    ∃ (ls : List (List Event)) (ks : List Short), (∀ l ∈ ls, Telling l) ∧ c.log = ls.flatten ++ ks.map Event.noTermination := by
  unfold check at hc
  dsimp only at hc
  split at hc
  swap
  · cases hc
  rename_i hdone
  have h := steps_told (P := (readAll events).finish.program rom) n (readAll events).finish.run
    ⟨rfl, [], fun _ h => (by cases h), .inl ⟨rfl, rfl⟩⟩
  generalize steps _ n _ = c1 at *
  simp only [Option.some.injEq] at hc
  rw [← hc]
  obtain ⟨_, ls, hl, h⟩ := h
  rcases h with ⟨_, h⟩ | ⟨h, _⟩
  · exact ⟨ls, _, hl, by rw [(checkTermination_log _ c1).1, h]⟩
  · unfold advance at hdone
    rw [if_pos h] at hdone
    split at hdone <;> cases hdone

/-- **C55.** The routines that wait to be checked are the marked ones, each once and as its signature says; `0x0100` has a
signature in any case. -/
theorem C55_routines (events : List Asm.Event) (r : Reader) (hr : r = (readAll events).finish) :
    (∀ e ∈ r.run.queue, ∃ s t, e = routineEntry e.key s t ∧ r.label e.key = some (some s) ∧ r.marked e.key = true) ∧
    (∀ a, r.marked a = true → ∃ s t, r.label a = some (some s) ∧ routineEntry a s t ∈ r.run.queue) ∧
    (r.run.queue.map Entry.key).Nodup ∧ (r.run.queue.map Entry.trace).Nodup ∧ (∃ s, r.label 0x0100 = some (some s)) := by
  have h := finish_listed (readAll_listed events)
  rw [← hr] at h
  refine ⟨fun e he => ?_, fun a ha => ?_, h.once, h.numbered, ?_⟩
  · obtain ⟨s, t, h1, h2, h3, _⟩ := h.entries e he
    exact ⟨s, t, h1, h2, h3⟩
  · obtain ⟨s, hs⟩ := h.signed a ha
    obtain ⟨t, ht⟩ := h.queued a s hs ha
    exact ⟨s, t, hs, ht⟩
  · rw [hr]
    unfold Reader.finish
    dsimp only
    split
    · refine ⟨{}, ?_⟩
      show upd (Reader.ensure 256 (readAll events)).label 256 (some (some {})) 256 = _
      exact upd_same _ _ _
    · rename_i hx
      revert hx
      cases hl : (Reader.ensure 256 (readAll events)).label 256 with
      | none =>
        intro _
        exfalso
        revert hl
        unfold Reader.ensure
        split
        · rename_i hh; rw [hh]; simp
        · dsimp only; rw [upd_same]; simp
      | some o =>
        cases o with
        | none => intro hx; exact absurd rfl (hx ·)
        | some s => exact fun _ => ⟨s, rfl⟩

/-- **C55.** The first signature of a label is its signature, and the routine is marked for checking unless the signature is
sealed; a second one changes nothing. -/
theorem C55_seal (r : Reader) (h : r.handler = some .signature2) :
    (r.label r.curAddr = some none → (annotationEnd r).label r.curAddr = some (some r.sig) ∧
      ((annotationEnd r).marked r.curAddr = true ↔ r.isSealed = false ∨ r.marked r.curAddr = true)) ∧
    (r.label r.curAddr ≠ some none → (annotationEnd r).label = r.label ∧ (annotationEnd r).marked = r.marked ∧
      (annotationEnd r).queue = r.queue) := by
  unfold annotationEnd
  rw [h]
  dsimp only
  unfold signatureEnd
  refine ⟨fun hl => ?_, fun hl => ?_⟩
  · rw [hl]
    dsimp only
    cases hs : r.isSealed
    · simp only [Bool.false_eq_true, if_false]
      exact ⟨upd_same r.label _ _, fun _ => .inl trivial, fun _ => upd_same r.marked _ _⟩
    · simp only [if_true]
      exact ⟨upd_same r.label _ _, fun hm => .inr hm, fun hm => hm.elim (fun h => absurd h (by simp)) id⟩
  · split
    · rename_i hx; exact absurd hx hl
    · exact ⟨rfl, rfl, rfl⟩

end Buxn.Chess
