import Verif.Chess.Call
import Verif.Chess.C47Cases
/-!
# The whole work of the checker

What is true at the end tells about the states on the way: an error that is not among the reports at the end was never
reported, and a trace that was put aside has been taken up.
-/

namespace Buxn.Chess

/-- One step forward: reports, and the two records that are never taken back. -/
theorem advance_trail {P : Program} {c c' : Run} (h : advance P c = some c') :
    (∃ es, c'.log = c.log ++ es) ∧ (c.wrapped = true → c'.wrapped = true) := by
  unfold advance at h
  split at h
  · split at h
    · cases h
      exact ⟨⟨_, rfl⟩, id⟩
    · cases h
      exact ⟨(round_onward P c).log, (round_onward P c).wrapped⟩
  · split at h
    · cases h
    · cases h
      unfold startTrace
      dsimp only
      split
      · exact ⟨⟨[.beginTrace _ _, .error _ .nonOpcode], by simp [error]; exact ⟨⟨rfl, rfl⟩, rfl⟩⟩, id⟩
      · exact ⟨⟨_, rfl⟩, id⟩

theorem steps_trail (P : Program) : ∀ (n : Nat) (c : Run),
    (∃ es, (steps P n c).log = c.log ++ es) ∧ (c.wrapped = true → (steps P n c).wrapped = true)
  | 0, _ => ⟨⟨[], (List.append_nil _).symm⟩, id⟩
  | n + 1, c => by
    rw [steps]
    rcases h : advance P c with _ | c'
    · exact ⟨⟨[], (List.append_nil _).symm⟩, id⟩
    · obtain ⟨⟨es, e1⟩, w1⟩ := advance_trail h
      obtain ⟨⟨fs, e2⟩, w2⟩ := steps_trail P n c'
      exact ⟨⟨es ++ fs, by dsimp only; rw [e2, e1, List.append_assoc]⟩, fun h => w2 (w1 h)⟩

/-- The checker has finished after `n` steps and has nothing to complain about. -/
structure Accepts (P : Program) (c0 : Run) (n : Nat) : Prop where
  done : advance P (steps P n c0) = none
  calm : ∀ t p, Event.error t p ∉ (steps P n c0).log
  narrow : (steps P n c0).wrapped = false

theorem steps_done {P : Program} {c : Run} (h : advance P c = none) : ∀ k, steps P k c = c
  | 0 => rfl
  | k + 1 => by rw [steps, h]

theorem steps_beyond {P : Program} {c0 : Run} {n : Nat} (h : advance P (steps P n c0) = none) {i : Nat} (hi : n ≤ i) :
    steps P i c0 = steps P n c0 := by
  obtain ⟨k, rfl⟩ := Nat.exists_eq_add_of_le hi
  rw [steps_add, steps_done h]

namespace Accepts

variable {P : Program} {c0 : Run} {n : Nat}

theorem calm_at (h : Accepts P c0 n) (i : Nat) : ∀ t p, Event.error t p ∉ (steps P i c0).log := by
  intro t p hin
  rcases Nat.le_total i n with hle | hle
  · obtain ⟨k, rfl⟩ := Nat.exists_eq_add_of_le hle
    obtain ⟨⟨es, e⟩, _⟩ := steps_trail P k (steps P i c0)
    rw [← steps_add] at e
    exact h.calm t p (by rw [e]; exact List.mem_append_left _ hin)
  · rw [steps_beyond h.done hle] at hin
    exact h.calm t p hin

theorem narrow_at (h : Accepts P c0 n) (i : Nat) : (steps P i c0).wrapped = false := by
  cases hw : (steps P i c0).wrapped
  · rfl
  · rcases Nat.le_total i n with hle | hle
    · obtain ⟨k, rfl⟩ := Nat.exists_eq_add_of_le hle
      have := (steps_trail P k (steps P i c0)).2 hw
      rw [← steps_add, h.narrow] at this
      cases this
    · rw [steps_beyond h.done hle, h.narrow] at hw
      cases hw

/-- A running trace goes on. -/
theorem next (h : Accepts P c0 n) {i : Nat} (hr : (steps P i c0).running = true) (ht : (steps P i c0).terminated = false) :
    steps P (i + 1) c0 = round P (steps P i c0) ∧ ¬ Reports (steps P i c0) (round P (steps P i c0)) ∧
      (round P (steps P i c0)).wrapped = false := by
  have e : steps P (i + 1) c0 = round P (steps P i c0) := by
    rw [steps_succ]
    unfold advance
    rw [if_pos hr, if_neg (by rw [ht]; simp)]
    rfl
  refine ⟨e, ?_, by rw [← e]; exact h.narrow_at _⟩
  rintro ⟨es, p, h1, h2⟩
  rw [← e] at h1
  exact h.calm_at (i + 1) _ p (by rw [h1]; exact List.mem_append_right _ h2)

/-- Everything that is put aside is taken up. -/
theorem taken_up (h : Accepts P c0 n) {e : Entry} : ∀ {i : Nat}, e ∈ (steps P i c0).queue →
    ∃ j q, i ≤ j ∧ (steps P j c0).running = false ∧ (steps P j c0).queue = e :: q ∧
      steps P (j + 1) c0 = startTrace P e { steps P j c0 with queue := q } := by
  have key : ∀ k i, n ≤ i + k → e ∈ (steps P i c0).queue → ∃ j q, i ≤ j ∧ (steps P j c0).running = false ∧
      (steps P j c0).queue = e :: q ∧ steps P (j + 1) c0 = startTrace P e { steps P j c0 with queue := q } := by
    intro k
    induction k with
    | zero =>
      intro i hi hin
      exfalso
      rw [steps_beyond h.done (show n ≤ i from hi)] at hin
      have hd := h.done
      unfold advance at hd
      split at hd
      · split at hd <;> cases hd
      · split at hd
        · rename_i hq; rw [hq] at hin; cases hin
        · cases hd
    | succ k ih =>
      intro i hi hin
      have hs := steps_succ P i c0
      by_cases hstay : e ∈ (steps P (i + 1) c0).queue
      · obtain ⟨j, q, h1, h2⟩ := ih (i + 1) (by omega) hstay
        exact ⟨j, q, by omega, h2⟩
      unfold advance at hs
      split at hs
      · split at hs
        · exact absurd (by rw [hs]; exact hin) hstay
        · obtain ⟨es, e1, _⟩ := (round_onward P (steps P i c0)).queue
          exact absurd (by rw [hs]; show e ∈ (round P (steps P i c0)).queue; rw [e1]; exact List.mem_append_right _ hin) hstay
      · rename_i hrun
        split at hs
        · rename_i hq; rw [hq] at hin; cases hin
        · rename_i x q hq
          have hs : steps P (i + 1) c0 = startTrace P x { steps P i c0 with queue := q } := hs
          rw [hq] at hin
          rcases List.mem_cons.mp hin with rfl | hin
          · exact ⟨i, q, le_refl _, by simpa using hrun, hq, hs⟩
          · refine absurd ?_ hstay
            rw [hs]
            unfold startTrace
            dsimp only
            split <;> exact hin
  intro i
  exact key n i (by omega)

end Accepts

end Buxn.Chess
