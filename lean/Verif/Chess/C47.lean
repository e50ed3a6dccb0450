import Verif.Chess.Moves
import Verif.Chess.C45Cases
import Mathlib.Data.Finset.Card
import Mathlib.Data.Finset.Range
import Mathlib.Tactic.Linarith
/-!
# C47: termination of the checker

Every jump arc is followed at most once, and the checker comes to an end unless it goes on for ever taking routines at
their word and going on, at a return address the program has made up, not behind the place of the call.
-/

namespace Buxn.Chess

open Buxn.VM (Instr Op dispatch)

/-- The checker takes a routine at its word and goes on at a return address that is not behind the place of the call. -/
def CallsBack (P : Program) (c : Run) : Prop :=
  c.running = true ∧ c.terminated = false ∧ (round P c).terminated = false ∧
    (∃ b c1 k, isRoutine P b = true ∧ Onward c c1 ∧ round P c = applyCasts k (shortCircuit P b c1)) ∧
    (round P c).pc.toNat ≤ c.pc.toNat

/-! ## The measure -/

/-- How far a trace can go without jumping. -/
def rank (inner : Bool) (pc : Short) : Nat := if pc.toNat < 256 ∧ inner = false then 1 else 65537 - pc.toNat

/-- What an entry of the list may still cost. -/
def price (e : Entry) : Nat := 3 ^ rank false e.address + 2

/-- What the running trace may still cost. -/
def cost (c : Run) : Nat := if c.running then if c.terminated then 1 else 3 ^ rank c.inner c.pc + 1 else 0

def weight (c : Run) : Nat := (c.queue.map price).sum + cost c

theorem next_rank {p q : Short} {i : Bool} (h : Next p q) (hp : ¬ (¬ i = true ∧ p.toNat < 256)) : rank false q + 1 ≤ rank i p := by
  have hp' : ¬ (p.toNat < 256 ∧ i = false) := fun ⟨h1, h2⟩ => hp ⟨by rw [h2]; simp, h1⟩
  unfold rank
  rw [if_neg hp']
  have h1 := p.isLt
  have e : q.toNat = (p.toNat + 1) % 65536 ∨ q.toNat = (p.toNat + 2) % 65536 ∨ q.toNat = (p.toNat + 3) % 65536 := by
    rcases h with rfl | rfl | rfl
    · exact .inl (BitVec.toNat_add _ _)
    · exact .inr (.inl (BitVec.toNat_add _ _))
    · exact .inr (.inr (BitVec.toNat_add _ _))
  have h2 := q.isLt
  split
  · omega
  · rename_i hq
    have hq : ¬ q.toNat < 256 := fun h => hq ⟨h, rfl⟩
    omega

theorem forward_rank {p q : Short} {i j : Bool} (h : p.toNat < q.toNat) (hp : ¬ (¬ i = true ∧ p.toNat < 256)) : rank j q + 1 ≤ rank i p := by
  have hp' : ¬ (p.toNat < 256 ∧ i = false) := fun ⟨h1, h2⟩ => hp ⟨by rw [h2]; simp, h1⟩
  unfold rank
  rw [if_neg hp']
  have h1 := q.isLt
  split <;> omega

theorem rank_two {p : Short} {i : Bool} (hp : ¬ (¬ i = true ∧ p.toNat < 256)) : 2 ≤ rank i p := by
  have hp' : ¬ (p.toNat < 256 ∧ i = false) := fun ⟨h1, h2⟩ => hp ⟨by rw [h2]; simp, h1⟩
  unfold rank
  rw [if_neg hp']
  have h1 := p.isLt
  omega

/-- Two branches cost less than the trace they come from. -/
theorem split_cost {r a b : Nat} (ha : a + 1 ≤ r) (hb : b + 1 ≤ r) (hr : 2 ≤ r) : 3 ^ a + 2 + (3 ^ b + 1) < 3 ^ r + 1 := by
  obtain ⟨k, rfl⟩ : ∃ k, r = k + 2 := ⟨r - 2, by omega⟩
  have h1 : 3 ^ a ≤ 3 ^ (k + 1) := Nat.pow_le_pow_right (by omega) (by omega)
  have h2 : 3 ^ b ≤ 3 ^ (k + 1) := Nat.pow_le_pow_right (by omega) (by omega)
  have h3 : 3 ^ (k + 2) = 3 * 3 ^ (k + 1) := by rw [Nat.pow_succ 3 (k + 1), Nat.mul_comm]
  have h4 : 3 ≤ 3 ^ (k + 1) := by
    have : 0 < 3 ^ k := Nat.pow_pos (by omega)
    rw [Nat.pow_succ]; omega
  omega

/-! ## One round -/

/-- One round: the trace ends, follows a new arc, goes on behind the instruction or takes a routine at its word. -/
theorem round_moves {P : Program} {c : Run} (h : ¬ (¬ c.inner = true ∧ c.pc.toNat < 256)) :
    Moved P c (round P c) ∧ SetAside c (round P c) := by
  unfold round
  rw [if_neg h]
  split
  · rename_i hc
    have h0 : Onward c { c with inner := true } := .same rfl rfl rfl rfl rfl rfl rfl rfl rfl rfl
    have ht := shortCircuit_turns P c.pc { c with inner := true }
    exact ⟨.called c.pc { c with inner := true } none hc.2 h0 rfl ht.arcs, .none ht.queue⟩
  · exact instruction_moves P c

/-- A round costs something, unless it follows a new arc or calls back. -/
theorem round_weight {P : Program} {c : Run} (hr : c.running = true) (ht : c.terminated = false) (hb : ¬ CallsBack P c) :
    (∃ x, x ∉ c.arcs ∧ (round P c).arcs = x :: c.arcs) ∨ (round P c).arcs = c.arcs ∧ weight (round P c) < weight c := by
  have hc0 : cost c = 3 ^ rank c.inner c.pc + 1 := by
    unfold cost; rw [if_pos hr, if_neg (by rw [ht]; simp)]
  have hr' : (round P c).running = true := (round_onward P c).running.trans hr
  by_cases hz : ¬ c.inner = true ∧ c.pc.toNat < 256
  · have e : round P c = error .zeroPage c := by unfold round; rw [if_pos hz]
    rw [e]
    refine .inr ⟨rfl, ?_⟩
    have h1 : cost (error .zeroPage c) = 1 := by
      unfold cost; rw [if_pos (show (error .zeroPage c).running = true from hr), if_pos (show (error .zeroPage c).terminated = true from rfl)]
    unfold weight
    rw [h1, hc0, show (error .zeroPage c).queue = c.queue from rfl]
    have : 0 < 3 ^ rank c.inner c.pc := Nat.pow_pos (by omega)
    omega
  · obtain ⟨hm, es, h1, h2, h3⟩ := round_moves (P := P) hz
    have hrank := rank_two hz
    -- what is set aside
    have hes : (es.map price).sum = 0 ∨ ∃ a, (es.map price).sum = 3 ^ a + 2 ∧ a + 1 ≤ rank c.inner c.pc := by
      rcases es with _ | ⟨e, _ | ⟨_, _⟩⟩
      · exact .inl rfl
      · refine .inr ⟨rank false e.address, ?_, next_rank (h3 e (by simp)) hz⟩
        simp [price]
      · simp at h2
    have fin : ∀ b, cost (round P c) ≤ 3 ^ b + 1 → b + 1 ≤ rank c.inner c.pc → weight (round P c) < weight c := by
      intro b hb1 hb2
      unfold weight
      rw [h1, List.map_append, List.sum_append, hc0]
      rcases hes with e | ⟨a, e, ha⟩
      · rw [e]
        have := split_cost (a := b) hb2 hb2 hrank
        omega
      · rw [e]
        have := split_cost ha hb2 hrank
        omega
    cases hm with
    | ended e a =>
      refine .inr ⟨a, fin 0 ?_ (by omega)⟩
      unfold cost; rw [if_pos hr', if_pos e]; omega
    | followed x hx e => exact .inl ⟨x, hx, e⟩
    | went hn a i =>
      refine .inr ⟨a, fin (rank false (round P c).pc) ?_ (next_rank hn hz)⟩
      unfold cost
      rw [if_pos hr', i]
      split
      · exact Nat.le_add_left _ _
      · exact le_refl _
    | called b c1 k hb' on e a =>
      refine .inr ⟨a, ?_⟩
      cases ht' : (round P c).terminated
      · have hlt : c.pc.toNat < (round P c).pc.toNat := by
          by_contra hle
          exact hb ⟨hr, ht, ht', ⟨b, c1, k, hb', on, e⟩, by omega⟩
        refine fin (rank (round P c).inner (round P c).pc) ?_ (forward_rank hlt hz)
        unfold cost
        rw [if_pos hr', if_neg (by rw [ht']; simp)]
      · refine fin 0 ?_ (by omega)
        unfold cost; rw [if_pos hr', if_pos ht']; omega

/-- So does every step of the checker. -/
theorem advance_weight {P : Program} {c c' : Run} (h : advance P c = some c') (hb : ¬ CallsBack P c) :
    (∃ x, x ∉ c.arcs ∧ c'.arcs = x :: c.arcs) ∨ c'.arcs = c.arcs ∧ weight c' < weight c := by
  unfold advance at h
  split at h
  · rename_i hr
    split at h
    · rename_i ht
      simp only [Option.some.injEq] at h
      subst h
      refine .inr ⟨rfl, ?_⟩
      have h1 : cost (endTrace c) = 0 := by unfold cost; rw [if_neg (by simp [endTrace])]
      have h2 : cost c = 1 := by unfold cost; rw [if_pos hr, if_pos ht]
      unfold weight
      rw [h1, h2, show (endTrace c).queue = c.queue from rfl]
      omega
    · rename_i ht
      simp only [Option.some.injEq] at h
      subst h
      exact round_weight hr (by simpa using ht) hb
  · rename_i hr
    rcases hq : c.queue with _ | ⟨e, q⟩
    · rw [hq] at h; simp at h
    · rw [hq] at h
      simp only [Option.some.injEq] at h
      subst h
      have h2 : cost c = 0 := by unfold cost; rw [if_neg hr]
      have h1 : (startTrace P e { c with queue := q }).arcs = c.arcs ∧ (startTrace P e { c with queue := q }).queue = q ∧
          cost (startTrace P e { c with queue := q }) ≤ 3 ^ rank false e.address + 1 := by
        unfold startTrace
        dsimp only
        split
        · exact ⟨rfl, rfl, by unfold cost; rw [if_neg (by simp)]; exact Nat.zero_le _⟩
        · exact ⟨rfl, rfl, by unfold cost; rw [if_pos rfl, if_neg (by simp)]⟩
      refine .inr ⟨h1.1, ?_⟩
      unfold weight
      rw [h1.2.1, hq, h2, List.map_cons, List.sum_cons]
      have : price e = 3 ^ rank false e.address + 2 := rfl
      have := h1.2.2
      omega

/-! ## Arcs -/

theorem steps_succ (P : Program) : ∀ (n : Nat) (c : Run), steps P (n + 1) c = (advance P (steps P n c)).getD (steps P n c)
  | 0, c => by
    rw [steps]
    rcases h : advance P c with _ | c'
    · simp [steps, h]
    · simp [steps, h]
  | n + 1, c => by
    rw [steps]
    rcases h : advance P c with _ | c'
    · have : steps P (n + 1) c = c := by rw [steps, h]
      rw [this, h]; rfl
    · have : steps P (n + 1) c = steps P n c' := by rw [steps, h]
      rw [this]
      exact steps_succ P n c'

/-- A step leaves the set of arcs alone or adds one that was not there. -/
theorem advance_arcs {P : Program} {c c' : Run} (h : advance P c = some c') :
    c'.arcs = c.arcs ∨ ∃ x, x ∉ c.arcs ∧ c'.arcs = x :: c.arcs := by
  unfold advance at h
  split at h
  · split at h
    · simp only [Option.some.injEq] at h
      subst h
      exact .inl rfl
    · simp only [Option.some.injEq] at h
      subst h
      by_cases hz : ¬ c.inner = true ∧ c.pc.toNat < 256
      · left
        unfold round
        rw [if_pos hz]
        rfl
      · cases (round_moves (P := P) hz).1 with
        | ended _ e => exact .inl e
        | followed x hx e => exact .inr ⟨x, hx, e⟩
        | went _ e _ => exact .inl e
        | called _ _ _ _ _ _ a => exact .inl a
  · rcases hq : c.queue with _ | ⟨e, q⟩
    · rw [hq] at h; simp at h
    · rw [hq] at h
      simp only [Option.some.injEq] at h
      subst h
      left
      unfold startTrace
      dsimp only
      split <;> rfl

theorem steps_arcs (P : Program) (n : Nat) (c : Run) :
    (steps P (n + 1) c).arcs = (steps P n c).arcs ∨ ∃ x, x ∉ (steps P n c).arcs ∧ (steps P (n + 1) c).arcs = x :: (steps P n c).arcs := by
  rw [steps_succ]
  rcases h : advance P (steps P n c) with _ | c'
  · exact .inl rfl
  · exact advance_arcs h

theorem arcs_kept (P : Program) (c : Run) (i : Nat) : ∀ (d : Nat) (x : Short × Short), x ∈ (steps P i c).arcs → x ∈ (steps P (i + d) c).arcs
  | 0, _, h => h
  | d + 1, x, h => by
    have := arcs_kept P c i d x h
    rcases steps_arcs P (i + d) c with e | ⟨y, _, e⟩
    · rw [show i + (d + 1) = i + d + 1 from rfl, e]; exact this
    · rw [show i + (d + 1) = i + d + 1 from rfl, e]; exact List.mem_cons_of_mem _ this

/-- **C47.** An arc that was followed at one step is not followed at a later one, whatever trace and routine. -/
theorem C47_arc_once (P : Program) (c : Run) (i j : Nat) (hij : i < j) (x : Short × Short)
    (h : (steps P (i + 1) c).arcs = x :: (steps P i c).arcs) : (steps P (j + 1) c).arcs ≠ x :: (steps P j c).arcs := by
  intro h2
  have hx : x ∈ (steps P j c).arcs := by
    obtain ⟨d, rfl⟩ : ∃ d, j = i + 1 + d := ⟨j - (i + 1), by omega⟩
    exact arcs_kept P c (i + 1) d x (by rw [h]; exact List.mem_cons_self)
  rcases steps_arcs P j c with e | ⟨y, hy, e⟩
  · rw [e] at h2
    have := congrArg List.length h2
    simp at this
  · rw [e] at h2
    injection h2 with h2
    exact hy (h2 ▸ hx)

theorem arcs_nodup (P : Program) (c : Run) (h : c.arcs.Nodup) : ∀ n, (steps P n c).arcs.Nodup
  | 0 => h
  | n + 1 => by
    rcases steps_arcs P n c with e | ⟨x, hx, e⟩
    · rw [e]; exact arcs_nodup P c h n
    · rw [e]; exact List.nodup_cons.mpr ⟨hx, arcs_nodup P c h n⟩

/-- There are only so many pairs of addresses. -/
theorem pairs_bounded {N : Nat} (hN : N = 2 ^ 16) {l : List (Short × Short)} (h : l.Nodup) : l.length ≤ N * N := by
  have h1 : (l.map fun x => x.1.toNat * N + x.2.toNat).Nodup := by
    refine h.map_on ?_
    intro x _ y _ e
    have hx := x.2.isLt
    have hy := y.2.isLt
    rw [← hN] at hx hy
    have e1 : x.1.toNat = y.1.toNat := by
      have := congrArg (· / N) e
      beta_reduce at this
      rwa [Nat.mul_comm, Nat.mul_add_div (by omega), Nat.div_eq_of_lt hx, Nat.mul_comm y.1.toNat, Nat.mul_add_div (by omega),
        Nat.div_eq_of_lt hy] at this
    have e2 : x.2.toNat = y.2.toNat := by rw [e1] at e; omega
    exact Prod.ext (BitVec.eq_of_toNat_eq e1) (BitVec.eq_of_toNat_eq e2)
  have h2 : (l.map fun x => x.1.toNat * N + x.2.toNat).toFinset ⊆ Finset.range (N * N) := by
    intro n hn
    rw [List.mem_toFinset, List.mem_map] at hn
    obtain ⟨x, _, rfl⟩ := hn
    rw [Finset.mem_range]
    have hx := x.1.isLt
    have hy := x.2.isLt
    rw [← hN] at hx hy
    nlinarith
  have h3 := Finset.card_le_card h2
  rw [List.toFinset_card_of_nodup h1, List.length_map, Finset.card_range] at h3
  exact h3

/-! ## Termination -/

/-- **C47.** The checker comes to an end unless it calls back infinitely often. -/
theorem C47_terminates (P : Program) (c : Run) (hc : c.arcs.Nodup) (N : Nat) (h : ∀ n, N ≤ n → ¬ CallsBack P (steps P n c)) :
    ∃ n, advance P (steps P n c) = none := by
  have key : ∀ M : Nat, (∀ n, (steps P n c).arcs.length ≤ M) → ∀ a w n, N ≤ n → M - (steps P n c).arcs.length ≤ a →
      weight (steps P n c) ≤ w → ∃ n, advance P (steps P n c) = none := by
    intro M hM a
    induction a with
    | zero =>
      intro w
      induction w with
      | zero =>
        intro n hn ha hw
        rcases e : advance P (steps P n c) with _ | c'
        · exact ⟨n, e⟩
        · have es : steps P (n + 1) c = c' := by rw [steps_succ, e]; rfl
          rcases advance_weight e (h n hn) with ⟨x, _, e1⟩ | ⟨_, e1⟩
          · have := hM (n + 1)
            rw [es, e1, List.length_cons] at this
            omega
          · omega
      | succ w ih =>
        intro n hn ha hw
        rcases e : advance P (steps P n c) with _ | c'
        · exact ⟨n, e⟩
        · have es : steps P (n + 1) c = c' := by rw [steps_succ, e]; rfl
          rcases advance_weight e (h n hn) with ⟨x, _, e1⟩ | ⟨e0, e1⟩
          · have := hM (n + 1)
            rw [es, e1, List.length_cons] at this
            omega
          · exact ih (n + 1) (by omega) (by rw [es, e0]; exact ha) (by rw [es]; omega)
    | succ a iha =>
      intro w
      induction w with
      | zero =>
        intro n hn ha hw
        rcases e : advance P (steps P n c) with _ | c'
        · exact ⟨n, e⟩
        · have es : steps P (n + 1) c = c' := by rw [steps_succ, e]; rfl
          rcases advance_weight e (h n hn) with ⟨x, _, e1⟩ | ⟨_, e1⟩
          · exact iha (weight c') (n + 1) (by omega) (by rw [es, e1, List.length_cons]; omega) (by rw [es])
          · omega
      | succ w ih =>
        intro n hn ha hw
        rcases e : advance P (steps P n c) with _ | c'
        · exact ⟨n, e⟩
        · have es : steps P (n + 1) c = c' := by rw [steps_succ, e]; rfl
          rcases advance_weight e (h n hn) with ⟨x, _, e1⟩ | ⟨e0, e1⟩
          · exact iha (weight c') (n + 1) (by omega) (by rw [es, e1, List.length_cons]; omega) (by rw [es])
          · exact ih (n + 1) (by omega) (by rw [es, e0]; exact ha) (by rw [es]; omega)
  obtain ⟨B, hB⟩ : ∃ B : Nat, B = 2 ^ 16 := ⟨_, rfl⟩
  exact key (B * B) (fun n => pairs_bounded hB (arcs_nodup P c hc n)) _ _ N (le_refl _) (le_refl _) (le_refl _)

end Buxn.Chess
