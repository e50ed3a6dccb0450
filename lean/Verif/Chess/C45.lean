import Verif.Chess.Reading
/-!
# C45: stack accounting of the checker
-/

namespace Buxn.Chess

open Buxn.Asm (Str SymType)
open Buxn.VM (Instr Op dispatch)

/-! ## The bookkeeping at every moment -/

/-- Whatever the assembler reported and however long the checker has been running: unless a simulated stack was filled
to exactly 256 bytes, the recorded size of every simulated stack (those of the traces that are still waiting
included) is the sum of the sizes of the values on it, and the checker has not accessed a stack out of bounds. -/
theorem C45_bookkeeping (rom : Short → Byte) (events : List Asm.Event) (n : Nat) (c : Run)
    (hc : c = steps ((readAll events).finish.program rom) n (readAll events).finish.run) :
    c.wrapped = true ∨ (c.oob = false ∧ Sound c.wst ∧ Sound c.rst ∧ ∀ e ∈ c.queue, Sound e.wst ∧ Sound e.rst) := by
  have h := steps_fine (program_ok rom events) n _ (.inr (run_safe (finish_ok (readAll_ok events))))
  rw [← hc] at h
  exact h.imp id fun h => ⟨h.unharmed, h.ok.wst.sound, h.ok.rst.sound,
    fun e he => ⟨(h.queue e he).1.sound, (h.queue e he).2.sound⟩⟩

/-- The end of the check, `check`, does not touch the flags. -/
theorem C45_bookkeeping_check (rom : Short → Byte) (events : List Asm.Event) (n : Nat) (c : Run)
    (hc : check rom events n = some c) : c.wrapped = true ∨ c.oob = false := by
  have key : ∀ (ks : List Short) (c : Run), (checkTermination ks c).wrapped = c.wrapped ∧
      (checkTermination ks c).oob = c.oob := by
    intro ks
    induction ks with
    | nil => exact fun c => ⟨rfl, rfl⟩
    | cons k ks ih =>
      intro c
      rw [checkTermination]
      split
      · exact ih _
      · exact ih _
  unfold check at hc
  dsimp only at hc
  split at hc
  · simp only [Option.some.injEq] at hc
    rw [← hc, (key _ _).1, (key _ _).2]
    exact (C45_bookkeeping rom events n _ rfl).imp id fun h => h.1
  · cases hc

/-! ## Under- and overflow -/

/-- A push is refused, with a report, exactly when one byte is left for a short. -/
theorem C45_overflow (r : Bool) (v : Value) (c : Run) (ht : c.terminated = false) :
    ((realStack r c).size.toNat = 255 ∧ v.short = true → pushEx r v c = error .overflow c) ∧
      (¬ ((realStack r c).size.toNat = 255 ∧ v.short = true) → (pushEx r v c).log = c.log ∧
        (pushEx r v c).terminated = false) := by
  constructor
  · rintro ⟨h1, h2⟩
    exact pushEx_overflow ht (by rw [h1, (size_eq_two v).mpr h2]; omega)
  · intro h
    have hlt := (realStack r c).size.isLt
    have hle : ¬ (realStack r c).size.toNat + v.size > 256 := by
      intro hgt
      apply h
      have := size_le v
      exact ⟨by omega, (size_eq_two v).mp (by omega)⟩
    unfold pushEx
    rw [if_neg (by rw [ht]; simp)]
    dsimp only
    rw [if_neg hle]
    split
    all_goals
      split
      · split
        · rw [setReal_log, setReal_terminated]; exact ⟨rfl, ht⟩
        · exact ⟨rfl, ht⟩
      · rw [setReal_log, setReal_terminated]; exact ⟨rfl, ht⟩

/-- A pop is refused, with a report, exactly when too few bytes are recorded; otherwise the recorded size goes down by
the size of the operand. No assumption on the stack is needed. -/
theorem C45_pop_size (short r : Bool) (c : Run) (ht : c.terminated = false) :
    ((popStack r c).size.toNat < width short → ∃ c', popEx short r c = (valueError, c') ∧
        c'.log = c.log ++ [.error c.trace .underflow] ∧ c'.terminated = true) ∧
      (width short ≤ (popStack r c).size.toNat →
        (popStack r (popEx short r c).2).size.toNat + width short = (popStack r c).size.toNat ∧
        (popEx short r c).2.log = c.log ∧ (popEx short r c).2.terminated = false) := by
  unfold popEx
  rw [if_neg (by rw [ht]; simp)]
  dsimp only
  rcases popFrom_form (popStack r c) short c with ⟨h, e⟩ | ⟨h, hs, m, o, e⟩
  · refine ⟨fun _ => ⟨_, by rw [e], ?_, ?_⟩, fun h' => by omega⟩
    · rw [setPop_log]; rfl
    · rw [setPop_terminated]; rfl
  · refine ⟨fun h' => by omega, fun _ => ?_⟩
    rw [setPop_popStack, setPop_log, setPop_terminated, e]
    exact ⟨hs, rfl, ht⟩

/-! ## Splitting and merging -/

/-- Popping one byte off a short leaves the other byte; popping that too leaves what was below. -/
theorem C45_split {s : Stack} {c : Run} {t : Value} {rest : List Value} (hs : s.Ok c.nodes) (hi : items s = t :: rest)
    (ht : t.short = true) :
    ∃ lo hi s1 s2 m, popByte s c = (lo, s1, { c with nodes := m }) ∧ popByte s1 { c with nodes := m } = (hi, s2, { c with nodes := m }) ∧
      items s1 = hi :: rest ∧ items s2 = rest ∧ lo.short = false ∧ hi.short = false ∧
      lo.halfLo = true ∧ hi.halfHi = true ∧ hi.halfLo = false ∧
      (∃ n, lo.whole = some n ∧ hi.whole = some n ∧ m.heap n = t) := by
  have hlen : s.len ≠ 0 := by
    intro e
    have : items s = [] := by unfold items; rw [e]; rfl
    rw [this] at hi; cases hi
  have hpos := items_pos hlen
  rw [hi] at hpos
  simp only [List.cons.injEq] at hpos
  obtain ⟨etop, erest⟩ := hpos
  have htot : s.size.toNat = 2 + total rest := by
    rw [hs.sound, hi, total_cons, (size_eq_two t).mpr ht]
  have hsz : (s.size - 1).toNat = s.size.toNat - 1 := toNat_sub_byte _ 1 (by rw [show (1 : Byte).toNat = 1 from rfl]; omega)
  have htake : (c.nodes.take t).2.heap (c.nodes.take t).1 = t := by
    unfold Nodes.take
    split <;> simp [upd_same]
  have h2 : (top s).size ≠ 1 := by rw [← etop, (size_eq_two t).mpr ht]; omega
  have e1 : popByte s c = (lowHalf (c.nodes.take t).1 t,
      { s with content := upd s.content (s.len - 1) (highHalf (c.nodes.take t).1 t), size := s.size - 1 },
      { c with nodes := (c.nodes.take t).2 }) := by
    unfold popByte
    rw [if_neg (by omega)]
    dsimp only
    rw [touchTop_ok hlen, if_neg h2, ← etop]
  have hi1 := items_replace hlen (highHalf (c.nodes.take t).1 t) (s.size - 1)
  rw [← erest] at hi1
  have htop1 : top { s with content := upd s.content (s.len - 1) (highHalf (c.nodes.take t).1 t), size := s.size - 1 } =
      highHalf (c.nodes.take t).1 t := by
    unfold top; dsimp only; rw [upd_same]
  refine ⟨_, highHalf (c.nodes.take t).1 t, _, { len := s.len - 1, size := s.size - 1 - 1, content := upd s.content (s.len - 1) (highHalf (c.nodes.take t).1 t) }, (c.nodes.take t).2, e1, ?_, hi1, ?_, rfl, rfl, rfl, rfl, rfl,
    (c.nodes.take t).1, rfl, rfl, htake⟩
  · unfold popByte
    rw [if_neg (by dsimp only; omega)]
    dsimp only
    rw [touchTop_ok (by exact hlen), htop1, if_pos (show (highHalf (c.nodes.take t).1 t).size = 1 from rfl)]
  · show below (upd s.content (s.len - 1) (highHalf (c.nodes.take t).1 t)) (s.len - 1).toNat = rest
    rw [erest]
    have e : s.len - 1 = BitVec.ofNat 8 (s.len - 1).toNat := by
      apply BitVec.eq_of_toNat_eq
      simp
    have := below_upd_ge s.content (highHalf (c.nodes.take t).1 t) (s.len - 1).toNat (s.len - 1).toNat (le_refl _)
      (s.len - 1).isLt
    rw [← e] at this
    exact this

/-- Pushing the high half of a short and then its low half puts the short itself back, with all that was known about
it. -/
theorem C45_merge {r : Bool} {c : Run} {hi lo t : Value} {n : Nat} (hs : (realStack r c).Ok c.nodes)
    (hrun : c.terminated = false) (hsize : (realStack r c).size.toNat + 2 ≤ 255) (h1 : hi.short = false)
    (h2 : lo.short = false) (h3 : hi.halfHi = true) (h4 : hi.halfLo = false) (h5 : lo.halfLo = true)
    (h6 : hi.whole = some n) (h7 : lo.whole = some n) (h8 : c.nodes.heap n = t) :
    items (realStack r (pushEx r lo (pushEx r hi c))) = t :: items (realStack r c) ∧
      (realStack r (pushEx r lo (pushEx r hi c))).size.toNat = (realStack r c).size.toNat + 2 := by
  have z1 := (size_eq_one hi).mpr h1
  have z2 := (size_eq_one lo).mpr h2
  have hl : (realStack r c).len.toNat < 255 := by have := hs.sound.len_le; omega
  have e1 : pushEx r hi c = setReal r { len := (realStack r c).len + 1, size := (realStack r c).size + BitVec.ofNat 8 hi.size, content := upd (realStack r c).content (realStack r c).len hi } c := by
    unfold pushEx
    rw [if_neg (by rw [hrun]; simp)]
    dsimp only
    have hc : ({ c with wrapped := c.wrapped || decide ((realStack r c).size.toNat + hi.size = 256) } : Run) = c := by
      rw [show decide ((realStack r c).size.toNat + hi.size = 256) = false from decide_eq_false (by omega), Bool.or_false]
    rw [hc, if_neg (by omega), if_neg (by rw [h4]; simp)]
  rw [e1]
  generalize hS : realStack r c = s at *
  have hszs : (s.size + BitVec.ofNat 8 hi.size).toNat = s.size.toNat + 1 := by
    rw [z1]; exact toNat_add_byte _ _ (by omega)
  have hlen1 : (s.len + 1).toNat = s.len.toNat + 1 := by
    rw [BitVec.toNat_add, show (1 : Byte).toNat = 1 from rfl]
    have := s.len.isLt
    omega
  have hne : s.len + 1 ≠ 0 := by
    intro e
    rw [e] at hlen1
    simp at hlen1
  have hsub : s.len + 1 - 1 = s.len := by
    apply BitVec.eq_of_toNat_eq
    rw [toNat_sub_byte _ 1 (by rw [hlen1]; exact Nat.le_add_left _ _), hlen1]
    rfl
  have htop : top { len := s.len + 1, size := s.size + BitVec.ofNat 8 hi.size, content := upd s.content s.len hi } = hi := by
    unfold top
    dsimp only
    rw [hsub, upd_same]
  have hi1 := items_push hl hi (s.size + BitVec.ofNat 8 hi.size)
  generalize hS1 : ({ len := s.len + 1, size := s.size + BitVec.ofNat 8 hi.size, content := upd s.content s.len hi } : Stack) =
    s1 at *
  have hlS1 : s1.len = s.len + 1 := by rw [← hS1]
  have hzS1 : s1.size.toNat = s.size.toNat + 1 := by rw [← hS1]; exact hszs
  have e2 : pushEx r lo (setReal r s1 c) =
      setReal r { s1 with content := upd s1.content (s1.len - 1) t, size := s1.size + 1 } c := by
    unfold pushEx
    rw [if_neg (by rw [setReal_terminated, hrun]; simp)]
    dsimp only
    rw [setReal_realStack, if_neg (by omega), if_pos (by rw [hlS1, hlen1]; omega : 0 < s1.len.toNat), htop]
    have hcond : (lo.halfLo && hi.halfHi && (hi.whole == lo.whole)) = true := by
      rw [h5, h3, h6, h7]; simp
    rw [if_pos hcond, h6]
    dsimp only
    have hc : ∀ c : Run, ({ c with wrapped := c.wrapped || decide (s1.size.toNat + lo.size = 256) } : Run) = c := by
      intro c
      rw [show decide (s1.size.toNat + lo.size = 256) = false from decide_eq_false (by omega), Bool.or_false]
    rw [hc, setReal_nodes, h8, setReal_setReal]
  rw [e2, setReal_realStack]
  constructor
  · rw [items_replace (by rw [hlS1]; exact hne)]
    have := items_pos (s := s1) (by rw [hlS1]; exact hne)
    rw [hi1] at this
    simp only [List.cons.injEq] at this
    rw [← this.2]
  · dsimp only
    rw [BitVec.toNat_add, show (1 : Byte).toNat = 1 from rfl]
    omega

/-! ## Casts -/

/-- A cast that asks for no more bytes than there are leaves the sizes of both stacks alone; otherwise it is reported. -/
theorem C45_cast (P : Program) (hP : P.Ok) (a : Short) (k : Cast) (hk : P.cast a = some k) (c : Run) (hc : Safe c) :
    (total k.wst ≤ c.wst.size.toNat → total k.rst ≤ c.rst.size.toNat →
      (applyCasts (P.cast a) c).wst.size = c.wst.size ∧ (applyCasts (P.cast a) c).rst.size = c.rst.size ∧
        (applyCasts (P.cast a) c).log = c.log ∧ Safe (applyCasts (P.cast a) c)) ∧
      (c.wst.size.toNat < total k.wst ∨ c.rst.size.toNat < total k.rst →
        Event.error c.trace .castMismatch ∈ (applyCasts (P.cast a) c).log ∧
          (applyCasts (P.cast a) c).terminated = true) := by
  obtain ⟨h1, h2⟩ := hP.casts a k hk
  rw [hk, show applyCasts (some k) c = applyCast true k.rst (applyCast false k.wst c) from rfl]
  by_cases hf : total k.wst ≤ c.wst.size.toNat
  · obtain ⟨s1, m1, e1, ho1, hm1, hf1, hz1⟩ := applyCast_ok false k.wst c hc h1 hf
    have hs1 : Safe (applyCast false k.wst c) := by rw [e1]; exact hc.setReal false ho1 hm1 hf1
    have hr : (applyCast false k.wst c).rst = c.rst := by rw [e1]; rfl
    have hw : (applyCast false k.wst c).wst.size = c.wst.size := by rw [e1]; exact hz1
    have hl : (applyCast false k.wst c).log = c.log := by rw [e1]; rfl
    have htr : (applyCast false k.wst c).trace = c.trace := by rw [e1]; rfl
    generalize applyCast false k.wst c = c1 at *
    constructor
    · intro _ hf2
      obtain ⟨s2, m2, e2, ho2, hm2, hff2, hz2⟩ := applyCast_ok true k.rst c1 hs1 h2
        (by show _ ≤ c1.rst.size.toNat; rw [hr]; exact hf2)
      have hz2' : s2.size = c1.rst.size := hz2
      refine ⟨by rw [e2]; exact hw, ?_, ?_, ?_⟩
      · rw [e2]; show s2.size = _; rw [hz2', hr]
      · rw [e2]; exact hl
      rw [e2]; exact hs1.setReal true ho2 hm2 hff2
    · intro hb
      have hb : c.rst.size.toNat < total k.rst := by omega
      rw [applyCast_mismatch true k.rst c1 h2 (by show c1.rst.size.toNat < _; rw [hr]; exact hb)]
      refine ⟨?_, rfl⟩
      show _ ∈ c1.log ++ [.error c1.trace .castMismatch]
      rw [htr]
      simp
  · constructor
    · intro h; omega
    · intro _
      have e1 := applyCast_mismatch false k.wst c h1 (by show c.wst.size.toNat < _; omega)
      rw [e1]
      have hs1 : Safe (error .castMismatch c) := hc.of_same rfl rfl rfl rfl rfl rfl (fun _ h => .inl h) rfl
      by_cases hf2 : total k.rst ≤ c.rst.size.toNat
      · obtain ⟨s2, m2, e2, _⟩ := applyCast_ok true k.rst (error .castMismatch c) hs1 h2 hf2
        rw [e2]
        refine ⟨?_, rfl⟩
        show _ ∈ c.log ++ [.error c.trace .castMismatch]
        simp
      · rw [applyCast_mismatch true k.rst _ h2 (by show c.rst.size.toNat < _; omega)]
        refine ⟨?_, rfl⟩
        show _ ∈ (c.log ++ [.error c.trace .castMismatch]) ++ [.error c.trace .castMismatch]
        simp

end Buxn.Chess
