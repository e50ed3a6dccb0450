import Verif.Chess.Sim
/-!
# C46: operations compute what the VM computes
-/

namespace Buxn.Chess

open Buxn.VM (Instr Op dispatch VM)
open Buxn.VM.Spec (valueAt operandsAt pushValue ptr stack Action action operandSizes Sys)

/-- A value describes a number of its size. -/
def Good (E : Env) (v : Value) (x : Nat) : Prop := x < 256 ^ v.size ∧ Stands E v x

theorem Good.exact {E : Env} {v : Value} {x : Nat} (h : Good E v x) (hs : Small v) (hc : v.const = true) :
    v.value.toNat = x := by
  have h1 := h.2.const hc
  cases hv : v.short
  · have := hs hv hc
    rw [(size_eq_one v).mpr hv] at h1
    omega
  · have := v.value.isLt
    rw [(size_eq_two v).mpr hv] at h1
    omega

/-- A comparison the checker does not decide. -/
def undecided : List Value → Bool
  | [b, a] => !decided a b
  | _ => false

/-- What an operation pushes describes what the VM pushes; of a comparison that is left open (`fork`) the checker pushes
one answer, the VM may push the other. -/
def Answers (E : Env) (two fork : Bool) (rs : List Value) : Action → Prop
  | .push ys => List.Forall₂ (Good E) rs ys ∧ ∀ v ∈ rs, v.short = two
  | .pushByte y => ∃ v, rs = [v] ∧ v.short = false ∧ (Good E v y ∨ v = truth true ∧ y = 0 ∧ fork = true)
  | .stash y => ∃ v, rs = [v] ∧ v.short = two ∧ Good E v y
  | .load _ _ => ∃ v, rs = [v] ∧ v.short = two ∧ ∀ y, Stands E v y
  | .deviceIn _ => ∃ v, rs = [v] ∧ v.short = two ∧ ∀ y, Stands E v y
  | .store _ _ _ => rs = []
  | .deviceOut _ _ => rs = []
  | .jump _ => False
  | .call _ => False

theorem width_size {v : Value} {s : Bool} (h : v.short = s) : v.size = width s := by rw [size_width, h]

theorem folded_good {E : Env} {s p : Bool} {f : Short → Short → Short} {a b : Value} {y : Nat} (hy : y < 256 ^ width s)
    (h : a.const = true → b.const = true → (f a.value b.value).toNat % 256 ^ width s = y) :
    Good E (folded s p f a b) y := by
  refine ⟨hy, ?_, fun h => (by cases h), fun h => (by cases h), fun h => (by cases h)⟩
  intro hc
  have hc' : (a.const && b.const) = true := hc
  have hc2 := hc'
  rw [Bool.and_eq_true] at hc2
  show (if (a.const && b.const) = true then f a.value b.value else 0).toNat % 256 ^ width s = y
  rw [if_pos hc']
  exact h hc2.1 hc2.2

theorem increment_good {E : Env} {s : Bool} {a : Value} {x : Nat} (ha : Good E a x) (hs : Small a) (hsh : a.short = s)
    (hr : a.ret = false) : Good E (increment a) ((x + 1) % 256 ^ width s) ∧ (increment a).short = s := by
  unfold increment
  by_cases hc : a.const = true
  · rw [if_pos hc]
    refine ⟨⟨?_, ?_, ?_, fun h => (by cases h), fun h => (by cases h)⟩, hsh⟩
    · have e : ({ { a with value := a.value + 1 } with nominal := false, type := [], halfHi := false, halfLo := false, whole := none } : Value).size = width s :=
        width_size hsh
      rw [e]
      exact Nat.mod_lt _ (by cases s <;> decide)
    · intro _
      have e : ({ { a with value := a.value + 1 } with nominal := false, type := [], halfHi := false, halfLo := false, whole := none } : Value).size = width s :=
        width_size hsh
      rw [e, ← ha.exact hs hc]
      show (a.value + 1).toNat % _ = _
      rw [BitVec.toNat_add, show (1 : Short).toNat = 1 from rfl]
      cases s
      · show _ % 256 ^ 1 = _ % 256 ^ 1; omega
      · show _ % 256 ^ 2 = _ % 256 ^ 2; omega
    · intro h
      have : a.ret = true := h
      rw [hr] at this; cases this
  · rw [if_neg hc]
    refine ⟨⟨?_, .vague _ _ (by simpa using hc) hr rfl rfl⟩, hsh⟩
    have e : ({ a with nominal := false, type := [], halfHi := false, halfLo := false, whole := none } : Value).size = width s :=
        width_size hsh
    rw [e]
    exact Nat.mod_lt _ (by cases s <;> decide)

theorem truth_good (E : Env) (b : Bool) : Good E (truth b) (if b then 1 else 0) := by
  cases b
  · exact ⟨by decide, .of_const _ rfl rfl rfl rfl⟩
  · exact ⟨by decide, .of_const _ rfl rfl rfl rfl⟩

theorem compared_good {E : Env} {f : Short → Short → Bool} {a b : Value} (q : Bool)
    (h : a.const = true → b.const = true → f a.value b.value = q) :
    Good E (compared f a b) (if q then 1 else 0) ∨ compared f a b = truth true ∧ q = false ∧ undecided [b, a] = true := by
  unfold compared
  by_cases hd : decided a b = true
  · left
    rw [if_pos hd]
    unfold decided at hd
    simp only [Bool.and_eq_true] at hd
    rw [h hd.1.1.1 hd.1.1.2]
    exact truth_good E q
  · rw [if_neg hd]
    cases q
    · exact .inr ⟨rfl, rfl, by simpa [undecided] using hd⟩
    · exact .inl (truth_good E true)

theorem loaded_vague (E : Env) (P : Program) (s : Bool) (a : Value) (y : Nat) : Stands E (loaded P s a) y := by
  unfold loaded
  split
  · split
    · exact .vague _ _ rfl rfl rfl rfl
    · exact .vague _ _ rfl rfl rfl rfl
  · exact .vague _ _ rfl rfl rfl rfl

theorem pow_width_pos (s : Bool) : 0 < 256 ^ width s := by cases s <;> decide

theorem ite_decide_nat (p : Prop) [Decidable p] : (if p then 1 else 0 : Nat) = if decide p = true then 1 else 0 := by
  by_cases h : p <;> simp [h]

/-- Whatever the checker folds is what the VM computes, for every operation and all operands. -/
theorem answers (E : Env) (P : Program) (op : Op) (hj : isJump op = false) (s : Bool) (pc : Short) (n : Nat)
    (vs : List Value) (xs : List Nat) (hsh : vs.map Value.short = operands s op) (hg : List.Forall₂ (Good E) vs xs)
    (hsm : ∀ v ∈ vs, Small v) (hinc : op = .INC → ∀ v ∈ vs, v.ret = false) :
    Answers E s (undecided vs) (results P s pc op vs) (action (width s) n op xs.reverse) := by
  have one : ∀ {t : Bool}, vs.map Value.short = [t] → ∃ a x, vs = [a] ∧ xs = [x] ∧ a.short = t ∧ Good E a x ∧ Small a := by
    intro t h
    rcases vs with _ | ⟨a, _ | ⟨b, vs⟩⟩
    · cases h
    · cases hg with
      | cons h1 h2 => cases h2; exact ⟨a, _, rfl, rfl, by simpa using h, h1, hsm a (by simp)⟩
    · simp at h
  have two : ∀ {t u : Bool}, vs.map Value.short = [t, u] → ∃ b a y x, vs = [b, a] ∧ xs = [y, x] ∧ b.short = t ∧ a.short = u ∧
      Good E b y ∧ Good E a x ∧ Small b ∧ Small a := by
    intro t u h
    rcases vs with _ | ⟨b, _ | ⟨a, _ | ⟨z, vs⟩⟩⟩
    · cases h
    · simp at h
    · cases hg with
      | cons h1 h2 => cases h2 with
        | cons h2 h3 =>
          cases h3
          simp only [List.map_cons, List.map_nil, List.cons.injEq, and_true] at h
          exact ⟨b, a, _, _, rfl, rfl, h.1, h.2, h1, h2, hsm b (by simp), hsm a (by simp)⟩
    · simp at h
  have three : ∀ {t u w : Bool}, vs.map Value.short = [t, u, w] → ∃ d b a z y x, vs = [d, b, a] ∧ xs = [z, y, x] ∧
      d.short = t ∧ b.short = u ∧ a.short = w ∧ Good E d z ∧ Good E b y ∧ Good E a x := by
    intro t u w h
    rcases vs with _ | ⟨d, _ | ⟨b, _ | ⟨a, _ | ⟨q, vs⟩⟩⟩⟩
    · cases h
    · simp at h
    · simp at h
    · cases hg with
      | cons h1 h2 => cases h2 with
        | cons h2 h3 => cases h3 with
          | cons h3 h4 =>
            cases h4
            simp only [List.map_cons, List.map_nil, List.cons.injEq, and_true] at h
            exact ⟨d, b, a, _, _, _, rfl, rfl, h.1, h.2.1, h.2.2, h1, h2, h3⟩
    · simp at h
  have hP := pow_width_pos s
  cases op
  case INC =>
    obtain ⟨a, x, rfl, rfl, h1, h2, h3⟩ := one hsh
    obtain ⟨g1, g2⟩ := increment_good h2 h3 h1 (hinc rfl a (by simp))
    exact ⟨.cons g1 .nil, fun v hv => by rw [List.mem_singleton.mp hv]; exact g2⟩
  case POP =>
    obtain ⟨a, x, rfl, rfl, h1, h2, h3⟩ := one hsh
    exact ⟨.nil, fun v hv => by cases hv⟩
  case NIP =>
    obtain ⟨b, a, y, x, rfl, rfl, h1, h2, h3, h4, h5, h6⟩ := two hsh
    exact ⟨.cons h3 .nil, fun v hv => by rw [List.mem_singleton.mp hv]; exact h1⟩
  case SWP =>
    obtain ⟨b, a, y, x, rfl, rfl, h1, h2, h3, h4, h5, h6⟩ := two hsh
    refine ⟨.cons h3 (.cons h4 .nil), fun v hv => ?_⟩
    simp only [results, List.mem_cons, List.not_mem_nil, or_false] at hv
    rcases hv with e | e <;> rw [e] <;> assumption
  case ROT =>
    obtain ⟨d, b, a, z, y, x, rfl, rfl, h1, h2, h3, h4, h5, h6⟩ := three hsh
    refine ⟨.cons h5 (.cons h4 (.cons h6 .nil)), fun v hv => ?_⟩
    simp only [results, List.mem_cons, List.not_mem_nil, or_false] at hv
    rcases hv with e | e | e <;> rw [e] <;> assumption
  case DUP =>
    obtain ⟨a, x, rfl, rfl, h1, h2, h3⟩ := one hsh
    refine ⟨.cons h2 (.cons h2 .nil), fun v hv => ?_⟩
    simp only [results, List.mem_cons, List.not_mem_nil, or_false] at hv
    rcases hv with e | e <;> rw [e] <;> assumption
  case OVR =>
    obtain ⟨b, a, y, x, rfl, rfl, h1, h2, h3, h4, h5, h6⟩ := two hsh
    refine ⟨.cons h4 (.cons h3 (.cons h4 .nil)), fun v hv => ?_⟩
    simp only [results, List.mem_cons, List.not_mem_nil, or_false] at hv
    rcases hv with e | e | e <;> rw [e] <;> assumption
  case EQU =>
    obtain ⟨b, a, y, x, rfl, rfl, h1, h2, h3, h4, h5, h6⟩ := two hsh
    refine ⟨_, rfl, rfl, ?_⟩
    have key := compared_good (E := E) (f := fun a b => a == b) (a := a) (b := b) (decide (x = y)) (by
      intro ha hb
      have e1 := h4.exact h6 ha
      have e2 := h3.exact h5 hb
      by_cases e : a.value = b.value
      · rw [← e1, ← e2, e]; simp
      · have : ¬ (x = y) := fun e' => e (BitVec.eq_of_toNat_eq (by omega))
        simp [e, this])
    rcases key with k | ⟨k1, k2, k3⟩
    · left; rw [← ite_decide_nat] at k; exact k
    · exact .inr ⟨k1, if_neg (by simpa using k2), k3⟩
  case NEQ =>
    obtain ⟨b, a, y, x, rfl, rfl, h1, h2, h3, h4, h5, h6⟩ := two hsh
    refine ⟨_, rfl, rfl, ?_⟩
    have key := compared_good (E := E) (f := fun a b => a != b) (a := a) (b := b) (decide (¬ x = y)) (by
      intro ha hb
      have e1 := h4.exact h6 ha
      have e2 := h3.exact h5 hb
      by_cases e : a.value = b.value
      · rw [← e1, ← e2, e]; simp
      · have : ¬ (x = y) := fun e' => e (BitVec.eq_of_toNat_eq (by omega))
        simp [e, this])
    have e0 : (if x = y then 0 else 1 : Nat) = if decide (¬ x = y) = true then 1 else 0 := by
      by_cases e : x = y <;> simp [e]
    show Good E _ (if x = y then 0 else 1) ∨ _ ∧ (if x = y then 0 else 1) = 0 ∧ _
    rcases key with k | ⟨k1, k2, k3⟩
    · left; rw [e0]; exact k
    · exact .inr ⟨k1, if_pos (by simpa using k2), k3⟩
  case GTH =>
    obtain ⟨b, a, y, x, rfl, rfl, h1, h2, h3, h4, h5, h6⟩ := two hsh
    refine ⟨_, rfl, rfl, ?_⟩
    have key := compared_good (E := E) (f := fun a b => decide (b.toNat < a.toNat)) (a := a) (b := b) (decide (x > y)) (by
      intro ha hb
      rw [← h4.exact h6 ha, ← h3.exact h5 hb])
    rcases key with k | ⟨k1, k2, k3⟩
    · left; rw [← ite_decide_nat] at k; exact k
    · exact .inr ⟨k1, if_neg (by simpa using k2), k3⟩
  case LTH =>
    obtain ⟨b, a, y, x, rfl, rfl, h1, h2, h3, h4, h5, h6⟩ := two hsh
    refine ⟨_, rfl, rfl, ?_⟩
    have key := compared_good (E := E) (f := fun a b => decide (a.toNat < b.toNat)) (a := a) (b := b) (decide (x < y)) (by
      intro ha hb
      rw [← h4.exact h6 ha, ← h3.exact h5 hb])
    rcases key with k | ⟨k1, k2, k3⟩
    · left; rw [← ite_decide_nat] at k; exact k
    · exact .inr ⟨k1, if_neg (by simpa using k2), k3⟩
  case JMP => cases hj
  case JCN => cases hj
  case JSR => cases hj
  case STH =>
    obtain ⟨a, x, rfl, rfl, h1, h2, h3⟩ := one hsh
    exact ⟨a, rfl, h1, h2⟩
  case LDZ =>
    obtain ⟨a, x, rfl, rfl, h1, h2, h3⟩ := one hsh
    exact ⟨_, rfl, rfl, loaded_vague E P s _⟩
  case LDR =>
    obtain ⟨a, x, rfl, rfl, h1, h2, h3⟩ := one hsh
    exact ⟨_, rfl, rfl, loaded_vague E P s _⟩
  case LDA =>
    obtain ⟨a, x, rfl, rfl, h1, h2, h3⟩ := one hsh
    exact ⟨_, rfl, rfl, loaded_vague E P s _⟩
  case STZ => obtain ⟨b, a, y, x, rfl, rfl, _⟩ := two hsh; rfl
  case STR => obtain ⟨b, a, y, x, rfl, rfl, _⟩ := two hsh; rfl
  case STA => obtain ⟨b, a, y, x, rfl, rfl, _⟩ := two hsh; rfl
  case DEI =>
    obtain ⟨a, x, rfl, rfl, h1, h2, h3⟩ := one hsh
    exact ⟨_, rfl, rfl, fun y => .vague _ _ rfl rfl rfl rfl⟩
  case DEO => obtain ⟨b, a, y, x, rfl, rfl, _⟩ := two hsh; rfl
  case ADD =>
    obtain ⟨b, a, y, x, rfl, rfl, h1, h2, h3, h4, h5, h6⟩ := two hsh
    refine ⟨.cons (folded_good (Nat.mod_lt _ hP) ?_) .nil, fun v hv => by rw [List.mem_singleton.mp hv]; rfl⟩
    intro ha hb
    rw [← h4.exact h6 ha, ← h3.exact h5 hb, BitVec.toNat_add]
    cases s
    · show _ % 256 ^ 1 = _ % 256 ^ 1; omega
    · show _ % 256 ^ 2 = _ % 256 ^ 2; omega
  case SUB =>
    obtain ⟨b, a, y, x, rfl, rfl, h1, h2, h3, h4, h5, h6⟩ := two hsh
    refine ⟨.cons (folded_good (Nat.mod_lt _ hP) ?_) .nil, fun v hv => by rw [List.mem_singleton.mp hv]; rfl⟩
    intro ha hb
    have hy := h3.1
    rw [width_size h1] at hy
    have e2 := h3.exact h5 hb
    rw [← h4.exact h6 ha, ← e2, BitVec.toNat_sub]
    have := b.value.isLt
    have := a.value.isLt
    cases s
    · have hy : y < 256 ^ 1 := hy
      show _ % 256 ^ 1 = (256 ^ 1 + a.value.toNat - b.value.toNat) % 256 ^ 1; omega
    · show _ % 256 ^ 2 = (256 ^ 2 + a.value.toNat - b.value.toNat) % 256 ^ 2; omega
  case MUL =>
    obtain ⟨b, a, y, x, rfl, rfl, h1, h2, h3, h4, h5, h6⟩ := two hsh
    refine ⟨.cons (folded_good (Nat.mod_lt _ hP) ?_) .nil, fun v hv => by rw [List.mem_singleton.mp hv]; rfl⟩
    intro ha hb
    rw [← h4.exact h6 ha, ← h3.exact h5 hb, BitVec.toNat_mul]
    generalize a.value.toNat * b.value.toNat = q
    cases s
    · show _ % 256 ^ 1 = _ % 256 ^ 1; omega
    · show _ % 256 ^ 2 = _ % 256 ^ 2; omega
  case DIV =>
    obtain ⟨b, a, y, x, rfl, rfl, h1, h2, h3, h4, h5, h6⟩ := two hsh
    have hx := h4.1
    rw [width_size h2] at hx
    have hlt : (if y = 0 then 0 else x / y) < 256 ^ width s := by
      split
      · exact hP
      · exact Nat.lt_of_le_of_lt (Nat.div_le_self _ _) hx
    refine ⟨.cons (folded_good hlt ?_) .nil, fun v hv => by rw [List.mem_singleton.mp hv]; rfl⟩
    intro ha hb
    have e1 := h4.exact h6 ha
    have e2 := h3.exact h5 hb
    have e3 : (foldDiv a.value b.value).toNat = if y = 0 then 0 else x / y := by
      unfold foldDiv
      by_cases h0 : b.value = 0
      · rw [if_pos h0, if_pos (by rw [← e2, h0]; rfl)]; rfl
      · rw [if_neg h0, if_neg (by intro h; exact h0 (BitVec.eq_of_toNat_eq (by rw [e2, h]; rfl))), BitVec.toNat_udiv, e1, e2]
    rw [e3, Nat.mod_eq_of_lt hlt]
  case AND =>
    obtain ⟨b, a, y, x, rfl, rfl, h1, h2, h3, h4, h5, h6⟩ := two hsh
    have hx := h4.1
    rw [width_size h2] at hx
    have hlt : x &&& y < 256 ^ width s := Nat.lt_of_le_of_lt Nat.and_le_left hx
    refine ⟨.cons (folded_good hlt ?_) .nil, fun v hv => by rw [List.mem_singleton.mp hv]; rfl⟩
    intro ha hb
    rw [BitVec.toNat_and, h4.exact h6 ha, h3.exact h5 hb, Nat.mod_eq_of_lt hlt]
  case ORA =>
    obtain ⟨b, a, y, x, rfl, rfl, h1, h2, h3, h4, h5, h6⟩ := two hsh
    have hx := h4.1
    have hy := h3.1
    rw [width_size h2] at hx
    rw [width_size h1] at hy
    have hlt : x ||| y < 256 ^ width s := by
      have e : (256 : Nat) ^ width s = 2 ^ (8 * width s) := by rw [Nat.pow_mul]
      rw [e] at hx hy ⊢
      exact Nat.or_lt_two_pow hx hy
    refine ⟨.cons (folded_good hlt ?_) .nil, fun v hv => by rw [List.mem_singleton.mp hv]; rfl⟩
    intro ha hb
    rw [BitVec.toNat_or, h4.exact h6 ha, h3.exact h5 hb, Nat.mod_eq_of_lt hlt]
  case EOR =>
    obtain ⟨b, a, y, x, rfl, rfl, h1, h2, h3, h4, h5, h6⟩ := two hsh
    have hx := h4.1
    have hy := h3.1
    rw [width_size h2] at hx
    rw [width_size h1] at hy
    have hlt : x ^^^ y < 256 ^ width s := by
      have e : (256 : Nat) ^ width s = 2 ^ (8 * width s) := by rw [Nat.pow_mul]
      rw [e] at hx hy ⊢
      exact Nat.xor_lt_two_pow hx hy
    refine ⟨.cons (folded_good hlt ?_) .nil, fun v hv => by rw [List.mem_singleton.mp hv]; rfl⟩
    intro ha hb
    rw [BitVec.toNat_xor, h4.exact h6 ha, h3.exact h5 hb, Nat.mod_eq_of_lt hlt]
  case SFT =>
    obtain ⟨b, a, y, x, rfl, rfl, h1, h2, h3, h4, h5, h6⟩ := two hsh
    refine ⟨.cons (folded_good (Nat.mod_lt _ hP) ?_) .nil, fun v hv => by rw [List.mem_singleton.mp hv]; rfl⟩
    intro ha hb
    have e1 := h4.exact h6 ha
    have e2 := h3.exact h5 hb
    have hy : y < 256 := by have := h3.1; rw [width_size h1] at this; exact this
    have e3 : (foldShift a.value b.value).toNat = x / 2 ^ (y % 16) * 2 ^ (y / 16) % 65536 := by
      unfold foldShift
      rw [BitVec.toNat_shiftLeft, BitVec.toNat_ushiftRight, Nat.shiftLeft_eq, Nat.shiftRight_eq_div_pow, e1]
      have f1 : (b.value &&& 0x0f).toNat = y % 16 := by
        rw [BitVec.toNat_and, e2, show (0x0f : Short).toNat = 2 ^ 4 - 1 from rfl, Nat.and_two_pow_sub_one_eq_mod]
      have f2 : ((b.value &&& 0xf0) >>> 4).toNat = y / 16 := by
        rw [BitVec.toNat_ushiftRight, BitVec.toNat_and, e2, show (0xf0 : Short).toNat = 240 from rfl]
        exact Buxn.VM.hi_nibble y hy
      rw [f1, f2]
    rw [e3]
    generalize x / 2 ^ (y % 16) * 2 ^ (y / 16) = q
    cases s
    · show _ % 256 ^ 1 = _ % 256 ^ 1; omega
    · show _ % 256 ^ 2 = _ % 256 ^ 2; omega

end Buxn.Chess
