import Verif.Chess.Onward
import Verif.VM.Frame
/-!
# When a simulated stack describes a stack of the VM
-/

namespace Buxn.Chess

open Buxn.VM (Instr Op dispatch VM)
open Buxn.VM.Spec (valueAt operandsAt)

/-- What a description leaves open: the number that was split when a node was filled, and the return address of the
routine. -/
structure Env where
  node : Nat → Nat
  ret : Nat

/-- The value describes the number: a constant is that number (of a byte only the low byte counts), a value that is
taken for the return address of the routine is the return address, a half is that half of the number it came from. -/
structure Stands (E : Env) (v : Value) (x : Nat) : Prop where
  const : v.const = true → v.value.toNat % 256 ^ v.size = x
  ret : v.ret = true → x = E.ret
  high : v.halfHi = true → ∃ n, v.whole = some n ∧ x = E.node n / 256
  low : v.halfLo = true → ∃ n, v.whole = some n ∧ x = E.node n % 256

/-- The values (top first) describe the cells below `p`, down to `base`. -/
def Describes (E : Env) (stk : Byte → Byte) (base : Byte) : List Value → Byte → Prop
  | [], p => p = base
  | v :: vs, p => Stands E v (valueAt stk (p - BitVec.ofNat 8 v.size) v.size) ∧
      Describes E stk base vs (p - BitVec.ofNat 8 v.size)

/-- A half comes from a short that this trace has split. -/
def Alive (m : Nodes) (v : Value) : Prop := v.halfHi = true ∨ v.halfLo = true → ∃ n ∈ m.taken, v.whole = some n

/-- What the nodes hold describes the numbers that were split. -/
def Meaning (E : Env) (m : Nodes) : Prop := ∀ n ∈ m.taken, E.node n < 65536 ∧ Stands E (m.heap n) (E.node n)

/-- A constant byte is a byte: its number has no carry. -/
def Small (v : Value) : Prop := v.short = false → v.const = true → v.value.toNat < 256

/-- The nodes have grown. -/
structure Grows (E : Env) (m : Nodes) (E' : Env) (m' : Nodes) : Prop where
  ret : E'.ret = E.ret
  live : ∀ n ∈ m.taken, n ∈ m'.taken ∧ E'.node n = E.node n

theorem Grows.refl (E : Env) (m : Nodes) : Grows E m E m := ⟨rfl, fun _ h => ⟨h, rfl⟩⟩

theorem Grows.trans {E E' E'' : Env} {m m' m'' : Nodes} (h : Grows E m E' m') (h' : Grows E' m' E'' m'') :
    Grows E m E'' m'' :=
  ⟨h'.ret.trans h.ret, fun n hn => ⟨(h'.live n (h.live n hn).1).1, by rw [(h'.live n (h.live n hn).1).2, (h.live n hn).2]⟩⟩

theorem Alive.grow {E E' : Env} {m m' : Nodes} (h : Grows E m E' m') {v : Value} (hv : Alive m v) : Alive m' v := by
  intro hh
  obtain ⟨n, hn, e⟩ := hv hh
  exact ⟨n, (h.live n hn).1, e⟩

theorem Stands.grow {E E' : Env} {m m' : Nodes} (h : Grows E m E' m') {v : Value} (hv : Alive m v) {x : Nat}
    (hs : Stands E v x) : Stands E' v x := by
  refine ⟨hs.const, fun hr => by rw [h.ret]; exact hs.ret hr, ?_, ?_⟩
  · intro hh
    obtain ⟨n, hn, e⟩ := hv (.inl hh)
    obtain ⟨k, e', hx⟩ := hs.high hh
    rw [e, Option.some.injEq] at e'
    subst e'
    exact ⟨n, e, by rw [(h.live n hn).2]; exact hx⟩
  · intro hh
    obtain ⟨n, hn, e⟩ := hv (.inr hh)
    obtain ⟨k, e', hx⟩ := hs.low hh
    rw [e, Option.some.injEq] at e'
    subst e'
    exact ⟨n, e, by rw [(h.live n hn).2]; exact hx⟩

theorem Describes.grow {E E' : Env} {m m' : Nodes} (h : Grows E m E' m') {stk : Byte → Byte} {base : Byte} :
    ∀ {vs : List Value} {p : Byte}, (∀ v ∈ vs, Alive m v) → Describes E stk base vs p → Describes E' stk base vs p
  | [], _, _, hd => hd
  | v :: vs, _, ha, hd =>
    ⟨hd.1.grow h (ha v List.mem_cons_self), hd.2.grow h (fun w hw => ha w (List.mem_cons_of_mem _ hw))⟩

/-- Something that says nothing describes everything. -/
theorem Stands.vague (E : Env) {v : Value} (x : Nat) (h1 : v.const = false) (h2 : v.ret = false) (h3 : v.halfHi = false)
    (h4 : v.halfLo = false) : Stands E v x :=
  ⟨fun h => (by rw [h1] at h; cases h), fun h => (by rw [h2] at h; cases h), fun h => (by rw [h3] at h; cases h),
    fun h => (by rw [h4] at h; cases h)⟩

theorem Stands.of_const (E : Env) {v : Value} {x : Nat} (h1 : v.value.toNat % 256 ^ v.size = x) (h2 : v.ret = false)
    (h3 : v.halfHi = false) (h4 : v.halfLo = false) : Stands E v x :=
  ⟨fun _ => h1, fun h => (by rw [h2] at h; cases h), fun h => (by rw [h3] at h; cases h),
    fun h => (by rw [h4] at h; cases h)⟩

theorem Alive.whole (m : Nodes) {v : Value} (h3 : v.halfHi = false) (h4 : v.halfLo = false) : Alive m v := by
  intro h
  rw [h3, h4] at h
  rcases h with h | h <;> cases h

/-! ## Cells -/

theorem byte_add_sub (p : Byte) (n : Nat) : p + BitVec.ofNat 8 n - BitVec.ofNat 8 n = p :=
  BitVec.add_sub_cancel _ _

theorem byte_sub_sub (p : Byte) (a b : Nat) : p - BitVec.ofNat 8 a - BitVec.ofNat 8 b = p - BitVec.ofNat 8 (a + b) := by
  rw [BitVec.ofNat_add, BitVec.sub_sub]

theorem valueAt_congr {stk stk' : Byte → Byte} {p : Byte} {n : Nat} (h0 : stk p = stk' p) (h1 : n = 2 → stk (p + 1) = stk' (p + 1)) :
    valueAt stk p n = valueAt stk' p n := by
  unfold valueAt
  split
  · rw [h0, h1 rfl]
  · rw [h0]

/-- A description is about the cells below the pointer only. -/
theorem Describes.congr {E : Env} {stk stk' : Byte → Byte} {base : Byte} : ∀ {vs : List Value} {p : Byte},
    (∀ i, 1 ≤ i → i ≤ total vs → stk (p - BitVec.ofNat 8 i) = stk' (p - BitVec.ofNat 8 i)) →
    Describes E stk base vs p → Describes E stk' base vs p
  | [], _, _, hd => hd
  | v :: vs, p, h, hd => by
    rw [total_cons] at h
    have hp := size_pos v
    have hl := size_le v
    refine ⟨?_, ?_⟩
    · rw [← valueAt_congr (h v.size hp (by omega))]
      · exact hd.1
      · intro h2
        rw [h2]
        have := h 1 (le_refl _) (by omega)
        have e : p - BitVec.ofNat 8 2 + 1 = p - BitVec.ofNat 8 1 := by
          rw [show (1 : Byte) = BitVec.ofNat 8 1 from rfl, ← byte_sub_sub p 1 1, BitVec.sub_add_cancel]
        rw [e]
        exact this
    · refine Describes.congr ?_ hd.2
      intro i h1 h2
      rw [byte_sub_sub]
      exact h (v.size + i) (by omega) (by omega)

/-! ## Popping -/

theorem valueAt_one (stk : Byte → Byte) (p : Byte) : valueAt stk p 1 = (stk p).toNat := rfl
theorem valueAt_two (stk : Byte → Byte) (p : Byte) : valueAt stk p 2 = (stk p).toNat * 256 + (stk (p + 1)).toNat := rfl

theorem cells_two (stk : Byte → Byte) (p : Byte) :
    valueAt stk (p - BitVec.ofNat 8 2) 2 = valueAt stk (p - BitVec.ofNat 8 1 - BitVec.ofNat 8 1) 1 * 256 +
      valueAt stk (p - BitVec.ofNat 8 1) 1 := by
  have e : p - BitVec.ofNat 8 2 + 1 = p - BitVec.ofNat 8 1 := by
    rw [show (1 : Byte) = BitVec.ofNat 8 1 from rfl, ← byte_sub_sub p 1 1, BitVec.sub_add_cancel]
  rw [valueAt_two, valueAt_one, valueAt_one, byte_sub_sub, e]

theorem valueAt_lt (stk : Byte → Byte) (p : Byte) (v : Value) : valueAt stk p v.size < 256 ^ v.size := by
  unfold Value.size
  split
  · rw [valueAt_two]
    have := (stk p).isLt
    have := (stk (p + 1)).isLt
    omega
  · rw [valueAt_one]
    have := (stk p).isLt
    omega

/-- Taking a node does not disturb the ones in use. -/
theorem take_taken {m : Nodes} (hm : m.Ok) (v : Value) :
    (m.take v).1 ∉ m.taken ∧ (m.take v).2.taken = (m.take v).1 :: m.taken ∧
      (m.take v).2.heap = upd m.heap (m.take v).1 v := by
  unfold Nodes.take
  rcases hp : m.pool with _ | ⟨n, pool⟩
  · exact ⟨fun hin => absurd (hm.taken _ hin) (Nat.lt_irrefl _), rfl, rfl⟩
  · have hd := hm.distinct
    rw [hp, List.cons_append, List.nodup_cons] at hd
    exact ⟨fun hin => hd.1 (List.mem_append_right _ hin), rfl, rfl⟩

/-- What a pop leaves, as far as the description of the VM goes: the popped values, first one on top, and the rest. -/
structure PopSim (E : Env) (m : Nodes) (stk : Byte → Byte) (base p : Byte) (vs : List Value) (s' : Stack) (m' : Nodes)
    (E' : Env) : Prop where
  grows : Grows E m E' m'
  meaning : Meaning E' m'
  cells : Describes E' stk base (vs ++ items s') p
  alive : ∀ v ∈ vs ++ items s', Alive m' v
  small : ∀ v ∈ vs ++ items s', Small v

theorem popByte_sim {s : Stack} {c : Run} {E : Env} {stk : Byte → Byte} {base p : Byte} (hm : c.nodes.Ok)
    (hs : s.Ok c.nodes) (h : 1 ≤ s.size.toNat) (hM : Meaning E c.nodes) (hA : ∀ v ∈ items s, Alive c.nodes v)
    (hS : ∀ v ∈ items s, Small v) (hD : Describes E stk base (items s) p) :
    ∃ E', PopSim E c.nodes stk base p [(popByte s c).1] (popByte s c).2.1 (popByte s c).2.2.nodes E' := by
  have hl := len_ne_zero hs.sound h
  have hi := items_pos hl
  unfold popByte
  rw [if_neg (by omega)]
  dsimp only
  rw [touchTop_ok hl]
  by_cases h1 : (top s).size = 1
  · rw [if_pos h1]
    have e : items { s with len := s.len - 1, size := s.size - 1 } = below s.content (s.len - 1).toNat := items_drop s _
    refine ⟨E, .refl _ _, hM, ?_, ?_, ?_⟩ <;> dsimp only <;> rw [e, List.singleton_append, ← hi]
    · exact hD
    · exact hA
    · exact hS
  · rw [if_neg h1]
    have h2 : (top s).size = 2 := by have := size_pos (top s); have := size_le (top s); omega
    dsimp only
    obtain ⟨hn, htk, hheap⟩ := take_taken hm (top s)
    generalize hN : (c.nodes.take (top s)).1 = n at *
    generalize hM' : (c.nodes.take (top s)).2 = m' at *
    rw [hi] at hD hA hS
    obtain ⟨hd1, hd2⟩ := hD
    rw [h2] at hd1 hd2
    have hx := valueAt_lt stk (p - BitVec.ofNat 8 2) (top s)
    rw [h2] at hx
    have hcells := cells_two stk p
    generalize hX : valueAt stk (p - BitVec.ofNat 8 2) 2 = x at *
    have hlo := valueAt_lt stk (p - BitVec.ofNat 8 1) {}
    have hlo' : valueAt stk (p - BitVec.ofNat 8 1) 1 < 256 := hlo
    have hg : Grows E c.nodes { E with node := upd E.node n x } m' := by
      refine ⟨rfl, fun k hk => ⟨by rw [htk]; exact List.mem_cons_of_mem _ hk, ?_⟩⟩
      have : k ≠ n := fun e => hn (e ▸ hk)
      exact upd_other _ _ this
    have hts : Stands { E with node := upd E.node n x } (top s) x := hd1.grow hg (hA _ List.mem_cons_self)
    have hrest : items { s with content := upd s.content (s.len - 1) (highHalf n (top s)), size := s.size - 1 } =
        highHalf n (top s) :: below s.content (s.len - 1).toNat := items_replace hl _ _
    have hnode : (upd E.node n x) n = x := upd_same _ _ _
    refine ⟨{ E with node := upd E.node n x }, hg, ?_, ?_, ?_, ?_⟩
    · intro k hk
      rw [htk] at hk
      by_cases e : k = n
      · subst e
        dsimp only
        rw [hheap, hnode, upd_same]
        exact ⟨by omega, hts⟩
      · rcases List.mem_cons.mp hk with e' | hk
        · exact absurd e' e
        · dsimp only
          rw [hheap, upd_other _ _ e, upd_other _ _ e]
          obtain ⟨hb, ht⟩ := hM k hk
          have hsh := hm.shorts k (hm.taken k hk)
          refine ⟨hb, ht.const, ht.ret, ?_, ?_⟩
          · intro hh; rw [(hsh.2.whole_short hsh.1).1] at hh; cases hh
          · intro hh; rw [(hsh.2.whole_short hsh.1).2] at hh; cases hh
    · rw [hrest, List.singleton_append]
      refine ⟨⟨?_, fun h => (by cases h), fun h => (by cases h), fun _ => ⟨n, rfl, ?_⟩⟩, ⟨?_, fun h => (by cases h),
        fun _ => ⟨n, rfl, ?_⟩, fun h => (by cases h)⟩, ?_⟩
      · intro hc
        have hc' : (top s).const = true := hc
        have := hd1.const hc'
        rw [h2] at this
        show (lowHalf n (top s)).value.toNat % 256 ^ 1 = valueAt stk (p - BitVec.ofNat 8 1) 1
        unfold lowHalf
        dsimp only
        rw [if_pos hc', BitVec.toNat_and, show (0xff : Short).toNat = 255 from rfl, Buxn.VM.and_255]
        have := (top s).value.isLt
        omega
      · show valueAt stk (p - BitVec.ofNat 8 1) 1 = (upd E.node n x) n % 256
        rw [hnode]
        omega
      · intro hc
        have hc' : (top s).const = true := hc
        have := hd1.const hc'
        rw [h2] at this
        show (highHalf n (top s)).value.toNat % 256 ^ 1 = valueAt stk (p - BitVec.ofNat 8 1 - BitVec.ofNat 8 1) 1
        unfold highHalf
        dsimp only
        rw [if_pos hc', BitVec.toNat_ushiftRight, Nat.shiftRight_eq_div_pow]
        have := (top s).value.isLt
        omega
      · show valueAt stk (p - BitVec.ofNat 8 1 - BitVec.ofNat 8 1) 1 = (upd E.node n x) n / 256
        rw [hnode]
        omega
      · have e : p - BitVec.ofNat 8 (lowHalf n (top s)).size - BitVec.ofNat 8 (highHalf n (top s)).size =
            p - BitVec.ofNat 8 2 := byte_sub_sub p 1 1
        rw [e]
        exact hd2.grow hg (fun w hw => hA w (List.mem_cons_of_mem _ hw))
    · rw [hrest, List.singleton_append]
      intro v hv
      rcases List.mem_cons.mp hv with e | hv
      · rw [e]; exact fun _ => ⟨n, by rw [htk]; exact List.mem_cons_self, rfl⟩
      rcases List.mem_cons.mp hv with e | hv
      · rw [e]; exact fun _ => ⟨n, by rw [htk]; exact List.mem_cons_self, rfl⟩
      · exact (hA v (List.mem_cons_of_mem _ hv)).grow hg
    · rw [hrest, List.singleton_append]
      intro v hv
      rcases List.mem_cons.mp hv with e | hv
      · rw [e]
        intro _ _
        unfold lowHalf
        dsimp only
        split
        · rw [BitVec.toNat_and, show (0xff : Short).toNat = 255 from rfl, Buxn.VM.and_255]; omega
        · decide
      rcases List.mem_cons.mp hv with e | hv
      · rw [e]
        intro _ _
        unfold highHalf
        dsimp only
        split
        · rw [BitVec.toNat_ushiftRight, Nat.shiftRight_eq_div_pow]
          have := (top s).value.isLt
          omega
        · decide
      · exact hS v (List.mem_cons_of_mem _ hv)

theorem popShort_sim {s : Stack} {c : Run} {E : Env} {stk : Byte → Byte} {base p : Byte} (hm : c.nodes.Ok)
    (hs : s.Ok c.nodes) (h : 2 ≤ s.size.toNat) (hM : Meaning E c.nodes) (hA : ∀ v ∈ items s, Alive c.nodes v)
    (hS : ∀ v ∈ items s, Small v) (hD : Describes E stk base (items s) p) :
    ∃ E', PopSim E c.nodes stk base p [(popShort s c).1] (popShort s c).2.1 (popShort s c).2.2.nodes E' := by
  have hl := len_ne_zero hs.sound (by omega)
  have hi := items_pos hl
  obtain ⟨_, _, _, e0, _⟩ := popShort_ok hm hs h
  unfold popShort at e0 ⊢
  rw [if_neg (by omega)] at e0 ⊢
  dsimp only at e0 ⊢
  rw [touchTop_ok hl] at e0 ⊢
  by_cases h2 : (top s).size = 2
  · rw [if_pos h2]
    have e : items { s with len := s.len - 1, size := s.size - 2 } = below s.content (s.len - 1).toNat := items_drop s _
    refine ⟨E, .refl _ _, hM, ?_, ?_, ?_⟩ <;> dsimp only <;> rw [e, List.singleton_append, ← hi]
    · exact hD
    · exact hA
    · exact hS
  · rw [if_neg h2]
    clear e0
    have key : ∀ c : Run, c.nodes.Ok → s.Ok c.nodes → Meaning E c.nodes → (∀ v ∈ items s, Alive c.nodes v) →
        ∃ E', PopSim E c.nodes stk base p [merge (popByte (popByte s c).2.1 (popByte s c).2.2).1 (popByte s c).1]
          (popByte (popByte s c).2.1 (popByte s c).2.2).2.1
          (popByte (popByte s c).2.1 (popByte s c).2.2).2.2.nodes E' := by
      intro c hm hs hM hA
      obtain ⟨lo, s1, m1, e1, p1⟩ := popByte_ok hm hs (by omega)
      obtain ⟨E1, q1⟩ := popByte_sim hm hs (by omega) hM hA hS hD
      rw [e1] at q1 ⊢
      dsimp only at q1 ⊢
      have hz : lo.size = 1 := (size_eq_one _).mpr p1.short_eq
      have hsize1 := p1.size
      have hsub : ∀ {v}, v ∈ items s1 → v ∈ [lo] ++ items s1 := fun h => List.mem_append_right _ h
      have hc1 := q1.cells
      rw [List.singleton_append] at hc1
      obtain ⟨hc1, hc2⟩ := hc1
      obtain ⟨hi', s2, m2, e2, p2⟩ := popByte_ok (c := { c with nodes := m1 }) (s := s1) p1.nodes p1.stack (by omega)
      obtain ⟨E2, q2⟩ := popByte_sim (c := { c with nodes := m1 }) (s := s1) p1.nodes p1.stack (by omega) q1.meaning
        (fun v hv => q1.alive v (hsub hv)) (fun v hv => q1.small v (hsub hv)) hc2
      rw [e2] at q2 ⊢
      dsimp only at q2 ⊢
      have hz2 : hi'.size = 1 := (size_eq_one _).mpr p2.short_eq
      have hc3 := q2.cells
      rw [List.singleton_append] at hc3
      obtain ⟨hc3, hc4⟩ := hc3
      rw [hz] at hc1 hc3 hc4
      rw [hz2] at hc3 hc4
      have hlo1 := hc1.const
      have hhi1 := hc3.const
      rw [hz] at hlo1
      rw [hz2] at hhi1
      have hsm := q1.small lo (by simp) p1.short_eq
      refine ⟨E2, q1.grows.trans q2.grows, q2.meaning, ⟨⟨?_, fun h => (by cases h), fun h => (by cases h), fun h => (by cases h)⟩, ?_⟩,
        ?_, ?_⟩
      · intro hcc
        have hcc' : (hi'.const && lo.const) = true := hcc
        have hcc2 := hcc'
        rw [Bool.and_eq_true] at hcc2
        have a1 := hhi1 hcc2.1
        have a2 := hlo1 hcc2.2
        have a3 := hsm hcc2.2
        show (merge hi' lo).value.toNat % 256 ^ 2 = valueAt stk (p - BitVec.ofNat 8 2) 2
        rw [cells_two]
        unfold merge
        dsimp only
        rw [if_pos hcc', BitVec.toNat_or, BitVec.toNat_shiftLeft]
        have a4 : hi'.value.toNat <<< 8 % 2 ^ 16 = (hi'.value.toNat % 256) <<< 8 := by
          rw [Nat.shiftLeft_eq, Nat.shiftLeft_eq]; omega
        rw [a4, ← Nat.shiftLeft_add_eq_or_of_lt (by simpa using a3), Nat.shiftLeft_eq]
        omega
      · show Describes E2 stk base (items s2) (p - BitVec.ofNat 8 2)
        rw [← byte_sub_sub p 1 1]
        exact hc4
      · intro v hv
        rcases List.mem_cons.mp hv with e | hv
        · rw [e]; exact .whole _ rfl rfl
        · exact q2.alive v (List.mem_append_right _ hv)
      · intro v hv
        rcases List.mem_cons.mp hv with e | hv
        · rw [e]; exact fun h => (by cases h)
        · exact q2.small v (List.mem_append_right _ hv)
    split
    · exact key { c with oob := true } hm hs hM hA
    · exact key c hm hs hM hA

theorem popFrom_sim {s : Stack} {b : Bool} {c : Run} {E : Env} {stk : Byte → Byte} {base p : Byte} (hm : c.nodes.Ok)
    (hs : s.Ok c.nodes) (h : width b ≤ s.size.toNat) (hM : Meaning E c.nodes) (hA : ∀ v ∈ items s, Alive c.nodes v)
    (hS : ∀ v ∈ items s, Small v) (hD : Describes E stk base (items s) p) :
    ∃ E', PopSim E c.nodes stk base p [(popFrom s b c).1] (popFrom s b c).2.1 (popFrom s b c).2.2.nodes E' := by
  unfold popFrom
  cases b
  · exact popByte_sim hm hs h hM hA hS hD
  · exact popShort_sim hm hs h hM hA hS hD

theorem popList_sim (r : Bool) (stk : Byte → Byte) (base p : Byte) : ∀ (bs : List Bool) (c : Run) (E : Env),
    c.terminated = false → c.nodes.Ok → (popStack r c).Ok c.nodes → widths bs ≤ (popStack r c).size.toNat →
    Meaning E c.nodes → (∀ v ∈ items (popStack r c), Alive c.nodes v) → (∀ v ∈ items (popStack r c), Small v) →
    ∀ q, Describes E stk base (items (popStack r c)) q →
    ∃ E', PopSim E c.nodes stk base q (popList r bs c).1 (popStack r (popList r bs c).2) (popList r bs c).2.nodes E'
  | [], c, E, _, hm, hs, _, hM, hA, hS, q, hD => ⟨E, .refl _ _, hM, hD, hA, hS⟩
  | b :: bs, c, E, ht, hm, hs, hw, hM, hA, hS, q, hD => by
    have hw' : width b + widths bs ≤ (popStack r c).size.toNat := by simpa [widths] using hw
    obtain ⟨v, s1, m1, e1, p1⟩ := popFrom_ok (short := b) hm hs (by omega)
    obtain ⟨E1, q1⟩ := popFrom_sim (b := b) hm hs (by omega) hM hA hS hD
    rw [e1] at q1
    dsimp only at q1
    have hz : v.size = width b := by rw [size_width, p1.short_eq]
    have hsz := p1.size
    have hsub : ∀ {w}, w ∈ items s1 → w ∈ [v] ++ items s1 := fun h => List.mem_append_right _ h
    obtain ⟨hc1, hc2⟩ := (show Describes E1 stk base (v :: items s1) q from q1.cells)
    obtain ⟨E2, q2⟩ := popList_sim r stk base p bs (setPop r s1 { c with nodes := m1 }) E1
      (by rw [setPop_terminated]; exact ht)
      (by rw [setPop_nodes]; exact p1.nodes) (by rw [setPop_nodes, setPop_popStack]; exact p1.stack)
      (by rw [setPop_popStack]; omega) (by rw [setPop_nodes]; exact q1.meaning)
      (by rw [setPop_nodes, setPop_popStack]; exact fun w hw => q1.alive w (hsub hw))
      (by rw [setPop_popStack]; exact fun w hw => q1.small w (hsub hw)) _ (by rw [setPop_popStack]; exact hc2)
    rw [setPop_nodes] at q2
    have e : popList r (b :: bs) c = (v :: (popList r bs (setPop r s1 { c with nodes := m1 })).1,
        (popList r bs (setPop r s1 { c with nodes := m1 })).2) := by
      rw [popList]
      unfold popEx
      rw [if_neg (by rw [ht]; simp), e1]
    rw [e]
    dsimp only
    have hav := (q1.alive v (by simp))
    refine ⟨E2, q1.grows.trans q2.grows, q2.meaning, ⟨hc1.grow q2.grows hav, q2.cells⟩, ?_, ?_⟩
    · intro w hw
      rcases List.mem_cons.mp hw with e | hw
      · rw [e]; exact hav.grow q2.grows
      · exact q2.alive w hw
    · intro w hw
      rcases List.mem_cons.mp hw with e | hw
      · rw [e]; exact q1.small v (by simp)
      · exact q2.small w hw

/-! ## Both stacks -/

/-- The stacks of a trace describe those of the VM, from some cell upwards. -/
structure Sim (E : Env) (base : Bool → Byte) (vm : VM) (st : Bool → Stack) (m : Nodes) : Prop where
  meaning : Meaning E m
  cells : ∀ r, Describes E (Buxn.VM.Spec.stack r vm) (base r) (items (st r)) (Buxn.VM.Spec.ptr r vm)
  alive : ∀ r, ∀ v ∈ items (st r), Alive m v

/-- The stacks of a run and of an entry. -/
def Run.stacks (c : Run) (r : Bool) : Stack := realStack r c
def Entry.stacks (e : Entry) (r : Bool) : Stack := if r then e.rst else e.wst

/-! ## Pushing -/

open Buxn.VM.Spec (pushValue ptr stack)

theorem pushValue_value (r : Bool) (v : Value) (x : Nat) (vm : VM) (hx : x < 256 ^ v.size) :
    ptr r (pushValue r v.size x vm) = ptr r vm + BitVec.ofNat 8 v.size ∧
      valueAt (stack r (pushValue r v.size x vm)) (ptr r vm) v.size = x := by
  unfold Value.size at *
  have hne : ∀ q : Byte, q ≠ q + 1 := by decide +kernel
  split at hx
  · rename_i h
    rw [if_pos h]
    cases r
    · refine ⟨rfl, ?_⟩
      rw [valueAt_two]
      show ((upd (upd vm.ws vm.wsp _) (vm.wsp + 1) _) vm.wsp).toNat * 256 +
        ((upd (upd vm.ws vm.wsp _) (vm.wsp + 1) _) (vm.wsp + 1)).toNat = x
      rw [upd_same, upd_other _ _ (hne _), upd_same]
      simp only [BitVec.toNat_ofNat]
      omega
    · refine ⟨rfl, ?_⟩
      rw [valueAt_two]
      show ((upd (upd vm.rs vm.rsp _) (vm.rsp + 1) _) vm.rsp).toNat * 256 +
        ((upd (upd vm.rs vm.rsp _) (vm.rsp + 1) _) (vm.rsp + 1)).toNat = x
      rw [upd_same, upd_other _ _ (hne _), upd_same]
      simp only [BitVec.toNat_ofNat]
      omega
  · rename_i h
    rw [if_neg h]
    cases r
    · refine ⟨rfl, ?_⟩
      rw [valueAt_one]
      show ((upd vm.ws vm.wsp _) vm.wsp).toNat = x
      rw [upd_same]
      simp only [BitVec.toNat_ofNat]
      omega
    · refine ⟨rfl, ?_⟩
      rw [valueAt_one]
      show ((upd vm.rs vm.rsp _) vm.rsp).toNat = x
      rw [upd_same]
      simp only [BitVec.toNat_ofNat]
      omega

theorem pushValue_below (r : Bool) (v : Value) (x : Nat) (vm : VM) (i : Nat) (h1 : 1 ≤ i) (h2 : i + v.size ≤ 256) :
    stack r (pushValue r v.size x vm) (ptr r vm - BitVec.ofNat 8 i) = stack r vm (ptr r vm - BitVec.ofNat 8 i) := by
  have hne : ∀ k, i + k < 256 → ptr r vm - BitVec.ofNat 8 i ≠ ptr r vm + BitVec.ofNat 8 k := by
    intro k hk e
    have e' : (ptr r vm - BitVec.ofNat 8 i).toNat = (ptr r vm + BitVec.ofNat 8 k).toNat := by rw [e]
    rw [BitVec.toNat_sub, BitVec.toNat_add] at e'
    simp only [BitVec.toNat_ofNat] at e'
    have := (ptr r vm).isLt
    omega
  rw [size_width] at *
  have := Buxn.VM.pushValue_cell r v.short x vm (ptr r vm - BitVec.ofNat 8 i) (by
    have := hne 0 (by unfold width at h2; split at h2 <;> omega)
    simpa using this)
  exact this (fun hs => hne 1 (by rw [hs] at h2; unfold width at h2; simp at h2; omega))

/-- A push on a described stack. -/
theorem Describes.push {E : Env} {r : Bool} {vm : VM} {base : Byte} {vs : List Value}
    (hd : Describes E (stack r vm) base vs (ptr r vm)) {v : Value} {x : Nat} (hx : x < 256 ^ v.size)
    (hst : Stands E v x) (hfit : total vs + v.size ≤ 256) :
    Describes E (stack r (pushValue r v.size x vm)) base (v :: vs) (ptr r (pushValue r v.size x vm)) := by
  obtain ⟨hp, hv⟩ := pushValue_value r v x vm hx
  rw [hp]
  refine ⟨?_, ?_⟩
  · rw [byte_add_sub, hv]; exact hst
  · rw [byte_add_sub]
    refine hd.congr ?_
    intro i h1 h2
    rw [pushValue_below r v x vm i h1 (by omega)]

/-- Pushing the low half on the high half of the same number. -/
theorem Describes.join {E : Env} {stk : Byte → Byte} {base p : Byte} {hi lo t : Value} {vs : List Value} {n : Nat}
    (hd : Describes E stk base (lo :: hi :: vs) p) (h1 : hi.short = false) (h2 : lo.short = false)
    (h3 : hi.halfHi = true) (h4 : lo.halfLo = true) (h5 : hi.whole = some n) (h6 : lo.whole = some n)
    (ht : Stands E t (E.node n)) (hs : t.short = true) : Describes E stk base (t :: vs) p := by
  obtain ⟨a, b, c⟩ := hd
  have z1 := (size_eq_one hi).mpr h1
  have z2 := (size_eq_one lo).mpr h2
  have z := (size_eq_two t).mpr hs
  obtain ⟨k, hk, ha⟩ := a.low h4
  obtain ⟨k', hk', hb⟩ := b.high h3
  rw [h6, Option.some.injEq] at hk
  rw [h5, Option.some.injEq] at hk'
  subst hk; subst hk'
  rw [z2] at ha hb c
  rw [z1] at hb c
  refine ⟨?_, ?_⟩
  · rw [z, cells_two, ha, hb]
    have : E.node n / 256 * 256 + E.node n % 256 = E.node n := by omega
    rw [this]
    exact ht
  · rw [z, ← byte_sub_sub p 1 1]; exact c

theorem setReal_stacks (r r' : Bool) (s : Stack) (c : Run) :
    (setReal r s c).stacks r' = if r' = r then s else c.stacks r' := by
  cases r <;> cases r' <;> rfl

theorem pushEx_sim {E : Env} {base : Bool → Byte} {vm : VM} {c : Run} (hsim : Sim E base vm c.stacks c.nodes)
    (hok : c.Ok) {r : Bool} {v : Value} (hv : Tidy c.nodes.fresh v) (ha : Alive c.nodes v) {x : Nat} (hx : x < 256 ^ v.size)
    (hst : Stands E v x) (ht : c.terminated = false) (hfit : (realStack r c).size.toNat + v.size ≤ 255) :
    Sim E base (pushValue r v.size x vm) (pushEx r v c).stacks (pushEx r v c).nodes := by
  have hm := hok.nodes
  have hs := hok.real r
  have htot := hs.sound
  unfold Sound at htot
  have hpos := size_pos v
  have hl255 : (realStack r c).len.toNat < 255 := by have := hs.sound.len_le; omega
  have hcell : Describes E (stack r (pushValue r v.size x vm)) (base r) (v :: items (realStack r c))
      (ptr r (pushValue r v.size x vm)) := (hsim.cells r).push hx hst (show total (items (realStack r c)) + v.size ≤ 256 by omega)
  have hother : ∀ r', r' ≠ r → Describes E (stack r' (pushValue r v.size x vm)) (base r') (items (realStack r' c))
      (ptr r' (pushValue r v.size x vm)) := by
    intro r' hne
    have e : r' = !r := by cases r <;> cases r' <;> simp_all
    subst e
    obtain ⟨h1, h2⟩ := Buxn.VM.pushValue_other r v.size x vm
    rw [h1, h2]
    exact hsim.cells (!r)
  have fin : ∀ s' : Stack, Describes E (stack r (pushValue r v.size x vm)) (base r) (items s')
      (ptr r (pushValue r v.size x vm)) → (∀ w ∈ items s', Alive c.nodes w) →
      Sim E base (pushValue r v.size x vm) (setReal r s' c).stacks (setReal r s' c).nodes := by
    intro s' h1 h2
    rw [setReal_nodes]
    refine ⟨hsim.meaning, ?_, ?_⟩
    · intro r'
      rw [setReal_stacks]
      by_cases e : r' = r
      · rw [if_pos e]; subst e; exact h1
      · rw [if_neg e]; exact hother r' e
    · intro r'
      rw [setReal_stacks]
      by_cases e : r' = r
      · rw [if_pos e]; exact h2
      · rw [if_neg e]; exact hsim.alive r'
  unfold pushEx
  rw [if_neg (by rw [ht]; simp)]
  dsimp only
  have hc : ({ c with wrapped := c.wrapped || decide ((realStack r c).size.toNat + v.size = 256) } : Run) = c := by
    rw [show decide ((realStack r c).size.toNat + v.size = 256) = false from decide_eq_false (by omega), Bool.or_false]
  rw [hc]
  clear hc
  have halive := hsim.alive r
  unfold Run.stacks at halive
  generalize hsE : realStack r c = s at *
  rw [if_neg (by omega)]
  by_cases hmerge : (v.halfLo && (if 0 < s.len.toNat then top s else {}).halfHi &&
      ((if 0 < s.len.toNat then top s else {}).whole == v.whole)) = true
  · rw [if_pos hmerge]
    simp only [Bool.and_eq_true, beq_iff_eq] at hmerge
    obtain ⟨⟨hlo, hhi⟩, hw⟩ := hmerge
    by_cases hpos : 0 < s.len.toNat
    · rw [if_pos hpos] at hhi hw ⊢
      have hl : s.len ≠ 0 := fun e => by rw [e] at hpos; simp at hpos
      have hi := items_pos hl
      have htop := hs.tidy (top s) (by rw [hi]; exact List.mem_cons_self)
      obtain ⟨n, hmem, hn⟩ := halive (top s) (by rw [hi]; exact List.mem_cons_self) (.inl hhi)
      rw [hn]
      dsimp only
      have hvs : v.short = false := by
        by_contra hc
        have := (hv.whole_short (by simpa using hc)).2
        rw [hlo] at this; cases this
      have hts : (top s).short = false := by
        by_contra hc
        have := (htop.whole_short (by simpa using hc)).1
        rw [hhi] at this; cases this
      have hsh := (hm.shorts n (hm.taken n hmem))
      apply fin
      · rw [items_replace hl]
        rw [hi] at hcell
        exact hcell.join hts hvs hhi hlo hn (by rw [← hw, hn]) (hsim.meaning n hmem).2 hsh.1
      · rw [items_replace hl]
        intro w hw'
        rcases List.mem_cons.mp hw' with e | hw'
        · rw [e]; exact .whole _ (hsh.2.whole_short hsh.1).1 (hsh.2.whole_short hsh.1).2
        · exact halive w (by rw [hi]; exact List.mem_cons_of_mem _ hw')
    · rw [if_neg hpos] at hhi
      cases hhi
  · rw [if_neg hmerge]
    apply fin
    · rw [items_push hl255]; exact hcell
    · rw [items_push hl255]
      intro w hw'
      rcases List.mem_cons.mp hw' with e | hw'
      · rw [e]; exact ha
      · exact halive w hw'

/-- Pushing several numbers. -/
def pushNumbers (r : Bool) (vs : List Value) (xs : List Nat) (vm : VM) : VM :=
  (vs.zip xs).foldl (fun vm a => pushValue r a.1.size a.2 vm) vm

theorem pushAll_sim (r : Bool) (E : Env) (base : Bool → Byte) : ∀ (vs : List Value) (xs : List Nat) (vm : VM) (c : Run),
    Sim E base vm c.stacks c.nodes → c.Ok → c.terminated = false → (∀ v ∈ vs, Tidy c.nodes.fresh v) →
    (∀ v ∈ vs, Alive c.nodes v) → List.Forall₂ (fun v x => x < 256 ^ v.size ∧ Stands E v x) vs xs →
    (realStack r c).size.toNat + total vs ≤ 255 →
    Sim E base (pushNumbers r vs xs vm) (pushAll r vs c).stacks (pushAll r vs c).nodes
  | [], _, vm, c, hsim, _, _, _, _, hf, _ => by cases hf; exact hsim
  | v :: vs, _, vm, c, hsim, hok, ht, hv, ha, hf, hsz => by
    cases hf with
    | cons h1 h2 =>
      rename_i x xs
      rw [total_cons] at hsz
      obtain ⟨s1, e1, p1⟩ := pushEx_ok hok.nodes (hok.real r) (hv v List.mem_cons_self) ht (by omega)
      have hsz1 := p1.size
      have hs1 := pushEx_sim hsim hok (hv v List.mem_cons_self) (ha v List.mem_cons_self) h1.1 h1.2 ht (r := r) (by omega)
      rw [pushAll_cons]
      rw [e1] at hs1 ⊢
      have hn : (setReal r s1 c).nodes = c.nodes := setReal_nodes _ _ _
      refine pushAll_sim r E base vs xs (pushValue r v.size x vm) (setReal r s1 c) hs1 ?_ (by rw [setReal_terminated]; exact ht)
        (by rw [hn]; exact fun w hw => hv w (List.mem_cons_of_mem _ hw))
        (by rw [hn]; exact fun w hw => ha w (List.mem_cons_of_mem _ hw)) h2 (by rw [setReal_realStack]; omega)
      exact Run.Ok.of_real (by rw [hn]; exact hok.nodes) r (by rw [setReal_realStack, hn]; exact p1.stack)
        (by rw [setReal_other, hn]; exact hok.real (!r))

end Buxn.Chess
