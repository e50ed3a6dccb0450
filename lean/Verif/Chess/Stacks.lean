import Verif.Chess.Spec
import Mathlib.Tactic.Linarith
/-!
# Pushing and popping on simulated stacks
-/

namespace Buxn.Chess

open Buxn.Asm (Str)

/-! ## Cells -/

theorem ofNat8_ne {i j : Nat} (hi : i < 256) (hj : j < 256) (h : i ≠ j) : BitVec.ofNat 8 i ≠ BitVec.ofNat 8 j := by
  intro e
  apply h
  have := congrArg BitVec.toNat e
  simp only [BitVec.toNat_ofNat] at this
  omega

theorem below_upd_ge {α : Type} (f : Byte → α) (v : α) (n : Nat) : ∀ k, k ≤ n → n < 256 →
    below (upd f (BitVec.ofNat 8 n) v) k = below f k
  | 0, _, _ => rfl
  | k + 1, hk, hn => by
    rw [below, below, below_upd_ge f v n k (by omega) hn, upd_other]
    exact ofNat8_ne (by omega) hn (by omega)

theorem below_length {α : Type} (f : Byte → α) : ∀ n, (below f n).length = n
  | 0 => rfl
  | n + 1 => by rw [below, List.length_cons, below_length]

theorem total_cons (v : Value) (l : List Value) : total (v :: l) = v.size + total l := by simp [total]
theorem total_nil : total [] = 0 := rfl

theorem size_pos (v : Value) : 1 ≤ v.size := by unfold Value.size; split <;> omega
theorem size_le (v : Value) : v.size ≤ 2 := by unfold Value.size; split <;> omega
theorem size_eq_two (v : Value) : v.size = 2 ↔ v.short = true := by unfold Value.size; split <;> simp_all
theorem size_eq_one (v : Value) : v.size = 1 ↔ v.short = false := by unfold Value.size; split <;> simp_all

theorem length_le_total : ∀ l : List Value, l.length ≤ total l
  | [] => le_refl _
  | v :: l => by have := length_le_total l; have := size_pos v; rw [total_cons, List.length_cons]; omega

theorem Sound.len_le {s : Stack} (h : Sound s) : s.len.toNat ≤ s.size.toNat := by
  have := length_le_total (items s)
  rw [items, below_length] at this
  rw [h]; exact this

/-- A stack with something on it. -/
theorem items_pos {s : Stack} (h : s.len ≠ 0) :
    items s = top s :: below s.content (s.len - 1).toNat := by
  have h1 : s.len.toNat = (s.len - 1).toNat + 1 := by
    have : s.len.toNat ≠ 0 := fun e => h (BitVec.eq_of_toNat_eq (by simpa using e))
    rw [BitVec.toNat_sub]
    have := s.len.isLt
    rw [show (1 : Byte).toNat = 1 from rfl]
    omega
  unfold items top
  have e : BitVec.ofNat 8 (s.len - 1).toNat = s.len - 1 := by
    apply BitVec.eq_of_toNat_eq
    simp
  rw [h1, below, e]

theorem len_ne_zero {s : Stack} (h : Sound s) (h1 : 1 ≤ s.size.toNat) : s.len ≠ 0 := by
  intro e
  have : items s = [] := by unfold items; rw [e]; rfl
  rw [h, this, total_nil] at h1
  omega

theorem toNat_sub_byte (a b : Byte) (h : b.toNat ≤ a.toNat) : (a - b).toNat = a.toNat - b.toNat := by
  rw [BitVec.toNat_sub]
  have := a.isLt
  have := b.isLt
  omega

theorem toNat_add_byte (a : Byte) (n : Nat) (h : a.toNat + n < 256) : (a + BitVec.ofNat 8 n).toNat = a.toNat + n := by
  rw [BitVec.toNat_add, BitVec.toNat_ofNat]
  omega

/-- Taking the top value off. -/
theorem items_drop (s : Stack) (sz : Byte) :
    items { s with len := s.len - 1, size := sz } = below s.content (s.len - 1).toNat := rfl

/-- Replacing the top value. -/
theorem items_replace {s : Stack} (h : s.len ≠ 0) (v : Value) (sz : Byte) :
    items { s with content := upd s.content (s.len - 1) v, size := sz } = v :: below s.content (s.len - 1).toNat := by
  have := items_pos (s := { s with content := upd s.content (s.len - 1) v, size := sz }) h
  rw [this]
  unfold top
  dsimp only
  rw [upd_same]
  have e : s.len - 1 = BitVec.ofNat 8 (s.len - 1).toNat := by
    apply BitVec.eq_of_toNat_eq
    simp
  have := below_upd_ge s.content v (s.len - 1).toNat (s.len - 1).toNat (le_refl _) (s.len - 1).isLt
  rw [← e] at this
  rw [this]

/-- Putting a value on top. -/
theorem items_push {s : Stack} (h : s.len.toNat < 255) (v : Value) (sz : Byte) :
    items { len := s.len + 1, size := sz, content := upd s.content s.len v } = v :: items s := by
  unfold items
  dsimp only
  have h1 : (s.len + 1).toNat = s.len.toNat + 1 := by
    rw [BitVec.toNat_add, show (1 : Byte).toNat = 1 from rfl]
    omega
  have e : BitVec.ofNat 8 s.len.toNat = s.len := by
    apply BitVec.eq_of_toNat_eq
    simp
  rw [h1, below, e, upd_same]
  congr 1
  conv_lhs => rw [← e]
  rw [e]
  have := below_upd_ge s.content v s.len.toNat s.len.toNat (le_refl _) (by omega)
  rwa [e] at this

/-! ## Nodes -/

theorem Tidy.mono {f f' : Nat} (h : f ≤ f') {v : Value} (ht : Tidy f v) : Tidy f' v :=
  ⟨ht.whole_short, fun hh => by obtain ⟨n, e, hn⟩ := ht.known hh; exact ⟨n, e, by omega⟩⟩

theorem Plain.tidy {v : Value} (h : Plain v) (f : Nat) : Tidy f v :=
  ⟨fun _ => ⟨h.2.2.2.2.1, h.2.2.2.2.2.1⟩, fun hh => by
    rcases hh with hh | hh
    · rw [h.2.2.2.2.1] at hh; cases hh
    · rw [h.2.2.2.2.2.1] at hh; cases hh⟩

/-- Filling a node. -/
theorem take_ok {m : Nodes} (hm : m.Ok) {v : Value} (hs : v.short = true) (hv : Tidy m.fresh v) :
    (m.take v).2.Ok ∧ m.fresh ≤ (m.take v).2.fresh ∧ (m.take v).1 < (m.take v).2.fresh := by
  unfold Nodes.take
  rcases hp : m.pool with _ | ⟨n, pool⟩
  · dsimp only
    have hd := hm.distinct
    rw [hp, List.nil_append] at hd
    refine ⟨⟨?_, ?_, ?_, ?_⟩, by omega, by omega⟩
    · show (m.fresh :: m.taken).Nodup
      exact List.nodup_cons.mpr ⟨fun hin => absurd (hm.taken _ hin) (Nat.lt_irrefl _), hd⟩
    · exact fun n h => by cases h
    · intro k hk
      dsimp only at hk ⊢
      rcases List.mem_cons.mp hk with e | hk
      · omega
      · have := hm.taken k hk; omega
    · intro k hk
      dsimp only at hk ⊢
      by_cases e : k = m.fresh
      · rw [e, upd_same]; exact ⟨hs, hv.mono (by omega)⟩
      · rw [upd_other _ _ e]
        have := hm.shorts k (by omega)
        exact ⟨this.1, this.2.mono (by omega)⟩
  · dsimp only
    have hn := hm.pool n (by rw [hp]; exact List.mem_cons_self)
    have hd := hm.distinct
    rw [hp] at hd
    refine ⟨⟨?_, ?_, ?_, ?_⟩, le_refl _, hn⟩
    · exact (List.perm_middle (l₁ := pool) (l₂ := m.taken) (a := n)).nodup_iff.mpr hd
    · intro k hk
      exact hm.pool k (by rw [hp]; exact List.mem_cons_of_mem _ hk)
    · intro k hk
      rcases List.mem_cons.mp hk with e | hk
      · rw [e]; exact hn
      · exact hm.taken k hk
    · intro k hk
      dsimp only at hk ⊢
      by_cases e : k = n
      · rw [e, upd_same]; exact ⟨hs, hv⟩
      · rw [upd_other _ _ e]; exact hm.shorts k hk

/-! ## Popping -/

/-- What popping does to a stack and to the nodes when there are enough bytes. -/
structure Popped (short : Bool) (s : Stack) (m : Nodes) (v : Value) (s' : Stack) (m' : Nodes) : Prop where
  short_eq : v.short = short
  value : Tidy m'.fresh v
  stack : s'.Ok m'
  nodes : m'.Ok
  size : s'.size.toNat + v.size = s.size.toNat
  fresh : m.fresh ≤ m'.fresh

theorem touchTop_ok {s : Stack} (h : s.len ≠ 0) (c : Run) : touchTop s c = c := by
  unfold touchTop; rw [if_neg h]

theorem lowHalf_tidy {n f : Nat} (h : n < f) (v : Value) : Tidy f (lowHalf n v) :=
  ⟨fun h => (by cases h), fun _ => ⟨n, rfl, h⟩⟩

theorem highHalf_tidy {n f : Nat} (h : n < f) (v : Value) : Tidy f (highHalf n v) :=
  ⟨fun h => (by cases h), fun _ => ⟨n, rfl, h⟩⟩

theorem popByte_ok {s : Stack} {c : Run} (hm : c.nodes.Ok) (hs : s.Ok c.nodes) (h : 1 ≤ s.size.toNat) :
    ∃ v s' m', popByte s c = (v, s', { c with nodes := m' }) ∧ Popped false s c.nodes v s' m' := by
  have hl := len_ne_zero hs.sound h
  have hi := items_pos hl
  have htot := hs.sound
  unfold Sound at htot
  rw [hi, total_cons] at htot
  have htop : Tidy c.nodes.fresh (top s) := hs.tidy _ (by rw [hi]; exact List.mem_cons_self)
  have hrest : ∀ v ∈ below s.content (s.len - 1).toNat, Tidy c.nodes.fresh v :=
    fun v hv => hs.tidy v (by rw [hi]; exact List.mem_cons_of_mem _ hv)
  have hsz : (s.size - 1).toNat = s.size.toNat - 1 :=
    toNat_sub_byte _ _ h
  unfold popByte
  rw [if_neg (by omega)]
  dsimp only
  rw [touchTop_ok hl]
  by_cases h1 : (top s).size = 1
  · rw [if_pos h1]
    refine ⟨_, _, c.nodes, rfl, ⟨(size_eq_one _).mp h1, htop, ⟨?_, ?_⟩, hm, ?_, le_refl _⟩⟩
    · unfold Sound
      rw [items_drop]
      dsimp only
      rw [hsz]
      omega
    · rw [items_drop]; exact hrest
    · dsimp only
      omega
  · rw [if_neg h1]
    have h2 : (top s).size = 2 := by have := size_pos (top s); have := size_le (top s); omega
    have hsh := (size_eq_two _).mp h2
    obtain ⟨hm', hf, hn⟩ := take_ok hm hsh htop
    refine ⟨_, _, (c.nodes.take (top s)).2, rfl, ⟨rfl, lowHalf_tidy hn _, ⟨?_, ?_⟩, hm', ?_, hf⟩⟩
    · unfold Sound
      rw [items_replace hl]
      dsimp only
      rw [hsz, total_cons]
      have : (highHalf (c.nodes.take (top s)).1 (top s)).size = 1 := rfl
      omega
    · rw [items_replace hl]
      intro v hv
      rcases List.mem_cons.mp hv with e | hv
      · rw [e]; exact highHalf_tidy hn _
      · exact (hrest v hv).mono hf
    · dsimp only
      have : (lowHalf (c.nodes.take (top s)).1 (top s)).size = 1 := rfl
      omega

theorem merge_tidy (f : Nat) (a b : Value) : Tidy f (merge a b) :=
  ⟨fun _ => ⟨rfl, rfl⟩, fun h => by rcases h with h | h <;> cases h⟩

theorem popShort_ok {s : Stack} {c : Run} (hm : c.nodes.Ok) (hs : s.Ok c.nodes) (h : 2 ≤ s.size.toNat) :
    ∃ v s' m', popShort s c = (v, s', { c with nodes := m' }) ∧ Popped true s c.nodes v s' m' := by
  have hl := len_ne_zero hs.sound (by omega)
  have hi := items_pos hl
  have htot := hs.sound
  unfold Sound at htot
  rw [hi, total_cons] at htot
  have htop : Tidy c.nodes.fresh (top s) := hs.tidy _ (by rw [hi]; exact List.mem_cons_self)
  unfold popShort
  rw [if_neg (by omega)]
  dsimp only
  rw [touchTop_ok hl]
  by_cases h2 : (top s).size = 2
  · rw [if_pos h2]
    have hsz : (s.size - 2).toNat = s.size.toNat - 2 := toNat_sub_byte _ _ h
    refine ⟨_, _, c.nodes, rfl, ⟨(size_eq_two _).mp h2, htop, ⟨?_, ?_⟩, hm, ?_, le_refl _⟩⟩
    · unfold Sound
      rw [items_drop]
      dsimp only
      rw [hsz]
      omega
    · rw [items_drop]
      exact fun v hv => hs.tidy v (by rw [hi]; exact List.mem_cons_of_mem _ hv)
    · dsimp only
      omega
  · rw [if_neg h2]
    have h1 : (top s).size = 1 := by have := size_pos (top s); have := size_le (top s); omega
    have hlen : ¬ s.len.toNat < 2 := by
      intro hlt
      have : s.len.toNat ≠ 0 := fun e => hl (BitVec.eq_of_toNat_eq (by simpa using e))
      have e1 : (s.len - 1).toNat = 0 := by
        rw [toNat_sub_byte _ _ (by rw [show (1 : Byte).toNat = 1 from rfl]; omega)]
        rw [show (1 : Byte).toNat = 1 from rfl]; omega
      rw [e1] at htot
      have : total (below s.content 0) = 0 := rfl
      omega
    rw [if_neg hlen]
    obtain ⟨lo, s1, m1, e1, p1⟩ := popByte_ok hm hs (by omega)
    rw [e1]
    dsimp only
    have hz : lo.size = 1 := (size_eq_one _).mpr p1.short_eq
    have hsize1 := p1.size
    obtain ⟨hi', s2, m2, e2, p2⟩ := popByte_ok (c := { c with nodes := m1 }) (s := s1) p1.nodes p1.stack (by omega)
    rw [e2]
    have hz2 : hi'.size = 1 := (size_eq_one _).mpr p2.short_eq
    have hsize2 := p2.size
    refine ⟨_, _, m2, rfl, ⟨rfl, merge_tidy _ _ _, p2.stack, p2.nodes, ?_, le_trans p1.fresh p2.fresh⟩⟩
    have : (merge hi' lo).size = 2 := rfl
    dsimp only
    omega

/-- The number of bytes of an operand. -/
def width (short : Bool) : Nat := if short then 2 else 1

theorem popFrom_ok {s : Stack} {short : Bool} {c : Run} (hm : c.nodes.Ok) (hs : s.Ok c.nodes)
    (h : width short ≤ s.size.toNat) :
    ∃ v s' m', popFrom s short c = (v, s', { c with nodes := m' }) ∧ Popped short s c.nodes v s' m' := by
  unfold popFrom
  cases short
  · exact popByte_ok hm hs h
  · exact popShort_ok hm hs h

theorem popFrom_underflow {s : Stack} {short : Bool} (c : Run) (h : s.size.toNat < width short) :
    popFrom s short c = (valueError, s, error .underflow c) := by
  unfold popFrom
  cases short
  · unfold popByte
    rw [if_neg (by simp), if_pos (by simpa [width] using h)]
  · unfold popShort
    rw [if_pos rfl, if_pos (by simpa [width] using h)]

/-! ## Pushing -/

/-- What pushing does to a stack. -/
structure Pushed (v : Value) (s : Stack) (m : Nodes) (s' : Stack) : Prop where
  stack : s'.Ok m
  size : s'.size.toNat = s.size.toNat + v.size

theorem rawPush_ok {s : Stack} {m : Nodes} {v : Value} (hs : s.Ok m) (hv : Tidy m.fresh v)
    (h : s.size.toNat + v.size ≤ 255) : Pushed v s m (rawPush s v) := by
  have hp := size_pos v
  have hl : s.len.toNat < 255 := by have := hs.sound.len_le; omega
  have hsz : (s.size + BitVec.ofNat 8 v.size).toNat = s.size.toNat + v.size := toNat_add_byte _ _ (by omega)
  unfold rawPush
  refine ⟨⟨?_, ?_⟩, hsz⟩
  · unfold Sound
    rw [items_push hl, total_cons]
    dsimp only
    rw [hsz, hs.sound]
    omega
  · rw [items_push hl]
    intro w hw
    rcases List.mem_cons.mp hw with e | hw
    · rw [e]; exact hv
    · exact hs.tidy w hw

theorem pushEx_ok {r : Bool} {v : Value} {c : Run} (hm : c.nodes.Ok) (hs : (realStack r c).Ok c.nodes)
    (hv : Tidy c.nodes.fresh v) (ht : c.terminated = false) (h : (realStack r c).size.toNat + v.size ≤ 255) :
    ∃ s', pushEx r v c = setReal r s' c ∧ Pushed v (realStack r c) c.nodes s' := by
  unfold pushEx
  rw [if_neg (by rw [ht]; simp)]
  dsimp only
  have hc : ({ c with wrapped := c.wrapped || decide ((realStack r c).size.toNat + v.size = 256) } : Run) = c := by
    rw [show decide ((realStack r c).size.toNat + v.size = 256) = false from decide_eq_false (by omega), Bool.or_false]
  rw [hc]
  clear hc
  generalize hsE : realStack r c = s at *
  rw [if_neg (by omega)]
  by_cases hmerge : (v.halfLo && (if 0 < s.len.toNat then top s else {}).halfHi &&
      ((if 0 < s.len.toNat then top s else {}).whole == v.whole)) = true
  · rw [if_pos hmerge]
    simp only [Bool.and_eq_true, beq_iff_eq] at hmerge
    obtain ⟨⟨hlo, hhi⟩, hw⟩ := hmerge
    by_cases hpos : 0 < s.len.toNat
    · rw [if_pos hpos] at hhi hw ⊢
      have hl : s.len ≠ 0 := fun e => by rw [e] at hpos; simp at hpos
      have hi := items_pos hl
      have htop := hs.tidy (top s) (by rw [hi]; exact List.mem_cons_self)
      obtain ⟨n, hn, hlt⟩ := htop.known (Or.inl hhi)
      rw [hn]
      dsimp only
      have hvs : v.short = false := by
        by_contra hc
        have := (hv.whole_short (by simpa using hc)).2
        rw [hlo] at this; cases this
      have hts : (top s).short = false := by
        by_contra hc
        have := (htop.whole_short (by simpa using hc)).1
        rw [hhi] at this; cases this
      have h1 := (size_eq_one _).mpr hvs
      have h1t := (size_eq_one _).mpr hts
      obtain ⟨hsh, htd⟩ := hm.shorts n hlt
      have h2 := (size_eq_two _).mpr hsh
      have hsz : (s.size + 1).toNat = s.size.toNat + 1 := by
        rw [BitVec.toNat_add, show (1 : Byte).toNat = 1 from rfl]; omega
      refine ⟨_, rfl, ⟨?_, ?_⟩, by dsimp only; omega⟩
      · unfold Sound
        rw [items_replace hl, total_cons]
        have := hs.sound
        unfold Sound at this
        rw [hi, total_cons] at this
        dsimp only
        omega
      · rw [items_replace hl]
        intro w hw'
        rcases List.mem_cons.mp hw' with e | hw'
        · rw [e]; exact htd
        · exact hs.tidy w (by rw [hi]; exact List.mem_cons_of_mem _ hw')
    · rw [if_neg hpos] at hhi
      cases hhi
  · rw [if_neg hmerge]
    exact ⟨_, rfl, rawPush_ok hs hv h⟩

/-- A push is refused exactly when a short does not fit in the one byte that is left. -/
theorem pushEx_overflow {r : Bool} {v : Value} {c : Run} (ht : c.terminated = false)
    (h : 256 < (realStack r c).size.toNat + v.size) : pushEx r v c = error .overflow c := by
  unfold pushEx
  rw [if_neg (by rw [ht]; simp)]
  dsimp only
  rw [if_pos (by omega)]

theorem pushEx_terminated {r : Bool} {v : Value} {c : Run} (ht : c.terminated = true) : pushEx r v c = c := by
  unfold pushEx
  rw [if_pos ht]

end Buxn.Chess
