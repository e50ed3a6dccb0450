import Verif.Chess.Tags
/-!
# C84: the checker knows no more than the tags say
-/

namespace Buxn.Chess.Types

open Buxn.Asm (Str SymType)
open Buxn.VM (Instr Op dispatch)
open Buxn.VM.Spec (operandSizes)

/-! ## Marks -/

theorem mark_length (n : Nat) (h : n = 1 ∨ n = 2) (U : Option Str) (a : Bool) : (mark n U a).length = n := by
  rcases h with rfl | rfl <;> rfl

theorem mark_address (n : Nat) (U : Option Str) (a : Bool) : ∀ t ∈ mark n U a, t.address = a := by
  unfold mark
  split <;> simp

theorem mark_of (n : Nat) (h : n = 1 ∨ n = 2) (U : Str) (a : Bool) : Of U (mark n (some U) a) := by
  rcases h with rfl | rfl <;> rfl

theorem size_if (v : Value) : v.size = if v.short then 2 else 1 := rfl

theorem size_cases (v : Value) : v.size = 1 ∨ v.size = 2 := by unfold Value.size; split <;> simp

theorem isAddr_iff (g : List Tag) : isAddr g = true ↔ ∀ t ∈ g, t.address = true := by
  unfold isAddr; rw [List.all_eq_true]

theorem bytes_total (vs : List Value) : bytes vs = total vs := rfl

theorem pile_nil (ts : List Tag) : pile [] ts = ts := rfl
theorem pile_cons (g : List Tag) (gs : List (List Tag)) (ts : List Tag) : pile (g :: gs) ts = pile gs (g ++ ts) := rfl

theorem pile_eq : ∀ (gs : List (List Tag)) (ts : List Tag), pile gs ts = gs.reverse.flatten ++ ts
  | [], ts => rfl
  | g :: gs, ts => by rw [pile_cons, pile_eq gs]; simp

/-! ## What the checker may claim -/

/-- The byte is that half of a short about which the checker claims something. -/
structure HalfOf (w : Value) (p : Part) (t : Tag) : Prop where
  typed : w.nominal = true → t.type = some (w.type, p)
  addr : w.address = true → t.address = true

/-- What the checker claims about a value is true of its bytes. -/
structure Vouched (m : Nodes) (v : Value) (g : List Tag) : Prop where
  size : g.length = v.size
  typed : v.nominal = true → Of v.type g
  addr : v.address = true → ∀ t ∈ g, t.address = true
  high : v.halfHi = true → ∃ n ∈ m.taken, v.whole = some n ∧ ∀ t ∈ g, HalfOf (m.heap n) .high t
  low : v.halfLo = true → ∃ n ∈ m.taken, v.whole = some n ∧ ∀ t ∈ g, HalfOf (m.heap n) .low t

/-- The same for all values on a stack. -/
def Tells (m : Nodes) : List Value → List Tag → Prop
  | [], ts => ts = []
  | v :: vs, ts => ∃ g rest, ts = g ++ rest ∧ Vouched m v g ∧ Tells m vs rest

/-- The nodes in use are still in use and hold what they held. -/
def Keeps (m m' : Nodes) : Prop := ∀ n ∈ m.taken, n ∈ m'.taken ∧ m'.heap n = m.heap n

theorem Keeps.refl (m : Nodes) : Keeps m m := fun _ h => ⟨h, rfl⟩

theorem Keeps.trans {a b c : Nodes} (h : Keeps a b) (h' : Keeps b c) : Keeps a c := by
  intro n hn
  obtain ⟨h1, h2⟩ := h n hn
  obtain ⟨h3, h4⟩ := h' n h1
  exact ⟨h3, h4.trans h2⟩

theorem Vouched.grow {m m' : Nodes} (h : Keeps m m') {v : Value} {g : List Tag} (hv : Vouched m v g) : Vouched m' v g := by
  refine ⟨hv.size, hv.typed, hv.addr, fun hh => ?_, fun hh => ?_⟩
  · obtain ⟨n, h1, h2, h3⟩ := hv.high hh
    obtain ⟨k1, k2⟩ := h n h1
    exact ⟨n, k1, h2, by rw [k2]; exact h3⟩
  · obtain ⟨n, h1, h2, h3⟩ := hv.low hh
    obtain ⟨k1, k2⟩ := h n h1
    exact ⟨n, k1, h2, by rw [k2]; exact h3⟩

theorem Tells.grow {m m' : Nodes} (h : Keeps m m') : ∀ {vs : List Value} {ts : List Tag}, Tells m vs ts → Tells m' vs ts
  | [], _, ht => ht
  | _ :: _, _, ⟨g, rest, e, h1, h2⟩ => ⟨g, rest, e, h1.grow h, Tells.grow h h2⟩

/-- A value without halves and without claims can stand for anything of its size. -/
theorem Vouched.whole (m : Nodes) {v : Value} {g : List Tag} (h0 : g.length = v.size) (h1 : v.nominal = true → Of v.type g)
    (h2 : v.address = true → ∀ t ∈ g, t.address = true) (h3 : v.halfHi = false) (h4 : v.halfLo = false) : Vouched m v g :=
  ⟨h0, h1, h2, fun h => (by rw [h3] at h; cases h), fun h => (by rw [h4] at h; cases h)⟩

theorem Vouched.mark (m : Nodes) {v : Value} {n : Nat} {a : Bool} (hn : n = v.size) (h1 : v.nominal = false)
    (h2 : v.address = true → a = true) (h3 : v.halfHi = false) (h4 : v.halfLo = false) : Vouched m v (Types.mark n none a) := by
  refine .whole m ?_ (fun h => (by rw [h1] at h; cases h)) (fun h t ht => ?_) h3 h4
  · subst hn
    exact mark_length _ (size_cases v) _ _
  · rw [mark_address _ _ _ t ht]; exact h2 h

/-- What a declaration says about a value, the checker may claim. -/
theorem Vouched.declared (m : Nodes) {v : Value} (h3 : v.halfHi = false) (h4 : v.halfLo = false) :
    Vouched m v (Types.declared v) := by
  unfold Types.declared
  rw [← size_if]
  refine .whole m (mark_length _ (size_cases v) _ _) (fun h => ?_) (fun h t ht => ?_) h3 h4
  · rw [if_pos h]; exact mark_of _ (size_cases v) _ _
  · rw [mark_address _ _ _ t ht]; exact h

theorem declared_length (v : Value) : (declared v).length = v.size := mark_length _ (size_cases v) _ _

/-! ## Popping -/

/-- What a pop does. -/
structure PopTells (m : Nodes) (ts : List Tag) (vs : List Value) (s' : Stack) (m' : Nodes) : Prop where
  keeps : Keeps m m'
  tells : ∃ gs rest, ts = gs.flatten ++ rest ∧ List.Forall₂ (Vouched m') vs gs ∧ Tells m' (items s') rest

theorem length_two {α : Type} {g : List α} (h : g.length = 2) : ∃ a b, g = [a, b] := by
  match g, h with
  | [a, b], _ => exact ⟨a, b, rfl⟩

theorem length_one {α : Type} {g : List α} (h : g.length = 1) : ∃ a, g = [a] := by
  match g, h with
  | [a], _ => exact ⟨a, rfl⟩

theorem take_keeps {m : Nodes} (hm : m.Ok) (v : Value) : Keeps m (m.take v).2 := by
  obtain ⟨h1, h2, h3⟩ := take_taken hm v
  intro n hn
  rw [h2, h3]
  exact ⟨List.mem_cons_of_mem _ hn, upd_other _ _ (fun e => h1 (e ▸ hn))⟩

theorem popByte_tells {s : Stack} {c : Run} {ts : List Tag} (hm : c.nodes.Ok) (hs : s.Ok c.nodes) (h : 1 ≤ s.size.toNat)
    (hT : Tells c.nodes (items s) ts) :
    PopTells c.nodes ts [(popByte s c).1] (popByte s c).2.1 (popByte s c).2.2.nodes := by
  have hl := len_ne_zero hs.sound h
  have hi := items_pos hl
  rw [hi] at hT
  obtain ⟨g, rest, e0, hv, hrest⟩ := hT
  unfold popByte
  rw [if_neg (by omega)]
  dsimp only
  rw [touchTop_ok hl]
  by_cases h1 : (top s).size = 1
  · rw [if_pos h1]
    have e : items { s with len := s.len - 1, size := s.size - 1 } = below s.content (s.len - 1).toNat := items_drop s _
    refine ⟨.refl _, [g], rest, by simpa using e0, .cons hv .nil, ?_⟩
    dsimp only
    rw [e]
    exact hrest
  · rw [if_neg h1]
    have h2 : (top s).size = 2 := by have := size_pos (top s); have := size_le (top s); omega
    dsimp only
    have hk := take_keeps hm (top s)
    obtain ⟨hn, htk, hheap⟩ := take_taken hm (top s)
    generalize hN : (c.nodes.take (top s)).1 = n at *
    generalize hM' : (c.nodes.take (top s)).2 = m' at *
    obtain ⟨l, r, rfl⟩ := length_two (hv.size.trans h2)
    have hof : ∀ h : (top s).nominal = true, l.type = some ((top s).type, .low) ∧ r.type = some ((top s).type, .high) := by
      intro h
      have := hv.typed h
      unfold Of mark at this
      simpa using this
    have hnode : m'.heap n = top s := by rw [hheap, upd_same]
    have hmem : n ∈ m'.taken := by rw [htk]; exact List.mem_cons_self
    have hrest' : items { s with content := upd s.content (s.len - 1) (highHalf n (top s)), size := s.size - 1 } =
        highHalf n (top s) :: below s.content (s.len - 1).toNat := items_replace hl _ _
    refine ⟨hk, [[l]], r :: rest, by simpa using e0, .cons ?_ .nil, ?_⟩
    · refine ⟨rfl, fun h => (by cases h), fun h => (by cases h), fun h => (by cases h), fun _ => ⟨n, hmem, rfl, ?_⟩⟩
      intro t ht
      rw [List.mem_singleton.mp ht, hnode]
      exact ⟨fun h => (hof h).1, fun h => hv.addr h l (by simp)⟩
    · rw [hrest']
      refine ⟨[r], rest, rfl, ⟨rfl, fun h => (by cases h), fun h => (by cases h), fun _ => ⟨n, hmem, rfl, ?_⟩,
        fun h => (by cases h)⟩, hrest.grow hk⟩
      intro t ht
      rw [List.mem_singleton.mp ht, hnode]
      exact ⟨fun h => (hof h).2, fun h => hv.addr h r (by simp)⟩

theorem popShort_tells {s : Stack} {c : Run} {ts : List Tag} (hm : c.nodes.Ok) (hs : s.Ok c.nodes) (h : 2 ≤ s.size.toNat)
    (hT : Tells c.nodes (items s) ts) :
    PopTells c.nodes ts [(popShort s c).1] (popShort s c).2.1 (popShort s c).2.2.nodes := by
  have hl := len_ne_zero hs.sound (by omega)
  have hi := items_pos hl
  unfold popShort
  rw [if_neg (by omega)]
  dsimp only
  rw [touchTop_ok hl]
  by_cases h2 : (top s).size = 2
  · rw [if_pos h2]
    rw [hi] at hT
    obtain ⟨g, rest, e0, hv, hrest⟩ := hT
    have e : items { s with len := s.len - 1, size := s.size - 2 } = below s.content (s.len - 1).toNat := items_drop s _
    refine ⟨.refl _, [g], rest, by simpa using e0, .cons hv .nil, ?_⟩
    dsimp only
    rw [e]
    exact hrest
  · rw [if_neg h2]
    have key : ∀ c : Run, c.nodes.Ok → s.Ok c.nodes → Tells c.nodes (items s) ts →
        PopTells c.nodes ts [merge (popByte (popByte s c).2.1 (popByte s c).2.2).1 (popByte s c).1]
          (popByte (popByte s c).2.1 (popByte s c).2.2).2.1
          (popByte (popByte s c).2.1 (popByte s c).2.2).2.2.nodes := by
      intro c hm hs hT
      obtain ⟨lo, s1, m1, e1, p1⟩ := popByte_ok hm hs (by omega)
      have q1 := popByte_tells hm hs (by omega) hT
      rw [e1] at q1 ⊢
      dsimp only at q1 ⊢
      have hz : lo.size = 1 := (size_eq_one _).mpr p1.short_eq
      have hsize1 := p1.size
      obtain ⟨hi', s2, m2, e2, p2⟩ := popByte_ok (c := { c with nodes := m1 }) (s := s1) p1.nodes p1.stack (by omega)
      obtain ⟨k1, gs1, rest1, f1, v1, t1⟩ := q1
      have q2 := popByte_tells (c := { c with nodes := m1 }) (s := s1) p1.nodes p1.stack (by omega) t1
      rw [e2] at q2 ⊢
      dsimp only at q2 ⊢
      have hz2 : hi'.size = 1 := (size_eq_one _).mpr p2.short_eq
      obtain ⟨k2, gs2, rest2, f2, v2, t2⟩ := q2
      cases v1 with
      | cons a1 b1 =>
        cases b1
        cases v2 with
        | cons a2 b2 =>
          cases b2
          rename_i g1 g2
          refine ⟨k1.trans k2, [g1 ++ g2], rest2, ?_, .cons ?_ .nil, t2⟩
          · rw [f1, f2]; simp
          · refine .whole _ ?_ (fun h => (by cases h)) (fun h t ht => ?_) rfl rfl
            · rw [List.length_append, a1.size, a2.size, hz, hz2]; rfl
            · have h : (hi'.address && lo.address) = true := h
              rw [Bool.and_eq_true] at h
              rcases List.mem_append.mp ht with ht | ht
              · exact a1.addr h.2 t ht
              · exact a2.addr h.1 t ht
    split
    · exact key { c with oob := true } hm hs hT
    · exact key c hm hs hT

theorem popFrom_tells {s : Stack} {b : Bool} {c : Run} {ts : List Tag} (hm : c.nodes.Ok) (hs : s.Ok c.nodes)
    (h : width b ≤ s.size.toNat) (hT : Tells c.nodes (items s) ts) :
    PopTells c.nodes ts [(popFrom s b c).1] (popFrom s b c).2.1 (popFrom s b c).2.2.nodes := by
  unfold popFrom
  cases b
  · exact popByte_tells hm hs h hT
  · exact popShort_tells hm hs h hT

/-- One value and the rest. -/
theorem PopTells.one {m : Nodes} {ts : List Tag} {v : Value} {s' : Stack} {m' : Nodes} (h : PopTells m ts [v] s' m') :
    Vouched m' v (ts.take v.size) ∧ Tells m' (items s') (ts.drop v.size) ∧ v.size ≤ ts.length := by
  obtain ⟨_, gs, rest, e, hv, ht⟩ := h
  cases hv with
  | cons a b =>
    cases b
    rename_i g
    have e : ts = g ++ rest := by simpa using e
    subst e
    rw [← a.size, List.take_left, List.drop_left]
    exact ⟨a, ht, by simp⟩

theorem popList_tells (r : Bool) : ∀ (bs : List Bool) (c : Run) (ts : List Tag),
    c.terminated = false → c.nodes.Ok → (popStack r c).Ok c.nodes → widths bs ≤ (popStack r c).size.toNat →
    Tells c.nodes (items (popStack r c)) ts →
    PopTells c.nodes ts (popList r bs c).1 (popStack r (popList r bs c).2) (popList r bs c).2.nodes
  | [], c, ts, _, hm, hs, _, hT => ⟨.refl _, [], ts, rfl, .nil, hT⟩
  | b :: bs, c, ts, ht, hm, hs, hw, hT => by
    have hw' : width b + widths bs ≤ (popStack r c).size.toNat := by simpa [widths] using hw
    obtain ⟨v, s1, m1, e1, p1⟩ := popFrom_ok (short := b) hm hs (by omega)
    have q1 := popFrom_tells (b := b) hm hs (by omega) hT
    rw [e1] at q1
    dsimp only at q1
    have hz : v.size = width b := by rw [size_width, p1.short_eq]
    have hsz := p1.size
    obtain ⟨k1, gs1, rest1, f1, v1, t1⟩ := q1
    have q2 := popList_tells r bs (setPop r s1 { c with nodes := m1 }) rest1
      (by rw [setPop_terminated]; exact ht)
      (by rw [setPop_nodes]; exact p1.nodes) (by rw [setPop_nodes, setPop_popStack]; exact p1.stack)
      (by rw [setPop_popStack]; omega) (by rw [setPop_nodes, setPop_popStack]; exact t1)
    rw [setPop_nodes] at q2
    have e : popList r (b :: bs) c = (v :: (popList r bs (setPop r s1 { c with nodes := m1 })).1,
        (popList r bs (setPop r s1 { c with nodes := m1 })).2) := by
      rw [popList]
      unfold popEx
      rw [if_neg (by rw [ht]; simp), e1]
    rw [e]
    dsimp only
    obtain ⟨k2, gs2, rest2, f2, v2, t2⟩ := q2
    cases v1 with
    | cons a1 b1 =>
      cases b1
      rename_i g1
      exact ⟨k1.trans k2, g1 :: gs2, rest2, by rw [f1, f2]; simp, .cons (a1.grow k2) v2, t2⟩

/-- The groups of the popped values. -/
theorem groups_of {m : Nodes} : ∀ {vs : List Value} {gs : List (List Tag)} (rest : List Tag), List.Forall₂ (Vouched m) vs gs →
    groups (vs.map Value.size) (gs.flatten ++ rest) = gs ∧ (gs.flatten ++ rest).drop (total vs) = rest
  | _, _, rest, .nil => ⟨rfl, rfl⟩
  | v :: vs, g :: gs, rest, .cons h h' => by
    obtain ⟨h1, h2⟩ := groups_of rest h'
    have e : (g :: gs).flatten ++ rest = g ++ (gs.flatten ++ rest) := by simp
    rw [e, List.map_cons, groups, total_cons, ← h.size, List.take_left, List.drop_left, h1, ← List.drop_drop, List.drop_left, h2]
    exact ⟨rfl, rfl⟩

/-! ## Both stacks -/

/-- What the checker claims about the stacks of the trace is true. -/
def Typed (T : Tags) (c : Run) : Prop := ∀ r, Tells c.nodes (items (realStack r c)) (T r)

/-- Replace the tags of one stack. -/
def put (r : Bool) (ts : List Tag) (T : Tags) : Tags := fun r' => if r' = r then ts else T r'

theorem put_same (r : Bool) (ts : List Tag) (T : Tags) : put r ts T r = ts := if_pos rfl
theorem put_other (r : Bool) (ts : List Tag) (T : Tags) : put r ts T (!r) = T (!r) := by cases r <;> rfl
theorem put_self (r : Bool) (T : Tags) : put r (T r) T = T := by
  funext r'; unfold put; split
  · rename_i h; rw [h]
  · rfl
theorem put_put (r : Bool) (ts ts' : List Tag) (T : Tags) : put r ts' (put r ts T) = put r ts' T := by
  funext r'; unfold put; split <;> rfl

theorem Typed.put {T : Tags} {c : Run} (h : Typed T c) {r : Bool} {s : Stack} {ts : List Tag}
    (hs : Tells c.nodes (items s) ts) : Typed (put r ts T) (setReal r s c) := by
  intro r'
  rw [setReal_nodes]
  by_cases e : r' = r
  · subst e
    rw [put_same, setReal_realStack]
    exact hs
  · have e := not_bool e
    subst e
    rw [put_other, setReal_other]
    exact h (!r)

/-! ## Pushing -/

theorem pushEx_tells {T : Tags} {c : Run} (hT : Typed T c) (hok : c.Ok) {r : Bool} {v : Value} {g : List Tag}
    (hv : Tidy c.nodes.fresh v) (hg : Vouched c.nodes v g) (ht : c.terminated = false)
    (hfit : (realStack r c).size.toNat + v.size ≤ 255) :
    Typed (put r (g ++ T r) T) (pushEx r v c) := by
  have hm := hok.nodes
  have hs := hok.real r
  have hpos := size_pos v
  have hl255 : (realStack r c).len.toNat < 255 := by have := hs.sound.len_le; omega
  unfold pushEx
  rw [if_neg (by rw [ht]; simp)]
  dsimp only
  have hc : ({ c with wrapped := c.wrapped || decide ((realStack r c).size.toNat + v.size = 256) } : Run) = c := by
    rw [show decide ((realStack r c).size.toNat + v.size = 256) = false from decide_eq_false (by omega), Bool.or_false]
  rw [hc]
  clear hc
  have htr := hT r
  generalize hsE : realStack r c = s at *
  rw [if_neg (by omega)]
  by_cases hmerge : (v.halfLo && (if 0 < s.len.toNat then top s else {}).halfHi &&
      ((if 0 < s.len.toNat then top s else {}).whole == v.whole)) = true
  · rw [if_pos hmerge]
    simp only [Bool.and_eq_true, beq_iff_eq] at hmerge
    obtain ⟨⟨hlo, hhi⟩, hw⟩ := hmerge
    by_cases hpos : 0 < s.len.toNat
    · rw [if_pos hpos] at hhi hw ⊢
      have hl : s.len ≠ 0 := fun e => by rw [e] at hpos; simp at hpos
      have hi := items_pos hl
      rw [hi] at htr
      obtain ⟨g', rest, e0, hv', hrest⟩ := htr
      have htop := hs.tidy (top s) (by rw [hi]; exact List.mem_cons_self)
      obtain ⟨n, hmem, hn, hhalf⟩ := hv'.high hhi
      obtain ⟨n', hmem', hn', hhalf'⟩ := hg.low hlo
      rw [← hw, hn, Option.some.injEq] at hn'
      subst hn'
      rw [hn]
      dsimp only
      have hvs : v.short = false := by
        by_contra hc
        have := (hv.whole_short (by simpa using hc)).2
        rw [hlo] at this; cases this
      have hts : (top s).short = false := by
        by_contra hc
        have := (htop.whole_short (by simpa using hc)).1
        rw [hhi] at this; cases this
      obtain ⟨l, rfl⟩ := length_one (hg.size.trans ((size_eq_one v).mpr hvs))
      obtain ⟨u, rfl⟩ := length_one (hv'.size.trans ((size_eq_one _).mpr hts))
      have hsh := (hm.shorts n (hm.taken n hmem))
      have a1 := hhalf u (by simp)
      have a2 := hhalf' l (by simp)
      refine hT.put ?_
      rw [items_replace hl, e0]
      refine ⟨[l, u], rest, rfl, .whole _ ((size_eq_two _).mpr hsh.1).symm (fun h => ?_) (fun h t ht => ?_)
        (hsh.2.whole_short hsh.1).1 (hsh.2.whole_short hsh.1).2, hrest⟩
      · unfold Of mark
        simp [a1.typed h, a2.typed h]
      · simp only [List.mem_cons, List.not_mem_nil, or_false] at ht
        rcases ht with rfl | rfl
        · exact a2.addr h
        · exact a1.addr h
    · rw [if_neg hpos] at hhi
      cases hhi
  · rw [if_neg hmerge]
    refine hT.put ?_
    rw [items_push hl255]
    exact ⟨g, T r, rfl, hg, htr⟩

theorem pushAll_tells (r : Bool) : ∀ (vs : List Value) (gs : List (List Tag)) (T : Tags) (c : Run),
    Typed T c → c.Ok → c.terminated = false → (∀ v ∈ vs, Tidy c.nodes.fresh v) →
    List.Forall₂ (Vouched c.nodes) vs gs → (realStack r c).size.toNat + total vs ≤ 255 →
    Typed (put r (pile gs (T r)) T) (pushAll r vs c) ∧ (pushAll r vs c).Ok
  | [], _, T, c, hT, hok, _, _, hf, _ => by
    cases hf
    rw [pile_nil, put_self, pushAll_nil]; exact ⟨hT, hok⟩
  | v :: vs, _, T, c, hT, hok, ht, hv, hf, hsz => by
    cases hf with
    | cons h1 h2 =>
      rename_i g gs
      rw [total_cons] at hsz
      obtain ⟨s1, e1, p1⟩ := pushEx_ok hok.nodes (hok.real r) (hv v List.mem_cons_self) ht (by omega)
      have hsz1 := p1.size
      have hs1 := pushEx_tells hT hok (hv v List.mem_cons_self) h1 ht (r := r) (by omega)
      rw [pushAll_cons]
      rw [e1] at hs1 ⊢
      have hn : (setReal r s1 c).nodes = c.nodes := setReal_nodes _ _ _
      have hok1 : (setReal r s1 c).Ok := Run.Ok.of_real (by rw [hn]; exact hok.nodes) r
        (by rw [setReal_realStack, hn]; exact p1.stack) (by rw [setReal_other, hn]; exact hok.real (!r))
      have := pushAll_tells r vs gs (put r (g ++ T r) T) (setReal r s1 c) hs1 hok1 (by rw [setReal_terminated]; exact ht)
        (by rw [hn]; exact fun w hw => hv w (List.mem_cons_of_mem _ hw))
        (by rw [hn]; exact h2) (by rw [setReal_realStack]; omega)
      rw [put_same, put_put] at this
      exact this

end Buxn.Chess.Types
