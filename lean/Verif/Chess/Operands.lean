import Verif.Chess.Fold
/-!
# C46: operands and results on both sides
-/

namespace Buxn.Chess

open Buxn.VM (Instr Op dispatch VM Host Cfg)
open Buxn.VM.Spec (valueAt operandsAt pushValue ptr stack setPtr Action action operandSizes Sys KeepsStacks)

/-- The values of the given sizes below `p`, the highest first. -/
def readDown (stk : Byte → Byte) (p : Byte) : List Nat → List Nat
  | [] => []
  | n :: ns => valueAt stk (p - BitVec.ofNat 8 n) n :: readDown stk (p - BitVec.ofNat 8 n) ns

theorem readDown_append (stk : Byte → Byte) : ∀ (ns ms : List Nat) (p : Byte),
    readDown stk p (ns ++ ms) = readDown stk p ns ++ readDown stk (p - BitVec.ofNat 8 ns.sum) ms
  | [], ms, p => by simp [readDown]
  | n :: ns, ms, p => by
    rw [List.cons_append, readDown, readDown_append stk ns ms, readDown, List.cons_append, byte_sub_sub, List.sum_cons]

theorem operandsAt_down (stk : Byte → Byte) : ∀ (ns : List Nat) (p : Byte),
    operandsAt stk (p - BitVec.ofNat 8 ns.sum) ns = (readDown stk p ns.reverse).reverse
  | [], p => rfl
  | n :: ns, p => by
    rw [operandsAt, List.reverse_cons, readDown_append, List.reverse_append, ← operandsAt_down stk ns p, List.sum_cons,
      List.sum_reverse]
    have e : p - BitVec.ofNat 8 (n + ns.sum) + BitVec.ofNat 8 n = p - BitVec.ofNat 8 ns.sum := by
      rw [Nat.add_comm, ← byte_sub_sub, BitVec.sub_add_cancel]
    have e2 : p - BitVec.ofNat 8 ns.sum - BitVec.ofNat 8 n = p - BitVec.ofNat 8 (n + ns.sum) := by
      rw [byte_sub_sub, Nat.add_comm]
    rw [e]
    simp only [readDown, e2]
    rfl

/-- A description of the first values and of the rest. -/
theorem Describes.split {E : Env} {stk : Byte → Byte} {base : Byte} : ∀ {vs ws : List Value} {p : Byte},
    Describes E stk base (vs ++ ws) p →
      List.Forall₂ (Good E) vs (readDown stk p (vs.map Value.size)) ∧ Describes E stk base ws (p - BitVec.ofNat 8 (total vs))
  | [], ws, p, h => ⟨.nil, by rw [total_nil]; simpa using h⟩
  | v :: vs, ws, p, h => by
    obtain ⟨h1, h2⟩ := h
    obtain ⟨h3, h4⟩ := Describes.split h2
    refine ⟨.cons ⟨valueAt_lt _ _ _, h1⟩ h3, ?_⟩
    rw [total_cons, ← byte_sub_sub]
    exact h4

/-- The stacks of the VM are all that a description is about. -/
theorem Sim.congr {E : Env} {base : Bool → Byte} {vm vm' : VM} {st : Bool → Stack} {m : Nodes} (h : Sim E base vm st m)
    (hs : ∀ r, stack r vm' = stack r vm) (hp : ∀ r, ptr r vm' = ptr r vm) : Sim E base vm' st m :=
  ⟨h.meaning, fun r => by rw [hs, hp]; exact h.cells r, h.alive⟩

theorem Sim.grow {E E' : Env} {base : Bool → Byte} {vm : VM} {st : Bool → Stack} {m m' : Nodes} (h : Sim E base vm st m)
    (hg : Grows E m E' m') (hm : Meaning E' m') : Sim E' base vm st m' :=
  ⟨hm, fun r => (h.cells r).grow hg (h.alive r), fun r v hv => (h.alive r v hv).grow hg⟩

/-- Every byte that is known is a byte, on both stacks. -/
def Exact (c : Run) : Prop := ∀ r, ∀ v ∈ items (realStack r c), Small v

/-- Operands have been popped: the values, and what is left. -/
structure Took (E : Env) (base : Bool → Byte) (vm : VM) (r : Bool) (bs : List Bool) (c c2 : Run) (vs : List Value) (E' : Env) :
    Prop where
  ret : E'.ret = E.ret
  shorts : vs.map Value.short = bs
  good : List.Forall₂ (Good E') vs (readDown (stack r vm) (ptr r vm) (bs.map width))
  alive : ∀ v ∈ vs, Alive c2.nodes v
  tidy : ∀ v ∈ vs, Tidy c2.nodes.fresh v
  small : ∀ v ∈ vs, Small v
  sim : Sim E' base (if c.keep then vm else setPtr r (ptr r vm - BitVec.ofNat 8 (widths bs)) vm) c2.stacks c2.nodes
  ok : c2.Ok
  form : ∃ s m, c2 = setPop r s { c with nodes := m }
  left : (realStack r c2).size.toNat = if c.keep then (realStack r c).size.toNat else (realStack r c).size.toNat - widths bs
  exact : Exact c → Exact c2

theorem total_shorts {vs : List Value} {bs : List Bool} (h : vs.map Value.short = bs) : total vs = widths bs := by
  rw [← h]
  unfold total widths
  rw [List.map_map]
  rfl

theorem sizes_shorts {vs : List Value} {bs : List Bool} (h : vs.map Value.short = bs) : vs.map Value.size = bs.map width := by
  rw [← h, List.map_map]
  rfl

theorem take_sim {E : Env} {base : Bool → Byte} {vm : VM} {r : Bool} {bs : List Bool} {c : Run}
    (hsim : Sim E base vm c.stacks c.nodes) (hok : c.Ok) (ht : c.terminated = false)
    (hp : popStack r c = realStack r c) (hneed : widths bs ≤ (realStack r c).size.toNat)
    (hS : ∀ v ∈ items (realStack r c), Small v) :
    ∃ E', Took E base vm r bs c (popList r bs c).2 (popList r bs c).1 E' := by
  have hr := hok.real r
  obtain ⟨vs, s1, m1, e1, p1⟩ := popList_ok r bs c ht hok.nodes (by rw [hp]; exact hr) (by rw [hp]; exact hneed)
  obtain ⟨E', q1⟩ := popList_sim r (stack r vm) (base r) (ptr r vm) bs c E ht hok.nodes (by rw [hp]; exact hr)
    (by rw [hp]; exact hneed) hsim.meaning (by rw [hp]; exact hsim.alive r) (by rw [hp]; exact hS) (ptr r vm)
    (by rw [hp]; exact hsim.cells r)
  rw [e1] at q1 ⊢
  dsimp only at q1 ⊢
  rw [setPop_popStack, setPop_nodes] at q1
  have hn2 : (setPop r s1 { c with nodes := m1 }).nodes = m1 := setPop_nodes _ _ _
  have hreal := popped_real r s1 m1 c
  have hother := popped_other r s1 m1 c
  obtain ⟨g1, g2⟩ := q1.cells.split
  rw [sizes_shorts p1.shorts] at g1
  rw [total_shorts p1.shorts] at g2
  have hsz := p1.size
  rw [hp] at hsz
  refine ⟨E', q1.grows.ret, p1.shorts, g1, ?_, ?_, ?_, ?_, ?_, ⟨s1, m1, rfl⟩, ?_, ?_⟩
  · rw [hn2]; exact fun v hv => q1.alive v (List.mem_append_left _ hv)
  · rw [hn2]; exact p1.values
  · exact fun v hv => q1.small v (List.mem_append_left _ hv)
  · rw [hn2]
    have h0 := hsim.grow q1.grows q1.meaning
    clear hn2 e1
    generalize setPop r s1 { c with nodes := m1 } = c2 at *
    cases hk : c.keep
    · rw [hk] at hreal
      simp only [Bool.false_eq_true, if_false] at hreal ⊢
      refine ⟨q1.meaning, ?_, ?_⟩
      · intro r'
        rw [Buxn.VM.stack_setPtr]
        by_cases e : r' = r
        · subst e
          rw [Buxn.VM.ptr_setPtr]
          show Describes E' _ _ (items (realStack r' _)) _
          rw [hreal]
          exact g2
        · have e : r' = !r := by cases r <;> cases r' <;> simp_all
          subst e
          have : ptr (!r) (setPtr r (ptr r vm - BitVec.ofNat 8 (widths bs)) vm) = ptr (!r) vm := by cases r <;> rfl
          rw [this]
          show Describes E' _ _ (items (realStack (!r) _)) _
          rw [hother]
          exact h0.cells (!r)
      · intro r'
        by_cases e : r' = r
        · subst e
          show ∀ v ∈ items (realStack r' _), _
          rw [hreal]
          exact fun v hv => q1.alive v (List.mem_append_right _ hv)
        · have e : r' = !r := by cases r <;> cases r' <;> simp_all
          subst e
          show ∀ v ∈ items (realStack (!r) _), _
          rw [hother]
          exact h0.alive (!r)
    · rw [hk] at hreal
      simp only [if_true] at hreal ⊢
      have hst : c2.stacks = c.stacks := by
        funext r'
        show realStack r' _ = realStack r' c
        by_cases e : r' = r
        · subst e; exact hreal
        · have e : r' = !r := by cases r <;> cases r' <;> simp_all
          subst e; exact hother
      rw [hst]
      exact h0
  · refine Run.Ok.of_real (r := r) ?_ ?_ ?_
    · rw [hn2]; exact p1.nodes
    · rw [hn2, hreal]
      split
      · exact hr.mono p1.fresh
      · exact p1.stack
    · rw [hn2, hother]; exact (hok.real (!r)).mono p1.fresh
  · rw [hreal]
    split
    · rfl
    · omega
  · intro hE r' v hv
    by_cases e : r' = r
    · subst e
      rw [hreal] at hv
      revert hv
      split
      · exact hE r' v
      · exact fun hv => q1.small v (List.mem_append_right _ hv)
    · have e : r' = !r := by cases r <;> cases r' <;> simp_all
      subst e
      rw [hother] at hv
      exact hE _ v hv

/-- Several values either fit, or a stack has been filled to the brim, or an error is reported. -/
theorem pushAll_cases (r : Bool) : ∀ (vs : List Value) (c : Run), c.terminated = false →
    c.nodes.Ok → (realStack r c).Ok c.nodes → (∀ v ∈ vs, Tidy c.nodes.fresh v) →
    (realStack r c).size.toNat + total vs ≤ 255 ∨ (pushAll r vs c).wrapped = true ∨ (pushAll r vs c).terminated = true
  | [], c, _, _, _, _ => .inl (by rw [total_nil]; have := (realStack r c).size.isLt; omega)
  | v :: vs, c, ht, hm, hs, hv => by
    rw [pushAll_cons, total_cons]
    have hlt := (realStack r c).size.isLt
    by_cases hfit : (realStack r c).size.toNat + v.size ≤ 255
    · obtain ⟨s1, e1, p1⟩ := pushEx_ok hm hs (hv v List.mem_cons_self) ht hfit
      rw [e1]
      have hn : (setReal r s1 c).nodes = c.nodes := setReal_nodes _ _ _
      have := pushAll_cases r vs (setReal r s1 c) (by rw [setReal_terminated]; exact ht) (by rw [hn]; exact hm)
        (by rw [hn, setReal_realStack]; exact p1.stack)
        (by rw [hn]; exact fun w hw => hv w (List.mem_cons_of_mem _ hw))
      rw [setReal_realStack] at this
      have hz := p1.size
      exact this.imp (fun h => by omega) id
    · right
      by_cases h256 : (realStack r c).size.toNat + v.size = 256
      · left
        refine (pushAll_plainly r vs _).on.wrapped ?_
        unfold pushEx
        rw [if_neg (by rw [ht]; simp)]
        dsimp only
        rw [if_neg (by omega)]
        have hw : (c.wrapped || decide ((realStack r c).size.toNat + v.size = 256)) = true := by rw [decide_eq_true h256, Bool.or_true]
        repeat' split
        all_goals first
          | (cases r <;> exact hw)
          | exact hw
      · right
        refine (pushAll_plainly r vs _).on.stopped ?_
        rw [pushEx_overflow ht (by have := size_le v; omega)]
        rfl

end Buxn.Chess
