import Verif.VM.Exec
/-! Stack effects of the specified operations. -/
namespace Buxn.VM
variable {σ : Type}
open Spec

theorem pushValue_ptr (r s : Bool) (v : Nat) (vm : VM) :
    ptr r (pushValue r (sz s) v vm) = ptr r vm + BitVec.ofNat 8 (sz s) := by
  cases r <;> cases s <;> rfl

theorem pushValue_other (r : Bool) (n v : Nat) (vm : VM) :
    ptr (!r) (pushValue r n v vm) = ptr (!r) vm ∧ stack (!r) (pushValue r n v vm) = stack (!r) vm := by
  unfold pushValue; split <;> cases r <;> exact ⟨rfl, rfl⟩

theorem pushValue_cell (r s : Bool) (v : Nat) (vm : VM) (q : Byte) (h0 : q ≠ ptr r vm)
    (h1 : s = true → q ≠ ptr r vm + 1) : stack r (pushValue r (sz s) v vm) q = stack r vm q := by
  cases s
  · cases r <;> exact upd_other _ _ h0
  · have h1 := h1 rfl
    cases r
    · exact (upd_other _ _ h1).trans (upd_other _ _ h0)
    · exact (upd_other _ _ h1).trans (upd_other _ _ h0)

theorem add_ofNat_inj (p : Byte) (i j : Nat) (hi : i < 256) (hj : j < 256)
    (h : p + BitVec.ofNat 8 i = p + BitVec.ofNat 8 j) : i = j := by
  have := congrArg BitVec.toNat h
  simp [BitVec.toNat_add] at this
  omega

theorem add_ofNat (p : Byte) (i j : Nat) : p + BitVec.ofNat 8 i + BitVec.ofNat 8 j = p + BitVec.ofNat 8 (i + j) := by
  apply BitVec.eq_of_toNat_eq
  simp [BitVec.toNat_add]; omega

/-- Pushing moves the pointer and only changes the pushed cells. -/
theorem pushAll_effect (r s : Bool) (vs : List Nat) (vm : VM) :
    ptr r (pushAll r (sz s) vs vm) = ptr r vm + BitVec.ofNat 8 (sz s * vs.length) ∧
    ptr (!r) (pushAll r (sz s) vs vm) = ptr (!r) vm ∧
    stack (!r) (pushAll r (sz s) vs vm) = stack (!r) vm ∧
    ∀ j, sz s * vs.length ≤ j → j < 256 →
      stack r (pushAll r (sz s) vs vm) (ptr r vm + BitVec.ofNat 8 j) = stack r vm (ptr r vm + BitVec.ofNat 8 j) := by
  unfold pushAll
  induction vs generalizing vm with
  | nil => simp
  | cons v vs ih =>
    have hz : 1 ≤ sz s ∧ sz s ≤ 2 := by cases s <;> simp
    obtain ⟨i1, i2, i3, i4⟩ := ih (pushValue r (sz s) v vm)
    have ho := pushValue_other r (sz s) v vm
    refine ⟨?_, ?_, ?_, ?_⟩
    · rw [List.foldl_cons, i1, pushValue_ptr, add_ofNat, List.length_cons, Nat.mul_add, Nat.mul_one, Nat.add_comm]
    · rw [List.foldl_cons, i2, ho.1]
    · rw [List.foldl_cons, i3, ho.2]
    · intro j h1 h2
      rw [List.length_cons, Nat.mul_add, Nat.mul_one] at h1
      have hq : ptr r vm + BitVec.ofNat 8 j = ptr r (pushValue r (sz s) v vm) + BitVec.ofNat 8 (j - sz s) := by
        rw [pushValue_ptr, add_ofNat, Nat.add_sub_cancel' (by omega)]
      rw [List.foldl_cons]
      conv => lhs; rw [hq]
      rw [i4 (j - sz s) (by omega) (by omega), ← hq]
      apply pushValue_cell
      · intro e
        have := add_ofNat_inj (ptr r vm) j 0 h2 (by omega) (by simpa using e)
        omega
      · intro hs e
        subst hs
        have := add_ofNat_inj (ptr r vm) j 1 h2 (by omega) e
        simp at h1; omega

/-- The stack effect of one operation: pointer, other stack, and the cells that do not change. -/
def StackEffect (r : Bool) (base : Byte) (size : Nat) (v v' : VM) : Prop :=
  ptr r v' = base + BitVec.ofNat 8 size ∧
  ∀ j, size ≤ j → j < 256 → stack r v' (base + BitVec.ofNat 8 j) = stack r v (base + BitVec.ofNat 8 j)

theorem effect_pushAll (r s : Bool) (vs : List Nat) (vm : VM) (size : Nat) (h : size = sz s * vs.length) :
    StackEffect r (ptr r vm) size vm (pushAll r (sz s) vs vm) := by
  have := pushAll_effect r s vs vm
  subst h
  exact ⟨this.1, this.2.2.2⟩

theorem effect_push (r s : Bool) (v : Nat) (vm : VM) :
    StackEffect r (ptr r vm) (sz s) vm (pushValue r (sz s) v vm) :=
  effect_pushAll r s [v] vm _ (by simp)

theorem effect_none (r : Bool) (vm vm' : VM) (h1 : ptr r vm' = ptr r vm) (h2 : stack r vm' = stack r vm) :
    StackEffect r (ptr r vm) 0 vm vm' := by
  refine ⟨by simp [h1], fun j _ _ => by rw [h2]⟩

theorem effect_other (r : Bool) (n v : Nat) (vm : VM) :
    StackEffect r (ptr r vm) 0 vm (pushValue (!r) n v vm) := by
  have := pushValue_other (!r) n v vm
  rw [Bool.not_not] at this
  exact effect_none r _ _ this.1 this.2

theorem StackEffect.left {r : Bool} {base : Byte} {size : Nat} {v w v' : VM} (h : StackEffect r base size v v')
    (e : stack r v = stack r w) : StackEffect r base size w v' :=
  ⟨h.1, fun j h1 h2 => by rw [h.2 j h1 h2, e]⟩

theorem ptr_setPtr (r : Bool) (p : Byte) (vm : VM) : ptr r (setPtr r p vm) = p := by cases r <;> rfl
theorem stack_setPtr (r r' : Bool) (p : Byte) (vm : VM) : stack r (setPtr r' p vm) = stack r vm := by
  cases r <;> cases r' <;> rfl
theorem stack_pokeMem (r : Bool) (vm : VM) (a p n v : Nat) : stack r (pokeMem vm a p n v) = stack r vm := by
  unfold pokeMem; split <;> cases r <;> rfl
theorem ptr_pokeMem (r : Bool) (vm : VM) (a p n v : Nat) : ptr r (pokeMem vm a p n v) = ptr r vm := by
  unfold pokeMem; split <;> cases r <;> rfl

theorem keeps_deviceIn {cfg : Cfg} {H : Host σ} (hk : KeepsStacks H) {n p : Nat} {vm : VM} {h : σ} {x : Nat × VM × σ}
    (e : deviceIn cfg H n p vm h = .ok x) (r : Bool) : ptr r x.2.1 = ptr r vm ∧ stack r x.2.1 = stack r vm := by
  have key : ∀ {a vm h v vm' h'}, H.dei a vm h = .ok (v, vm', h') → ptr r vm' = ptr r vm ∧ stack r vm' = stack r vm := by
    intro a vm h v vm' h' e
    obtain ⟨h1, h2, h3, h4⟩ := hk.dei _ _ _ _ _ _ e
    cases r
    · exact ⟨h1, h3⟩
    · exact ⟨h2, h4⟩
  unfold deviceIn at e
  simp only [bind, Except.bind, pure, Except.pure] at e
  split at e
  · split at e
    all_goals
      split at e
      · cases e
      · rename_i x hx
        split at e
        · cases e
        · rename_i y hy
          cases e
          have h1 := key hx
          have h2 := key hy
          exact ⟨h2.1.trans h1.1, h2.2.trans h1.2⟩
  · split at e
    · cases e
    · rename_i x hx
      cases e
      exact key hx

theorem keeps_deviceOut {H : Host σ} (hk : KeepsStacks H) {n p v : Nat} {vm : VM} {h : σ} {x : VM × σ}
    (e : deviceOut H n p v vm h = .ok x) (r : Bool) : ptr r x.1 = ptr r vm ∧ stack r x.1 = stack r vm := by
  have key : ∀ {a vm h vm' h'}, H.deo a vm h = .ok (vm', h') → ptr r vm' = ptr r vm ∧ stack r vm' = stack r vm := by
    intro a vm h vm' h' e
    obtain ⟨h1, h2, h3, h4⟩ := hk.deo _ _ _ _ _ e
    cases r
    · exact ⟨h1, h3⟩
    · exact ⟨h2, h4⟩
  unfold deviceOut at e
  simp only [bind, Except.bind] at e
  split at e
  · split at e
    · cases e
    · rename_i y hy
      have h1 := key hy
      have h2 := key e
      have h3 := h2.1.trans h1.1
      have h4 := h2.2.trans h1.2
      cases r <;> exact ⟨h3, h4⟩
  · have h1 := key e
    cases r <;> exact h1

theorem perform_effect {cfg : Cfg} {H : Host σ} {r s : Bool} {pc : Nat} {vm : VM} {h : σ} {a : Action} {x : Sys σ}
    (hk : (∃ p, a = .deviceIn p) ∨ (∃ p v, a = .deviceOut p v) → KeepsStacks H)
    (e : perform cfg H r (sz s) pc vm h a = .ok x) :
    StackEffect r (ptr r vm) (match a with
      | .push vs => sz s * vs.length
      | .pushByte _ => 1
      | .load _ _ | .deviceIn _ => sz s
      | _ => 0) vm x.vm := by
  cases a with
  | push vs => cases e; exact effect_pushAll _ _ _ _ _ rfl
  | pushByte v => cases e; exact effect_push r false v vm
  | stash v => cases e; exact effect_other _ _ _ _
  | jump t => cases e; exact effect_none _ _ _ rfl rfl
  | call t => cases e; exact effect_other _ _ _ _
  | load a p => cases e; exact effect_push _ _ _ _
  | store a p v => cases e; exact effect_none _ _ _ (ptr_pokeMem _ _ _ _ _ _) (stack_pokeMem _ _ _ _ _ _)
  | deviceIn p =>
    simp only [perform, bind, Except.bind, pure, Except.pure] at e
    split at e
    · cases e
    · rename_i y hy
      cases e
      have := keeps_deviceIn (hk (Or.inl ⟨_, rfl⟩)) hy r
      have h2 := effect_push r s y.1 y.2.1
      rw [this.1] at h2
      exact h2.left this.2
  | deviceOut p v =>
    simp only [perform, bind, Except.bind, pure, Except.pure] at e
    split at e
    · cases e
    · rename_i y hy
      cases e
      have := keeps_deviceOut (hk (Or.inr ⟨_, _, rfl⟩)) hy r
      exact effect_none _ _ _ this.1 this.2

theorem operation_effect {cfg : Cfg} {H : Host σ} {op : Op} {r s k : Bool} {pc : Nat} {vm : VM} {h : σ} {x : Sys σ}
    (hk : op = .DEI ∨ op = .DEO → KeepsStacks H)
    (e : operation cfg H op s r k pc vm h = .ok x) :
    StackEffect r (if k then ptr r vm else ptr r vm - BitVec.ofNat 8 (operandSizes (sz s) op).sum)
      (resultSizes (sz s) op).sum vm x.vm := by
  unfold operation at e
  simp only [sz_fold] at e
  have hst : ∀ q, stack r (if k = true then vm else setPtr r q vm) = stack r vm := by
    intro q; split
    · rfl
    · exact stack_setPtr _ _ _ _
  have hp : ∀ q, ptr r (if k = true then vm else setPtr r q vm) = if k = true then ptr r vm else q := by
    intro q; split
    · rfl
    · exact ptr_setPtr _ _ _
  have h1 := perform_effect (by
    intro hd
    apply hk
    cases op <;> simp [operandSizes, operandsAt, action] at hd <;> simp) e
  rw [hp] at h1
  have h2 := h1.left (hst _)
  cases op <;> simp only [operandSizes, operandsAt, action, resultSizes] at h2 ⊢ <;>
    simpa [List.length_cons, Nat.mul_add, Nat.add_assoc, Nat.mul_succ] using h2

end Buxn.VM
