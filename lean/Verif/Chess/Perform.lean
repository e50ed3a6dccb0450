import Verif.Chess.Operands
/-!
# C46: operations that are not jumps, on both sides
-/

namespace Buxn.Chess

open Buxn.VM (Instr Op dispatch VM Host Cfg)
open Buxn.VM.Spec (valueAt operandsAt pushValue ptr stack setPtr Action action operandSizes Sys KeepsStacks)

variable {σ : Type}

/-- The stack that an action pushes on. -/
def actionDest (r : Bool) : Action → Bool
  | .stash _ => !r
  | _ => r

theorem pushNumbers_same (r : Bool) (E : Env) (two : Bool) : ∀ (rs : List Value) (ys : List Nat) (vm : VM),
    List.Forall₂ (Good E) rs ys → (∀ v ∈ rs, v.short = two) →
    Buxn.VM.Spec.pushAll r (width two) ys vm = pushNumbers r rs ys vm
  | _, _, vm, .nil, _ => rfl
  | v :: rs, y :: ys, vm, .cons _ h, hs => by
    have e : v.size = width two := width_size (hs v List.mem_cons_self)
    show Buxn.VM.Spec.pushAll r (width two) ys (pushValue r (width two) y vm) = pushNumbers r rs ys (pushValue r v.size y vm)
    rw [e]
    exact pushNumbers_same r E two rs ys _ h (fun w hw => hs w (List.mem_cons_of_mem _ hw))

theorem deviceIn_lt {cfg : Cfg} {H : Host σ} {s : Bool} {p : Nat} {vm : VM} {h : σ} {x : Nat × VM × σ}
    (e : Buxn.VM.Spec.deviceIn cfg H (width s) p vm h = .ok x) : x.1 < 256 ^ width s := by
  unfold Buxn.VM.Spec.deviceIn at e
  simp only [bind, Except.bind, pure, Except.pure] at e
  cases s
  · rw [if_neg (by decide)] at e
    split at e
    · cases e
    · cases e
      rename_i v _
      show v.1.toNat < 256 ^ 1
      have := v.1.isLt
      omega
  · rw [if_pos (show width true = 2 from rfl)] at e
    split at e
    all_goals
      split at e
      · cases e
      · rename_i x hx
        split at e
        · cases e
        · rename_i y hy
          cases e
          have := x.1.isLt
          have := y.1.isLt
          show _ < 256 ^ 2
          dsimp only
          omega

/-- What the VM has after an action whose results are described. -/
theorem perform_answers {cfg : Cfg} {H : Host σ} (hk : KeepsStacks H) {E : Env} {r s : Bool} {pc : Nat} {vm : VM} {h : σ}
    {a : Action} {rs : List Value} {s' : Sys σ} {u : Bool} (ha : Answers E s u rs a)
    (e : Buxn.VM.Spec.perform cfg H r (width s) pc vm h a = .ok s') :
    s'.pc = pc ∧ ((∃ vm2 ys, (∀ r, stack r vm2 = stack r vm) ∧ (∀ r, ptr r vm2 = ptr r vm) ∧
        s'.vm = pushNumbers (actionDest r a) rs ys vm2 ∧ List.Forall₂ (Good E) rs ys) ∨
      (rs = [truth true] ∧ a = .pushByte 0 ∧ u = true ∧ s'.vm = pushValue r 1 0 vm)) := by
  cases a with
  | push ys =>
    cases e
    refine ⟨rfl, .inl ⟨vm, ys, fun _ => rfl, fun _ => rfl, ?_, ha.1⟩⟩
    exact pushNumbers_same r E s rs ys vm ha.1 ha.2
  | pushByte y =>
    cases e
    obtain ⟨v, rfl, hv, hg | ⟨ht, hy, hu⟩⟩ := ha
    · refine ⟨rfl, .inl ⟨vm, [y], fun _ => rfl, fun _ => rfl, ?_, .cons hg .nil⟩⟩
      show pushValue r 1 y vm = pushValue r v.size y vm
      rw [(size_eq_one v).mpr hv]
    · exact ⟨rfl, .inr ⟨by rw [ht], by rw [hy], hu, by rw [hy]⟩⟩
  | stash y =>
    cases e
    obtain ⟨v, rfl, hv, hg⟩ := ha
    refine ⟨rfl, .inl ⟨vm, [y], fun _ => rfl, fun _ => rfl, ?_, .cons hg .nil⟩⟩
    show pushValue (!r) (width s) y vm = pushValue (!r) v.size y vm
    rw [width_size hv]
  | jump t => cases ha
  | call t => cases ha
  | load ad page =>
    cases e
    obtain ⟨v, rfl, hv, hg⟩ := ha
    refine ⟨rfl, .inl ⟨vm, [Buxn.VM.Spec.peekMem vm ad page (width s)], fun _ => rfl, fun _ => rfl, ?_, .cons ⟨?_, hg _⟩ .nil⟩⟩
    · show pushValue r (width s) _ vm = pushValue r v.size _ vm
      rw [width_size hv]
    · rw [width_size hv]; exact Buxn.VM.peekMem_lt vm ad page s
  | store ad page v =>
    cases e
    cases ha
    exact ⟨rfl, .inl ⟨_, [], fun r => Buxn.VM.stack_pokeMem r _ _ _ _ _, fun r => Buxn.VM.ptr_pokeMem r _ _ _ _ _, rfl, .nil⟩⟩
  | deviceIn p =>
    simp only [Buxn.VM.Spec.perform, bind, Except.bind, pure, Except.pure] at e
    split at e
    · cases e
    · rename_i y hy
      cases e
      obtain ⟨v, rfl, hv, hg⟩ := ha
      have hks := Buxn.VM.keeps_deviceIn hk hy
      refine ⟨rfl, .inl ⟨y.2.1, [y.1], fun r => (hks r).2, fun r => (hks r).1, ?_, .cons ⟨?_, hg _⟩ .nil⟩⟩
      · show pushValue r (width s) _ _ = pushValue r v.size _ _
        rw [width_size hv]
      · rw [width_size hv]; exact deviceIn_lt hy
  | deviceOut p v =>
    simp only [Buxn.VM.Spec.perform, bind, Except.bind, pure, Except.pure] at e
    split at e
    · cases e
    · rename_i y hy
      cases e
      cases ha
      have hks := Buxn.VM.keeps_deviceOut hk hy
      exact ⟨rfl, .inl ⟨y.1, [], fun r => (hks r).2, fun r => (hks r).1, rfl, .nil⟩⟩

theorem action_dest (n pc : Nat) (op : Op) (xs : List Nat) (r : Bool) (h : op = .STH → xs.length = 1) :
    actionDest r (action n pc op xs) = dest op r := by
  by_cases hs : op = .STH
  · subst hs
    rcases xs with _ | ⟨x, _ | ⟨_, _⟩⟩
    · cases h rfl
    · rfl
    · cases h rfl
  · unfold dest
    rw [if_neg hs]
    unfold action
    split <;> first | rfl | exact absurd rfl hs

/-! ## What the results are -/

/-- What an operation pushes is as alive as its operands. -/
theorem results_alive (P : Program) (two : Bool) (pc : Short) (op : Op) (vs : List Value) (m : Nodes)
    (h : ∀ v ∈ vs, Alive m v) : ∀ v ∈ results P two pc op vs, Alive m v := by
  have hl : ∀ a, Alive m (loaded P two a) := by
    intro a
    apply Alive.whole
    · unfold loaded; split
      · split <;> rfl
      · rfl
    · unfold loaded; split
      · split <;> rfl
      · rfl
  cases op <;>
    (rcases vs with _ | ⟨a, _ | ⟨b, _ | ⟨d, _ | ⟨_, _⟩⟩⟩⟩ <;> intro v hv <;>
      simp only [results, List.mem_cons, List.not_mem_nil, or_false] at hv <;>
      first
        | (rcases hv with e | e | e <;> rw [e] <;> apply h <;> simp; done)
        | (rcases hv with e | e <;> rw [e] <;> apply h <;> simp; done)
        | (rw [hv]; apply h; simp; done)
        | (rw [hv]; exact Alive.whole _ rfl rfl)
        | (rw [hv]; exact hl _))

/-- A comparison that is left open puts the other outcome aside. -/
theorem note_forks (P : Program) (op : Op) (two : Bool) (w n y : Nat) (vs : List Value) (xs : List Nat) (c : Run)
    (hsh : vs.map Value.short = operands two op) (ha : action w n op xs = .pushByte y) (hu : undecided vs = true) :
    isComparison op = true ∧ note P op vs c = branch c := by
  have hop : op = .EQU ∨ op = .NEQ ∨ op = .GTH ∨ op = .LTH := by
    unfold action at ha
    split at ha <;> first | (cases ha; done) | simp
  have key : ∃ b a, vs = [b, a] := by
    rcases vs with _ | ⟨b, _ | ⟨a, _ | ⟨_, _⟩⟩⟩
    · cases hu
    · cases hu
    · exact ⟨b, a, rfl⟩
    · cases hu
  obtain ⟨b, a, rfl⟩ := key
  have hd : decided a b = false := by simpa [undecided] using hu
  rcases hop with rfl | rfl | rfl | rfl
  all_goals exact ⟨rfl, by simp [note, hd]⟩

end Buxn.Chess
