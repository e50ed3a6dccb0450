import Verif.Chess.Trail
/-!
# The beginning of a trace
-/

namespace Buxn.Chess

open Buxn.VM (VM)
open Buxn.VM.Spec (valueAt ptr stack Sys)

variable {σ : Type}

/-- Not a half of something. -/
def Whole (v : Value) : Prop := v.halfHi = false ∧ v.halfLo = false

instance (v : Value) : Decidable (Whole v) := by unfold Whole; infer_instance

/-- A trace that begins with a description of the VM. -/
theorem start_meets {P : Program} {e : Entry} {c : Run} {E : Env} {base : Bool → Byte} {s : Sys σ} (hs : P.sym e.address ≠ none)
    (hn : c.nodes.Ok) (he : ∀ r, (e.stacks r).Ok c.nodes) (hp : s.pc = e.address.toNat)
    (hw : ∀ r, ∀ v ∈ items (e.stacks r), Whole v)
    (hd : ∀ r, Describes E (stack r s.vm) (base r) (items (e.stacks r)) (ptr r s.vm)) :
    Meets E base (startTrace P e c) s ∧ (startTrace P e c).running = true ∧ (startTrace P e c).key = e.key ∧
      (startTrace P e c).pc = e.address := by
  unfold startTrace
  dsimp only
  split
  · rename_i h; exact absurd h hs
  refine ⟨⟨rfl, hp, ⟨⟨?_, hn.pool, fun _ h => (by cases h), hn.shorts⟩, he false |>.mono (le_refl _), he true |>.mono (le_refl _)⟩,
    fun _ h => (by cases h), ?_, ?_⟩, rfl, rfl, rfl⟩
  · rw [List.append_nil]; exact (List.nodup_append.mp hn.distinct).1
  · intro r; cases r
    · exact hd false
    · exact hd true
  · intro r; cases r
    · exact fun v hv => .whole _ (hw false v hv).1 (hw false v hv).2
    · exact fun v hv => .whole _ (hw true v hv).1 (hw true v hv).2

/-- The value that stands for the return address. -/
def returnValue : Value := { short := true, address := true, ret := true }

theorem entry_items {P : Program} (hP : P.Ok) {a : Short} {sig : Sig} (hl : P.label a = some (some sig)) (t : Nat) :
    items (routineEntry a sig t).wst = sig.wstIn.reverse ∧
      items (routineEntry a sig t).rst = sig.rstIn.reverse ++ if sig.kind = .subroutine then [returnValue] else [] := by
  have hok := hP.sigs a sig hl
  have h1 := hok.wstIn.1
  have h2 := hok.rstIn.1
  refine ⟨?_, ?_⟩
  · show items (sig.wstIn.foldl rawPush Stack.empty) = _
    rw [foldl_rawPush_items _ _ (by show 0 + _ ≤ 255; omega)]
    rw [show items Stack.empty = [] from rfl, List.append_nil]
  · show items (sig.rstIn.foldl rawPush (if sig.kind = .subroutine then rawPush Stack.empty returnValue else Stack.empty)) = _
    split
    · rw [foldl_rawPush_items _ _ (by show 1 + _ ≤ 255; omega)]
      rfl
    · rw [foldl_rawPush_items _ _ (by show 0 + _ ≤ 255; omega)]
      rfl

theorem sigAt_label {P : Program} {a : Short} {sig : Sig} (hl : P.label a = some (some sig)) : sigAt P a = sig := by
  unfold sigAt; rw [hl]

/-- The trace of a routine begins with a description of any VM that enters the routine. -/
theorem entry_described {P : Program} (hP : P.Ok) {a : Short} {sig : Sig} (hl : P.label a = some (some sig)) (t : Nat) (vm : VM)
    (nd : Nat → Nat) (r : Bool) : Describes ⟨nd, returnTo P a vm⟩ (stack r vm) (bottom P a vm r)
      (items ((routineEntry a sig t).stacks r)) (ptr r vm) ∧ ∀ v ∈ items ((routineEntry a sig t).stacks r), Whole v := by
  have hok := hP.sigs a sig hl
  have hs := sigAt_label hl
  obtain ⟨e1, e2⟩ := entry_items hP hl t
  cases r
  · show Describes _ _ _ (items (routineEntry a sig t).wst) _ ∧ ∀ v ∈ items (routineEntry a sig t).wst, _
    rw [e1]
    refine ⟨?_, fun v hv => ?_⟩
    · have := describes_plain (E := ⟨nd, returnTo P a vm⟩) (stk := stack false vm) (base := bottom P a vm false) (ws := [])
        (vs := sig.wstIn.reverse) (p := ptr false vm) (fun v hv => hok.wstIn.2 v (List.mem_reverse.mp hv)) (by
          show _ = _
          rw [total_reverse]
          unfold bottom Sig.load
          rw [hs, if_neg (fun h => by cases h.1)]
          rfl)
      rwa [List.append_nil] at this
    · have := hok.wstIn.2 v (List.mem_reverse.mp hv)
      exact ⟨this.2.2.2.2.1, this.2.2.2.2.2.1⟩
  · show Describes _ _ _ (items (routineEntry a sig t).rst) _ ∧ ∀ v ∈ items (routineEntry a sig t).rst, _
    rw [e2]
    refine ⟨describes_plain (fun v hv => hok.rstIn.2 v (List.mem_reverse.mp hv)) ?_, fun v hv => ?_⟩
    · rw [total_reverse]
      by_cases hk : sig.kind = .subroutine
      · have hb : bottom P a vm true = ptr true vm - BitVec.ofNat 8 (total sig.rstIn) - BitVec.ofNat 8 2 := by
          unfold bottom Sig.load
          rw [hs, if_pos ⟨rfl, hk⟩, ← below_bottom]
          rfl
        rw [if_pos hk]
        refine ⟨⟨fun h => (by cases h), fun _ => ?_, fun h => (by cases h), fun h => (by cases h)⟩, hb.symm⟩
        show valueAt (stack true vm) (ptr true vm - BitVec.ofNat 8 (total sig.rstIn) - BitVec.ofNat 8 2) 2 = returnTo P a vm
        rw [← hb]
        rfl
      · rw [if_neg hk]
        show _ = _
        unfold bottom Sig.load
        rw [hs, if_neg (fun h => hk h.2)]
        rfl
    · rcases List.mem_append.mp hv with hv | hv
      · have := hok.rstIn.2 v (List.mem_reverse.mp hv)
        exact ⟨this.2.2.2.2.1, this.2.2.2.2.2.1⟩
      · revert hv
        split
        · intro hv; rw [List.mem_singleton.mp hv]; exact ⟨rfl, rfl⟩
        · intro hv; cases hv

end Buxn.Chess
