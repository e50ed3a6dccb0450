import Verif.VM.Props
/-!
# Devices with a guard

`H'` is `H` with some accesses refused: it does what `H` does, or stops with the error `t`. Then a run with `H'` either is the
run with `H`, or it stops with `t`.
-/
namespace Buxn.VM
open Spec
variable {σ : Type}

/-- The same result, or the error `t`. -/
def SameOr {α : Type} (t : UB) (x y : Res α) : Prop := x = y ∨ x = .error t

theorem SameOr.bind {α β : Type} {t : UB} {x y : Res α} {f g : α → Res β} (h : SameOr t x y) (hf : ∀ a, SameOr t (f a) (g a)) :
    SameOr t (x >>= f) (y >>= g) := by
  rcases h with rfl | rfl
  · cases x with
    | error u => exact .inl rfl
    | ok a => exact hf a
  · exact .inr rfl

/-- `H'` refuses some accesses that `H` carries out. -/
structure Guards (t : UB) (H' H : Host σ) : Prop where
  dei : ∀ a vm h, SameOr t (H'.dei a vm h) (H.dei a vm h)
  deo : ∀ a vm h, SameOr t (H'.deo a vm h) (H.deo a vm h)

variable {t : UB} {H' H : Host σ} {cfg : Cfg}

theorem Guards.deviceIn (hg : Guards t H' H) (n p : Nat) (vm : VM) (h : σ) :
    SameOr t (Spec.deviceIn cfg H' n p vm h) (Spec.deviceIn cfg H n p vm h) := by
  unfold Spec.deviceIn
  dsimp only
  split
  · split
    all_goals
      refine (hg.dei _ vm h).bind ?_
      rintro ⟨x, vm1, h1⟩
      refine (hg.dei _ vm1 h1).bind ?_
      rintro ⟨y, vm2, h2⟩
      exact .inl rfl
  · refine (hg.dei _ vm h).bind ?_
    rintro ⟨x, vm1, h1⟩
    exact .inl rfl

theorem Guards.deviceOut (hg : Guards t H' H) (n p v : Nat) (vm : VM) (h : σ) :
    SameOr t (Spec.deviceOut H' n p v vm h) (Spec.deviceOut H n p v vm h) := by
  unfold Spec.deviceOut
  dsimp only
  split
  · refine (hg.deo _ _ h).bind ?_
    rintro ⟨vm1, h1⟩
    exact hg.deo _ vm1 h1
  · exact hg.deo _ _ _

theorem Guards.perform (hg : Guards t H' H) (r : Bool) (n pc : Nat) (vm : VM) (h : σ) (a : Action) :
    SameOr t (Spec.perform cfg H' r n pc vm h a) (Spec.perform cfg H r n pc vm h a) := by
  cases a with
  | deviceIn p =>
    refine (hg.deviceIn n p vm h).bind ?_
    rintro ⟨v, vm1, h1⟩
    exact .inl rfl
  | deviceOut p v =>
    refine (hg.deviceOut n p v vm h).bind ?_
    rintro ⟨vm1, h1⟩
    exact .inl rfl
  | _ => exact .inl rfl

theorem Guards.step (hg : Guards t H' H) (s : Sys σ) : SameOr t (Spec.step cfg H' s) (Spec.step cfg H s) := by
  unfold Spec.step
  dsimp only
  generalize hn : (s.vm.memory s.pc).toNat % 32 = n
  cases n with
  | zero => exact .inl rfl
  | succ b =>
    dsimp only
    cases mnemonics[b]? with
    | none => exact .inl rfl
    | some op =>
      dsimp only
      unfold Spec.operation
      dsimp only
      rcases hg.perform (cfg := cfg) ((s.vm.memory s.pc).getLsbD 6) (if (s.vm.memory s.pc).getLsbD 5 then 2 else 1) ((s.pc + 1) % 65536)
        _ s.host _ with e | e
      · rw [e]; exact .inl rfl
      · rw [e]; exact .inr rfl

theorem Guards.run (hg : Guards t H' H) (n : Nat) (s : Sys σ) :
    Spec.run (cstep cfg H') n s = Spec.run (cstep cfg H) n s ∨ Spec.run (cstep cfg H') n s = .undefined t := by
  induction n generalizing s with
  | zero => exact .inl rfl
  | succ n ih =>
    unfold Spec.run
    unfold cstep
    by_cases ho : cfg.wrapv = false ∧ mulOverflows s
    · rw [if_pos ho, if_pos ho]; exact .inl rfl
    · rw [if_neg ho, if_neg ho]
      rcases hg.step (cfg := cfg) s with e | e
      · rw [e]
        cases Spec.step cfg H s with
        | error u => exact .inl rfl
        | ok x =>
          cases x with
          | none => exact .inl rfl
          | some s' => exact ih s'
      · rw [e]; exact .inr rfl

/-- A run with a guard is the run without it, or it is stopped by the guard. -/
theorem Guards.execute (hg : Guards t H' H) (hk' : KeepsMemSize H') (hk : KeepsMemSize H) (k0 : Byte × Byte) (n : Nat) (vm : VM)
    (hm : 65536 ≤ vm.memSize) (h : σ) (pc : Short) :
    (execute cfg H' none k0 n vm h pc).view = (execute cfg H none k0 n vm h pc).view ∨
    (execute cfg H' none k0 n vm h pc).view = .undefined t := by
  by_cases hpc : pc = 0
  · left
    unfold VM.execute
    rw [if_pos hpc, if_pos hpc]
  · rw [C01_execute_is_uxn_iso cfg H' hk' k0 n vm hm h pc hpc, C01_execute_is_uxn_iso cfg H hk k0 n vm hm h pc hpc]
    exact hg.run n _

end Buxn.VM
