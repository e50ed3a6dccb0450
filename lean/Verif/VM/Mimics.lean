import Verif.VM.Guard
/-!
# Devices that do what others do

`H'` follows `H`: whatever `H` does to the machine, `H'` does to it as well, whatever else happens behind the ports. Then a run with `H` that is not undefined
is a run with `H'`.
-/
namespace Buxn.VM
open Spec
variable {σ τ : Type}

/-- Whenever the devices `H` answer, the devices `H'` answer the same and leave the machine in the same state; `R` is what relates what is
behind the ports. -/
structure Mimics (R : σ → τ → Prop) (H : Host σ) (H' : Host τ) : Prop where
  dei : ∀ a vm h h', R h h' → ∀ v vm1 h1, H.dei a vm h = .ok (v, vm1, h1) → ∃ h1', H'.dei a vm h' = .ok (v, vm1, h1') ∧ R h1 h1'
  deo : ∀ a vm h h', R h h' → ∀ vm1 h1, H.deo a vm h = .ok (vm1, h1) → ∃ h1', H'.deo a vm h' = .ok (vm1, h1') ∧ R h1 h1'

/-- Two runs that are at the same instruction, or have come to their end, with the same machine and with what `R` relates behind the ports. -/
inductive Follows (R : σ → τ → Prop) : Spec.Outcome σ → Spec.Outcome τ → Prop
  | halted {vm : VM} {h : σ} {h' : τ} : R h h' → Follows R (.halted vm h) (.halted vm h')
  | running {vm : VM} {h : σ} {h' : τ} {pc : Nat} : R h h' → Follows R (.running ⟨vm, h, pc⟩) (.running ⟨vm, h', pc⟩)

variable {R : σ → τ → Prop} {H : Host σ} {H' : Host τ} {cfg : Cfg}

/-- When the first is defined, so is the second, and the results are related. -/
def Whenever {α β : Type} (Q : α → β → Prop) (x : Res α) (y : Res β) : Prop := ∀ a, x = .ok a → ∃ b, y = .ok b ∧ Q a b

theorem Whenever.bind {α β α' β' : Type} {Q : α → β → Prop} {Q' : α' → β' → Prop} {x : Res α} {y : Res β} {f : α → Res α'} {g : β → Res β'}
    (h : Whenever Q x y) (hf : ∀ a b, Q a b → Whenever Q' (f a) (g b)) : Whenever Q' (x >>= f) (y >>= g) := by
  intro a e
  cases x with
  | error u => cases e
  | ok a0 =>
    obtain ⟨b, rfl, hq⟩ := h a0 rfl
    exact hf a0 b hq a e

theorem Whenever.pure {α β : Type} {Q : α → β → Prop} {a : α} {b : β} (h : Q a b) : Whenever Q (.ok a) (.ok b) := by
  rintro _ ⟨⟩
  exact ⟨b, rfl, h⟩

/-- What is read, with the machine and what is behind the ports. -/
def Read (R : σ → τ → Prop) {α : Type} (x : α × VM × σ) (y : α × VM × τ) : Prop := x.1 = y.1 ∧ x.2.1 = y.2.1 ∧ R x.2.2 y.2.2
/-- The machine and what is behind the ports. -/
def Written (R : σ → τ → Prop) (x : VM × σ) (y : VM × τ) : Prop := x.1 = y.1 ∧ R x.2 y.2
/-- The state of a run. -/
def Beside (R : σ → τ → Prop) (x : Sys σ) (y : Sys τ) : Prop := x.vm = y.vm ∧ x.pc = y.pc ∧ R x.host y.host

theorem Mimics.dei' (hg : Mimics R H H') (a : Byte) (vm : VM) (h : σ) (h' : τ) (hr : R h h') : Whenever (Read R) (H.dei a vm h) (H'.dei a vm h') := by
  rintro ⟨v, vm1, h1⟩ e
  obtain ⟨h1', e1, r1⟩ := hg.dei a vm h h' hr v vm1 h1 e
  exact ⟨_, e1, rfl, rfl, r1⟩

theorem Mimics.deo' (hg : Mimics R H H') (a : Byte) (vm : VM) (h : σ) (h' : τ) (hr : R h h') : Whenever (Written R) (H.deo a vm h) (H'.deo a vm h') := by
  rintro ⟨vm1, h1⟩ e
  obtain ⟨h1', e1, r1⟩ := hg.deo a vm h h' hr vm1 h1 e
  exact ⟨_, e1, rfl, r1⟩

theorem Mimics.deviceIn (hg : Mimics R H H') (n p : Nat) (vm : VM) (h : σ) (h' : τ) (hr : R h h') :
    Whenever (Read R) (Spec.deviceIn cfg H n p vm h) (Spec.deviceIn cfg H' n p vm h') := by
  unfold Spec.deviceIn
  dsimp only
  split
  · split
    all_goals
      refine (hg.dei' _ vm h h' hr).bind ?_
      rintro ⟨x, vm1, h1⟩ ⟨_, _, h1'⟩ ⟨rfl, rfl, r1⟩
      refine (hg.dei' _ vm1 h1 h1' r1).bind ?_
      rintro ⟨y, vm2, h2⟩ ⟨_, _, h2'⟩ ⟨rfl, rfl, r2⟩
      exact .pure ⟨rfl, rfl, r2⟩
  · refine (hg.dei' _ vm h h' hr).bind ?_
    rintro ⟨x, vm1, h1⟩ ⟨_, _, h1'⟩ ⟨rfl, rfl, r1⟩
    exact .pure ⟨rfl, rfl, r1⟩

theorem Mimics.deviceOut (hg : Mimics R H H') (n p v : Nat) (vm : VM) (h : σ) (h' : τ) (hr : R h h') :
    Whenever (Written R) (Spec.deviceOut H n p v vm h) (Spec.deviceOut H' n p v vm h') := by
  unfold Spec.deviceOut
  dsimp only
  split
  · refine (hg.deo' _ _ h h' hr).bind ?_
    rintro ⟨vm1, h1⟩ ⟨_, h1'⟩ ⟨rfl, r1⟩
    exact hg.deo' _ vm1 h1 h1' r1
  · exact hg.deo' _ _ _ _ hr

theorem Mimics.perform (hg : Mimics R H H') (r : Bool) (n pc : Nat) (vm : VM) (h : σ) (h' : τ) (hr : R h h') (a : Action) :
    Whenever (Beside R) (Spec.perform cfg H r n pc vm h a) (Spec.perform cfg H' r n pc vm h' a) := by
  cases a with
  | deviceIn p =>
    refine (hg.deviceIn n p vm h h' hr).bind ?_
    rintro ⟨v, vm1, h1⟩ ⟨_, _, h1'⟩ ⟨rfl, rfl, r1⟩
    exact .pure ⟨rfl, rfl, r1⟩
  | deviceOut p v =>
    refine (hg.deviceOut n p v vm h h' hr).bind ?_
    rintro ⟨vm1, h1⟩ ⟨_, h1'⟩ ⟨rfl, r1⟩
    exact .pure ⟨rfl, rfl, r1⟩
  | _ => exact .pure ⟨rfl, rfl, hr⟩

/-- Both halt, or both go on. -/
inductive Pair (Q : Sys σ → Sys τ → Prop) : Option (Sys σ) → Option (Sys τ) → Prop
  | halted : Pair Q none none
  | on {a b} : Q a b → Pair Q (some a) (some b)

theorem Whenever.pair {Q : Sys σ → Sys τ → Prop} {x : Res (Sys σ)} {y : Res (Sys τ)} (h : Whenever Q x y) :
    Whenever (Pair Q) (x.map some) (y.map some) := by
  intro a e
  cases x with
  | error u => cases e
  | ok x =>
    cases e
    obtain ⟨b, rfl, hq⟩ := h x rfl
    exact ⟨_, rfl, .on hq⟩

theorem Mimics.step (hg : Mimics R H H') (vm : VM) (pc : Nat) (h : σ) (h' : τ) (hr : R h h') :
    Whenever (Pair (Beside R)) (Spec.step cfg H ⟨vm, h, pc⟩) (Spec.step cfg H' ⟨vm, h', pc⟩) := by
  unfold Spec.step
  dsimp only
  generalize hn : (vm.memory pc).toNat % 32 = n
  cases n with
  | zero =>
    dsimp only
    repeat' split
    all_goals first
      | exact .pure .halted
      | exact .pure (.on ⟨rfl, rfl, hr⟩)
  | succ b =>
    dsimp only
    cases mnemonics[b]? with
    | none => exact .pure .halted
    | some op =>
      dsimp only
      unfold Spec.operation
      dsimp only
      exact (hg.perform _ _ _ _ h h' hr _).pair

theorem Mimics.run (hg : Mimics R H H') (n : Nat) (vm : VM) (pc : Nat) (h : σ) (h' : τ) (hr : R h h')
    (hd : ∀ u, Spec.run (cstep cfg H) n ⟨vm, h, pc⟩ ≠ .undefined u) :
    Follows R (Spec.run (cstep cfg H) n ⟨vm, h, pc⟩) (Spec.run (cstep cfg H') n ⟨vm, h', pc⟩) := by
  induction n generalizing vm pc h h' with
  | zero => exact .running hr
  | succ n ih =>
    unfold Spec.run at hd ⊢
    unfold cstep at hd ⊢
    have hm : mulOverflows (⟨vm, h, pc⟩ : Sys σ) ↔ mulOverflows (⟨vm, h', pc⟩ : Sys τ) := Iff.rfl
    by_cases ho : cfg.wrapv = false ∧ mulOverflows (⟨vm, h, pc⟩ : Sys σ)
    · rw [if_pos ho] at hd
      exact absurd rfl (hd _)
    · rw [if_neg ho] at hd ⊢
      rw [if_neg (show ¬ (cfg.wrapv = false ∧ mulOverflows (⟨vm, h', pc⟩ : Sys τ)) from ho)]
      have hs := hg.step (cfg := cfg) vm pc h h' hr
      cases hx : Spec.step cfg H ⟨vm, h, pc⟩ with
      | error u => rw [hx] at hd; exact absurd rfl (hd u)
      | ok x =>
        rw [hx] at hd
        obtain ⟨y, e1, r1⟩ := hs x hx
        rw [e1]
        cases r1 with
        | halted => exact .halted hr
        | on q =>
          rename_i s s'
          obtain ⟨vm1, h1, pc1⟩ := s
          obtain ⟨vm1', h1', pc1'⟩ := s'
          obtain ⟨q1, q2, q3⟩ := q
          dsimp only at q1 q2 q3
          subst q1 q2
          exact ih vm1 pc1 h1 h1' q3 hd

/-- A run that is defined is followed. -/
theorem Mimics.execute (hg : Mimics R H H') (hk : KeepsMemSize H) (hk' : KeepsMemSize H') (k0 k0' : Byte × Byte) (n : Nat) (vm : VM)
    (hm : 65536 ≤ vm.memSize) (h : σ) (h' : τ) (hr : R h h') (pc : Short) (hd : ∀ u, (VM.execute cfg H none k0 n vm h pc).view ≠ .undefined u) :
    Follows R (VM.execute cfg H none k0 n vm h pc).view (VM.execute cfg H' none k0' n vm h' pc).view := by
  by_cases hpc : pc = 0
  · unfold VM.execute
    rw [if_pos hpc, if_pos hpc]
    exact .halted hr
  · rw [C01_execute_is_uxn_iso cfg H hk k0 n vm hm h pc hpc] at hd ⊢
    rw [C01_execute_is_uxn_iso cfg H' hk' k0' n vm hm h' pc hpc]
    exact hg.run n vm _ h h' hr hd

end Buxn.VM
