import Verif.VM.Exec
/-!
# Devices with an invariant

The theorems of C02 ask of the devices that they never fail, whatever their state. Real devices fail in states that they
never get into. Here the devices keep an invariant of their state instead.
-/
namespace Buxn.VM
open Spec
variable {σ : Type}

/-- The devices keep the size of the memory and, on a memory of that size, the invariant `I` of their state, and they never
run into an undefined behaviour of the kinds `B`. -/
structure Sound (I : Nat → σ → Prop) (B : UB → Prop) (H : Host σ) : Prop where
  dei : ∀ a vm h, I vm.memSize h →
    match H.dei a vm h with
    | .ok (_, vm', h') => vm'.memSize = vm.memSize ∧ I vm.memSize h'
    | .error u => ¬ B u
  deo : ∀ a vm h, I vm.memSize h →
    match H.deo a vm h with
    | .ok (vm', h') => vm'.memSize = vm.memSize ∧ I vm.memSize h'
    | .error u => ¬ B u

/-- What is known of the result of a computation on a machine of memory size `m`. -/
def Kept (I : Nat → σ → Prop) (B : UB → Prop) (m : Nat) {α : Type} (vm : α → VM) (h : α → σ) : Res α → Prop
  | .ok x => (vm x).memSize = m ∧ I m (h x)
  | .error u => ¬ B u

variable {I : Nat → σ → Prop} {B : UB → Prop} {H : Host σ} {cfg : Cfg}

theorem Sound.dei' (hs : Sound I B H) (a : Byte) (vm : VM) (h : σ) (m : Nat) (hm : vm.memSize = m) (hi : I m h) :
    Kept I B m (fun x : Byte × VM × σ => x.2.1) (fun x => x.2.2) (H.dei a vm h) := by
  have := hs.dei a vm h (by rw [hm]; exact hi)
  cases hx : H.dei a vm h with
  | error u => rw [hx] at this; exact this
  | ok x => rw [hx] at this; rw [hm] at this; exact this

theorem Sound.deo' (hs : Sound I B H) (a : Byte) (vm : VM) (h : σ) (m : Nat) (hm : vm.memSize = m) (hi : I m h) :
    Kept I B m (fun x : VM × σ => x.1) (fun x => x.2) (H.deo a vm h) := by
  have := hs.deo a vm h (by rw [hm]; exact hi)
  cases hx : H.deo a vm h with
  | error u => rw [hx] at this; exact this
  | ok x => rw [hx] at this; rw [hm] at this; exact this

theorem Kept.bind {m : Nat} {α β : Type} {va : α → VM} {ha : α → σ} {vb : β → VM} {hb : β → σ} {x : Res α} {f : α → Res β}
    (hx : Kept I B m va ha x) (hf : ∀ a, (va a).memSize = m → I m (ha a) → Kept I B m vb hb (f a)) :
    Kept I B m vb hb (x >>= f) := by
  cases x with
  | error u => exact hx
  | ok a => exact hf a hx.1 hx.2

theorem Sound.deviceIn (hs : Sound I B H) (n p : Nat) (vm : VM) (h : σ) (m : Nat) (hm : vm.memSize = m) (hi : I m h) :
    Kept I B m (fun x : Nat × VM × σ => x.2.1) (fun x => x.2.2) (Spec.deviceIn cfg H n p vm h) := by
  unfold Spec.deviceIn
  dsimp only
  split
  · split
    all_goals
      refine (hs.dei' _ vm h m hm hi).bind ?_
      rintro ⟨x, vm1, h1⟩ hm1 hi1
      refine (hs.dei' _ vm1 h1 m hm1 hi1).bind ?_
      rintro ⟨y, vm2, h2⟩ hm2 hi2
      exact ⟨hm2, hi2⟩
  · refine (hs.dei' _ vm h m hm hi).bind ?_
    rintro ⟨x, vm1, h1⟩ hm1 hi1
    exact ⟨hm1, hi1⟩

theorem Sound.deviceOut (hs : Sound I B H) (n p v : Nat) (vm : VM) (h : σ) (m : Nat) (hm : vm.memSize = m) (hi : I m h) :
    Kept I B m (fun x : VM × σ => x.1) (fun x => x.2) (Spec.deviceOut H n p v vm h) := by
  unfold Spec.deviceOut
  dsimp only
  split
  · refine (hs.deo' _ _ h m (by exact hm) hi).bind ?_
    rintro ⟨vm1, h1⟩ hm1 hi1
    exact hs.deo' _ vm1 h1 m hm1 hi1
  · exact hs.deo' _ _ _ m (by exact hm) hi

theorem Sound.perform (hs : Sound I B H) (r : Bool) (n pc : Nat) (vm : VM) (h : σ) (a : Action) (m : Nat)
    (hm : vm.memSize = m) (hi : I m h) :
    Kept I B m (fun x : Sys σ => x.vm) (fun x => x.host) (Spec.perform cfg H r n pc vm h a) := by
  cases a with
  | deviceIn p =>
    simp only [Spec.perform, bind, Except.bind, pure, Except.pure]
    have h1 := hs.deviceIn (cfg := cfg) n p vm h m hm hi
    cases hx : Spec.deviceIn cfg H n p vm h with
    | error u => rw [hx] at h1; exact h1
    | ok x => rw [hx] at h1; exact ⟨(memSize_pushValue _ _ _ _).trans h1.1, h1.2⟩
  | deviceOut p v =>
    simp only [Spec.perform, bind, Except.bind, pure, Except.pure]
    have h1 := hs.deviceOut n p v vm h m hm hi
    cases hx : Spec.deviceOut H n p v vm h with
    | error u => rw [hx] at h1; exact h1
    | ok x => rw [hx] at h1; exact h1
  | push vs => exact ⟨(memSize_pushAll _ _ _ _).trans hm, hi⟩
  | pushByte v => exact ⟨(memSize_pushValue _ _ _ _).trans hm, hi⟩
  | stash v => exact ⟨(memSize_pushValue _ _ _ _).trans hm, hi⟩
  | jump t => exact ⟨hm, hi⟩
  | call t => exact ⟨(memSize_pushValue _ _ _ _).trans hm, hi⟩
  | load a page => exact ⟨(memSize_pushValue _ _ _ _).trans hm, hi⟩
  | store a page v => exact ⟨(memSize_pokeMem _ _ _ _ _).trans hm, hi⟩

theorem Sound.operation (hs : Sound I B H) (op : Op) (s r k : Bool) (pc : Nat) (vm : VM) (h : σ) (m : Nat)
    (hm : vm.memSize = m) (hi : I m h) :
    Kept I B m (fun x : Sys σ => x.vm) (fun x => x.host) (Spec.operation cfg H op s r k pc vm h) := by
  unfold Spec.operation
  refine hs.perform _ _ _ _ _ _ m ?_ hi
  split
  · exact hm
  · exact (memSize_setPtr _ _ _).trans hm

theorem Sound.step (hs : Sound I B H) (s : Sys σ) (m : Nat) (hm : s.vm.memSize = m) (hi : I m s.host) :
    match Spec.step cfg H s with
    | .ok (some s') => s'.vm.memSize = m ∧ I m s'.host
    | .ok none => True
    | .error u => ¬ B u := by
  unfold Spec.step
  dsimp only
  generalize hn : (s.vm.memory s.pc).toNat % 32 = n
  cases n with
  | zero =>
    dsimp only
    generalize BitVec.getLsbD (s.vm.memory s.pc) 7 = k
    generalize BitVec.getLsbD (s.vm.memory s.pc) 6 = r
    generalize BitVec.getLsbD (s.vm.memory s.pc) 5 = sh
    cases k <;> cases r <;> cases sh <;>
      first
        | trivial
        | exact ⟨hm, hi⟩
        | exact ⟨(memSize_setPtr _ _ _).trans hm, hi⟩
        | exact ⟨(memSize_pushValue _ _ _ _).trans hm, hi⟩
  | succ b =>
    dsimp only
    cases mnemonics[b]? with
    | none => trivial
    | some op =>
      dsimp only
      have h1 := hs.operation (cfg := cfg) op ((s.vm.memory s.pc).getLsbD 5) ((s.vm.memory s.pc).getLsbD 6)
        ((s.vm.memory s.pc).getLsbD 7) ((s.pc + 1) % 65536) s.vm s.host m hm hi
      cases hx : Spec.operation cfg H op ((s.vm.memory s.pc).getLsbD 5) ((s.vm.memory s.pc).getLsbD 6)
        ((s.vm.memory s.pc).getLsbD 7) ((s.pc + 1) % 65536) s.vm s.host with
      | error u => rw [hx] at h1; exact h1
      | ok x => rw [hx] at h1; exact h1

/-- What is known when a run of at most `n` instructions is over. -/
def Fine (cfg : Cfg) (I : Nat → σ → Prop) (B : UB → Prop) (m : Nat) : Outcome σ → Prop
  | .halted vm h => vm.memSize = m ∧ I m h
  | .undefined u => B u → u = .signedOverflow ∧ cfg.wrapv = false
  | .running c => c.vm.memSize = m ∧ I m c.host

theorem runLoop_fine (hs : Sound I B H) (n : Nat) (c : Cpu σ) (m : Nat) (h64 : 65536 ≤ m) (hm : c.vm.memSize = m)
    (hi : I m c.host) : Fine cfg I B m (runLoop cfg H none n c) := by
  induction n generalizing c with
  | zero => exact ⟨hm, hi⟩
  | succ n ih =>
    have hr := step_related_c cfg H c (by omega)
    have h1 := hs.step (cfg := cfg) c.sys m hm hi
    have e : round cfg H none c = VM.step cfg H c := rfl
    unfold runLoop
    rw [e]
    cases hx : VM.step cfg H c with
    | error u =>
      rw [hx] at hr
      have hr : cstep cfg H c.sys = .error u := hr
      intro hb
      unfold cstep at hr
      split at hr
      · rename_i ho
        cases hr
        exact ⟨rfl, ho.1⟩
      · rw [hr] at h1
        exact absurd hb h1
    | ok x =>
      obtain ⟨b, c'⟩ := x
      rw [hx] at hr
      cases b with
      | false =>
        obtain ⟨-, h2, h3⟩ := hr
        exact ⟨by rw [h2]; exact hm, by rw [h3]; exact hi⟩
      | true =>
        have hr : cstep cfg H c.sys = .ok (some c'.sys) := hr
        unfold cstep at hr
        split at hr
        · cases hr
        · rw [hr] at h1
          exact ih c' h1.1 h1.2

/-- With devices that keep an invariant, whatever the program and for any number of instructions, the invariant holds at
the end and no undefined behaviour of the kinds that the devices avoid occurs (except for the overflow in `MUL2`). -/
theorem execute_fine (hs : Sound I B H) (k0 : Byte × Byte) (n : Nat) (vm : VM) (h : σ) (pc : Short)
    (h64 : 65536 ≤ vm.memSize) (hi : I vm.memSize h) : Fine cfg I B vm.memSize (execute cfg H none k0 n vm h pc) := by
  unfold execute
  split
  · exact ⟨rfl, hi⟩
  · exact runLoop_fine hs n _ _ h64 rfl hi

theorem runLoop_view_sound (hs : Sound I B H) (n : Nat) (c : Cpu σ) (m : Nat) (h64 : 65536 ≤ m) (hm : c.vm.memSize = m)
    (hi : I m c.host) : (runLoop cfg H none n c).view = Spec.run (cstep cfg H) n c.sys := by
  induction n generalizing c with
  | zero => rfl
  | succ n ih =>
    have hr := step_related_c cfg H c (by omega)
    have h1 := hs.step (cfg := cfg) c.sys m hm hi
    have e : round cfg H none c = VM.step cfg H c := rfl
    unfold runLoop Spec.run
    rw [e]
    cases hx : VM.step cfg H c with
    | error u => rw [hx] at hr; rw [show cstep cfg H c.sys = .error u from hr]; rfl
    | ok x =>
      obtain ⟨b, c'⟩ := x
      rw [hx] at hr
      cases b with
      | false =>
        obtain ⟨h1, h2, h3⟩ := hr
        rw [h1]
        simp only [Outcome.view, h2, h3]
      | true =>
        have hr : cstep cfg H c.sys = .ok (some c'.sys) := hr
        rw [hr]
        dsimp only
        unfold cstep at hr
        split at hr
        · cases hr
        · rw [hr] at h1
          exact ih c' h1.1 h1.2

/-- C01 for devices with an invariant: the code does what the instruction set says, instruction by instruction. -/
theorem execute_is_uxn_sound (hs : Sound I B H) (k0 : Byte × Byte) (n : Nat) (vm : VM) (h : σ) (pc : Short) (hpc : pc ≠ 0)
    (h64 : 65536 ≤ vm.memSize) (hi : I vm.memSize h) :
    (execute cfg H none k0 n vm h pc).view = Spec.run (cstep cfg H) n { vm := vm, host := h, pc := pc.toNat } := by
  unfold execute
  rw [if_neg hpc, runLoop_view_sound hs n _ _ h64 rfl hi]
  rfl

end Buxn.VM
