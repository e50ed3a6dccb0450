import Verif.Chess.Branch
import Verif.VM.StepLemmas
/-!
# C46: literals and immediate jumps, on both sides
-/

namespace Buxn.Chess

open Buxn.VM (Instr Op dispatch VM Host Cfg)
open Buxn.VM.Spec (valueAt operandsAt pushValue ptr stack setPtr Action action operandSizes Sys KeepsStacks operation peekMem)

variable {σ : Type}

/-! ## The instruction that the VM executes -/

/-- The VM executes an instruction; `s.pc` is the address after the opcode. -/
def execute (cfg : Cfg) (H : Host σ) (s : Sys σ) : Instr → Res (Option (Sys σ))
  | .BRK => .ok none
  | .JCI => .ok (some ⟨setPtr false (s.vm.wsp - 1) s.vm, s.host,
      (if s.vm.ws (s.vm.wsp - 1) = 0 then s.pc + 2 else s.pc + 2 + peekMem s.vm s.pc 65536 2) % 65536⟩)
  | .JMI => .ok (some ⟨s.vm, s.host, (s.pc + 2 + peekMem s.vm s.pc 65536 2) % 65536⟩)
  | .JSI => .ok (some ⟨pushValue true 2 ((s.pc + 2) % 65536) s.vm, s.host, (s.pc + 2 + peekMem s.vm s.pc 65536 2) % 65536⟩)
  | .LIT r b => .ok (some ⟨pushValue r (width b) (peekMem s.vm s.pc 65536 (width b)) s.vm, s.host, (s.pc + width b) % 65536⟩)
  | .poly op k r b => (operation cfg H op b r k s.pc s.vm s.host).map some

theorem step_execute (cfg : Cfg) (H : Host σ) (s : Sys σ) {i : Instr} (h : dispatch (s.vm.memory s.pc) = some i) :
    Buxn.VM.Spec.step cfg H s = execute cfg H { s with pc := (s.pc + 1) % 65536 } i := by
  rw [Buxn.VM.dispatch_bits] at h
  unfold Buxn.VM.decodeBits at h
  unfold Buxn.VM.Spec.step
  dsimp only at h ⊢
  generalize s.vm.memory s.pc = b at *
  cases hb : b.toNat % 32 with
  | zero =>
    rw [hb] at h
    dsimp only at h ⊢
    revert h; cases b.getLsbD 7 <;> cases b.getLsbD 6 <;> cases b.getLsbD 5 <;> (intro h; cases h; rfl)
  | succ n =>
    rw [hb] at h
    dsimp only at h ⊢
    cases hm : Buxn.VM.Spec.mnemonics[n]? with
    | none => rw [hm] at h; cases h
    | some op => rw [hm] at h; cases h; rfl

/-! ## What has to be as it was assembled -/

/-- The operand bytes that the checker reads from the ROM when it executes the instruction at an address: the operand of
an immediate jump, and those bytes of a literal that have no label. (A labelled byte is a variable: the checker does not
look at it.) -/
def operandBytes (P : Program) (a : Short) : List Short :=
  match dispatch (P.rom a) with
  | some .JCI | some .JMI | some .JSI => [a + 1, a + 2]
  | some (.LIT _ false) => if (P.label (a + 1)).isSome then [] else [a + 1]
  | some (.LIT _ true) =>
    if (P.label (a + 1)).isSome then (if (P.label (a + 2)).isSome || (P.sym (a + 2)).isNone then [] else [a + 2])
    else [a + 1, a + 2]
  | _ => []

/-- The code of the instruction at an address is still what was assembled. -/
def Intact (P : Program) (mem : Nat → Byte) (a : Short) : Prop := ∀ b ∈ a :: operandBytes P a, mem b.toNat = P.rom b

/-! ## Literals -/

/-- Pushing a literal so far. -/
def Loading (E : Env) (base : Bool → Byte) (vm : VM) (c c2 : Run) : Prop :=
  c2.wrapped = true ∨ c2.terminated = true ∨ Ready E E base vm c c2

theorem Loading.push {E : Env} {base : Bool → Byte} {vm : VM} {c c2 : Run} (h : Loading E base vm c c2) (r : Bool) {v : Value}
    {x : Nat} (hg : Good E v x) (h1 : v.halfHi = false) (h2 : v.halfLo = false) (hv : Small v) :
    Loading E base (pushValue r v.size x vm) c (pushEx r v c2) := by
  rcases h with h | h | h
  · exact .inl ((pushEx_plainly r v c2).on.wrapped h)
  · exact .inr (.inl ((pushEx_plainly r v c2).on.stopped h))
  · exact h.push r hg h1 h2 hv

theorem Ready.warning {E E' : Env} {base : Bool → Byte} {vm : VM} {c c2 : Run} (h : Ready E E' base vm c c2) (w : Doubt) :
    Ready E E' base vm c (warning w c2) :=
  ⟨h.ret, h.sim, ⟨h.ok.nodes, h.ok.wst, h.ok.rst⟩, h.running, h.pc, h.key, h.arcs, h.queue, h.flag, h.exact⟩

theorem Loading.warning {E : Env} {base : Bool → Byte} {vm : VM} {c c2 : Run} (h : Loading E base vm c c2) (w : Doubt) :
    Loading E base vm c (warning w c2) := by
  rcases h with h | h | h
  · exact .inl h
  · exact .inr (.inl h)
  · exact .inr (.inr (h.warning w))

theorem byte_good {E : Env} {v : Value} (b : Byte) (h1 : v.short = false) (h2 : v.const = true → v.value = b.setWidth 16)
    (h3 : v.ret = false) (h4 : v.halfHi = false) (h5 : v.halfLo = false) : Good E v b.toNat := by
  have hz := (size_eq_one v).mpr h1
  have hb := b.isLt
  refine ⟨by rw [hz]; omega, ?_, ?_, ?_, ?_⟩
  · intro hc
    rw [h2 hc, hz, BitVec.toNat_setWidth]
    omega
  · intro h; rw [h3] at h; cases h
  · intro h; rw [h4] at h; cases h
  · intro h; rw [h5] at h; cases h

theorem short_good {E : Env} {v : Value} (x : Nat) (hx : x < 65536) (h1 : v.short = true) (h2 : v.const = true → v.value.toNat = x)
    (h3 : v.ret = false) (h4 : v.halfHi = false) (h5 : v.halfLo = false) : Good E v x := by
  have hz := (size_eq_two v).mpr h1
  refine ⟨by rw [hz]; exact hx, ?_, ?_, ?_, ?_⟩
  · intro hc
    rw [h2 hc, hz]
    exact Nat.mod_eq_of_lt hx
  · intro h; rw [h3] at h; cases h
  · intro h; rw [h4] at h; cases h
  · intro h; rw [h5] at h; cases h

theorem rom2_toNat (P : Program) (a b : Short) : (rom2 P a b).toNat = (P.rom a).toNat * 256 + (P.rom b).toNat := by
  have := (P.rom a).isLt
  have := (P.rom b).isLt
  unfold rom2
  rw [BitVec.toNat_or, BitVec.toNat_shiftLeft, BitVec.toNat_setWidth, BitVec.toNat_setWidth, Nat.shiftLeft_eq]
  rw [Nat.mod_eq_of_lt (show (P.rom a).toNat < 2 ^ 16 by omega), Nat.mod_eq_of_lt (show (P.rom b).toNat < 2 ^ 16 by omega),
    Nat.mod_eq_of_lt (show (P.rom a).toNat * 2 ^ 8 < 2 ^ 16 by omega), Nat.mul_comm, ← Nat.two_pow_add_eq_or_of_lt (by omega)]
  omega

theorem rom_small (P : Program) (a : Short) : ((P.rom a).setWidth 16).toNat < 256 := by
  rw [BitVec.toNat_setWidth]
  have := (P.rom a).isLt
  omega

/-- A byte of a literal. -/
theorem litByte_sim {E : Env} {base : Bool → Byte} {vm : VM} {c c2 : Run} (h : Loading E base vm c c2) (P : Program) (a : Short)
    (sym : Option Sym) (r : Bool) (x : Byte) (hx : x = P.rom a) :
    Loading E base (pushValue r 1 x.toNat vm) c (pushEx r (litByte P a sym c2).1 (litByte P a sym c2).2) := by
  subst hx
  unfold litByte
  split
  · exact (h.warning .unlabelled).push (v := {}) r (byte_good _ rfl (fun h => (by cases h)) rfl rfl rfl) rfl rfl (fun _ h => (by cases h))
  · split
    · exact h.push r (v := { address := true, const := true, value := (P.rom a).setWidth 16, nominal := true, type := _ })
        (byte_good _ rfl (fun _ => rfl) rfl rfl rfl) rfl rfl (fun _ _ => rom_small P a)
    · exact h.push r (v := { const := true, value := (P.rom a).setWidth 16 }) (byte_good _ rfl (fun _ => rfl) rfl rfl rfl) rfl rfl (fun _ _ => rom_small P a)

theorem litByte_flagR (P : Program) (a : Short) (s : Option Sym) (c : Run) : flagR (litByte P a s c).2 = flagR c := by
  unfold litByte
  split
  · rfl
  · split <;> rfl

theorem pushValue_two (r : Bool) (x y : Byte) (vm : VM) :
    pushValue r 1 y.toNat (pushValue r 1 x.toNat vm) = pushValue r 2 (x.toNat * 256 + y.toNat) vm := by
  have e1 : BitVec.ofNat 8 ((x.toNat * 256 + y.toNat) / 256) = x := by
    have := y.isLt
    rw [show (x.toNat * 256 + y.toNat) / 256 = x.toNat by omega]
    simp
  have e2 : BitVec.ofNat 8 (x.toNat * 256 + y.toNat) = y := by
    apply BitVec.eq_of_toNat_eq
    have := y.isLt
    simp only [BitVec.toNat_ofNat]
    omega
  have e3 : ∀ p : Byte, p + 1 + 1 = p + 2 := by decide +kernel
  cases r <;> simp [pushValue, Buxn.VM.Spec.poke, setPtr, ptr, e1, e2] <;> exact e3 _

/-- A literal. -/
theorem opLIT_sim (P : Program) (c : Run) {E : Env} {base : Bool → Byte} {vm : VM}
    (hsim : Sim E base vm c.stacks c.nodes) (hok : c.Ok) (ht : c.terminated = false)
    (hfirst : P.label c.pc = none → vm.memory c.pc.toNat = P.rom c.pc)
    (hsecond : flag2 c = true → ¬ ((P.label c.pc).isSome = true ∧ ((P.label (c.pc + 1)).isSome || (P.sym (c.pc + 1)).isNone) = true) →
      vm.memory (c.pc + 1).toNat = P.rom (c.pc + 1)) :
    ∃ c1, c1 = { c with pc := c.pc + BitVec.ofNat 16 (width (flag2 c)) } ∧
    Loading E base (pushValue (flagR c) (width (flag2 c)) (peekMem vm c.pc.toNat 65536 (width (flag2 c))) vm) c1 (opLIT P c) := by
  refine ⟨_, rfl, ?_⟩
  have hmod : c.pc.toNat % 65536 = c.pc.toNat := Nat.mod_eq_of_lt c.pc.isLt
  have hp1 : peekMem vm c.pc.toNat 65536 1 = (vm.memory c.pc.toNat).toNat := by
    unfold peekMem; rw [if_neg (by decide), hmod]
  have hsucc : (c.pc.toNat + 1) % 65536 = (c.pc + 1).toNat := by rw [BitVec.toNat_add]; rfl
  have hp2 : peekMem vm c.pc.toNat 65536 2 = (vm.memory c.pc.toNat).toNat * 256 + (vm.memory (c.pc + 1).toNat).toNat := by
    unfold peekMem; rw [if_pos rfl, hmod, hsucc]
  have hlt : (vm.memory c.pc.toNat).toNat * 256 + (vm.memory (c.pc + 1).toNat).toNat < 65536 := by
    have := (vm.memory c.pc.toNat).isLt
    have := (vm.memory (c.pc + 1).toNat).isLt
    omega
  unfold opLIT
  cases h2 : flag2 c
  · rw [if_neg (by simp)]
    have st : Loading E base vm { c with pc := c.pc + 1 } { c with pc := c.pc + 1 } :=
      .inr (.inr (ready_refl (c := { c with pc := c.pc + 1 }) hsim ⟨hok.nodes, hok.wst, hok.rst⟩ ht))
    show Loading E base (pushValue (flagR c) 1 (peekMem vm c.pc.toNat 65536 1) vm) { c with pc := c.pc + 1 } _
    rw [hp1]
    dsimp only
    split
    · rename_i sig _
      exact st.push (flagR c) (v := labelValue sig) (byte_good _ rfl (fun h => (by cases h)) rfl rfl rfl) rfl rfl (fun _ h => (by cases h))
    · rename_i hl
      split
      · rename_i s _
        have h1 := litByte_sim st P c.pc (some s) (flagR c) _ (hfirst hl)
        unfold push
        rw [litByte_flagR]
        exact h1
      · exact st.push (flagR c) (v := {}) (byte_good _ rfl (fun h => (by cases h)) rfl rfl rfl) rfl rfl (fun _ h => (by cases h))
  · rw [if_pos (by rfl)]
    have st : Loading E base vm { c with pc := c.pc + 2 } { c with pc := c.pc + 2 } :=
      .inr (.inr (ready_refl (c := { c with pc := c.pc + 2 }) hsim ⟨hok.nodes, hok.wst, hok.rst⟩ ht))
    show Loading E base (pushValue (flagR c) 2 (peekMem vm c.pc.toNat 65536 2) vm) { c with pc := c.pc + 2 } _
    rw [hp2]
    unfold lit2
    dsimp only
    have vague : ∀ v : Value, v.short = true → v.const = false → v.ret = false → v.halfHi = false → v.halfLo = false →
        ∀ c2, Loading E base vm { c with pc := c.pc + 2 } c2 →
        Loading E base (pushValue (flagR c) 2 ((vm.memory c.pc.toNat).toNat * 256 + (vm.memory (c.pc + 1).toNat).toNat) vm)
          { c with pc := c.pc + 2 } (pushEx (flagR c) v c2) := by
      intro v h1 h2 h3 h4 h5 c2 st
      have := st.push (flagR c) (v := v) (short_good _ hlt h1 (by rw [h2]; intro h; cases h) h3 h4 h5) h4 h5 (fun h => (by rw [h1] at h; cases h))
      rwa [(size_eq_two v).mpr h1] at this
    split
    · rename_i sig hl
      split
      · rename_i sig' hl'
        have h1 := st.push (flagR c) (v := labelValue sig) (byte_good (vm.memory c.pc.toNat) rfl (fun h => (by cases h)) rfl rfl rfl) rfl rfl (fun _ h => (by cases h))
        have h2 := h1.push (flagR c) (v := labelValue sig') (byte_good (vm.memory (c.pc + 1).toNat) rfl (fun h => (by cases h)) rfl rfl rfl) rfl rfl (fun _ h => (by cases h))
        rw [← pushValue_two]
        show Loading E base _ _ (push _ (pushEx (flagR c) _ _))
        unfold push
        rw [flagR_pushEx]
        exact h2
      · rename_i hl'
        split
        · exact vague { labelValue sig with short := true } rfl rfl rfl rfl rfl _ st
        · rename_i s hs
          have h1 := st.push (flagR c) (v := labelValue sig) (byte_good (vm.memory c.pc.toNat) rfl (fun h => (by cases h)) rfl rfl rfl) rfl rfl (fun _ h => (by cases h))
          have h2 := litByte_sim h1 P (c.pc + 1) (some s) (flagR c) _ (hsecond h2 (fun hh => by have := hh.2; rw [hl', hs] at this; cases this))
          rw [← pushValue_two]
          show Loading E base _ _ (pushEx (flagR _) _ _)
          rw [litByte_flagR, push, flagR_pushEx]
          exact h2
    · rename_i hl
      have hm1 := hfirst hl
      have hm2 := hsecond h2 (fun hh => by have := hh.1; rw [hl] at this; cases this)
      have const : ∀ v : Value, v.short = true → v.value = rom2 P c.pc (c.pc + 1) → v.ret = false → v.halfHi = false →
          v.halfLo = false → Loading E base (pushValue (flagR c) 2 ((vm.memory c.pc.toNat).toNat * 256 + (vm.memory (c.pc + 1).toNat).toNat) vm)
          { c with pc := c.pc + 2 } (pushEx (flagR c) v { c with pc := c.pc + 2 }) := by
        intro v h1 h2 h3 h4 h5
        have := st.push (flagR c) (v := v) (short_good _ hlt h1 (fun _ => by rw [h2, rom2_toNat, hm1, hm2]) h3 h4 h5) h4 h5 (fun h => (by rw [h1] at h; cases h))
        rwa [(size_eq_two v).mpr h1] at this
      split
      · split
        · split
          · exact const { short := true, address := true, const := true, value := rom2 P c.pc (c.pc + 1) } rfl rfl rfl rfl rfl
          · split
            · exact const { short := true, const := true, value := rom2 P c.pc (c.pc + 1) } rfl rfl rfl rfl rfl
            · exact vague { short := true } rfl rfl rfl rfl rfl _ (st.warning .unlabelled)
        · exact vague { short := true } rfl rfl rfl rfl rfl _ (st.warning .unlabelled)
      · have h1 := litByte_sim st P c.pc (P.sym c.pc) (flagR c) _ hm1
        have h2 := litByte_sim h1 P (c.pc + 1) (P.sym (c.pc + 1)) (flagR c) _ hm2
        rw [← pushValue_two]
        unfold push
        rw [litByte_flagR, litByte_flagR, flagR_pushEx, litByte_flagR]
        exact h2

end Buxn.Chess
