import Verif.Chess.C54
import Verif.Misc.Cli
import Verif.Gui.WholeSafe
/-!
# C54 with the devices of buxn

The signatures of C54 are kept as long as no device touches the stacks. Of all the devices only one does: the ports 04 and 05 of the system device *are* the stack pointers
(`/repo/src/devices/system.c:70-71`). Here the condition on the devices becomes one on the run: none of its instructions writes to these ports. With it C54 speaks of the
machines of `buxn-cli` and of `buxn-gui`.
-/

namespace Buxn.Chess

open Buxn.VM (Instr Op dispatch VM Host Cfg)
open Buxn.VM.Spec (valueAt operandsAt ptr stack Sys KeepsStacks)

variable {σ : Type}

/-! ## Specification -/

/-- The instruction that the machine is about to run is `DEO` or `DEO2` and writes to this port: the port is on top of the stack that the instruction works on, and `DEO2`
writes to the next one as well. -/
def WritesPort (s : Sys σ) (p : Byte) : Prop :=
  (s.vm.memory s.pc).toNat % 32 = 0x17 ∧
    let r := (s.vm.memory s.pc).getLsbD 6
    let top := stack r s.vm (ptr r s.vm - 1)
    p = top ∨ (s.vm.memory s.pc).getLsbD 5 = true ∧ p = top + 1

/-- The stack pointers stay what the instructions make of them. -/
def SparesPointers (s : Sys σ) : Prop := ∀ p, WritesPort s p → p ≠ 0x04 ∧ p ≠ 0x05

/-- Devices that only touch the stacks when one of the two ports is written to. -/
structure KeepsStacksBut45 (H : Host σ) : Prop where
  dei : ∀ a vm h v vm' h', H.dei a vm h = .ok (v, vm', h') → vm'.wsp = vm.wsp ∧ vm'.rsp = vm.rsp ∧ vm'.ws = vm.ws ∧ vm'.rs = vm.rs
  deo : ∀ a vm h vm' h', a ≠ 0x04 → a ≠ 0x05 → H.deo a vm h = .ok (vm', h') → vm'.wsp = vm.wsp ∧ vm'.rsp = vm.rsp ∧ vm'.ws = vm.ws ∧ vm'.rs = vm.rs

/-! ## The same devices without the two ports -/

/-- The devices with the two ports broken. -/
def without45 (H : Host σ) : Host σ where
  dei := H.dei
  deo a vm h := if a = 0x04 ∨ a = 0x05 then .error .oob else H.deo a vm h

theorem without45_keeps {H : Host σ} (h : KeepsStacksBut45 H) : KeepsStacks (without45 H) where
  dei := h.dei
  deo a vm d vm' d' e := by
    unfold without45 at e
    dsimp only at e
    split at e
    · cases e
    · rename_i hn
      exact h.deo a vm d vm' d' (fun x => hn (.inl x)) (fun x => hn (.inr x)) e

theorem deo_other {H : Host σ} {p : Byte} (h : p ≠ 0x04 ∧ p ≠ 0x05) : (without45 H).deo p = H.deo p := by
  funext vm d
  exact if_neg (fun e => e.elim h.1 h.2)

/-- The top of the stack is the port of `DEO`. -/
theorem deo_port (stk : Byte → Byte) (p : Byte) (n : Nat) (hn : n = 1 ∨ n = 2) :
    ∃ v, operandsAt stk (p - BitVec.ofNat 8 (Buxn.VM.Spec.operandSizes n .DEO).sum) (Buxn.VM.Spec.operandSizes n .DEO) = [v, (stk (p - 1)).toNat] := by
  rcases hn with rfl | rfl
  · refine ⟨valueAt stk (p - BitVec.ofNat 8 [1, 1].sum) 1, ?_⟩
    show [valueAt stk (p - BitVec.ofNat 8 [1, 1].sum) 1, valueAt stk (p - BitVec.ofNat 8 [1, 1].sum + BitVec.ofNat 8 1) 1] = _
    rw [show p - BitVec.ofNat 8 [1, 1].sum + BitVec.ofNat 8 1 = p - 1 by
      show p - 2 + 1 = p - 1
      bv_omega]
    rfl
  · refine ⟨valueAt stk (p - BitVec.ofNat 8 [2, 1].sum) 2, ?_⟩
    show [valueAt stk (p - BitVec.ofNat 8 [2, 1].sum) 2, valueAt stk (p - BitVec.ofNat 8 [2, 1].sum + BitVec.ofNat 8 2) 1] = _
    rw [show p - BitVec.ofNat 8 [2, 1].sum + BitVec.ofNat 8 2 = p - 1 by
      show p - 3 + 2 = p - 1
      bv_omega]
    rfl

/-- An instruction that spares the two ports does the same without them. -/
theorem step_without45 {cfg : Cfg} {H : Host σ} {s : Sys σ} (hs : SparesPointers s) :
    Buxn.VM.Spec.step cfg (without45 H) s = Buxn.VM.Spec.step cfg H s := by
  unfold Buxn.VM.Spec.step
  dsimp only
  split
  · rfl
  rename_i b hb
  cases hm : Buxn.VM.Spec.mnemonics[b]? with
  | none => rfl
  | some op =>
    dsimp only
    congr 1
    unfold Buxn.VM.Spec.operation
    dsimp only
    generalize hop : operandsAt (stack ((s.vm.memory s.pc).getLsbD 6) s.vm) _ _ = xs
    by_cases hd : op = .DEO
    · subst hd
      have hb17 : b = 0x16 := by
        have key : ∀ b < 31, Buxn.VM.Spec.mnemonics[b]? = some .DEO → b = 0x16 := by decide
        refine key b ?_ hm
        have := (List.getElem?_eq_some_iff.1 hm).1
        exact this
      subst hb17
      obtain ⟨v, hv⟩ := deo_port (stack ((s.vm.memory s.pc).getLsbD 6) s.vm) (ptr ((s.vm.memory s.pc).getLsbD 6) s.vm)
        (if (s.vm.memory s.pc).getLsbD 5 = true then 2 else 1) (by split <;> simp)
      rw [hop] at hv
      subst hv
      have h1 := hs _ ⟨hb, .inl rfl⟩
      have e1 : BitVec.ofNat 8 (stack ((s.vm.memory s.pc).getLsbD 6) s.vm (ptr ((s.vm.memory s.pc).getLsbD 6) s.vm - 1)).toNat =
          stack ((s.vm.memory s.pc).getLsbD 6) s.vm (ptr ((s.vm.memory s.pc).getLsbD 6) s.vm - 1) := by simp
      show Buxn.VM.Spec.perform _ _ _ _ _ _ _ (.deviceOut _ _) = Buxn.VM.Spec.perform _ _ _ _ _ _ _ (.deviceOut _ _)
      unfold Buxn.VM.Spec.perform
      dsimp only
      congr 1
      unfold Buxn.VM.Spec.deviceOut
      dsimp only
      rw [e1, deo_other h1]
      by_cases h5 : (s.vm.memory s.pc).getLsbD 5 = true
      · have h2 := hs _ ⟨hb, .inr ⟨h5, rfl⟩⟩
        have e2 : BitVec.ofNat 8 ((stack ((s.vm.memory s.pc).getLsbD 6) s.vm (ptr ((s.vm.memory s.pc).getLsbD 6) s.vm - 1)).toNat + 1) =
            stack ((s.vm.memory s.pc).getLsbD 6) s.vm (ptr ((s.vm.memory s.pc).getLsbD 6) s.vm - 1) + 1 := by
          rw [BitVec.ofNat_add]; simp
        rw [e2, deo_other h2]
      · rw [if_neg h5]
        rfl
    · have hnot : ∀ p v, Buxn.VM.Spec.action (if (s.vm.memory s.pc).getLsbD 5 = true then 2 else 1) ((s.pc + 1) % 65536) op xs ≠ .deviceOut p v := by
        intro p v
        unfold Buxn.VM.Spec.action
        split <;> (intro e; first | exact hd rfl | cases e)
      generalize Buxn.VM.Spec.action _ _ op xs = act at hnot
      cases act with
      | deviceOut p v => exact absurd rfl (hnot p v)
      | _ => rfl

theorem after_without45 {cfg : Cfg} {H : Host σ} {m : Nat} {s : Sys σ} (h : ∀ l t, l < m → after cfg H l s = some t → SparesPointers t) :
    ∀ l, l ≤ m → after cfg (without45 H) l s = after cfg H l s := by
  intro l
  induction l generalizing m s with
  | zero => intro _; rfl
  | succ l ih =>
    intro hl
    unfold after
    rw [step_without45 (h 0 s (by omega) rfl)]
    cases hs : Buxn.VM.Spec.step cfg H s with
    | error e => rfl
    | ok o =>
      cases o with
      | none => rfl
      | some s' =>
        refine ih (m := m - 1) (fun l' t hl' ht => h (l' + 1) t (by omega) ?_) (by omega)
        unfold after
        rw [hs]
        exact ht

/-- **C54, with devices that have the stack pointers on two of their ports.** As `C54_routines_keep_their_word_partial`; on the run no instruction may write to these ports. -/
theorem C54_with_devices_partial (rom : Short → Byte) (events : List Asm.Event) (n : Nat) (c : Run) (r : Reader)
    (hr : r = (readAll events).finish) (hc : check rom events n = some c) (hs : c.success = true) (hw : c.wrapped = false)
    (hseal : ∀ a, isRoutine (r.program rom) a = true → r.marked a = true) (extra : List Run) (hsafe : ∀ c0 ∈ extra, Safe c0)
    (hacc : ∀ c0 ∈ extra, ∃ m, Accepts (r.program rom) c0 m) (hR : Regular (r.program rom) (r.run :: extra))
    {cfg : Cfg} {H : Host σ} (hk : KeepsStacksBut45 H) {a : Short} (ha : isRoutine (r.program rom) a = true)
    {s : Sys σ} (hpc : s.pc = a.toNat) {m : Nat}
    (ht : ∀ l t, l < m → after cfg H l s = some t → Tame (r.program rom) (bottom (r.program rom) a s.vm) t ∧ SparesPointers t) :
    Obeys (r.program rom) cfg H a m s := by
  have he := after_without45 (m := m) (s := s) (H := H) (cfg := cfg) fun l t hl h => (ht l t hl h).2
  have key := C54_routines_keep_their_word_partial rom events n c r hr hc hs hw hseal extra hsafe hacc hR (without45_keeps hk) ha hpc (cfg := cfg) (m := m)
    fun l t hl h => (ht l t hl (by rw [← he l (by omega)]; exact h)).1
  have kept : ∀ l t, l < m → after cfg H l s = some t → Kept cfg (without45 H) (sigAt (r.program rom) a).kind (bottom (r.program rom) a s.vm)
      (fun r' => bottom (r.program rom) a s.vm r' + BitVec.ofNat 8 (total ((sigAt (r.program rom) a).outs r'))) t →
      Kept cfg H (sigAt (r.program rom) a).kind (bottom (r.program rom) a s.vm)
      (fun r' => bottom (r.program rom) a s.vm r' + BitVec.ofNat 8 (total ((sigAt (r.program rom) a).outs r'))) t := by
    intro l t hl h hkt
    exact ⟨hkt.fed, fun e => hkt.halt (by rw [step_without45 (ht l t hl h).2]; exact e)⟩
  rcases key with ⟨m', s', h1, h2, h3, h4, h5⟩ | h
  · refine .inl ⟨m', s', h1, by rw [← he m' h1]; exact h2, h3, h4, fun l t hl h => ?_⟩
    exact kept l t (by omega) h (h5 l t hl (by rw [he l (by omega)]; exact h))
  · exact .inr fun l t hl h' => kept l t hl h' (h l t hl (by rw [he l (by omega)]; exact h'))

/-! ## The devices of buxn -/

/-- Two machines with the same stacks. -/
def SameStacks (vm vm' : VM) : Prop := vm'.wsp = vm.wsp ∧ vm'.rsp = vm.rsp ∧ vm'.ws = vm.ws ∧ vm'.rs = vm.rs

theorem SameStacks.refl (vm : VM) : SameStacks vm vm := ⟨rfl, rfl, rfl, rfl⟩

theorem SameStacks.trans {a b c : VM} (h : SameStacks a b) (h' : SameStacks b c) : SameStacks a c :=
  ⟨h'.1.trans h.1, h'.2.1.trans h.2.1, h'.2.2.1.trans h.2.2.1, h'.2.2.2.trans h.2.2.2⟩

open Buxn.Gui.Whole (map_ok)
open Buxn.Gui (bind_ok)

theorem wr_stacks {vm vm' : VM} {a : Nat} {v : Byte} (h : vm.wr a v = .ok vm') : SameStacks vm vm' := by
  unfold VM.wr at h
  split at h
  · cases h; exact .refl _
  · cases h

theorem copyLeft_stacks {src dst len k : Nat} {vm vm' : VM} (h : System.copyLeft src dst len k vm = .ok vm') : SameStacks vm vm' := by
  induction k generalizing vm with
  | zero => cases h; exact .refl _
  | succ k ih =>
    unfold System.copyLeft at h
    obtain ⟨v, -, h⟩ := bind_ok h
    obtain ⟨vm1, h1, h⟩ := bind_ok h
    exact (wr_stacks h1).trans (ih h)

theorem copyRight_stacks {src dst k : Nat} {vm vm' : VM} (h : System.copyRight src dst k vm = .ok vm') : SameStacks vm vm' := by
  induction k generalizing vm with
  | zero => cases h; exact .refl _
  | succ k ih =>
    unfold System.copyRight at h
    obtain ⟨v, -, h⟩ := bind_ok h
    obtain ⟨vm1, h1, h⟩ := bind_ok h
    exact (wr_stacks h1).trans (ih h)

theorem memset_stacks {vm vm' : VM} {a n : Nat} {v : Byte} (h : System.memset vm a v n = .ok vm') : SameStacks vm vm' := by
  unfold System.memset at h
  split at h
  · cases h; exact .refl _
  · cases h

theorem expansion_stacks {vm vm' : VM} (h : System.expansion vm = .ok vm') : SameStacks vm vm' := by
  unfold System.expansion at h
  obtain ⟨op, -, h⟩ := bind_ok h
  obtain ⟨len, -, h⟩ := bind_ok h
  split at h
  · obtain ⟨_, -, h⟩ := bind_ok h
    obtain ⟨_, -, h⟩ := bind_ok h
    obtain ⟨_, -, h⟩ := bind_ok h
    exact memset_stacks h
  · split at h
    · obtain ⟨_, -, h⟩ := bind_ok h
      obtain ⟨_, -, h⟩ := bind_ok h
      obtain ⟨_, -, h⟩ := bind_ok h
      obtain ⟨_, -, h⟩ := bind_ok h
      split at h
      · exact copyLeft_stacks h
      · exact copyRight_stacks h
    · cases h; exact .refl _

theorem system_deo_stacks {cb : System.Callbacks σ} {a : Byte} {vm vm' : VM} {d d' : σ} (h4 : a ≠ 0x04) (h5 : a ≠ 0x05)
    (hm : ∀ x vm d vm' d', cb.setMetadata x vm d = .ok (vm', d') → SameStacks vm vm') (ht : ∀ vm d vm' d', cb.themeChanged vm d = .ok (vm', d') → SameStacks vm vm')
    (hd : ∀ x vm d vm' d', cb.debug x vm d = .ok (vm', d') → SameStacks vm vm') (h : System.deo cb a vm d = .ok (vm', d')) : SameStacks vm vm' := by
  unfold System.deo at h
  split at h
  · obtain ⟨vm1, h1, h⟩ := bind_ok h
    cases h
    exact expansion_stacks h1
  split at h
  · exact hm _ _ _ _ _ h
  split at h
  · exact ht _ _ _ _ h
  split at h
  · split at h
    · exact hd _ _ _ _ _ h
    · cases h; exact .refl _
  · cases h; exact .refl _

theorem fileDeo_stacks {τ : Type} {F : File.Host τ} {second : Bool} {id a : Byte} {vm vm' : VM} {d d' : Cli.Data τ} (h : Cli.fileDeo F second id a vm d = .ok (vm', d')) :
    SameStacks vm vm' := by
  unfold Cli.fileDeo at h
  obtain ⟨w, -, h⟩ := map_ok h
  cases h
  exact .refl _

/-- **C54.** The devices of `buxn-cli` touch the stacks at the two ports only. -/
theorem C54_cli_devices {τ : Type} (F : File.Host τ) (con : Input.Console) : KeepsStacksBut45 (Cli.host F con) where
  dei a vm d v vm' d' h := by
    change Cli.dei con a vm d = _ at h
    unfold Cli.dei at h
    dsimp only at h
    repeat' split at h
    all_goals first
      | (cases h; exact SameStacks.refl _)
      | (obtain ⟨w, -, h⟩ := map_ok h; cases h; exact SameStacks.refl _)
  deo a vm d vm' d' h4 h5 h := by
    change Cli.deo F con a vm d = _ at h
    unfold Cli.deo at h
    dsimp only at h
    split at h
    · refine system_deo_stacks h4 h5 ?_ ?_ ?_ h
      all_goals (intros; rename_i e; cases e; exact SameStacks.refl _)
    split at h
    · cases h; exact SameStacks.refl _
    split at h
    · exact fileDeo_stacks h
    split at h
    · exact fileDeo_stacks h
    · cases h; exact SameStacks.refl _

theorem setMetadata_stacks {vm vm' : VM} {a : Short} {es : List Gui.Title.Effect} (h : Gui.Title.setMetadata vm a = .ok (es, vm')) : SameStacks vm vm' := by
  unfold Gui.Title.setMetadata at h
  obtain ⟨m, -, h⟩ := bind_ok h
  cases m with
  | none => cases h; exact SameStacks.refl _
  | some m =>
    obtain ⟨⟨es, mem⟩, -, h⟩ := bind_ok h
    cases h; exact SameStacks.refl _

/-- **C54.** So do those of `buxn-gui`. -/
theorem C54_gui_devices {τ : Type} (F : File.Host τ) (S : Gui.Whole.Sounds) (dev : Gui.Devices) : KeepsStacksBut45 (Gui.Whole.host F S dev) where
  dei a vm d v vm' d' h := by
    change Gui.Whole.dei S dev a vm d = _ at h
    unfold Gui.Whole.dei at h
    dsimp only at h
    repeat' split at h
    all_goals first
      | (cases h; exact SameStacks.refl _)
      | (obtain ⟨w, -, h⟩ := map_ok h; cases h; exact SameStacks.refl _)
      | skip
    unfold Gui.Whole.audioDei at h
    obtain ⟨x, -, h⟩ := bind_ok h
    obtain ⟨y, -, h⟩ := bind_ok h
    cases h
    exact SameStacks.refl _
  deo a vm d vm' d' h4 h5 h := by
    change Gui.Whole.deo F dev a vm d = _ at h
    unfold Gui.Whole.deo at h
    dsimp only at h
    split at h
    · refine system_deo_stacks h4 h5 ?_ ?_ ?_ h
      all_goals (intros; rename_i e; try (cases e; exact SameStacks.refl _))
      obtain ⟨x, h1, e⟩ := bind_ok e
      cases e
      exact setMetadata_stacks h1
    split at h
    · split at h
      · obtain ⟨x, -, h⟩ := bind_ok h
        cases h; exact SameStacks.refl _
      · obtain ⟨x, -, h⟩ := bind_ok h
        cases h; exact SameStacks.refl _
      · cases h; exact SameStacks.refl _
    split at h
    · obtain ⟨x, -, h⟩ := bind_ok h
      cases h; exact SameStacks.refl _
    split at h
    · split at h <;> (cases h; exact SameStacks.refl _)
    split at h
    · obtain ⟨x, h1, h⟩ := map_ok h
      cases h
      exact fileDeo_stacks h1
    split at h
    · obtain ⟨x, h1, h⟩ := map_ok h
      cases h
      exact fileDeo_stacks h1
    · cases h; exact SameStacks.refl _

end Buxn.Chess
