import Verif.VM.Relocation
import Verif.Misc.Memory
import Verif.Gui.WholeProps
import Verif.Chess.Effect
/-!
# C91: where the stacks begin, and what lies below, does not matter

The second part: what lies below is left alone, and the devices of `buxn-cli` and `buxn-gui`.
-/
namespace Buxn.VM
open Spec
variable {σ : Type}

/-! ## What lies below is left alone -/

theorem takes_reach : ∀ (b : Byte) (r : Bool), ∀ i, dispatch b = some i → Chess.reach i r = takes b r := by decide +kernel

theorem step_below {cfg : Cfg} {H : Host σ} (hk : KeepsStacks H) {O : Bool → Byte} {s s' : Sys σ} {L : Nat} (hL : L ≤ 249) (hs : Served O s)
    (hh : ∀ r, height O r s.vm ≤ L) (e : Spec.step cfg H s = .ok (some s')) (r : Bool) (j : Nat) (h1 : L + 6 ≤ j) (h2 : j < 256) :
    stack r s'.vm (O r + BitVec.ofNat 8 j) = stack r s.vm (O r + BitVec.ofNat 8 j) := by
  cases hi : dispatch (s.vm.memory s.pc) with
  | none =>
    have : ∀ b : Byte, dispatch b ≠ none := by decide +kernel
    exact absurd hi (this _)
  | some i =>
    obtain ⟨n, m, hn, hm, hp, hc⟩ := Chess.step_effect hk hi e r
    rw [takes_reach _ _ _ hi] at hn
    have hn' := Nat.le_trans hn (hs r).1
    have hr := hh r
    rw [ptr_at O r s.vm, below _ hn'] at hc
    have := hc (j - (height O r s.vm - n)) (by omega) (by omega)
    rw [add_ofNat, show height O r s.vm - n + (j - (height O r s.vm - n)) = j by omega] at this
    exact this

/-- The machine that a run has come to. -/
def _root_.Buxn.VM.Spec.Outcome.vm? : Spec.Outcome σ → Option VM
  | .halted vm _ => some vm
  | .undefined _ => none
  | .running s => some s.vm

/-- **C91**, the caller's stacks: a run that finds its operands above the bottoms of its stacks and never has more than `L` bytes above them between two
instructions leaves all cells alone that are not among the `L + 6` above the bottoms. (An instruction can leave six bytes above what it finds.) -/
theorem C91_below_kept {H : Host σ} (hk : KeepsStacks H) (hm' : KeepsMemSize H) (cfg : Cfg) (k0 : Byte × Byte) (n : Nat) (O : Bool → Byte) (L : Nat) (hL : L ≤ 249)
    (vm : VM) (hm : 65536 ≤ vm.memSize) (h : σ) (pc : Short)
    (hs : ∀ t ∈ visited (cstep cfg H) n ⟨vm, h, pc.toNat⟩, Served O t ∧ ∀ r, height O r t.vm ≤ L) (vm' : VM)
    (he : (execute cfg H none k0 n vm h pc).view.vm? = some vm') (r : Bool) (j : Nat) (h1 : L + 6 ≤ j) (h2 : j < 256) :
    stack r vm' (O r + BitVec.ofNat 8 j) = stack r vm (O r + BitVec.ofNat 8 j) := by
  have key : ∀ (n : Nat) (s : Sys σ), (∀ t ∈ visited (cstep cfg H) n s, Served O t ∧ ∀ r, height O r t.vm ≤ L) →
      (Spec.run (cstep cfg H) n s).vm? = some vm' → stack r vm' (O r + BitVec.ofNat 8 j) = stack r s.vm (O r + BitVec.ofNat 8 j) := by
    intro n
    induction n with
    | zero => intro s _ e; cases e; rfl
    | succ n ih =>
      intro s hs e
      have h0 := hs s (by unfold visited; simp)
      have hs' : ∀ t ∈ (match cstep cfg H s with | .ok (some s') => visited (cstep cfg H) n s' | _ => []), Served O t ∧ ∀ r, height O r t.vm ≤ L :=
        fun t ht => hs t (by unfold visited; exact List.mem_cons_of_mem _ ht)
      unfold Spec.run at e
      cases hc : cstep cfg H s with
      | error u => rw [hc] at e; cases e
      | ok x =>
        rw [hc] at e hs'
        cases x with
        | none => cases e; rfl
        | some s' =>
          rw [ih s' hs' e]
          unfold cstep at hc
          split at hc
          · cases hc
          · exact step_below hk hL h0.1 h0.2 hc r j h1 h2
  by_cases hpc : pc = 0
  · unfold VM.execute at he
    rw [if_pos hpc] at he
    cases he
    rfl
  · rw [C01_execute_is_uxn_iso cfg H hm' k0 n vm hm h pc hpc] at he
    exact key n _ hs he

/-! ## Devices with refused accesses -/

theorem Guards.visited {t : UB} {H' H : Host σ} {cfg : Cfg} (hg : Guards t H' H) (n : Nat) (s : Sys σ) (hr : Spec.run (cstep cfg H') n s ≠ .undefined t) :
    Spec.visited (cstep cfg H') n s = Spec.visited (cstep cfg H) n s := by
  induction n generalizing s with
  | zero => rfl
  | succ n ih =>
    have hc : SameOr t (cstep cfg H' s) (cstep cfg H s) := by
      unfold cstep
      split
      · exact .inl rfl
      · exact hg.step s
    unfold Spec.visited
    unfold Spec.run at hr
    rcases hc with e | e
    · rw [e] at hr ⊢
      cases hx : cstep cfg H s with
      | error u => rfl
      | ok x =>
        rw [hx] at hr
        cases x with
        | none => rfl
        | some s' => dsimp only; rw [ih s' hr]
    · rw [e] at hr
      exact absurd rfl hr

theorem Guards.run_eq {t : UB} {H' H : Host σ} {cfg : Cfg} (hg : Guards t H' H) (n : Nat) (s : Sys σ) (hr : Spec.run (cstep cfg H') n s ≠ .undefined t) :
    Spec.run (cstep cfg H') n s = Spec.run (cstep cfg H) n s := (hg.run n s).resolve_right hr

/-- Both parts of C91 for devices that do not look at the stacks on this run: those accesses that would are refused, by the error `t`, and the run is not
one that is stopped by it. -/
theorem Guards.same_wherever {t : UB} {H' H : Host σ} (hg : Guards t H' H) (hb : Blind H') (hk : KeepsMemSize H) (cfg : Cfg) (k0 k0' : Byte × Byte) (n : Nat) (vm : VM)
    (hm : 65536 ≤ vm.memSize) (h : σ) (pc : Short) (T : Bool → Byte) (hr : Spec.run (cstep cfg H') n ⟨vm, h, pc.toNat⟩ ≠ .undefined t) :
    Ends (fun vm vm' => vm' = vm.turn T) (VM.execute cfg H none k0 n vm h pc).view (VM.execute cfg H none k0' n (vm.turn T) h pc).view := by
  by_cases hpc : pc = 0
  · unfold VM.execute
    rw [if_pos hpc, if_pos hpc]
    exact .halted rfl
  · rw [C01_execute_is_uxn_iso cfg H hk k0 n vm hm h pc hpc, C01_execute_is_uxn_iso cfg H hk k0' n (vm.turn T) hm h pc hpc]
    have key := hb.run_turn (T := T) cfg n ⟨vm, h, pc.toNat⟩
    have hr' : Spec.run (cstep cfg H') n ⟨vm.turn T, h, pc.toNat⟩ ≠ .undefined t := by
      intro e
      rw [show (⟨vm.turn T, h, pc.toNat⟩ : Sys σ) = (⟨vm, h, pc.toNat⟩ : Sys σ).turn T from rfl] at e
      rw [e] at key
      generalize Spec.run (cstep cfg H') n ⟨vm, h, pc.toNat⟩ = o at key hr
      cases key
      exact hr rfl
    rw [← hg.run_eq n _ hr, ← hg.run_eq n _ hr']
    exact key

theorem Guards.same_above {t : UB} {H' H : Host σ} (hg : Guards t H' H) (hb : Blind H') (hk : KeepsMemSize H) (cfg : Cfg) (k0 k0' : Byte × Byte) (n : Nat)
    (O O' : Bool → Byte) (vm vm' : VM) (hm : 65536 ≤ vm.memSize) (hv : Same O O' vm vm') (h : σ) (pc : Short)
    (hr : Spec.run (cstep cfg H') n ⟨vm, h, pc.toNat⟩ ≠ .undefined t) (hs : ∀ t ∈ Spec.visited (cstep cfg H) n ⟨vm, h, pc.toNat⟩, Served O t) :
    Ends (Same O O') (VM.execute cfg H none k0 n vm h pc).view (VM.execute cfg H none k0' n vm' h pc).view := by
  by_cases hpc : pc = 0
  · unfold VM.execute
    rw [if_pos hpc, if_pos hpc]
    exact .halted hv
  · rw [C01_execute_is_uxn_iso cfg H hk k0 n vm hm h pc hpc, C01_execute_is_uxn_iso cfg H hk k0' n vm' (by rw [hv.memSize]; exact hm) h pc hpc]
    rw [← hg.visited n _ hr] at hs
    have key := hb.run_same cfg n hv h pc.toNat hs
    have hr' : Spec.run (cstep cfg H') n ⟨vm', h, pc.toNat⟩ ≠ .undefined t := by
      intro e
      rw [e] at key
      generalize Spec.run (cstep cfg H') n ⟨vm, h, pc.toNat⟩ = o at key hr
      cases key
      exact hr rfl
    rw [← hg.run_eq n _ hr, ← hg.run_eq n _ hr']
    exact key

theorem Blind.keepsStacks {H : Host σ} (hb : Blind H) : KeepsStacks H where
  dei a vm h v vm' h' e := by
    have := hb.dei_keeps e
    exact ⟨congrArg Stacks.wsp this, congrArg Stacks.rsp this, congrArg Stacks.ws this, congrArg Stacks.rs this⟩
  deo a vm h vm' h' e := by
    have := hb.deo_keeps e
    exact ⟨congrArg Stacks.wsp this, congrArg Stacks.rsp this, congrArg Stacks.ws this, congrArg Stacks.rs this⟩

theorem Guards.keeps {t : UB} {H' H : Host σ} (hg : Guards t H' H) (hk : KeepsMemSize H) : KeepsMemSize H' where
  dei a vm h v vm' h' e := by
    rcases hg.dei a vm h with f | f
    · exact hk.dei _ _ _ _ _ _ (f.symm.trans e)
    · rw [f] at e; cases e
  deo a vm h vm' h' e := by
    rcases hg.deo a vm h with f | f
    · exact hk.deo _ _ _ _ _ (f.symm.trans e)
    · rw [f] at e; cases e

theorem Guards.below_kept {t : UB} {H' H : Host σ} (hg : Guards t H' H) (hb : Blind H') (hk : KeepsMemSize H) (cfg : Cfg) (k0 : Byte × Byte) (n : Nat)
    (O : Bool → Byte) (L : Nat) (hL : L ≤ 249) (vm : VM) (hm : 65536 ≤ vm.memSize) (h : σ) (pc : Short)
    (hr : Spec.run (cstep cfg H') n ⟨vm, h, pc.toNat⟩ ≠ .undefined t)
    (hs : ∀ t ∈ Spec.visited (cstep cfg H) n ⟨vm, h, pc.toNat⟩, Served O t ∧ ∀ r, height O r t.vm ≤ L) (vm' : VM)
    (he : (VM.execute cfg H none k0 n vm h pc).view.vm? = some vm') (r : Bool) (j : Nat) (h1 : L + 6 ≤ j) (h2 : j < 256) :
    stack r vm' (O r + BitVec.ofNat 8 j) = stack r vm (O r + BitVec.ofNat 8 j) := by
  rw [← hg.visited n _ hr] at hs
  refine C91_below_kept hb.keepsStacks (hg.keeps hk) cfg k0 n O L hL vm hm h pc hs vm' ?_ r j h1 h2
  by_cases hpc : pc = 0
  · unfold VM.execute at he ⊢
    rw [if_pos hpc] at he ⊢
    exact he
  · rw [C01_execute_is_uxn_iso cfg H hk k0 n vm hm h pc hpc] at he
    rw [C01_execute_is_uxn_iso cfg H' (hg.keeps hk) k0 n vm hm h pc hpc, hg.run_eq n _ hr]
    exact he

end Buxn.VM

/-! ## The system device -/

namespace Buxn.System
open Buxn.VM

theorem wr_on (S : Stacks) (vm : VM) (a : Nat) (v : Byte) : (vm.on S).wr a v = (vm.wr a v).map (VM.on S) := by
  unfold VM.wr
  rw [show (vm.on S).memSize = vm.memSize from rfl]
  split <;> rfl

theorem copyLeft_on (S : Stacks) (src dst len k : Nat) (vm : VM) : copyLeft src dst len k (vm.on S) = (copyLeft src dst len k vm).map (VM.on S) := by
  induction k generalizing vm with
  | zero => rfl
  | succ k ih =>
    unfold copyLeft
    dsimp only
    rw [show (vm.on S).rd (src + (len - (k + 1))) = vm.rd (src + (len - (k + 1))) from rfl]
    cases vm.rd (src + (len - (k + 1))) with
    | error u => rfl
    | ok v =>
      have hw : (vm.on S).wr (dst + (len - (k + 1))) v = (vm.wr (dst + (len - (k + 1))) v).map (VM.on S) := wr_on S vm _ v
      simp only [bind, Except.bind]
      rw [hw]
      cases vm.wr (dst + (len - (k + 1))) v with
      | error u => rfl
      | ok vm1 => exact ih vm1

theorem copyRight_on (S : Stacks) (src dst k : Nat) (vm : VM) : copyRight src dst k (vm.on S) = (copyRight src dst k vm).map (VM.on S) := by
  induction k generalizing vm with
  | zero => rfl
  | succ k ih =>
    unfold copyRight
    rw [show (vm.on S).rd (src + k) = vm.rd (src + k) from rfl]
    cases vm.rd (src + k) with
    | error u => rfl
    | ok v =>
      have hw : (vm.on S).wr (dst + k) v = (vm.wr (dst + k) v).map (VM.on S) := wr_on S vm _ v
      simp only [bind, Except.bind]
      rw [hw]
      cases vm.wr (dst + k) v with
      | error u => rfl
      | ok vm1 => exact ih vm1

theorem memset_on (S : Stacks) (vm : VM) (a : Nat) (v : Byte) (n : Nat) : memset (vm.on S) a v n = (memset vm a v n).map (VM.on S) := by
  unfold memset
  rw [show (vm.on S).memSize = vm.memSize from rfl]
  split <;> rfl

theorem expansion_on (S : Stacks) (vm : VM) : expansion (vm.on S) = (expansion vm).map (VM.on S) := by
  unfold expansion
  rw [show (vm.on S).devLoad2 = vm.devLoad2 from rfl, show (vm.on S).rd = vm.rd from rfl, show (vm.on S).memLoad2 = vm.memLoad2 from rfl,
    show (vm.on S).memSize = vm.memSize from rfl]
  have same : ∀ {α : Type} (x : Res α) (f g : α → Res VM), (∀ a, f a = (g a).map (VM.on S)) → (x >>= f) = (x >>= g).map (VM.on S) := by
    intro α x f g h
    cases x with
    | error u => rfl
    | ok a => exact h a
  dsimp only
  refine same _ _ _ fun op => same _ _ _ fun len => ?_
  split
  · refine same _ _ _ fun bank => same _ _ _ fun addr => same _ _ _ fun fill => ?_
    exact memset_on S _ _ _ _
  split
  · refine same _ _ _ fun b1 => same _ _ _ fun a1 => same _ _ _ fun b2 => same _ _ _ fun a2 => ?_
    split
    · exact copyLeft_on S _ _ _ _ _
    · exact copyRight_on S _ _ _ _
  · rfl

end Buxn.System

/-! ## buxn-cli -/

namespace Buxn.Cli
open Buxn.VM Buxn.Input
variable {τ : Type}

/-- The devices of `buxn-cli`, but those accesses to the system device that concern the stacks are refused: reading or writing ports 04 and 05, which are
the stack pointers (`system.c:11-18`, `70-71`), and writing anything but zero to port 0e, which prints the stacks (`cli.c:67-89`). They end the run with `arith`, which
no device of `buxn-cli` does. -/
def apart (F : File.Host τ) (con : Console) : Host (Data τ) where
  dei a vm d := if a = 0x04 ∨ a = 0x05 then .error .arith else (host F con).dei a vm d
  deo a vm d := if a = 0x04 ∨ a = 0x05 ∨ a = 0x0e ∧ vm.device 0x0e ≠ 0 then .error .arith else (host F con).deo a vm d

theorem fileDeo_on (F : File.Host τ) (second : Bool) (id a : Byte) (S : Stacks) (vm : VM) (d : Data τ) :
    fileDeo F second id a (vm.on S) d = (fileDeo F second id a vm d).map fun x => (x.1.on S, x.2) := by
  unfold fileDeo
  rw [show (vm.on S).memSize = vm.memSize from rfl, show ports (vm.on S) id = ports vm id from rfl, show (vm.on S).memory = vm.memory from rfl]
  cases File.deo F vm.memSize (ports vm id) (devicePort a) { dev := d.file second, mem := vm.memory, host := d.fs, log := d.log second } <;> rfl

theorem apart_guards (F : File.Host τ) (con : Console) : Guards .arith (apart F con) (host F con) where
  dei a vm d := by
    show SameOr _ (if _ then _ else _) _
    split
    · exact .inr rfl
    · exact .inl rfl
  deo a vm d := by
    show SameOr _ (if _ then _ else _) _
    split
    · exact .inr rfl
    · exact .inl rfl

theorem apart_blind (F : File.Host τ) (con : Console) : Blind (apart F con) where
  dei a S vm d := by
    show (if a = 0x04 ∨ a = 0x05 then .error .arith else dei con a (vm.on S) d) = (if a = 0x04 ∨ a = 0x05 then .error .arith else dei con a vm d : Res _).map _
    by_cases h : a = 0x04 ∨ a = 0x05
    · rw [if_pos h, if_pos h]; rfl
    · rw [if_neg h, if_neg h]
      unfold dei
      dsimp only
      by_cases h1 : deviceId a = 0x00
      · rw [if_pos h1, if_pos h1]
        unfold System.dei
        rw [if_neg fun e => h (.inl e), if_neg fun e => h (.inr e), if_neg fun e => h (.inl e), if_neg fun e => h (.inr e)]
        rfl
      rw [if_neg h1, if_neg h1]
      by_cases h2 : deviceId a = 0x10
      · rw [if_pos h2, if_pos h2]; rfl
      rw [if_neg h2, if_neg h2]
      by_cases h3 : deviceId a = 0xc0
      · rw [if_pos h3, if_pos h3]
        rw [show Datetime.dei (d.clock.reading d.clock.calls) (vm.on S) a = Datetime.dei (d.clock.reading d.clock.calls) vm a from rfl]
        cases Datetime.dei (d.clock.reading d.clock.calls) vm a <;> rfl
      rw [if_neg h3, if_neg h3]
      by_cases h4 : deviceId a = 0xa0
      · rw [if_pos h4, if_pos h4]; rfl
      rw [if_neg h4, if_neg h4]
      by_cases h5 : deviceId a = 0xb0
      · rw [if_pos h5, if_pos h5]; rfl
      rw [if_neg h5, if_neg h5]
      rfl
  deo a S vm d := by
    show (if a = 0x04 ∨ a = 0x05 ∨ a = 0x0e ∧ vm.device 0x0e ≠ 0 then .error .arith else deo F con a (vm.on S) d) =
      (if a = 0x04 ∨ a = 0x05 ∨ a = 0x0e ∧ vm.device 0x0e ≠ 0 then .error .arith else deo F con a vm d : Res _).map _
    by_cases h : a = 0x04 ∨ a = 0x05 ∨ a = 0x0e ∧ vm.device 0x0e ≠ 0
    · rw [if_pos h, if_pos h]; rfl
    · rw [if_neg h, if_neg h]
      unfold deo
      dsimp only
      by_cases h1 : deviceId a = 0x00
      · rw [if_pos h1, if_pos h1]
        unfold System.deo
        by_cases h3 : a = 0x03
        · rw [if_pos h3, if_pos h3, System.expansion_on]
          cases System.expansion vm <;> rfl
        · have h4 : a ≠ 0x04 := fun e => h (.inl e)
          have h5 : a ≠ 0x05 := fun e => h (.inr (.inl e))
          rw [if_neg h3, if_neg h3, if_neg h4, if_neg h4, if_neg h5, if_neg h5]
          by_cases h7 : a = 0x07
          · rw [if_pos h7, if_pos h7]; rfl
          rw [if_neg h7, if_neg h7]
          by_cases hp : a = 0x09 ∨ a = 0x0b ∨ a = 0x0d
          · rw [if_pos hp, if_pos hp]; rfl
          rw [if_neg hp, if_neg hp]
          by_cases he : a = 0x0e
          · have hz : ¬ vm.device a ≠ 0 := fun hz => h (.inr (.inr ⟨he, he ▸ hz⟩))
            rw [if_pos he, if_pos he, if_neg (show ¬ (vm.on S).device a ≠ 0 from hz), if_neg hz]
            rfl
          rw [if_neg he, if_neg he]
          rfl
      rw [if_neg h1, if_neg h1]
      by_cases h2 : deviceId a = 0x10
      · rw [if_pos h2, if_pos h2]
        rw [show consoleDeo { vm := vm.on S, dev := con, rest := () } a = consoleDeo { vm := vm, dev := con, rest := () } a from rfl]
        rfl
      rw [if_neg h2, if_neg h2]
      by_cases h3 : deviceId a = 0xa0
      · rw [if_pos h3, if_pos h3]; exact fileDeo_on F _ _ _ _ _ _
      rw [if_neg h3, if_neg h3]
      by_cases h4 : deviceId a = 0xb0
      · rw [if_pos h4, if_pos h4]; exact fileDeo_on F _ _ _ _ _ _
      rw [if_neg h4, if_neg h4]
      rfl

/-- **C91** for `buxn-cli`, wherever the stacks begin: a run that does not ask for the stack pointers, does not set them and does not have the stacks printed
ends in the same way on the machine with its stacks turned round, with the same output and the same files. -/
theorem C91_cli_wherever (F : File.Host τ) (con : Console) (cfg : Cfg) (k0 k0' : Byte × Byte) (n : Nat) (vm : VM) (hm : 65536 ≤ vm.memSize) (d : Data τ) (pc : Short)
    (T : Bool → Byte) (hr : Buxn.VM.Spec.run (Buxn.VM.Spec.cstep cfg (apart F con)) n ⟨vm, d, pc.toNat⟩ ≠ .undefined .arith) :
    Ends (fun vm vm' => vm' = vm.turn T) (execute cfg (host F con) none k0 n vm d pc).view (execute cfg (host F con) none k0' n (vm.turn T) d pc).view :=
  (apart_guards F con).same_wherever (apart_blind F con) (host_keeps F con) cfg k0 k0' n vm hm d pc T hr

/-- **C91** for `buxn-cli`, whatever lies below. -/
theorem C91_cli_above (F : File.Host τ) (con : Console) (cfg : Cfg) (k0 k0' : Byte × Byte) (n : Nat) (O O' : Bool → Byte) (vm vm' : VM) (hm : 65536 ≤ vm.memSize)
    (hv : Same O O' vm vm') (d : Data τ) (pc : Short)
    (hr : Buxn.VM.Spec.run (Buxn.VM.Spec.cstep cfg (apart F con)) n ⟨vm, d, pc.toNat⟩ ≠ .undefined .arith)
    (hs : ∀ t ∈ Buxn.VM.Spec.visited (Buxn.VM.Spec.cstep cfg (host F con)) n ⟨vm, d, pc.toNat⟩, Served O t) :
    Ends (Same O O') (execute cfg (host F con) none k0 n vm d pc).view (execute cfg (host F con) none k0' n vm' d pc).view :=
  (apart_guards F con).same_above (apart_blind F con) (host_keeps F con) cfg k0 k0' n O O' vm vm' hm hv d pc hr hs

/-- **C91** for `buxn-cli`, the caller's stacks. -/
theorem C91_cli_below_kept (F : File.Host τ) (con : Console) (cfg : Cfg) (k0 : Byte × Byte) (n : Nat) (O : Bool → Byte) (L : Nat) (hL : L ≤ 249) (vm : VM)
    (hm : 65536 ≤ vm.memSize) (d : Data τ) (pc : Short)
    (hr : Buxn.VM.Spec.run (Buxn.VM.Spec.cstep cfg (apart F con)) n ⟨vm, d, pc.toNat⟩ ≠ .undefined .arith)
    (hs : ∀ t ∈ Buxn.VM.Spec.visited (Buxn.VM.Spec.cstep cfg (host F con)) n ⟨vm, d, pc.toNat⟩, Served O t ∧ ∀ r, height O r t.vm ≤ L) (vm' : VM)
    (he : (execute cfg (host F con) none k0 n vm d pc).view.vm? = some vm') (r : Bool) (j : Nat) (h1 : L + 6 ≤ j) (h2 : j < 256) :
    Buxn.VM.Spec.stack r vm' (O r + BitVec.ofNat 8 j) = Buxn.VM.Spec.stack r vm (O r + BitVec.ofNat 8 j) :=
  (apart_guards F con).below_kept (apart_blind F con) (host_keeps F con) cfg k0 n O L hL vm hm d pc hr hs vm' he r j h1 h2

end Buxn.Cli

/-! ## buxn-gui -/

namespace Buxn.Gui.Whole
open Buxn.VM Buxn.Input Buxn.Cli
variable {τ : Type}

/-- The devices of `buxn-gui`, but reading and writing ports 04 and 05, the stack pointers, is refused, with the error
`arith`. (`buxn_system_debug` prints nothing in `buxn-gui`: `gui.c:298-303`.) -/
def apart (F : File.Host τ) (S : Sounds) (dev : Devices) : Host (Data τ) where
  dei a vm d := if a = 0x04 ∨ a = 0x05 then .error .arith else (host F S dev).dei a vm d
  deo a vm d := if a = 0x04 ∨ a = 0x05 then .error .arith else (host F S dev).deo a vm d

theorem apart_guards (F : File.Host τ) (S : Sounds) (dev : Devices) : Guards .arith (apart F S dev) (host F S dev) where
  dei a vm d := by
    show SameOr _ (if _ then _ else _) _
    split
    · exact .inr rfl
    · exact .inl rfl
  deo a vm d := by
    show SameOr _ (if _ then _ else _) _
    split
    · exact .inr rfl
    · exact .inl rfl

theorem spriteRows_on (T : Stacks) (vm : VM) (size : Int) (blend : Nat) (two : Bool) (rA fx fy qfx xmar wmar2 : Int) (cols n : Nat) (ay qy : Int) (l : Screen.Layer) :
    Screen.spriteRows (vm.on T) size blend two rA fx fy qfx xmar wmar2 cols n ay qy l = Screen.spriteRows vm size blend two rA fx fy qfx xmar wmar2 cols n ay qy l := by
  induction n generalizing ay qy l with
  | zero => rfl
  | succ n ih =>
    unfold Screen.spriteRows
    rw [show Screen.rdMem (vm.on T) = Screen.rdMem vm from rfl]
    simp only [ih]

theorem sprites_on (T : Stacks) (vm : VM) (s : Screen.Screen) (blend : Nat) (two : Bool) (fx fy dyx dxy incr : Int) (n : Nat) (rA x y : Int) (l : Screen.Layer) :
    Screen.sprites (vm.on T) s blend two fx fy dyx dxy incr n rA x y l = Screen.sprites vm s blend two fx fy dyx dxy incr n rA x y l := by
  induction n generalizing rA x y l with
  | zero => rfl
  | succ n ih =>
    unfold Screen.sprites
    have e : ∀ l, Screen.sprite (vm.on T) s blend two fx fy rA x y l = Screen.sprite vm s blend two fx fy rA x y l := by
      intro l
      unfold Screen.sprite
      simp only [spriteRows_on]
    simp only [ih, e]

theorem screen_deo_on (T : Stacks) (vm : VM) (g : Screen.Gui) (a : Byte) : Screen.deo (vm.on T) g a = Screen.deo vm g a := by
  have e : ∀ s c, Screen.spriteOp (vm.on T) s c = Screen.spriteOp vm s c := by
    intro s c
    unfold Screen.spriteOp
    simp only [sprites_on]
  unfold Screen.deo
  simp only [e]
  rfl

theorem setMetadata_on (T : Stacks) (vm : VM) (a : Short) : Title.setMetadata (vm.on T) a = (Title.setMetadata vm a).map fun x => (x.1, x.2.on T) := by
  unfold Title.setMetadata
  rw [show Metadata.fromMemory (vm.on T) a = Metadata.fromMemory vm a from rfl, show (vm.on T).memory = vm.memory from rfl, show (vm.on T).memSize = vm.memSize from rfl]
  cases Metadata.fromMemory vm a with
  | error u => rfl
  | ok x =>
    cases x with
    | none => rfl
    | some m =>
      show (Title.apply vm.memory vm.memSize m >>= fun x => _) = Except.map _ (Title.apply vm.memory vm.memSize m >>= fun x => _)
      cases Title.apply vm.memory vm.memSize m <;> rfl

theorem audioDei_on (S : Sounds) (id a : Byte) (T : Stacks) (vm : VM) (d : Data τ) :
    audioDei S id a (vm.on T) d = (audioDei S id a vm d).map fun x => (x.1, x.2.1.on T, x.2.2) := by
  unfold audioDei
  rw [show (vm.on T).memSize = vm.memSize from rfl, show ports (vm.on T) id = ports vm id from rfl]
  cases Audio.history vm.memSize (S d.reads) (d.audio (channel id)) with
  | error u => rfl
  | ok x =>
    show (Audio.dei (ports vm id) (devicePort a) x.1 >>= fun y => _) = Except.map _ (Audio.dei (ports vm id) (devicePort a) x.1 >>= fun y => _)
    cases Audio.dei (ports vm id) (devicePort a) x.1 <;> rfl

theorem print_on (l : Text.Level) (c : Byte) (T : Stacks) (vm : VM) (d : Data τ) : print l c (vm.on T) d = (print l c vm d).map fun x => (x.1.on T, x.2) := by
  unfold print
  cases Text.write l c d.con <;> rfl

theorem apart_blind (F : File.Host τ) (S : Sounds) (dev : Devices) : Blind (apart F S dev) where
  dei a T vm d := by
    show (if a = 0x04 ∨ a = 0x05 then .error .arith else dei S dev a (vm.on T) d) = (if a = 0x04 ∨ a = 0x05 then .error .arith else dei S dev a vm d : Res _).map _
    by_cases h : a = 0x04 ∨ a = 0x05
    · rw [if_pos h, if_pos h]; rfl
    · rw [if_neg h, if_neg h]
      unfold dei
      dsimp only
      by_cases h1 : deviceId a = 0x00
      · rw [if_pos h1, if_pos h1]
        unfold System.dei
        rw [if_neg fun e => h (.inl e), if_neg fun e => h (.inr e), if_neg fun e => h (.inl e), if_neg fun e => h (.inr e)]
        rfl
      rw [if_neg h1, if_neg h1]
      by_cases h2 : deviceId a = 0x10
      · rw [if_pos h2, if_pos h2]; rfl
      rw [if_neg h2, if_neg h2]
      by_cases h3 : deviceId a = 0x20
      · rw [if_pos h3, if_pos h3]; rfl
      rw [if_neg h3, if_neg h3]
      by_cases h4 : isAudio (deviceId a) = true
      · rw [if_pos h4, if_pos h4]; exact audioDei_on S _ a T vm d
      rw [if_neg h4, if_neg h4]
      by_cases h5 : deviceId a = 0x90
      · rw [if_pos h5, if_pos h5]; rfl
      rw [if_neg h5, if_neg h5]
      by_cases h6 : deviceId a = 0x80
      · rw [if_pos h6, if_pos h6]; rfl
      rw [if_neg h6, if_neg h6]
      by_cases h7 : deviceId a = 0xa0
      · rw [if_pos h7, if_pos h7]; rfl
      rw [if_neg h7, if_neg h7]
      by_cases h8 : deviceId a = 0xb0
      · rw [if_pos h8, if_pos h8]; rfl
      rw [if_neg h8, if_neg h8]
      by_cases h9 : deviceId a = 0xc0
      · rw [if_pos h9, if_pos h9]
        rw [show Datetime.dei (d.core.clock.reading d.core.clock.calls) (vm.on T) a = Datetime.dei (d.core.clock.reading d.core.clock.calls) vm a from rfl]
        cases Datetime.dei (d.core.clock.reading d.core.clock.calls) vm a <;> rfl
      rw [if_neg h9, if_neg h9]
      rfl
  deo a T vm d := by
    show (if a = 0x04 ∨ a = 0x05 then .error .arith else deo F dev a (vm.on T) d) = (if a = 0x04 ∨ a = 0x05 then .error .arith else deo F dev a vm d : Res _).map _
    by_cases h : a = 0x04 ∨ a = 0x05
    · rw [if_pos h, if_pos h]; rfl
    · rw [if_neg h, if_neg h]
      unfold deo
      dsimp only
      split
      · unfold System.deo
        by_cases h3 : a = 0x03
        · rw [if_pos h3, if_pos h3, System.expansion_on]
          cases System.expansion vm <;> rfl
        · have h4 : a ≠ 0x04 := fun e => h (.inl e)
          have h5 : a ≠ 0x05 := fun e => h (.inr e)
          rw [if_neg h3, if_neg h3, if_neg h4, if_neg h4, if_neg h5, if_neg h5]
          split
          · show Except.map _ (Title.setMetadata (vm.on T) (vm.devLoad2 0x06)) = Except.map _ (Except.map _ (Title.setMetadata vm (vm.devLoad2 0x06)))
            rw [setMetadata_on]
            cases Title.setMetadata vm (vm.devLoad2 0x06) <;> rfl
          split
          · rfl
          split
          · rw [show (vm.on T).device = vm.device from rfl]
            split <;> rfl
          · rfl
      split
      · rw [show consoleDeo { vm := vm.on T, dev := dev.console, rest := () } a = consoleDeo { vm := vm, dev := dev.console, rest := () } a from rfl]
        split
        · exact print_on _ _ _ _ _
        · exact print_on _ _ _ _ _
        · rfl
      split
      · rw [screen_deo_on]
        cases Screen.deo vm d.gui a <;> rfl
      split
      · rw [show ports (vm.on T) (deviceId a) = ports vm (deviceId a) from rfl]
        split <;> rfl
      split
      · rw [Cli.fileDeo_on]
        cases Cli.fileDeo F false (deviceId a) a vm d.core <;> rfl
      split
      · rw [Cli.fileDeo_on]
        cases Cli.fileDeo F true (deviceId a) a vm d.core <;> rfl
      · rfl

/-- **C91** for `buxn-gui`, wherever the stacks begin. -/
theorem C91_gui_wherever (F : File.Host τ) (S : Sounds) (dev : Devices) (cfg : Cfg) (k0 k0' : Byte × Byte) (n : Nat) (vm : VM) (hm : 65536 ≤ vm.memSize) (d : Data τ) (pc : Short)
    (T : Bool → Byte) (hr : Buxn.VM.Spec.run (Buxn.VM.Spec.cstep cfg (apart F S dev)) n ⟨vm, d, pc.toNat⟩ ≠ .undefined .arith) :
    Ends (fun vm vm' => vm' = vm.turn T) (execute cfg (host F S dev) none k0 n vm d pc).view (execute cfg (host F S dev) none k0' n (vm.turn T) d pc).view :=
  (apart_guards F S dev).same_wherever (apart_blind F S dev) (host_keeps F S dev) cfg k0 k0' n vm hm d pc T hr

/-- **C91** for `buxn-gui`, whatever lies below. -/
theorem C91_gui_above (F : File.Host τ) (S : Sounds) (dev : Devices) (cfg : Cfg) (k0 k0' : Byte × Byte) (n : Nat) (O O' : Bool → Byte) (vm vm' : VM) (hm : 65536 ≤ vm.memSize)
    (hv : Same O O' vm vm') (d : Data τ) (pc : Short)
    (hr : Buxn.VM.Spec.run (Buxn.VM.Spec.cstep cfg (apart F S dev)) n ⟨vm, d, pc.toNat⟩ ≠ .undefined .arith)
    (hs : ∀ t ∈ Buxn.VM.Spec.visited (Buxn.VM.Spec.cstep cfg (host F S dev)) n ⟨vm, d, pc.toNat⟩, Served O t) :
    Ends (Same O O') (execute cfg (host F S dev) none k0 n vm d pc).view (execute cfg (host F S dev) none k0' n vm' d pc).view :=
  (apart_guards F S dev).same_above (apart_blind F S dev) (host_keeps F S dev) cfg k0 k0' n O O' vm vm' hm hv d pc hr hs

end Buxn.Gui.Whole

/-! ## Cases that meet the hypotheses -/

namespace Buxn.VM
open Spec

instance {σ : Type} (O : Bool → Byte) (s : Sys σ) : Decidable (Served O s) := by unfold Served; infer_instance

theorem plainHost_blind : Blind plainHost := ⟨fun _ _ _ _ => rfl, fun _ _ _ _ => rfl⟩

end Buxn.VM

namespace Buxn.Cli
open Buxn.VM Buxn.Input
open Buxn.VM.Spec (cstep visited)

/-- `ADD #18 DEO BRK`: a routine that prints the sum of two bytes. -/
def sumRom : List Nat := [0x18, 0x80, 0x18, 0x17, 0x00]

/-- Called with two bytes on an empty stack. -/
def called : VM := { booted sumRom with ws := fun i => if i = 0 then 0x40 else if i = 1 then 0x02 else 0, wsp := 2 }

/-- Called with the same two bytes on a stack that begins elsewhere, with anything below and above, and anything on the return stack. -/
def calledDeep (junk rjunk : Byte → Byte) (b rp : Byte) : VM :=
  { booted sumRom with ws := fun i => if i = b then 0x40 else if i = b + 1 then 0x02 else junk i, wsp := b + 2, rs := rjunk, rsp := rp }

def floor : Bool → Byte := fun _ => 0
def floorDeep (b rp : Byte) : Bool → Byte := fun r => if r then rp else b

theorem called_same (junk rjunk : Byte → Byte) (b rp : Byte) : Same floor (floorDeep b rp) called (calledDeep junk rjunk b rp) where
  memSize := rfl
  memory := rfl
  device := rfl
  height r := by
    cases r
    · show (b + 2 - b).toNat = (2 - 0 : Byte).toNat
      congr 1
      bv_omega
    · show (rp - rp).toNat = (0 - 0 : Byte).toNat
      congr 1
      bv_omega
  cells r j hj := by
    cases r
    · have hj : j < 2 := hj
      have : j = 0 ∨ j = 1 := by omega
      rcases this with rfl | rfl
      · show (if b + 0 = b then _ else _) = _
        rw [if_pos (by simp)]
        rfl
      · show (if b + 1 = b then _ else if b + 1 = b + 1 then (2 : Byte) else _) = _
        rw [if_neg (by bv_omega), if_pos rfl]
        rfl
    · exact absurd hj (Nat.not_lt_zero _)

/-- What a run has printed when it has come to its end. -/
def printed (o : Buxn.VM.Spec.Outcome (Data Unit)) : Option (List Out) :=
  match o with
  | .halted _ d => some d.out
  | _ => none

/-- The hypotheses are met: nothing is refused, every operand is found above the bottoms; and the sum is printed. -/
theorem sum_served : (∀ t ∈ visited (cstep ⟨true, true⟩ (host noFiles quiet)) 5 ⟨called, (start () noClock).data, 0x100⟩, Served floor t) ∧
    printed (Buxn.VM.Spec.run (cstep ⟨true, true⟩ (apart noFiles quiet)) 5 ⟨called, (start () noClock).data, 0x100⟩) = some [.stdout 0x42] := by
  constructor
  · decide +kernel
  · decide +kernel

/-- So it is printed wherever the routine is called. -/
example (junk rjunk : Byte → Byte) (b rp : Byte) :
    Ends (Same floor (floorDeep b rp)) (execute ⟨true, true⟩ (host noFiles quiet) none (0, 0) 5 called (start () noClock).data 0x100).view
      (execute ⟨true, true⟩ (host noFiles quiet) none (0, 0) 5 (calledDeep junk rjunk b rp) (start () noClock).data 0x100).view :=
  C91_cli_above noFiles quiet _ _ _ 5 floor (floorDeep b rp) called _ (by decide) (called_same junk rjunk b rp) _ _ (fun e => by
    have := sum_served.2
    rw [show (0x100 : Nat) = (0x100 : Short).toNat from rfl, e] at this
    cases this) sum_served.1

/-- It never has more than two bytes above the bottoms, so 248 cells of each stack are left alone. -/
example (vm' : VM) (he : (execute ⟨true, true⟩ (host noFiles quiet) none (0, 0) 5 called (start () noClock).data 0x100).view.vm? = some vm') (r : Bool) (j : Nat)
    (h1 : 8 ≤ j) (h2 : j < 256) : Buxn.VM.Spec.stack r vm' (0 + BitVec.ofNat 8 j) = Buxn.VM.Spec.stack r called (0 + BitVec.ofNat 8 j) :=
  C91_cli_below_kept noFiles quiet ⟨true, true⟩ (0, 0) 5 floor 2 (by decide) called (by decide) (start () noClock).data 0x100 (fun e => by
    have := sum_served.2
    rw [show (0x100 : Nat) = (0x100 : Short).toNat from rfl, e] at this
    cases this) (by decide +kernel) vm' he r j h1 h2

/-- The hypotheses are needed: a routine that prints the stack pointer (`#04 DEI #18 DEO BRK`) tells where its stack begins, -/
theorem C91_pointer_told :
    printed (Buxn.VM.Spec.run (cstep ⟨true, true⟩ (host noFiles quiet)) 5 ⟨{ booted [0x80, 0x04, 0x16, 0x80, 0x18, 0x17, 0x00] with wsp := 0 }, (start () noClock).data, 0x100⟩) ≠
    printed (Buxn.VM.Spec.run (cstep ⟨true, true⟩ (host noFiles quiet)) 5 ⟨{ booted [0x80, 0x04, 0x16, 0x80, 0x18, 0x17, 0x00] with wsp := 7 }, (start () noClock).data, 0x100⟩) := by
  decide +kernel

/-- and one that takes more than it was given (`ADD` with one byte) tells what lies below. -/
theorem C91_below_told :
    printed (Buxn.VM.Spec.run (cstep ⟨true, true⟩ (host noFiles quiet)) 5 ⟨{ called with wsp := 1, ws := fun _ => 1 }, (start () noClock).data, 0x100⟩) ≠
    printed (Buxn.VM.Spec.run (cstep ⟨true, true⟩ (host noFiles quiet)) 5 ⟨{ called with wsp := 1, ws := fun i => if i = 0 then 1 else 2 }, (start () noClock).data, 0x100⟩) := by
  decide +kernel

end Buxn.Cli

namespace Buxn.Gui.Whole
open Buxn.VM Buxn.Input Buxn.Cli
open Buxn.VM.Spec (cstep visited)
variable {τ : Type}

/-- On the devices of `buxn-gui`, as they are after the start of the program: nothing is refused, every operand is found above the bottoms, and the sum is
printed. -/
theorem sum_served_gui :
    (match boot small Cli.noFiles (fun _ => []) Cli.blank () Cli.noClock 44100 8 8 [] ({ bytes := dot }, none) with
      | .ok (some l) =>
        (visited (cstep ⟨true, true⟩ (host Cli.noFiles (fun _ => []) l.app.dev)) 5 ⟨called, l.app.rest.data, 0x100⟩).all (fun t => decide (Served floor t)) &&
        (match Buxn.VM.Spec.run (cstep ⟨true, true⟩ (apart Cli.noFiles (fun _ => []) l.app.dev)) 5 ⟨called, l.app.rest.data, 0x100⟩ with
          | .halted _ d => decide (d.printed = [(.info, 0x42)])
          | _ => false)
      | _ => false) = true := by decide +kernel

end Buxn.Gui.Whole
