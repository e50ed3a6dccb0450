import Verif.Chess.Entry
import Verif.Chess.Effect
import Verif.Chess.Depth
/-!
# From one instruction to whole runs

A set of states of the checker that is closed under its work, with loops brought back to a state in the set, and in which
nothing was reported: every run of the VM that begins at a routine stays described by states of the set.
-/

namespace Buxn.Chess

open Buxn.VM (Instr Op dispatch VM Host Cfg StackEffect)
open Buxn.VM.Spec (valueAt ptr stack Sys KeepsStacks)

variable {σ : Type}

/-- The number of bytes on a stack of the VM above a given bottom. -/
def depth (O : Bool → Byte) (r : Bool) (vm : VM) : Nat := (ptr r vm - O r).toNat

/-- There is a state in the set, of a trace that runs on behalf of the routine `key` and is about to execute `pc`, that
describes every VM with the property. -/
def Covered (S : Run → Prop) (key pc : Short) (D : Env → (Bool → Byte) → VM → Prop) : Prop :=
  ∃ c, S c ∧ c.key = key ∧ c.pc = pc ∧ c.terminated = false ∧ c.Ok ∧
    ∀ E base vm, D E base vm → ∃ E' : Env, E'.ret = E.ret ∧ Sim E' base vm c.stacks c.nodes

/-- A closed set of states without complaints. -/
structure Certificate (P : Program) (S : Run → Prop) : Prop where
  calm : ∀ c, S c → ¬ Reports c (round P c)
  narrow : ∀ c, S c → (round P c).wrapped = false
  exact : ∀ c, S c → Exact c
  exactCast : ∀ c, S c → P.cast c.pc ≠ none → Exact (perform P (fetched P c))
  fixed : ∀ c, S c → ¬ IncrementsReturn P c
  goes : ∀ c, S c → (round P c).terminated = false ∨ (round P c).again = true →
    Covered S c.key (round P c).pc (fun E base vm => (round P c).Ok ∧ Sim E base vm (round P c).stacks (round P c).nodes)
  forks : ∀ c, S c → ∀ e ∈ (round P c).queue, e.key = c.key → Covered S e.key e.address (fun E base vm => ∃ m, Sim E base vm e.stacks m)
  routines : ∀ a, isRoutine P a = true → Covered S a a (fun E base vm => E.ret = returnTo P a vm ∧ base = bottom P a vm)

/-- A routine at work: its address, where it will return to, and where its part of the stacks begins, counted from the
bottom. -/
structure Frame where
  key : Short
  ret : Nat
  base : Bool → Nat

/-- Where the part of a stack that belongs to a frame begins. -/
def Frame.at (f : Frame) (O : Bool → Byte) (r : Bool) : Byte := O r + BitVec.ofNat 8 (f.base r)

/-- The checker has described this VM while it was checking this routine. -/
structure Tracked (S : Run → Prop) (O : Bool → Byte) (f : Frame) (vm : VM) (pc : Nat) (c : Run) (E : Env) : Prop where
  mem : S c
  key : c.key = f.key
  ret : E.ret = f.ret
  running : c.terminated = false
  pc : pc = c.pc.toNat
  ok : c.Ok
  sim : Sim E (f.at O) vm c.stacks c.nodes
  above : ∀ r, f.base r ≤ depth O r vm

/-- What is expected of a frame: its kind, where it returns to, with which stack pointers, and that it leaves alone what
is below `B`. -/
structure Owes (P : Program) (O : Bool → Byte) (f : Frame) (k : Kind) (ra : Nat) (B : Bool → Nat) (G : Bool → Byte) : Prop where
  kind : (sigAt P f.key).kind = k
  ret : k = .subroutine → f.ret = ra
  below : ∀ r, B r ≤ f.base r
  goal : ∀ r, f.at O r + BitVec.ofNat 8 (total ((sigAt P f.key).outs r)) = G r

/-- The frames that wait for the current one, down to the outermost with the expectations `k0 ra0 B0 G0`. -/
inductive Pending (P : Program) (S : Run → Prop) (O : Bool → Byte) (k0 : Kind) (ra0 : Nat) (B0 : Bool → Nat) (G0 : Bool → Byte) :
    Kind → Nat → (Bool → Nat) → (Bool → Byte) → VM → Prop
  | last (vm : VM) : Pending P S O k0 ra0 B0 G0 k0 ra0 B0 G0 vm
  | call (f : Frame) (k : Kind) (ra' : Nat) (B' : Bool → Nat) (G' : Bool → Byte) (ra : Nat) (B : Bool → Nat) (G : Bool → Byte) (vm : VM) :
      (∀ r, f.base r ≤ B r) → (∀ r, B r ≤ 255) → Owes P O f k ra' B' G' →
      (∀ vm', (∀ r, ptr r vm' = G r) → (∀ r, B r ≤ depth O r vm') →
        (∀ r j, f.base r ≤ j → j < B r → stack r vm' (O r + BitVec.ofNat 8 j) = stack r vm (O r + BitVec.ofNat 8 j)) →
        ∃ c E, Tracked S O f vm' ra c E) →
      Pending P S O k0 ra0 B0 G0 k ra' B' G' vm → Pending P S O k0 ra0 B0 G0 .subroutine ra B G vm

section
variable {P : Program} {S : Run → Prop} {O : Bool → Byte} {k0 : Kind} {ra0 : Nat} {B0 : Bool → Nat} {G0 : Bool → Byte}

/-- What is above the part of the waiting frames does not matter to them. -/
theorem Pending.keep {k : Kind} {ra : Nat} {B : Bool → Nat} {G : Bool → Byte} {vm vm' : VM} (h : Pending P S O k0 ra0 B0 G0 k ra B G vm)
    (e : ∀ r j, j < B r → stack r vm' (O r + BitVec.ofNat 8 j) = stack r vm (O r + BitVec.ofNat 8 j)) :
    Pending P S O k0 ra0 B0 G0 k ra B G vm' := by
  induction h with
  | last vm => exact .last _
  | call f k ra' B' G' ra B G vm h1 h2 h3 h4 _ ih =>
    refine .call f k ra' B' G' ra B G vm' h1 h2 h3 (fun vm'' g1 g2 g3 => h4 vm'' g1 g2 fun r j j1 j2 => ?_) (ih fun r j hj => e r j ?_)
    · rw [g3 r j j1 j2, e r j j2]
    · have := h3.below r; have := h1 r; omega

theorem ptr_depth (O : Bool → Byte) (r : Bool) (vm : VM) : ptr r vm = O r + BitVec.ofNat 8 (depth O r vm) := by
  unfold depth
  rw [BitVec.ofNat_toNat, BitVec.setWidth_eq, BitVec.add_comm, BitVec.sub_add_cancel]

theorem depth_lt (O : Bool → Byte) (r : Bool) (vm : VM) : depth O r vm < 256 := (ptr r vm - O r).isLt

theorem depth_eq {O : Bool → Byte} {r : Bool} {vm : VM} {n : Nat} (hn : n < 256) (h : ptr r vm = O r + BitVec.ofNat 8 n) : depth O r vm = n := by
  have := (ptr_depth O r vm).symm.trans h
  exact Buxn.VM.add_ofNat_inj _ _ _ (depth_lt O r vm) hn this

theorem total_small {m : Nodes} {s : Stack} (h : s.Ok m) : total (items s) < 256 := by
  have := h.sound
  unfold Sound at this
  rw [← this]
  exact s.size.isLt

/-- The simulated stack has as many bytes as the part of the stack that belongs to the frame. -/
theorem Tracked.size {f : Frame} {vm : VM} {pc : Nat} {c : Run} {E : Env} (h : Tracked S O f vm pc c E) (r : Bool) :
    f.base r + total (items (c.stacks r)) = depth O r vm := by
  have h1 := (h.sim.cells r).ptr
  have h2 : total (items (c.stacks r)) < 256 := total_small (h.ok.real r)
  have h3 := h.above r
  have h4 := depth_lt O r vm
  rw [ptr_depth O r vm, Frame.at, Buxn.VM.add_ofNat] at h1
  have h5 := congrArg BitVec.toNat h1
  rw [BitVec.toNat_add, BitVec.toNat_add, BitVec.toNat_ofNat, BitVec.toNat_ofNat] at h5
  have := (O r).isLt
  omega

/-- A routine is entered. -/
theorem enter (hC : Certificate P S) {f : Frame} {k : Kind} {ra : Nat} {B : Bool → Nat} {G : Bool → Byte} {vm : VM} {b : Short} {c1 c2 : Run} {E : Env}
    (ho : Owes P O f k ra B G) (hp : Pending P S O k0 ra0 B0 G0 k ra B G vm) (hb : isRoutine P b = true)
    (hkey : c1.key = f.key) (hret : E.ret = f.ret) (hsz : ∀ r, f.base r + total (items (c1.stacks r)) = depth O r vm)
    (hserv : Served P E (f.at O) vm b c1 c2)
    (hcont : GoesOn P E (f.at O) vm b c1 c2 → ∀ vm', Restored P b vm (fun r => total (items (c1.stacks r)) - (sigAt P b).load r) vm' →
      (∀ r, f.base r ≤ depth O r vm') → ∃ c E, Tracked S O f vm' (returnTo P b vm) c E) :
    ∃ f' k ra B G, f'.key = b ∧ (∃ c E, Tracked S O f' vm b.toNat c E ∧ c.pc = b) ∧ Owes P O f' k ra B G ∧
      Pending P S O k0 ra0 B0 G0 k ra B G vm := by
  have hbot : ∀ r, bottom P b vm r = O r + BitVec.ofNat 8 (depth O r vm - (sigAt P b).load r) := by
    intro r
    have h1 := hserv.fits r
    have h2 := hsz r
    unfold bottom
    rw [ptr_depth O r vm]
    have : depth O r vm = (depth O r vm - (sigAt P b).load r) + (sigAt P b).load r := by omega
    conv_lhs => rw [this, ← Buxn.VM.add_ofNat]
    rw [BitVec.add_sub_cancel]
  have hge : ∀ r, f.base r ≤ depth O r vm - (sigAt P b).load r := by
    intro r
    have h1 := hserv.fits r
    have h2 := hsz r
    omega
  let f' : Frame := ⟨b, returnTo P b vm, fun r => depth O r vm - (sigAt P b).load r⟩
  have hat : ∀ r, f'.at O r = bottom P b vm r := fun r => (hbot r).symm
  have htr : ∃ c E, Tracked S O f' vm b.toNat c E ∧ c.pc = b := by
    obtain ⟨c, i1, i2, i3, i4, i5, i6⟩ := hC.routines b hb
    obtain ⟨E', j1, j2⟩ := i6 ⟨fun _ => 0, returnTo P b vm⟩ (bottom P b vm) vm ⟨rfl, rfl⟩
    refine ⟨c, E', ⟨i1, i2, j1, i4, by rw [i3], i5, ?_, fun r => ?_⟩, i3⟩
    · rw [show f'.at O = bottom P b vm from funext hat]; exact j2
    · show depth O r vm - _ ≤ _; omega
  cases hk : (sigAt P b).kind with
  | vector =>
    refine ⟨f', k, ra, B, G, rfl, htr, ⟨?_, ?_, fun r => le_trans (ho.below r) (hge r), fun r => ?_⟩, hp⟩
    · show (sigAt P b).kind = k
      rw [hk, ← ho.kind, ← hkey, hserv.kind hk]
    · rw [← ho.kind, ← hkey, hserv.kind hk]
      intro h; cases h
    · show f'.at O r + BitVec.ofNat 8 (total ((sigAt P b).outs r)) = _
      rw [hat, hserv.halts hk r, hkey, ho.goal r]
  | subroutine =>
    rcases hserv.back hk with ⟨t1, t2, t3⟩ | hg
    · have hks : k = .subroutine := by rw [← ho.kind, ← hkey, t2]
      refine ⟨f', k, ra, B, G, rfl, htr, ⟨by rw [hks]; exact hk, fun _ => ?_, fun r => le_trans (ho.below r) (hge r), fun r => ?_⟩, hp⟩
      · show returnTo P b vm = ra
        rw [t1, hret, ho.ret hks]
      · show f'.at O r + BitVec.ofNat 8 (total ((sigAt P b).outs r)) = _
        rw [hat, t3 r, hkey, ho.goal r]
    · refine ⟨f', .subroutine, returnTo P b vm, f'.base, fun r => f'.at O r + BitVec.ofNat 8 (total ((sigAt P b).outs r)), rfl, htr,
        ⟨hk, fun _ => rfl, fun r => le_refl _, fun r => rfl⟩, ?_⟩
      refine .call f k ra B G _ _ _ vm hge (fun r => ?_) ho (fun vm' g1 g2 g3 => ?_) hp
      · have := depth_lt O r vm
        show depth O r vm - _ ≤ 255
        omega
      · refine hcont hg vm' ⟨fun r => ?_, fun r j j1 j2 => ?_⟩ (fun r => le_trans (hge r) (g2 r))
        · rw [g1 r, hat]
        · have h1 := hserv.fits r
          have h2 := hsz r
          have e : bottom P b vm r - BitVec.ofNat 8 j = O r + BitVec.ofNat 8 (depth O r vm - (sigAt P b).load r - j) := by
            rw [hbot r]
            have : depth O r vm - (sigAt P b).load r = (depth O r vm - (sigAt P b).load r - j) + j := by omega
            conv_lhs => rw [this, ← Buxn.VM.add_ofNat]
            rw [BitVec.add_sub_cancel]
          rw [e]
          have h3 : depth O r vm - (sigAt P b).load r - j < f'.base r := by
            show _ < depth O r vm - (sigAt P b).load r
            omega
          exact g3 r _ (by omega) h3

end

end Buxn.Chess
