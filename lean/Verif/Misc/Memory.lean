import Verif.Devices.FileMemory
import Verif.VM.Guard
import Verif.Gui.WholeSafe
/-!
# C89: a program needs only the memory it addresses

The second part: the devices of `buxn-cli`. Only a request to the expansion port can leave the first 64K.
-/
namespace Buxn.Cli
open Buxn.VM Buxn.Input
variable {τ : Type} {M : Nat}

/-! ## Specification -/

/-- The request that the expansion port is asked for (the command block, `system.c:23-69`) lies within the first `M` bytes. -/
def Fits (M : Nat) (vm : VM) : Prop :=
  let block := System.blockAddr vm
  let op := vm.memory block
  let length := System.word vm (block + 1)
  let first := System.flat (System.word vm (block + 3)) (System.word vm (block + 5))
  let second := System.flat (System.word vm (block + 7)) (System.word vm (block + 9))
  (op = 0 → block + 7 < M ∧ first + length ≤ M) ∧ (op = 1 ∨ op = 2 → first + length ≤ M ∧ second + length ≤ M)

instance (M : Nat) (vm : VM) : Decidable (Fits M vm) := by unfold Fits; infer_instance

/-- The devices of `buxn-cli`, but a request to the expansion port that leaves the first `M` bytes is refused: it ends the run with
`arith`, which no device of `buxn-cli` does. -/
def limited (M : Nat) (F : File.Host τ) (con : Console) : Host (Data τ) where
  dei := (host F con).dei
  deo a vm d := if a = 0x03 ∧ ¬ Fits M vm then .error .arith else (host F con).deo a vm d

/-! ## The expansion port -/

theorem cut_word (vm : VM) (a : Nat) (hM : 65536 ≤ M) : System.word (vm.cut M) a = System.word vm a := by
  unfold System.word
  rw [cut_memory (by omega), cut_memory (by omega)]

theorem cut_blockAddr (vm : VM) : System.blockAddr (vm.cut M) = System.blockAddr vm := rfl

theorem cut_op (vm : VM) (hM : 65536 ≤ M) : (vm.cut M).memory (System.blockAddr vm) = vm.memory (System.blockAddr vm) :=
  cut_memory (Nat.lt_of_lt_of_le (System.blockAddr_lt vm) hM)

theorem cut_fits (vm : VM) (hM : 65536 ≤ M) : Fits M (vm.cut M) ↔ Fits M vm := by
  unfold Fits
  dsimp only
  rw [cut_blockAddr, cut_op vm hM]
  simp only [cut_word _ _ hM]

theorem cut_withRange (vm : VM) (dst len : Nat) (val val' : Nat → Byte) (h : dst + len ≤ M ∨ len = 0) (hv : ∀ j, j < len → val j = val' j) :
    ({ vm.cut M with memory := System.withRange (vm.cut M).memory dst len val } : VM) = VM.cut M { vm with memory := System.withRange vm.memory dst len val' } := by
  unfold VM.cut System.withRange
  dsimp only
  congr 1
  funext i
  by_cases h1 : dst ≤ i ∧ i < dst + len
  · rw [if_pos h1, if_pos h1, if_pos (by omega), hv _ (by omega)]
  · rw [if_neg h1, if_neg h1]

theorem withRange_zero (m : Nat → Byte) (a : Nat) (v : Nat → Byte) : System.withRange m a 0 v = m := by
  funext i
  exact if_neg (by omega)

theorem clampStart_of {x len N : Nat} (h : x + len ≤ M) (hMN : M ≤ N) (hl : len ≠ 0) : System.clampStart N x = x := by
  unfold System.clampStart
  rw [if_pos (by omega)]

theorem cut_copied (m : Nat → Byte) (op : Byte) (src dst len j : Nat) (hs : src + len ≤ M) (hj : j < len) :
    System.copied (fun i => if i < M then m i else 0) op src dst len j = System.copied m op src dst len j := by
  unfold System.copied
  split
  · unfold System.forwardValue
    split
    · have := Nat.mod_le j (dst - src)
      exact if_pos (by omega)
    · exact if_pos (by omega)
  · unfold System.backwardValue
    split
    · exact if_pos (by omega)
    · exact if_pos (by omega)

theorem expansion_cut (vm : VM) (hM : 65536 ≤ M) (hm : Sized M vm) (hf : Fits M vm) :
    System.expansion (vm.cut M) = (System.expansion vm).map (VM.cut M) := by
  have hm1 : 65536 ≤ vm.memSize := Nat.le_trans hM hm.1
  have hM2 : M + 65536 ≤ 2 ^ 32 := by have := hm.1; have := hm.2; omega
  by_cases h0 : vm.memory (System.blockAddr vm) = 0
  · obtain ⟨hb, hl⟩ := hf.1 h0
    have e := System.expansion_fill vm hm1 hm.2 h0
    have e' := System.expansion_fill (vm.cut M) hM hM2 (by rw [cut_blockAddr, cut_op vm hM]; exact h0)
    dsimp only at e e'
    rw [e, e', cut_blockAddr, rd_ok _ _ (show _ < (vm.cut M).memSize from hb), rd_ok _ _ (Nat.lt_of_lt_of_le hb hm.1), cut_memory hb]
    simp only [cut_word _ _ hM, show (vm.cut M).memSize = M from rfl]
    generalize hx : System.flat (System.word vm (System.blockAddr vm + 3)) (System.word vm (System.blockAddr vm + 5)) = x at *
    generalize hlen : System.word vm (System.blockAddr vm + 1) = len at *
    show Except.ok _ = Except.ok _
    by_cases hz : len = 0
    · subst hz
      have hc : ∀ N y, System.cut N y 0 = 0 := fun N y => Nat.zero_min _
      rw [hc, hc, withRange_zero, withRange_zero]
      rfl
    · rw [clampStart_of hl (Nat.le_refl M) hz, clampStart_of hl hm.1 hz]
      have hc : ∀ N, M ≤ N → System.cut N x len = len := fun N hN => Nat.min_eq_left (by omega)
      rw [hc M (Nat.le_refl M), hc _ hm.1]
      exact congrArg _ (cut_withRange _ _ _ _ _ (.inl hl) (fun _ _ => rfl))
  by_cases h1 : vm.memory (System.blockAddr vm) = 1 ∨ vm.memory (System.blockAddr vm) = 2
  · obtain ⟨hs, hd⟩ := hf.2 h1
    have e := System.expansion_copy vm hm1 hm.2 h1
    have e' := System.expansion_copy (vm.cut M) hM hM2 (by rw [cut_blockAddr, cut_op vm hM]; exact h1)
    dsimp only at e e'
    rw [e, e', cut_blockAddr, cut_op vm hM]
    simp only [cut_word _ _ hM, show (vm.cut M).memSize = M from rfl]
    generalize hx : System.flat (System.word vm (System.blockAddr vm + 3)) (System.word vm (System.blockAddr vm + 5)) = x at *
    generalize hy : System.flat (System.word vm (System.blockAddr vm + 7)) (System.word vm (System.blockAddr vm + 9)) = y at *
    generalize hlen : System.word vm (System.blockAddr vm + 1) = len at *
    show Except.ok _ = Except.ok _
    by_cases hz : len = 0
    · subst hz
      have hc : ∀ N y, System.cut N y 0 = 0 := fun N y => Nat.zero_min _
      rw [hc, hc, withRange_zero, withRange_zero]
      rfl
    · rw [clampStart_of hs (Nat.le_refl M) hz, clampStart_of hs hm.1 hz, clampStart_of hd (Nat.le_refl M) hz, clampStart_of hd hm.1 hz]
      have hc : ∀ N, M ≤ N → System.cut N (max x y) len = len := fun N hN => Nat.min_eq_left (by omega)
      rw [hc M (Nat.le_refl M), hc _ hm.1]
      exact congrArg _ (cut_withRange _ _ _ _ _ (.inl hd) (fun j hj => cut_copied _ _ _ _ _ _ hs hj))
  · have hop : vm.memory (System.blockAddr vm) ≠ 0 ∧ vm.memory (System.blockAddr vm) ≠ 1 ∧ vm.memory (System.blockAddr vm) ≠ 2 :=
      ⟨h0, fun h => h1 (.inl h), fun h => h1 (.inr h)⟩
    have key : ∀ vm : VM, 65536 ≤ vm.memSize → vm.memory (System.blockAddr vm) ≠ 0 ∧ vm.memory (System.blockAddr vm) ≠ 1 ∧ vm.memory (System.blockAddr vm) ≠ 2 →
        System.expansion vm = .ok vm := by
      intro vm hm hop
      obtain ⟨v1, e1, n1⟩ := System.load_word vm (System.blockAddr vm + 1) hm
      have hlt := System.blockAddr_lt vm
      unfold System.expansion
      simp only [bind, Except.bind, System.blockAddr_eq, rd_ok vm _ (Nat.lt_of_lt_of_le hlt hm), e1, if_neg hop.1,
        if_neg (show ¬ (vm.memory (System.blockAddr vm) = 1 ∨ vm.memory (System.blockAddr vm) = 2) from fun h => h.elim hop.2.1 hop.2.2)]
      rfl
    rw [key vm hm1 hop, key (vm.cut M) hM (by rw [cut_blockAddr, cut_op vm hM]; exact hop)]
    rfl

/-! ## All devices -/

theorem system_cut (a : Byte) (vm : VM) (d : Data τ) (hM : 65536 ≤ M) (hm : Sized M vm) (hf : a = 0x03 → Fits M vm) :
    System.deo callbacks a (vm.cut M) d = (System.deo callbacks a vm d).map fun x => (x.1.cut M, x.2) := by
  unfold System.deo
  by_cases h3 : a = 0x03
  · rw [if_pos h3, if_pos h3, expansion_cut vm hM hm (hf h3)]
    cases System.expansion vm <;> rfl
  · rw [if_neg h3, if_neg h3]
    split
    · rfl
    split
    · rfl
    split
    · rfl
    split
    · rfl
    split
    · rw [show (vm.cut M).device = vm.device from rfl]
      split <;> rfl
    · rfl

theorem fileDeo_cut (F : File.Host τ) (second : Bool) (id a : Byte) (vm : VM) (d : Data τ) (hM : 65536 ≤ M) (hm : Sized M vm) :
    fileDeo F second id a (vm.cut M) d = (fileDeo F second id a vm d).map fun x => (x.1.cut M, x.2) := by
  unfold fileDeo
  have h := File.deo_cut hM hm.1 F (ports vm id) (devicePort a) { dev := d.file second, mem := vm.memory, host := d.fs, log := d.log second }
  rw [show (vm.cut M).memSize = M from rfl, show ports (vm.cut M) id = ports vm id from rfl]
  rw [show ({ dev := d.file second, mem := (vm.cut M).memory, host := d.fs, log := d.log second } : File.W τ) =
    ({ dev := d.file second, mem := vm.memory, host := d.fs, log := d.log second } : File.W τ).cut M from rfl, h]
  cases File.deo F vm.memSize (ports vm id) (devicePort a) { dev := d.file second, mem := vm.memory, host := d.fs, log := d.log second } <;> rfl

theorem limited_within (hM : 65536 ≤ M) (F : File.Host τ) (con : Console) : Within M (limited M F con) where
  dei a vm d _ := by
    show dei con a (vm.cut M) d = (dei con a vm d).map _
    unfold dei
    dsimp only
    split
    · rfl
    split
    · rfl
    split
    · rw [show Datetime.dei (d.clock.reading d.clock.calls) (vm.cut M) a = Datetime.dei (d.clock.reading d.clock.calls) vm a from rfl]
      cases Datetime.dei (d.clock.reading d.clock.calls) vm a <;> rfl
    split
    · rfl
    split
    · rfl
    · rfl
  deo a vm d hm := by
    show (if a = 0x03 ∧ ¬ Fits M (vm.cut M) then .error .arith else deo F con a (vm.cut M) d) =
      (if a = 0x03 ∧ ¬ Fits M vm then .error .arith else deo F con a vm d : Res _).map _
    by_cases hf : a = 0x03 ∧ ¬ Fits M vm
    · rw [if_pos hf, if_pos ⟨hf.1, fun h => hf.2 ((cut_fits vm hM).1 h)⟩]
      rfl
    rw [if_neg hf, if_neg fun h => hf ⟨h.1, fun h' => h.2 ((cut_fits vm hM).2 h')⟩]
    unfold deo
    dsimp only
    split
    · exact system_cut a vm d hM hm fun h => Classical.byContradiction fun hn => hf ⟨h, hn⟩
    split
    · rfl
    split
    · exact fileDeo_cut F _ _ a vm d hM hm
    split
    · exact fileDeo_cut F _ _ a vm d hM hm
    · rfl

theorem host_keeps (F : File.Host τ) (con : Console) : Buxn.VM.Spec.KeepsMemSize (host F con) where
  dei a vm d v vm' d' h := by
    replace h : dei con a vm d = .ok (v, vm', d') := h
    unfold dei at h
    dsimp only at h
    split at h
    · cases h; rfl
    split at h
    · cases h; rfl
    split at h
    · obtain ⟨_, -, h⟩ := Gui.Whole.map_ok h
      cases h; rfl
    split at h
    · cases h; rfl
    split at h
    · cases h; rfl
    · cases h; rfl
  deo a vm d vm' d' h := by
    replace h : deo F con a vm d = .ok (vm', d') := h
    have hfile : ∀ {second : Bool} {id : Byte}, fileDeo F second id a vm d = .ok (vm', d') → vm'.memSize = vm.memSize := by
      intro second id h
      unfold fileDeo at h
      obtain ⟨w, -, h1⟩ := Gui.Whole.map_ok h
      cases h1; rfl
    unfold deo at h
    dsimp only at h
    split at h
    · unfold System.deo at h
      split at h
      · cases he : System.expansion vm with
        | error u => rw [he] at h; cases h
        | ok vm1 =>
          rw [he] at h
          cases h
          exact Gui.Whole.expansion_memSize he
      split at h
      · cases h; rfl
      split at h
      · cases h; rfl
      split at h
      · cases h; rfl
      split at h
      · cases h; rfl
      split at h
      · split at h
        · cases h; rfl
        · cases h; rfl
      · cases h; rfl
    split at h
    · cases h; rfl
    split at h
    · exact hfile h
    split at h
    · exact hfile h
    · cases h; rfl

theorem limited_guards (F : File.Host τ) (con : Console) : Guards .arith (limited M F con) (host F con) where
  dei _ _ _ := .inl rfl
  deo a vm d := by
    show SameOr _ (if a = 0x03 ∧ ¬ Fits M vm then .error .arith else (host F con).deo a vm d) _
    split
    · exact .inr rfl
    · exact .inl rfl

theorem limited_keeps (F : File.Host τ) (con : Console) : Buxn.VM.Spec.KeepsMemSize (limited M F con) where
  dei a vm d v vm' d' h := (host_keeps F con).dei _ _ _ _ _ _ h
  deo a vm d vm' d' h := by
    rcases (limited_guards (M := M) F con).deo a vm d with e | e
    · exact (host_keeps F con).deo _ _ _ _ _ (e.symm.trans h)
    · rw [e] at h; cases h

/-- **C89**, with the devices of `buxn-cli`: a program none of whose requests to the expansion port leaves the first `M` bytes does the same on
machines of any two sizes of at least `M ≥ 64K` bytes: it stops alike after as many instructions, prints the same, makes the same calls to the
file system, and leaves the same in its stacks, its device page and the first `M` bytes of its memory. -/
theorem C89_same_program (hM : 65536 ≤ M) (F : File.Host τ) (con : Console) (cfg : Cfg) (k0 k0' : Byte × Byte) (n : Nat) (vm vm' : VM) (d : Data τ) (pc : Short)
    (hm : Sized M vm) (hm' : Sized M vm') (ha : Agree M vm vm')
    (hr : (execute cfg (limited M F con) none k0 n vm d pc).view ≠ .undefined .arith) :
    Alike M (execute cfg (host F con) none k0 n vm d pc).view (execute cfg (host F con) none k0' n vm' d pc).view := by
  have hw := (limited_within hM F con).execute (limited_keeps F con) hM cfg k0 k0' n vm vm' d pc hm hm' ha
  have h1 := (limited_guards (M := M) F con).execute (cfg := cfg) (limited_keeps F con) (host_keeps F con) k0 n vm (Nat.le_trans hM hm.1) d pc
  have h2 := (limited_guards (M := M) F con).execute (cfg := cfg) (limited_keeps F con) (host_keeps F con) k0' n vm' (Nat.le_trans hM hm'.1) d pc
  rcases h1 with h1 | h1
  · rcases h2 with h2 | h2
    · rw [← h1, ← h2]
      exact alike_of hw
    · exfalso
      rw [h2] at hw
      apply hr
      generalize (execute cfg (limited M F con) none k0 n vm d pc).view = o at hw ⊢
      cases o with
      | undefined u => exact hw
      | _ => cases hw
  · exact absurd h1 hr

/-! ## A concrete case -/

/-- `LIT2 0107 LIT 02 DEO2 BRK` and the command block: fill 3 bytes from `bank`:0200 with 41. -/
def fillRom (bank : Nat) : List Nat := [0xa0, 0x01, 0x07, 0x80, 0x02, 0x37, 0x00, 0x00, 0x00, 0x03, 0x00, bank, 0x02, 0x00, 0x41]

/-- A console without arguments. -/
def quiet : Console := { argc := 0, argv := [], type := 0, value := 0 }

/-- The same program on a machine with sixteen banks, the upper ones of which hold anything. -/
def large (rom : List Nat) (upper : Nat → Byte) : VM :=
  { booted rom with memSize := 16 * 65536, memory := fun i => if i < 65536 then (booted rom).memory i else upper i }

example : Sized 65536 (booted (fillRom 0)) := by unfold Sized booted; decide
theorem large_sized (rom : List Nat) (upper : Nat → Byte) : Sized 65536 (large rom upper) := by unfold Sized large; dsimp only; omega
theorem large_agree (rom : List Nat) (upper : Nat → Byte) : Agree 65536 (booted rom) (large rom upper) :=
  ⟨rfl, rfl, rfl, rfl, rfl, fun _ h => (if_pos h).symm⟩

/-- What is at an address after a run has come to its end. -/
def after (o : Outcome (Data τ)) (a : Nat) : Option Byte :=
  match o with
  | .halted vm _ => some (vm.memory a)
  | _ => none

/-- The fill in bank 0 is not refused, on the machine with one bank, and it takes place. -/
example : after (execute ⟨true, true⟩ (limited 65536 noFiles quiet) none (0, 0) 4 (booted (fillRom 0)) (start () noClock).data 0x100) 0x202 = some 0x41 := by decide +kernel

/-- The theorem applies: whatever is in the other banks of a larger machine, the run is the same. -/
example (upper : Nat → Byte) : Alike 65536 (execute ⟨true, true⟩ (host noFiles quiet) none (0, 0) 4 (booted (fillRom 0)) (start () noClock).data 0x100).view
    (execute ⟨true, true⟩ (host noFiles quiet) none (0, 0) 4 (large (fillRom 0) upper) (start () noClock).data 0x100).view :=
  C89_same_program (Nat.le_refl _) noFiles quiet _ _ _ 4 _ _ _ _ (by unfold Sized booted; decide) (large_sized _ _) (large_agree _ _) (by
    have h : after (execute ⟨true, true⟩ (limited 65536 noFiles quiet) none (0, 0) 4 (booted (fillRom 0)) (start () noClock).data 0x100) 0x202 = some 0x41 := by
      decide +kernel
    intro e
    generalize execute ⟨true, true⟩ (limited 65536 noFiles quiet) none (0, 0) 4 (booted (fillRom 0)) (start () noClock).data 0x100 = o at h e
    cases o with
    | halted vm d => cases e
    | undefined u => cases h
    | running c => cases h)

/-- The hypothesis is needed: a fill in bank 1 is taken to the last byte of a machine with one bank (`system.c:33`), and goes elsewhere on a larger one. -/
theorem C89_request_outside : ∃ upper,
    after (execute ⟨true, true⟩ (host noFiles quiet) none (0, 0) 4 (booted (fillRom 1)) (start () noClock).data 0x100) 0xffff = some 0x41 ∧
    after (execute ⟨true, true⟩ (host noFiles quiet) none (0, 0) 4 (large (fillRom 1) upper) (start () noClock).data 0x100) 0xffff = some 0 :=
  ⟨fun _ => 0, by decide +kernel, by decide +kernel⟩

end Buxn.Cli
