import Verif.Devices.FileUnread
import Verif.Misc.Memory
/-!
# C94: memory that a program does not read before it writes it does not matter

The second part: the devices of `buxn-cli`, which look at the memory when a request is made at the expansion port and when a file is named, read or written.
-/
namespace Buxn.Cli
open Buxn.VM Buxn.Input
variable {τ : Type} {U : Nat → Bool} {f : Nat → Byte}

/-! ## Specification -/

/-- Where a request at the expansion port begins to fill, or to copy from. -/
def first (vm : VM) : Nat := System.clampStart vm.memSize (System.flat (System.word vm (System.blockAddr vm + 3)) (System.word vm (System.blockAddr vm + 5)))

/-- Where it copies to. -/
def second (vm : VM) : Nat := System.clampStart vm.memSize (System.flat (System.word vm (System.blockAddr vm + 7)) (System.word vm (System.blockAddr vm + 9)))

/-- How many bytes there are, if the request is taken at its word but for the end of the memory. -/
def count (vm : VM) (start : Nat) : Nat := System.cut vm.memSize start (System.word vm (System.blockAddr vm + 1))

/-- The first `n` cells of the command block. -/
def block (vm : VM) (n : Nat) : List Nat := (List.range n).map fun j => (System.blockAddr vm + j) % 65536

/-- The cells that a request at the expansion port looks at, `system.c:23-69`: the command block and, for a copy, the source. -/
def requested (vm : VM) : List Nat :=
  let op := vm.memory (System.blockAddr vm)
  if op = 0 then (System.blockAddr vm + 7) :: block vm 7
  else if op = 1 ∨ op = 2 then block vm 11 ++ (List.range (count vm (max (first vm) (second vm)))).map fun j => first vm + j
  else block vm 3

/-- The cells that it fills. -/
def requestFills (vm : VM) : Nat → Bool :=
  let op := vm.memory (System.blockAddr vm)
  if op = 0 then File.span (first vm) (count vm (first vm))
  else if op = 1 ∨ op = 2 then File.span (second vm) (count vm (max (first vm) (second vm)))
  else fun _ => false

/-- A port of one of the file devices. -/
def isFile (a : Byte) : Bool := deviceId a = 0xa0 || deviceId a = 0xb0

/-- How the devices of `buxn-cli` use the memory. (Of a memory that is too large for 32-bit indices nothing is said: there a request at the expansion port may look at anything.) -/
def usage (F : File.Host τ) (con : Console) : Usage (Data τ) where
  looks a vm _ i :=
    a = 0x03 ∧ (i ∈ requested vm ∨ 2 ^ 32 < vm.memSize + 65536) ∨
    isFile a = true ∧ File.looks (ports vm (deviceId a)) (devicePort a) vm.memory i
  fills a vm d i :=
    a = 0x03 && requestFills vm i ||
    isFile a &&
      match deo F con a vm d with
      | .ok (_, d') => File.filled (ports vm (deviceId a)) (devicePort a) (d'.file (deviceId a = 0xb0)).success i
      | .error _ => false

/-! ## The expansion port -/

theorem patch_none (vm : VM) (h : ∀ i, U i = false) : vm.patch U f = vm := by
  unfold VM.patch
  cases vm
  dsimp only
  congr 1
  funext i
  rw [h i]; rfl

theorem patch_word {vm : VM} {a : Nat} (h : U (a % 65536) = false) (h' : U ((a + 1) % 65536) = false) : System.word (vm.patch U f) a = System.word vm a := by
  unfold System.word
  rw [patch_memory h, patch_memory h']

theorem patch_block {vm : VM} {n j : Nat} (h : ∀ i ∈ block vm n, U i = false) (hj : j < n) : U ((System.blockAddr vm + j) % 65536) = false :=
  h _ (List.mem_map.2 ⟨j, List.mem_range.2 hj, rfl⟩)

theorem patch_blockWord {vm : VM} {n j : Nat} (h : ∀ i ∈ block vm n, U i = false) (hj : j + 1 < n) :
    System.word (vm.patch U f) (System.blockAddr vm + j) = System.word vm (System.blockAddr vm + j) :=
  patch_word (patch_block h (by omega)) (by rw [Nat.add_assoc]; exact patch_block h hj)

theorem patch_withRange (vm : VM) (dst len : Nat) (val val' : Nat → Byte) (hv : ∀ j, j < len → val j = val' j) :
    ({ vm.patch U f with memory := System.withRange (vm.patch U f).memory dst len val } : VM) =
      VM.patch (without U (File.span dst len)) f { vm with memory := System.withRange vm.memory dst len val' } := by
  unfold VM.patch System.withRange
  dsimp only
  congr 1
  funext i
  unfold without File.span
  by_cases h : dst ≤ i ∧ i < dst + len
  · rw [if_pos h, if_pos h, decide_eq_true h, Bool.not_true, Bool.and_false, hv _ (by omega)]
    rfl
  · rw [if_neg h, if_neg h, decide_eq_false h, Bool.not_false, Bool.and_true]

theorem patch_copied {m : Nat → Byte} (op : Byte) (src dst len j : Nat) (hj : j < len) (h : ∀ j, j < len → U (src + j) = false) :
    System.copied (fun i => if U i then f i else m i) op src dst len j = System.copied m op src dst len j := by
  have key : ∀ j, j < len → (if U (src + j) then f (src + j) else m (src + j)) = m (src + j) := by
    intro j hj
    rw [h j hj]; rfl
  unfold System.copied
  split
  · unfold System.forwardValue
    split
    · exact key _ (Nat.lt_of_le_of_lt (Nat.mod_le _ _) hj)
    · exact key _ hj
  · unfold System.backwardValue
    split
    · exact key _ (by omega)
    · exact key _ hj

theorem expansion_other {vm : VM} (hm : 65536 ≤ vm.memSize) (h0 : vm.memory (System.blockAddr vm) ≠ 0)
    (h1 : ¬ (vm.memory (System.blockAddr vm) = 1 ∨ vm.memory (System.blockAddr vm) = 2)) : System.expansion vm = .ok vm := by
  obtain ⟨v1, e1, n1⟩ := System.load_word vm (System.blockAddr vm + 1) hm
  have hlt := System.blockAddr_lt vm
  unfold System.expansion
  simp only [bind, Except.bind, System.blockAddr_eq, rd_ok vm _ (Nat.lt_of_lt_of_le hlt hm), e1, if_neg h0, if_neg h1]
  rfl

theorem expansion_patch (vm : VM) (hm : 65536 ≤ vm.memSize) (hmax : vm.memSize + 65536 ≤ 2 ^ 32) (h : ∀ i ∈ requested vm, U i = false) :
    System.expansion (vm.patch U f) = (System.expansion vm).map (VM.patch (without U (requestFills vm)) f) := by
  have hb : System.blockAddr (vm.patch U f) = System.blockAddr vm := rfl
  have hlt := System.blockAddr_lt vm
  have hop : U (System.blockAddr vm) = false := by
    have hn : ∀ n, 0 < n → System.blockAddr vm ∈ block vm n := fun n hn => List.mem_map.2 ⟨0, List.mem_range.2 hn, (congrArg (· % 65536) (Nat.add_zero _)).trans (Nat.mod_eq_of_lt hlt)⟩
    apply h
    unfold requested
    dsimp only
    split
    · exact List.mem_cons_of_mem _ (hn 7 (by omega))
    · split
      · exact List.mem_append_left _ (hn 11 (by omega))
      · exact hn 3 (by omega)
  have eop : (vm.patch U f).memory (System.blockAddr vm) = vm.memory (System.blockAddr vm) := patch_memory hop
  unfold requested at h
  unfold requestFills
  dsimp only at h ⊢
  by_cases h0 : vm.memory (System.blockAddr vm) = 0
  · rw [if_pos h0] at h ⊢
    have hc := fun i hi => h i (List.mem_cons_of_mem _ hi)
    have e := System.expansion_fill vm hm hmax h0
    have e' := System.expansion_fill (vm.patch U f) hm hmax (by rw [hb, eop]; exact h0)
    dsimp only at e e'
    rw [e, e', hb, patch_blockWord (f := f) hc (show 3 + 1 < 7 by omega), patch_blockWord (f := f) hc (show 5 + 1 < 7 by omega), patch_blockWord (f := f) hc (show 1 + 1 < 7 by omega)]
    have hrd : (vm.patch U f).rd (System.blockAddr vm + 7) = vm.rd (System.blockAddr vm + 7) := by
      unfold VM.rd
      rw [patch_memory (h _ List.mem_cons_self)]
      rfl
    rw [hrd]
    cases vm.rd (System.blockAddr vm + 7) with
    | error u => rfl
    | ok v =>
      show Except.ok _ = Except.ok _
      exact congrArg _ (patch_withRange _ _ _ _ _ (fun _ _ => rfl))
  rw [if_neg h0] at h ⊢
  by_cases h1 : vm.memory (System.blockAddr vm) = 1 ∨ vm.memory (System.blockAddr vm) = 2
  · rw [if_pos h1] at h ⊢
    have hc := fun i hi => h i (List.mem_append_left _ hi)
    have e := System.expansion_copy vm hm hmax h1
    have e' := System.expansion_copy (vm.patch U f) hm hmax (by rw [hb, eop]; exact h1)
    dsimp only at e e'
    rw [e, e', hb, eop, patch_blockWord (f := f) hc (show 3 + 1 < 11 by omega), patch_blockWord (f := f) hc (show 5 + 1 < 11 by omega), patch_blockWord (f := f) hc (show 1 + 1 < 11 by omega),
      patch_blockWord (f := f) hc (show 7 + 1 < 11 by omega), patch_blockWord (f := f) hc (show 9 + 1 < 11 by omega)]
    show Except.ok _ = Except.ok _
    refine congrArg _ (patch_withRange _ _ _ _ _ fun j hj => ?_)
    exact patch_copied _ _ _ _ _ hj fun k hk => h _ (List.mem_append_right _ (List.mem_map.2 ⟨k, List.mem_range.2 hk, rfl⟩))
  · rw [if_neg h1] at h ⊢
    rw [expansion_other hm h0 h1, expansion_other (vm := vm.patch U f) hm (by rw [hb, eop]; exact h0) (by rw [hb, eop]; exact h1), without_nil]
    rfl

/-! ## All devices -/

theorem system_patch (a : Byte) (vm : VM) (d : Data τ) (hm : 65536 ≤ vm.memSize) (h : a = 0x03 → ∀ i, i ∈ requested vm ∨ 2 ^ 32 < vm.memSize + 65536 → U i = false) :
    System.deo callbacks a (vm.patch U f) d = (System.deo callbacks a vm d).map fun x => (x.1.patch (without U fun i => a = 0x03 && requestFills vm i) f, x.2) := by
  unfold System.deo
  by_cases h3 : a = 0x03
  · rw [if_pos h3, if_pos h3]
    have hw : (without U fun i => a = 0x03 && requestFills vm i) = without U (requestFills vm) := by
      congr 1
      funext i
      rw [decide_eq_true h3, Bool.true_and]
    rw [hw]
    by_cases hmax : 2 ^ 32 < vm.memSize + 65536
    · have hU : ∀ i, U i = false := fun i => h h3 i (.inr hmax)
      rw [patch_none vm hU]
      have hU' : ∀ i, without U (requestFills vm) i = false := by intro i; unfold without; rw [hU i]; rfl
      cases System.expansion vm with
      | error u => rfl
      | ok vm1 =>
        show Except.ok _ = Except.ok _
        dsimp only
        rw [patch_none vm1 hU']
    · rw [expansion_patch vm hm (by omega) fun i hi => h h3 i (.inl hi)]
      cases System.expansion vm <;> rfl
  · have hw : (without U fun i => a = 0x03 && requestFills vm i) = U := by
      have : (fun i => (decide (a = 0x03) && requestFills vm i)) = fun _ => false := by
        funext i
        rw [decide_eq_false h3, Bool.false_and]
      rw [this, without_nil]
    rw [hw, if_neg h3, if_neg h3]
    split
    · rfl
    split
    · rfl
    split
    · rfl
    split
    · rfl
    split
    · rw [show (vm.patch U f).device = vm.device from rfl]
      split <;> rfl
    · rfl

theorem fileDeo_patch (F : File.Host τ) (second : Bool) (id a : Byte) (vm : VM) (d : Data τ) (h : ∀ i, File.looks (ports vm id) (devicePort a) vm.memory i → U i = false) :
    fileDeo F second id a (vm.patch U f) d =
      (fileDeo F second id a vm d).map fun x => (x.1.patch (without U (File.filled (ports vm id) (devicePort a) (x.2.file second).success)) f, x.2) := by
  unfold fileDeo
  have hd := File.C94_file (U := U) (f := f) (N := vm.memSize) F (ports vm id) (devicePort a) { dev := d.file second, mem := vm.memory, host := d.fs, log := d.log second } h
  rw [show (vm.patch U f).memSize = vm.memSize from rfl, show ports (vm.patch U f) id = ports vm id from rfl]
  rw [show ({ dev := d.file second, mem := (vm.patch U f).memory, host := d.fs, log := d.log second } : File.W τ) =
    ({ dev := d.file second, mem := vm.memory, host := d.fs, log := d.log second } : File.W τ).patch U f from rfl, hd]
  cases File.deo F vm.memSize (ports vm id) (devicePort a) { dev := d.file second, mem := vm.memory, host := d.fs, log := d.log second } with
  | error u => rfl
  | ok w =>
    show Except.ok _ = Except.ok _
    dsimp only
    rw [show upd d.file second w.dev second = w.dev from if_pos rfl]
    rfl

theorem usage_uses (F : File.Host τ) (con : Console) : Uses (usage F con) (host F con) where
  dei a vm d U f := by
    show dei con a (vm.patch U f) d = (dei con a vm d).map _
    unfold dei
    dsimp only
    split
    · rfl
    split
    · rfl
    split
    · rw [show Datetime.dei (d.clock.reading d.clock.calls) (vm.patch U f) a = Datetime.dei (d.clock.reading d.clock.calls) vm a from rfl]
      cases Datetime.dei (d.clock.reading d.clock.calls) vm a <;> rfl
    split
    · rfl
    split
    · rfl
    · rfl
  deo a vm d U f hm h := by
    show deo F con a (vm.patch U f) d = (deo F con a vm d).map _
    have hother : isFile a = false → (usage F con).fills a vm d = fun i => a = 0x03 && requestFills vm i := by
      intro hi
      funext i
      show (_ || (isFile a && _)) = _
      rw [hi, Bool.false_and, Bool.or_false]
    have hfile : isFile a = true → ∀ vm' d', deo F con a vm d = .ok (vm', d') →
        (usage F con).fills a vm d = File.filled (ports vm (deviceId a)) (devicePort a) (d'.file (deviceId a = 0xb0)).success := by
      intro hi vm' d' e
      have h3 : a ≠ 0x03 := by rintro rfl; revert hi; decide
      funext i
      show (_ || (isFile a && _)) = _
      rw [hi, Bool.true_and, decide_eq_false h3, Bool.false_and, Bool.false_or, e]
    have hany : ∀ (second : Bool), isFile a = true → second = decide (deviceId a = 0xb0) → deo F con a vm d = fileDeo F second (deviceId a) a vm d →
        fileDeo F second (deviceId a) a (vm.patch U f) d =
          (fileDeo F second (deviceId a) a vm d).map fun x => (x.1.patch (without U ((usage F con).fills a vm d)) f, x.2) := by
      intro second hi hs e
      rw [fileDeo_patch F second (deviceId a) a vm d fun i hi' => h i (.inr ⟨hi, hi'⟩)]
      cases hx : fileDeo F second (deviceId a) a vm d with
      | error u => rfl
      | ok x =>
        show Except.ok _ = Except.ok _
        dsimp only
        rw [hfile hi x.1 x.2 (e.trans hx), ← hs]
    by_cases h0 : deviceId a = 0x00
    · have e : ∀ vm, deo F con a vm d = System.deo callbacks a vm d := fun vm => if_pos h0
      have hi : isFile a = false := by unfold isFile; rw [h0]; decide
      rw [e, e, hother hi]
      exact system_patch a vm d hm fun h3 i hi => h i (.inl ⟨h3, hi⟩)
    have h3 : a ≠ 0x03 := by rintro rfl; exact h0 (by decide)
    have hnone : isFile a = false → without U ((usage F con).fills a vm d) = U := by
      intro hi
      rw [hother hi]
      have : (fun i => (decide (a = 0x03) && requestFills vm i)) = fun _ => false := by
        funext i
        rw [decide_eq_false h3, Bool.false_and]
      rw [this, without_nil]
    by_cases h1 : deviceId a = 0x10
    · rw [hnone (by unfold isFile; rw [h1]; decide)]
      unfold deo
      dsimp only
      rw [if_neg h0, if_neg h0, if_pos h1, if_pos h1]
      rfl
    by_cases ha : deviceId a = 0xa0
    · have e : ∀ vm, deo F con a vm d = fileDeo F false (deviceId a) a vm d := fun vm => by
        unfold deo
        dsimp only
        rw [if_neg h0, if_neg h1, if_pos ha]
      rw [e (vm.patch U f), hany false (by unfold isFile; rw [ha]; decide) (by rw [ha]; decide) (e vm), e vm]
    by_cases hb : deviceId a = 0xb0
    · have e : ∀ vm, deo F con a vm d = fileDeo F true (deviceId a) a vm d := fun vm => by
        unfold deo
        dsimp only
        rw [if_neg h0, if_neg h1, if_neg ha, if_pos hb]
      rw [e (vm.patch U f), hany true (by unfold isFile; rw [hb]; decide) (by rw [hb]; decide) (e vm), e vm]
    · have e : ∀ vm, deo F con a vm d = .ok (vm, d) := fun vm => by
        unfold deo
        dsimp only
        rw [if_neg h0, if_neg h1, if_neg ha, if_neg hb]
      rw [e, e, hnone (by unfold isFile; rw [decide_eq_false ha, decide_eq_false hb]; rfl)]
      rfl

/-- **C94**, with the devices of `buxn-cli`: a program that reads none of the cells `U` before they are filled, neither by its instructions nor by its requests to the expansion port
and to the file devices, does the same whatever is in these cells: it stops alike after as many instructions, prints the same, makes the same calls to the file system, and leaves the same
in its stacks, its device page and its memory, but for the cells of `U` that have not been filled. -/
theorem C94_same_program (F : File.Host τ) (con : Console) (cfg : Cfg) (k0 k0' : Byte × Byte) (n : Nat) (vm vm' : VM) (d : Data τ) (pc : Short) (hpc : pc ≠ 0)
    (hm : 65536 ≤ vm.memSize) (U : Nat → Bool) (ha : AgreeBut U vm vm')
    (hu : Unread (usage F con) (host F con) U (Spec.visited (Spec.cstep cfg (host F con)) n ⟨vm, d, pc.toNat⟩)) :
    AlikeBut (unwritten (usage F con) (host F con) U (Spec.visited (Spec.cstep cfg (host F con)) n ⟨vm, d, pc.toNat⟩))
      (execute cfg (host F con) none k0 n vm d pc).view (execute cfg (host F con) none k0' n vm' d pc).view :=
  C94_execute (usage_uses F con) (host_keeps F con) cfg k0 k0' n vm vm' d pc hpc hm U ha hu

/-! ## A concrete case -/

/-- All cells that the devices look at, if no file is used. -/
def lookedAt (a : Byte) (vm : VM) (_ : Data τ) : Option (List Nat) :=
  if isFile a then none
  else if a = 0x03 then (if vm.memSize + 65536 ≤ 2 ^ 32 then some (requested vm) else none)
  else some []

theorem lookedAt_all (F : File.Host τ) (con : Console) (a : Byte) (vm : VM) (d : Data τ) (l : List Nat) (h : lookedAt a vm d = some l) (i : Nat) (hi : (usage F con).looks a vm d i) :
    i ∈ l := by
  unfold lookedAt at h
  split at h
  · cases h
  rename_i hf
  split at h
  · split at h
    · rename_i hm
      cases h
      rcases hi with ⟨-, hi | hi⟩ | ⟨hi, -⟩
      · exact hi
      · omega
      · exact absurd hi hf
    · cases h
  · rename_i h3
    rcases hi with ⟨hi, -⟩ | ⟨hi, -⟩
    · exact absurd hi h3
    · exact absurd hi hf

/-- `LIT2 0110 LIT 02 DEO2 LIT2 0202 LDA LIT 18 DEO BRK` and the command block at 0110: fill 3 bytes from 0200 with 41. The program prints the last of them. -/
def fillAndPrint : List Nat := [0xa0, 0x01, 0x10, 0x80, 0x02, 0x37, 0xa0, 0x02, 0x02, 0x14, 0x80, 0x18, 0x17, 0x00, 0x00, 0x00, 0x00, 0x00, 0x03, 0x00, 0x00, 0x02, 0x00, 0x41]

/-- All cells but those of the program. -/
def beside : Nat → Bool := fun i => !(decide (0x100 ≤ i) && decide (i < 0x118))

/-- What has been printed, if the run has come to its end. -/
def shown (o : Outcome (Data τ)) : Option (List Out) :=
  match o with
  | .halted _ d => some d.out
  | _ => none

theorem fillAndPrint_unread : Unread (usage noFiles quiet) (host noFiles quiet) beside
    (Spec.visited (Spec.cstep ⟨true, true⟩ (host noFiles quiet)) 20 ⟨booted fillAndPrint, (start () noClock).data, (0x100 : Short).toNat⟩) :=
  unread_of (all := lookedAt) (lookedAt_all noFiles quiet) (by decide +kernel)

example : shown (execute ⟨true, true⟩ (host noFiles quiet) none (0, 0) 20 (booted fillAndPrint) (start () noClock).data 0x100) = some [.stdout 0x41] := by decide +kernel

/-- The theorem applies: the program prints the same whatever is in the memory around it. -/
example (f : Nat → Byte) : AlikeBut (unwritten (usage noFiles quiet) (host noFiles quiet) beside
      (Spec.visited (Spec.cstep ⟨true, true⟩ (host noFiles quiet)) 20 ⟨booted fillAndPrint, (start () noClock).data, (0x100 : Short).toNat⟩))
    (execute ⟨true, true⟩ (host noFiles quiet) none (0, 0) 20 (booted fillAndPrint) (start () noClock).data 0x100).view
    (execute ⟨true, true⟩ (host noFiles quiet) none (7, 8) 20 ((booted fillAndPrint).patch beside f) (start () noClock).data 0x100).view :=
  C94_same_program noFiles quiet _ _ _ 20 _ _ _ _ (by decide) (by unfold booted; decide) beside (patch_agree _) fillAndPrint_unread

/-- `LIT2 0202 LDA LIT 18 DEO BRK`: prints a byte that has not been filled. -/
def printOnly : List Nat := [0xa0, 0x02, 0x02, 0x14, 0x80, 0x18, 0x17, 0x00]

/-- The hypothesis is needed: a program that reads a cell that it has not filled depends on what is in it. -/
theorem C94_read_matters : ∃ f,
    shown (execute ⟨true, true⟩ (host noFiles quiet) none (0, 0) 20 (booted printOnly) (start () noClock).data 0x100) = some [.stdout 0] ∧
    shown (execute ⟨true, true⟩ (host noFiles quiet) none (0, 0) 20 ((booted printOnly).patch beside f) (start () noClock).data 0x100) = some [.stdout 0x42] :=
  ⟨fun _ => 0x42, by decide +kernel, by decide +kernel⟩

end Buxn.Cli
