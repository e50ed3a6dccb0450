import Verif.Devices.System
import Verif.VM.Spec
/-!
# Theorems about the system device (C10 - C12)
-/
namespace Buxn.System
open Buxn.VM
variable {σ : Type}

/-! ## Specification -/

/-- The big-endian word at address `a` of the first 64K, addresses wrapping. -/
def word (vm : VM) (a : Nat) : Nat :=
  (vm.memory (a % 65536)).toNat * 256 + (vm.memory ((a + 1) % 65536)).toNat

/-- The address of the command block: ports 0x02 and 0x03. -/
def blockAddr (vm : VM) : Nat := (vm.device 0x02).toNat * 256 + (vm.device 0x03).toNat

/-- A bank number and an address make an index into the whole memory. -/
def flat (bank addr : Nat) : Nat := bank * 65536 + addr

/-- Memory where the range `[dst, dst+len)` holds `val 0, val 1, ...`. -/
def withRange (m : Nat → Byte) (dst len : Nat) (val : Nat → Byte) : Nat → Byte :=
  fun i => if dst ≤ i ∧ i < dst + len then val (i - dst) else m i

/-! ## The loops -/

theorem copyLeft_gen (src dst len : Nat) (m : Nat → Byte) (val : Nat → Byte)
    (hv : ∀ j, j < len → withRange m dst j val (src + j) = val j) (k : Nat) (hk : k ≤ len) (vm : VM)
    (hs : src + len ≤ vm.memSize) (hd : dst + len ≤ vm.memSize)
    (hm : vm.memory = withRange m dst (len - k) val) :
    copyLeft src dst len k vm = .ok { vm with memory := withRange m dst len val } := by
  induction k generalizing vm with
  | zero =>
    simp only [copyLeft, Nat.sub_zero] at hm ⊢
    rw [← hm]
  | succ k ih =>
    unfold copyLeft
    simp only [bind, Except.bind]
    rw [rd_ok _ _ (by omega)]
    dsimp only
    rw [wr_ok _ _ _ (by omega)]
    dsimp only
    refine Eq.trans (ih (by omega) _ ?_ ?_ ?_) rfl
    · exact hs
    · exact hd
    dsimp only
    rw [hm, hv _ (by omega)]
    funext i
    unfold upd withRange
    by_cases h : i = dst + (len - (k + 1))
    · subst h
      rw [if_pos rfl, if_pos (by omega), Nat.add_sub_cancel_left]
    · rw [if_neg h]
      by_cases h2 : dst ≤ i ∧ i < dst + (len - (k + 1))
      · rw [if_pos h2, if_pos (by omega)]
      · rw [if_neg h2, if_neg (by omega)]

/-- Memory where the cells `[dst+k, dst+len)` hold `val k, ...`. -/
def withTail (m : Nat → Byte) (dst k len : Nat) (val : Nat → Byte) : Nat → Byte :=
  fun i => if dst + k ≤ i ∧ i < dst + len then val (i - dst) else m i

theorem copyRight_gen (src dst len : Nat) (m : Nat → Byte) (val : Nat → Byte)
    (hv : ∀ j, j < len → withTail m dst (j + 1) len val (src + j) = val j) (k : Nat) (hk : k ≤ len) (vm : VM)
    (hs : src + len ≤ vm.memSize) (hd : dst + len ≤ vm.memSize)
    (hm : vm.memory = withTail m dst k len val) :
    copyRight src dst k vm = .ok { vm with memory := withRange m dst len val } := by
  induction k generalizing vm with
  | zero =>
    have : withTail m dst 0 len val = withRange m dst len val := by
      funext i; simp [withTail, withRange]
    simp only [copyRight]
    rw [← this, ← hm]
  | succ k ih =>
    unfold copyRight
    simp only [bind, Except.bind]
    rw [rd_ok _ _ (by omega)]
    dsimp only
    rw [wr_ok _ _ _ (by omega)]
    dsimp only
    refine Eq.trans (ih (by omega) _ ?_ ?_ ?_) rfl
    · exact hs
    · exact hd
    dsimp only
    rw [hm, hv _ (by omega)]
    funext i
    unfold upd withTail
    by_cases h : i = dst + k
    · subst h
      rw [if_pos rfl, if_pos (by omega), Nat.add_sub_cancel_left]
    · rw [if_neg h]
      by_cases h2 : dst + (k + 1) ≤ i ∧ i < dst + len
      · rw [if_pos h2, if_pos (by omega)]
      · rw [if_neg h2, if_neg (by omega)]

/-- What `[dst, dst+len)` holds after a forward byte-by-byte copy: if the destination starts inside the source,
the first `dst - src` bytes are repeated, otherwise it is the original source. -/
def forwardValue (m : Nat → Byte) (src dst : Nat) (j : Nat) : Byte :=
  if src < dst then m (src + j % (dst - src)) else m (src + j)

/-- After a backward copy: if the source starts inside the destination, its last `src - dst` bytes are repeated. -/
def backwardValue (m : Nat → Byte) (src dst len : Nat) (j : Nat) : Byte :=
  if dst < src then m (src + (len - 1 - (len - 1 - j) % (src - dst))) else m (src + j)

theorem copyLeft_spec (src dst len : Nat) (vm : VM) (hs : src + len ≤ vm.memSize) (hd : dst + len ≤ vm.memSize) :
    copyLeft src dst len len vm =
      .ok { vm with memory := withRange vm.memory dst len (forwardValue vm.memory src dst) } := by
  apply copyLeft_gen src dst len vm.memory _ _ len (Nat.le_refl _) vm hs hd
  · funext i
    unfold withRange
    rw [if_neg (by omega)]
  · intro j hj
    unfold withRange forwardValue
    by_cases h : src < dst
    · simp only [if_pos h]
      split
      · rename_i hin
        have hsub : src + j - dst = j - (dst - src) := by omega
        rw [hsub, ← Nat.mod_eq_sub_mod (by omega)]
      · rw [Nat.mod_eq_of_lt (by omega)]
    · simp only [if_neg h]
      rw [if_neg (by omega)]

theorem copyRight_spec (src dst len : Nat) (vm : VM) (hs : src + len ≤ vm.memSize) (hd : dst + len ≤ vm.memSize) :
    copyRight src dst len vm =
      .ok { vm with memory := withRange vm.memory dst len (backwardValue vm.memory src dst len) } := by
  apply copyRight_gen src dst len vm.memory _ _ len (Nat.le_refl _) vm hs hd
  · funext i
    unfold withTail
    rw [if_neg (by omega)]
  · intro j hj
    unfold withTail backwardValue
    by_cases h : dst < src
    · simp only [if_pos h]
      split
      · rename_i hin
        have hsub : len - 1 - (src + j - dst) = (len - 1 - j) - (src - dst) := by omega
        rw [hsub, ← Nat.mod_eq_sub_mod (by omega)]
      · rw [Nat.mod_eq_of_lt (by omega)]
        congr 1; omega
    · simp only [if_neg h]
      rw [if_neg (by omega)]

/-! ## The expansion port -/

theorem blockAddr_eq (vm : VM) : (vm.devLoad2 0x02).toNat = blockAddr vm := devLoad2_toNat vm 0x02
theorem blockAddr_lt (vm : VM) : blockAddr vm < 65536 := by
  rw [← blockAddr_eq]; exact BitVec.isLt _
theorem word_lt (vm : VM) (a : Nat) : word vm a < 65536 := by
  have h1 := (vm.memory (a % 65536)).isLt
  have h2 := (vm.memory ((a + 1) % 65536)).isLt
  unfold word; omega

theorem load_word (vm : VM) (a : Nat) (h : 65536 ≤ vm.memSize) :
    ∃ v, vm.memLoad2 a = .ok v ∧ v.toNat = word vm a := memLoad2_ok vm a h

/-- The number of bytes of a transfer that starts at `x` and is cut at the end of memory. -/
def cut (memSize x len : Nat) : Nat := min len (memSize - x)

theorem cut_eq (memSize x len : Nat) (hx : x < memSize) (hl : len < 65536) (hm : memSize + 65536 ≤ 2 ^ 32) :
    (clampEnd memSize ((x + len) % 2 ^ 32) + 2 ^ 32 - x) % 2 ^ 32 = cut memSize x len := by
  rw [Nat.mod_eq_of_lt (show x + len < 2 ^ 32 by omega)]
  unfold clampEnd cut
  split
  · rw [Nat.min_def]; split <;> omega
  · rw [Nat.min_def]; split <;> omega

theorem expansion_fill (vm : VM) (hm : 65536 ≤ vm.memSize) (hmax : vm.memSize + 65536 ≤ 2 ^ 32)
    (hop : vm.memory (blockAddr vm) = 0) :
    let start := clampStart vm.memSize (flat (word vm (blockAddr vm + 3)) (word vm (blockAddr vm + 5)))
    expansion vm = (vm.rd (blockAddr vm + 7)).bind fun v =>
      .ok { vm with memory := withRange vm.memory start (cut vm.memSize start (word vm (blockAddr vm + 1))) (fun _ => v) } := by
  intro start
  obtain ⟨v1, e1, n1⟩ := load_word vm (blockAddr vm + 1) hm
  obtain ⟨v3, e3, n3⟩ := load_word vm (blockAddr vm + 3) hm
  obtain ⟨v5, e5, n5⟩ := load_word vm (blockAddr vm + 5) hm
  have hlt := blockAddr_lt vm
  unfold expansion
  simp only [bind, Except.bind, blockAddr_eq, rd_ok vm _ (Nat.lt_of_lt_of_le hlt hm), e1, e3, e5, hop, if_true, n1, n3, n5]
  have hstart : start < vm.memSize := by simp only [start, clampStart]; split <;> omega
  rw [show clampStart vm.memSize (word vm (blockAddr vm + 3) * 65536 + word vm (blockAddr vm + 5)) = start from rfl,
    cut_eq _ _ _ hstart (word_lt _ _) hmax]
  cases vm.rd (blockAddr vm + 7) with
  | error e => rfl
  | ok v =>
    dsimp only
    unfold memset
    rw [if_pos (by unfold cut; omega)]
    rfl

/-- The bytes that a copy command leaves in its destination. -/
def copied (m : Nat → Byte) (op : Byte) (src dst len : Nat) : Nat → Byte :=
  if op = 1 then forwardValue m src dst else backwardValue m src dst len

theorem expansion_copy (vm : VM) (hm : 65536 ≤ vm.memSize) (hmax : vm.memSize + 65536 ≤ 2 ^ 32)
    (hop : vm.memory (blockAddr vm) = 1 ∨ vm.memory (blockAddr vm) = 2) :
    let src := clampStart vm.memSize (flat (word vm (blockAddr vm + 3)) (word vm (blockAddr vm + 5)))
    let dst := clampStart vm.memSize (flat (word vm (blockAddr vm + 7)) (word vm (blockAddr vm + 9)))
    let len := cut vm.memSize (max src dst) (word vm (blockAddr vm + 1))
    expansion vm = .ok { vm with memory := withRange vm.memory dst len (copied vm.memory (vm.memory (blockAddr vm)) src dst len) } := by
  intro src dst len
  obtain ⟨v1, e1, n1⟩ := load_word vm (blockAddr vm + 1) hm
  obtain ⟨v3, e3, n3⟩ := load_word vm (blockAddr vm + 3) hm
  obtain ⟨v5, e5, n5⟩ := load_word vm (blockAddr vm + 5) hm
  obtain ⟨v7, e7, n7⟩ := load_word vm (blockAddr vm + 7) hm
  obtain ⟨v9, e9, n9⟩ := load_word vm (blockAddr vm + 9) hm
  have hlt := blockAddr_lt vm
  have hne : vm.memory (blockAddr vm) ≠ 0 := by rcases hop with h | h <;> rw [h] <;> decide
  unfold expansion
  simp only [bind, Except.bind, blockAddr_eq, rd_ok vm _ (Nat.lt_of_lt_of_le hlt hm), e1, e3, e5, e7, e9, n1, n3, n5,
    n7, n9]
  rw [if_neg hne, if_pos hop]
  have hsrc : src < vm.memSize := by simp only [src, clampStart]; split <;> omega
  have hdst : dst < vm.memSize := by simp only [dst, clampStart]; split <;> omega
  rw [show clampStart vm.memSize (word vm (blockAddr vm + 3) * 65536 + word vm (blockAddr vm + 5)) = src from rfl,
    show clampStart vm.memSize (word vm (blockAddr vm + 7) * 65536 + word vm (blockAddr vm + 9)) = dst from rfl]
  have hmaxeq : (if src > dst then src else dst) = max src dst := by split <;> omega
  simp only [hmaxeq]
  rw [cut_eq _ _ _ (show max src dst < vm.memSize by omega) (word_lt _ _) hmax,
    show cut vm.memSize (max src dst) (word vm (blockAddr vm + 1)) = len from rfl]
  have hl : max src dst + len ≤ vm.memSize := by simp only [len, cut]; omega
  unfold copied
  split
  · exact copyLeft_spec src dst len vm (by omega) (by omega)
  · exact copyRight_spec src dst len vm (by omega) (by omega)

theorem deo_expansion (cb : Callbacks σ) {vm vm' : VM} (h : σ) (e : expansion vm = .ok vm') :
    deo cb 0x03 vm h = .ok (vm', h) := by
  simp only [deo, if_true, bind, Except.bind, e]; rfl

/-- **C10**, fill (command 0): the range of `length` bytes from `bank:addr`, cut at the end of memory, is set to
the fill byte; nothing else changes. -/
theorem C10_fill (cb : Callbacks σ) (vm : VM) (h : σ) (hm : 65536 ≤ vm.memSize) (hmax : vm.memSize + 65536 ≤ 2 ^ 32)
    (hop : vm.memory (blockAddr vm) = 0)
    (hstart : flat (word vm (blockAddr vm + 3)) (word vm (blockAddr vm + 5)) < vm.memSize)
    (hblock : blockAddr vm + 7 < vm.memSize) :
    ∃ vm', deo cb 0x03 vm h = .ok (vm', h) ∧ vm' = { vm with memory := vm'.memory } ∧
      ∀ i, vm'.memory i =
        let start := flat (word vm (blockAddr vm + 3)) (word vm (blockAddr vm + 5))
        if start ≤ i ∧ i < start + word vm (blockAddr vm + 1) ∧ i < vm.memSize then vm.memory (blockAddr vm + 7)
        else vm.memory i := by
  have he := expansion_fill vm hm hmax hop
  simp only [clampStart, if_pos hstart, rd_ok vm _ hblock, Except.bind] at he
  refine ⟨_, deo_expansion _ _ he, rfl, ?_⟩
  intro i
  refine ite_iff ?_ _ _
  unfold cut
  constructor <;> intro hh <;> omega

/-- **C10**, copy (commands 1 and 2) of ranges inside memory: nothing but the destination range changes, and when the
ranges do not overlap or the direction suits (1: destination not after source; 2: destination not before source)
it receives the original source bytes. -/
theorem C10_copy (cb : Callbacks σ) (vm : VM) (h : σ) (hm : 65536 ≤ vm.memSize) (hmax : vm.memSize + 65536 ≤ 2 ^ 32)
    (hop : vm.memory (blockAddr vm) = 1 ∨ vm.memory (blockAddr vm) = 2) (src dst len : Nat)
    (hsrc : src = flat (word vm (blockAddr vm + 3)) (word vm (blockAddr vm + 5))) (hs : src + len ≤ vm.memSize)
    (hdst : dst = flat (word vm (blockAddr vm + 7)) (word vm (blockAddr vm + 9))) (hd : dst + len ≤ vm.memSize)
    (hlen : len = word vm (blockAddr vm + 1)) (hs' : src < vm.memSize) (hd' : dst < vm.memSize) :
    ∃ vm', deo cb 0x03 vm h = .ok (vm', h) ∧ vm' = { vm with memory := vm'.memory } ∧
      (∀ i, ¬ (dst ≤ i ∧ i < dst + len) → vm'.memory i = vm.memory i) ∧
      ((src + len ≤ dst ∨ dst + len ≤ src ∨ (vm.memory (blockAddr vm) = 1 ∧ dst ≤ src) ∨
        (vm.memory (blockAddr vm) = 2 ∧ src ≤ dst)) → ∀ j, j < len → vm'.memory (dst + j) = vm.memory (src + j)) := by
  have he := expansion_copy vm hm hmax hop
  simp only [clampStart] at he
  rw [← hsrc, ← hdst, if_pos hs', if_pos hd', ← hlen] at he
  have hc : cut vm.memSize (max src dst) len = len := by unfold cut; omega
  rw [hc] at he
  refine ⟨_, deo_expansion _ _ he, rfl, ?_, ?_⟩
  · intro i hi
    simp only [withRange]
    rw [if_neg hi]
  · intro hov j hj
    simp only [withRange]
    rw [if_pos (by omega), Nat.add_sub_cancel_left]
    unfold copied
    have h12 : ¬ (vm.memory (blockAddr vm) = 1 ∧ vm.memory (blockAddr vm) = 2) := by
      rintro ⟨h1, h2⟩; rw [h1] at h2; exact absurd h2 (by decide)
    split
    · rename_i h1
      unfold forwardValue
      split
      · rw [Nat.mod_eq_of_lt]
        rcases hov with h | h | h | h
        · omega
        · omega
        · omega
        · exact absurd ⟨h1, h.1⟩ h12
      · rfl
    · rename_i h1
      unfold backwardValue
      split
      · have : src - dst ≥ len := by
          rcases hov with h | h | h | h
          · omega
          · omega
          · exact absurd h.1 h1
          · omega
        rw [Nat.mod_eq_of_lt (by omega)]
        congr 1; omega
      · rfl

/-- **C10**, copy, overlapping in the unsuitable direction: exactly a byte-by-byte loop, which repeats the part of
the source that comes first. -/
theorem C10_copy_overlap (cb : Callbacks σ) (vm : VM) (h : σ) (hm : 65536 ≤ vm.memSize)
    (hmax : vm.memSize + 65536 ≤ 2 ^ 32) (hop : vm.memory (blockAddr vm) = 1) (src dst len : Nat)
    (hsrc : src = flat (word vm (blockAddr vm + 3)) (word vm (blockAddr vm + 5))) (hs : src + len ≤ vm.memSize)
    (hdst : dst = flat (word vm (blockAddr vm + 7)) (word vm (blockAddr vm + 9))) (hd : dst + len ≤ vm.memSize)
    (hlen : len = word vm (blockAddr vm + 1)) (hs' : src < vm.memSize) (hd' : dst < vm.memSize) (hov : src < dst) :
    ∃ vm', deo cb 0x03 vm h = .ok (vm', h) ∧
      ∀ j, j < len → vm'.memory (dst + j) = vm.memory (src + j % (dst - src)) := by
  have he := expansion_copy vm hm hmax (Or.inl hop)
  simp only [clampStart] at he
  rw [← hsrc, ← hdst, if_pos hs', if_pos hd', ← hlen] at he
  have hc : cut vm.memSize (max src dst) len = len := by unfold cut; omega
  rw [hc] at he
  refine ⟨_, deo_expansion _ _ he, ?_⟩
  intro j hj
  simp only [withRange]
  rw [if_pos (by omega), Nat.add_sub_cancel_left, copied, if_pos hop, forwardValue, if_pos hov]

/-- **C10**, other commands do nothing. -/
theorem C10_other (cb : Callbacks σ) (vm : VM) (h : σ) (hm : 65536 ≤ vm.memSize)
    (hop : vm.memory (blockAddr vm) ≠ 0 ∧ vm.memory (blockAddr vm) ≠ 1 ∧ vm.memory (blockAddr vm) ≠ 2) :
    deo cb 0x03 vm h = .ok (vm, h) := by
  obtain ⟨v1, e1, n1⟩ := load_word vm (blockAddr vm + 1) hm
  have : expansion vm = .ok vm := by
    unfold expansion
    simp only [bind, Except.bind, blockAddr_eq, rd_ok vm _ (Nat.lt_of_lt_of_le (blockAddr_lt vm) hm), e1]
    rw [if_neg hop.1, if_neg (by rintro (h | h); exact hop.2.1 h; exact hop.2.2 h)]
    rfl
  exact deo_expansion cb h this

/-- A machine with `banks` banks of memory and the given command block at `addr`. -/
def machine (banks addr : Nat) (block : List Nat) : VM where
  memSize := banks * 65536
  wsp := 0
  rsp := 0
  ws := fun _ => 0
  rs := fun _ => 0
  device := fun i => if i = 2 then BitVec.ofNat 8 (addr / 256) else if i = 3 then BitVec.ofNat 8 addr else 0
  memory := fun i => BitVec.ofNat 8 (block.getD ((i + 65536 - addr) % 65536) 0)

/-- Non-vacuity: filling 4 bytes at 1:fffe of two banks (cut to 2 bytes). -/
example : let vm := machine 2 0x200 [0, 0, 4, 0, 1, 0xff, 0xfe, 0xaa]
    vm.memory (blockAddr vm) = 0 ∧ word vm (blockAddr vm + 1) = 4 ∧
    flat (word vm (blockAddr vm + 3)) (word vm (blockAddr vm + 5)) = 0x1fffe ∧ vm.memory (blockAddr vm + 7) = 0xaa ∧
    0x1fffe < vm.memSize ∧ vm.memSize + 65536 ≤ 2 ^ 32 := by decide

/-- An expansion command whose bank is out of range still touches memory: its last byte. (Violates the clipping.) -/
theorem C10_out_of_range_violated :
    let vm := machine 2 0x200 [0, 0, 4, 0, 7, 0, 0, 0xaa]
    ∃ vm', deo (σ := Unit) ⟨fun _ vm h => .ok (vm, h), fun _ vm h => .ok (vm, h), fun vm h => .ok (vm, h)⟩ 0x03 vm () = .ok (vm', ()) ∧
      vm.memory 0x1ffff = 0 ∧ vm'.memory 0x1ffff = 0xaa := by
  intro vm
  have he := expansion_fill vm (by decide) (by decide) (by decide)
  rw [rd_ok _ _ (by decide)] at he
  refine ⟨_, deo_expansion _ _ he, by decide, ?_⟩
  decide +kernel

/-! ## C11 -/

/-- **C11** on machines with more than 64K (all the programs in the repository use 16 banks): no expansion command
leaves guest memory. -/
theorem C11_in_bounds (cb : Callbacks σ) (vm : VM) (h : σ) (hm : 65536 + 7 ≤ vm.memSize)
    (hmax : vm.memSize + 65536 ≤ 2 ^ 32) : ∃ vm', deo cb 0x03 vm h = .ok (vm', h) ∧ vm'.memSize = vm.memSize := by
  have hlt := blockAddr_lt vm
  by_cases h0 : vm.memory (blockAddr vm) = 0
  · have he := expansion_fill vm (by omega) hmax h0
    rw [rd_ok _ _ (by omega)] at he
    exact ⟨_, deo_expansion _ _ he, rfl⟩
  · by_cases h12 : vm.memory (blockAddr vm) = 1 ∨ vm.memory (blockAddr vm) = 2
    · have he := expansion_copy vm (by omega) hmax h12
      exact ⟨_, deo_expansion _ _ he, rfl⟩
    · exact ⟨vm, C10_other cb vm h (by omega) ⟨h0, fun e => h12 (Or.inl e), fun e => h12 (Or.inr e)⟩, rfl⟩

/-- **C11** on a 64K machine: in bounds unless the block is so close to the end that the fill byte lies beyond. -/
theorem C11_in_bounds_64k_partial (cb : Callbacks σ) (vm : VM) (h : σ) (hm : 65536 ≤ vm.memSize)
    (hmax : vm.memSize + 65536 ≤ 2 ^ 32) (hb : vm.memory (blockAddr vm) = 0 → blockAddr vm + 7 < vm.memSize) :
    ∃ vm', deo cb 0x03 vm h = .ok (vm', h) ∧ vm'.memSize = vm.memSize := by
  by_cases h0 : vm.memory (blockAddr vm) = 0
  · have he := expansion_fill vm (by omega) hmax h0
    rw [rd_ok _ _ (hb h0)] at he
    exact ⟨_, deo_expansion _ _ he, rfl⟩
  · by_cases h12 : vm.memory (blockAddr vm) = 1 ∨ vm.memory (blockAddr vm) = 2
    · have he := expansion_copy vm (by omega) hmax h12
      exact ⟨_, deo_expansion _ _ he, rfl⟩
    · exact ⟨vm, C10_other cb vm h (by omega) ⟨h0, fun e => h12 (Or.inl e), fun e => h12 (Or.inr e)⟩, rfl⟩

/-- The property is violated on a machine with exactly 64K: the fill byte of a block at `0xfff9` is read from
`memory[0x10000]` (`system.c:38`, not wrapped). -/
theorem C11_fill_violated :
    deo (σ := Unit) ⟨fun _ vm h => .ok (vm, h), fun _ vm h => .ok (vm, h), fun vm h => .ok (vm, h)⟩ 0x03
      (machine 1 0xfff9 [0]) () = .error .oob := by
  have he := expansion_fill (machine 1 0xfff9 [0]) (by decide) (by decide) (by decide)
  have : (machine 1 0xfff9 [0]).rd (blockAddr (machine 1 0xfff9 [0]) + 7) = .error .oob := by
    unfold VM.rd; rw [if_neg (by decide)]
  rw [this] at he
  simp only [deo, if_true, bind, Except.bind, he]

example : ∃ vm : VM, 65536 + 7 ≤ vm.memSize ∧ vm.memSize + 65536 ≤ 2 ^ 32 ∧ vm.memory (blockAddr vm) = 0 ∧
    blockAddr vm = 0xfff9 := ⟨machine 16 0xfff9 [0], by decide, by decide, by decide, by decide⟩

/-! ## C12 -/

/-- **C12**. The exit code is -1 while the state port is 0, otherwise its low seven bits. -/
theorem C12_exit_code (vm : VM) :
    exitCode vm = if (vm.device 0x0f).toNat = 0 then (-1 : Int) else ((vm.device 0x0f).toNat % 128 : Nat) := by
  unfold exitCode
  generalize vm.device 0x0f = s
  revert s
  decide +kernel

/-- The four bits of colour `i` (0..3, most significant first) in the theme ports `port` and `port + 1`. -/
def nibble (vm : VM) (port : Byte) (i : Nat) : Nat :=
  ((vm.device port).toNat * 256 + (vm.device (port + 1)).toNat) / 16 ^ (3 - i) % 16

/-- **C12**. Colour `i` is opaque, and each channel is the nibble repeated (times 17): bits 0-7 red, 8-15 green,
16-23 blue. -/
theorem C12_palette (vm : VM) (i : Fin 4) :
    (palette vm i).toNat =
      255 * 2 ^ 24 + 17 * nibble vm 0x0c i * 2 ^ 16 + 17 * nibble vm 0x0a i * 2 ^ 8 + 17 * nibble vm 0x08 i := by
  have key : ∀ r g b : Byte, r.toNat < 16 → g.toNat < 16 → b.toNat < 16 →
      (makeRgba r g b).toNat = 255 * 2 ^ 24 + 17 * b.toNat * 2 ^ 16 + 17 * g.toNat * 2 ^ 8 + 17 * r.toNat := by
    have : ∀ r g b : Fin 16, (makeRgba (BitVec.ofNat 8 r) (BitVec.ofNat 8 g) (BitVec.ofNat 8 b)).toNat
        = 255 * 2 ^ 24 + 17 * b.val * 2 ^ 16 + 17 * g.val * 2 ^ 8 + 17 * r.val := by decide +kernel
    intro r g b hr hg hb
    have := this ⟨r.toNat, hr⟩ ⟨g.toNat, hg⟩ ⟨b.toNat, hb⟩
    simpa using this
  have ch : ∀ (x : Short) (s : Nat), ((((x >>> s) &&& 0x0f).setWidth 8 : Byte)).toNat = x.toNat / 2 ^ s % 16 := by
    intro x s
    have h15 : ∀ n : Nat, n &&& 15 = n % 16 := fun n => Nat.and_two_pow_sub_one_eq_mod n 4
    simp [Nat.shiftRight_eq_div_pow, h15]
  have hlt : ∀ (x : Short) (s : Nat), ((((x >>> s) &&& 0x0f).setWidth 8 : Byte)).toNat < 16 := by
    intro x s; rw [ch]; omega
  unfold palette nibble
  have e8 := devLoad2_toNat vm 0x08
  have ea := devLoad2_toNat vm 0x0a
  have ec := devLoad2_toNat vm 0x0c
  match i with
  | 0 => dsimp only; rw [key _ _ _ (hlt _ _) (hlt _ _) (hlt _ _), ch, ch, ch, e8, ea, ec]; rfl
  | 1 => dsimp only; rw [key _ _ _ (hlt _ _) (hlt _ _) (hlt _ _), ch, ch, ch, e8, ea, ec]; rfl
  | 2 => dsimp only; rw [key _ _ _ (hlt _ _) (hlt _ _) (hlt _ _), ch, ch, ch, e8, ea, ec]; rfl
  | 3 => dsimp only; rw [key _ _ _ (hlt _ _) (hlt _ _) (hlt _ _), ch, ch, ch, e8, ea, ec]; rfl

example : palette (machine 1 0 []) 0 = 0xff000000 := by decide

/-- **C12**. The stack pointer ports read and write the pointers. -/
theorem C12_stack_ports (cb : Callbacks σ) (vm : VM) (h : σ) :
    dei vm 0x04 = vm.wsp ∧ dei vm 0x05 = vm.rsp ∧
    deo cb 0x04 vm h = .ok ({ vm with wsp := vm.device 0x04 }, h) ∧
    deo cb 0x05 vm h = .ok ({ vm with rsp := vm.device 0x05 }, h) := ⟨rfl, rfl, rfl, rfl⟩

end Buxn.System
