import Verif.Devices.Common
import Mathlib.Tactic.Linarith
/-!
# ROM metadata (C23)

Models `/repo/src/metadata.c`. A pointer into the buffer is its index; the buffer (ROM or guest memory) has `cap` bytes,
and reading an index outside of it is an error.
-/
namespace Buxn.Metadata
open Buxn.VM

/-- `buxn_metadata_t`, `metadata.h:14-21`, when it is not `BUXN_NO_METADATA`; `ext` is meaningful if `num > 0`. -/
structure Meta where
  version : Byte
  content : Nat
  contentLen : Nat
  ext : Nat
  num : Byte
  deriving DecidableEq, Repr

/-- `*p`. -/
def rd (mem : Nat → Byte) (cap i : Nat) : Res Byte := if i < cap then .ok (mem i) else .error .oob

/-- The loop over the content, `metadata.c:11-16`: the index of the terminator. The fuel is `max - addr + 1`. -/
def scan (mem : Nat → Byte) (cap max : Nat) : Nat → Nat → Res (Option Nat)
  | 0, _ => .ok none
  | fuel + 1, addr =>
    if addr ≥ max then .ok none
    else do
      let c ← rd mem cap addr
      if c = 0 then return some addr
      else scan mem cap max fuel (addr + 1)

/-- `buxn_metadata_parse_internal`, `metadata.c:6-39`. -/
def parseInternal (mem : Nat → Byte) (cap addr max : Nat) : Res (Option Meta) := do
  let version ← rd mem cap addr
  match ← scan mem cap max (max - addr) (addr + 1) with
  | none => return none
  | some z =>
    let len := z - (addr + 1)
    if z + 2 < max then
      let n ← rd mem cap (z + 1)
      if n.toNat > 0 then
        if (max - (z + 2)) / 3 < n.toNat then return some ⟨version, addr + 1, len, 0, 0⟩
        else return some ⟨version, addr + 1, len, z + 2, n⟩
      else return some ⟨version, addr + 1, len, 0, n⟩
    else return some ⟨version, addr + 1, len, 0, 0⟩

/-- `buxn_metadata_parse_from_memory`, `metadata.c:41-49`. -/
def fromMemory (vm : VM) (address : Short) : Res (Option Meta) :=
  if address.toNat ≥ vm.memSize then .ok none else parseInternal vm.memory vm.memSize address.toNat 65535

/-- The condition on the first instructions, `metadata.c:55-61`: `&&` stops at the first byte that differs. -/
def announced (rom : Nat → Byte) (size : Nat) : Res Bool := do
  let b0 ← rd rom size 0
  if b0 = 0xa0 then
    let b3 ← rd rom size 3
    if b3 = 0x80 then
      let b4 ← rd rom size 4
      if b4 = 0x06 then
        let b5 ← rd rom size 5
        pure (decide (b5 = 0x37))
      else pure false
    else pure false
  else pure false

/-- `buxn_metadata_parse_from_rom`, `metadata.c:51-69`. -/
def fromRom (rom : Nat → Byte) (size : Nat) : Res (Option Meta) :=
  if size < 6 then .ok none
  else do
    let yes ← announced rom size
    if yes then
      let high ← rd rom size 1
      let low ← rd rom size 2
      let addr := high.toNat * 256 + low.toNat
      if addr ≤ 256 then pure none else parseInternal rom size (addr - 256) size
    else pure none

/-- `buxn_metadata_get_ext`, `metadata.c:71-87`: identifier and value. -/
def getExt (mem : Nat → Byte) (cap : Nat) (m : Meta) (index : Byte) : Res (Byte × Short) :=
  if index.toNat < m.num.toNat then do
    let id ← rd mem cap (m.ext + 3 * index.toNat)
    let hi ← rd mem cap (m.ext + 3 * index.toNat + 1)
    let lo ← rd mem cap (m.ext + 3 * index.toNat + 2)
    return (id, hi ++ lo)
  else .ok (0, 0)

/-! ## Specification -/

/-- The metadata format: version, text, a zero, the number of extensions, and three bytes for each. -/
def encode (version : Byte) (text : List Byte) (exts : List (Byte × Short)) : List Byte :=
  [version] ++ text ++ [0, BitVec.ofNat 8 exts.length] ++
    exts.flatMap fun e => [e.1, e.2.extractLsb' 8 8, e.2.extractLsb' 0 8]

/-- The bytes `l` are at index `a`. -/
def HasAt (mem : Nat → Byte) (a : Nat) (l : List Byte) : Prop := ∀ i, (h : i < l.length) → mem (a + i) = l[i]

/-- The ROM begins by announcing metadata at the address `a`: `#addr .System/metadata DEO2`. -/
def Announces (rom : Nat → Byte) (a : Nat) : Prop :=
  HasAt rom 0 [0xa0, BitVec.ofNat 8 (a / 256), BitVec.ofNat 8 (a % 256), 0x80, 0x06, 0x37]

/-- What a result says about the buffer: the text has no zero and is followed by one; the extensions lie before the end. -/
structure Sound (mem : Nat → Byte) (addr max : Nat) (m : Meta) : Prop where
  version : m.version = mem addr
  content : m.content = addr + 1
  text : ∀ i, i < m.contentLen → mem (m.content + i) ≠ 0
  stop : mem (m.content + m.contentLen) = 0
  inside : m.content + m.contentLen < max
  exts : m.num.toNat > 0 → m.ext = m.content + m.contentLen + 2 ∧ m.ext + 3 * m.num.toNat ≤ max ∧
    mem (m.content + m.contentLen + 1) = m.num
  /-- No extension is dropped unless the list is truncated or empty. -/
  complete : m.num.toNat = 0 → max ≤ m.content + m.contentLen + 2 ∨ mem (m.content + m.contentLen + 1) = 0 ∨
    max < m.content + m.contentLen + 2 + 3 * (mem (m.content + m.contentLen + 1)).toNat

/-! ## Theorems -/

theorem rd_ok {mem : Nat → Byte} {cap i : Nat} (h : i < cap) : rd mem cap i = .ok (mem i) := by unfold rd; rw [if_pos h]

theorem scan_spec (mem : Nat → Byte) (cap max : Nat) (hm : max ≤ cap) (fuel addr : Nat) (hf : max ≤ addr + fuel) :
    (scan mem cap max fuel addr = .ok none ∧ ∀ i, addr ≤ i → i < max → mem i ≠ 0) ∨
    ∃ z, scan mem cap max fuel addr = .ok (some z) ∧ addr ≤ z ∧ z < max ∧ mem z = 0 ∧ ∀ i, addr ≤ i → i < z → mem i ≠ 0 := by
  induction fuel generalizing addr with
  | zero => exact .inl ⟨rfl, fun i h1 h2 => by omega⟩
  | succ fuel ih =>
    unfold scan
    by_cases ha : addr ≥ max
    · rw [if_pos ha]
      exact .inl ⟨rfl, fun i h1 h2 => by omega⟩
    · rw [if_neg ha, rd_ok (by omega)]
      simp only [bind, Except.bind, pure, Except.pure]
      by_cases hz : mem addr = 0
      · rw [if_pos hz]
        exact .inr ⟨addr, rfl, by omega, by omega, hz, fun i h1 h2 => by omega⟩
      · rw [if_neg hz]
        rcases ih (addr + 1) (by omega) with ⟨h1, h2⟩ | ⟨z, h1, h2, h3, h4, h5⟩
        · refine .inl ⟨h1, fun i g1 g2 => ?_⟩
          by_cases e : i = addr
          · rw [e]; exact hz
          · exact h2 i (by omega) g2
        · refine .inr ⟨z, h1, by omega, h3, h4, fun i g1 g2 => ?_⟩
          by_cases e : i = addr
          · rw [e]; exact hz
          · exact h5 i (by omega) g2

/-- Parsing is in bounds, finds the metadata if there is a terminator, and reports it soundly. -/
theorem parse_spec (mem : Nat → Byte) (cap addr max : Nat) (hm : max ≤ cap) (ha : addr < cap) :
    (parseInternal mem cap addr max = .ok none ∧ ∀ i, addr < i → i < max → mem i ≠ 0) ∨
    ∃ m, parseInternal mem cap addr max = .ok (some m) ∧ Sound mem addr max m := by
  unfold parseInternal
  rw [rd_ok ha]
  simp only [bind, Except.bind, pure, Except.pure]
  rcases scan_spec mem cap max hm (max - addr) (addr + 1) (by omega) with ⟨h1, h2⟩ | ⟨z, h1, h2, h3, h4, h5⟩
  · rw [h1]
    exact .inl ⟨rfl, fun i g1 g2 => h2 i (by omega) g2⟩
  · rw [h1]
    right
    dsimp only
    have e : addr + 1 + (z - (addr + 1)) = z := by omega
    have htext : ∀ i, i < z - (addr + 1) → mem (addr + 1 + i) ≠ 0 := fun i hi => h5 _ (by omega) (by omega)
    by_cases hr : z + 2 < max
    · rw [if_pos hr, rd_ok (by omega)]
      dsimp only
      by_cases hn : (mem (z + 1)).toNat > 0
      · rw [if_pos hn]
        by_cases ht : (max - (z + 2)) / 3 < (mem (z + 1)).toNat
        · rw [if_pos ht]
          refine ⟨_, rfl, rfl, rfl, htext, by dsimp only; rw [e]; exact h4, by dsimp only; omega, fun h => absurd h (Nat.lt_irrefl 0), fun _ => ?_⟩
          dsimp only
          rw [e]
          right; right
          omega
        · rw [if_neg ht]
          refine ⟨_, rfl, rfl, rfl, htext, by dsimp only; rw [e]; exact h4, by dsimp only; omega, fun _ => ?_, fun h => ?_⟩
          · dsimp only
            rw [e]
            exact ⟨rfl, by omega, rfl⟩
          · dsimp only at h
            omega
      · rw [if_neg hn]
        refine ⟨_, rfl, rfl, rfl, htext, by dsimp only; rw [e]; exact h4, by dsimp only; omega, fun h => absurd h hn, fun _ => ?_⟩
        dsimp only
        rw [e]
        right; left
        exact BitVec.eq_of_toNat_eq (by simp; omega)
    · rw [if_neg hr]
      refine ⟨_, rfl, rfl, rfl, htext, by dsimp only; rw [e]; exact h4, by dsimp only; omega, fun h => absurd h (Nat.lt_irrefl 0), fun _ => ?_⟩
      dsimp only
      left
      omega

/-- **C23.** Parsing from the memory of a machine with at least 64K never leaves it, whatever the memory contains and
whatever the address; what it returns is sound. -/
theorem C23_memory (vm : VM) (address : Short) (hm : 65536 ≤ vm.memSize) :
    ∃ r, fromMemory vm address = .ok r ∧ ∀ m, r = some m → Sound vm.memory address.toNat 65535 m := by
  have ha := address.isLt
  unfold fromMemory
  rw [if_neg (by omega)]
  rcases parse_spec vm.memory vm.memSize address.toNat 65535 (by omega) (by omega) with ⟨h, _⟩ | ⟨m, h, hs⟩
  · exact ⟨none, h, fun m hh => by cases hh⟩
  · exact ⟨some m, h, fun m' hh => by cases hh; exact hs⟩

/-- The reads of the first instructions are within the ROM. -/
theorem fromRom_eq (rom : Nat → Byte) (size : Nat) : fromRom rom size =
    if size < 6 then .ok none
    else if rom 0 = 0xa0 ∧ rom 3 = 0x80 ∧ rom 4 = 0x06 ∧ rom 5 = 0x37 then
      let addr := (rom 1).toNat * 256 + (rom 2).toNat
      if addr ≤ 256 then .ok none else parseInternal rom size (addr - 256) size
    else .ok none := by
  unfold fromRom announced
  by_cases h : size < 6
  · rw [if_pos h, if_pos h]
  · have r : ∀ i, i < 6 → rd rom size i = .ok (rom i) := fun i hi => if_pos (by omega)
    rw [if_neg h, if_neg h]
    simp only [r 0 (by decide), r 1 (by decide), r 2 (by decide), r 3 (by decide), r 4 (by decide), r 5 (by decide), bind, Except.bind, pure, Except.pure]
    generalize (0xa0 : Byte) = x0, (0x80 : Byte) = x3, (0x06 : Byte) = x4, (0x37 : Byte) = x5
    by_cases h0 : rom 0 = x0 <;> by_cases h3 : rom 3 = x3 <;> by_cases h4 : rom 4 = x4 <;> by_cases h5 : rom 5 = x5 <;> simp [h0, h3, h4, h5]

/-- **C23.** Parsing from a ROM never leaves it, and what it returns is sound. Partial: the announced address must lie in
the ROM (see `C23_version_violated`). -/
theorem C23_rom_partial (rom : Nat → Byte) (size : Nat) (hin : (rom 1).toNat * 256 + (rom 2).toNat < size + 256) :
    ∃ r, fromRom rom size = .ok r ∧
      ∀ m, r = some m → Sound rom ((rom 1).toNat * 256 + (rom 2).toNat - 256) size m := by
  rw [fromRom_eq]
  split
  · exact ⟨none, rfl, fun m hh => by cases hh⟩
  split
  · dsimp only
    split
    · exact ⟨none, rfl, fun m hh => by cases hh⟩
    · rcases parse_spec rom size ((rom 1).toNat * 256 + (rom 2).toNat - 256) size (by omega) (by omega) with ⟨h, _⟩ | ⟨m, h, hs⟩
      · exact ⟨none, h, fun m hh => by cases hh⟩
      · exact ⟨some m, h, fun m' hh => by cases hh; exact hs⟩
  · exact ⟨none, rfl, fun m hh => by cases hh⟩

/-- **C23 fails for a ROM that announces an address behind its end**: the version byte is read there. The ROM is the six
bytes `#ffff .System/metadata DEO2`. -/
theorem C23_version_violated :
    fromRom (fun i => ([0xa0, 0xff, 0xff, 0x80, 0x06, 0x37] : List Byte).getD i 0) 6 = .error .oob := by decide +kernel

/-- **C23.** Reading an extension of metadata that was returned never leaves the buffer. -/
theorem C23_ext_in_bounds (mem : Nat → Byte) (cap addr max : Nat) (m : Meta) (hm : max ≤ cap) (hs : Sound mem addr max m) (i : Byte) :
    getExt mem cap m i = .ok (if i.toNat < m.num.toNat then
      (mem (m.ext + 3 * i.toNat), mem (m.ext + 3 * i.toNat + 1) ++ mem (m.ext + 3 * i.toNat + 2)) else (0, 0)) := by
  unfold getExt
  by_cases h : i.toNat < m.num.toNat
  · have := (hs.exts (by omega)).2.1
    rw [if_pos h, if_pos h, rd_ok (by omega), rd_ok (by omega), rd_ok (by omega)]
    rfl
  · rw [if_neg h, if_neg h]

/-- Two sound results for the same buffer are the same. -/
theorem sound_unique {mem : Nat → Byte} {addr max : Nat} {m : Meta} (h : Sound mem addr max m) {k : Nat}
    (ht : ∀ i, i < k → mem (addr + 1 + i) ≠ 0) (hz : mem (addr + 1 + k) = 0) : m.contentLen = k := by
  have h1 := h.content
  have h2 := h.text
  have h3 := h.stop
  rw [h1] at h2 h3
  rcases Nat.lt_trichotomy m.contentLen k with g | g | g
  · exact absurd h3 (ht _ g)
  · exact g
  · exact absurd hz (h2 _ g)

theorem flat_get (exts : List (Byte × Short)) (j : Nat) (h : j < exts.length) :
    let l := exts.flatMap fun e => [e.1, e.2.extractLsb' 8 8, e.2.extractLsb' 0 8]
    l.length = 3 * exts.length ∧ l[3 * j]? = some exts[j].1 ∧ l[3 * j + 1]? = some (exts[j].2.extractLsb' 8 8) ∧
      l[3 * j + 2]? = some (exts[j].2.extractLsb' 0 8) := by
  induction exts generalizing j with
  | nil => simp at h
  | cons e es ih =>
    dsimp only at ih ⊢
    rw [List.flatMap_cons]
    have hlen : (es.flatMap fun e => [e.1, e.2.extractLsb' 8 8, e.2.extractLsb' 0 8]).length = 3 * es.length := by
      clear ih h
      induction es with
      | nil => rfl
      | cons a as ih => rw [List.flatMap_cons, List.length_append, ih]; simp; omega
    refine ⟨by rw [List.length_append, hlen]; simp; omega, ?_⟩
    cases j with
    | zero => exact ⟨rfl, rfl, rfl⟩
    | succ j =>
      have := ih j (by simpa using h)
      rw [List.getElem?_append_right (by simp only [List.length_cons, List.length_nil]; omega), List.getElem?_append_right (by simp only [List.length_cons, List.length_nil]; omega), List.getElem?_append_right (by simp only [List.length_cons, List.length_nil]; omega)]
      simp only [List.length_cons, List.length_nil]
      rw [show 3 * (j + 1) - (0 + 1 + 1 + 1) = 3 * j by omega, show 3 * (j + 1) + 1 - (0 + 1 + 1 + 1) = 3 * j + 1 by omega,
        show 3 * (j + 1) + 2 - (0 + 1 + 1 + 1) = 3 * j + 2 by omega]
      exact this.2

theorem hasAt_get {mem : Nat → Byte} {a : Nat} {l : List Byte} (h : HasAt mem a l) {i : Nat} {v : Byte} (hv : l[i]? = some v) : mem (a + i) = v := by
  obtain ⟨hi, he⟩ := List.getElem?_eq_some_iff.mp hv
  rw [h i hi, he]

/-- **C23.** Round trip: whatever metadata is encoded in a buffer (up to 255 extensions, text without zero), with at least
one byte after it or an extension, is found again: version, text and every extension. -/
theorem C23_round_trip (mem : Nat → Byte) (cap addr max : Nat) (hm : max ≤ cap) (version : Byte) (text : List Byte)
    (exts : List (Byte × Short)) (ht : ∀ c ∈ text, c ≠ 0) (hn : exts.length ≤ 255) (hat : HasAt mem addr (encode version text exts))
    (hfit : addr + (encode version text exts).length ≤ max) :
    ∃ m, parseInternal mem cap addr max = .ok (some m) ∧ m.version = version ∧ m.contentLen = text.length ∧
      (∀ i, (h : i < text.length) → mem (m.content + i) = text[i]) ∧ m.num.toNat = exts.length ∧
      ∀ j, (h : j < exts.length) → getExt mem cap m (BitVec.ofNat 8 j) = .ok exts[j] := by
  have hflat : (exts.flatMap fun e => [e.1, e.2.extractLsb' 8 8, e.2.extractLsb' 0 8]).length = 3 * exts.length := by
    clear hat hfit hn
    induction exts with
    | nil => rfl
    | cons a as ih => rw [List.flatMap_cons, List.length_append, ih]; simp; omega
  have hlen : (encode version text exts).length = 1 + text.length + 2 + 3 * exts.length := by
    unfold encode; simp only [List.length_append, hflat]; simp
  rw [hlen] at hfit
  -- the bytes of the encoding
  have b0 : mem addr = version := by have := hasAt_get hat (i := 0) (v := version) (by simp [encode]); simpa using this
  have bt : ∀ i, (h : i < text.length) → mem (addr + 1 + i) = text[i] := by
    intro i h
    have := hasAt_get hat (i := 1 + i) (v := text[i]) (by
      unfold encode
      rw [List.append_assoc, List.append_assoc, List.getElem?_append_right (by simp), List.getElem?_append_left (by simp; omega)]
      simp)
    rw [← this]; congr 1; omega
  have bz : mem (addr + 1 + text.length) = 0 := by
    have := hasAt_get hat (i := 1 + text.length) (v := 0) (by
      unfold encode
      rw [List.append_assoc, List.getElem?_append_right (by simp only [List.length_append, List.length_cons, List.length_nil]; omega)]
      simp [Nat.add_comm])
    rw [← this]; congr 1; omega
  have bn : mem (addr + 1 + text.length + 1) = BitVec.ofNat 8 exts.length := by
    have := hasAt_get hat (i := 1 + text.length + 1) (v := BitVec.ofNat 8 exts.length) (by
      unfold encode
      rw [List.append_assoc, List.getElem?_append_right (by simp only [List.length_append, List.length_cons, List.length_nil]; omega)]
      simp only [List.length_append, List.length_cons, List.length_nil]
      rw [show 1 + text.length + 1 - (0 + 1 + text.length) = 1 by omega]
      rfl)
    rw [← this]; congr 1; omega
  have be : ∀ k, (v : Byte) → (exts.flatMap fun e => [e.1, e.2.extractLsb' 8 8, e.2.extractLsb' 0 8])[k]? = some v →
      mem (addr + 1 + text.length + 2 + k) = v := by
    intro k v hv
    have := hasAt_get hat (i := 1 + text.length + 2 + k) (v := v) (by
      unfold encode
      rw [List.getElem?_append_right (by simp; omega)]
      simp only [List.length_append, List.length_cons, List.length_nil]
      rw [show 1 + text.length + 2 + k - (0 + 1 + text.length + (0 + 1 + 1)) = k by omega]
      exact hv)
    rw [← this]; congr 1; omega
  have hne : ∀ i, i < text.length → mem (addr + 1 + i) ≠ 0 := fun i h => by rw [bt i h]; exact ht _ (List.getElem_mem h)
  rcases parse_spec mem cap addr max hm (by omega) with ⟨_, h2⟩ | ⟨m, h1, hs⟩
  · exact absurd bz (h2 _ (by omega) (by omega))
  have hl := sound_unique hs hne bz
  have hc := hs.content
  have hnum : m.num.toNat = exts.length := by
    by_cases h0 : m.num.toNat = 0
    · have := hs.complete h0
      rw [hc, hl, bn] at this
      rcases this with g | g | g
      · -- the number is the last byte: then there are none
        omega
      · have := congrArg BitVec.toNat g
        simp at this
        omega
      · simp at g
        omega
    · have := (hs.exts (by omega)).2.2
      rw [hc, hl, bn] at this
      rw [← this]
      simp
      omega
  refine ⟨m, h1, hs.version.trans b0, hl, ?_, hnum, ?_⟩
  · intro i h
    rw [hc]
    exact bt i h
  · intro j h
    rw [C23_ext_in_bounds mem cap addr max m hm hs]
    have hj : (BitVec.ofNat 8 j).toNat = j := by simp; omega
    rw [hj, if_pos (by omega)]
    have hx := (hs.exts (by omega)).1
    rw [hc, hl] at hx
    obtain ⟨_, f1, f2, f3⟩ := flat_get exts j h
    rw [hx]
    congr 1
    refine Prod.ext (be _ _ f1) ?_
    dsimp only
    rw [Nat.add_assoc _ (3 * j), Nat.add_assoc _ (3 * j), be _ _ f2, be _ _ f3]
    have : ∀ x : Short, x.extractLsb' 8 8 ++ x.extractLsb' 0 8 = x := by
      intro x
      have := x.isLt
      apply BitVec.eq_of_toNat_eq
      rw [BitVec.toNat_append, BitVec.extractLsb'_toNat, BitVec.extractLsb'_toNat, ← Nat.shiftLeft_add_eq_or_of_lt (Nat.mod_lt _ (by decide)),
        Nat.shiftLeft_eq, Nat.shiftRight_eq_div_pow, Nat.shiftRight_eq_div_pow]
      omega
    exact this _

/-- **C23.** The same for a ROM: the metadata that its first instruction announces. -/
theorem C23_rom_round_trip (rom : Nat → Byte) (size a : Nat) (ha : 256 < a) (ha2 : a < 65536) (hann : Announces rom a) (version : Byte)
    (text : List Byte) (exts : List (Byte × Short)) (ht : ∀ c ∈ text, c ≠ 0) (hn : exts.length ≤ 255)
    (hat : HasAt rom (a - 256) (encode version text exts)) (hfit : a - 256 + (encode version text exts).length ≤ size) (hsz : 6 ≤ size) :
    ∃ m, fromRom rom size = .ok (some m) ∧ m.version = version ∧ m.contentLen = text.length ∧
      (∀ i, (h : i < text.length) → rom (m.content + i) = text[i]) ∧ m.num.toNat = exts.length ∧
      ∀ j, (h : j < exts.length) → getExt rom size m (BitVec.ofNat 8 j) = .ok exts[j] := by
  have r0 : rom 0 = 0xa0 := hann 0 (by simp)
  have r1 : rom 1 = BitVec.ofNat 8 (a / 256) := hann 1 (by simp)
  have r2 : rom 2 = BitVec.ofNat 8 (a % 256) := hann 2 (by simp)
  have r3 : rom 3 = 0x80 := hann 3 (by simp)
  have r4 : rom 4 = 0x06 := hann 4 (by simp)
  have r5 : rom 5 = 0x37 := hann 5 (by simp)
  have haddr : (rom 1).toNat * 256 + (rom 2).toNat = a := by rw [r1, r2]; simp; omega
  rw [fromRom_eq, if_neg (by omega), if_pos ⟨r0, r3, r4, r5⟩]
  dsimp only
  rw [haddr, if_neg (by omega)]
  exact C23_round_trip rom size (a - 256) size (Nat.le_refl _) version text exts ht hn hat hfit

/-- **C23.** A truncated list of extensions is rejected: the text is returned with no extensions. -/
theorem C23_truncated (mem : Nat → Byte) (cap addr max k : Nat) (hm : max ≤ cap) (ha : addr < cap)
    (ht : ∀ i, i < k → mem (addr + 1 + i) ≠ 0) (hz : mem (addr + 1 + k) = 0) (hin : addr + 1 + k < max)
    (htr : max < addr + 1 + k + 2 + 3 * (mem (addr + 1 + k + 1)).toNat) :
    ∃ m, parseInternal mem cap addr max = .ok (some m) ∧ m.contentLen = k ∧ m.num = 0 := by
  rcases parse_spec mem cap addr max hm ha with ⟨_, h2⟩ | ⟨m, h1, hs⟩
  · exact absurd hz (h2 _ (by omega) hin)
  have hl := sound_unique hs ht hz
  refine ⟨m, h1, hl, ?_⟩
  by_cases h0 : m.num.toNat = 0
  · exact BitVec.eq_of_toNat_eq (by simpa using h0)
  · obtain ⟨e1, e2, e3⟩ := hs.exts (by omega)
    rw [hs.content, hl] at e1 e3
    rw [e3] at htr
    omega

/-- The hypotheses are met by a small ROM: version 1, text "hi", one extension. -/
example : fromRom (fun i => ([0xa0, 0x01, 0x06, 0x80, 0x06, 0x37, 1, 0x68, 0x69, 0, 1, 0x41, 0x12, 0x34] : List Byte).getD i 0) 14 =
    .ok (some ⟨1, 7, 2, 11, 1⟩) ∧
    getExt (fun i => ([0xa0, 0x01, 0x06, 0x80, 0x06, 0x37, 1, 0x68, 0x69, 0, 1, 0x41, 0x12, 0x34] : List Byte).getD i 0) 14 ⟨1, 7, 2, 11, 1⟩ 0 =
      .ok (0x41, 0x1234) ∧
    encode 1 [0x68, 0x69] [(0x41, 0x1234)] = [1, 0x68, 0x69, 0, 1, 0x41, 0x12, 0x34] := by
  refine ⟨by decide +kernel, by decide +kernel, by decide +kernel⟩

end Buxn.Metadata
