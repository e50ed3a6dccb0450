import Verif.Asm.Reports
/-!
# C38: the ROM file

Models the host part of `/repo/src/asm.c`: `buxn_asm_put_rom` (75-80) and the contents written by `write_rom` (484-517).
-/

namespace Buxn.Asm
open Buxn.VM Spec

/-- `rom` and `rom_size` of `buxn_asm_ctx_s`, `src/asm.c:25-30`. The array has 65535 bytes. -/
structure RomBuf where
  size : Short
  bytes : Nat → Byte

def romCapacity : Nat := 65535

/-- `buxn_asm_put_rom`, `src/asm.c:75-80`; `none` is an access outside of the array. -/
def putRom (r : RomBuf) (addr : Short) (v : Byte) : Option RomBuf :=
  let offset := addr - 256
  if offset.toNat < romCapacity then
    some ⟨if r.size.toNat < offset.toNat + 1 then BitVec.ofNat 16 (offset.toNat + 1) else r.size, fun i => if i = offset.toNat then v else r.bytes i⟩
  else none

/-- `ctx = { 0 }`, `src/asm.c:619`. -/
def emptyRom : RomBuf := ⟨0, fun _ => 0⟩

/-- The writes of an assembly, oldest first. -/
def putAll : List (Short × Byte) → RomBuf → Option RomBuf
  | [], r => some r
  | (a, v) :: ws, r => (putRom r a v).bind (putAll ws)

/-- The loop of `src/asm.c:495-498`. -/
def trim (bytes : Nat → Byte) : Nat → Nat
  | 0 => 0
  | n + 1 => if bytes n = 0 then trim bytes n else n + 1

/-- What `write_rom` writes, `src/asm.c:484-517`. -/
def romFile (r : RomBuf) : List Byte := (List.range (trim r.bytes r.size.toNat)).map r.bytes

/-! ## Specification -/

/-- The byte that an assembly leaves at an address: the last one written there, or zero. -/
def Spec.image (log : List Event) (a : Short) : Byte :=
  match (written log).find? (fun w => w.1 = a) with
  | some w => w.2
  | none => 0

/-- The memory of a machine after loading a ROM at 0x100 into zeros. -/
def Spec.loaded (rom : List Byte) (a : Nat) : Byte := if 0x100 ≤ a then rom.getD (a - 0x100) 0 else 0

/-! ## Proofs -/

theorem trim_le (b : Nat → Byte) (n : Nat) : trim b n ≤ n := by
  induction n with
  | zero => exact Nat.le_refl _
  | succ n ih => rw [trim]; split <;> omega

theorem trim_zero (b : Nat → Byte) (n i : Nat) (h : trim b n ≤ i) (hi : i < n) : b i = 0 := by
  induction n with
  | zero => omega
  | succ n ih =>
    rw [trim] at h
    split at h
    · by_cases hin : i = n
      · subst hin; assumption
      · exact ih h (by omega)
    · omega

theorem trim_last (b : Nat → Byte) (n : Nat) (h : 0 < trim b n) : b (trim b n - 1) ≠ 0 := by
  induction n with
  | zero => simp [trim] at h
  | succ n ih =>
    rw [trim] at h ⊢
    split
    · rename_i hz; rw [if_pos hz] at h; exact ih h
    · rename_i hz; simpa using hz

/-- The buffer agrees with the writes so far. -/
structure Holds (r : RomBuf) (ws : List (Short × Byte)) : Prop where
  bytes : ∀ a : Short, 0x100 ≤ a.toNat → r.bytes (a.toNat - 0x100) = match ws.find? (fun w => w.1 = a) with | some w => w.2 | none => 0
  beyond : ∀ i, r.size.toNat ≤ i → r.bytes i = 0
  size : r.size.toNat ≤ 0xff00

theorem offset_toNat (a : Short) (h : 0x100 ≤ a.toNat) : (a - 256).toNat = a.toNat - 0x100 := by
  have := a.isLt
  rw [BitVec.toNat_sub]
  rw [show (256 : Short).toNat = 256 from rfl]
  omega

theorem putRom_holds (r : RomBuf) (ws : List (Short × Byte)) (a : Short) (v : Byte) (h : Holds r ws) (ha : 0x100 ≤ a.toNat) :
    ∃ r', putRom r a v = some r' ∧ Holds r' ((a, v) :: ws) := by
  have hlt := a.isLt
  have ho := offset_toNat a ha
  refine ⟨_, by rw [putRom]; exact if_pos (by rw [ho, romCapacity]; omega), ?_, ?_, ?_⟩
  · intro b hb
    dsimp only
    rw [ho, List.find?_cons]
    by_cases hab : a = b
    · subst hab; simp
    · have : b.toNat - 0x100 ≠ a.toNat - 0x100 := by
        intro he; exact hab (BitVec.eq_of_toNat_eq (by omega))
      rw [if_neg this]
      simp only [hab, decide_false]
      exact h.bytes b hb
  · intro i hi
    dsimp only at hi ⊢
    rw [ho] at hi ⊢
    by_cases hs : r.size.toNat < a.toNat - 0x100 + 1
    · rw [if_pos hs, BitVec.toNat_ofNat, Nat.mod_eq_of_lt (by omega)] at hi
      rw [if_neg (by omega)]; exact h.beyond i (by omega)
    · rw [if_neg hs] at hi
      rw [if_neg (by omega)]; exact h.beyond i hi
  · dsimp only
    rw [ho]
    split
    · rw [BitVec.toNat_ofNat, Nat.mod_eq_of_lt (by omega)]; omega
    · exact h.size

theorem putAll_holds (ws : List (Short × Byte)) (hws : ∀ w ∈ ws, 0x100 ≤ w.1.toNat) (r : RomBuf) (done : List (Short × Byte)) (h : Holds r done) :
    ∃ r', putAll ws r = some r' ∧ Holds r' (ws.reverse ++ done) := by
  induction ws generalizing r done with
  | nil => exact ⟨r, rfl, h⟩
  | cons w ws ih =>
    obtain ⟨r1, h1, h2⟩ := putRom_holds r done w.1 w.2 h (hws w (by simp))
    obtain ⟨r2, h3, h4⟩ := ih (fun x hx => hws x (by simp [hx])) r1 _ h2
    refine ⟨r2, ?_, ?_⟩
    · obtain ⟨a, v⟩ := w
      rw [putAll, h1]; exact h3
    · simpa using h4

/-- **C38.** Whatever is assembled, the host stays inside its buffer; the file does not end in a zero, and loading it at 0x100 gives back
every byte that the assembler wrote, and zeros elsewhere. -/
theorem C38_rom_file (files : Files) (fuel : Nat) (filename : Str) (ok : Bool) (s : Asm) (h : assemble files fuel filename = some (ok, s)) :
    ∃ r, putAll (written s.log).reverse emptyRom = some r ∧ (romFile r).getLast? ≠ some 0 ∧ (romFile r).length ≤ 0xff00 ∧
      ∀ a : Short, loaded (romFile r) a.toNat = image s.log a := by
  obtain ⟨r, hr, hh⟩ := putAll_holds (written s.log).reverse
    (fun w hw => C38_no_zero_page files fuel filename ok s h w.1 w.2 (by simpa using hw)) emptyRom []
    ⟨fun _ _ => rfl, fun _ _ => rfl, by decide⟩
  rw [List.reverse_reverse, List.append_nil] at hh
  refine ⟨r, hr, ?_, ?_, ?_⟩
  · rw [romFile]
    generalize hn : trim r.bytes r.size.toNat = n
    cases n with
    | zero => simp
    | succ n =>
      have := trim_last r.bytes r.size.toNat (by omega)
      rw [hn] at this
      rw [List.range_succ, List.map_append, List.map_singleton, List.getLast?_concat]
      simpa using this
  · rw [romFile, List.length_map, List.length_range]
    exact Nat.le_trans (trim_le _ _) hh.size
  · intro a
    rw [loaded, image]
    by_cases ha : 0x100 ≤ a.toNat
    · rw [if_pos ha, ← hh.bytes a ha, romFile]
      by_cases hi : a.toNat - 0x100 < trim r.bytes r.size.toNat
      · rw [List.getD_eq_getElem?_getD, List.getElem?_map, List.getElem?_range hi]; rfl
      · rw [List.getD_eq_getElem?_getD, List.getElem?_eq_none (by rw [List.length_map, List.length_range]; omega)]
        by_cases hs : a.toNat - 0x100 < r.size.toNat
        · exact (trim_zero _ _ _ (by omega) hs).symm
        · exact (hh.beyond _ (by omega)).symm
    · rw [if_neg ha]
      have : (written s.log).find? (fun w => decide (w.1 = a)) = none := by
        rw [List.find?_eq_none]
        intro w hw
        simp only [decide_eq_true_eq]
        intro he
        have := C38_no_zero_page files fuel filename ok s h w.1 w.2 hw
        rw [he] at this
        exact ha this
      rw [this]

/-! ## Instances -/

/-- A set of files, for examples. -/
def filesOf (l : List (String × String)) : Files := fun n => (l.find? fun p => str p.1 = n).map fun p => (str p.2).map some

/-- The observable part of a run, for examples. -/
def outcome (l : List (String × String)) : Option (Bool × Nat × List (Short × Byte)) :=
  (assemble (filesOf l) 60 (str "m")).map fun r => (r.1, (errors r.2.log).length, (written r.2.log).reverse)

/-- A program with a forward reference and padding that assembles without an error. -/
example : outcome [("m", "|100 ;end $2 INC @end")] =
    some (true, 0, [(0x100, 0xa0), (0x101, 0), (0x102, 1), (0x105, 1), (0x101, 0x01), (0x102, 0x06)]) := by decide +kernel

/-- One with a macro. -/
example : outcome [("m", "%M { #12 } M")] = some (true, 0, [(0x100, 0x80), (0x101, 0x12)]) := by decide +kernel

/-- One with an include. -/
example : (outcome [("m", "%M { #12 } |100 M ;end ~x &l ,&l $2 00"), ("x", "INC @end")]).map (·.1) = some true := by decide +kernel

/-- Programs that are rejected: writing to the zero page, a label that does not exist, a missing file. -/
example : (outcome [("m", "|00 INC")]).map (·.1) = some false ∧ (outcome [("m", "INC foo")]).map (·.1) = some false ∧
    (outcome [("m", "~nothing")]).map (·.1) = some false := by decide +kernel

/-- The file for a few writes ends where its last byte that is not zero does. -/
example : (putAll [(0x100, 0x80), (0x102, 0x12), (0x100, 0xa0), (0x105, 0)] emptyRom).map romFile = some [0xa0, 0x00, 0x12] := by decide +kernel

end Buxn.Asm
