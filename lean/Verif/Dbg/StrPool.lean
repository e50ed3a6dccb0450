import Verif.VM.Model
import Mathlib.Data.Finset.Card
import Mathlib.Data.Finset.Image
import Mathlib.Data.Nat.ModEq
import Mathlib.Order.Interval.Finset.Nat
import Mathlib.Tactic.Linarith
/-!
# The string pool of the symbol table writer

Models the hash table in `/repo/src/dbg/symtab.c`: `buxn_msi` (43-48), the size computation in
`buxn_dbg_symtab_writer_layout` (73-79), the insertion loop of `buxn_dbg_write_symtab` (337-354), the numbering (355-361)
and the lookup loop in `buxn_dbg_serialize_symtab_body` (259-266).

Simplifications: a file name pointer is a natural number `Ptr` (names are interned, the table compares pointers);
`NULL` is `none`. `buxn_splittable64` is an arbitrary function `hash`. The `for (;;)` loops get fuel; running out of fuel
is `none`, and it is proved that this does not happen.
-/

namespace Buxn.Symtab
open Buxn.VM

abbrev Ptr := Nat

/-- `while (strhash_size < num_strings) { strhash_exp += 1; strhash_size <<= 1; }`, `symtab.c:74-79`; the loop runs at
most 29 times for up to 2^30 files. -/
def growExp : Nat → Nat → Nat → Nat
  | 0, e, _ => e
  | fuel + 1, e, n => if 2 ^ e < n then growExp fuel (e + 1) n else e

/-- `strhash_exp`. -/
def expFor (numFiles : Nat) : Nat := growExp 29 1 numFiles

/-- `(uint32_t)((hash >> (64 - exp)) | 1)`, `symtab.c:46`. -/
def stepOf (hash : BitVec 64) (e : Nat) : BitVec 32 := ((hash >>> (64 - e)) ||| 1).setWidth 32

/-- `buxn_msi`, `symtab.c:43-48`. -/
def msi (hash : BitVec 64) (e : Nat) (idx : BitVec 32) : BitVec 32 := (idx + stepOf hash e) &&& (((1 : BitVec 32) <<< e) - 1)

abbrev Slots := Nat → Option Ptr

/-- The insertion loop, `symtab.c:343-353`: the new slots, and whether the string was new. -/
def insertLoop (hash : BitVec 64) (e : Nat) (f : Ptr) (slots : Slots) : Nat → BitVec 32 → Option (Slots × Bool)
  | 0, _ => none
  | fuel + 1, idx =>
    let idx := msi hash e idx
    match slots idx.toNat with
    | none => some (upd slots idx.toNat (some f), true)
    | some p => if p = f then some (slots, false) else insertLoop hash e f slots fuel idx

/-- The lookup loop, `symtab.c:260-266`: the slot of the string. -/
def lookupLoop (hash : BitVec 64) (e : Nat) (f : Ptr) (slots : Slots) : Nat → BitVec 32 → Option Nat
  | 0, _ => none
  | fuel + 1, idx =>
    let idx := msi hash e idx
    if slots idx.toNat = some f then some idx.toNat else lookupLoop hash e f slots fuel idx

/-- `int32_t hash_index = (int32_t)hash`. -/
def startIdx (hash : BitVec 64) : BitVec 32 := hash.setWidth 32

/-- `symtab.c:337-354`: all file names; `none` when a loop does not end within the fuel. -/
def insertAll (hash : Ptr → BitVec 64) (e fuel : Nat) : List Ptr → Slots → Option Slots
  | [], slots => some slots
  | f :: fs, slots =>
    match insertLoop (hash f) e f slots fuel (startIdx (hash f)) with
    | none => none
    | some (slots, _) => insertAll hash e fuel fs slots

/-- `str_id` when the loop of `symtab.c:357-361` is at `i`: the number given to slot `i`. -/
def idOf (slots : Slots) : Nat → Nat
  | 0 => 0
  | i + 1 => idOf slots i + (if (slots i).isSome then 1 else 0)

/-- The strings in the order in which they are written, `symtab.c:217-226`. -/
def poolList (slots : Slots) (e : Nat) : List Ptr := (List.range (2 ^ e)).filterMap slots

/-! ## Probing -/

theorem msi_toNat (hash : BitVec 64) {e : Nat} (he : e ≤ 30) (idx : BitVec 32) :
    (msi hash e idx).toNat = (idx.toNat + (stepOf hash e).toNat) % 2 ^ e := by
  have hp : 2 ^ e ≤ 2 ^ 30 := Nat.pow_le_pow_right (by omega) he
  have h1 : (((1 : BitVec 32) <<< e) - 1).toNat = 2 ^ e - 1 := by
    have : 0 < 2 ^ e := Nat.two_pow_pos e
    rw [BitVec.toNat_sub, BitVec.toNat_shiftLeft]
    rw [show (1 : BitVec 32).toNat = 1 from rfl, Nat.shiftLeft_eq, Nat.one_mul, Nat.mod_eq_of_lt (show 2 ^ e < 2 ^ 32 by omega)]
    omega
  unfold msi
  rw [BitVec.toNat_and, h1, Nat.and_two_pow_sub_one_eq_mod, BitVec.toNat_add]
  rw [Nat.mod_mod_of_dvd]
  exact Nat.pow_dvd_pow 2 (by omega)

theorem stepOf_odd (hash : BitVec 64) (e : Nat) : (stepOf hash e).toNat % 2 = 1 := by
  unfold stepOf
  rw [BitVec.toNat_setWidth, Nat.mod_mod_of_dvd _ (by decide), BitVec.toNat_or]
  rw [show (1 : BitVec 64).toNat = 1 from rfl, Nat.or_mod_two_eq_one]
  right; rfl

/-- The slot probed in round `k` (from 1). -/
def probe (hash : BitVec 64) (e k : Nat) : Nat := ((startIdx hash).toNat + k * (stepOf hash e).toNat) % 2 ^ e

theorem probe_lt (hash : BitVec 64) (e k : Nat) : probe hash e k < 2 ^ e := Nat.mod_lt _ (Nat.two_pow_pos e)

/-- `msi` iterated. -/
def iter (hash : BitVec 64) (e : Nat) : Nat → BitVec 32
  | 0 => startIdx hash
  | k + 1 => msi hash e (iter hash e k)

theorem iter_toNat (hash : BitVec 64) {e : Nat} (he : e ≤ 30) (k : Nat) :
    (iter hash e k).toNat % 2 ^ e = probe hash e k ∧ (0 < k → (iter hash e k).toNat = probe hash e k) := by
  induction k with
  | zero => exact ⟨by simp [iter, probe], fun h => by omega⟩
  | succ k ih =>
    have : (iter hash e (k + 1)).toNat = probe hash e (k + 1) := by
      show (msi hash e (iter hash e k)).toNat = _
      rw [msi_toNat hash he, Nat.add_mod, ih.1]
      unfold probe
      rw [← Nat.add_mod, Nat.add_mul, Nat.one_mul, Nat.add_assoc]
    exact ⟨by rw [this]; exact Nat.mod_eq_of_lt (probe_lt _ _ _), fun _ => this⟩

theorem probe_inj (hash : BitVec 64) (e i k : Nat) (hik : i < k) (hk : k - i < 2 ^ e) : probe hash e i ≠ probe hash e k := by
  intro h
  have hodd := stepOf_odd hash e
  have hco : Nat.Coprime (2 ^ e) (stepOf hash e).toNat := by
    apply Nat.Coprime.pow_left
    rw [Nat.coprime_iff_gcd_eq_one, Nat.gcd_rec, hodd]; rfl
  have h1 : (startIdx hash).toNat + i * (stepOf hash e).toNat ≡ (startIdx hash).toNat + k * (stepOf hash e).toNat [MOD 2 ^ e] := h
  have h2 : i * (stepOf hash e).toNat ≡ k * (stepOf hash e).toNat [MOD 2 ^ e] := Nat.ModEq.add_left_cancel' _ h1
  have h3 : i ≡ k [MOD 2 ^ e] := Nat.ModEq.cancel_right_of_coprime hco h2
  have h4 := (Nat.modEq_iff_dvd' (by omega)).mp h3
  have := Nat.le_of_dvd (by omega) h4
  omega

/-- Within `2^e` rounds every slot is probed. -/
theorem probe_covers (hash : BitVec 64) (e i : Nat) (hi : i < 2 ^ e) : ∃ k, 1 ≤ k ∧ k ≤ 2 ^ e ∧ probe hash e k = i := by
  have hinj : Set.InjOn (probe hash e) (Finset.Icc 1 (2 ^ e) : Finset Nat) := by
    intro a ha b hb h
    simp only [Finset.coe_Icc, Set.mem_Icc] at ha hb
    rcases Nat.lt_trichotomy a b with hab | hab | hab
    · exact (probe_inj hash e a b hab (by omega) h).elim
    · exact hab
    · exact (probe_inj hash e b a hab (by omega) h.symm).elim
  have hcard : (Finset.image (probe hash e) (Finset.Icc 1 (2 ^ e))).card = (Finset.range (2 ^ e)).card := by
    rw [Finset.card_image_of_injOn hinj]; simp
  have hsub : Finset.image (probe hash e) (Finset.Icc 1 (2 ^ e)) ⊆ Finset.range (2 ^ e) := by
    intro x hx
    obtain ⟨k, _, rfl⟩ := Finset.mem_image.mp hx
    exact Finset.mem_range.mpr (probe_lt _ _ _)
  have heq := Finset.eq_of_subset_of_card_le hsub (by rw [hcard])
  have : i ∈ Finset.image (probe hash e) (Finset.Icc 1 (2 ^ e)) := by rw [heq]; exact Finset.mem_range.mpr hi
  obtain ⟨k, hk, e1⟩ := Finset.mem_image.mp this
  rw [Finset.mem_Icc] at hk
  exact ⟨k, hk.1, hk.2, e1⟩

/-! ## The table -/

/-- The first round in which the slot satisfies `p`. -/
def FirstAt (hash : BitVec 64) (e : Nat) (p : Nat → Prop) (k : Nat) : Prop :=
  1 ≤ k ∧ p (probe hash e k) ∧ ∀ i, 1 ≤ i → i < k → ¬ p (probe hash e i)

theorem exists_first (hash : BitVec 64) (e : Nat) (p : Nat → Prop) {i : Nat} (hi : i < 2 ^ e) (hp : p i) :
    ∃ k, FirstAt hash e p k ∧ k ≤ 2 ^ e := by
  classical
  have hex : ∃ k, 1 ≤ k ∧ p (probe hash e k) := by
    obtain ⟨k, h1, _, h3⟩ := probe_covers hash e i hi
    exact ⟨k, h1, h3 ▸ hp⟩
  refine ⟨Nat.find hex, ⟨(Nat.find_spec hex).1, (Nat.find_spec hex).2, fun j h1 h2 h3 => Nat.find_min hex h2 ⟨h1, h3⟩⟩, ?_⟩
  obtain ⟨k, h1, h2, h3⟩ := probe_covers hash e i hi
  exact (Nat.find_min' hex ⟨h1, h3 ▸ hp⟩).trans h2

theorem insertLoop_first (hash : BitVec 64) {e : Nat} (he : e ≤ 30) (f : Ptr) (slots : Slots) {k : Nat}
    (hk : FirstAt hash e (fun i => slots i = none ∨ slots i = some f) k) (j fuel : Nat) (hj : j < k) (hf : k - j ≤ fuel) :
    insertLoop hash e f slots fuel (iter hash e j) =
      if slots (probe hash e k) = none then some (upd slots (probe hash e k) (some f), true) else some (slots, false) := by
  induction fuel generalizing j with
  | zero => omega
  | succ fuel ih =>
    have hn : (msi hash e (iter hash e j)).toNat = probe hash e (j + 1) := (iter_toNat hash he (j + 1)).2 (by omega)
    unfold insertLoop
    dsimp only
    rw [hn]
    by_cases hjk : j + 1 = k
    · rw [hjk]
      rcases hk.2.1 with h | h
      · rw [h]; simp
      · rw [h]; simp
    · have hnot := hk.2.2 (j + 1) (by omega) (by omega)
      cases hs : slots (probe hash e (j + 1)) with
      | none => exact (hnot (Or.inl hs)).elim
      | some p =>
        have hp : p ≠ f := fun h => hnot (Or.inr (by rw [hs, h]))
        dsimp only
        rw [if_neg hp]
        exact ih (j + 1) (by omega) (by omega)

theorem lookupLoop_first (hash : BitVec 64) {e : Nat} (he : e ≤ 30) (f : Ptr) (slots : Slots) {k : Nat}
    (hk : FirstAt hash e (fun i => slots i = some f) k) (j fuel : Nat) (hj : j < k) (hf : k - j ≤ fuel) :
    lookupLoop hash e f slots fuel (iter hash e j) = some (probe hash e k) := by
  induction fuel generalizing j with
  | zero => omega
  | succ fuel ih =>
    have hn : (msi hash e (iter hash e j)).toNat = probe hash e (j + 1) := (iter_toNat hash he (j + 1)).2 (by omega)
    unfold lookupLoop
    dsimp only
    rw [hn]
    by_cases hjk : j + 1 = k
    · rw [hjk, if_pos hk.2.1]
    · rw [if_neg (hk.2.2 (j + 1) (by omega) (by omega))]
      exact ih (j + 1) (by omega) (by omega)

/-- The table holds exactly the strings `fs`, each once, and each where the insertion loop finds it. -/
structure Holds (hash : Ptr → BitVec 64) (e : Nat) (fs : Finset Ptr) (slots : Slots) : Prop where
  inside : ∀ i p, slots i = some p → i < 2 ^ e ∧ p ∈ fs
  present : ∀ p ∈ fs, ∃ i, slots i = some p
  found : ∀ i p, slots i = some p → ∃ k, FirstAt (hash p) e (fun i => slots i = none ∨ slots i = some p) k ∧ probe (hash p) e k = i

theorem Holds.unique {hash : Ptr → BitVec 64} {e : Nat} {fs : Finset Ptr} {slots : Slots} (h : Holds hash e fs slots) {i j : Nat} {p : Ptr}
    (hi : slots i = some p) (hj : slots j = some p) : i = j := by
  obtain ⟨k, hk, rfl⟩ := h.found i p hi
  obtain ⟨l, hl, rfl⟩ := h.found j p hj
  rcases Nat.lt_trichotomy k l with hkl | hkl | hkl
  · exact (hl.2.2 k hk.1 hkl hk.2.1).elim
  · rw [hkl]
  · exact (hk.2.2 l hl.1 hkl hl.2.1).elim

/-- While there are fewer strings than slots, one is free. -/
theorem Holds.free {hash : Ptr → BitVec 64} {e : Nat} {fs : Finset Ptr} {slots : Slots} (h : Holds hash e fs slots)
    (hc : fs.card < 2 ^ e) : ∃ i, i < 2 ^ e ∧ slots i = none := by
  by_contra hno
  have hno : ∀ i, i < 2 ^ e → ∃ p, slots i = some p := by
    intro i hi
    cases hs : slots i with
    | none => exact (hno ⟨i, hi, hs⟩).elim
    | some p => exact ⟨p, rfl⟩
  have : (Finset.range (2 ^ e)).card ≤ fs.card := by
    refine Finset.card_le_card_of_injOn (fun i => (slots i).getD 0) ?_ ?_
    · intro i hi
      obtain ⟨p, hp⟩ := hno i (Finset.mem_range.mp hi)
      show (slots i).getD 0 ∈ fs
      rw [hp]; exact (h.inside i p hp).2
    · intro i hi j hj hij
      obtain ⟨p, hp⟩ := hno i (Finset.mem_range.mp hi)
      obtain ⟨q, hq⟩ := hno j (Finset.mem_range.mp hj)
      dsimp only at hij
      rw [hp, hq] at hij
      simp only [Option.getD_some] at hij
      exact h.unique hp (by rw [hq, hij])
  rw [Finset.card_range] at this
  omega

/-- One insertion, with any fuel of at least the table size. -/
theorem insert_holds {hash : Ptr → BitVec 64} {e : Nat} (he : e ≤ 30) {fs : Finset Ptr} {slots : Slots} (h : Holds hash e fs slots)
    (f : Ptr) (hroom : f ∈ fs ∨ fs.card < 2 ^ e) (fuel : Nat) (hf : 2 ^ e ≤ fuel) :
    ∃ slots' new, insertLoop (hash f) e f slots fuel (startIdx (hash f)) = some (slots', new) ∧
      Holds hash e (insert f fs) slots' ∧ (new = true ↔ f ∉ fs) := by
  have hex : ∃ i, i < 2 ^ e ∧ (slots i = none ∨ slots i = some f) := by
    rcases hroom with hr | hr
    · obtain ⟨i, hi⟩ := h.present f hr
      exact ⟨i, (h.inside i f hi).1, Or.inr hi⟩
    · obtain ⟨i, hi, hs⟩ := h.free hr
      exact ⟨i, hi, Or.inl hs⟩
  obtain ⟨i, hi, hp⟩ := hex
  obtain ⟨k, hk, hk2⟩ := exists_first (hash f) e (fun i => slots i = none ∨ slots i = some f) hi hp
  have hrun := insertLoop_first (hash f) he f slots hk 0 fuel (by have := hk.1; omega) (by omega)
  have hrun : insertLoop (hash f) e f slots fuel (startIdx (hash f)) = _ := hrun
  rw [hrun]
  by_cases hfree : slots (probe (hash f) e k) = none
  · rw [if_pos hfree]
    have hnew : f ∉ fs := by
      intro hmem
      obtain ⟨i, hi⟩ := h.present f hmem
      obtain ⟨l, hl, rfl⟩ := h.found i f hi
      rcases Nat.lt_trichotomy k l with hkl | hkl | hkl
      · exact hl.2.2 k hk.1 hkl hk.2.1
      · rw [hkl, hi] at hfree; cases hfree
      · exact hk.2.2 l hl.1 hkl hl.2.1
    refine ⟨_, _, rfl, ⟨?_, ?_, ?_⟩, by simp [hnew]⟩
    · intro i p hs
      unfold upd at hs
      split at hs
      · cases hs; rename_i hh; exact ⟨hh ▸ probe_lt _ _ _, Finset.mem_insert_self _ _⟩
      · obtain ⟨h1, h2⟩ := h.inside i p hs
        exact ⟨h1, Finset.mem_insert_of_mem h2⟩
    · intro p hp
      rcases Finset.mem_insert.mp hp with rfl | hp
      · exact ⟨probe (hash p) e k, by simp [upd]⟩
      · obtain ⟨i, hi⟩ := h.present p hp
        refine ⟨i, ?_⟩
        have : i ≠ probe (hash f) e k := fun hh => by rw [hh, hfree] at hi; cases hi
        simp [upd, this, hi]
    · intro i p hs
      unfold upd at hs
      split at hs
      · rename_i hh
        cases hs
        refine ⟨k, ⟨hk.1, Or.inr (by simp [upd]), fun l h1 h2 => ?_⟩, hh.symm⟩
        have hn := hk.2.2 l h1 h2
        have hne : probe (hash f) e l ≠ probe (hash f) e k := fun hh => hn (Or.inl (by rw [hh]; exact hfree))
        simpa [upd, hne] using hn
      · rename_i hh
        obtain ⟨l, hl, rfl⟩ := h.found i p hs
        refine ⟨l, ⟨hl.1, Or.inr (by simp [upd, hh, hs]), fun m h1 h2 => ?_⟩, rfl⟩
        have hn := hl.2.2 m h1 h2
        have hne : probe (hash p) e m ≠ probe (hash f) e k := fun hh => hn (Or.inl (by rw [hh]; exact hfree))
        simpa [upd, hne] using hn
  · rw [if_neg hfree]
    have hs : slots (probe (hash f) e k) = some f := hk.2.1.resolve_left hfree
    have hmem := (h.inside _ _ hs).2
    refine ⟨slots, false, rfl, ?_, by simp [hmem]⟩
    rw [Finset.insert_eq_of_mem hmem]; exact h

theorem lookup_holds {hash : Ptr → BitVec 64} {e : Nat} (he : e ≤ 30) {fs : Finset Ptr} {slots : Slots} (h : Holds hash e fs slots)
    (f : Ptr) (hf : f ∈ fs) (fuel : Nat) (hfu : 2 ^ e ≤ fuel) :
    ∃ i, lookupLoop (hash f) e f slots fuel (startIdx (hash f)) = some i ∧ slots i = some f := by
  obtain ⟨i, hi⟩ := h.present f hf
  obtain ⟨k, hk, hk2⟩ := exists_first (hash f) e (fun i => slots i = some f) (h.inside i f hi).1 hi
  exact ⟨_, lookupLoop_first (hash f) he f slots hk 0 fuel (by have := hk.1; omega) (by omega), hk.2.1⟩

theorem insertAll_holds {hash : Ptr → BitVec 64} {e : Nat} (he : e ≤ 30) (fuel : Nat) (hfu : 2 ^ e ≤ fuel) (files : List Ptr)
    {fs : Finset Ptr} {slots : Slots} (h : Holds hash e fs slots) (hc : (fs ∪ files.toFinset).card ≤ 2 ^ e) :
    ∃ slots', insertAll hash e fuel files slots = some slots' ∧ Holds hash e (fs ∪ files.toFinset) slots' := by
  induction files generalizing fs slots with
  | nil => exact ⟨slots, rfl, by simpa using h⟩
  | cons f files ih =>
    have heq : fs ∪ (f :: files).toFinset = insert f fs ∪ files.toFinset := by
      ext x; simp
    rw [heq] at hc ⊢
    have hroom : f ∈ fs ∨ fs.card < 2 ^ e := by
      by_cases hf : f ∈ fs
      · exact Or.inl hf
      · right
        have h1 := Finset.card_insert_of_notMem hf
        have h2 : (insert f fs).card ≤ (insert f fs ∪ files.toFinset).card := Finset.card_le_card Finset.subset_union_left
        omega
    obtain ⟨slots1, new, e1, h1, _⟩ := insert_holds he h f hroom fuel hfu
    obtain ⟨slots2, e2, h2⟩ := ih h1 hc
    exact ⟨slots2, by simp only [insertAll, e1, e2], h2⟩

theorem holds_empty (hash : Ptr → BitVec 64) (e : Nat) : Holds hash e ∅ (fun _ => none) :=
  ⟨fun _ _ h => (by cases h), fun _ h => (by simp at h), fun _ _ h => (by cases h)⟩

theorem growExp_spec (fuel e n : Nat) (h : n ≤ 2 ^ (e + fuel)) : n ≤ 2 ^ growExp fuel e n ∧ growExp fuel e n ≤ e + fuel := by
  induction fuel generalizing e with
  | zero => exact ⟨h, Nat.le_refl _⟩
  | succ fuel ih =>
    unfold growExp
    split
    · obtain ⟨h1, h2⟩ := ih (e + 1) (by rw [show e + 1 + fuel = e + (fuel + 1) by omega]; exact h)
      exact ⟨h1, by omega⟩
    · exact ⟨by omega, by omega⟩

theorem expFor_spec (n : Nat) (h : n ≤ 2 ^ 30) : n ≤ 2 ^ expFor n ∧ expFor n ≤ 30 := growExp_spec 29 1 n h

/-! ## Numbering -/

theorem idOf_eq (slots : Slots) (i : Nat) : idOf slots i = ((List.range i).filterMap slots).length := by
  induction i with
  | zero => rfl
  | succ i ih =>
    rw [idOf, ih, List.range_succ, List.filterMap_append, List.length_append]
    cases hs : slots i with
    | none => simp [hs]
    | some p => simp [hs]

theorem poolList_get (slots : Slots) (e i : Nat) (p : Ptr) (hi : i < 2 ^ e) (hs : slots i = some p) :
    (poolList slots e)[idOf slots i]? = some p := by
  unfold poolList
  have : List.range (2 ^ e) = List.range i ++ i :: (List.range' (i + 1) (2 ^ e - (i + 1))) := by
    rw [List.range_eq_range', List.range_eq_range', ← List.range'_succ, show 2 ^ e - (i + 1) + 1 = 2 ^ e - i by omega]
    have := List.range'_append (s := 0) (m := i) (n := 2 ^ e - i) (step := 1)
    simp only [Nat.one_mul, Nat.zero_add] at this
    rw [this, show i + (2 ^ e - i) = 2 ^ e by omega]
  rw [this, List.filterMap_append, List.filterMap_cons, hs, idOf_eq, List.getElem?_append_right (Nat.le_refl _), Nat.sub_self]
  rfl

/-! ## Property C31 -/

/-- The number a file name is written with, if the loops end with this fuel: `symtab.c:337-361` and `:257-268`. -/
def fileId (hash : Ptr → BitVec 64) (numFiles fuel : Nat) (files : List Ptr) (f : Ptr) : Option Nat := do
  let slots ← insertAll hash (expFor numFiles) fuel files fun _ => none
  let i ← lookupLoop (hash f) (expFor numFiles) f slots fuel (startIdx (hash f))
  pure (idOf slots i)

/-- The strings as written. -/
def writtenPool (hash : Ptr → BitVec 64) (numFiles fuel : Nat) (files : List Ptr) : Option (List Ptr) :=
  (insertAll hash (expFor numFiles) fuel files fun _ => none).map fun slots => poolList slots (expFor numFiles)

/-- **C31**. For every hash function and every list of file names with no more different names than announced (any number
up to 2^30, so the table may become completely full): all loops end, within as many rounds as the table has slots; every
name that occurs gets the number of its place in the written list of strings; the list contains exactly the names that
occur, each once. -/
theorem C31_string_pool (hash : Ptr → BitVec 64) (numFiles : Nat) (hn : numFiles ≤ 2 ^ 30) (files : List Ptr)
    (hc : files.toFinset.card ≤ numFiles) (fuel : Nat) (hfu : 2 ^ expFor numFiles ≤ fuel) :
    ∃ pool, writtenPool hash numFiles fuel files = some pool ∧ pool.Nodup ∧ (∀ f, f ∈ pool ↔ f ∈ files) ∧
      ∀ f ∈ files, ∃ id, fileId hash numFiles fuel files f = some id ∧ pool[id]? = some f := by
  obtain ⟨h1, h2⟩ := expFor_spec numFiles hn
  obtain ⟨slots, e1, hh⟩ := insertAll_holds h2 fuel hfu files (holds_empty hash _) (by simpa using hc.trans h1)
  have hmem : ∀ f, f ∈ poolList slots (expFor numFiles) ↔ f ∈ files := by
    intro f
    unfold poolList
    rw [List.mem_filterMap]
    constructor
    · rintro ⟨i, _, hi⟩
      simpa using (hh.inside i f hi).2
    · intro hf
      obtain ⟨i, hi⟩ := hh.present f (by simpa using hf)
      exact ⟨i, List.mem_range.mpr (hh.inside i f hi).1, hi⟩
  refine ⟨poolList slots (expFor numFiles), by simp only [writtenPool, e1, Option.map], ?_, hmem, ?_⟩
  · unfold poolList
    refine List.Nodup.filterMap ?_ List.nodup_range
    intro i j p hi hj
    exact hh.unique hi hj
  · intro f hf
    obtain ⟨i, e2, hi⟩ := lookup_holds h2 hh f (by simpa using hf) fuel hfu
    exact ⟨idOf slots i, by simp only [fileId, e1, e2, bind, Option.bind, pure], poolList_get slots _ i f (hh.inside i f hi).1 hi⟩

/-- **C31**: equal numbers exactly for equal names. -/
theorem C31_dedup (hash : Ptr → BitVec 64) (numFiles : Nat) (hn : numFiles ≤ 2 ^ 30) (files : List Ptr)
    (hc : files.toFinset.card ≤ numFiles) (fuel : Nat) (hfu : 2 ^ expFor numFiles ≤ fuel) (f g : Ptr) (hf : f ∈ files) (hg : g ∈ files) :
    fileId hash numFiles fuel files f = fileId hash numFiles fuel files g ↔ f = g := by
  obtain ⟨pool, _, _, _, h⟩ := C31_string_pool hash numFiles hn files hc fuel hfu
  obtain ⟨i, h1, h2⟩ := h f hf
  obtain ⟨j, h3, h4⟩ := h g hg
  constructor
  · intro e
    rw [h1, h3] at e
    cases e
    rw [h2] at h4
    cases h4; rfl
  · rintro rfl; rfl

/-- Non-vacuity: four files with the same hash in a table of four slots. -/
example : writtenPool (fun _ => 0xC0000000deadbee1) 4 4 [10, 20, 10, 30, 40, 20] = some [10, 40, 30, 20] ∧
    fileId (fun _ => 0xC0000000deadbee1) 4 4 [10, 20, 10, 30, 40, 20] 30 = some 2 := by decide +kernel

end Buxn.Symtab
