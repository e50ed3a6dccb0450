import Verif.Dbg.Symtab
/-! # Properties C30: symbol files -/

namespace Buxn.Symtab
open Buxn.VM

theorem bind_ok {α β : Type} (x : α) (f : α → Except Err β) : (Except.ok x : Except Err α).bind f = f x := rfl
theorem map_ok {α β : Type} (x : α) (f : α → β) : (Except.ok x : Except Err α).map f = .ok (f x) := rfl

/-! ## Allocation -/

/-- The free part of the string area is what is left at its end. -/
structure InArea (A : Area) (b : Buf) : Prop where
  low : A.base ≤ b.mem.toNat
  all : b.mem.toNat + b.size.toNat = A.base + A.size

theorem alloc_eq {A : Area} {b : Buf} (h : InArea A b) (n : BitVec 64) (hn : A.base + A.size + n.toNat < 2 ^ 63) :
    alloc b n = if n.toNat ≤ b.size.toNat then some (b.mem, ⟨b.mem + n, b.size - n⟩) else none := by
  have ha := h.all
  have e0 : (b.mem + 1 - 1) &&& (-1 : BitVec 64) = b.mem := by
    rw [BitVec.add_sub_cancel]; show b.mem &&& BitVec.allOnes 64 = b.mem; exact BitVec.and_allOnes
  have e1 : (b.mem + n).toNat = b.mem.toNat + n.toNat := by rw [BitVec.toNat_add]; omega
  have e2 : (b.mem + b.size).toNat = b.mem.toNat + b.size.toNat := by rw [BitVec.toNat_add]; omega
  have e3 : (b.mem + n).sle (b.mem + b.size) = decide (n.toNat ≤ b.size.toNat) := by
    rw [BitVec.sle_eq_decide, BitVec.toInt_eq_toNat_of_lt (by omega), BitVec.toInt_eq_toNat_of_lt (by omega), e1, e2]
    congr 1; apply propext; omega
  have e4 : b.mem + n - b.mem = n := by rw [BitVec.add_comm, BitVec.add_sub_cancel]
  unfold alloc
  dsimp only
  rw [e0, e3, e4]
  simp

theorem store_ok {A : Area} {mem : Mem} {a : Nat} (v : Byte) (h1 : A.base ≤ a) (h2 : a < A.base + A.size) : store A mem a v = .ok (upd mem a v) :=
  if_pos ⟨h1, h2⟩

theorem storeAll_ok {A : Area} (hA : A.base + A.size < 2 ^ 63) (vs : List Byte) (a : Ptr64) (mem : Mem) (h1 : A.base ≤ a.toNat)
    (h2 : a.toNat + vs.length ≤ A.base + A.size) : ∃ mem', storeAll A a vs mem = .ok mem' ∧
      ∀ j, mem' j = if a.toNat ≤ j ∧ j < a.toNat + vs.length then vs.getD (j - a.toNat) 0 else mem j := by
  induction vs generalizing a mem with
  | nil => exact ⟨mem, rfl, fun j => by rw [if_neg (by simp only [List.length_nil]; omega)]⟩
  | cons v vs ih =>
    simp only [List.length_cons] at h2 ⊢
    have e : (a + 1).toNat = a.toNat + 1 := by
      rw [BitVec.toNat_add, show (1 : BitVec 64).toNat = 1 from rfl]; omega
    obtain ⟨mem', e1, e2⟩ := ih (a + 1) (upd mem a.toNat v) (by omega) (by omega)
    refine ⟨mem', ?_, fun j => ?_⟩
    · rw [storeAll, store_ok v h1 (by omega), bind_ok, e1]
    · rw [e2, e]
      by_cases hj : j = a.toNat
      · rw [if_neg (by omega), if_pos (by omega), hj, Nat.sub_self]; simp [upd]
      · by_cases hj2 : a.toNat + 1 ≤ j ∧ j < a.toNat + 1 + vs.length
        · rw [if_pos hj2, if_pos (by omega), show j - a.toNat = (j - (a.toNat + 1)) + 1 by omega, List.getD_cons_succ]
        · rw [if_neg hj2, if_neg (by omega)]; simp [upd, hj]

/-- Reading one string never leaves the area, and the free part stays the end of the area. -/
theorem readBlob_cases {A : Area} {b : Buf} (h : InArea A b) (mem : Mem) (blob : Blob)
    (hl : A.base + A.size + (blob.len.toNat + 1) < 2 ^ 63) :
    readBlob A b mem blob = .error .malformed ∨ readBlob A b mem blob = .error .io ∨
      ∃ b' mem', readBlob A b mem blob = .ok (b.mem, b', mem') ∧ InArea A b' := by
  have ha := h.all
  have hlow := h.low
  have e1 : (blob.len + 1).toNat = blob.len.toNat + 1 := by
    rw [BitVec.toNat_add, show (1 : BitVec 64).toNat = 1 from rfl]; omega
  have halloc := alloc_eq h (blob.len + 1) (by omega)
  rw [e1] at halloc
  by_cases hfit : blob.len.toNat + 1 ≤ b.size.toNat
  · rw [if_pos hfit] at halloc
    have e2 : (b.mem + blob.len).toNat = b.mem.toNat + blob.len.toNat := by rw [BitVec.toNat_add]; omega
    have hb' : InArea A ⟨b.mem + (blob.len + 1), b.size - (blob.len + 1)⟩ := by
      have e3 : (b.mem + (blob.len + 1)).toNat = b.mem.toNat + (blob.len.toNat + 1) := by rw [BitVec.toNat_add, e1]; omega
      have e4 : (b.size - (blob.len + 1)).toNat = b.size.toNat - (blob.len.toNat + 1) := by
        rw [BitVec.toNat_sub_of_le (by rw [BitVec.le_def, e1]; exact hfit), e1]
      exact ⟨by show A.base ≤ (b.mem + (blob.len + 1)).toNat; omega,
        by show (b.mem + (blob.len + 1)).toNat + (b.size - (blob.len + 1)).toNat = _; omega⟩
    obtain ⟨mem', h1, h2⟩ := storeAll_ok (A := A) (by omega) (blob.data.take blob.len.toNat) b.mem (upd mem (b.mem + blob.len).toNat 0) hlow
      (by rw [List.length_take]; omega)
    have hstr : allocStr A b mem blob.len = .ok (b.mem, ⟨b.mem + (blob.len + 1), b.size - (blob.len + 1)⟩, upd mem (b.mem + blob.len).toNat 0) := by
      rw [allocStr, halloc]
      dsimp only
      rw [store_ok 0 (by omega) (by omega)]; rfl
    by_cases hshort : blob.data.length < blob.len.toNat
    · right; left
      rw [readBlob, hstr, bind_ok, blobBody, h1, bind_ok, if_pos hshort]; rfl
    · right; right
      exact ⟨_, mem', by rw [readBlob, hstr, bind_ok, blobBody, h1, bind_ok, if_neg hshort]; rfl, hb'⟩
  · left
    rw [if_neg hfit] at halloc
    rw [readBlob, allocStr, halloc]; rfl

/-- A complete string that fits is stored as a C string at the start of the free part; what is below is not touched. -/
theorem readBlob_fits {A : Area} {b : Buf} (h : InArea A b) (hA : A.base + A.size < 2 ^ 62) (mem : Mem) (bs : List Byte)
    (hfit : bs.length + 1 ≤ b.size.toNat) :
    ∃ b' mem', readBlob A b mem ⟨BitVec.ofNat 64 bs.length, bs⟩ = .ok (b.mem, b', mem') ∧ InArea A b' ∧
      b'.mem.toNat = b.mem.toNat + (bs.length + 1) ∧ CStr mem' b.mem.toNat bs ∧ ∀ j, j < b.mem.toNat → mem' j = mem j := by
  have ha := h.all
  have hlow := h.low
  have hl0 : (BitVec.ofNat 64 bs.length).toNat = bs.length := by rw [BitVec.toNat_ofNat]; exact Nat.mod_eq_of_lt (by omega)
  generalize hlen : BitVec.ofNat 64 bs.length = len at hl0
  have e1 : (len + 1).toNat = bs.length + 1 := by
    rw [BitVec.toNat_add, show (1 : BitVec 64).toNat = 1 from rfl, hl0]; omega
  have halloc := alloc_eq h (len + 1) (by omega)
  rw [e1, if_pos hfit] at halloc
  have e2 : (b.mem + len).toNat = b.mem.toNat + bs.length := by rw [BitVec.toNat_add, hl0]; omega
  have e3 : (b.mem + (len + 1)).toNat = b.mem.toNat + (bs.length + 1) := by rw [BitVec.toNat_add, e1]; omega
  have e4 : (b.size - (len + 1)).toNat = b.size.toNat - (bs.length + 1) := by
    rw [BitVec.toNat_sub_of_le (by rw [BitVec.le_def, e1]; exact hfit), e1]
  obtain ⟨mem', h1, h2⟩ := storeAll_ok (A := A) (by omega) bs b.mem (upd mem (b.mem + len).toNat 0) hlow (by omega)
  have hstr : allocStr A b mem len = .ok (b.mem, ⟨b.mem + (len + 1), b.size - (len + 1)⟩, upd mem (b.mem + len).toNat 0) := by
    rw [allocStr, halloc]
    dsimp only
    rw [store_ok 0 (by omega) (by omega)]; rfl
  refine ⟨⟨b.mem + (len + 1), b.size - (len + 1)⟩, mem', ?_, ⟨?_, ?_⟩, e3, ⟨?_, ?_⟩, ?_⟩
  · have : bs.take len.toNat = bs := by rw [hl0]; exact List.take_length
    rw [readBlob, hstr, bind_ok, blobBody]
    dsimp only
    rw [this, h1, bind_ok, if_neg (by omega)]; rfl
  · show A.base ≤ (b.mem + (len + 1)).toNat; omega
  · show (b.mem + (len + 1)).toNat + (b.size - (len + 1)).toNat = _; omega
  · intro i hi
    rw [h2, if_pos (by omega), Nat.add_sub_cancel_left]
  · rw [h2, if_neg (by omega), e2]; simp [upd]
  · intro j hj
    rw [h2, if_neg (by omega), e2]
    have : j ≠ b.mem.toNat + bs.length := by omega
    simp [upd, this]

theorem readPool_fits {A : Area} (hA : A.base + A.size < 2 ^ 62) (pool : List (List Byte)) (i : Nat) (b : Buf) (mem : Mem) (strings : Strings)
    (h : InArea A b) (hfit : (pool.map fun bs => bs.length + 1).sum ≤ b.size.toNat) :
    ∃ b' mem' strings', readPool A pool.length i (pool.map fun bs => ⟨BitVec.ofNat 64 bs.length, bs⟩) b mem strings = .ok (b', mem', strings') ∧
      (∀ j bs, pool[j]? = some bs → ∃ a, strings' (i + j) = some a ∧ CStr mem' a.toNat bs) ∧
      (∀ j, j < i → strings' j = strings j) ∧ ∀ j, j < b.mem.toNat → mem' j = mem j := by
  induction pool generalizing i b mem strings with
  | nil => exact ⟨b, mem, strings, rfl, fun j bs hj => by simp at hj, fun _ _ => rfl, fun _ _ => rfl⟩
  | cons bs pool ih =>
    simp only [List.map_cons, List.sum_cons] at hfit
    obtain ⟨b1, mem1, e1, hb1, hm1, hc1, hk1⟩ := readBlob_fits h hA mem bs (by omega)
    have hall := h.all
    have hall1 := hb1.all
    obtain ⟨b2, mem2, strings2, e2, hs2, hk2, hm2⟩ := ih (i + 1) b1 mem1 (upd strings i (some b.mem)) hb1 (by omega)
    refine ⟨b2, mem2, strings2, ?_, ?_, ?_, ?_⟩
    · simp only [List.length_cons, List.map_cons, readPool]
      rw [e1, bind_ok, e2]
    · intro j bs' hj
      cases j with
      | zero =>
        simp only [List.getElem?_cons_zero, Option.some.injEq] at hj
        subst hj
        refine ⟨b.mem, by rw [Nat.add_zero, hk2 i (by omega)]; simp [upd], ?_, ?_⟩
        · intro l hl
          rw [hm2 _ (by omega), hc1.1 l hl]
        · rw [hm2 _ (by omega), hc1.2]
      | succ j =>
        rw [List.getElem?_cons_succ] at hj
        obtain ⟨a, h1, h2⟩ := hs2 j bs' hj
        exact ⟨a, by rw [show i + (j + 1) = i + 1 + j by omega]; exact h1, h2⟩
    · intro j hj
      rw [hk2 j (by omega)]
      have : j ≠ i := by omega
      simp [upd, this]
    · intro j hj
      rw [hm2 j (by omega), hk1 j hj]

/-! ## Rows -/

theorem getInt_some {α : Type} {n : Int → Option α} {v : Int} {x : α} (h : n v = some x) : getInt n v = .ok x := by
  unfold getInt; rw [h]

theorem readRow_writeRow (L : Lib) (numStrings : BitVec 32) (strings : Strings) (s : Sym Ptr) (strId : BitVec 32) (junk : Sym (Option Ptr64))
    (hid : strId < numStrings) : (writeRow s strId).foldlM (onRow L numStrings strings) junk =
      .ok ⟨s.type, s.id, s.addrMin, s.addrMax, strings strId.toNat, s.start, s.stop⟩ := by
  have hn : ¬ numStrings ≤ strId := by simpa using hid
  simp only [writeRow, List.foldlM_cons, List.foldlM_nil, onRow, bind, pure, Except.pure, String.reduceEq, if_true, if_false,
    getInt_some (L.fits8 _), getInt_some (L.fits16 _), getInt_some (L.fits32 _), getInt_some (L.fitsI32 _), Except.bind, Except.map, if_neg hn]

theorem readRows_all (L : Lib) (numStrings : BitVec 32) (strings : Strings) (names : Ptr → List Byte) (mem : Mem) (hash : Ptr → BitVec 64) (e fuel : Nat)
    (slots : Slots) (numSymbols : BitVec 32) (syms : List (Sym Ptr)) (rows : List (List (String × Int)))
    (hw : writeRows hash e fuel slots numSymbols syms = some rows)
    (hid : ∀ s ∈ syms, ∀ j, lookupLoop (hash s.file) e s.file slots fuel (startIdx (hash s.file)) = some j →
      BitVec.ofNat 32 (idOf slots j) < numStrings ∧ ∃ a, strings (BitVec.ofNat 32 (idOf slots j)).toNat = some a ∧ CStr mem a.toNat (names s.file))
    (i : Nat) (out : Symbols) :
    ∃ out', readRows L numStrings strings syms.length i rows out = .ok out' ∧ (∀ j, j < i → out' j = out j) ∧
      ∀ j s, syms[j]? = some s → SameSym mem names (out' (i + j)) s := by
  induction syms generalizing i out rows with
  | nil => exact ⟨out, rfl, fun _ _ => rfl, fun j s hj => by simp at hj⟩
  | cons s syms ih =>
    unfold writeRows at hw
    cases hl : lookupLoop (hash s.file) e s.file slots fuel (startIdx (hash s.file)) with
    | none => rw [hl] at hw; cases hw
    | some k =>
      rw [hl] at hw
      dsimp only at hw
      split at hw
      · cases hw
      · cases hr : writeRows hash e fuel slots numSymbols syms with
        | none => rw [hr] at hw; cases hw
        | some rows' =>
          rw [hr] at hw
          cases hw
          obtain ⟨h1, a, h2, h3⟩ := hid s (List.mem_cons_self) k hl
          obtain ⟨out', e1, e2, e3⟩ := ih rows' hr (fun s' hs' => hid s' (List.mem_cons_of_mem _ hs')) (i + 1)
            (upd out i ⟨s.type, s.id, s.addrMin, s.addrMax, strings (BitVec.ofNat 32 (idOf slots k)).toNat, s.start, s.stop⟩)
          refine ⟨out', ?_, ?_, ?_⟩
          · simp only [List.length_cons, readRows]
            rw [readRow_writeRow L numStrings strings s _ (out i) h1, bind_ok, e1]
          · intro j hj
            rw [e2 j (by omega)]
            have : j ≠ i := by omega
            simp [upd, this]
          · intro j s' hj
            cases j with
            | zero =>
              simp only [List.getElem?_cons_zero, Option.some.injEq] at hj
              subst hj
              rw [Nat.add_zero, e2 i (by omega)]
              refine ⟨?_, ?_, ?_, ?_, ?_, ?_, a, ?_, h3⟩ <;> simp [upd]
              simpa using h2
            | succ j =>
              rw [List.getElem?_cons_succ] at hj
              rw [show i + (j + 1) = i + 1 + j by omega]
              exact e3 j s' hj

theorem writeRows_ok (hash : Ptr → BitVec 64) (e fuel : Nat) (slots : Slots) (numSymbols : BitVec 32) (syms : List (Sym Ptr))
    (h : ∀ s ∈ syms, ∃ j, lookupLoop (hash s.file) e s.file slots fuel (startIdx (hash s.file)) = some j ∧ BitVec.ofNat 32 (idOf slots j) < numSymbols) :
    ∃ rows, writeRows hash e fuel slots numSymbols syms = some rows := by
  induction syms with
  | nil => exact ⟨[], rfl⟩
  | cons s syms ih =>
    obtain ⟨rows, hr⟩ := ih fun s' hs' => h s' (List.mem_cons_of_mem _ hs')
    obtain ⟨j, h1, h2⟩ := h s List.mem_cons_self
    have hn : ¬ numSymbols ≤ BitVec.ofNat 32 (idOf slots j) := by simpa using h2
    exact ⟨writeRow s (BitVec.ofNat 32 (idOf slots j)) :: rows, by simp only [writeRows, h1, hr, if_neg hn, Option.map]⟩

/-! ## The size of the pool -/

theorem insertSized_holds {hash : Ptr → BitVec 64} {e : Nat} (he : e ≤ 30) (fuel : Nat) (hfu : 2 ^ e ≤ fuel) (nameLen : Ptr → Nat) (files : List Ptr)
    {fs : Finset Ptr} {slots : Slots} (h : Holds hash e fs slots) (hc : (fs ∪ files.toFinset).card ≤ 2 ^ e) (size : BitVec 32)
    (hs : size = BitVec.ofNat 32 (∑ f ∈ fs, (nameLen f + 1))) :
    ∃ slots', insertSized hash e fuel nameLen files slots size = some (slots', BitVec.ofNat 32 (∑ f ∈ fs ∪ files.toFinset, (nameLen f + 1))) ∧
      Holds hash e (fs ∪ files.toFinset) slots' := by
  induction files generalizing fs slots size with
  | nil => exact ⟨slots, by simp [insertSized, hs], by simpa using h⟩
  | cons f files ih =>
    have heq : fs ∪ (f :: files).toFinset = insert f fs ∪ files.toFinset := by
      ext x; simp
    rw [heq] at hc ⊢
    have hroom : f ∈ fs ∨ fs.card < 2 ^ e := by
      by_cases hf : f ∈ fs
      · exact Or.inl hf
      · right
        have h1 := Finset.card_insert_of_notMem hf
        have h2 : (insert f fs).card ≤ (insert f fs ∪ files.toFinset).card := Finset.card_le_card Finset.subset_union_left
        omega
    obtain ⟨slots1, new, e1, h1, hnew⟩ := insert_holds he h f hroom fuel hfu
    have hsize : (if new then size + (BitVec.ofNat 32 (nameLen f) + 1) else size) = BitVec.ofNat 32 (∑ f ∈ insert f fs, (nameLen f + 1)) := by
      by_cases hf : f ∈ fs
      · have : new = false := by cases new with | false => rfl | true => exact (hnew.mp rfl hf).elim
        rw [this, Finset.insert_eq_of_mem hf, hs]; rfl
      · rw [hnew.mpr hf, if_pos rfl, Finset.sum_insert hf, hs, show (1 : BitVec 32) = BitVec.ofNat 32 1 from rfl, ← BitVec.ofNat_add, ← BitVec.ofNat_add,
          Nat.add_comm]
    obtain ⟨slots2, e2, h2⟩ := ih h1 hc _ hsize
    exact ⟨slots2, by simp only [insertSized, e1, e2], h2⟩

/-! ## Property C30 -/

/-- **C30**, round trip. For every list of symbols (fewer than 2^32) whose file names, at most `numFiles` of them and at
most 2^30, take less than 4 GB: writing succeeds, and reading the result gives the same number of symbols and in each
place a symbol with the same type, number, addresses, source range and file name. `hash` is arbitrary; what the memory
holds before reading does not matter. -/
theorem C30_round_trip (L : Lib) (hash : Ptr → BitVec 64) (numFiles : Nat) (hn : numFiles ≤ 2 ^ 30) (names : Ptr → List Byte) (syms : List (Sym Ptr))
    (hlen : syms.length < 2 ^ 32) (hfiles : (syms.map (·.file)).toFinset.card ≤ numFiles)
    (hsize : ∑ f ∈ (syms.map (·.file)).toFinset, ((names f).length + 1) < 2 ^ 32)
    (base : Ptr64) (hbase : base.toNat < 2 ^ 61) (junk : Symbols) (mem : Mem) (fuel : Nat) (hfu : 2 ^ expFor numFiles ≤ fuel) :
    ∃ file out, write hash fuel numFiles names syms = some file ∧ read L base junk mem file = .ok out ∧
      out.num.toNat = syms.length ∧ ∀ i s, syms[i]? = some s → SameSym out.mem names (out.symbols i) s := by
  obtain ⟨he1, he2⟩ := expFor_spec numFiles hn
  obtain ⟨slots, hins, hh⟩ := insertSized_holds he2 fuel hfu (fun f => (names f).length) (syms.map (·.file)) (holds_empty hash _)
    (by simpa using hfiles.trans he1) 0 (by simp)
  rw [Finset.empty_union] at hins hh
  generalize hN : ∑ f ∈ (syms.map (·.file)).toFinset, ((names f).length + 1) = N at hins hsize
  have hpool_mem : ∀ f, f ∈ poolList slots (expFor numFiles) ↔ f ∈ syms.map (·.file) := by
    intro f
    unfold poolList
    rw [List.mem_filterMap]
    constructor
    · rintro ⟨i, _, hi⟩
      simpa using (hh.inside i f hi).2
    · intro hf
      obtain ⟨i, hi⟩ := hh.present f (by simpa using hf)
      exact ⟨i, List.mem_range.mpr (hh.inside i f hi).1, hi⟩
  have hpool_nodup : (poolList slots (expFor numFiles)).Nodup := by
    unfold poolList
    refine List.Nodup.filterMap ?_ List.nodup_range
    intro i j p hi hj
    exact hh.unique hi hj
  have hpool_fin : (poolList slots (expFor numFiles)).toFinset = (syms.map (·.file)).toFinset := by
    ext f; simp only [List.mem_toFinset, hpool_mem]
  have hpool_len : (poolList slots (expFor numFiles)).length ≤ syms.length := by
    rw [← List.toFinset_card_of_nodup hpool_nodup, hpool_fin]
    exact (List.toFinset_card_le _).trans (by simp)
  have hid_len : idOf slots (2 ^ expFor numFiles) = (poolList slots (expFor numFiles)).length := idOf_eq _ _
  have hpool_sum : ((poolList slots (expFor numFiles)).map fun f => (names f).length + 1).sum = N := by
    rw [← List.sum_toFinset _ hpool_nodup, hpool_fin, hN]
  -- every file name is found
  have hlook : ∀ s ∈ syms, ∃ j, lookupLoop (hash s.file) (expFor numFiles) s.file slots fuel (startIdx (hash s.file)) = some j ∧
      (poolList slots (expFor numFiles))[idOf slots j]? = some s.file := by
    intro s hs
    obtain ⟨j, h1, h2⟩ := lookup_holds he2 hh s.file (List.mem_toFinset.mpr (List.mem_map_of_mem hs)) fuel hfu
    exact ⟨j, h1, poolList_get slots _ j s.file (hh.inside j _ h2).1 h2⟩
  have hidlt : ∀ j f, (poolList slots (expFor numFiles))[idOf slots j]? = some f → idOf slots j < (poolList slots (expFor numFiles)).length := by
    intro j f h
    exact (List.getElem?_eq_some_iff.mp h).1
  have hid32 : ∀ j f, (poolList slots (expFor numFiles))[idOf slots j]? = some f → (BitVec.ofNat 32 (idOf slots j)).toNat = idOf slots j := by
    intro j f h
    have := hidlt j f h
    rw [BitVec.toNat_ofNat]; exact Nat.mod_eq_of_lt (by omega)
  have hsyms32 : (BitVec.ofNat 32 syms.length).toNat = syms.length := by rw [BitVec.toNat_ofNat]; exact Nat.mod_eq_of_lt hlen
  have hstr32 : (BitVec.ofNat 32 (poolList slots (expFor numFiles)).length).toNat = (poolList slots (expFor numFiles)).length := by
    rw [BitVec.toNat_ofNat]; exact Nat.mod_eq_of_lt (by omega)
  have hN32 : (BitVec.ofNat 32 N).toNat = N := by rw [BitVec.toNat_ofNat]; exact Nat.mod_eq_of_lt hsize
  obtain ⟨rows, hrows⟩ := writeRows_ok hash (expFor numFiles) fuel slots (BitVec.ofNat 32 syms.length) syms (by
    intro s hs
    obtain ⟨j, h1, h2⟩ := hlook s hs
    refine ⟨j, h1, ?_⟩
    rw [BitVec.lt_def, hid32 j _ h2, hsyms32]
    have := hidlt j _ h2
    omega)
  -- the string area
  have hN64 : ((BitVec.ofNat 32 N).setWidth 64).toNat = N := by
    rw [BitVec.toNat_setWidth, hN32]; exact Nat.mod_eq_of_lt (by omega)
  obtain ⟨b', mem', strings', hp, hps, _, _⟩ := readPool_fits (A := ⟨base.toNat, (BitVec.ofNat 32 N).toNat⟩)
    (by show base.toNat + (BitVec.ofNat 32 N).toNat < _; rw [hN32]; omega)
    ((poolList slots (expFor numFiles)).map names) 0 ⟨base, (BitVec.ofNat 32 N).setWidth 64⟩ mem (fun _ => none)
    ⟨Nat.le_refl _, by show base.toNat + _ = base.toNat + _; rw [hN64, hN32]⟩
    (by rw [List.map_map]; show ((poolList slots (expFor numFiles)).map fun f => (names f).length + 1).sum ≤ _; rw [hpool_sum, hN64])
  rw [List.map_map, List.length_map] at hp
  obtain ⟨out', hr, _, hsame⟩ := readRows_all L (BitVec.ofNat 32 (poolList slots (expFor numFiles)).length) strings' names mem' hash (expFor numFiles) fuel slots _ syms rows hrows (by
    intro s hs j hj
    obtain ⟨j', h1, h2⟩ := hlook s hs
    rw [h1] at hj; cases hj
    refine ⟨?_, ?_⟩
    · rw [BitVec.lt_def, hid32 j _ h2, hstr32]; exact hidlt j _ h2
    · rw [hid32 j _ h2]
      have := hps (idOf slots j) (names s.file) (by rw [List.getElem?_map, h2]; rfl)
      rwa [Nat.zero_add] at this) 0 junk
  refine ⟨⟨2, [("num_symbols", (BitVec.ofNat 32 syms.length).toNat), ("num_strings", (BitVec.ofNat 32 (idOf slots (2 ^ expFor numFiles))).toNat),
        ("string_pool_size", (BitVec.ofNat 32 N).toNat)], [("strpool", .array ((BitVec.ofNat 32 (idOf slots (2 ^ expFor numFiles))).setWidth 64)
          ((poolList slots (expFor numFiles)).map fun f => ⟨BitVec.ofNat 64 (names f).length, names f⟩)),
          ("symtab", .table ((BitVec.ofNat 32 syms.length).setWidth 64) rows)]⟩,
    ⟨BitVec.ofNat 32 syms.length, out', mem'⟩, ?_, ?_, hsyms32, fun i s hi => by have := hsame i s hi; rwa [Nat.zero_add] at this⟩
  · simp only [write, hins, hrows]
  · have h64 : ∀ n : BitVec 32, (n.setWidth 64).toNat = n.toNat := by
      intro n; rw [BitVec.toNat_setWidth]; exact Nat.mod_eq_of_lt (by omega)
    have hh : readHeader L ⟨2, [("num_symbols", (BitVec.ofNat 32 syms.length).toNat), ("num_strings", (BitVec.ofNat 32 (idOf slots (2 ^ expFor numFiles))).toNat),
        ("string_pool_size", (BitVec.ofNat 32 N).toNat)], [("strpool", .array ((BitVec.ofNat 32 (idOf slots (2 ^ expFor numFiles))).setWidth 64)
          ((poolList slots (expFor numFiles)).map fun f => ⟨BitVec.ofNat 64 (names f).length, names f⟩)),
          ("symtab", .table ((BitVec.ofNat 32 syms.length).setWidth 64) rows)]⟩ =
        .ok ⟨BitVec.ofNat 32 syms.length, BitVec.ofNat 32 (idOf slots (2 ^ expFor numFiles)), BitVec.ofNat 32 N⟩ := by
      simp only [readHeader, List.foldlM_cons, List.foldlM_nil, onHeader, bind, pure, Except.pure, String.reduceEq, if_true, if_false,
        getInt_some (L.fits32 _), Except.bind, Except.map, ne_eq, not_true]
    unfold read
    rw [hh, bind_ok]
    simp only [List.foldlM_cons, List.foldlM_nil, bind, pure, Except.pure, onBody, String.reduceEq, if_true, if_false, ne_eq, not_true, h64, hid_len, hstr32, hsyms32]
    have hp' : readPool ⟨base.toNat, (BitVec.ofNat 32 N).toNat⟩ (poolList slots (expFor numFiles)).length 0
        ((poolList slots (expFor numFiles)).map fun f => ⟨BitVec.ofNat 64 (names f).length, names f⟩) ⟨base, (BitVec.ofNat 32 N).setWidth 64⟩ mem (fun _ => none) =
        .ok (b', mem', strings') := hp
    rw [hp', map_ok, bind_ok, hr]
    rfl

/-! ## Reading anything -/

theorem readPool_not_oob {A : Area} (left i : Nat) (blobs : List Blob) (b : Buf) (mem : Mem) (strings : Strings) (h : InArea A b)
    (hl : ∀ blob ∈ blobs, A.base + A.size + (blob.len.toNat + 1) < 2 ^ 63) :
    readPool A left i blobs b mem strings = .error .malformed ∨ readPool A left i blobs b mem strings = .error .io ∨
      ∃ b' mem' strings', readPool A left i blobs b mem strings = .ok (b', mem', strings') ∧ InArea A b' := by
  induction left generalizing i blobs b mem strings with
  | zero => exact Or.inr (Or.inr ⟨b, mem, strings, by cases blobs <;> rfl, h⟩)
  | succ left ih =>
    cases blobs with
    | nil => exact Or.inr (Or.inl rfl)
    | cons blob blobs =>
      rcases readBlob_cases h mem blob (hl blob List.mem_cons_self) with e | e | ⟨b', mem', e, hb⟩
      · left; rw [readPool, e]; rfl
      · right; left; rw [readPool, e]; rfl
      · have := ih (i + 1) blobs b' mem' (upd strings i (some b.mem)) hb fun x hx => hl x (List.mem_cons_of_mem _ hx)
        rw [readPool, e, bind_ok]; exact this

theorem getInt_not_oob {α : Type} (n : Int → Option α) (v : Int) : getInt n v ≠ .error .oob := by
  unfold getInt; split <;> intro h <;> cases h

theorem map_not_oob {α β : Type} {x : Except Err α} (f : α → β) (h : x ≠ .error .oob) : x.map f ≠ .error .oob := by
  cases x with
  | ok a => intro e; cases e
  | error e => intro e'; cases e'; exact h rfl

theorem bind_not_oob {α β : Type} {x : Except Err α} {f : α → Except Err β} (h : x ≠ .error .oob) (hf : ∀ a, x = .ok a → f a ≠ .error .oob) :
    x.bind f ≠ .error .oob := by
  cases x with
  | ok a => exact hf a rfl
  | error e => intro e'; cases e'; exact h rfl

theorem foldlM_not_oob {α β : Type} (P : α → Prop) (f : α → β → Except Err α) (l : List β)
    (hf : ∀ a, P a → ∀ b ∈ l, f a b ≠ .error .oob ∧ ∀ a', f a b = .ok a' → P a') (a : α) (ha : P a) : l.foldlM f a ≠ .error .oob := by
  induction l generalizing a with
  | nil => intro h; cases h
  | cons b l ih =>
    rw [List.foldlM_cons]
    obtain ⟨h1, h2⟩ := hf a ha b List.mem_cons_self
    exact bind_not_oob h1 fun a' e => ih (fun a ha b hb => hf a ha b (List.mem_cons_of_mem _ hb)) a' (h2 a' e)

theorem ite_not_oob {α : Type} {c : Prop} [Decidable c] {a b : Except Err α} (ha : a ≠ .error .oob) (hb : b ≠ .error .oob) :
    (if c then a else b) ≠ .error .oob := by split <;> assumption

theorem onRow_not_oob (L : Lib) (numStrings : BitVec 32) (strings : Strings) (s : Sym (Option Ptr64)) (kv : String × Int) :
    onRow L numStrings strings s kv ≠ .error .oob := by
  unfold onRow
  have hfile : ∀ v, ((getInt L.u32 v).bind fun x => if numStrings ≤ x then Except.error Err.malformed else .ok { s with file := strings x.toNat }) ≠ .error .oob := by
    intro v
    refine bind_not_oob (getInt_not_oob _ _) fun x _ => ?_
    split <;> intro h <;> cases h
  repeat' first | exact map_not_oob _ (getInt_not_oob _ _) | exact hfile _ | refine ite_not_oob ?_ ?_ | (intro h; cases h; done)

theorem readRows_not_oob (L : Lib) (numStrings : BitVec 32) (strings : Strings) (left i : Nat) (rows : List (List (String × Int))) (syms : Symbols) :
    readRows L numStrings strings left i rows syms ≠ .error .oob := by
  induction left generalizing i rows syms with
  | zero => cases rows <;> intro h <;> cases h
  | succ left ih =>
    cases rows with
    | nil => intro h; cases h
    | cons row rows =>
      rw [readRows]
      exact bind_not_oob (foldlM_not_oob (fun _ => True) _ _ (fun a _ b _ => ⟨onRow_not_oob _ _ _ _ _, fun _ _ => trivial⟩) _ trivial) fun _ _ => ih _ _ _

theorem onHeader_not_oob (L : Lib) (h : Header) (kv : String × Int) : onHeader L h kv ≠ .error .oob := by
  unfold onHeader
  split_ifs
  all_goals first | exact map_not_oob _ (getInt_not_oob _ _) | (intro h; cases h)

/-- **C30**, memory safety. Reading any file, also one that the writer did not make, stores only inside of the string area
announced in its header, provided no string has an announced length near 2^63 (see `C30_length_violated`). -/
theorem C30_read_in_bounds (L : Lib) (base : Ptr64) (hbase : base.toNat < 2 ^ 61) (junk : Symbols) (mem : Mem) (f : SymFile)
    (hf : ∀ k len blobs, (k, Sect.array len blobs) ∈ f.body → ∀ blob ∈ blobs, blob.len.toNat < 2 ^ 62) :
    read L base junk mem f ≠ .error .oob := by
  unfold read
  refine bind_not_oob ?_ fun h _ => ?_
  · unfold readHeader
    split
    · intro h; cases h
    · exact foldlM_not_oob (fun _ => True) _ _ (fun a _ b _ => ⟨onHeader_not_oob _ _ _, fun _ _ => trivial⟩) _ trivial
  · refine map_not_oob _ (foldlM_not_oob (fun r => InArea ⟨base.toNat, h.poolSize.toNat⟩ r.buf) _ _ ?_ _ ⟨Nat.le_refl _, ?_⟩)
    · rintro r hr ⟨k, sect⟩ hmem
      unfold onBody
      dsimp only
      by_cases hk1 : k = "strpool"
      · rw [if_pos hk1]
        cases sect with
        | table len rows => exact ⟨fun h => (by cases h), fun _ h => (by cases h)⟩
        | array len blobs =>
          dsimp only
          by_cases hlen : len ≠ h.numStrings.setWidth 64
          · rw [if_pos hlen]; exact ⟨fun h => (by cases h), fun _ h => (by cases h)⟩
          · rw [if_neg hlen]
            have hb : ∀ blob ∈ blobs, (⟨base.toNat, h.poolSize.toNat⟩ : Area).base + (⟨base.toNat, h.poolSize.toNat⟩ : Area).size + (blob.len.toNat + 1) < 2 ^ 63 := by
              intro blob hblob
              have h1 := hf k len blobs hmem blob hblob
              have h2 := h.poolSize.isLt
              show base.toNat + h.poolSize.toNat + _ < _
              omega
            rcases readPool_not_oob len.toNat 0 blobs r.buf r.mem r.strings hr hb with e | e | ⟨b', mem', strings', e, hb'⟩
            · rw [e]; exact ⟨fun h => (by cases h), fun _ h => (by cases h)⟩
            · rw [e]; exact ⟨fun h => (by cases h), fun _ h => (by cases h)⟩
            · rw [e]; exact ⟨fun h => (by cases h), fun _ h => (by cases h; exact hb')⟩
      · rw [if_neg hk1]
        by_cases hk2 : k = "symtab"
        · rw [if_pos hk2]
          cases sect with
          | array len blobs => exact ⟨fun h => (by cases h), fun _ h => (by cases h)⟩
          | table len rows =>
            dsimp only
            by_cases hlen : len ≠ h.numSymbols.setWidth 64
            · rw [if_pos hlen]; exact ⟨fun h => (by cases h), fun _ h => (by cases h)⟩
            · rw [if_neg hlen]
              refine ⟨map_not_oob _ (readRows_not_oob _ _ _ _ _ _ _), fun r' e => ?_⟩
              cases hx : readRows L h.numStrings r.strings len.toNat 0 rows r.symbols with
              | error e' => rw [hx] at e; cases e
              | ok x => rw [hx] at e; cases e; exact hr
        · rw [if_neg hk2]
          exact ⟨fun h => (by cases h), fun r' e => (by cases e; exact hr)⟩
    · show base.toNat + (h.poolSize.setWidth 64).toNat = base.toNat + h.poolSize.toNat
      rw [BitVec.toNat_setWidth, Nat.mod_eq_of_lt (by have := h.poolSize.isLt; omega)]

/-! ## Violations -/

/-- A library that refuses what does not fit. -/
def strictLib : Lib where
  u8 n := if 0 ≤ n ∧ n < 256 then some (BitVec.ofInt 8 n) else none
  u16 n := if 0 ≤ n ∧ n < 65536 then some (BitVec.ofInt 16 n) else none
  u32 n := if 0 ≤ n ∧ n < 4294967296 then some (BitVec.ofInt 32 n) else none
  i32 n := if -2147483648 ≤ n ∧ n < 2147483648 then some (BitVec.ofInt 32 n) else none
  fits8 b := by rw [if_pos ⟨by omega, by have := b.isLt; omega⟩]; simp
  fits16 b := by rw [if_pos ⟨by omega, by have := b.isLt; omega⟩]; simp
  fits32 b := by rw [if_pos ⟨by omega, by have := b.isLt; omega⟩]; simp
  fitsI32 b := by
    rw [if_pos ⟨by have := BitVec.le_toInt b; norm_num at this; omega, by have := BitVec.toInt_lt (x := b); norm_num at this; omega⟩]; simp

def zeroSym : Sym (Option Ptr64) := ⟨0, 0, 0, 0, none, ⟨0, 0, 0⟩, ⟨0, 0, 0⟩⟩

/-- A file with one string of announced length 2^64 - 1. -/
def evilFile : SymFile := ⟨2, [("num_symbols", 0), ("num_strings", 1), ("string_pool_size", 16)], [("strpool", .array 1 [⟨-1, []⟩])]⟩

/-- **C30 violated**: `len + 1` wraps around to 0 in `btmp_buf_alloc_str` (`btmp_buf.h:33`), the allocation succeeds and the
terminator is stored one byte before the area. -/
theorem C30_length_violated : read strictLib 0x10000 (fun _ => zeroSym) (fun _ => 0) evilFile = .error .oob := by
  have : ((read strictLib 0x10000 (fun _ => zeroSym) (fun _ => 0) evilFile).map fun _ => ()) = .error .oob := by decide +kernel
  cases h : read strictLib 0x10000 (fun _ => zeroSym) (fun _ => 0) evilFile with
  | ok t => rw [h] at this; cases this
  | error e => rw [h] at this; cases this; rfl

/-- A file with the symbols before the strings. -/
def swappedFile : SymFile :=
  ⟨2, [("num_symbols", 1), ("num_strings", 1), ("string_pool_size", 2)],
    [("symtab", .table 1 [[("filename", 0)]]), ("strpool", .array 1 [⟨1, [97]⟩])]⟩

/-- **C30 violated**: with the sections in the other order the file is accepted, and the file name is a pointer that was
never set (in C: read from uninitialised memory, `symtab.c:254`). -/
theorem C30_order_violated : ((read strictLib 0x10000 (fun _ => zeroSym) (fun _ => 0) swappedFile).map fun t => (t.num, (t.symbols 0).file)) = .ok (1, none) := by
  decide +kernel

/-! ## Non-vacuity -/

def demoSyms : List (Sym Ptr) :=
  [⟨0, 3, 0x100, 0x101, 7, ⟨1, 1, 0⟩, ⟨1, 4, 3⟩⟩, ⟨4, 9, 0x102, 0x102, 8, ⟨2, 1, 5⟩, ⟨2, 6, 10⟩⟩, ⟨3, 3, 0x103, 0x109, 7, ⟨3, 1, 11⟩, ⟨3, 9, 19⟩⟩]

def demoNames (p : Ptr) : List Byte := if p = 7 then [97, 46, 116] else [98]

example : ∃ file out, write (fun p => BitVec.ofNat 64 p) 4 3 demoNames demoSyms = some file ∧
    read strictLib 0x10000 (fun _ => zeroSym) (fun _ => 0xaa) file = .ok out ∧
    out.num.toNat = 3 ∧ ∀ i s, demoSyms[i]? = some s → SameSym out.mem demoNames (out.symbols i) s :=
  C30_round_trip strictLib _ 3 (by omega) demoNames demoSyms (by decide) (by decide +kernel) (by decide +kernel) 0x10000 (by decide) _ _ 4 (by decide)

example : ((write (fun p => BitVec.ofNat 64 p) 4 3 demoNames demoSyms).map fun f => f.header) =
    some [("num_symbols", 3), ("num_strings", 2), ("string_pool_size", 6)] := by decide +kernel

end Buxn.Symtab
