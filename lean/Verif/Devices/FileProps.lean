import Verif.Devices.File
import Mathlib.Data.List.GetD
import Mathlib.Tactic.Linarith
/-!
# Theorems about the file device (C17 - C19)
-/
namespace Buxn.File
variable {σ : Type}

/-! ## Specification -/

/-- What a file slot of the host looks like from the outside. -/
inductive Slot
  | closed
  | file (h : Nat) (m : Mode)
  | dir (h : Nat)
  deriving DecidableEq, Repr

/-- The discipline of the callbacks: opening needs a closed slot, closing and transferring need the handle that was
obtained by the last opening, of the right kind and, for files, opened for reading or for writing accordingly. -/
def Slot.step : Slot → Call → Option Slot
  | s, .stat _ _ => some s
  | s, .delete _ _ => some s
  | .closed, .fopen _ m (some h) => some (.file h m)
  | .closed, .fopen _ _ none => some .closed
  | .closed, .opendir _ (some h) => some (.dir h)
  | .closed, .opendir _ none => some .closed
  | .file h m, .fclose (.real h') => if h' = h then some .closed else none
  | .dir h, .closedir (.real h') => if h' = h then some .closed else none
  | .file h m, .fread (.real h') _ _ => if h' = h ∧ m = .read then some (.file h m) else none
  | .file h m, .fwrite (.real h') _ _ => if h' = h ∧ m ≠ .read then some (.file h m) else none
  | .dir h, .readdir (.real h') _ => if h' = h then some (.dir h) else none
  | _, _ => none

/-- The slot after a sequence of callbacks, `none` if the discipline is broken. -/
def Slot.run (s : Slot) (log : List Call) : Option Slot := log.foldlM Slot.step s

/-- The bytes read from files, accepted by files, and the entries of directories, according to a log. -/
def delivered : List Call → List Byte
  | [] => []
  | .fread _ _ d :: l => d ++ delivered l
  | _ :: l => delivered l
def accepted : List Call → List Byte
  | [] => []
  | .fwrite _ d n :: l => d.take n ++ accepted l
  | _ :: l => accepted l
def entries : List Call → List (FStat × List Byte)
  | [] => []
  | .readdir _ (some e) :: l => e :: entries l
  | _ :: l => entries l

/-- A lower-case hexadecimal digit. -/
def hexDigit (d : Nat) : Byte := BitVec.ofNat 8 (if d < 10 then 48 + d else 87 + d)

/-- The text of a stat with `n` columns: the size in hexadecimal with leading zeros, question marks if it does not fit;
dashes for a directory, exclamation marks if there is no such file. -/
def statText (n : Nat) (st : FStat) : List Byte :=
  match st.type with
  | .invalid => List.replicate n 0x21
  | .directory => List.replicate n 0x2d
  | .regular =>
    if st.size < 16 ^ n then (List.range n).map fun i => hexDigit (st.size / 16 ^ (n - 1 - i) % 16)
    else List.replicate n 0x3f

/-- The line of a directory entry. -/
def entryText (e : FStat × List Byte) : List Byte := statText 4 e.1 ++ [0x20] ++ e.2 ++ [0x0a]

/-- The text of a list of entries; names of more than 256 bytes do not count. -/
def entriesText : List (FStat × List Byte) → List Byte
  | [] => []
  | e :: l => (if e.2.length ≤ 256 then entryText e else []) ++ entriesText l

/-- What the device has read of a directory and not yet delivered. -/
def leftover (dev : Dev) : List Byte := slice dev.buf dev.pos (dev.len - dev.pos)

/-- The path at address `addr`: up to the zero byte, addresses wrapping; absent if it is empty or longer than 1023. -/
inductive PathAt (mem : Nat → Byte) (addr : Nat) : Option Path → Prop
  | found (l : Path) (h0 : 0 < l.length) (h1 : l.length < 1024)
      (hl : ∀ j (h : j < l.length), l[j] = mem ((addr + j) % 65536) ∧ l[j] ≠ 0)
      (hz : mem ((addr + l.length) % 65536) = 0) : PathAt mem addr (some l)
  | empty (h : mem (addr % 65536) = 0) : PathAt mem addr none
  | long (h : ∀ j, j < 1024 → mem ((addr + j) % 65536) ≠ 0) : PathAt mem addr none

/-! ## Byte arrays -/

theorem slice_length (f : Nat → Byte) (a n : Nat) : (slice f a n).length = n := by simp [slice]

theorem slice_get (f : Nat → Byte) (a n j : Nat) (h : j < n) : (slice f a n).getD j 0 = f (a + j) := by
  simp [slice, h]

theorem writeAt_nil (f : Nat → Byte) (a : Nat) : writeAt f a [] = f := by
  funext i; unfold writeAt; rw [if_neg (by simp)]

theorem writeAt_append (f : Nat → Byte) (a : Nat) (l m : List Byte) :
    writeAt (writeAt f a l) (a + l.length) m = writeAt f a (l ++ m) := by
  funext i
  unfold writeAt
  rw [List.length_append]
  by_cases h1 : a + l.length ≤ i ∧ i < a + l.length + m.length
  · rw [if_pos h1, if_pos (by omega), List.getD_append_right _ _ _ _ (by omega), show i - a - l.length = i - (a + l.length) by omega]
  · rw [if_neg h1]
    by_cases h2 : a ≤ i ∧ i < a + l.length
    · rw [if_pos h2, if_pos (by omega), List.getD_append _ _ _ _ (by omega)]
    · rw [if_neg h2, if_neg (by omega)]

theorem slice_writeAt (f : Nat → Byte) (a : Nat) (l : List Byte) : slice (writeAt f a l) a l.length = l := by
  apply List.ext_getElem
  · rw [slice_length]
  · intro i h1 h2
    simp [slice, writeAt, h2]

theorem slice_split (f : Nat → Byte) (a n m : Nat) : slice f a (n + m) = slice f a n ++ slice f (a + n) m := by
  unfold slice
  rw [List.range_add, List.map_append, List.map_map]
  congr 1
  apply List.map_congr_left
  intro j _
  simp only [Function.comp_apply, Nat.add_assoc]

theorem slice_congr {f g : Nat → Byte} {a n : Nat} (h : ∀ i, a ≤ i → i < a + n → f i = g i) : slice f a n = slice g a n := by
  unfold slice
  apply List.map_congr_left
  intro j hj
  rw [List.mem_range] at hj
  exact h _ (by omega) (by omega)

theorem slice_zero (f : Nat → Byte) (a : Nat) : slice f a 0 = [] := rfl

/-! ## Paths -/

theorem load2_lt (ports : Fin 16 → Byte) (p : Fin 16) : load2 ports p < 65536 := by
  unfold load2
  have := (ports p).isLt
  have := (ports (p + 1)).isLt
  omega

theorem readPathLoop_ok (mem : Nat → Byte) (memSize : Nat) (hm : 65536 ≤ memSize) (fuel addr len : Nat)
    (hf : fuel = 1025 - len) (hlen : len ≤ 1024) :
    ∃ l, readPathLoop mem memSize fuel addr len = .ok l ∧ len + l.length ≤ 1024 ∧
      (∀ j (h : j < l.length), l[j] = mem ((addr + j) % 65536) ∧ l[j] ≠ 0) ∧
      (len + l.length < 1024 → mem ((addr + l.length) % 65536) = 0) := by
  induction fuel generalizing addr len with
  | zero => omega
  | succ fuel ih =>
    unfold readPathLoop
    rw [if_pos (by have := Nat.mod_lt addr (show 0 < 65536 by decide); omega)]
    by_cases h : mem (addr % 65536) ≠ 0 ∧ len < MAX_PATH
    · have hlt : len < 1024 := h.2
      rw [if_pos h, if_pos h.2]
      obtain ⟨l, h1, h2, h3, h4⟩ := ih (addr + 1) (len + 1) (by omega) (by omega)
      rw [h1]
      refine ⟨_, rfl, by rw [List.length_cons]; omega, ?_, ?_⟩
      · intro j hj
        cases j with
        | zero => exact ⟨rfl, h.1⟩
        | succ j =>
          rw [List.getElem_cons_succ]
          have := h3 j (by rw [List.length_cons] at hj; omega)
          rwa [show addr + 1 + j = addr + (j + 1) by omega] at this
      · intro hl
        rw [List.length_cons] at hl ⊢
        have := h4 (by omega)
        rwa [show addr + 1 + l.length = addr + (l.length + 1) by omega] at this
    · rw [if_neg h]
      refine ⟨[], rfl, hlen, fun j hj => absurd hj (by simp), ?_⟩
      intro hl
      simp only [List.length_nil, Nat.add_zero] at hl ⊢
      rw [Decidable.not_and_iff_or_not] at h
      rcases h with h | h
      · exact Decidable.not_not.mp h
      · exact absurd hl h

theorem readPath_ok (ports : Fin 16 → Byte) (mem : Nat → Byte) (memSize : Nat) (hm : 65536 ≤ memSize) :
    ∃ r, readPath ports mem memSize = .ok r ∧ PathAt mem (load2 ports 8) r := by
  obtain ⟨l, h1, h2, h3, h4⟩ := readPathLoop_ok mem memSize hm 1025 (load2 ports 8) 0 rfl (by decide)
  unfold readPath
  rw [show MAX_PATH + 1 = 1025 from rfl, h1]
  simp only [bind, Except.bind, pure, Except.pure]
  by_cases h : l.length ≥ MAX_PATH ∨ l.length = 0
  · rw [if_pos h]
    refine ⟨_, rfl, ?_⟩
    rcases h with h | h
    · have hl : l.length = 1024 := by unfold MAX_PATH at h; omega
      refine .long ?_
      intro j hj
      have := h3 j (by omega)
      rw [← this.1]
      exact this.2
    · refine .empty ?_
      have := h4 (by omega)
      rwa [h, Nat.add_zero] at this
  · rw [if_neg h]
    have hm : MAX_PATH = 1024 := rfl
    exact ⟨_, rfl, .found l (by omega) (by omega) h3 (h4 (by omega))⟩

/-! ## Stat text -/

theorem hexLoop_eq (n size : Nat) (acc : List Byte) :
    hexLoop n size acc = (((List.range n).map fun i => hexDigit (size / 16 ^ (n - 1 - i) % 16)) ++ acc, size / 16 ^ n) := by
  induction n generalizing size acc with
  | zero => simp [hexLoop]
  | succ n ih =>
    unfold hexLoop
    rw [ih]
    have hd : BitVec.ofNat 8 (if 48 + size % 16 > 57 then 48 + size % 16 + 39 else 48 + size % 16) = hexDigit (size % 16) := by
      unfold hexDigit
      congr 1
      split <;> split <;> omega
    refine Prod.ext ?_ ?_
    · dsimp only
      rw [hd, List.range_succ, List.map_append, List.append_assoc]
      congr 1
      · apply List.map_congr_left
        intro i hi
        rw [List.mem_range] at hi
        rw [show n + 1 - 1 - i = (n - 1 - i) + 1 by omega, Nat.pow_succ, Nat.mul_comm, Nat.div_div_eq_div_mul]
      · simp
    · dsimp only
      rw [Nat.pow_succ, Nat.mul_comm, Nat.div_div_eq_div_mul]

/-- **C19.** The text the device produces for a stat is the documented one. -/
theorem C19_stat_text (n : Nat) (st : FStat) : formatStat n st = statText n st := by
  unfold formatStat statText
  cases st.type with
  | invalid => rfl
  | directory => rfl
  | regular =>
    dsimp only
    rw [hexLoop_eq]
    dsimp only
    rw [List.append_nil]
    by_cases h : st.size < 16 ^ n
    · rw [if_pos h, if_neg (by rw [Nat.div_eq_of_lt h]; simp)]
    · rw [if_neg h, if_pos]
      have := Nat.div_pos (Nat.le_of_not_lt h) (Nat.pow_pos (show 0 < 16 by decide))
      omega

theorem statText_length (n : Nat) (st : FStat) : (statText n st).length = n := by
  unfold statText
  cases st.type with
  | invalid => simp
  | directory => simp
  | regular => dsimp only; split <;> simp

/-- A 300-byte file, a 1MB file, a directory, a missing file: `012c`, `????`, `----`, `!!!!`. -/
example : statText 4 ⟨.regular, 300⟩ = [0x30, 0x31, 0x32, 0x63] ∧ statText 4 ⟨.regular, 1000000⟩ = [0x3f, 0x3f, 0x3f, 0x3f] ∧
    statText 4 ⟨.directory, 0⟩ = [0x2d, 0x2d, 0x2d, 0x2d] ∧ statText 2 ⟨.invalid, 5⟩ = [0x21, 0x21] := by decide

/-! ## The loops -/

theorem clamp_le (length addr : Nat) (h : addr < 65536) :
    addr + clampLength length addr ≤ 65536 ∧ clampLength length addr ≤ length ∧ clampLength length addr < 65536 := by
  unfold clampLength
  dsimp only
  split <;> omega

theorem clamp_eq (length addr : Nat) (h0 : 0 < addr) (h : addr < 65536) :
    clampLength length addr = min length (65536 - addr) := by
  unfold clampLength
  dsimp only
  rw [Nat.mod_eq_of_lt (by omega)]
  split <;> omega

theorem store_ok (memSize a : Nat) (l : List Byte) (w : W σ) (h : a + l.length ≤ memSize) :
    store memSize a l w = .ok { w with mem := writeAt w.mem a l } := by
  unfold store; rw [if_pos h]

theorem delivered_append (a b : List Call) : delivered (a ++ b) = delivered a ++ delivered b := by
  induction a with
  | nil => rfl
  | cons c a ih => cases c <;> simp [delivered, ih]
theorem accepted_append (a b : List Call) : accepted (a ++ b) = accepted a ++ accepted b := by
  induction a with
  | nil => rfl
  | cons c a ih => cases c <;> simp [accepted, ih]
theorem entries_append (a b : List Call) : entries (a ++ b) = entries a ++ entries b := by
  induction a with
  | nil => rfl
  | cons c a ih =>
    cases c with
    | readdir h r => cases r <;> simp [entries, ih]
    | _ => simp [entries, ih]
theorem entriesText_append (a b : List (FStat × List Byte)) : entriesText (a ++ b) = entriesText a ++ entriesText b := by
  induction a with
  | nil => rfl
  | cons c a ih => simp [entriesText, ih]

/-- Only `fread` on `file`. -/
def OnlyRead (file : Hnd) (calls : List Call) : Prop := ∀ c ∈ calls, ∃ n d, c = .fread file n d
def OnlyWrite (file : Hnd) (calls : List Call) : Prop := ∀ c ∈ calls, ∃ d n, c = .fwrite file d n
def OnlyReaddir (file : Hnd) (calls : List Call) : Prop := ∀ c ∈ calls, ∃ r, c = .readdir file r

theorem readLoop_ok (H : Host σ) (memSize : Nat) (hm : 65536 ≤ memSize) (file : Hnd) (fuel addr length total : Nat)
    (w : W σ) (hf : length ≤ fuel) (ha : addr + length ≤ 65536) (ht : total + length < 65536) :
    ∃ calls w', readLoop H memSize file fuel addr length total w = .ok (total + (delivered calls).length, w') ∧
      w'.dev = w.dev ∧ w'.log = w.log ++ calls ∧ OnlyRead file calls ∧
      w'.mem = writeAt w.mem addr (delivered calls) ∧ (delivered calls).length ≤ length ∧
      ((delivered calls).length < length → ∃ n, 0 < n ∧ calls.getLast? = some (.fread file n [])) := by
  induction fuel generalizing addr length total w with
  | zero =>
    refine ⟨[], w, ?_, rfl, by simp, fun c hc => absurd hc (by simp), by simp [delivered, writeAt_nil], by simp [delivered], ?_⟩
    · simp [readLoop, delivered]
    · intro h; exact absurd h (by omega)
  | succ fuel ih =>
    unfold readLoop
    by_cases hl : length > 0
    · rw [if_pos hl]
      simp only [bind, Except.bind, pure, Except.pure]
      obtain ⟨data, w1, hc⟩ : ∃ data w1, callFread H file length w = (data, w1) := ⟨_, _, rfl⟩
      have hdl : data.length ≤ length := by
        simp only [callFread, Prod.mk.injEq] at hc
        rw [← hc.1]; simp
      have hw1 : w1.dev = w.dev ∧ w1.mem = w.mem ∧ w1.log = w.log ++ [.fread file length data] := by
        simp only [callFread, Prod.mk.injEq] at hc
        rw [← hc.2, ← hc.1]
        exact ⟨rfl, rfl, rfl⟩
      rw [hc]
      dsimp only
      rw [store_ok _ _ _ _ (by omega)]
      dsimp only
      by_cases hz : data.length = 0
      · rw [if_pos hz]
        have hd : data = [] := List.length_eq_zero_iff.mp hz
        subst hd
        refine ⟨[.fread file length []], { w1 with mem := writeAt w1.mem addr [] }, rfl, hw1.1, hw1.2.2, ?_, ?_, by simp [delivered], ?_⟩
        · intro c hc; rw [List.mem_singleton] at hc; exact ⟨_, _, hc⟩
        · dsimp only; rw [hw1.2.1]; simp [delivered]
        · intro _; exact ⟨length, hl, rfl⟩
      · rw [if_neg hz]
        by_cases hz2 : length - data.length = 0
        · -- everything was delivered at once
          have hall : data.length = length := by omega
          have hstop : readLoop H memSize file fuel ((addr + data.length) % 65536) (length - data.length)
              ((total + data.length) % 65536) { w1 with mem := writeAt w1.mem addr data } =
              .ok ((total + data.length) % 65536, { w1 with mem := writeAt w1.mem addr data }) := by
            rw [hz2]
            cases fuel with
            | zero => rfl
            | succ f => unfold readLoop; rw [if_neg (by omega)]
          rw [hstop]
          refine ⟨[.fread file length data], { w1 with mem := writeAt w1.mem addr data }, ?_, hw1.1, hw1.2.2, ?_, ?_, by simp [delivered, hdl], ?_⟩
          · simp only [delivered, List.append_nil]
            rw [Nat.mod_eq_of_lt (by omega)]
          · intro c hc; rw [List.mem_singleton] at hc; exact ⟨_, _, hc⟩
          · dsimp only; rw [hw1.2.1]; simp [delivered]
          · intro h; simp only [delivered, List.append_nil] at h; omega
        · rw [Nat.mod_eq_of_lt (show addr + data.length < 65536 by omega),
            Nat.mod_eq_of_lt (show total + data.length < 65536 by omega)]
          obtain ⟨calls, w', h1, h2, h3, h4, h5, h6, h7⟩ := ih (addr + data.length) (length - data.length)
            (total + data.length) { w1 with mem := writeAt w1.mem addr data } (by omega) (by omega) (by omega)
          rw [h1]
          refine ⟨.fread file length data :: calls, w', ?_, ?_, ?_, ?_, ?_, ?_, ?_⟩
          · simp only [delivered, List.length_append]; rw [Nat.add_assoc]
          · rw [h2]; exact hw1.1
          · rw [h3]; dsimp only; rw [hw1.2.2, List.append_assoc]; rfl
          · intro c hc
            rcases List.mem_cons.mp hc with rfl | hc
            · exact ⟨_, _, rfl⟩
            · exact h4 c hc
          · rw [h5]; dsimp only; rw [hw1.2.1, writeAt_append]; rfl
          · simp only [delivered, List.length_append]; omega
          · intro h
            simp only [delivered, List.length_append] at h
            obtain ⟨n, hn, hlast⟩ := h7 (by omega)
            refine ⟨n, hn, ?_⟩
            rw [List.getLast?_cons, hlast]; rfl
    · rw [if_neg hl]
      refine ⟨[], w, by simp [delivered], rfl, by simp, fun c hc => absurd hc (by simp), by simp [delivered, writeAt_nil], by simp [delivered], ?_⟩
      intro h; exact absurd h (by omega)

theorem writeLoop_ok (H : Host σ) (memSize : Nat) (hm : 65536 ≤ memSize) (file : Hnd) (fuel addr length total : Nat)
    (w : W σ) (hf : length ≤ fuel) (ha : addr + length ≤ 65536) (ht : total + length < 65536) :
    ∃ calls w', writeLoop H memSize file fuel addr length total w = .ok (total + (accepted calls).length, w') ∧
      w'.dev = w.dev ∧ w'.log = w.log ++ calls ∧ OnlyWrite file calls ∧ w'.mem = w.mem ∧
      (accepted calls).length ≤ length ∧ accepted calls = slice w.mem addr (accepted calls).length ∧
      ((accepted calls).length < length → ∃ d, d ≠ [] ∧ calls.getLast? = some (.fwrite file d 0)) := by
  induction fuel generalizing addr length total w with
  | zero =>
    refine ⟨[], w, ?_, rfl, by simp, fun c hc => absurd hc (by simp), rfl, by simp [accepted], rfl, ?_⟩
    · simp [writeLoop, accepted]
    · intro h; exact absurd h (by omega)
  | succ fuel ih =>
    unfold writeLoop
    by_cases hl : length > 0
    · rw [if_pos hl, if_pos (by omega)]
      obtain ⟨n, w1, hc⟩ : ∃ n w1, callFwrite H file (slice w.mem addr length) w = (n, w1) := ⟨_, _, rfl⟩
      have hnl : n ≤ length := by
        simp only [callFwrite, Prod.mk.injEq] at hc
        rw [← hc.1, slice_length]; omega
      have hw1 : w1.dev = w.dev ∧ w1.mem = w.mem ∧ w1.log = w.log ++ [.fwrite file (slice w.mem addr length) n] := by
        simp only [callFwrite, Prod.mk.injEq] at hc
        rw [← hc.2, ← hc.1]
        exact ⟨rfl, rfl, rfl⟩
      have htake : (slice w.mem addr length).take n = slice w.mem addr n := by
        conv_lhs => rw [show length = n + (length - n) by omega, slice_split]
        rw [List.take_append_of_le_length (by rw [slice_length])]
        rw [List.take_of_length_le (by rw [slice_length])]
      rw [hc]
      dsimp only
      by_cases hz : n = 0
      · rw [if_pos hz]
        subst hz
        refine ⟨[.fwrite file (slice w.mem addr length) 0], _, by simp [accepted], hw1.1, hw1.2.2, ?_, hw1.2.1,
          by simp [accepted], by simp [accepted, slice], ?_⟩
        · intro c hc; rw [List.mem_singleton] at hc; exact ⟨_, _, hc⟩
        · intro _
          refine ⟨slice w.mem addr length, ?_, rfl⟩
          intro h
          have := slice_length w.mem addr length
          rw [h] at this
          simp at this
          omega
      · rw [if_neg hz]
        by_cases hz2 : length - n = 0
        · have hall : n = length := by omega
          have hstop : writeLoop H memSize file fuel ((addr + n) % 65536) (length - n) ((total + n) % 65536) w1 =
              .ok ((total + n) % 65536, w1) := by
            rw [hz2]
            cases fuel with
            | zero => rfl
            | succ f => unfold writeLoop; rw [if_neg (by omega)]
          rw [hstop]
          have hacc : accepted [.fwrite file (slice w.mem addr length) n] = slice w.mem addr n := by
            simp only [accepted, List.append_nil]; exact htake
          refine ⟨[.fwrite file (slice w.mem addr length) n], _, ?_, hw1.1, hw1.2.2, ?_, hw1.2.1, ?_, ?_, ?_⟩
          · rw [hacc, slice_length, Nat.mod_eq_of_lt (by omega)]
          · intro c hc; rw [List.mem_singleton] at hc; exact ⟨_, _, hc⟩
          · rw [hacc, slice_length]; exact hnl
          · rw [hacc, slice_length]
          · rw [hacc, slice_length]; intro h; omega
        · rw [Nat.mod_eq_of_lt (show addr + n < 65536 by omega), Nat.mod_eq_of_lt (show total + n < 65536 by omega)]
          obtain ⟨calls, w', h1, h2, h3, h4, h5, h6, h7, h8⟩ := ih (addr + n) (length - n) (total + n) w1 (by omega)
            (by omega) (by omega)
          rw [h1]
          have hacc : accepted (.fwrite file (slice w.mem addr length) n :: calls) = slice w.mem addr n ++ accepted calls := by
            simp only [accepted]; rw [htake]
          have hlen : (accepted (.fwrite file (slice w.mem addr length) n :: calls)).length = n + (accepted calls).length := by
            rw [hacc, List.length_append, slice_length]
          refine ⟨.fwrite file (slice w.mem addr length) n :: calls, w', ?_, ?_, ?_, ?_, ?_, ?_, ?_, ?_⟩
          · rw [hlen, Nat.add_assoc]
          · rw [h2]; exact hw1.1
          · rw [h3, hw1.2.2, List.append_assoc]; rfl
          · intro c hc
            rcases List.mem_cons.mp hc with rfl | hc
            · exact ⟨_, _, rfl⟩
            · exact h4 c hc
          · rw [h5, hw1.2.1]
          · rw [hlen]; omega
          · rw [hlen, slice_split, hacc]
            congr 1
            rw [hw1.2.1] at h7
            exact h7
          · rw [hlen]
            intro h
            obtain ⟨d, hd, hlast⟩ := h8 (by omega)
            refine ⟨d, hd, ?_⟩
            rw [List.getLast?_cons, hlast]; rfl
    · rw [if_neg hl]
      refine ⟨[], w, by simp [accepted], rfl, by simp, fun c hc => absurd hc (by simp), rfl, by simp [accepted], rfl, ?_⟩
      intro h; exact absurd h (by omega)

/-- The directory buffer is used within its bounds. -/
structure BufOk (dev : Dev) : Prop where
  le : dev.pos ≤ dev.len
  len : dev.len ≤ 262

/-- What a directory read leaves alone. -/
def SameDir (d d' : Dev) : Prop := d'.handle = d.handle ∧ d'.mode = d.mode ∧ d'.stat = d.stat ∧ d'.success = d.success

theorem entryText_length (e : FStat × List Byte) : (entryText e).length = 6 + e.2.length := by
  unfold entryText
  simp only [List.length_append, statText_length, List.length_singleton]
  omega

theorem refill_ok (H : Host σ) (file : Hnd) (w : W σ) :
    ∃ go w' call, refill H file w = .ok (go, w') ∧ w'.mem = w.mem ∧ w'.log = w.log ++ [.readdir file call] ∧
      BufOk w'.dev ∧ SameDir w.dev w'.dev ∧ leftover w'.dev = entriesText (entries [.readdir file call]) ∧
      (go = true → leftover w'.dev ≠ [] ∧ w'.dev.pos = 0) ∧
      (go = false → leftover w'.dev = [] ∧ (call = none ∨ ∃ e, call = some e ∧ 256 < e.2.length)) := by
  unfold refill
  dsimp only
  obtain ⟨r, s, hr⟩ : ∃ r s, H.readdir file w.host = (r, s) := ⟨_, _, rfl⟩
  simp only [callReaddir, hr]
  cases r with
  | none =>
    refine ⟨_, _, none, rfl, rfl, rfl, ⟨Nat.le_refl _, Nat.zero_le _⟩, ⟨rfl, rfl, rfl, rfl⟩, ?_, fun h => absurd h (by decide), fun _ => ⟨?_, .inl rfl⟩⟩
    · rfl
    · rfl
  | some e =>
    obtain ⟨st, name⟩ := e
    dsimp only
    by_cases h : 4 + name.length + 2 > DIR_BUF
    · rw [if_pos h]
      have hlong : 256 < name.length := by unfold DIR_BUF at h; omega
      refine ⟨_, _, some (st, name), rfl, rfl, rfl, ⟨Nat.le_refl _, Nat.zero_le _⟩, ⟨rfl, rfl, rfl, rfl⟩, ?_,
        fun h => absurd h (by decide), fun _ => ⟨rfl, .inr ⟨_, rfl, hlong⟩⟩⟩
      simp only [entries, entriesText]
      rw [if_neg (by omega)]
      rfl
    · rw [if_neg h]
      have hshort : name.length ≤ 256 := by unfold DIR_BUF at h; omega
      have htl : ([0x20] ++ name ++ [0x0a] : List Byte).length = name.length + 2 := by simp
      have hdb : DIR_BUF = 262 := rfl
      rw [if_pos (by rw [htl]; omega)]
      have hleft : leftover { (w.dev) with
          pos := 0
          buf := writeAt (writeAt w.dev.buf 0 (formatStat 4 st)) 4 ([0x20] ++ name ++ [0x0a])
          len := (4 + ([0x20] ++ name ++ [0x0a] : List Byte).length) % 65536 } = entryText (st, name) := by
        unfold leftover
        dsimp only
        have h4 : (formatStat 4 st).length = 4 := by rw [C19_stat_text, statText_length]
        have hw := writeAt_append w.dev.buf 0 (formatStat 4 st) ([0x20] ++ name ++ [0x0a])
        rw [h4, Nat.zero_add] at hw
        rw [hw, htl, Nat.mod_eq_of_lt (by omega), Nat.sub_zero]
        have hl : 4 + (name.length + 2) = (formatStat 4 st ++ ([0x20] ++ name ++ [0x0a])).length := by
          rw [List.length_append, h4, htl]
        rw [hl, slice_writeAt, C19_stat_text]
        unfold entryText
        simp only [List.append_assoc]
      refine ⟨_, _, some (st, name), rfl, rfl, rfl, ⟨Nat.zero_le _, ?_⟩, ⟨rfl, rfl, rfl, rfl⟩, ?_, fun _ => ⟨?_, rfl⟩,
        fun h => absurd h (by decide)⟩
      · dsimp only
        rw [htl, Nat.mod_eq_of_lt (by omega)]
        omega
      · refine Eq.trans hleft ?_
        simp only [entries, entriesText]
        rw [if_pos hshort, List.append_nil]
      · intro hnil
        have h1 := congrArg List.length (hleft.symm.trans hnil)
        rw [entryText_length] at h1
        simp at h1

theorem dirLoop_ok (H : Host σ) (memSize : Nat) (hm : 65536 ≤ memSize) (file : Hnd) (fuel addr length total : Nat)
    (w : W σ) (hb : BufOk w.dev) (hf : length ≤ fuel) (ha : addr + length ≤ 65536) (ht : total + length < 65536) :
    ∃ data calls w', dirLoop H memSize file fuel addr length total w = .ok (total + data.length, w') ∧
      BufOk w'.dev ∧ SameDir w.dev w'.dev ∧ w'.log = w.log ++ calls ∧ OnlyReaddir file calls ∧
      w'.mem = writeAt w.mem addr data ∧ data.length ≤ length ∧
      leftover w.dev ++ entriesText (entries calls) = data ++ leftover w'.dev ∧
      (data.length < length → calls.getLast? = some (.readdir file none) ∨
        ∃ e, calls.getLast? = some (.readdir file (some e)) ∧ 256 < e.2.length) := by
  induction fuel generalizing addr length total w with
  | zero =>
    refine ⟨[], [], w, by simp [dirLoop], hb, ⟨rfl, rfl, rfl, rfl⟩, by simp, fun c hc => absurd hc (by simp),
      by rw [writeAt_nil], by simp, by simp [entries, entriesText], ?_⟩
    intro h; simp only [List.length_nil] at h; omega
  | succ fuel ih =>
    unfold dirLoop
    by_cases hl : length > 0
    · rw [if_pos hl]
      simp only [bind, Except.bind, pure, Except.pure]
      -- the buffer after the possible refill
      obtain ⟨go, w1, calls1, hr, hmem1, hlog1, honly1, hb1, hs1, hleft1, hgo1, hstop1⟩ : ∃ go w1 calls1,
          (if w.dev.pos ≥ w.dev.len then refill H file w else .ok (true, w)) = .ok (go, w1) ∧ w1.mem = w.mem ∧
          w1.log = w.log ++ calls1 ∧ OnlyReaddir file calls1 ∧ BufOk w1.dev ∧ SameDir w.dev w1.dev ∧
          leftover w1.dev = leftover w.dev ++ entriesText (entries calls1) ∧
          (go = true → w1.dev.pos < w1.dev.len) ∧
          (go = false → leftover w1.dev = [] ∧ (calls1.getLast? = some (.readdir file none) ∨
            ∃ e, calls1.getLast? = some (.readdir file (some e)) ∧ 256 < e.2.length)) := by
        by_cases hp : w.dev.pos ≥ w.dev.len
        · rw [if_pos hp]
          obtain ⟨go, w1, call, h1, h2, h3, h4, h5, h6, h7, h8⟩ := refill_ok H file w
          have hempty : leftover w.dev = [] := by
            unfold leftover
            rw [Nat.sub_eq_zero_of_le hp]; rfl
          refine ⟨go, w1, [.readdir file call], h1, h2, h3, ?_, h4, h5, by rw [hempty, h6]; rfl, ?_, ?_⟩
          · intro c hc; rw [List.mem_singleton] at hc; exact ⟨_, hc⟩
          · intro hg
            obtain ⟨hne, hpos⟩ := h7 hg
            rcases Nat.lt_or_ge w1.dev.pos w1.dev.len with hlt | hge
            · exact hlt
            · exfalso
              apply hne
              unfold leftover
              rw [Nat.sub_eq_zero_of_le hge]; rfl
          · intro hg
            obtain ⟨ha, hc⟩ := h8 hg
            refine ⟨ha, ?_⟩
            rcases hc with rfl | ⟨e, rfl, he⟩
            · exact .inl rfl
            · exact .inr ⟨e, rfl, he⟩
        · rw [if_neg hp]
          refine ⟨true, w, [], rfl, rfl, by simp, fun c hc => absurd hc (by simp), hb, ⟨rfl, rfl, rfl, rfl⟩,
            by simp [entries, entriesText], fun _ => by omega, fun h => absurd h (by decide)⟩
      rw [hr]
      dsimp only
      cases go with
      | false =>
        rw [if_neg (by decide)]
        obtain ⟨hl0, hwhy⟩ := hstop1 rfl
        refine ⟨[], calls1, w1, by simp, hb1, hs1, hlog1, honly1, by rw [writeAt_nil, hmem1], by simp, ?_, fun _ => hwhy⟩
        rw [← hleft1]; rfl
      | true =>
        rw [if_pos rfl]
        have hlt := hgo1 rfl
        have hble := hb1.len
        have hav : (w1.dev.len + 65536 - w1.dev.pos) % 65536 = w1.dev.len - w1.dev.pos := by omega
        rw [hav]
        obtain ⟨n, hn⟩ : ∃ n, n = if length < w1.dev.len - w1.dev.pos then length else w1.dev.len - w1.dev.pos := ⟨_, rfl⟩
        rw [← hn]
        have hn1 : 0 < n := by split at hn <;> omega
        have hn2 : n ≤ length := by split at hn <;> omega
        have hn3 : w1.dev.pos + n ≤ w1.dev.len := by split at hn <;> omega
        have hdb : DIR_BUF = 262 := rfl
        rw [if_pos (by omega), store_ok _ _ _ _ (by rw [slice_length]; omega)]
        dsimp only
        have hposm : (w1.dev.pos + n) % 65536 = w1.dev.pos + n := Nat.mod_eq_of_lt (by omega)
        rw [hposm]
        have hsplit : leftover w1.dev = slice w1.dev.buf w1.dev.pos n ++
            slice w1.dev.buf (w1.dev.pos + n) (w1.dev.len - (w1.dev.pos + n)) := by
          unfold leftover
          rw [← slice_split]
          congr 1
          omega
        by_cases hz : length - n = 0
        · have hstop : ∀ x, dirLoop H memSize file fuel ((addr + n) % 65536) (length - n) ((total + n) % 65536) x =
              .ok ((total + n) % 65536, x) := by
            intro x
            rw [hz]
            cases fuel with
            | zero => rfl
            | succ f => unfold dirLoop; rw [if_neg (by omega)]
          rw [hstop]
          refine ⟨slice w1.dev.buf w1.dev.pos n, calls1,
            { w1 with mem := writeAt w1.mem addr (slice w1.dev.buf w1.dev.pos n), dev := { w1.dev with pos := w1.dev.pos + n } }, ?_, ⟨?_, hb1.len⟩, hs1, hlog1, honly1, ?_, ?_, ?_, ?_⟩
          · rw [slice_length, Nat.mod_eq_of_lt (by omega)]
          · exact hn3
          · dsimp only; rw [hmem1]
          · rw [slice_length]; exact hn2
          · rw [← hleft1, hsplit]; rfl
          · rw [slice_length]; intro h; omega
        · rw [Nat.mod_eq_of_lt (show addr + n < 65536 by omega), Nat.mod_eq_of_lt (show total + n < 65536 by omega)]
          obtain ⟨data, calls, w', h1, h2, h3, h4, h5, h6, h7, h8, h9⟩ := ih (addr + n) (length - n) (total + n)
            { w1 with mem := writeAt w1.mem addr (slice w1.dev.buf w1.dev.pos n), dev := { w1.dev with pos := w1.dev.pos + n } }
            ⟨hn3, hb1.len⟩ (by omega) (by omega) (by omega)
          rw [h1]
          refine ⟨slice w1.dev.buf w1.dev.pos n ++ data, calls1 ++ calls, w', ?_, h2, ?_, ?_, ?_, ?_, ?_, ?_, ?_⟩
          · rw [List.length_append, slice_length, Nat.add_assoc]
          · obtain ⟨a1, a2, a3, a4⟩ := h3
            obtain ⟨b1, b2, b3, b4⟩ := hs1
            exact ⟨a1.trans b1, a2.trans b2, a3.trans b3, a4.trans b4⟩
          · rw [h4]; dsimp only; rw [hlog1, List.append_assoc]
          · intro c hc
            rcases List.mem_append.mp hc with hc | hc
            · exact honly1 c hc
            · exact h5 c hc
          · rw [h6]
            dsimp only
            have := writeAt_append w1.mem addr (slice w1.dev.buf w1.dev.pos n) data
            rw [slice_length] at this
            rw [this, hmem1]
          · rw [List.length_append, slice_length]; omega
          · rw [entries_append, entriesText_append, ← List.append_assoc, ← hleft1, hsplit, List.append_assoc,
              List.append_assoc]
            congr 1
          · intro h
            rw [List.length_append, slice_length] at h
            rcases h9 (by omega) with h9 | ⟨e, h9, he⟩
            · left; rw [List.getLast?_append, h9]; rfl
            · right; refine ⟨e, ?_, he⟩; rw [List.getLast?_append, h9]; rfl
    · rw [if_neg hl]
      refine ⟨[], [], w, by simp, hb, ⟨rfl, rfl, rfl, rfl⟩, by simp, fun c hc => absurd hc (by simp),
        by rw [writeAt_nil], by simp, by simp [entries, entriesText], ?_⟩
      intro h; simp only [List.length_nil] at h; omega

end Buxn.File
