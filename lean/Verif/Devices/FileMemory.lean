import Verif.VM.Memory
import Verif.Devices.FileOps
/-!
# The file device and the memory behind the first 64K (C89)

The file device addresses the first 64K only: cutting the memory behind it changes nothing.
-/
namespace Buxn.File
open Buxn.VM
variable {σ : Type} {M N : Nat}

/-- The first `M` bytes of a memory. -/
def cutMem (M : Nat) (f : Nat → Byte) : Nat → Byte := fun i => if i < M then f i else 0

def W.cut (M : Nat) (w : W σ) : W σ := { w with mem := cutMem M w.mem }

theorem cut_writeAt (f : Nat → Byte) (a : Nat) (l : List Byte) (h : a + l.length ≤ M) : writeAt (cutMem M f) a l = cutMem M (writeAt f a l) := by
  funext i
  unfold writeAt cutMem
  dsimp only
  by_cases h1 : a ≤ i ∧ i < a + l.length
  · rw [if_pos h1, if_pos (by omega), if_pos h1]
  · rw [if_neg h1, if_neg h1]

theorem cut_slice (f : Nat → Byte) (a n : Nat) (h : a + n ≤ M) : slice (cutMem M f) a n = slice f a n := by
  unfold slice
  refine List.map_congr_left fun j hj => ?_
  have := List.mem_range.1 hj
  exact if_pos (by omega)

theorem store_cut (hMN : M ≤ N) (a : Nat) (l : List Byte) (w : W σ) (h : a + l.length ≤ M) : store M a l (w.cut M) = (store N a l w).map (W.cut M) := by
  unfold store
  rw [if_pos h, if_pos (by omega)]
  show Except.ok _ = Except.ok _
  unfold W.cut
  dsimp only
  rw [cut_writeAt _ _ _ h]

theorem readPathLoop_cut (hM : 65536 ≤ M) (hMN : M ≤ N) (mem : Nat → Byte) (fuel addr len : Nat) : readPathLoop (cutMem M mem) M fuel addr len = readPathLoop mem N fuel addr len := by
  induction fuel generalizing addr len with
  | zero => rfl
  | succ fuel ih =>
    have h1 : addr % 65536 < M := by omega
    unfold readPathLoop
    rw [if_pos h1, if_pos (show addr % 65536 < N by omega), show cutMem M mem (addr % 65536) = mem (addr % 65536) from if_pos h1, ih]

theorem readPath_cut (hM : 65536 ≤ M) (hMN : M ≤ N) (ports : Fin 16 → Byte) (mem : Nat → Byte) : readPath ports (cutMem M mem) M = readPath ports mem N := by
  unfold readPath
  rw [readPathLoop_cut hM hMN]

theorem closeForMode_cut (H : Host σ) (mode : Mode) (w : W σ) : closeForMode H mode (w.cut M) = (closeForMode H mode w).cut M := by
  unfold closeForMode
  rw [show (w.cut M).dev = w.dev from rfl]
  cases w.dev.handle with
  | none => rfl
  | some h =>
    dsimp only
    split
    · split
      · rfl
      · split
        · rfl
        · split <;> rfl
    · rfl

theorem openForMode_cut (hM : 65536 ≤ M) (hMN : M ≤ N) (H : Host σ) (ports : Fin 16 → Byte) (mode : Mode) (w : W σ) :
    openForMode H M ports mode (w.cut M) = (openForMode H N ports mode w).map (W.cut M) := by
  unfold openForMode
  rw [show (w.cut M).dev = w.dev from rfl, show (w.cut M).mem = cutMem M w.mem from rfl, readPath_cut hM hMN]
  cases w.dev.handle with
  | some h => rfl
  | none =>
    dsimp only
    cases readPath ports w.mem N with
    | error u => rfl
    | ok x =>
      cases x with
      | none => rfl
      | some path =>
        simp only [bind, Except.bind, pure, Except.pure, callStat, callFopen, callOpendir]
        show Except.ok _ = Except.ok _
        congr 1
        simp only [W.cut]
        cases (H.stat path w.host).1.type with
        | regular => rfl
        | directory => rfl
        | invalid =>
          dsimp only
          split <;> rfl

theorem setMode_cut (hM : 65536 ≤ M) (hMN : M ≤ N) (H : Host σ) (ports : Fin 16 → Byte) (mode : Mode) (w : W σ) :
    setMode H M ports mode (w.cut M) = (setMode H N ports mode w).map (W.cut M) := by
  unfold setMode
  rw [closeForMode_cut, openForMode_cut hM hMN]

theorem refill_cut (H : Host σ) (file : Hnd) (w : W σ) : refill H file (w.cut M) = (refill H file w).map fun x => (x.1, x.2.cut M) := by
  unfold refill
  dsimp only
  rw [show callReaddir H file { w.cut M with dev := { (w.cut M).dev with pos := 0, len := 0 } } =
    ((callReaddir H file { w with dev := { w.dev with pos := 0, len := 0 } }).1, (callReaddir H file { w with dev := { w.dev with pos := 0, len := 0 } }).2.cut M) from rfl]
  generalize callReaddir H file { w with dev := { w.dev with pos := 0, len := 0 } } = q
  obtain ⟨r, w1⟩ := q
  cases r with
  | none => rfl
  | some x =>
    dsimp only
    split
    · rfl
    · split <;> rfl

/-- The bytes that are left are in the first 64K. -/
def Left (addr length : Nat) : Prop := length = 0 ∨ addr + length ≤ 65536

theorem Left.next {addr length n : Nat} (h : Left addr length) (hn : n ≤ length) : Left ((addr + n) % 65536) (length - n) := by
  rcases h with h | h
  · left; omega
  · by_cases e : n = length
    · left; omega
    · right
      rw [Nat.mod_eq_of_lt (by omega)]
      omega

theorem dirLoop_cut (hM : 65536 ≤ M) (hMN : M ≤ N) (H : Host σ) (file : Hnd) (fuel addr length total : Nat) (w : W σ) (hl : Left addr length) :
    dirLoop H M file fuel addr length total (w.cut M) = (dirLoop H N file fuel addr length total w).map fun x => (x.1, x.2.cut M) := by
  induction fuel generalizing addr length total w with
  | zero => rfl
  | succ fuel ih =>
    unfold dirLoop
    by_cases h0 : length > 0
    · rw [if_pos h0, if_pos h0]
      have hr : (if (w.cut M).dev.pos ≥ (w.cut M).dev.len then refill H file (w.cut M) else .ok (true, w.cut M)) =
          ((if w.dev.pos ≥ w.dev.len then refill H file w else .ok (true, w)).map fun x => (x.1, x.2.cut M) : Res (Bool × W σ)) := by
        rw [show (w.cut M).dev = w.dev from rfl]
        split
        · exact refill_cut H file w
        · rfl
      rw [hr]
      refine map_bind ?_
      rintro ⟨go, w1⟩ -
      cases go with
      | false => rfl
      | true =>
        dsimp only
        rw [show (w1.cut M).dev = w1.dev from rfl]
        generalize hn : (if length < (w1.dev.len + 65536 - w1.dev.pos) % 65536 then length else (w1.dev.len + 65536 - w1.dev.pos) % 65536) = n
        have hle : n ≤ length := by rw [← hn]; split <;> omega
        rw [if_pos rfl, if_pos rfl]
        by_cases hd : w1.dev.pos + n ≤ DIR_BUF
        · rw [if_pos hd, if_pos hd, store_cut hMN]
          · refine map_bind ?_
            intro w2 _
            exact ih _ _ _ { w2 with dev := { w2.dev with pos := (w2.dev.pos + n) % 65536 } } (hl.next hle)
          · have : (slice w1.dev.buf w1.dev.pos n).length = n := by simp [slice]
            rw [this]
            rcases hl with h | h <;> omega
        · rw [if_neg hd, if_neg hd]; rfl
    · rw [if_neg h0, if_neg h0]; rfl

theorem readLoop_cut (hM : 65536 ≤ M) (hMN : M ≤ N) (H : Host σ) (file : Hnd) (fuel addr length total : Nat) (w : W σ) (hl : Left addr length) :
    readLoop H M file fuel addr length total (w.cut M) = (readLoop H N file fuel addr length total w).map fun x => (x.1, x.2.cut M) := by
  induction fuel generalizing addr length total w with
  | zero => rfl
  | succ fuel ih =>
    unfold readLoop
    by_cases h0 : length > 0
    · rw [if_pos h0, if_pos h0]
      rw [show callFread H file length (w.cut M) = ((callFread H file length w).1, (callFread H file length w).2.cut M) from rfl]
      rcases hf : callFread H file length w with ⟨data, w1⟩
      have hle : data.length ≤ length := by
        have : data = (H.fread file length w.host).1.take length := (congrArg Prod.fst hf).symm
        rw [this, List.length_take]; omega
      dsimp only
      rw [store_cut hMN _ _ _ (by rcases hl with h | h <;> omega)]
      refine map_bind ?_
      intro w2 _
      split
      · rfl
      · exact ih _ _ _ _ (hl.next hle)
    · rw [if_neg h0, if_neg h0]; rfl

theorem writeLoop_cut (hM : 65536 ≤ M) (hMN : M ≤ N) (H : Host σ) (file : Hnd) (fuel addr length total : Nat) (w : W σ) (hl : Left addr length) :
    writeLoop H M file fuel addr length total (w.cut M) = (writeLoop H N file fuel addr length total w).map fun x => (x.1, x.2.cut M) := by
  induction fuel generalizing addr length total w with
  | zero => rfl
  | succ fuel ih =>
    unfold writeLoop
    by_cases h0 : length > 0
    · have h1 : addr + length ≤ M := by rcases hl with h | h <;> omega
      rw [if_pos h0, if_pos h0, if_pos h1, if_pos (show addr + length ≤ N by omega)]
      rw [show (w.cut M).mem = cutMem M w.mem from rfl, cut_slice _ _ _ h1]
      rw [show callFwrite H file (slice w.mem addr length) (w.cut M) =
        ((callFwrite H file (slice w.mem addr length) w).1, (callFwrite H file (slice w.mem addr length) w).2.cut M) from rfl]
      rcases hf : callFwrite H file (slice w.mem addr length) w with ⟨n, w1⟩
      have hle : n ≤ length := by
        have : n = min _ (slice w.mem addr length).length := (congrArg Prod.fst hf).symm
        rw [this]
        have : (slice w.mem addr length).length = length := by simp [slice]
        omega
      dsimp only
      split
      · rfl
      · exact ih _ _ _ _ (hl.next hle)
    · rw [if_neg h0, if_neg h0]; rfl

theorem load2_lt' (ports : Fin 16 → Byte) (p : Fin 16) : load2 ports p < 65536 := by
  have := (ports p).isLt
  have := (ports (p + 1)).isLt
  unfold load2; omega

theorem left_clamp (ports : Fin 16 → Byte) (p : Fin 16) : Left (load2 ports p) (clampLength (load2 ports 10) (load2 ports p)) := by
  have := load2_lt' ports p
  unfold Left clampLength
  dsimp only
  split <;> omega

theorem formatStat_len (n : Nat) (st : FStat) : (formatStat n st).length = n := by
  have hx : ∀ (n size : Nat) (acc : List Byte), (hexLoop n size acc).1.length = n + acc.length := by
    intro n
    induction n with
    | zero => intro size acc; simp [hexLoop]
    | succ n ih => intro size acc; unfold hexLoop; dsimp only; rw [ih]; simp; omega
  unfold formatStat
  split
  · simp
  · dsimp only
    split
    · simp
    · rw [hx]; simp
  · simp

theorem opStat_cut (hM : 65536 ≤ M) (hMN : M ≤ N) (H : Host σ) (ports : Fin 16 → Byte) (w : W σ) :
    opStat H M ports (w.cut M) = (opStat H N ports w).map (W.cut M) := by
  have hl := left_clamp ports 4
  have hp := load2_lt' ports 4
  have hs : ∀ (st : FStat) (w : W σ), store M (load2 ports 4) (formatStat (clampLength (load2 ports 10) (load2 ports 4)) st) (w.cut M) =
      (store N (load2 ports 4) (formatStat (clampLength (load2 ports 10) (load2 ports 4)) st) w).map (W.cut M) := by
    intro st w
    refine store_cut hMN _ _ _ ?_
    rw [formatStat_len]
    rcases hl with h | h <;> omega
  unfold opStat
  dsimp only
  rw [show (w.cut M).dev = w.dev from rfl, show (w.cut M).mem = cutMem M w.mem from rfl, readPath_cut hM hMN]
  cases w.dev.handle with
  | some h =>
    dsimp only
    rw [hs]
    exact map_bind fun _ _ => rfl
  | none =>
    dsimp only
    cases readPath ports w.mem N with
    | error u => rfl
    | ok x =>
      cases x with
      | none => rfl
      | some path =>
        show (store M _ _ ((callStat H path w).2.cut M) >>= _) = _
        rw [hs]
        exact map_bind fun _ _ => rfl

theorem opDelete_cut (hM : 65536 ≤ M) (hMN : M ≤ N) (H : Host σ) (ports : Fin 16 → Byte) (w : W σ) :
    opDelete H M ports (w.cut M) = (opDelete H N ports w).map (W.cut M) := by
  unfold opDelete
  rw [show (w.cut M).mem = cutMem M w.mem from rfl, readPath_cut hM hMN]
  cases readPath ports w.mem N with
  | error u => rfl
  | ok x => cases x <;> rfl

theorem opName_cut (H : Host σ) (w : W σ) : opName H (w.cut M) = (opName H w).cut M := by
  unfold opName
  rw [show (w.cut M).dev = w.dev from rfl]
  cases w.dev.handle with
  | none => rfl
  | some h => dsimp only; cases w.dev.stat.type <;> rfl

theorem opRead_cut (hM : 65536 ≤ M) (hMN : M ≤ N) (H : Host σ) (ports : Fin 16 → Byte) (w : W σ) :
    opRead H M ports (w.cut M) = (opRead H N ports w).map (W.cut M) := by
  unfold opRead
  rw [setMode_cut hM hMN]
  refine map_bind ?_
  intro w1 _
  dsimp only
  rw [show (w1.cut M).dev = w1.dev from rfl]
  cases w1.dev.handle with
  | none => rfl
  | some file =>
    dsimp only
    cases w1.dev.stat.type with
    | directory =>
      dsimp only
      rw [dirLoop_cut hM hMN _ _ _ _ _ _ _ (left_clamp ports 12)]
      exact map_bind fun _ _ => rfl
    | regular =>
      dsimp only
      rw [readLoop_cut hM hMN _ _ _ _ _ _ _ (left_clamp ports 12)]
      exact map_bind fun _ _ => rfl
    | invalid => rfl

theorem opWrite_cut (hM : 65536 ≤ M) (hMN : M ≤ N) (H : Host σ) (ports : Fin 16 → Byte) (w : W σ) :
    opWrite H M ports (w.cut M) = (opWrite H N ports w).map (W.cut M) := by
  unfold opWrite
  dsimp only
  rw [setMode_cut hM hMN]
  refine map_bind ?_
  intro w1 _
  rw [show (w1.cut M).dev = w1.dev from rfl]
  cases w1.dev.handle with
  | none => rfl
  | some file =>
    dsimp only
    split
    · rw [writeLoop_cut hM hMN _ _ _ _ _ _ _ (left_clamp ports 14)]
      exact map_bind fun _ _ => rfl
    · rfl

/-- Writes to the file device do not depend on the memory behind the first 64K, and leave it alone. -/
theorem deo_cut (hM : 65536 ≤ M) (hMN : M ≤ N) (H : Host σ) (ports : Fin 16 → Byte) (port : Fin 16) (w : W σ) :
    deo H M ports port (w.cut M) = (deo H N ports port w).map (W.cut M) := by
  unfold deo
  split
  · exact opStat_cut hM hMN H ports w
  split
  · exact opDelete_cut hM hMN H ports w
  split
  · rw [opName_cut]; rfl
  split
  · exact opRead_cut hM hMN H ports w
  split
  · exact opWrite_cut hM hMN H ports w
  · rfl

end Buxn.File
