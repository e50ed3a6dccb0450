import Verif.VM.Unread
import Verif.Devices.FileMemory
/-!
# How the file device uses the memory (C94)

It looks at the name of the file and, when a file is written, at the bytes to write; and it fills as many bytes as it says afterwards when a file is read.
-/
namespace Buxn.File
open Buxn.VM
variable {σ : Type} {N : Nat} {U : Nat → Bool} {f : Nat → Byte}

/-! ## Specification -/

/-- The `n` cells from `a` on. -/
def span (a n : Nat) : Nat → Bool := fun i => decide (a ≤ i ∧ i < a + n)

/-- A cell of the name of the file: from the address at port 8 to the zero, at most 1024 bytes. -/
def InName (ports : Fin 16 → Byte) (mem : Nat → Byte) (i : Nat) : Prop :=
  ∃ j, j ≤ MAX_PATH ∧ i = (load2 ports 8 + j) % 65536 ∧ ∀ k, k < j → mem ((load2 ports 8 + k) % 65536) ≠ 0

/-- The cells that a write to a port makes the device look at. -/
def looks (ports : Fin 16 → Byte) (port : Fin 16) (mem : Nat → Byte) (i : Nat) : Prop :=
  (port = 5 ∨ port = 6 ∨ port = 13 ∨ port = 15) ∧ InName ports mem i ∨
  port = 15 ∧ span (load2 ports 14) (clampLength (load2 ports 10) (load2 ports 14)) i = true

/-- The cells that it fills, if `success` is what it reports afterwards at port 2. -/
def filled (ports : Fin 16 → Byte) (port : Fin 16) (success : Nat) (i : Nat) : Bool :=
  decide (port = 5) && span (load2 ports 4) success i || decide (port = 13) && span (load2 ports 12) success i

/-! ## The memory -/

def patchMem (U : Nat → Bool) (f mem : Nat → Byte) : Nat → Byte := fun i => if U i then f i else mem i

def W.patch (U : Nat → Bool) (f : Nat → Byte) (w : W σ) : W σ := { w with mem := patchMem U f w.mem }

theorem span_zero (a : Nat) : span a 0 = fun _ => false := by
  funext i
  unfold span
  exact decide_eq_false (by omega)

theorem store_patch (a : Nat) (l : List Byte) (w : W σ) : store N a l (w.patch U f) = (store N a l w).map (W.patch (without U (span a l.length)) f) := by
  unfold store
  split
  · show Except.ok _ = Except.ok _
    unfold W.patch
    dsimp only
    congr 2
    funext i
    unfold writeAt patchMem without span
    by_cases h : a ≤ i ∧ i < a + l.length
    · rw [if_pos h, decide_eq_true h, Bool.not_true, Bool.and_false, if_neg (by simp)]
      exact (if_pos h).symm
    · rw [if_neg h, decide_eq_false h, Bool.not_false, Bool.and_true]
      dsimp only
      rw [if_neg h]
  · rfl

theorem slice_patch (mem : Nat → Byte) (a n : Nat) (h : ∀ i, span a n i = true → U i = false) : slice (patchMem U f mem) a n = slice mem a n := by
  unfold slice
  refine List.map_congr_left fun j hj => ?_
  have := List.mem_range.1 hj
  unfold patchMem
  rw [h _ (decide_eq_true (by omega))]
  rfl

theorem readPathLoop_patch (mem : Nat → Byte) (fuel addr len : Nat)
    (h : ∀ j, j < fuel → (∀ k, k < j → mem ((addr + k) % 65536) ≠ 0) → U ((addr + j) % 65536) = false) :
    readPathLoop (patchMem U f mem) N fuel addr len = readPathLoop mem N fuel addr len := by
  induction fuel generalizing addr len with
  | zero => rfl
  | succ fuel ih =>
    unfold readPathLoop
    have h0 : patchMem U f mem (addr % 65536) = mem (addr % 65536) := by
      have := h 0 (by omega) (fun k hk => by omega)
      rw [Nat.add_zero] at this
      unfold patchMem
      rw [this]; rfl
    rw [h0]
    by_cases hz : mem (addr % 65536) = 0
    · have hz1 : ¬ (mem (addr % 65536) ≠ 0 ∧ len < MAX_PATH) := fun x => x.1 hz
      rw [if_neg hz1, if_neg hz1]
    · rw [ih]
      intro j hj hk
      rw [show addr + 1 + j = addr + (j + 1) by omega]
      refine h (j + 1) (by omega) fun k hk' => ?_
      cases k with
      | zero => rw [Nat.add_zero]; exact hz
      | succ k => rw [show addr + (k + 1) = addr + 1 + k by omega]; exact hk k (by omega)

theorem readPath_patch (ports : Fin 16 → Byte) (mem : Nat → Byte) (h : ∀ i, InName ports mem i → U i = false) : readPath ports (patchMem U f mem) N = readPath ports mem N := by
  unfold readPath
  rw [readPathLoop_patch]
  intro j hj hk
  exact h _ ⟨j, by omega, rfl, hk⟩

/-! ## Opening and closing -/

theorem closeForMode_patch (H : Host σ) (mode : Mode) (w : W σ) : closeForMode H mode (w.patch U f) = (closeForMode H mode w).patch U f := by
  unfold closeForMode
  rw [show (w.patch U f).dev = w.dev from rfl]
  cases w.dev.handle with
  | none => rfl
  | some h =>
    dsimp only
    split
    · split
      · rfl
      · split
        · rfl
        · split <;> rfl
    · rfl

theorem closeForMode_mem (H : Host σ) (mode : Mode) (w : W σ) : (closeForMode H mode w).mem = w.mem := by
  unfold closeForMode
  cases w.dev.handle with
  | none => rfl
  | some h =>
    dsimp only
    split
    · split
      · rfl
      · split
        · rfl
        · split <;> rfl
    · rfl

theorem openForMode_patch (H : Host σ) (ports : Fin 16 → Byte) (mode : Mode) (w : W σ) (h : ∀ i, InName ports w.mem i → U i = false) :
    openForMode H N ports mode (w.patch U f) = (openForMode H N ports mode w).map (W.patch U f) := by
  unfold openForMode
  rw [show (w.patch U f).dev = w.dev from rfl, show (w.patch U f).mem = patchMem U f w.mem from rfl, readPath_patch _ _ h]
  cases w.dev.handle with
  | some h => rfl
  | none =>
    dsimp only
    cases readPath ports w.mem N with
    | error u => rfl
    | ok x =>
      cases x with
      | none => rfl
      | some path =>
        simp only [bind, Except.bind, pure, Except.pure, callStat, callFopen, callOpendir]
        show Except.ok _ = Except.ok _
        congr 1
        simp only [W.patch]
        cases (H.stat path w.host).1.type with
        | regular => rfl
        | directory => rfl
        | invalid =>
          dsimp only
          split <;> rfl

theorem setMode_patch (H : Host σ) (ports : Fin 16 → Byte) (mode : Mode) (w : W σ) (h : ∀ i, InName ports w.mem i → U i = false) :
    setMode H N ports mode (w.patch U f) = (setMode H N ports mode w).map (W.patch U f) := by
  unfold setMode
  rw [closeForMode_patch, openForMode_patch _ _ _ _ (by rw [closeForMode_mem]; exact h)]

theorem refill_patch (H : Host σ) (file : Hnd) (w : W σ) : refill H file (w.patch U f) = (refill H file w).map fun x => (x.1, x.2.patch U f) := by
  unfold refill
  dsimp only
  rw [show callReaddir H file { w.patch U f with dev := { (w.patch U f).dev with pos := 0, len := 0 } } =
    ((callReaddir H file { w with dev := { w.dev with pos := 0, len := 0 } }).1, (callReaddir H file { w with dev := { w.dev with pos := 0, len := 0 } }).2.patch U f) from rfl]
  generalize callReaddir H file { w with dev := { w.dev with pos := 0, len := 0 } } = q
  obtain ⟨r, w1⟩ := q
  cases r with
  | none => rfl
  | some x =>
    dsimp only
    split
    · rfl
    · split <;> rfl

/-! ## Reading -/

theorem bind_of_ok {α β : Type} {x : Res α} {g : α → Res β} {y : β} (h : (x >>= g) = .ok y) : ∃ a, x = .ok a ∧ g a = .ok y := by
  cases x with
  | error e => cases h
  | ok a => exact ⟨a, rfl, h⟩

theorem dirLoop_total (H : Host σ) (file : Hnd) (fuel addr length total : Nat) (w : W σ) (ht : total + length < 65536) (x : Nat × W σ)
    (e : dirLoop H N file fuel addr length total w = .ok x) : total ≤ x.1 ∧ x.1 ≤ total + length := by
  induction fuel generalizing addr length total w with
  | zero => cases e; exact ⟨Nat.le_refl _, by omega⟩
  | succ fuel ih =>
    unfold dirLoop at e
    by_cases h0 : length > 0
    · rw [if_pos h0] at e
      obtain ⟨⟨go, w1⟩, -, e⟩ := bind_of_ok e
      cases go with
      | false => cases e; exact ⟨Nat.le_refl _, by omega⟩
      | true =>
        dsimp only at e
        rw [if_pos rfl] at e
        generalize hn : (if length < (w1.dev.len + 65536 - w1.dev.pos) % 65536 then length else (w1.dev.len + 65536 - w1.dev.pos) % 65536) = n at e
        have hle : n ≤ length := by rw [← hn]; split <;> omega
        split at e
        · obtain ⟨w2, -, e⟩ := bind_of_ok e
          rw [Nat.mod_eq_of_lt (show total + n < 65536 by omega)] at e
          have := ih _ _ _ _ (by omega) e
          omega
        · cases e
    · rw [if_neg h0] at e
      cases e; exact ⟨Nat.le_refl _, by omega⟩

theorem readLoop_total (H : Host σ) (file : Hnd) (fuel addr length total : Nat) (w : W σ) (ht : total + length < 65536) (x : Nat × W σ)
    (e : readLoop H N file fuel addr length total w = .ok x) : total ≤ x.1 ∧ x.1 ≤ total + length := by
  induction fuel generalizing addr length total w with
  | zero => cases e; exact ⟨Nat.le_refl _, by omega⟩
  | succ fuel ih =>
    unfold readLoop at e
    by_cases h0 : length > 0
    · rw [if_pos h0] at e
      rcases hf : callFread H file length w with ⟨data, w1⟩
      have hle : data.length ≤ length := by
        have : data = (H.fread file length w.host).1.take length := (congrArg Prod.fst hf).symm
        rw [this, List.length_take]; omega
      rw [hf] at e
      dsimp only at e
      obtain ⟨w2, -, e⟩ := bind_of_ok e
      split at e
      · cases e; exact ⟨Nat.le_refl _, by omega⟩
      · rw [Nat.mod_eq_of_lt (show total + data.length < 65536 by omega)] at e
        have := ih _ _ _ _ (by omega) e
        omega
    · rw [if_neg h0] at e
      cases e; exact ⟨Nat.le_refl _, by omega⟩

/-- What one round has filled, and what the others have. -/
theorem span_next {addr length n k : Nat} (hl : Left addr length) (hn : n ≤ length) (hk : k ≤ length - n) :
    without (without U (span addr n)) (span ((addr + n) % 65536) k) = without U (span addr (n + k)) := by
  rw [without_without]
  congr 1
  funext i
  unfold span
  rw [← Bool.decide_or]
  congr 1
  apply propext
  by_cases h0 : k = 0
  · subst h0
    constructor
    · rintro (h | h) <;> omega
    · intro h; left; omega
  · rcases hl with h | h
    · omega
    · rw [Nat.mod_eq_of_lt (by omega)]
      omega

theorem dirLoop_patch (H : Host σ) (file : Hnd) (fuel addr length total : Nat) (w : W σ) (hl : Left addr length) (ht : total + length < 65536) :
    dirLoop H N file fuel addr length total (w.patch U f) =
      (dirLoop H N file fuel addr length total w).map fun x => (x.1, x.2.patch (without U (span addr (x.1 - total))) f) := by
  have nothing : ∀ (w : W σ), (Except.ok (total, w.patch U f) : Res (Nat × W σ)) = (Except.ok (total, w) : Res (Nat × W σ)).map fun x => (x.1, x.2.patch (without U (span addr (x.1 - total))) f) := by
    intro w
    show _ = Except.ok _
    dsimp only
    rw [Nat.sub_self, span_zero, without_nil]
  induction fuel generalizing addr length total w U with
  | zero => exact nothing w
  | succ fuel ih =>
    unfold dirLoop
    by_cases h0 : length > 0
    · rw [if_pos h0, if_pos h0]
      have hr : (if (w.patch U f).dev.pos ≥ (w.patch U f).dev.len then refill H file (w.patch U f) else .ok (true, w.patch U f)) =
          ((if w.dev.pos ≥ w.dev.len then refill H file w else .ok (true, w)).map fun x => (x.1, x.2.patch U f) : Res (Bool × W σ)) := by
        rw [show (w.patch U f).dev = w.dev from rfl]
        split
        · exact refill_patch H file w
        · rfl
      rw [hr]
      refine map_bind ?_
      rintro ⟨go, w1⟩ -
      cases go with
      | false => exact nothing w1
      | true =>
        dsimp only
        rw [show (w1.patch U f).dev = w1.dev from rfl]
        generalize hn : (if length < (w1.dev.len + 65536 - w1.dev.pos) % 65536 then length else (w1.dev.len + 65536 - w1.dev.pos) % 65536) = n
        have hle : n ≤ length := by rw [← hn]; split <;> omega
        rw [if_pos rfl, if_pos rfl]
        by_cases hd : w1.dev.pos + n ≤ DIR_BUF
        · rw [if_pos hd, if_pos hd, store_patch]
          have hlen : (slice w1.dev.buf w1.dev.pos n).length = n := by simp [slice]
          rw [hlen]
          refine map_bind ?_
          intro w2 _
          rw [Nat.mod_eq_of_lt (show total + n < 65536 by omega)]
          have hi := ih (U := without U (span addr n)) ((addr + n) % 65536) (length - n) (total + n) { w2 with dev := { w2.dev with pos := (w2.dev.pos + n) % 65536 } } (hl.next hle) (by omega)
            (fun w => by show _ = Except.ok _; dsimp only; rw [Nat.sub_self, span_zero, without_nil])
          refine Eq.trans hi ?_
          cases hx : dirLoop H N file fuel ((addr + n) % 65536) (length - n) (total + n) { w2 with dev := { w2.dev with pos := (w2.dev.pos + n) % 65536 } } with
          | error e => rfl
          | ok x =>
            have hb := dirLoop_total H file _ _ _ _ _ (by omega) x hx
            show Except.ok _ = Except.ok _
            dsimp only
            rw [span_next hl hle (k := x.1 - (total + n)) (by omega), show n + (x.1 - (total + n)) = x.1 - total by omega]
        · rw [if_neg hd, if_neg hd]; rfl
    · rw [if_neg h0, if_neg h0]; exact nothing w

theorem readLoop_patch (H : Host σ) (file : Hnd) (fuel addr length total : Nat) (w : W σ) (hl : Left addr length) (ht : total + length < 65536) :
    readLoop H N file fuel addr length total (w.patch U f) =
      (readLoop H N file fuel addr length total w).map fun x => (x.1, x.2.patch (without U (span addr (x.1 - total))) f) := by
  have nothing : ∀ (w : W σ), (Except.ok (total, w.patch U f) : Res (Nat × W σ)) = (Except.ok (total, w) : Res (Nat × W σ)).map fun x => (x.1, x.2.patch (without U (span addr (x.1 - total))) f) := by
    intro w
    show _ = Except.ok _
    dsimp only
    rw [Nat.sub_self, span_zero, without_nil]
  induction fuel generalizing addr length total w U with
  | zero => exact nothing w
  | succ fuel ih =>
    unfold readLoop
    by_cases h0 : length > 0
    · rw [if_pos h0, if_pos h0]
      rw [show callFread H file length (w.patch U f) = ((callFread H file length w).1, (callFread H file length w).2.patch U f) from rfl]
      rcases hf : callFread H file length w with ⟨data, w1⟩
      have hle : data.length ≤ length := by
        have : data = (H.fread file length w.host).1.take length := (congrArg Prod.fst hf).symm
        rw [this, List.length_take]; omega
      dsimp only
      rw [store_patch]
      refine map_bind ?_
      intro w2 _
      by_cases hz : data.length = 0
      · rw [if_pos hz, if_pos hz, hz, span_zero, without_nil]
        exact nothing w2
      · rw [if_neg hz, if_neg hz]
        rw [Nat.mod_eq_of_lt (show total + data.length < 65536 by omega)]
        have hi := ih (U := without U (span addr data.length)) ((addr + data.length) % 65536) (length - data.length) (total + data.length) w2 (hl.next hle) (by omega)
          (fun w => by show _ = Except.ok _; dsimp only; rw [Nat.sub_self, span_zero, without_nil])
        refine Eq.trans hi ?_
        cases hx : readLoop H N file fuel ((addr + data.length) % 65536) (length - data.length) (total + data.length) w2 with
        | error e => rfl
        | ok x =>
          have hb := readLoop_total H file _ _ _ _ _ (by omega) x hx
          show Except.ok _ = Except.ok _
          dsimp only
          rw [span_next hl hle (k := x.1 - (total + data.length)) (by omega), show data.length + (x.1 - (total + data.length)) = x.1 - total by omega]
    · rw [if_neg h0, if_neg h0]; exact nothing w

/-! ## Writing -/

theorem writeLoop_patch (H : Host σ) (file : Hnd) (fuel addr length total : Nat) (w : W σ) (hl : Left addr length) (h : ∀ i, span addr length i = true → U i = false) :
    writeLoop H N file fuel addr length total (w.patch U f) = (writeLoop H N file fuel addr length total w).map fun x => (x.1, x.2.patch U f) := by
  induction fuel generalizing addr length total w with
  | zero => rfl
  | succ fuel ih =>
    unfold writeLoop
    by_cases h0 : length > 0
    · rw [if_pos h0, if_pos h0]
      by_cases h1 : addr + length ≤ N
      · rw [if_pos h1, if_pos h1]
        rw [show (w.patch U f).mem = patchMem U f w.mem from rfl, slice_patch _ _ _ h]
        rw [show callFwrite H file (slice w.mem addr length) (w.patch U f) =
          ((callFwrite H file (slice w.mem addr length) w).1, (callFwrite H file (slice w.mem addr length) w).2.patch U f) from rfl]
        rcases hf : callFwrite H file (slice w.mem addr length) w with ⟨n, w1⟩
        have hle : n ≤ length := by
          have : n = min _ (slice w.mem addr length).length := (congrArg Prod.fst hf).symm
          rw [this]
          have : (slice w.mem addr length).length = length := by simp [slice]
          omega
        dsimp only
        split
        · rfl
        · refine ih _ _ _ _ (hl.next hle) fun i hi => h i ?_
          unfold span at hi ⊢
          have hi := of_decide_eq_true hi
          apply decide_eq_true
          rcases hl with hl | hl
          · omega
          · by_cases e : n = length
            · omega
            · rw [Nat.mod_eq_of_lt (by omega)] at hi
              omega
      · rw [if_neg h1, if_neg h1]; rfl
    · rw [if_neg h0, if_neg h0]; rfl

/-! ## The ports -/

theorem clamp_small (ports : Fin 16 → Byte) (p : Fin 16) : clampLength (load2 ports 10) (load2 ports p) < 65536 := by
  have := load2_lt' ports 10
  unfold clampLength
  dsimp only
  split <;> omega

theorem opStat_patch (H : Host σ) (ports : Fin 16 → Byte) (w : W σ) (h : ∀ i, InName ports w.mem i → U i = false) :
    opStat H N ports (w.patch U f) = (opStat H N ports w).map fun x => x.patch (without U (span (load2 ports 4) x.dev.success)) f := by
  unfold opStat
  dsimp only
  rw [show (w.patch U f).dev = w.dev from rfl, show (w.patch U f).mem = patchMem U f w.mem from rfl, readPath_patch _ _ h]
  cases w.dev.handle with
  | some h =>
    dsimp only
    rw [store_patch, formatStat_len]
    exact map_bind fun _ _ => rfl
  | none =>
    dsimp only
    cases readPath ports w.mem N with
    | error u => rfl
    | ok x =>
      cases x with
      | none =>
        show Except.ok _ = Except.ok (W.patch (without U (span _ 0)) f _)
        rw [span_zero, without_nil]
        rfl
      | some path =>
        show (store N _ _ ((callStat H path w).2.patch U f) >>= _) = _
        rw [store_patch, formatStat_len]
        exact map_bind fun _ _ => rfl

theorem opDelete_patch (H : Host σ) (ports : Fin 16 → Byte) (w : W σ) (h : ∀ i, InName ports w.mem i → U i = false) :
    opDelete H N ports (w.patch U f) = (opDelete H N ports w).map (W.patch U f) := by
  unfold opDelete
  rw [show (w.patch U f).mem = patchMem U f w.mem from rfl, readPath_patch _ _ h]
  cases readPath ports w.mem N with
  | error u => rfl
  | ok x => cases x <;> rfl

theorem opName_patch (H : Host σ) (w : W σ) : opName H (w.patch U f) = (opName H w).patch U f := by
  unfold opName
  rw [show (w.patch U f).dev = w.dev from rfl]
  cases w.dev.handle with
  | none => rfl
  | some h => dsimp only; cases w.dev.stat.type <;> rfl

theorem opRead_patch (H : Host σ) (ports : Fin 16 → Byte) (w : W σ) (h : ∀ i, InName ports w.mem i → U i = false) :
    opRead H N ports (w.patch U f) = (opRead H N ports w).map fun x => x.patch (without U (span (load2 ports 12) x.dev.success)) f := by
  have nothing : ∀ w : W σ, (W.patch U f w : W σ) = W.patch (without U (span (load2 ports 12) 0)) f w := by intro w; rw [span_zero, without_nil]
  have hlt := clamp_small ports 12
  unfold opRead
  rw [setMode_patch _ _ _ _ h]
  refine map_bind ?_
  intro w1 _
  dsimp only
  rw [show (w1.patch U f).dev = w1.dev from rfl]
  cases w1.dev.handle with
  | none => show Except.ok _ = Except.ok _; rw [nothing w1]; rfl
  | some file =>
    dsimp only
    cases w1.dev.stat.type with
    | directory =>
      dsimp only
      rw [dirLoop_patch _ _ _ _ _ _ _ (left_clamp ports 12) (by omega)]
      exact map_bind fun _ _ => rfl
    | regular =>
      dsimp only
      rw [readLoop_patch _ _ _ _ _ _ _ (left_clamp ports 12) (by omega)]
      exact map_bind fun _ _ => rfl
    | invalid => show Except.ok _ = Except.ok _; rw [nothing w1]; rfl

theorem openForMode_mem {H : Host σ} {ports : Fin 16 → Byte} {mode : Mode} {w w' : W σ} (e : openForMode H N ports mode w = .ok w') : w'.mem = w.mem := by
  unfold openForMode at e
  split at e
  · cases e; rfl
  · obtain ⟨x, -, e⟩ := bind_of_ok e
    cases x with
    | none => cases e; rfl
    | some path =>
      cases e
      simp only [callStat, callFopen, callOpendir]
      cases (H.stat path w.host).1.type with
      | regular => rfl
      | directory => rfl
      | invalid => dsimp only; split <;> rfl

theorem opWrite_patch (H : Host σ) (ports : Fin 16 → Byte) (w : W σ) (h : ∀ i, InName ports w.mem i → U i = false)
    (hs : ∀ i, span (load2 ports 14) (clampLength (load2 ports 10) (load2 ports 14)) i = true → U i = false) :
    opWrite H N ports (w.patch U f) = (opWrite H N ports w).map (W.patch U f) := by
  unfold opWrite
  dsimp only
  rw [setMode_patch _ _ _ _ h]
  refine map_bind ?_
  intro w1 _
  rw [show (w1.patch U f).dev = w1.dev from rfl]
  cases w1.dev.handle with
  | none => rfl
  | some file =>
    dsimp only
    split
    · rw [writeLoop_patch _ _ _ _ _ _ _ (left_clamp ports 14) hs]
      exact map_bind fun _ _ => rfl
    · rfl

/-- **C94**, the file device: a write to one of its ports does the same whatever is in the cells that it does not look at; it fills the cells from the given address on, as many as it
reports, and leaves the others alone. -/
theorem C94_file (H : Host σ) (ports : Fin 16 → Byte) (port : Fin 16) (w : W σ) (h : ∀ i, looks ports port w.mem i → U i = false) :
    deo H N ports port (w.patch U f) = (deo H N ports port w).map fun x => x.patch (without U (filled ports port x.dev.success)) f := by
  have name : (port = 5 ∨ port = 6 ∨ port = 13 ∨ port = 15) → ∀ i, InName ports w.mem i → U i = false := fun hp i hi => h i (.inl ⟨hp, hi⟩)
  have same : port ≠ 5 → port ≠ 13 → ∀ n, without U (filled ports port n) = U := by
    intro h1 h2 n
    have : filled ports port n = fun _ => false := by
      funext i
      unfold filled
      rw [decide_eq_false h1, decide_eq_false h2]
      rfl
    rw [this, without_nil]
  unfold deo
  by_cases h5 : port = 5
  · rw [if_pos h5, if_pos h5, opStat_patch _ _ _ (name (.inl h5))]
    subst h5
    have : ∀ n, filled ports 5 n = span (load2 ports 4) n := by intro n; funext i; unfold filled; simp
    simp only [this]
  rw [if_neg h5, if_neg h5]
  by_cases h6 : port = 6
  · rw [if_pos h6, if_pos h6, opDelete_patch _ _ _ (name (.inr (.inl h6)))]
    simp only [same h5 (by rw [h6]; decide)]
  rw [if_neg h6, if_neg h6]
  by_cases h9 : port = 9
  · rw [if_pos h9, if_pos h9, opName_patch]
    show Except.ok _ = Except.ok _
    dsimp only
    rw [same h5 (by rw [h9]; decide)]
  rw [if_neg h9, if_neg h9]
  by_cases h13 : port = 13
  · rw [if_pos h13, if_pos h13, opRead_patch _ _ _ (name (.inr (.inr (.inl h13))))]
    subst h13
    have : ∀ n, filled ports 13 n = span (load2 ports 12) n := by intro n; funext i; unfold filled; simp
    simp only [this]
  rw [if_neg h13, if_neg h13]
  by_cases h15 : port = 15
  · rw [if_pos h15, if_pos h15, opWrite_patch _ _ _ (name (.inr (.inr (.inr h15)))) (fun i hi => h i (.inr ⟨h15, hi⟩))]
    simp only [same h5 h13]
  rw [if_neg h15, if_neg h15]
  show Except.ok _ = Except.ok _
  dsimp only
  rw [same h5 h13]

end Buxn.File
