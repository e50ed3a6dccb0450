import Verif.Devices.FileCalls
/-!
# The file system behind the file devices (C74)

Models `/repo/src/physfs.c`, which implements the callbacks of `file.h` with the PhysicsFS library. The library (not in the
repository) is arbitrary: it answers each call as it likes. Log messages are not modelled.
-/
namespace Buxn.Physfs
open Buxn.File

/-! ## Model -/

/-- `PHYSFS_FileType`, as far as `physfs.c:149-164` distinguishes it. -/
inductive Kind | regular | directory | other
  deriving DecidableEq

/-- The functions of PhysicsFS that are used. `none` is a null pointer, a zero of `PHYSFS_stat`, or -1. -/
structure Lib (π : Type) where
  stat : Path → π → Option (Kind × Int) × π
  openFile : Mode → Path → π → Option Nat × π
  close : Nat → π → π
  eof : Nat → π → Bool
  read : Nat → Nat → π → Option (List Byte) × π
  write : Nat → List Byte → π → Option Nat × π
  enumerate : Path → π → Option (List Path) × π
  delete : Path → π → Bool × π

/-- `physfs_dir_buf_t`, `physfs.c:7-10`, with `files` not null: the names, and the index of `current` among them. -/
structure Dir where
  names : List Path
  current : Nat

/-- The state: that of the library, the elements of `dir_buf` (`physfs.c:12`; `none` if `files` is null), how often each file handle is
open, the number of lists of names that are allocated, and what went wrong first: a null pointer followed, or a pointer that is not
what it is used for. -/
structure S (π : Type) where
  phys : π
  dirs : Nat → Option Dir
  files : Nat → Nat
  lists : Nat
  stop : Option UB

variable {π : Type}

def fault (x : S π) : S π := { x with stop := x.stop.or (some .oob) }

/-- `physfs.c:28-30`, also `76-78`, `127`, `141-143`. -/
def strip : Path → Path
  | 0x2e :: 0x2f :: p => p
  | p => p

/-- The library is called with a file handle. -/
def withFile {α : Type} (h : Hnd) (x : S π) (no : α) (k : Nat → α × S π) : α × S π :=
  match h with
  | .real n => if x.files n = 0 then (no, fault x) else k n
  | .invalid => (no, fault x)

/-- `buxn_file_fopen`, `physfs.c:23-42`. -/
def fopen (L : Lib π) (p : Path) (m : Mode) (x : S π) : Option Nat × S π :=
  match L.openFile m (strip p) x.phys with
  | (none, π) => (none, { x with phys := π })
  | (some n, π) => (some n, { x with phys := π, files := upd x.files n (x.files n + 1) })

/-- `buxn_file_fclose`, `physfs.c:44-49`. -/
def fclose (L : Lib π) (h : Hnd) (x : S π) : S π :=
  (withFile h x () fun n => ((), { x with phys := L.close n x.phys, files := upd x.files n (x.files n - 1) })).2

/-- `buxn_file_fread`, `physfs.c:51-59`. -/
def fread (L : Lib π) (h : Hnd) (size : Nat) (x : S π) : List Byte × S π :=
  withFile h x [] fun n =>
    if L.eof n x.phys then ([], x)
    else
      match L.read n size x.phys with
      | (none, π) => ([], { x with phys := π })
      | (some l, π) => (l, { x with phys := π })

/-- `buxn_file_fwrite`, `physfs.c:61-67`. -/
def fwrite (L : Lib π) (h : Hnd) (data : List Byte) (x : S π) : Nat × S π :=
  withFile h x 0 fun n =>
    match L.write n data x.phys with
    | (none, π) => (0, { x with phys := π })
    | (some k, π) => (k, { x with phys := π })

/-- The path of a directory, `physfs.c:74-84`. -/
def dirPath (p : Path) : Path := if strip p = [0x2e] then [0x2f] else strip p

/-- `BUXN_NUM_FILE_DEVICES`, `file.h:7`. -/
def NUM : Nat := 2

/-- The loop of `buxn_file_opendir`, `physfs.c:80-87`, from index `i` on with `left` to go. -/
def opendirLoop (L : Lib π) (p : Path) (x : S π) : Nat → Nat → Option Nat × S π
  | _, 0 => (none, x)
  | i, left + 1 =>
    match x.dirs i with
    | some _ => opendirLoop L p x (i + 1) left
    | none =>
      match L.enumerate p x.phys with
      | (none, π) => (some i, { x with phys := π })
      | (some l, π) => (some i, { x with phys := π, dirs := upd x.dirs i (some ⟨l, 0⟩), lists := x.lists + 1 })

/-- `buxn_file_opendir`, `physfs.c:69-91`. -/
def opendir (L : Lib π) (p : Path) (x : S π) : Option Nat × S π := opendirLoop L (dirPath p) x 0 NUM

/-- `buxn_file_closedir`, `physfs.c:93-101`. Freeing a null pointer does nothing. -/
def closedir (h : Hnd) (x : S π) : S π :=
  match h with
  | .real i =>
    if i < NUM then
      match x.dirs i with
      | none => x
      | some _ => { x with dirs := upd x.dirs i none, lists := x.lists - 1 }
    else fault x
  | .invalid => fault x

/-- `buxn_file_stat`, `physfs.c:137-171`. The size is converted from `PHYSFS_sint64` to `size_t`. -/
def stat (L : Lib π) (p : Path) (x : S π) : FStat × S π :=
  if strip p = [0x2f] ∨ strip p = [0x2e] then (⟨.directory, 0⟩, x)
  else
    match L.stat (strip p) x.phys with
    | (some (.regular, size), π) => (⟨.regular, (size % 2 ^ 64).toNat⟩, { x with phys := π })
    | (some (.directory, _), π) => (⟨.directory, 0⟩, { x with phys := π })
    | (some (.other, _), π) => (⟨.invalid, 0⟩, { x with phys := π })
    | (none, π) => (⟨.invalid, 0⟩, { x with phys := π })

/-- `buxn_file_readdir`, `physfs.c:103-122`. The list of names ends with a null pointer. -/
def readdir (L : Lib π) (h : Hnd) (x : S π) : Option (FStat × List Byte) × S π :=
  match h with
  | .real i =>
    if i < NUM then
      match x.dirs i with
      | none => (none, fault x)
      | some d =>
        if d.current < d.names.length then
          let (st, x) := stat L (d.names.getD d.current []) x
          (some (st, d.names.getD d.current []), { x with dirs := upd x.dirs i (some { d with current := d.current + 1 }) })
        else if d.current = d.names.length then (none, x)
        else (none, fault x)
    else (none, fault x)
  | .invalid => (none, fault x)

/-- `buxn_file_delete`, `physfs.c:124-135`. -/
def delete (L : Lib π) (p : Path) (x : S π) : Bool × S π :=
  match L.delete (strip p) x.phys with
  | (r, π) => (r, { x with phys := π })

/-- The callbacks. -/
def host (L : Lib π) : Host (S π) where
  stat := stat L
  fopen := fopen L
  fclose := fclose L
  opendir := opendir L
  closedir := closedir
  fread := fread L
  fwrite := fwrite L
  readdir := readdir L
  delete := delete L

/-- The state at the start. -/
def start (π₀ : π) : S π := ⟨π₀, fun _ => none, fun _ => 0, 0, none⟩

/-! ## Specification -/

/-- Two file devices (`gui.c`, `cli.c`: ports a0 and b0) on one file system, with all calls in order, each with the device that made it. -/
structure Pair (σ : Type) where
  dev : Bool → Dev
  host : σ
  log : List (Bool × Call)

/-- The program writes to a port of one of them. -/
def pairOp {σ : Type} (H : Host σ) (memSize : Nat) (o : Bool × Op) (p : Pair σ) : Res (Pair σ) :=
  match guestOp H memSize o.2 ⟨p.dev o.1, o.2.mem, p.host, []⟩ with
  | .ok w => .ok ⟨upd p.dev o.1 w.dev, w.host, p.log ++ w.log.map fun c => (o.1, c)⟩
  | .error u => .error u

def pairOps {σ : Type} (H : Host σ) (memSize : Nat) (ops : List (Bool × Op)) (p : Pair σ) : Res (Pair σ) :=
  ops.foldlM (fun p o => pairOp H memSize o p) p

def freshPair {σ : Type} (host : σ) : Pair σ := ⟨fun _ => (fresh host).dev, host, []⟩

/-- The calls of one device. -/
def callsOf (b : Bool) (log : List (Bool × Call)) : List Call := (log.filter fun c => c.1 == b).map Prod.snd

/-- The library can list every directory it is asked to list. -/
def Lists (L : Lib π) : Prop := ∀ p π, (L.enumerate p π).1 ≠ none

/-- The names that the calls have delivered for a directory handle. -/
def namesOf (h : Nat) : List Call → List Path
  | [] => []
  | .readdir (.real i) (some e) :: l => if i = h then e.2 :: namesOf h l else namesOf h l
  | _ :: l => namesOf h l

/-- 1 if the slot has the file handle, the directory handle, any directory handle. -/
def fileCount (s : Slot) (n : Nat) : Nat := match s with | .file k _ => if k = n then 1 else 0 | _ => 0
def dirCount (s : Slot) (n : Nat) : Nat := match s with | .dir k => if k = n then 1 else 0 | _ => 0
def isDir (s : Slot) : Nat := match s with | .dir _ => 1 | _ => 0

/-! ## Proofs -/

/-- The state fits the handles that the two devices have. -/
structure Fits (s o : Slot) (x : S π) : Prop where
  stop : x.stop = none
  files : ∀ n, x.files n = fileCount s n + fileCount o n
  dirs : ∀ i, (x.dirs i).isSome.toNat = dirCount s i + dirCount o i
  small : ∀ i, NUM ≤ i → x.dirs i = none
  current : ∀ i d, x.dirs i = some d → d.current ≤ d.names.length
  lists : x.lists = isDir s + isDir o

theorem Fits.symm {s o : Slot} {x : S π} (h : Fits s o x) : Fits o s x :=
  ⟨h.stop, fun n => by rw [h.files n, Nat.add_comm], fun n => by rw [h.dirs n, Nat.add_comm], h.small, h.current, by rw [h.lists, Nat.add_comm]⟩

theorem Fits.phys {s o : Slot} {x : S π} (h : Fits s o x) (p : π) : Fits s o { x with phys := p } := ⟨h.stop, h.files, h.dirs, h.small, h.current, h.lists⟩

theorem stat_phys (L : Lib π) (p : Path) (x : S π) : ∃ q, (stat L p x).2 = { x with phys := q } := by
  unfold stat
  split
  · exact ⟨x.phys, rfl⟩
  · split <;> exact ⟨_, rfl⟩

theorem fits_start (p : π) : Fits .closed .closed (start p) :=
  ⟨rfl, fun _ => rfl, fun _ => rfl, fun _ _ => rfl, fun _ _ h => (by cases h), rfl⟩

theorem free_slot {s o : Slot} {x : S π} (h : Fits s o x) (hs : isDir s = 0) : x.dirs 0 = none ∨ x.dirs 1 = none := by
  have h0 := h.dirs 0
  have h1 := h.dirs 1
  have e : ∀ i, dirCount s i = 0 := by
    intro i
    cases s with
    | dir k => cases hs
    | _ => rfl
  rw [e] at h0 h1
  cases o with
  | dir k =>
    by_cases hk : k = 0
    · right
      have : dirCount (.dir k) 1 = 0 := by unfold dirCount; rw [hk]; rfl
      rw [this] at h1
      cases hx : x.dirs 1 with
      | none => rfl
      | some d => rw [hx] at h1; cases h1
    · left
      have : dirCount (.dir k) 0 = 0 := if_neg hk
      rw [this] at h0
      cases hx : x.dirs 0 with
      | none => rfl
      | some d => rw [hx] at h0; cases h0
  | _ =>
    left
    cases hx : x.dirs 0 with
    | none => rfl
    | some d => rw [hx] at h0; cases h0

theorem opendir_eq (L : Lib π) (p : Path) (x : S π) (l : List Path) (q : π) (hl : L.enumerate (dirPath p) x.phys = (some l, q))
    (h : x.dirs 0 = none ∨ x.dirs 1 = none) :
    ∃ i, i < NUM ∧ x.dirs i = none ∧ opendir L p x = (some i, { x with phys := q, dirs := upd x.dirs i (some ⟨l, 0⟩), lists := x.lists + 1 }) := by
  unfold opendir NUM opendirLoop
  cases h0 : x.dirs 0 with
  | none =>
    refine ⟨0, by decide, h0, ?_⟩
    rw [hl]
  | some d =>
    have h1 : x.dirs 1 = none := h.resolve_left (by rw [h0]; simp)
    refine ⟨1, by decide, h1, ?_⟩
    unfold opendirLoop
    dsimp only
    rw [h1, hl]

theorem fileCount_same (n : Nat) (m : Mode) : fileCount (.file n m) n = 1 := if_pos rfl
theorem fileCount_other {k n : Nat} (m : Mode) (h : k ≠ n) : fileCount (.file k m) n = 0 := if_neg h
theorem dirCount_same (n : Nat) : dirCount (.dir n) n = 1 := if_pos rfl

theorem does_fits {L : Lib π} (hL : Lists L) {s s' o : Slot} {x x' : S π} {c : Call} (h : Fits s o x) (hs : s.step c = some s')
    (hc : c.Does (host L) x x') : Fits s' o x' ∧ ∀ p, c ≠ .opendir p none := by
  cases c with
  | stat p r =>
    cases hs
    replace hc : stat L p x = (r, x') := hc
    obtain ⟨q, e⟩ := stat_phys L p x
    rw [hc] at e
    refine ⟨?_, fun p e => by cases e⟩
    rw [show x' = _ from e]
    exact h.phys q
  | delete p r =>
    cases hs
    replace hc : delete L p x = (r, x') := hc
    unfold delete at hc
    cases hc
    exact ⟨h.phys _, fun p e => by cases e⟩
  | fopen p m r =>
    replace hc : fopen L p m x = (r, x') := hc
    refine ⟨?_, fun p e => by cases e⟩
    cases s with
    | closed =>
      unfold fopen at hc
      split at hc
      · cases hc
        cases hs
        exact h.phys _
      · rename_i n q _
        cases hc
        cases hs
        refine ⟨h.stop, ?_, h.dirs, h.small, h.current, h.lists⟩
        intro k
        by_cases hk : k = n
        · subst hk
          show upd x.files k (x.files k + 1) k = fileCount (.file k m) k + _
          rw [upd_same, h.files, fileCount_same]
          show 0 + _ + 1 = _
          omega
        · show upd x.files n (x.files n + 1) k = fileCount (.file n m) k + _
          rw [upd_other _ _ hk, h.files, fileCount_other m (Ne.symm hk)]
          rfl
    | file h m => simp [Slot.step] at hs
    | dir h => simp [Slot.step] at hs
  | fclose hd =>
    replace hc : fclose L hd x = x' := hc
    refine ⟨?_, fun p e => by cases e⟩
    cases s <;> cases hd <;> simp [Slot.step] at hs
    rename_i n m k
    obtain ⟨rfl, rfl⟩ := hs
    have hf := h.files k
    have e1 : fileCount (.file k m) k = 1 := if_pos rfl
    rw [e1] at hf
    unfold fclose withFile at hc
    dsimp only at hc
    rw [if_neg (by omega)] at hc
    subst hc
    refine ⟨h.stop, ?_, h.dirs, h.small, h.current, h.lists⟩
    intro j
    by_cases hj : j = k
    · subst hj
      show upd x.files j (x.files j - 1) j = fileCount .closed j + _
      rw [upd_same, hf]
      show _ = 0 + _
      omega
    · show upd x.files k (x.files k - 1) j = fileCount .closed j + _
      rw [upd_other _ _ hj, h.files]
      rw [fileCount_other m (Ne.symm hj)]
      rfl
  | opendir p r =>
    replace hc : opendir L p x = (r, x') := hc
    cases s with
    | closed =>
      cases hl : L.enumerate (dirPath p) x.phys with
      | mk e q =>
        cases e with
        | none => exact absurd (by rw [hl]) (hL (dirPath p) x.phys)
        | some l =>
          obtain ⟨i, i1, i2, i3⟩ := opendir_eq L p x l q hl (free_slot h rfl)
          rw [i3] at hc
          cases hc
          cases hs
          refine ⟨?_, fun p e => by cases e⟩
          refine ⟨h.stop, h.files, ?_, ?_, ?_, ?_⟩
          · intro j
            have hd := h.dirs j
            by_cases hj : j = i
            · subst hj
              rw [i2] at hd
              show (upd x.dirs j (some ⟨l, 0⟩) j).isSome.toNat = dirCount (.dir j) j + _
              rw [upd_same, dirCount_same]
              show 1 = 1 + _
              have hd : 0 = 0 + dirCount o j := hd
              omega
            · show (upd x.dirs i (some ⟨l, 0⟩) j).isSome.toNat = dirCount (.dir i) j + _
              rw [upd_other _ _ hj, hd]
              have : dirCount (.dir i) j = 0 := if_neg (Ne.symm hj)
              rw [this]
              rfl
          · intro j hj
            show upd x.dirs i (some ⟨l, 0⟩) j = none
            rw [upd_other _ _ (by omega)]
            exact h.small j hj
          · intro j d hd
            by_cases hj : j = i
            · subst hj
              have hd : upd x.dirs j (some ⟨l, 0⟩) j = some d := hd
              rw [upd_same] at hd
              cases hd
              exact Nat.zero_le _
            · have hd : upd x.dirs i (some ⟨l, 0⟩) j = some d := hd
              rw [upd_other _ _ hj] at hd
              exact h.current j d hd
          · show x.lists + 1 = 1 + isDir o
            have := h.lists
            have h0 : isDir .closed = 0 := rfl
            omega
    | file h m => simp [Slot.step] at hs
    | dir h => simp [Slot.step] at hs
  | closedir hd =>
    replace hc : closedir hd x = x' := hc
    refine ⟨?_, fun p e => by cases e⟩
    cases s <;> cases hd <;> simp [Slot.step] at hs
    rename_i n k
    obtain ⟨rfl, rfl⟩ := hs
    have hd := h.dirs k
    have e1 : dirCount (.dir k) k = 1 := if_pos rfl
    rw [e1] at hd
    cases hx : x.dirs k with
    | none => rw [hx] at hd; have hd : 0 = 1 + _ := hd; omega
    | some d =>
      have hk : k < NUM := by
        rcases Nat.lt_or_ge k NUM with hk | hk
        · exact hk
        · rw [h.small k hk] at hx; cases hx
      unfold closedir at hc
      dsimp only at hc
      rw [if_pos hk, hx] at hc
      subst hc
      rw [hx] at hd
      have hd : 1 = 1 + dirCount o k := hd
      refine ⟨h.stop, h.files, ?_, ?_, ?_, ?_⟩
      · intro j
        show (upd x.dirs k none j).isSome.toNat = 0 + _
        by_cases hj : j = k
        · subst hj
          rw [upd_same]
          show 0 = 0 + _
          omega
        · rw [upd_other _ _ hj, h.dirs j]
          have : dirCount (.dir k) j = 0 := if_neg (Ne.symm hj)
          rw [this]
      · intro j hj
        show upd x.dirs k none j = none
        rw [upd_other _ _ (by omega)]
        exact h.small j hj
      · intro j d hd
        have hd : upd x.dirs k none j = some d := hd
        by_cases hj : j = k
        · subst hj; rw [upd_same] at hd; cases hd
        · rw [upd_other _ _ hj] at hd; exact h.current j d hd
      · show x.lists - 1 = 0 + isDir o
        have := h.lists
        have h0 : isDir (.dir k) = 1 := rfl
        omega
  | fread hd n d =>
    obtain ⟨r, hc, -⟩ := hc
    replace hc : fread L hd n x = (r, x') := hc
    refine ⟨?_, fun p e => by cases e⟩
    cases s <;> cases hd <;> simp [Slot.step] at hs
    rename_i k m j
    obtain ⟨⟨rfl, rfl⟩, rfl⟩ := hs
    have hf := h.files j
    have e1 : fileCount (.file j .read) j = 1 := if_pos rfl
    rw [e1] at hf
    unfold fread withFile at hc
    dsimp only at hc
    rw [if_neg (by omega)] at hc
    split at hc
    · cases hc; exact h
    · split at hc <;> cases hc <;> exact h.phys _
  | fwrite hd d n =>
    obtain ⟨r, hc, -⟩ := hc
    replace hc : fwrite L hd d x = (r, x') := hc
    refine ⟨?_, fun p e => by cases e⟩
    cases s <;> cases hd <;> simp [Slot.step] at hs
    rename_i k m j
    obtain ⟨⟨rfl, -⟩, rfl⟩ := hs
    have hf := h.files j
    have e1 : fileCount (.file j m) j = 1 := if_pos rfl
    rw [e1] at hf
    unfold fwrite withFile at hc
    dsimp only at hc
    rw [if_neg (by omega)] at hc
    split at hc <;> cases hc <;> exact h.phys _
  | readdir hd r =>
    replace hc : readdir L hd x = (r, x') := hc
    refine ⟨?_, fun p e => by cases e⟩
    cases s <;> cases hd <;> simp [Slot.step] at hs
    rename_i n k
    obtain ⟨rfl, rfl⟩ := hs
    have hd := h.dirs k
    have e1 : dirCount (.dir k) k = 1 := if_pos rfl
    rw [e1] at hd
    cases hx : x.dirs k with
    | none => rw [hx] at hd; have hd : 0 = 1 + _ := hd; omega
    | some d =>
      have hk : k < NUM := by
        rcases Nat.lt_or_ge k NUM with hk | hk
        · exact hk
        · rw [h.small k hk] at hx; cases hx
      have hcur := h.current k d hx
      unfold readdir at hc
      dsimp only at hc
      rw [if_pos hk, hx] at hc
      dsimp only at hc
      by_cases hlt : d.current < d.names.length
      · rw [if_pos hlt] at hc
        obtain ⟨q, e⟩ := stat_phys L (d.names.getD d.current []) x
        rw [e] at hc
        cases hc
        refine ⟨h.stop, h.files, ?_, ?_, ?_, h.lists⟩
        · intro j
          show (upd x.dirs k (some { d with current := d.current + 1 }) j).isSome.toNat = _
          rw [← h.dirs j]
          by_cases hj : j = k
          · subst hj; rw [upd_same, hx]; rfl
          · rw [upd_other _ _ hj]
        · intro j hj
          show upd x.dirs k (some { d with current := d.current + 1 }) j = none
          rw [upd_other _ _ (by omega)]
          exact h.small j hj
        · intro j d' hd
          have hd : upd x.dirs k (some { d with current := d.current + 1 }) j = some d' := hd
          by_cases hj : j = k
          · subst hj
            rw [upd_same] at hd
            cases hd
            exact hlt
          · rw [upd_other _ _ hj] at hd
            exact h.current j d' hd
      · rw [if_neg hlt, if_pos (by omega)] at hc
        cases hc
        exact h

theorem performs_fits {L : Lib π} (hL : Lists L) {s s' o : Slot} {x x' : S π} {calls : List Call} (h : Fits s o x)
    (hs : s.run calls = some s') (hc : Performs (host L) x calls x') : Fits s' o x' ∧ ∀ p, .opendir p none ∉ calls := by
  induction calls generalizing s x with
  | nil => cases hs; cases hc; exact ⟨h, fun p hp => by cases hp⟩
  | cons c l ih =>
    cases hc with
    | cons h1 h2 =>
      unfold Slot.run at hs
      rw [List.foldlM_cons] at hs
      cases ht : s.step c with
      | none => rw [ht] at hs; cases hs
      | some t =>
        rw [ht] at hs
        obtain ⟨f1, f2⟩ := does_fits hL h ht h1
        obtain ⟨f3, f4⟩ := ih f1 hs h2
        refine ⟨f3, fun p hp => ?_⟩
        rcases List.mem_cons.1 hp with hp | hp
        · exact f2 p hp.symm
        · exact f4 p hp

theorem callsOf_append (b : Bool) (l m : List (Bool × Call)) : callsOf b (l ++ m) = callsOf b l ++ callsOf b m := by
  unfold callsOf
  rw [List.filter_append, List.map_append]

theorem callsOf_own (b : Bool) (calls : List Call) : callsOf b (calls.map fun c => (b, c)) = calls := by
  unfold callsOf
  induction calls with
  | nil => rfl
  | cons c l ih =>
    rw [List.map_cons, List.filter_cons_of_pos (by simp), List.map_cons, ih]

theorem callsOf_other {b b' : Bool} (h : b' ≠ b) (calls : List Call) : callsOf b (calls.map fun c => (b', c)) = [] := by
  unfold callsOf
  induction calls with
  | nil => rfl
  | cons c l ih =>
    rw [List.map_cons, List.filter_cons_of_neg (by simpa using h)]
    exact ih

/-- What holds after every history of both devices. -/
structure Well (L : Lib π) (x₀ : S π) (s : Bool → Slot) (p : Pair (S π)) : Prop where
  run : ∀ b, Slot.closed.run (callsOf b p.log) = some (s b)
  agree : ∀ b, Match (s b) (p.dev b)
  buf : ∀ b, BufOk (p.dev b)
  success : ∀ b, (p.dev b).success < 65536
  calls : Performs (host L) x₀ (p.log.map Prod.snd) p.host
  fits : Lists L → Fits (s false) (s true) p.host
  found : Lists L → ∀ c ∈ p.log, ∀ path, c.2 ≠ .opendir path none

theorem well_start (L : Lib π) (p : π) : Well L (start p) (fun _ => .closed) (freshPair (start p)) :=
  ⟨fun _ => rfl, fun _ => .none rfl, fun _ => ⟨Nat.le_refl _, Nat.zero_le _⟩, fun _ => Nat.zero_lt_succ _, .nil _, fun _ => fits_start p,
    fun _ c hc => by cases hc⟩

theorem Fits.at {s : Bool → Slot} {x : S π} (h : Fits (s false) (s true) x) (b : Bool) : Fits (s b) (s !b) x := by
  cases b with
  | false => exact h
  | true => exact h.symm

theorem Fits.back {s : Bool → Slot} {x : S π} (b : Bool) (h : Fits (s b) (s !b) x) : Fits (s false) (s true) x := by
  cases b with
  | false => exact h
  | true => exact h.symm

theorem pairOp_well (L : Lib π) (memSize : Nat) (hms : 65536 ≤ memSize) (x₀ : S π) (o : Bool × Op) (s : Bool → Slot) (p : Pair (S π))
    (h : Well L x₀ s p) : ∃ p' s' calls, pairOp (host L) memSize o p = .ok p' ∧ Well L x₀ (upd s o.1 s') p' ∧
      p'.log = p.log ++ (calls.map fun c => (o.1, c)) ∧ (s o.1).run calls = some s' := by
  obtain ⟨b, op⟩ := o
  obtain ⟨w', s', calls, a1, a2, a3, a4, a5⟩ := guestOp_performs (host L) memSize hms op (s b) ⟨p.dev b, op.mem, p.host, []⟩
    ⟨h.agree b, h.buf b, h.success b⟩
  have a2 : w'.log = calls := a2
  refine ⟨⟨upd p.dev b w'.dev, w'.host, p.log ++ calls.map fun c => (b, c)⟩, s', calls, ?_, ?_, rfl, a3⟩
  · unfold pairOp
    dsimp only
    rw [a1]
    dsimp only
    rw [a2]
  · have hf : Lists L → Fits s' (s !b) w'.host ∧ ∀ q, .opendir q none ∉ calls := fun hL => performs_fits hL ((h.fits hL).at b) a3 a5
    refine ⟨?_, ?_, ?_, ?_, ?_, ?_, ?_⟩
    · intro b'
      by_cases hb : b' = b
      · subst hb
        rw [callsOf_append, callsOf_own, upd_same]
        exact run_trans (h.run b') a3
      · rw [callsOf_append, callsOf_other (Ne.symm hb), upd_other _ _ hb, List.append_nil]
        exact h.run b'
    · intro b'
      by_cases hb : b' = b
      · subst hb; dsimp only; rw [upd_same, upd_same]; exact a4.m
      · dsimp only; rw [upd_other _ _ hb, upd_other _ _ hb]; exact h.agree b'
    · intro b'
      by_cases hb : b' = b
      · subst hb; dsimp only; rw [upd_same]; exact a4.b
      · dsimp only; rw [upd_other _ _ hb]; exact h.buf b'
    · intro b'
      by_cases hb : b' = b
      · subst hb; dsimp only; rw [upd_same]; exact a4.sc
      · dsimp only; rw [upd_other _ _ hb]; exact h.success b'
    · dsimp only
      rw [List.map_append, List.map_map]
      have : calls.map (Prod.snd ∘ fun c => (b, c)) = calls := by
        rw [show (Prod.snd ∘ fun c : Call => (b, c)) = id from rfl, List.map_id]
      rw [this]
      exact h.calls.append a5
    · intro hL
      refine Fits.back b ?_
      rw [upd_same, upd_other _ _ (show (!b) ≠ b by cases b <;> simp)]
      exact (hf hL).1
    · intro hL c hc q
      rcases List.mem_append.1 hc with hc | hc
      · exact h.found hL c hc q
      · rw [List.mem_map] at hc
        obtain ⟨c', h1, rfl⟩ := hc
        intro e
        have e : c' = .opendir q none := e
        rw [e] at h1
        exact (hf hL).2 q h1

theorem pairOps_well (L : Lib π) (memSize : Nat) (hms : 65536 ≤ memSize) (x₀ : S π) (ops : List (Bool × Op)) (s : Bool → Slot) (p : Pair (S π))
    (h : Well L x₀ s p) : ∃ p' s', pairOps (host L) memSize ops p = .ok p' ∧ Well L x₀ s' p' := by
  induction ops generalizing s p with
  | nil => exact ⟨p, s, rfl, h⟩
  | cons o ops ih =>
    obtain ⟨p1, s1, -, e1, h1, -⟩ := pairOp_well L memSize hms x₀ o s p h
    obtain ⟨p2, s2, e2, h2⟩ := ih _ p1 h1
    refine ⟨p2, s2, ?_, h2⟩
    unfold pairOps
    rw [List.foldlM_cons, e1]
    exact e2

/-! ## Theorems -/

/-- **C74**, safety. Whatever a program does with its two file devices, as long as the library can list the directories that it says
are directories: no null pointer is followed, every handle is used for what it is and only between opening and closing, a directory
never fails to open because all places are taken, and there are as many lists of names as open directories (so at most two). If a
directory cannot be listed, see `C74_unlisted_violated`. -/
theorem C74_safe_partial (L : Lib π) (hL : Lists L) (memSize : Nat) (hms : 65536 ≤ memSize) (p₀ : π) (ops : List (Bool × Op)) :
    ∃ (p : Pair (S π)) (s : Bool → Slot), pairOps (host L) memSize ops (freshPair (start p₀)) = .ok p ∧ p.host.stop = none ∧
      (∀ c ∈ p.log, ∀ path, c.2 ≠ .opendir path none) ∧
      (∀ b, Slot.closed.run (callsOf b p.log) = some (s b)) ∧ p.host.lists = isDir (s false) + isDir (s true) ∧
      ∀ n, p.host.files n = fileCount (s false) n + fileCount (s true) n := by
  obtain ⟨p, s, e, h⟩ := pairOps_well L memSize hms (start p₀) ops _ _ (well_start L p₀)
  exact ⟨p, s, e, (h.fits hL).stop, h.found hL, h.run, (h.fits hL).lists, (h.fits hL).files⟩

/-- **C74**, nothing is left behind. When the program has set the name of both devices, no file is open and no list is allocated. -/
theorem C74_closed (L : Lib π) (hL : Lists L) (memSize : Nat) (hms : 65536 ≤ memSize) (p₀ : π) (ops : List (Bool × Op))
    (ports₁ ports₂ : Fin 16 → Byte) (mem₁ mem₂ : Nat → Byte) :
    ∃ p, pairOps (host L) memSize (ops ++ [(false, ⟨ports₁, 9, mem₁⟩), (true, ⟨ports₂, 9, mem₂⟩)]) (freshPair (start p₀)) = .ok p ∧
      p.host.stop = none ∧ p.host.lists = 0 ∧ (∀ n, p.host.files n = 0) ∧ ∀ i, p.host.dirs i = none := by
  obtain ⟨p, s, e, h⟩ := pairOps_well L memSize hms (start p₀) ops _ _ (well_start L p₀)
  have key : ∀ (b : Bool) (ports : Fin 16 → Byte) (mem : Nat → Byte) (s : Bool → Slot) (p : Pair (S π)), Well L (start p₀) s p →
      ∃ p', pairOp (host L) memSize (b, ⟨ports, 9, mem⟩) p = .ok p' ∧ Well L (start p₀) (upd s b .closed) p' := by
    intro b ports mem s p h
    obtain ⟨p', s', calls, e1, h1, h2, h3⟩ := pairOp_well L memSize hms (start p₀) (b, ⟨ports, 9, mem⟩) s p h
    obtain ⟨calls', b1, b2, b3⟩ := opName_ok (host L) (s b) ⟨p.dev b, mem, p.host, []⟩ ⟨h.agree b, h.buf b, h.success b⟩
    have hw : guestOp (host L) memSize ⟨ports, 9, mem⟩ ⟨p.dev b, mem, p.host, []⟩ = .ok (opName (host L) ⟨p.dev b, mem, p.host, []⟩) := rfl
    have b3 : (opName (host L) ⟨p.dev b, mem, p.host, []⟩).log = calls' := b3.log
    have e2 : pairOp (host L) memSize (b, ⟨ports, 9, mem⟩) p =
        .ok ⟨upd p.dev b (opName (host L) ⟨p.dev b, mem, p.host, []⟩).dev, (opName (host L) ⟨p.dev b, mem, p.host, []⟩).host,
          p.log ++ calls'.map fun c => (b, c)⟩ := by
      unfold pairOp
      dsimp only
      rw [hw, ← b3]
    rw [e2] at e1
    have hp := Except.ok.inj e1
    have hl : p.log ++ (calls'.map fun c => (b, c)) = p.log ++ (calls.map fun c => (b, c)) := by rw [← h2, ← hp]
    have hcc : calls' = calls := by
      have := List.append_cancel_left hl
      have := congrArg (callsOf b) this
      rwa [callsOf_own, callsOf_own] at this
    subst hcc
    rw [b1] at h3
    cases h3
    exact ⟨p', by rw [e2, ← hp], h1⟩
  obtain ⟨p1, e1, h1⟩ := key false ports₁ mem₁ s p h
  obtain ⟨p2, e2, h2⟩ := key true ports₂ mem₂ _ p1 h1
  have hf := h2.fits hL
  have hf : Fits .closed .closed p2.host := hf
  refine ⟨p2, ?_, hf.stop, hf.lists, hf.files, ?_⟩
  · unfold pairOps at e ⊢
    rw [List.foldlM_append, e]
    show List.foldlM _ p _ = _
    rw [List.foldlM_cons, e1]
    show List.foldlM _ p1 _ = _
    rw [List.foldlM_cons, e2]
    rfl
  · intro i
    have := hf.dirs i
    cases hx : p2.host.dirs i with
    | none => rfl
    | some d => rw [hx] at this; cases this

/-- **C74**: the calls in the log, in the order of the log, are all that happens to the file system. The theorems below are about such
sequences of calls. -/
theorem C74_calls (L : Lib π) (memSize : Nat) (hms : 65536 ≤ memSize) (p₀ : π) (ops : List (Bool × Op)) :
    ∃ p, pairOps (host L) memSize ops (freshPair (start p₀)) = .ok p ∧ Performs (host L) (start p₀) (p.log.map Prod.snd) p.host := by
  obtain ⟨p, s, e, h⟩ := pairOps_well L memSize hms (start p₀) ops _ _ (well_start L p₀)
  exact ⟨p, e, h.calls⟩

theorem opendir_keeps (L : Lib π) (p : Path) (x : S π) (i : Nat) (d : Dir) (h : x.dirs i = some d) : (opendir L p x).2.dirs i = some d := by
  have key : ∀ left j, (opendirLoop L (dirPath p) x j left).2.dirs i = some d := by
    intro left
    induction left with
    | zero => intro j; exact h
    | succ left ih =>
      intro j
      unfold opendirLoop
      cases hj : x.dirs j with
      | some _ => exact ih (j + 1)
      | none =>
        have hij : i ≠ j := fun e => by rw [e, hj] at h; cases h
        dsimp only
        split
        · exact h
        · show upd x.dirs j _ i = _
          rw [upd_other _ _ hij]
          exact h
  exact key NUM 0

/-- While it is not closed, a place keeps its names, and delivers them in order. -/
theorem listing {L : Lib π} {h : Nat} {l : List Path} {x x' : S π} {calls : List Call} (hp : Performs (host L) x calls x') (hh : h < NUM)
    (hn : .closedir (.real h) ∉ calls) (k : Nat) (hk : k ≤ l.length) (hx : x.dirs h = some ⟨l, k⟩) :
    (∃ j, k ≤ j ∧ j ≤ l.length ∧ namesOf h calls = (l.take j).drop k) ∧ (.readdir (.real h) none ∈ calls → namesOf h calls = l.drop k) := by
  induction hp generalizing k with
  | nil s =>
    refine ⟨⟨k, Nat.le_refl _, hk, ?_⟩, fun hm => by cases hm⟩
    rw [List.drop_eq_nil_of_le (by rw [List.length_take]; omega)]
    rfl
  | @cons s t u c rest hc hr ih =>
    have hn' : .closedir (.real h) ∉ rest := fun hm => hn (List.mem_cons_of_mem _ hm)
    have hc' : c ≠ .closedir (.real h) := fun e => hn (by rw [e]; exact List.mem_cons_self ..)
    have other : t.dirs h = s.dirs h → (∀ e, c ≠ .readdir (.real h) e) →
        (∃ j, k ≤ j ∧ j ≤ l.length ∧ namesOf h (c :: rest) = (l.take j).drop k) ∧
          (.readdir (.real h) none ∈ c :: rest → namesOf h (c :: rest) = l.drop k) := by
      intro e hne
      have hnm : namesOf h (c :: rest) = namesOf h rest := by
        cases c with
        | readdir i r =>
          cases i with
          | invalid => cases r <;> rfl
          | real i =>
            cases r with
            | none => rfl
            | some e =>
              have : i ≠ h := fun ei => hne (some e) (by rw [ei])
              exact if_neg this
        | _ => rfl
      obtain ⟨i1, i2⟩ := ih hn' k hk (by rw [e]; exact hx)
      rw [hnm]
      refine ⟨i1, fun hm => i2 ?_⟩
      rcases List.mem_cons.1 hm with hm | hm
      · exact absurd hm.symm (hne none)
      · exact hm
    cases c with
    | stat p r =>
      obtain ⟨q, e⟩ := stat_phys L p s
      have hc : stat L p s = (r, t) := hc
      rw [hc] at e
      exact other (by rw [show t = _ from e]) fun e he => by cases he
    | delete p r =>
      have hc : delete L p s = (r, t) := hc
      unfold delete at hc
      cases hc
      exact other rfl fun e he => by cases he
    | fopen p m r =>
      have hc : fopen L p m s = (r, t) := hc
      unfold fopen at hc
      split at hc <;> cases hc <;> exact other rfl fun e he => by cases he
    | fclose hd =>
      have hc : fclose L hd s = t := hc
      refine other ?_ fun e he => by cases he
      rw [← hc]
      unfold fclose withFile
      split
      · split <;> rfl
      · rfl
    | fread hd n d =>
      obtain ⟨r, hc, -⟩ := hc
      have hc : fread L hd n s = (r, t) := hc
      refine other ?_ fun e he => by cases he
      rw [show t = (fread L hd n s).2 by rw [hc]]
      unfold fread withFile
      dsimp only
      split
      · split
        · rfl
        · split
          · rfl
          · split <;> rfl
      · rfl
    | fwrite hd d n =>
      obtain ⟨r, hc, -⟩ := hc
      have hc : fwrite L hd d s = (r, t) := hc
      refine other ?_ fun e he => by cases he
      rw [show t = (fwrite L hd d s).2 by rw [hc]]
      unfold fwrite withFile
      dsimp only
      split
      · split
        · rfl
        · split <;> rfl
      · rfl
    | opendir p r =>
      have hc : opendir L p s = (r, t) := hc
      refine other ?_ fun e he => by cases he
      have := opendir_keeps L p s h _ hx
      rw [hc] at this
      rw [hx]
      exact this
    | closedir hd =>
      replace hc : closedir hd s = t := hc
      refine other ?_ fun e he => by cases he
      rw [← hc]
      unfold closedir
      split
      · rename_i i
        have hi : h ≠ i := fun e => hc' (by rw [e])
        split
        · split
          · rfl
          · show upd s.dirs i none h = _
            rw [upd_other _ _ hi]
        · rfl
      · rfl
    | readdir hd r =>
      replace hc : readdir L hd s = (r, t) := hc
      by_cases hhd : hd = .real h
      · subst hhd
        unfold readdir at hc
        dsimp only at hc
        rw [if_pos hh, hx] at hc
        dsimp only at hc
        by_cases hlt : k < l.length
        · rw [if_pos hlt] at hc
          obtain ⟨q, e⟩ := stat_phys L (l.getD k []) s
          rw [e] at hc
          cases hc
          obtain ⟨⟨j, j1, j2, j3⟩, i2⟩ := ih hn' (k + 1) (by omega) (upd_same _ _ _)
          have hnm : namesOf h (.readdir (.real h) (some ((stat L (l.getD k []) s).1, l.getD k [])) :: rest) = l.getD k [] :: namesOf h rest :=
            if_pos rfl
          rw [hnm]
          have hd : ∀ m : List Path, k < m.length → m.getD k [] :: m.drop (k + 1) = m.drop k := by
            intro m hm
            rw [List.drop_eq_getElem_cons hm, List.getD_eq_getElem?_getD, List.getElem?_eq_getElem hm]
            rfl
          refine ⟨⟨j, by omega, j2, ?_⟩, fun hm => ?_⟩
          · rw [j3, ← hd (l.take j) (by rw [List.length_take]; omega)]
            congr 1
            rw [List.getD_eq_getElem?_getD, List.getD_eq_getElem?_getD, List.getElem?_take_of_lt (by omega)]
          · rw [i2 (by
              rcases List.mem_cons.1 hm with hm | hm
              · cases hm
              · exact hm)]
            exact hd l hlt
        · have hkl : k = l.length := by omega
          rw [if_neg hlt, if_pos hkl] at hc
          cases hc
          obtain ⟨⟨j, j1, j2, j3⟩, i2⟩ := ih hn' k hk hx
          refine ⟨⟨j, j1, j2, j3⟩, fun _ => ?_⟩
          show namesOf h rest = _
          rw [j3, List.drop_eq_nil_of_le (by rw [List.length_take]; omega), List.drop_eq_nil_of_le (by omega)]
      · refine other ?_ fun e he => hhd (by cases he; rfl)
        rw [show t = (readdir L hd s).2 by rw [hc]]
        unfold readdir
        split
        · rename_i i
          have hi : h ≠ i := fun e => hhd (by rw [e])
          split
          · split
            · rfl
            · split
              · rename_i d _ _
                obtain ⟨q, e⟩ := stat_phys L (d.names.getD d.current []) s
                dsimp only
                rw [e]
                show upd s.dirs i _ h = _
                rw [upd_other _ _ hi]
              · split <;> rfl
          · rfl
        · rfl

/-- **C74**, listing. From the moment a directory is opened until it is closed, whatever happens to other files and directories in
between: the names that it delivers are those that the library has listed when it was opened, in order, each once; when it says that
it is at the end they have all been delivered. -/
theorem C74_listing (L : Lib π) (x x' : S π) (p : Path) (h : Nat) (calls : List Call)
    (hp : Performs (host L) x (.opendir p (some h) :: calls) x') (hn : .closedir (.real h) ∉ calls) (l : List Path)
    (hl : (L.enumerate (dirPath p) x.phys).1 = some l) :
    namesOf h calls <+: l ∧ (.readdir (.real h) none ∈ calls → namesOf h calls = l) := by
  cases hp with
  | @cons _ t _ _ _ hc hr =>
    have hc : opendir L p x = (some h, t) := hc
    have key : ∀ left j, j + left = NUM → ∀ h t, opendirLoop L (dirPath p) x j left = (some h, t) → h < NUM ∧ t.dirs h = some ⟨l, 0⟩ := by
      intro left
      induction left with
      | zero => intro j _ h t e; cases e
      | succ left ih =>
        intro j hj h t e
        unfold opendirLoop at e
        cases hd : x.dirs j with
        | some _ => rw [hd] at e; exact ih (j + 1) (by omega) h t e
        | none =>
          rw [hd] at e
          dsimp only at e
          cases he : L.enumerate (dirPath p) x.phys with
          | mk r q =>
            rw [he] at e hl
            have hl : r = some l := hl
            subst hl
            dsimp only at e
            cases e
            exact ⟨by omega, upd_same _ _ _⟩
    obtain ⟨k1, k2⟩ := key NUM 0 (by decide) h t hc
    obtain ⟨⟨j, j1, j2, j3⟩, i2⟩ := listing hr k1 hn 0 (Nat.zero_le _) k2
    rw [List.drop_zero] at j3
    exact ⟨by rw [j3]; exact List.take_prefix _ _, fun hm => by rw [i2 hm, List.drop_zero]⟩

/-- **C74**, names. `./` in front of a name makes no difference, and `.` is the directory that the library calls `/`. -/
theorem C74_names (L : Lib π) (p : Path) (hp : strip p = p) (x : S π) :
    stat L (0x2e :: 0x2f :: p) x = stat L p x ∧ (∀ m, fopen L (0x2e :: 0x2f :: p) m x = fopen L p m x) ∧
      opendir L (0x2e :: 0x2f :: p) x = opendir L p x ∧ delete L (0x2e :: 0x2f :: p) x = delete L p x ∧
      opendir L [0x2e] x = opendir L [0x2f] x ∧ stat L [0x2e] x = (⟨.directory, 0⟩, x) ∧ stat L [0x2f] x = (⟨.directory, 0⟩, x) := by
  have e : strip (0x2e :: 0x2f :: p) = strip p := by rw [hp]; rfl
  refine ⟨?_, ?_, ?_, ?_, ?_, ?_, ?_⟩
  · unfold stat; rw [e]
  · intro m; unfold fopen; rw [e]
  · unfold opendir dirPath; rw [e]
  · unfold delete; rw [e]
  · unfold opendir; rfl
  · unfold stat; rw [if_pos (.inr rfl)]
  · unfold stat; rw [if_pos (.inl rfl)]

/-- **C74**, entries. What a listing says about a name is what the program is told when it asks for this name at that moment. Partial: in
a directory other than the top one this is not the file in the directory, see `C74_subdirectory_violated`. -/
theorem C74_entries_partial (L : Lib π) (h : Hnd) (st : FStat) (name : Path) (x x' : S π)
    (hr : (host L).readdir h x = (some (st, name), x')) : ((host L).stat name x).1 = st := by
  have hr : readdir L h x = _ := hr
  show (stat L name x).1 = st
  unfold readdir at hr
  split at hr
  · split at hr
    · split at hr
      · cases hr
      · split at hr
        · cases hr; rfl
        · split at hr <;> cases hr
    · cases hr
  · cases hr

/-- **C74**, transfers. A read delivers what the library reads, and nothing at the end of the file; a write writes what it is given. In
particular the callbacks keep the promises that `file.c` relies on if the library keeps its own. -/
theorem C74_transfers (L : Lib π) (n size : Nat) (data : List Byte) (x : S π) (hn : x.files n ≠ 0)
    (hr : ∀ l π, L.read n size x.phys = (some l, π) → l.length ≤ size) (hw : ∀ k π, L.write n data x.phys = (some k, π) → k ≤ data.length) :
    ((host L).fread (.real n) size x).1.length ≤ size ∧ ((host L).fwrite (.real n) data x).1 ≤ data.length ∧
      (L.eof n x.phys = true → (host L).fread (.real n) size x = ([], x)) ∧
      (∀ l π, L.eof n x.phys = false → L.read n size x.phys = (some l, π) → (host L).fread (.real n) size x = (l, { x with phys := π })) ∧
      ∀ k π, L.write n data x.phys = (some k, π) → (host L).fwrite (.real n) data x = (k, { x with phys := π }) := by
  have e1 : (host L).fread (.real n) size x = if L.eof n x.phys then ([], x) else
      match L.read n size x.phys with
      | (none, π) => ([], { x with phys := π })
      | (some l, π) => (l, { x with phys := π }) := if_neg hn
  have e2 : (host L).fwrite (.real n) data x =
      match L.write n data x.phys with
      | (none, π) => (0, { x with phys := π })
      | (some k, π) => (k, { x with phys := π }) := if_neg hn
  rw [e1, e2]
  refine ⟨?_, ?_, ?_, ?_, ?_⟩
  · split
    · exact Nat.zero_le _
    · split
      · exact Nat.zero_le _
      · rename_i l π h; exact hr l π h
  · split
    · exact Nat.zero_le _
    · rename_i k π h; exact hw k π h
  · intro h; rw [if_pos h]
  · intro l π h h2; rw [if_neg (by rw [h]; decide), h2]
  · intro k π h; rw [h]

/-! ## Cases -/

/-- A library with a directory `d` that contains a file `f` of 5 bytes. -/
def small : Lib Unit where
  stat p _ := (if p = [0x64] then some (.directory, 0) else if p = [0x64, 0x2f, 0x66] then some (.regular, 5) else none, ())
  openFile _ _ _ := (none, ())
  close _ _ := ()
  eof _ _ := true
  read _ _ _ := (none, ())
  write _ _ _ := (none, ())
  enumerate p _ := (some (if p = [0x64] then [[0x66]] else if p = [0x2f] then [[0x64]] else []), ())
  delete _ _ := (false, ())

example : Lists small := fun _ _ h => by cases h

/-- Ports for reading 16 bytes to address 1000 from what is named at 200. -/
def readPorts : Fin 16 → Byte := fun i => if i = 8 then 0x02 else if i = 11 then 0x10 else if i = 12 then 0x10 else 0

def named (p : Path) : Nat → Byte := writeAt (fun _ => 0) 0x200 p

set_option maxRecDepth 100000 in
/-- Both devices list directories at the same time. -/
example : ∃ p, pairOps (host small) 65536 [(false, ⟨readPorts, 13, named [0x2e]⟩), (true, ⟨readPorts, 13, named [0x64]⟩)] (freshPair (start ())) = .ok p ∧
    p.host.lists = 2 ∧ p.log.length = 8 ∧ p.host.stop = none := ⟨_, rfl, rfl, rfl, rfl⟩

/-- **C74**, violated: in the listing of `d`, the file `f` of 5 bytes is said not to exist, because `f` is looked for in the top
directory (a TODO in `physfs.c:115-118`). -/
theorem C74_subdirectory_violated :
    ∃ x₁ x₂, opendir small [0x64] (start ()) = (some 0, x₁) ∧ readdir small (.real 0) x₁ = (some (⟨.invalid, 0⟩, [0x66]), x₂) ∧
      (stat small [0x64, 0x2f, 0x66] x₁).1 = ⟨.regular, 5⟩ := ⟨_, _, rfl, rfl, rfl⟩

/-- A library that cannot list the directory. -/
def failing : Lib Unit := { small with enumerate := fun _ _ => (none, ()) }

set_option maxRecDepth 100000 in
/-- **C74**, violated: if the library cannot list a directory, it is opened all the same and reading from it follows a null pointer. -/
theorem C74_unlisted_violated :
    ∃ p, pairOps (host failing) 65536 [(false, ⟨readPorts, 13, named [0x64]⟩)] (freshPair (start ())) = .ok p ∧ p.host.stop = some .oob :=
  ⟨_, rfl, rfl⟩

end Buxn.Physfs
