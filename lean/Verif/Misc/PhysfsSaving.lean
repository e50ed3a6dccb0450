import Verif.Devices.Saving
import Verif.Misc.Physfs
/-!
# Saving and loading through PhysicsFS (C75)

`/repo/src/physfs.c` (the model of `Misc/Physfs.lean`) over a library that keeps files is a file system that keeps files, in the sense of
`Devices/Saving.lean`.
-/
namespace Buxn.Physfs
open Buxn.File
variable {π : Type}

/-! ## Specification -/

/-- A library that keeps files: `V` is what there is. Reading does not fail and `eof` is said at the end only; transfers may be short. A path
with `.` or `/` only is not a file. -/
structure LibKeeps (L : Lib π) (V : π → View) : Prop where
  stat : ∀ p s, V (L.stat p s).2 = V s ∧ ((∃ size, (L.stat p s).1 = some (.regular, size)) ↔ (V s).content p ≠ none)
  size : ∀ p s l, (V s).content p = some l → ∃ kind, (L.stat p s).1 = some (kind, (l.length : Int))
  open_ : ∀ p m s n, (L.openFile m p s).1 = some n → V (L.openFile m p s).2 = (V s).opened p m n
  readable : ∀ p s, (V s).content p ≠ none → (L.openFile .read p s).1 ≠ none
  close : ∀ n s, (V (L.close n s)).content = (V s).content
  eof : ∀ n s p k l, (V s).handle n = some (p, .read, k) → (V s).content p = some l → L.eof n s = true → l.length ≤ k
  read : ∀ n size s p k l, (V s).handle n = some (p, .read, k) → (V s).content p = some l →
    ∃ d, (L.read n size s).1 = some d ∧ d.take size <+: l.drop k ∧ (k < l.length → 0 < size → d ≠ []) ∧
      V (L.read n size s).2 = { V s with handle := upd (V s).handle n (some (p, .read, k + (d.take size).length)) }
  write : ∀ n data s p m k l, (V s).handle n = some (p, m, k) → m ≠ .read → (V s).content p = some l →
    V (L.write n data s).2 = { V s with content := upd (V s).content p (some (l ++ data.take ((L.write n data s).1.getD 0))) }
  root : ∀ s, (V s).content [0x2f] = none ∧ (V s).content [0x2e] = none

/-- What there is, with the handles that are open. -/
def view (V : π → View) (x : S π) : View where
  content := (V x.phys).content
  handle n := if x.files n = 0 then none else (V x.phys).handle n

/-! ## C75 -/

/-- **C75.** The callbacks of `physfs.c` keep files if the library does; `./name` and `name` are the same file. -/
theorem C75_physfs {L : Lib π} {V : π → View} (K : LibKeeps L V) : Keeps (host L) (view V) strip where
  stat p x := by
    show view V (stat L p x).2 = view V x ∧ ((stat L p x).1.type = .regular ↔ (V x.phys).content (strip p) ≠ none)
    obtain ⟨k1, k2⟩ := K.stat (strip p) x.phys
    unfold stat
    split
    · rename_i h
      refine ⟨rfl, Iff.intro (fun h => (by cases h)) (fun h2 => ?_)⟩
      rcases h with h | h <;> rw [h] at h2
      · exact absurd (K.root x.phys).1 h2
      · exact absurd (K.root x.phys).2 h2
    · have hv : ∀ (q : π) (e : (L.stat (strip p) x.phys).2 = q), view V { x with phys := q } = view V x := by
        intro q e
        subst e
        unfold view
        dsimp only
        rw [k1]
      split
      · rename_i size q e
        rw [e] at k2
        exact ⟨hv q (by rw [e]), Iff.intro (fun _ => k2.mp ⟨size, rfl⟩) (fun _ => rfl)⟩
      · rename_i size q e
        rw [e] at k2
        refine ⟨hv q (by rw [e]), Iff.intro (fun h => (by cases h)) (fun h => ?_)⟩
        obtain ⟨_, h⟩ := k2.mpr h
        cases h
      · rename_i size q e
        rw [e] at k2
        refine ⟨hv q (by rw [e]), Iff.intro (fun h => (by cases h)) (fun h => ?_)⟩
        obtain ⟨_, h⟩ := k2.mpr h
        cases h
      · rename_i q e
        rw [e] at k2
        refine ⟨hv q (by rw [e]), Iff.intro (fun h => (by cases h)) (fun h => ?_)⟩
        obtain ⟨_, h⟩ := k2.mpr h
        cases h
  size p x l := by
    show (V x.phys).content (strip p) = some l → l.length < 2 ^ 63 → (stat L p x).1.size = l.length
    intro hl k1
    obtain ⟨kind, k2⟩ := K.size (strip p) x.phys l hl
    obtain ⟨-, k3⟩ := K.stat (strip p) x.phys
    obtain ⟨z, k3⟩ := k3.mpr (by rw [hl]; simp)
    obtain ⟨r, q, e⟩ : ∃ r q, L.stat (strip p) x.phys = (r, q) := ⟨_, _, rfl⟩
    rw [e] at k2 k3
    dsimp only at k2 k3
    subst k2
    cases k3
    unfold stat
    rw [if_neg, e]
    · dsimp only
      rw [Int.emod_eq_of_lt (by omega) (by omega)]
      rfl
    · rintro (h | h) <;> rw [h] at hl
      · rw [(K.root x.phys).1] at hl; cases hl
      · rw [(K.root x.phys).2] at hl; cases hl
  fopen p m x n := by
    show (fopen L p m x).1 = some n → view V (fopen L p m x).2 = (view V x).opened (strip p) m n
    unfold fopen
    have k := K.open_ (strip p) m x.phys n
    split
    · intro h; cases h
    · rename_i k' q e
      intro h
      cases h
      rw [e] at k
      replace k := k rfl
      dsimp only at k
      show View.mk (V q).content (fun i => if upd x.files n (x.files n + 1) i = 0 then none else (V q).handle i) = _
      rw [k]
      unfold View.opened view
      dsimp only
      congr 1
      funext i
      by_cases hi : i = n
      · subst hi
        rw [upd_same, upd_same, if_neg (by omega), upd_same]
      · rw [upd_other _ _ hi, upd_other _ _ hi, upd_other _ _ hi]
  readable p x := by
    show (V x.phys).content (strip p) ≠ none → (fopen L p .read x).1 ≠ none
    intro h
    have := K.readable (strip p) x.phys h
    unfold fopen
    split
    · rename_i e
      rw [e] at this
      exact absurd rfl this
    · simp
  fclose h x := by
    show (V (fclose L h x).phys).content = (V x.phys).content
    unfold fclose withFile
    split
    · split
      · rfl
      · exact K.close _ _
    · rfl
  closedir h x := by
    show (V (closedir h x).phys).content = (V x.phys).content
    unfold closedir
    split
    · split
      · split <;> rfl
      · rfl
    · rfl
  fread n size x p k l := by
    show (if x.files n = 0 then none else (V x.phys).handle n) = some (p, .read, k) → (V x.phys).content p = some l → _
    intro h1 h2
    show (fread L (.real n) size x).1.take size <+: l.drop k ∧ (k < l.length → 0 < size → (fread L (.real n) size x).1 ≠ []) ∧
      view V (fread L (.real n) size x).2 = { view V x with handle := upd (view V x).handle n (some (p, .read, k + ((fread L (.real n) size x).1.take size).length)) }
    have hf : x.files n ≠ 0 := by
      intro h
      rw [if_pos h] at h1
      cases h1
    rw [if_neg hf] at h1
    unfold fread withFile
    dsimp only
    rw [if_neg hf]
    by_cases he : L.eof n x.phys = true
    · rw [if_pos he]
      have := K.eof n x.phys p k l h1 h2 he
      refine ⟨by rw [List.take_nil]; exact List.nil_prefix, fun h => absurd h (by omega), ?_⟩
      dsimp only
      rw [List.take_nil, List.length_nil, Nat.add_zero]
      have e : (view V x).handle n = some (p, .read, k) := by
        show (if x.files n = 0 then none else (V x.phys).handle n) = _
        rw [if_neg hf, h1]
      rw [← e, upd_id]
    · rw [if_neg he]
      obtain ⟨d, a1, a2, a3, a4⟩ := K.read n size x.phys p k l h1 h2
      obtain ⟨r, q, e⟩ : ∃ r q, L.read n size x.phys = (r, q) := ⟨_, _, rfl⟩
      rw [e] at a1 a4 ⊢
      dsimp only at a1 a4
      subst a1
      dsimp only
      refine ⟨a2, a3, ?_⟩
      unfold view
      dsimp only
      rw [a4]
      dsimp only
      congr 1
      funext i
      by_cases hi : i = n
      · subst hi
        rw [if_neg hf, upd_same, upd_same]
      · rw [upd_other _ _ hi, upd_other _ _ hi]
  fwrite n data x p m k l := by
    show (if x.files n = 0 then none else (V x.phys).handle n) = some (p, m, k) → m ≠ .read → (V x.phys).content p = some l → _
    intro h1 hm h2
    show view V (fwrite L (.real n) data x).2 = { view V x with content := upd (view V x).content p (some (l ++ data.take (fwrite L (.real n) data x).1)) }
    have hf : x.files n ≠ 0 := by
      intro h
      rw [if_pos h] at h1
      cases h1
    rw [if_neg hf] at h1
    have a := K.write n data x.phys p m k l h1 hm h2
    unfold fwrite withFile
    dsimp only
    rw [if_neg hf]
    obtain ⟨r, q, e⟩ : ∃ r q, L.write n data x.phys = (r, q) := ⟨_, _, rfl⟩
    rw [e] at a ⊢
    dsimp only at a
    cases r with
    | none =>
      dsimp only
      unfold view
      dsimp only
      rw [a]
      rfl
    | some j =>
      dsimp only
      unfold view
      dsimp only
      rw [a]
      rfl

/-! ## A library that keeps files -/

/-- Files by their names, handles and the next handle. -/
structure Disk where
  view : View
  next : Nat

/-- What there is; files named `.` or `/` do not count. -/
def Disk.shown (s : Disk) : View := { s.view with content := fun p => if p = [0x2f] ∨ p = [0x2e] then none else s.view.content p }

/-- A PhysicsFS without directories that transfers at most three bytes at a time. -/
def disk : Lib Disk where
  stat p s := (match s.shown.content p with | some l => some (.regular, (l.length : Int)) | none => none, s)
  openFile m p s :=
    if p = [0x2f] ∨ p = [0x2e] ∨ (m = .read ∧ s.view.content p = none) then (none, s)
    else (some s.next, ⟨s.view.opened p m s.next, s.next + 1⟩)
  close n s := { s with view := { s.view with handle := upd s.view.handle n none } }
  eof n s :=
    match s.view.handle n with
    | some (p, .read, k) => decide (((s.view.content p).getD []).length ≤ k)
    | _ => false
  read n size s :=
    match s.view.handle n with
    | some (p, .read, k) =>
      let d := (((s.view.content p).getD []).drop k).take (min size 3)
      (some d, { s with view := { s.view with handle := upd s.view.handle n (some (p, .read, k + d.length)) } })
    | _ => (none, s)
  write n data s :=
    match s.view.handle n with
    | some (p, m, _) =>
      if m = .read then (none, s)
      else (some (min 3 data.length), { s with view := { s.view with content := upd s.view.content p ((s.view.content p).map fun l => l ++ data.take 3) } })
    | none => (none, s)
  enumerate _ s := (some [], s)
  delete p s := ((s.view.content p).isSome, { s with view := { s.view with content := upd s.view.content p none } })

theorem shown_some {s : Disk} {p : Path} {l : List Byte} (h : s.shown.content p = some l) : s.view.content p = some l ∧ ¬(p = [0x2f] ∨ p = [0x2e]) := by
  replace h : (if p = [0x2f] ∨ p = [0x2e] then none else s.view.content p) = some l := h
  split at h
  · cases h
  · rename_i hn
    exact ⟨h, hn⟩

theorem shown_upd {f : Path → Option (List Byte)} {p : Path} (y : List Byte) (h : ¬(p = [0x2f] ∨ p = [0x2e])) :
    (fun q => if q = [0x2f] ∨ q = [0x2e] then none else upd f p (some y) q) = upd (fun q => if q = [0x2f] ∨ q = [0x2e] then none else f q) p (some y) := by
  funext q
  by_cases hq : q = p
  · subst hq
    rw [upd_same, upd_same, if_neg h]
  · rw [upd_other _ _ hq, upd_other _ _ hq]

/-- The library keeps files. -/
theorem disk_keeps : LibKeeps disk Disk.shown where
  stat p s := by
    refine ⟨rfl, Iff.intro ?_ ?_⟩
    · rintro ⟨size, h⟩ e
      replace h : (match s.shown.content p with | some l => some (Kind.regular, (l.length : Int)) | none => none) = some (.regular, size) := h
      rw [e] at h
      cases h
    · intro h
      cases e : s.shown.content p with
      | none => exact absurd e h
      | some l =>
        refine ⟨l.length, ?_⟩
        show (match s.shown.content p with | some l => some (Kind.regular, (l.length : Int)) | none => none) = _
        rw [e]
  size p s l h := by
    refine ⟨.regular, ?_⟩
    show (match s.shown.content p with | some l => some (Kind.regular, (l.length : Int)) | none => none) = _
    rw [h]
  open_ p m s n := by
    show (disk.openFile m p s).1 = some n → (disk.openFile m p s).2.shown = _
    unfold disk
    dsimp only
    split
    · intro h; cases h
    · rename_i hn
      intro h
      cases h
      have hp : ¬(p = [0x2f] ∨ p = [0x2e]) := fun h => hn (by rcases h with h | h; exact .inl h; exact .inr (.inl h))
      unfold Disk.shown View.opened
      dsimp only
      cases m with
      | read => rfl
      | write =>
        dsimp only
        rw [shown_upd _ hp]
      | append =>
        dsimp only
        rw [shown_upd _ hp, if_neg hp]
  readable p s := by
    intro h
    show (disk.openFile .read p s).1 ≠ none
    cases e : s.shown.content p with
    | none => exact absurd e h
    | some l =>
      obtain ⟨h1, h2⟩ := shown_some e
      unfold disk
      dsimp only
      rw [if_neg]
      · simp
      · rintro (h | h | ⟨-, h⟩)
        · exact h2 (.inl h)
        · exact h2 (.inr h)
        · rw [h1] at h; cases h
  close n s := rfl
  eof n s p k l hh hl := by
    obtain ⟨h1, h2⟩ := shown_some hl
    replace hh : s.view.handle n = some (p, .read, k) := hh
    show disk.eof n s = true → _
    unfold disk
    dsimp only
    rw [hh]
    dsimp only
    rw [h1]
    exact fun h => of_decide_eq_true h
  read n size s p k l hh hl := by
    obtain ⟨h1, h2⟩ := shown_some hl
    replace hh : s.view.handle n = some (p, .read, k) := hh
    have e : disk.read n size s = (some ((l.drop k).take (min size 3)),
        { s with view := { s.view with handle := upd s.view.handle n (some (p, .read, k + ((l.drop k).take (min size 3)).length)) } }) := by
      unfold disk
      dsimp only
      rw [hh]
      dsimp only
      rw [h1]
      rfl
    have et : ((l.drop k).take (min size 3)).take size = (l.drop k).take (min size 3) := by
      rw [List.take_take]
      congr 1
      omega
    refine ⟨(l.drop k).take (min size 3), ?_, ?_, ?_, ?_⟩
    · show (disk.read n size s).1 = _
      rw [e]
    · rw [et]
      exact List.take_prefix _ _
    · intro h3 h4 h5
      have := congrArg List.length h5
      rw [List.length_take, List.length_drop, List.length_nil] at this
      omega
    · show (disk.read n size s).2.shown = _
      rw [e, et]
      rfl
  write n data s p m k l hh hm hl := by
    obtain ⟨h1, h2⟩ := shown_some hl
    replace hh : s.view.handle n = some (p, m, k) := hh
    have e : disk.write n data s = (some (min 3 data.length), { s with view := { s.view with content := upd s.view.content p (some (l ++ data.take 3)) } }) := by
      unfold disk
      dsimp only
      rw [hh]
      dsimp only
      rw [if_neg hm, h1]
      rfl
    show (disk.write n data s).2.shown = { s.shown with content := upd s.shown.content p (some (l ++ data.take ((disk.write n data s).1.getD 0))) }
    rw [e]
    dsimp only [Option.getD]
    rw [← List.take_eq_take_min]
    unfold Disk.shown
    dsimp only
    rw [shown_upd _ h2]
  root s := ⟨rfl, rfl⟩

/-- The ports of the example: the name at 20xx, the data at 3000. -/
def exPorts (name len mode : Byte) : Fin 16 → Byte := fun p =>
  if p = 8 then 0x20 else if p = 9 then name else if p = 11 then len else if p = 12 then 0x30 else if p = 14 then 0x30 else if p = 7 then mode else 0

/-- `f` at 2000, `./f` at 2002; `hello` at 3000. -/
def exMem : Nat → Byte := fun i =>
  if i = 0x2000 then 0x66 else if i = 0x2002 then 0x2e else if i = 0x2003 then 0x2f else if i = 0x2004 then 0x66
  else if i = 0x3000 then 0x68 else if i = 0x3001 then 0x65 else if i = 0x3002 then 0x6c else if i = 0x3003 then 0x6c else if i = 0x3004 then 0x6f else 0

def exDisk : Disk := ⟨⟨fun _ => none, fun _ => none⟩, 1⟩

theorem ex_path : PathAt exMem (load2 (exPorts 0 5 0) 8) (some [0x66]) ∧ PathAt exMem (load2 (exPorts 2 5 0) 8) (some [0x2e, 0x2f, 0x66]) := by
  have h1 : load2 (exPorts 0 5 0) 8 = 0x2000 := by decide
  have h2 : load2 (exPorts 2 5 0) 8 = 0x2002 := by decide
  rw [h1, h2]
  constructor
  · refine .found _ (by decide) (by decide) ?_ (by decide)
    intro j h
    have : j = 0 := by simp at h; omega
    subst this
    exact ⟨rfl, by simp⟩
  · refine .found _ (by decide) (by decide) ?_ (by decide)
    intro j h
    have : j = 0 ∨ j = 1 ∨ j = 2 := by simp at h; omega
    rcases this with rfl | rfl | rfl <;> exact ⟨rfl, by simp⟩

theorem ex_writable : Writable (host disk) [0x66] := by
  intro m s hm
  constructor
  · show (fopen disk [0x66] m s).1 ≠ none
    have e : disk.openFile m (strip [0x66]) s.phys = (some s.phys.next, ⟨s.phys.view.opened [0x66] m s.phys.next, s.phys.next + 1⟩) := by
      refine if_neg ?_
      rintro (h | h | ⟨h, -⟩)
      · exact absurd h (by decide)
      · exact absurd h (by decide)
      · exact hm h
    unfold fopen
    rw [e]
    simp
  · show (stat disk [0x66] s).1.type ≠ .directory
    unfold stat
    rw [if_neg (by decide)]
    have e : disk.stat (strip [0x66]) s.phys = (match s.phys.shown.content [0x66] with | some l => some (.regular, (l.length : Int)) | none => none, s.phys) := rfl
    rw [e]
    cases s.phys.shown.content [0x66] <;> exact fun h => (by cases h)

theorem ex_roomy : Roomy (host disk) (view Disk.shown) := by
  intro n d s p m k l h1 hm h2 hd
  replace h1 : (if s.files n = 0 then none else s.phys.view.handle n) = some (p, m, k) := h1
  have hf : s.files n ≠ 0 := by
    intro h
    rw [if_pos h] at h1
    cases h1
  rw [if_neg hf] at h1
  show (fwrite disk (.real n) d s).1 ≠ 0
  have e : (disk.write n d s.phys).1 = some (min 3 d.length) := by
    unfold disk
    dsimp only
    rw [h1]
    dsimp only
    rw [if_neg hm]
  unfold fwrite withFile
  dsimp only
  rw [if_neg hf]
  split
  · rename_i h; rw [h] at e; cases e
  · rename_i h
    rw [h] at e
    cases e
    have : d.length ≠ 0 := fun h => hd (List.length_eq_zero_iff.mp h)
    dsimp only
    omega

/-- `hel` and `hello` are written to `f` and read back as `./f`, five bytes and then at most twelve. -/
theorem C75_example : ∃ bytes w1 w2 w3,
    guestWrites (host disk) 65536 [(exPorts 0 3 0, exMem), (exPorts 0 5 0, exMem)] (fresh (start exDisk)) = .ok (bytes, w1) ∧
    guestOps (host disk) 65536 [] w1 = .ok w2 ∧
    guestReads (host disk) 65536 [(exPorts 2 5 0, exMem), (exPorts 2 12 0, exMem)] w2 = .ok ([0x68, 0x65, 0x6c, 0x68, 0x65, 0x6c, 0x6c, 0x6f], w3) := by
  obtain ⟨bytes, w1, w2, w3, h1, h2, h3, h4⟩ := C75_roundtrip (C75_physfs disk_keeps) (memSize := 65536) (Nat.le_refl _) (start exDisk) [] _ rfl
    .write (exPorts 0 3 0, exMem) [(exPorts 0 5 0, exMem)] (by intro y hy; simp at hy; rcases hy with rfl | rfl <;> decide)
    (.inl rfl) [0x66] ex_path.1 ex_writable [] (exPorts 2 5 0, exMem) [(exPorts 2 12 0, exMem)] [0x2e, 0x2f, 0x66] ex_path.2 rfl
  have e := h4 ex_roomy
  subst e
  have e2 : ([] ++ asked [(exPorts 0 3 0, exMem), (exPorts 0 5 0, exMem)]).take (askedFor [(exPorts 2 5 0, exMem), (exPorts 2 12 0, exMem)]) =
    [0x68, 0x65, 0x6c, 0x68, 0x65, 0x6c, 0x6c, 0x6f] := by decide +kernel
  rw [show base _ Mode.write = [] from rfl, e2] at h3
  exact ⟨_, w1, w2, w3, h1, h2, h3⟩

/-- **C75 fails for a file that is open** (`file.c:120-122` answers from what it found when it opened the file): after five bytes have been written
to a new file, its size is said to be `0000`; when the name has been set again, `0005`. -/
theorem C75_open_size_violated :
    (match guestOps (host disk) 65536 [⟨exPorts 0 5 0, 15, exMem⟩, ⟨fun p => if p = 4 then 0x40 else exPorts 0 4 0 p, 5, exMem⟩] (fresh (start exDisk)) with
      | .ok w => slice w.mem 0x4000 4
      | .error _ => []) = [0x30, 0x30, 0x30, 0x30] ∧
    (match guestOps (host disk) 65536 [⟨exPorts 0 5 0, 15, exMem⟩, ⟨exPorts 0 5 0, 9, exMem⟩,
        ⟨fun p => if p = 4 then 0x40 else exPorts 0 4 0 p, 5, exMem⟩] (fresh (start exDisk)) with
      | .ok w => slice w.mem 0x4000 4
      | .error _ => []) = [0x30, 0x30, 0x30, 0x35] := by decide +kernel

end Buxn.Physfs
