import Verif.Devices.FileCalls
/-!
# What a program writes to a file it can read back (C75)

The file device of `/repo/src/devices/file.c` (the model of `Devices/File.lean`) on a file system that keeps files.
-/
namespace Buxn.File
variable {σ : Type}

/-! ## Specification -/

/-- What there is in a file system: the contents of the files, and for each file handle its file, how it was opened and (for reading)
the position. -/
structure View where
  content : Path → Option (List Byte)
  handle : Nat → Option (Path × Mode × Nat)

/-- A file is opened: for writing it is emptied, for appending it is created if it does not exist. -/
def View.opened (v : View) (p : Path) (m : Mode) (n : Nat) : View where
  content := match m with
    | .read => v.content
    | .write => upd v.content p (some [])
    | .append => upd v.content p (some ((v.content p).getD []))
  handle := upd v.handle n (some (p, m, 0))

/-- A file system that keeps files, in terms of the callbacks of `file.h`: `V` is what there is, `canon` the file that a path means. A read
delivers what comes next, at least one byte if there is one; a write adds what was accepted at the end. Reads and writes may be short. -/
structure Keeps (H : Host σ) (V : σ → View) (canon : Path → Path) : Prop where
  stat : ∀ p s, V (H.stat p s).2 = V s ∧ ((H.stat p s).1.type = .regular ↔ (V s).content (canon p) ≠ none)
  size : ∀ p s l, (V s).content (canon p) = some l → l.length < 2 ^ 63 → (H.stat p s).1.size = l.length
  fopen : ∀ p m s n, (H.fopen p m s).1 = some n → V (H.fopen p m s).2 = (V s).opened (canon p) m n
  readable : ∀ p s, (V s).content (canon p) ≠ none → (H.fopen p .read s).1 ≠ none
  fclose : ∀ h s, (V (H.fclose h s)).content = (V s).content
  closedir : ∀ h s, (V (H.closedir h s)).content = (V s).content
  fread : ∀ n size s p k l, (V s).handle n = some (p, .read, k) → (V s).content p = some l →
    (H.fread (.real n) size s).1.take size <+: l.drop k ∧ (k < l.length → 0 < size → (H.fread (.real n) size s).1 ≠ []) ∧
      V (H.fread (.real n) size s).2 = { V s with handle := upd (V s).handle n (some (p, .read, k + ((H.fread (.real n) size s).1.take size).length)) }
  fwrite : ∀ n data s p m k l, (V s).handle n = some (p, m, k) → m ≠ .read → (V s).content p = some l →
    V (H.fwrite (.real n) data s).2 = { V s with content := upd (V s).content p (some (l ++ data.take (H.fwrite (.real n) data s).1)) }

/-- The program can write the file, and it is not a directory. -/
def Writable (H : Host σ) (p : Path) : Prop := ∀ m s, m ≠ .read → (H.fopen p m s).1 ≠ none ∧ (H.stat p s).1.type ≠ .directory

/-- There is always room for something in an open file. -/
def Roomy (H : Host σ) (V : σ → View) : Prop := ∀ n d s p m k l, (V s).handle n = some (p, m, k) → m ≠ .read → (V s).content p = some l →
  d ≠ [] → (H.fwrite (.real n) d s).1 ≠ 0

/-- The bytes that the program has written in a series of writes: after each, those at `[addr, addr + n)` where `n` is what the success
port says. -/
def guestWrites (H : Host σ) (memSize : Nat) : List ((Fin 16 → Byte) × (Nat → Byte)) → W σ → Res (List Byte × W σ)
  | [], w => .ok ([], w)
  | (ports, mem) :: l, w => do
    let w ← guestOp H memSize ⟨ports, 15, mem⟩ w
    let (rest, w') ← guestWrites H memSize l w
    return (slice mem (load2 ports 14) (successPort w.dev ports) ++ rest, w')

/-- What it asked to write: the bytes from the address on, as many as it said, but not past the end of the 64K. -/
def asked (ws : List ((Fin 16 → Byte) × (Nat → Byte))) : List Byte := ws.flatMap fun x => slice x.2 (load2 x.1 14) (room x.1 14)

/-- How many bytes a series of reads asks for. -/
def askedFor (rs : List ((Fin 16 → Byte) × (Nat → Byte))) : Nat := (rs.map fun x => room x.1 12).sum

/-- The mode of a write, by port 7. -/
def modeOf (ports : Fin 16 → Byte) : Mode := if ports 7 = 0 then .write else .append

/-! ## Proofs -/

theorem pathAt_unique {mem : Nat → Byte} {a : Nat} {p : Path} {r : Option Path} (h1 : PathAt mem a (some p)) (h2 : PathAt mem a r) : r = some p := by
  cases h1 with
  | found _ a0 a1 al az =>
    cases h2 with
    | empty h =>
      have := al 0 a0
      rw [Nat.add_zero, h] at this
      exact absurd this.1 this.2
    | long h => exact absurd az (h _ a1)
    | found q b0 b1 bl bz =>
      have hlen : q.length = p.length := by
        rcases Nat.lt_trichotomy q.length p.length with h | h | h
        · have := al _ h
          rw [bz] at this
          exact absurd this.1 this.2
        · exact h
        · have := bl _ h
          rw [az] at this
          exact absurd this.1 this.2
      refine congrArg some (List.ext_getElem hlen ?_)
      intro j h1 h2
      rw [(bl j h1).1, (al j h2).1]

theorem readPath_eq {ports : Fin 16 → Byte} {mem : Nat → Byte} {memSize : Nat} (hm : 65536 ≤ memSize) {p : Path}
    (h : PathAt mem (load2 ports 8) (some p)) : readPath ports mem memSize = .ok (some p) := by
  obtain ⟨r, h1, h2⟩ := readPath_ok ports mem memSize hm
  rw [h1, pathAt_unique h h2]

/-- The device has a file open in a mode. -/
structure Open (w : W σ) (n : Nat) (m : Mode) : Prop where
  handle : w.dev.handle = some (.real n)
  mode : w.dev.mode = m
  type : w.dev.stat.type = .regular

theorem setMode_open (H : Host σ) (memSize : Nat) (ports : Fin 16 → Byte) {w : W σ} {n : Nat} {m : Mode} (h : Open w n m) :
    setMode H memSize ports m w = .ok w := by
  have e : closeForMode H m w = w := by
    unfold closeForMode
    rw [h.handle]
    dsimp only
    rw [if_neg (by rw [h.mode]; exact fun h => h rfl)]
  unfold setMode
  rw [e]
  unfold openForMode
  rw [h.handle]

/-- Closing a file that is open in another mode. -/
theorem closeForMode_content {H : Host σ} {V : σ → View} {canon : Path → Path} (K : Keeps H V canon) (m : Mode) (w : W σ)
    (h : w.dev.handle = none ∨ w.dev.mode ≠ m) :
    (closeForMode H m w).dev.handle = none ∧ (closeForMode H m w).mem = w.mem ∧ (V (closeForMode H m w).host).content = (V w.host).content := by
  unfold closeForMode
  split
  · rename_i e
    exact ⟨e, rfl, rfl⟩
  · rename_i hd e
    rw [if_pos (h.resolve_left (by rw [e]; simp))]
    refine ⟨rfl, ?_, ?_⟩
    · dsimp only
      split
      · rfl
      split
      · rfl
      split <;> rfl
    · dsimp only
      split
      · rfl
      split
      · exact K.fclose _ _
      split
      · exact K.closedir _ _
      · rfl

theorem openForMode_file {H : Host σ} {V : σ → View} {canon : Path → Path} (K : Keeps H V canon) {memSize : Nat} (hms : 65536 ≤ memSize)
    (ports : Fin 16 → Byte) (m : Mode) (w : W σ) (p : Path) (hc : w.dev.handle = none) (hp : PathAt w.mem (load2 ports 8) (some p))
    (ho : (m = .read ∧ (V w.host).content (canon p) ≠ none) ∨ (m ≠ .read ∧ Writable H p)) :
    ∃ w' n, openForMode H memSize ports m w = .ok w' ∧ Open w' n m ∧ w'.mem = w.mem ∧ V w'.host = (V w.host).opened (canon p) m n := by
  obtain ⟨k1, k2⟩ := K.stat p w.host
  obtain ⟨st, s1, hst⟩ : ∃ st s1, H.stat p w.host = (st, s1) := ⟨_, _, rfl⟩
  rw [hst] at k1 k2
  have hopen : ∃ n s2, H.fopen p m s1 = (some n, s2) := by
    have : (H.fopen p m s1).1 ≠ none := by
      rcases ho with ⟨rfl, h⟩ | ⟨hm, h⟩
      · exact K.readable p s1 (by rw [show V s1 = V w.host from k1]; exact h)
      · exact (h m s1 hm).1
    obtain ⟨o, s2, e⟩ : ∃ o s2, H.fopen p m s1 = (o, s2) := ⟨_, _, rfl⟩
    rw [e] at this ⊢
    cases o with
    | none => exact absurd rfl this
    | some n => exact ⟨n, s2, rfl⟩
  obtain ⟨n, s2, hfo⟩ := hopen
  have hv := K.fopen p m s1 n (by rw [hfo])
  rw [hfo, show V s1 = V w.host from k1] at hv
  have key : ∀ x, openForMode H memSize ports m w = .ok x → Open x n m ∧ x.mem = w.mem ∧ x.host = s2 := by
    intro x hx
    unfold openForMode at hx
    rw [hc] at hx
    dsimp only at hx
    rw [readPath_eq hms hp] at hx
    simp only [bind, Except.bind, pure, Except.pure, callStat, hst] at hx
    cases hty : st.type with
    | regular =>
      rw [hty] at hx
      simp only [callFopen, hfo] at hx
      cases hx
      exact ⟨⟨rfl, rfl, hty⟩, rfl, rfl⟩
    | directory =>
      exfalso
      rcases ho with ⟨-, h⟩ | ⟨hm, h⟩
      · have := k2.mpr h
        rw [hty] at this
        cases this
      · have := (h m w.host hm).2
        rw [hst] at this
        exact this hty
    | invalid =>
      rcases ho with ⟨-, h⟩ | ⟨hm, h⟩
      · have := k2.mpr h
        rw [hty] at this
        cases this
      · rw [hty] at hx
        dsimp only at hx
        rw [if_pos hm] at hx
        simp only [callFopen, hfo] at hx
        cases hx
        exact ⟨⟨rfl, rfl, rfl⟩, rfl, rfl⟩
  have hok : ∃ x, openForMode H memSize ports m w = .ok x := by
    unfold openForMode
    rw [hc]
    dsimp only
    rw [readPath_eq hms hp]
    exact ⟨_, rfl⟩
  obtain ⟨x, hx⟩ := hok
  obtain ⟨a1, a2, a3⟩ := key x hx
  exact ⟨x, n, hx, a1, a2, by rw [a3]; exact hv⟩

theorem setMode_file {H : Host σ} {V : σ → View} {canon : Path → Path} (K : Keeps H V canon) {memSize : Nat} (hms : 65536 ≤ memSize)
    (ports : Fin 16 → Byte) (m : Mode) (w : W σ) (p : Path) (hc : w.dev.handle = none ∨ w.dev.mode ≠ m) (hp : PathAt w.mem (load2 ports 8) (some p))
    (ho : (m = .read ∧ (V w.host).content (canon p) ≠ none) ∨ (m ≠ .read ∧ Writable H p)) :
    ∃ (w' : W σ) (n : Nat) (v : View), setMode H memSize ports m w = .ok w' ∧ Open w' n m ∧ w'.mem = w.mem ∧ v.content = (V w.host).content ∧
      V w'.host = v.opened (canon p) m n := by
  obtain ⟨a1, a2, a3⟩ := closeForMode_content K m w hc
  obtain ⟨w', n, b1, b2, b3, b4⟩ := openForMode_file K hms ports m (closeForMode H m w) p a1 (by rw [a2]; exact hp) (by rw [a3]; exact ho)
  exact ⟨w', n, V (closeForMode H m w).host, b1, b2, b3.trans a2, a3, b4⟩

theorem upd_upd {α β : Type} [DecidableEq α] (f : α → β) (a : α) (x y : β) : upd (upd f a x) a y = upd f a y := by
  funext i
  by_cases h : i = a
  · subst h; rw [upd_same, upd_same]
  · rw [upd_other _ _ h, upd_other _ _ h, upd_other _ _ h]

theorem upd_id {α β : Type} [DecidableEq α] (f : α → β) (a : α) : upd f a (f a) = f := by
  funext i
  by_cases h : i = a
  · subst h; rw [upd_same]
  · rw [upd_other _ _ h]

/-- The calls of a series of writes put the accepted bytes at the end. -/
theorem performs_writes {H : Host σ} {V : σ → View} {canon : Path → Path} (K : Keeps H V canon) {n : Nat} {p : Path} {m : Mode} {k : Nat} (hm : m ≠ .read)
    {s t : σ} {calls : List Call} (hp : Performs H s calls t) : OnlyWrite (.real n) calls → ∀ l, (V s).handle n = some (p, m, k) →
    (V s).content p = some l → V t = { V s with content := upd (V s).content p (some (l ++ accepted calls)) } ∧
      (Roomy H V → ∀ d, d ≠ [] → Call.fwrite (.real n) d 0 ∉ calls) := by
  induction hp with
  | nil s =>
    intro _ l _ hl
    refine ⟨?_, fun _ d _ h => (by cases h)⟩
    rw [show accepted [] = [] from rfl, List.append_nil, ← hl, upd_id]
  | @cons s t u c calls hd _ ih =>
    intro ho l h1 h2
    obtain ⟨d, i, rfl⟩ := ho c (by simp)
    obtain ⟨r, hr, hi⟩ : ∃ r, H.fwrite (.real n) d s = (r, t) ∧ i = min r d.length := hd
    have e := K.fwrite n d s p m k l h1 hm h2
    rw [hr] at e
    dsimp only at e
    have ht : d.take r = d.take i := by
      rw [hi, List.take_eq_take_min]
    obtain ⟨this, hro⟩ := ih (fun c hc => ho c (by simp [hc])) (l ++ d.take i) (by rw [e]; exact h1) (by rw [e]; dsimp only; rw [upd_same, ht])
    refine ⟨?_, ?_⟩
    rotate_left
    · intro R d' hd' hmem
      rcases List.mem_cons.mp hmem with h | h
      · cases h
        have h3 := R n d s p m k l h1 hm h2 hd'
        rw [hr] at h3
        have h4 : d.length ≠ 0 := fun h => hd' (List.length_eq_zero_iff.mp h)
        dsimp only at h3
        omega
      · exact hro R d' hd' h
    rw [this, e, show accepted (.fwrite (.real n) d i :: calls) = d.take i ++ accepted calls from rfl]
    dsimp only
    rw [upd_upd, List.append_assoc]

/-- The calls of a series of reads deliver what comes next. -/
theorem performs_reads {H : Host σ} {V : σ → View} {canon : Path → Path} (K : Keeps H V canon) {n : Nat} {p : Path} {l : List Byte}
    {s t : σ} {calls : List Call} (hp : Performs H s calls t) : OnlyRead (.real n) calls → ∀ k, (V s).handle n = some (p, .read, k) →
    (V s).content p = some l → delivered calls <+: l.drop k ∧
      V t = { V s with handle := upd (V s).handle n (some (p, .read, k + (delivered calls).length)) } ∧
      ∀ size, 0 < size → calls.getLast? = some (.fread (.real n) size []) → l.length ≤ k + (delivered calls).length := by
  induction hp with
  | nil s =>
    intro _ k hh hl
    refine ⟨List.nil_prefix, ?_, fun _ _ h => by cases h⟩
    rw [show delivered [] = [] from rfl, List.length_nil, Nat.add_zero, ← hh, upd_id]
  | @cons s t u c calls hd hrest ih =>
    intro ho k h1 h2
    obtain ⟨size, d, rfl⟩ := ho c (by simp)
    obtain ⟨r, hr, hi⟩ : ∃ r, H.fread (.real n) size s = (r, t) ∧ d = r.take size := hd
    obtain ⟨e1, e2, e3⟩ := K.fread n size s p k l h1 h2
    rw [hr] at e1 e2 e3
    dsimp only at e1 e2 e3
    rw [← hi] at e1 e3
    obtain ⟨f1, f2, f3⟩ := ih (fun c hc => ho c (by simp [hc])) (k + d.length) (by rw [e3]; exact upd_same _ _ _) (by rw [e3]; exact h2)
    have hdel : delivered (.fread (.real n) size d :: calls) = d ++ delivered calls := rfl
    refine ⟨?_, ?_, ?_⟩
    · rw [hdel]
      obtain ⟨t1, ht1⟩ := e1
      have hd2 : l.drop (k + d.length) = t1 := by
        rw [← List.drop_drop, ← ht1, List.drop_left]
      rw [hd2] at f1
      rw [← ht1]
      exact (List.prefix_append_right_inj d).mpr f1
    · rw [f2, e3, hdel]
      dsimp only
      rw [upd_upd, List.length_append, Nat.add_assoc]
    · intro size' hs hlast
      rw [hdel, List.length_append, ← Nat.add_assoc]
      cases calls with
      | nil =>
        simp only [List.getLast?_singleton, Option.some.injEq, Call.fread.injEq, true_and] at hlast
        obtain ⟨rfl, rfl⟩ := hlast
        have hnil : r = [] := by
          have := congrArg List.length hi
          rw [List.length_take, List.length_nil] at this
          exact List.length_eq_zero_iff.mp (by omega)
        have : ¬ k < l.length := fun h => e2 h hs hnil
        simp only [List.length_nil, delivered]
        omega
      | cons c2 l2 =>
        exact f3 size' hs (by rw [List.getLast?_cons_cons] at hlast; exact hlast)

/-- One write to a file that is open for writing. -/
theorem opWrite_open {H : Host σ} {V : σ → View} {canon : Path → Path} (K : Keeps H V canon) {memSize : Nat} (hms : 65536 ≤ memSize)
    (ports : Fin 16 → Byte) (w : W σ) {n : Nat} {p : Path} {k : Nat} {l : List Byte} (ho : Open w n (modeOf ports))
    (hh : (V w.host).handle n = some (p, modeOf ports, k)) (hl : (V w.host).content p = some l) :
    ∃ w' c, opWrite H memSize ports w = .ok w' ∧ Open w' n (modeOf ports) ∧ c ≤ room ports 14 ∧ successPort w'.dev ports = c ∧
      V w'.host = { V w.host with content := upd (V w.host).content p (some (l ++ slice w.mem (load2 ports 14) c)) } ∧
      (Roomy H V → c = room ports 14) := by
  have hcl := clamp_le (load2 ports 10) (load2 ports 14) (load2_lt ports 14)
  have hroom : room ports 14 = clampLength (load2 ports 10) (load2 ports 14) := rfl
  have hmr : modeOf ports ≠ .read := by unfold modeOf; split <;> decide
  obtain ⟨calls, w2, b1, b2, b3, b4, b5, b6, b7, b8⟩ := writeLoop_ok H memSize hms (.real n)
      (clampLength (load2 ports 10) (load2 ports 14))
      (load2 ports 14) (clampLength (load2 ports 10) (load2 ports 14)) 0 w (Nat.le_refl _) hcl.1 (by omega)
  obtain ⟨calls', c1, c2⟩ := made_writeLoop H b1
  have : calls' = calls := List.append_cancel_left (c1.symm.trans b3)
  subst this
  obtain ⟨hv, hro⟩ := performs_writes K hmr c2 b4 l hh hl
  have hop : opWrite H memSize ports w = .ok { w2 with dev := { w2.dev with success := 0 + (accepted calls').length } } := by
    unfold opWrite
    rw [show (if ports 7 = 0 then Mode.write else Mode.append) = modeOf ports from rfl]
    dsimp only
    rw [setMode_open H memSize ports ho]
    simp only [bind, Except.bind, pure, Except.pure]
    rw [ho.handle]
    dsimp only
    rw [if_pos ho.type, b1]
  refine ⟨_, (accepted calls').length, hop, ⟨?_, ?_, ?_⟩, b6, ?_, ?_, ?_⟩
  · dsimp only; rw [b2]; exact ho.handle
  · dsimp only; rw [b2]; exact ho.mode
  · dsimp only; rw [b2]; exact ho.type
  · rw [successPort_eq]
    · dsimp only; omega
    · dsimp only; omega
  · rw [← b7]
    exact hv
  · intro hr
    rcases Nat.lt_or_ge (accepted calls').length (room ports 14) with h | h
    · exfalso
      obtain ⟨d, hd, hlast⟩ := b8 h
      -- the last call accepted nothing
      exact hro hr d hd (List.mem_of_getLast? hlast)
    · exact Nat.le_antisymm b6 h

/-- A series of writes to an open file. -/
theorem writes_open {H : Host σ} {V : σ → View} {canon : Path → Path} (K : Keeps H V canon) {memSize : Nat} (hms : 65536 ≤ memSize)
    (m : Mode) (ws : List ((Fin 16 → Byte) × (Nat → Byte))) (hw : ∀ x ∈ ws, modeOf x.1 = m) (w : W σ) {n : Nat} {p : Path} {k : Nat} {l : List Byte}
    (ho : Open w n m) (hh : (V w.host).handle n = some (p, m, k)) (hl : (V w.host).content p = some l) :
    ∃ bytes w', guestWrites H memSize ws w = .ok (bytes, w') ∧ Open w' n m ∧
      V w'.host = { V w.host with content := upd (V w.host).content p (some (l ++ bytes)) } ∧ (Roomy H V → bytes = asked ws) := by
  induction ws generalizing w l with
  | nil =>
    refine ⟨[], w, rfl, ho, ?_, fun _ => rfl⟩
    rw [List.append_nil, ← hl, upd_id]
  | cons x ws ih =>
    obtain ⟨ports, mem⟩ := x
    have hm : modeOf ports = m := hw (ports, mem) (by simp)
    subst hm
    obtain ⟨w1, c, a1, a2, a3, a4, a5, a6⟩ := opWrite_open K hms ports { w with mem := mem } ⟨ho.handle, ho.mode, ho.type⟩ hh hl
    dsimp only at a5
    obtain ⟨bytes, w', b1, b2, b3, b4⟩ := ih (fun x hx => hw x (by simp [hx])) w1 (l := l ++ slice mem (load2 ports 14) c) a2
      (by rw [a5]; exact hh) (by rw [a5]; exact upd_same _ _ _)
    refine ⟨slice mem (load2 ports 14) c ++ bytes, w', ?_, b2, ?_, ?_⟩
    · unfold guestWrites
      rw [show guestOp H memSize ⟨ports, 15, mem⟩ w = .ok w1 from a1]
      simp only [bind, Except.bind, pure, Except.pure]
      rw [b1]
      dsimp only
      rw [a4]
    · rw [b3, a5]
      dsimp only
      rw [upd_upd, List.append_assoc]
    · intro hr
      unfold asked
      rw [List.flatMap_cons, b4 hr, a6 hr]
      rfl

/-- One read of a file that is open for reading. -/
theorem opRead_open {H : Host σ} {V : σ → View} {canon : Path → Path} (K : Keeps H V canon) {memSize : Nat} (hms : 65536 ≤ memSize)
    (ports : Fin 16 → Byte) (w : W σ) {n : Nat} {p : Path} {k : Nat} {l : List Byte} (ho : Open w n .read)
    (hh : (V w.host).handle n = some (p, .read, k)) (hl : (V w.host).content p = some l) :
    ∃ w' data, opRead H memSize ports w = .ok w' ∧ Open w' n .read ∧ data = (l.drop k).take (room ports 12) ∧
      slice w'.mem (load2 ports 12) (successPort w'.dev ports) = data ∧
      V w'.host = { V w.host with handle := upd (V w.host).handle n (some (p, .read, k + data.length)) } := by
  have hcl := clamp_le (load2 ports 10) (load2 ports 12) (load2_lt ports 12)
  have hroom : room ports 12 = clampLength (load2 ports 10) (load2 ports 12) := rfl
  obtain ⟨calls, w2, b1, b2, b3, b4, b5, b6, b7⟩ := readLoop_ok H memSize hms (.real n) (clampLength (load2 ports 10) (load2 ports 12))
      (load2 ports 12) (clampLength (load2 ports 10) (load2 ports 12)) 0 w (Nat.le_refl _) hcl.1 (by omega)
  obtain ⟨calls', c1, c2⟩ := made_readLoop H b1
  have : calls' = calls := List.append_cancel_left (c1.symm.trans b3)
  subst this
  obtain ⟨v1, v2, v3⟩ := performs_reads K c2 b4 k hh hl
  have hop : opRead H memSize ports w = .ok { w2 with dev := { w2.dev with success := 0 + (delivered calls').length } } := by
    unfold opRead
    rw [setMode_open H memSize ports ho]
    simp only [bind, Except.bind, pure, Except.pure]
    rw [ho.handle, ho.type]
    dsimp only
    rw [b1]
  have hdata : delivered calls' = (l.drop k).take (room ports 12) := by
    have hpre := List.prefix_iff_eq_take.mp v1
    rcases Nat.lt_or_ge (delivered calls').length (room ports 12) with h | h
    · obtain ⟨size, h1, h2⟩ := b7 h
      have h3 := v3 size h1 h2
      have h4 : (l.drop k).length ≤ (delivered calls').length := by rw [List.length_drop]; omega
      rw [List.take_of_length_le h4] at hpre
      rw [List.take_of_length_le (by omega)]
      exact hpre
    · rw [show room ports 12 = (delivered calls').length from by omega]
      exact hpre
  refine ⟨_, delivered calls', hop, ⟨?_, ?_, ?_⟩, hdata, ?_, v2⟩
  · dsimp only; rw [b2]; exact ho.handle
  · dsimp only; rw [b2]; exact ho.mode
  · dsimp only; rw [b2]; exact ho.type
  · rw [successPort_eq]
    · dsimp only
      rw [Nat.zero_add, b5]
      exact slice_writeAt _ _ _
    · dsimp only; omega

/-- A series of reads of an open file. -/
theorem reads_file {H : Host σ} {V : σ → View} {canon : Path → Path} (K : Keeps H V canon) {memSize : Nat} (hms : 65536 ≤ memSize)
    (rs : List ((Fin 16 → Byte) × (Nat → Byte))) (w : W σ) {n : Nat} {p : Path} {k : Nat} {l : List Byte} (ho : Open w n .read)
    (hh : (V w.host).handle n = some (p, .read, k)) (hl : (V w.host).content p = some l) :
    ∃ w', guestReads H memSize rs w = .ok ((l.drop k).take (askedFor rs), w') ∧ Open w' n .read ∧ (V w'.host).content = (V w.host).content := by
  induction rs generalizing w k with
  | nil => exact ⟨w, rfl, ho, rfl⟩
  | cons x rs ih =>
    obtain ⟨ports, mem⟩ := x
    obtain ⟨w1, data, a1, a2, a3, a4, a5⟩ := opRead_open K hms ports { w with mem := mem } ⟨ho.handle, ho.mode, ho.type⟩ hh hl
    dsimp only at a5
    obtain ⟨w', b1, b2, b3⟩ := ih w1 (k := k + data.length) a2 (by rw [a5]; exact upd_same _ _ _) (by rw [a5]; exact hl)
    refine ⟨w', ?_, b2, by rw [b3, a5]⟩
    unfold guestReads
    rw [show guestOp H memSize ⟨ports, 13, mem⟩ w = .ok w1 from a1]
    simp only [bind, Except.bind, pure, Except.pure]
    rw [b1]
    dsimp only
    rw [a4]
    refine congrArg Except.ok (Prod.ext ?_ rfl)
    dsimp only
    have hs : askedFor ((ports, mem) :: rs) = room ports 12 + askedFor rs := by
      unfold askedFor; rw [List.map_cons, List.sum_cons]
    rw [hs, List.take_add, ← a3]
    congr 1
    rw [List.drop_drop]
    -- a short read is the last one
    rcases Nat.lt_or_ge data.length (room ports 12) with h | h
    · have hlen : data.length = (l.drop k).length := by
        have := congrArg List.length a3
        rw [List.length_take] at this
        omega
      rw [List.length_drop] at hlen
      rw [List.drop_eq_nil_of_le (by omega), List.drop_eq_nil_of_le (by omega)]
    · have : data.length = room ports 12 := by
        have := congrArg List.length a3
        rw [List.length_take] at this
        omega
      rw [this]

/-! ## C75 -/

/-- What a file contains before the first byte is written. -/
def base (old : Option (List Byte)) : Mode → List Byte
  | .append => old.getD []
  | _ => []

/-- **C75.** In any state a program can be in, with no file open or one that is open for something else, a series of writes (the first of which
names a file that can be written) puts exactly the bytes that the program is told are written behind what was in the file (when it
appends) or in its place (when it writes); nothing happens to other files. If the file system always has room, these are all that it
asked to write. -/
theorem C75_save {H : Host σ} {V : σ → View} {canon : Path → Path} (K : Keeps H V canon) {memSize : Nat} (hms : 65536 ≤ memSize)
    (host : σ) (ops : List Op) (w : W σ) (_hw : guestOps H memSize ops (fresh host) = .ok w)
    (m : Mode) (x : (Fin 16 → Byte) × (Nat → Byte)) (ws : List ((Fin 16 → Byte) × (Nat → Byte))) (hws : ∀ y ∈ x :: ws, modeOf y.1 = m)
    (hc : w.dev.handle = none ∨ w.dev.mode ≠ m) (p : Path) (hp : PathAt x.2 (load2 x.1 8) (some p)) (hwr : Writable H p) :
    ∃ bytes w', guestWrites H memSize (x :: ws) w = .ok (bytes, w') ∧
      (V w'.host).content = upd (V w.host).content (canon p) (some (base ((V w.host).content (canon p)) m ++ bytes)) ∧
      w'.dev.mode = m ∧ (Roomy H V → bytes = asked (x :: ws)) := by
  obtain ⟨ports, mem⟩ := x
  have hm : modeOf ports = m := hws (ports, mem) (by simp)
  have hmr : m ≠ .read := by rw [← hm]; unfold modeOf; split <;> decide
  obtain ⟨w1, n, v, a1, a2, a3, a4, a5⟩ := setMode_file K hms ports m { w with mem := mem } p hc hp (.inr ⟨hmr, hwr⟩)
  have e : opWrite H memSize ports { w with mem := mem } = opWrite H memSize ports { w1 with mem := mem } := by
    have h1 : setMode H memSize ports m { w1 with mem := mem } = .ok { w1 with mem := mem } :=
      setMode_open H memSize ports (n := n) ⟨a2.handle, a2.mode, a2.type⟩
    have h2 : ({ w1 with mem := mem } : W σ) = w1 := by rw [← show w1.mem = mem from a3]
    unfold opWrite
    rw [show (if ports 7 = 0 then Mode.write else Mode.append) = modeOf ports from rfl, hm]
    dsimp only
    rw [a1, h1, h2]
  have e2 : guestWrites H memSize ((ports, mem) :: ws) w = guestWrites H memSize ((ports, mem) :: ws) w1 := by
    unfold guestWrites
    rw [show guestOp H memSize ⟨ports, 15, mem⟩ w = guestOp H memSize ⟨ports, 15, mem⟩ w1 from e]
  have hl : (V w1.host).content (canon p) = some (base ((V w.host).content (canon p)) m) := by
    rw [a5, ← show v.content = (V w.host).content from a4]
    cases m with
    | read => exact absurd rfl hmr
    | write => exact upd_same _ _ _
    | append => exact upd_same _ _ _
  obtain ⟨bytes, w', b1, b2, b3, b4⟩ := writes_open K hms m ((ports, mem) :: ws) hws w1 (k := 0) a2 (by rw [a5]; exact upd_same _ _ _) hl
  refine ⟨bytes, w', e2.trans b1, ?_, b2.mode, b4⟩
  rw [b3]
  dsimp only
  rw [a5, ← show v.content = (V w.host).content from a4]
  cases m with
  | read => exact absurd rfl hmr
  | write => exact upd_upd _ _ _ _
  | append => exact upd_upd _ _ _ _

/-- **C75.** In any such state a series of reads, the first of which names a file that exists, delivers the file from its beginning: as many bytes as
the program asks for, or all. The files stay as they are. -/
theorem C75_load {H : Host σ} {V : σ → View} {canon : Path → Path} (K : Keeps H V canon) {memSize : Nat} (hms : 65536 ≤ memSize)
    (host : σ) (ops : List Op) (w : W σ) (_hw : guestOps H memSize ops (fresh host) = .ok w)
    (x : (Fin 16 → Byte) × (Nat → Byte)) (rs : List ((Fin 16 → Byte) × (Nat → Byte)))
    (hc : w.dev.handle = none ∨ w.dev.mode ≠ .read) (p : Path) (hp : PathAt x.2 (load2 x.1 8) (some p)) (l : List Byte)
    (hl : (V w.host).content (canon p) = some l) :
    ∃ w', guestReads H memSize (x :: rs) w = .ok (l.take (askedFor (x :: rs)), w') ∧ (V w'.host).content = (V w.host).content := by
  obtain ⟨ports, mem⟩ := x
  obtain ⟨w1, n, v, a1, a2, a3, a4, a5⟩ := setMode_file K hms ports .read { w with mem := mem } p hc hp (.inl ⟨rfl, by rw [hl]; simp⟩)
  have e : opRead H memSize ports { w with mem := mem } = opRead H memSize ports { w1 with mem := mem } := by
    have h1 : setMode H memSize ports .read { w1 with mem := mem } = .ok { w1 with mem := mem } :=
      setMode_open H memSize ports (n := n) ⟨a2.handle, a2.mode, a2.type⟩
    have h2 : ({ w1 with mem := mem } : W σ) = w1 := by rw [← show w1.mem = mem from a3]
    unfold opRead
    rw [a1, h1, h2]
  have e2 : guestReads H memSize ((ports, mem) :: rs) w = guestReads H memSize ((ports, mem) :: rs) w1 := by
    unfold guestReads
    rw [show guestOp H memSize ⟨ports, 13, mem⟩ w = guestOp H memSize ⟨ports, 13, mem⟩ w1 from e]
  have hcont : (V w1.host).content = (V w.host).content := by rw [a5]; exact a4
  obtain ⟨w', b1, b2, b3⟩ := reads_file K hms ((ports, mem) :: rs) w1 (k := 0) (l := l) a2 (by rw [a5]; exact upd_same v.handle n _)
    (by rw [hcont]; exact hl)
  exact ⟨w', by rw [e2, b1, List.drop_zero], by rw [b3, hcont]⟩

/-- **C75.** What was written is read back, when the name is set again in between or not: the series of reads delivers what was in the file before (when
appending) and what the program was told is written, as far as it asks for it. -/
theorem C75_roundtrip {H : Host σ} {V : σ → View} {canon : Path → Path} (K : Keeps H V canon) {memSize : Nat} (hms : 65536 ≤ memSize)
    (host : σ) (ops : List Op) (w : W σ) (hw : guestOps H memSize ops (fresh host) = .ok w)
    (m : Mode) (x : (Fin 16 → Byte) × (Nat → Byte)) (ws : List ((Fin 16 → Byte) × (Nat → Byte))) (hws : ∀ y ∈ x :: ws, modeOf y.1 = m)
    (hc : w.dev.handle = none ∨ w.dev.mode ≠ m) (p : Path) (hp : PathAt x.2 (load2 x.1 8) (some p)) (hwr : Writable H p)
    (names : List ((Fin 16 → Byte) × (Nat → Byte)))
    (y : (Fin 16 → Byte) × (Nat → Byte)) (rs : List ((Fin 16 → Byte) × (Nat → Byte))) (q : Path) (hq : PathAt y.2 (load2 y.1 8) (some q))
    (same : canon q = canon p) :
    ∃ bytes w1 w2 w3, guestWrites H memSize (x :: ws) w = .ok (bytes, w1) ∧
      guestOps H memSize (names.map fun z => ⟨z.1, 9, z.2⟩) w1 = .ok w2 ∧
      guestReads H memSize (y :: rs) w2 = .ok ((base ((V w.host).content (canon p)) m ++ bytes).take (askedFor (y :: rs)), w3) ∧
      (Roomy H V → bytes = asked (x :: ws)) := by
  obtain ⟨bytes, w1, a1, a2, a3, a4⟩ := C75_save K hms host ops w hw m x ws hws hc p hp hwr
  have hmr : m ≠ .read := by rw [← hws x (by simp)]; unfold modeOf; split <;> decide
  have hnames : ∀ (names : List ((Fin 16 → Byte) × (Nat → Byte))) (u : W σ),
      ∃ w2, guestOps H memSize (names.map fun z => ⟨z.1, 9, z.2⟩) u = .ok w2 ∧ (V w2.host).content = (V u.host).content ∧ w2.dev.mode = u.dev.mode := by
    intro names
    induction names with
    | nil => exact fun u => ⟨u, rfl, rfl, rfl⟩
    | cons z names ih =>
      intro u
      have h1 : ∀ v : W σ, (V (opName H v).host).content = (V v.host).content ∧ (opName H v).dev.mode = v.dev.mode := by
        intro v
        unfold opName
        split
        · dsimp only
          split
          · exact ⟨K.fclose _ _, rfl⟩
          · exact ⟨K.closedir _ _, rfl⟩
          · exact ⟨rfl, rfl⟩
        · exact ⟨rfl, rfl⟩
      obtain ⟨w2, b1, b2, b3⟩ := ih (opName H { u with mem := z.2 })
      refine ⟨w2, ?_, by rw [b2, (h1 _).1], by rw [b3, (h1 _).2]⟩
      rw [List.map_cons]
      exact b1
  obtain ⟨w2, b1, b2, b3⟩ := hnames names w1
  -- the state is reached by a longer history
  have hreach : ∃ ops', guestOps H memSize ops' (fresh host) = .ok w2 := by
    have hg : ∀ (l : List ((Fin 16 → Byte) × (Nat → Byte))) (u u' : W σ) (b : List Byte), guestWrites H memSize l u = .ok (b, u') →
        guestOps H memSize (l.map fun z => ⟨z.1, 15, z.2⟩) u = .ok u' := by
      intro l
      induction l with
      | nil => intro u u' b h; cases h; rfl
      | cons z l ih =>
        intro u u' b h
        unfold guestWrites at h
        obtain ⟨ports, mem⟩ := z
        simp only [bind, Except.bind, pure, Except.pure] at h
        split at h
        · cases h
        · rename_i v hv
          split at h
          · cases h
          · rename_i r hr
            cases h
            rw [List.map_cons]
            show (guestOp H memSize ⟨ports, 15, mem⟩ u).bind _ = _
            rw [hv]
            exact ih v _ _ hr
    refine ⟨ops ++ ((x :: ws).map fun z => ⟨z.1, 15, z.2⟩) ++ (names.map fun z => ⟨z.1, 9, z.2⟩), ?_⟩
    have happ : ∀ (a b : List Op) (u v : W σ), guestOps H memSize a u = .ok v → guestOps H memSize (a ++ b) u = guestOps H memSize b v := by
      intro a b u v h
      unfold guestOps at h ⊢
      rw [List.foldlM_append, h]
      rfl
    rw [happ _ _ _ w1 (by rw [happ _ _ _ w hw]; exact hg _ _ _ _ a1)]
    exact b1
  obtain ⟨ops', hw2⟩ := hreach
  obtain ⟨w3, c1, c2⟩ := C75_load K hms host ops' w2 hw2 y rs (.inr (by rw [b3, a3]; exact hmr)) q hq
    (base ((V w.host).content (canon p)) m ++ bytes) (by rw [b2, a2, same]; exact upd_same _ _ _)
  exact ⟨bytes, w1, w2, w3, a1, b1, c1, a4⟩

/-- **C75.** When no file is open, a stat (port 5) of a file that exists says how long it is: that many hexadecimal digits as the program asks for.
Missing: a file that is open, of which the size before it was opened is said, see `C75_open_size_violated`. -/
theorem C75_size_partial {H : Host σ} {V : σ → View} {canon : Path → Path} (K : Keeps H V canon) {memSize : Nat} (hms : 65536 ≤ memSize)
    (host : σ) (ops : List Op) (w : W σ) (_hw : guestOps H memSize ops (fresh host) = .ok w) (hc : w.dev.handle = none)
    (ports : Fin 16 → Byte) (mem : Nat → Byte) (p : Path) (hp : PathAt mem (load2 ports 8) (some p)) (l : List Byte)
    (hl : (V w.host).content (canon p) = some l) (hlen : l.length < 2 ^ 63) :
    ∃ w', guestOp H memSize ⟨ports, 5, mem⟩ w = .ok w' ∧ successPort w'.dev ports = room ports 4 ∧
      slice w'.mem (load2 ports 4) (room ports 4) = statText (room ports 4) ⟨.regular, l.length⟩ ∧ V w'.host = V w.host := by
  have hcl := clamp_le (load2 ports 10) (load2 ports 4) (load2_lt ports 4)
  have hroom : room ports 4 = clampLength (load2 ports 10) (load2 ports 4) := rfl
  obtain ⟨k1, k2⟩ := K.stat p w.host
  have k3 := K.size p w.host l hl hlen
  obtain ⟨st, s1, hst⟩ : ∃ st s1, H.stat p w.host = (st, s1) := ⟨_, _, rfl⟩
  rw [hst] at k1 k2 k3
  have hty : st.type = .regular := k2.mpr (by rw [hl]; simp)
  have hste : st = ⟨.regular, l.length⟩ := by
    obtain ⟨t, z⟩ := st
    dsimp only at hty k3
    rw [hty, k3]
  have hop : guestOp H memSize ⟨ports, 5, mem⟩ w = .ok ⟨{ w.dev with success := room ports 4 },
      writeAt mem (load2 ports 4) (statText (room ports 4) st), s1, w.log ++ [.stat p st]⟩ := by
    show opStat H memSize ports { w with mem := mem } = _
    unfold opStat
    dsimp only
    rw [hc]
    dsimp only
    rw [readPath_eq hms hp]
    simp only [bind, Except.bind, pure, Except.pure, callStat, hst]
    unfold store
    rw [← hroom, C19_stat_text, if_pos (by rw [statText_length]; omega)]
    dsimp only
    rw [hc]
  refine ⟨_, hop, ?_, ?_, k1⟩
  · rw [successPort_eq]
    dsimp only
    omega
  · dsimp only
    have := slice_writeAt mem (load2 ports 4) (statText (room ports 4) st)
    rw [statText_length] at this
    rw [this, hste]

end Buxn.File
