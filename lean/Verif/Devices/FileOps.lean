import Verif.Devices.FileProps
/-!
# The file device as the guest sees it (C17 - C19)
-/
namespace Buxn.File
variable {σ : Type}

/-! ## Specification -/

/-- A write of the guest to a port of the device: what the sixteen ports contain, the port, and the guest memory at that
moment (the guest may have changed it since the last operation). -/
structure Op where
  ports : Fin 16 → Byte
  port : Fin 16
  mem : Nat → Byte

/-- One write of the guest. -/
def guestOp (H : Host σ) (memSize : Nat) (op : Op) (w : W σ) : Res (W σ) := deo H memSize op.ports op.port { w with mem := op.mem }

/-- A history of writes of the guest. -/
def guestOps (H : Host σ) (memSize : Nat) (ops : List Op) (w : W σ) : Res (W σ) := ops.foldlM (fun w op => guestOp H memSize op w) w

/-- The device as it is when the program starts (`cli.c:176`: the structure is zero), with nothing done yet. -/
def fresh (host : σ) : W σ where
  dev := ⟨none, .read, ⟨.invalid, 0⟩, 0, 0, 0, fun _ => 0⟩
  mem := fun _ => 0
  host := host
  log := []

/-- What the guest reads from the success port, as a short. -/
def successPort (dev : Dev) (ports : Fin 16 → Byte) : Nat := (dei dev ports 2).toNat * 256 + (dei dev ports 3).toNat

/-- What is behind the handle according to the device. -/
inductive Match : Slot → Dev → Prop
  | none {dev : Dev} (h : dev.handle = none) : Match .closed dev
  | invalid {dev : Dev} (h : dev.handle = some .invalid) (ht : dev.stat.type = .invalid) : Match .closed dev
  | file {dev : Dev} (n : Nat) (m : Mode) (h : dev.handle = some (.real n)) (ht : dev.stat.type = .regular) (hm : dev.mode = m) :
      Match (.file n m) dev
  | dir {dev : Dev} (n : Nat) (h : dev.handle = some (.real n)) (ht : dev.stat.type = .directory) : Match (.dir n) dev

/-- The device and the slot agree and the directory buffer is used within its bounds. -/
structure Inv (s : Slot) (w : W σ) : Prop where
  m : Match s w.dev
  b : BufOk w.dev
  sc : w.dev.success < 65536

theorem fresh_inv (host : σ) : Inv .closed (fresh host) := ⟨.none rfl, ⟨Nat.le_refl _, Nat.zero_le _⟩, Nat.zero_lt_succ _⟩

theorem successPort_eq (dev : Dev) (ports : Fin 16 → Byte) (h : dev.success < 65536) : successPort dev ports = dev.success := by
  unfold successPort dei
  rw [if_pos rfl, if_neg (by decide), if_pos rfl, BitVec.toNat_ofNat, BitVec.toNat_ofNat]
  omega

theorem run_append (s : Slot) (a b : List Call) : s.run (a ++ b) = (s.run a).bind fun t => t.run b := by
  unfold Slot.run
  rw [List.foldlM_append]
  rfl

theorem run_trans {s t u : Slot} {a b : List Call} (h1 : s.run a = some t) (h2 : t.run b = some u) : s.run (a ++ b) = some u := by
  rw [run_append, h1]; exact h2

theorem run_only {s : Slot} {calls : List Call} (h : ∀ c ∈ calls, s.step c = some s) : s.run calls = some s := by
  unfold Slot.run
  induction calls with
  | nil => rfl
  | cons c l ih =>
    rw [List.foldlM_cons, h c (by simp)]
    exact ih fun c hc => h c (by simp [hc])

theorem run_onlyRead {h : Nat} {calls : List Call} (ho : OnlyRead (.real h) calls) :
    (Slot.file h .read).run calls = some (.file h .read) := by
  apply run_only
  intro c hc
  obtain ⟨n, d, rfl⟩ := ho c hc
  simp [Slot.step]

theorem run_onlyWrite {h : Nat} {m : Mode} (hm : m ≠ .read) {calls : List Call} (ho : OnlyWrite (.real h) calls) :
    (Slot.file h m).run calls = some (.file h m) := by
  apply run_only
  intro c hc
  obtain ⟨n, d, rfl⟩ := ho c hc
  simp [Slot.step, hm]

theorem run_onlyReaddir {h : Nat} {calls : List Call} (ho : OnlyReaddir (.real h) calls) :
    (Slot.dir h).run calls = some (.dir h) := by
  apply run_only
  intro c hc
  obtain ⟨r, rfl⟩ := ho c hc
  simp [Slot.step]

/-! ## Opening and closing -/

/-- The calls transfer no data. -/
def NoData (calls : List Call) : Prop := delivered calls = [] ∧ accepted calls = [] ∧ entries calls = []

theorem NoData.append {a b : List Call} (ha : NoData a) (hb : NoData b) : NoData (a ++ b) :=
  ⟨by rw [delivered_append, ha.1, hb.1]; rfl, by rw [accepted_append, ha.2.1, hb.2.1]; rfl,
    by rw [entries_append, ha.2.2, hb.2.2]; rfl⟩

/-- What opening and closing leave alone. -/
structure Quiet (w w' : W σ) (calls : List Call) : Prop where
  mem : w'.mem = w.mem
  log : w'.log = w.log ++ calls
  pos : w'.dev.pos = w.dev.pos
  len : w'.dev.len = w.dev.len
  buf : w'.dev.buf = w.dev.buf
  nodata : NoData calls

theorem Quiet.leftover {w w' : W σ} {calls : List Call} (h : Quiet w w' calls) : leftover w'.dev = leftover w.dev := by
  unfold File.leftover; rw [h.pos, h.len, h.buf]

theorem Quiet.bufOk {w w' : W σ} {calls : List Call} (h : Quiet w w' calls) (hb : BufOk w.dev) : BufOk w'.dev :=
  ⟨by rw [h.pos, h.len]; exact hb.le, by rw [h.len]; exact hb.len⟩

theorem Quiet.trans {w w' w'' : W σ} {a b : List Call} (h1 : Quiet w w' a) (h2 : Quiet w' w'' b) : Quiet w w'' (a ++ b) :=
  ⟨h2.mem.trans h1.mem, by rw [h2.log, h1.log, List.append_assoc], h2.pos.trans h1.pos, h2.len.trans h1.len,
    h2.buf.trans h1.buf, h1.nodata.append h2.nodata⟩

theorem Quiet.refl (w : W σ) : Quiet w w [] := ⟨rfl, by simp, rfl, rfl, rfl, rfl, rfl, rfl⟩

theorem closeForMode_ok (H : Host σ) (mode : Mode) (s : Slot) (w : W σ) (hi : Inv s w) :
    ∃ s' calls, Quiet w (closeForMode H mode w) calls ∧ s.run calls = some s' ∧ Match s' (closeForMode H mode w).dev ∧
      (closeForMode H mode w).dev.success < 65536 ∧
      ((closeForMode H mode w).dev.handle ≠ none → (closeForMode H mode w).dev.mode = mode) ∧
      (w.dev.mode = mode → closeForMode H mode w = w ∧ s' = s) := by
  have hsc := hi.sc
  cases hh : w.dev.handle with
  | none =>
    have he : closeForMode H mode w = w := by unfold closeForMode; rw [hh]
    rw [he]
    exact ⟨s, [], .refl w, rfl, hi.m, hsc, fun h => absurd hh h, fun _ => ⟨rfl, rfl⟩⟩
  | some h =>
    by_cases hm : w.dev.mode ≠ mode
    · cases hi.m with
      | none h0 => rw [hh] at h0; cases h0
      | invalid h0 ht =>
        have hinv : h = .invalid := by rw [hh] at h0; cases h0; rfl
        subst hinv
        have he : closeForMode H mode w = { w with dev := { w.dev with handle := none, success := 0 } } := by
          unfold closeForMode; rw [hh]; dsimp only; rw [if_pos hm, if_pos rfl]
        rw [he]
        exact ⟨.closed, [], ⟨rfl, by simp, rfl, rfl, rfl, rfl, rfl, rfl⟩, rfl, .none rfl, Nat.zero_lt_succ _, fun h => absurd rfl h,
          fun h => absurd h hm⟩
      | file n m h0 ht hmm =>
        have hinv : h = .real n := by rw [hh] at h0; cases h0; rfl
        subst hinv
        have he : closeForMode H mode w = { (callFclose H (.real n) w) with
            dev := { (callFclose H (.real n) w).dev with handle := none, success := 0 } } := by
          unfold closeForMode; rw [hh]; dsimp only; rw [if_pos hm, if_neg (by simp), if_pos ht]
        rw [he]
        refine ⟨.closed, [.fclose (.real n)], ⟨rfl, rfl, rfl, rfl, rfl, rfl, rfl, rfl⟩, ?_, .none rfl, Nat.zero_lt_succ _,
          fun h => absurd rfl h, fun h => absurd h hm⟩
        simp [Slot.run, Slot.step]
      | dir n h0 ht =>
        have hinv : h = .real n := by rw [hh] at h0; cases h0; rfl
        subst hinv
        have he : closeForMode H mode w = { (callClosedir H (.real n) w) with
            dev := { (callClosedir H (.real n) w).dev with handle := none, success := 0 } } := by
          unfold closeForMode; rw [hh]; dsimp only; rw [if_pos hm, if_neg (by simp), if_neg (by rw [ht]; decide), if_pos ht]
        rw [he]
        refine ⟨.closed, [.closedir (.real n)], ⟨rfl, rfl, rfl, rfl, rfl, rfl, rfl, rfl⟩, ?_, .none rfl, Nat.zero_lt_succ _,
          fun h => absurd rfl h, fun h => absurd h hm⟩
        simp [Slot.run, Slot.step]
    · have he : closeForMode H mode w = w := by unfold closeForMode; rw [hh]; dsimp only; rw [if_neg hm]
      rw [he]
      exact ⟨s, [], .refl w, rfl, hi.m, hsc, fun _ => Decidable.not_not.mp hm, fun _ => ⟨rfl, rfl⟩⟩

theorem openForMode_ok (H : Host σ) (memSize : Nat) (hms : 65536 ≤ memSize) (ports : Fin 16 → Byte) (mode : Mode)
    (s : Slot) (w : W σ) (hm : Match s w.dev) (hsc : w.dev.success < 65536) (hmode : w.dev.handle ≠ none → w.dev.mode = mode) :
    ∃ w' s' calls, openForMode H memSize ports mode w = .ok w' ∧ Quiet w w' calls ∧ s.run calls = some s' ∧
      Match s' w'.dev ∧ w'.dev.success < 65536 ∧ (w'.dev.handle ≠ none → w'.dev.mode = mode) ∧
      (w.dev.handle ≠ none → w' = w ∧ s' = s) := by
  cases hh : w.dev.handle with
  | some h =>
    exact ⟨w, s, [], by unfold openForMode; rw [hh], .refl w, rfl, hm, hsc, hmode, fun _ => ⟨rfl, rfl⟩⟩
  | none =>
    have hclosed : s = .closed := by
      cases hm with
      | none _ => rfl
      | invalid h _ => rfl
      | file n m h _ _ => rw [hh] at h; cases h
      | dir n h _ => rw [hh] at h; cases h
    subst hclosed
    obtain ⟨r, hr, -⟩ := readPath_ok ports w.mem memSize hms
    cases r with
    | none =>
      refine ⟨w, .closed, [], ?_, .refl w, rfl, hm, hsc, hmode, fun h => absurd rfl h⟩
      unfold openForMode; rw [hh]; dsimp only; rw [hr]; rfl
    | some path =>
      obtain ⟨st, s1, hst⟩ : ∃ st s1, H.stat path w.host = (st, s1) := ⟨_, _, rfl⟩
      have key : ∃ w', openForMode H memSize ports mode w = .ok w' ∧ w'.dev.mode = mode ∧ w'.dev.success = w.dev.success ∧
          ∃ s' calls, Quiet w w' calls ∧ Slot.closed.run calls = some s' ∧ Match s' w'.dev := by
        unfold openForMode
        rw [hh]
        dsimp only
        rw [hr]
        simp only [bind, Except.bind, pure, Except.pure, callStat, hst]
        cases hty : st.type with
        | regular =>
          obtain ⟨o, s2, ho⟩ : ∃ o s2, H.fopen path mode s1 = (o, s2) := ⟨_, _, rfl⟩
          simp only [callFopen, ho]
          refine ⟨_, rfl, rfl, rfl, ?_⟩
          cases o with
          | none =>
            exact ⟨.closed, [.stat path st, .fopen path mode none], ⟨rfl, by simp, rfl, rfl, rfl, rfl, rfl, rfl⟩, rfl, .none rfl⟩
          | some n =>
            exact ⟨.file n mode, [.stat path st, .fopen path mode (some n)], ⟨rfl, by simp, rfl, rfl, rfl, rfl, rfl, rfl⟩, rfl,
              .file n mode rfl hty rfl⟩
        | directory =>
          obtain ⟨o, s2, ho⟩ : ∃ o s2, H.opendir path s1 = (o, s2) := ⟨_, _, rfl⟩
          simp only [callOpendir, ho]
          refine ⟨_, rfl, rfl, rfl, ?_⟩
          cases o with
          | none =>
            exact ⟨.closed, [.stat path st, .opendir path none], ⟨rfl, by simp, rfl, rfl, rfl, rfl, rfl, rfl⟩, rfl, .none rfl⟩
          | some n =>
            exact ⟨.dir n, [.stat path st, .opendir path (some n)], ⟨rfl, by simp, rfl, rfl, rfl, rfl, rfl, rfl⟩, rfl,
              .dir n rfl hty⟩
        | invalid =>
          dsimp only
          by_cases hmr : mode ≠ .read
          · rw [if_pos hmr]
            obtain ⟨o, s2, ho⟩ : ∃ o s2, H.fopen path mode s1 = (o, s2) := ⟨_, _, rfl⟩
            simp only [callFopen, ho]
            refine ⟨_, rfl, rfl, rfl, ?_⟩
            cases o with
            | none =>
              exact ⟨.closed, [.stat path st, .fopen path mode none], ⟨rfl, by simp, rfl, rfl, rfl, rfl, rfl, rfl⟩, rfl, .none rfl⟩
            | some n =>
              exact ⟨.file n mode, [.stat path st, .fopen path mode (some n)], ⟨rfl, by simp, rfl, rfl, rfl, rfl, rfl, rfl⟩, rfl,
                .file n mode rfl rfl rfl⟩
          · rw [if_neg hmr]
            exact ⟨_, rfl, rfl, rfl, .closed, [.stat path st], ⟨rfl, rfl, rfl, rfl, rfl, rfl, rfl, rfl⟩, rfl, .invalid rfl hty⟩
      obtain ⟨w', h1, h2, h3, s', calls, h4, h5, h6⟩ := key
      exact ⟨w', s', calls, h1, h4, h5, h6, by rw [h3]; exact hsc, fun _ => h2, fun h => absurd rfl h⟩

theorem setMode_ok (H : Host σ) (memSize : Nat) (hms : 65536 ≤ memSize) (ports : Fin 16 → Byte) (mode : Mode)
    (s : Slot) (w : W σ) (hi : Inv s w) :
    ∃ w' s' calls, setMode H memSize ports mode w = .ok w' ∧ Quiet w w' calls ∧ s.run calls = some s' ∧
      Inv s' w' ∧ (w'.dev.handle ≠ none → w'.dev.mode = mode) ∧
      (w.dev.handle ≠ none → w.dev.mode = mode → w' = w ∧ s' = s) := by
  obtain ⟨s1, calls1, a1, a2, a3, a4, a5, a6⟩ := closeForMode_ok H mode s w hi
  obtain ⟨w', s', calls2, b1, b2, b3, b4, b5, b6, b7⟩ := openForMode_ok H memSize hms ports mode s1 (closeForMode H mode w) a3 a4 a5
  refine ⟨w', s', calls1 ++ calls2, b1, a1.trans b2, run_trans a2 b3, ⟨b4, (a1.trans b2).bufOk hi.b, b5⟩, b6, ?_⟩
  intro h1 h2
  obtain ⟨c1, c2⟩ := a6 h2
  rw [c1] at b7
  obtain ⟨d1, d2⟩ := b7 h1
  exact ⟨d1, d2.trans c2⟩

/-! ## The operations -/

/-- What the guest may read at most: what was asked for, but not past the end of the 64K. -/
def room (ports : Fin 16 → Byte) (addrPort : Fin 16) : Nat := clampLength (load2 ports 10) (load2 ports addrPort)

/-- The effect of a read. -/
structure ReadEffect (ports : Fin 16 → Byte) (s' : Slot) (w w' : W σ) (calls : List Call) (data : List Byte) : Prop where
  log : w'.log = w.log ++ calls
  mem : w'.mem = writeAt w.mem (load2 ports 12) data
  len : data.length ≤ room ports 12
  success : w'.dev.success = data.length
  -- the data is what the file system delivered, and a short read means that it delivered nothing the last time
  file : ∀ h m, s' = .file h m → data = delivered calls ∧ leftover w'.dev = leftover w.dev ∧
    (data.length < room ports 12 → ∃ n, 0 < n ∧ calls.getLast? = some (.fread (.real h) n []))
  dir : ∀ h, s' = .dir h → leftover w.dev ++ entriesText (entries calls) = data ++ leftover w'.dev ∧
    (data.length < room ports 12 → calls.getLast? = some (.readdir (.real h) none) ∨
        ∃ e, calls.getLast? = some (.readdir (.real h) (some e)) ∧ 256 < e.2.length)
  closed : s' = .closed → data = [] ∧ leftover w'.dev = leftover w.dev

theorem opRead_ok (H : Host σ) (memSize : Nat) (hms : 65536 ≤ memSize) (ports : Fin 16 → Byte) (s : Slot) (w : W σ) (hi : Inv s w) :
    ∃ w' s' calls data, opRead H memSize ports w = .ok w' ∧ s.run calls = some s' ∧ Inv s' w' ∧
      ReadEffect ports s' w w' calls data ∧
      (w.dev.handle ≠ none → w.dev.mode = .read → s' = s ∧ w'.dev.handle = w.dev.handle ∧ w'.dev.mode = w.dev.mode) := by
  obtain ⟨w1, s1, calls1, a1, a2, a3, a4, a5, a6⟩ := setMode_ok H memSize hms ports .read s w hi
  have hcl := clamp_le (load2 ports 10) (load2 ports 12) (load2_lt ports 12)
  have hroom : room ports 12 = clampLength (load2 ports 10) (load2 ports 12) := rfl
  unfold opRead
  rw [a1]
  simp only [bind, Except.bind, pure, Except.pure]
  have hmm := a4.m
  have hnone : ∀ x : W σ, x = { w1 with dev := { w1.dev with success := 0 } } → s1 = .closed →
      ReadEffect ports s1 w x calls1 [] := by
    intro x hx hs
    subst hx
    refine ⟨a2.log, ?_, Nat.zero_le _, rfl, ?_, ?_, ?_⟩
    · rw [writeAt_nil]; exact a2.mem
    · intro h m hs2; rw [hs] at hs2; cases hs2
    · intro h hs2; rw [hs] at hs2; cases hs2
    · intro _; exact ⟨rfl, a2.leftover⟩
  have hstay : w.dev.handle ≠ none → w.dev.mode = .read → s1 = s ∧ w1.dev.handle = w.dev.handle ∧ w1.dev.mode = w.dev.mode := by
    intro h1 h2
    obtain ⟨c1, c2⟩ := a6 h1 h2
    exact ⟨c2, by rw [c1], by rw [c1]⟩
  generalize hx : s1 = s1' at hmm
  cases hmm with
  | none h =>
    rw [h]
    exact ⟨_, s1, calls1, [], rfl, a3, ⟨hx ▸ .none h, ⟨a4.b.le, a4.b.len⟩, Nat.zero_lt_succ _⟩, hnone _ rfl hx, hstay⟩
  | invalid h ht =>
    rw [h, ht]
    exact ⟨_, s1, calls1, [], rfl, a3, ⟨hx ▸ .invalid h ht, ⟨a4.b.le, a4.b.len⟩, Nat.zero_lt_succ _⟩, hnone _ rfl hx, hstay⟩
  | file n m h ht hmm =>
    rw [h, ht]
    dsimp only
    have hmode : w1.dev.mode = .read := a5 (by rw [h]; simp)
    obtain ⟨calls2, w2, b1, b2, b3, b4, b5, b6, b7⟩ := readLoop_ok H memSize hms (.real n) (clampLength (load2 ports 10) (load2 ports 12))
      (load2 ports 12) (clampLength (load2 ports 10) (load2 ports 12)) 0 w1 (Nat.le_refl _) hcl.1 (by omega)
    rw [b1]
    dsimp only
    have hs1 : s1 = .file n .read := by rw [hx, ← hmm, hmode]
    refine ⟨_, s1, calls1 ++ calls2, delivered calls2, rfl, ?_, ?_, ⟨?_, ?_, ?_, ?_, ?_, ?_, ?_⟩, ?_⟩
    · refine run_trans a3 ?_
      rw [hs1]
      exact run_onlyRead b4
    · refine ⟨?_, ?_, ?_⟩
      · rw [hx]
        exact .file n m (by dsimp only; rw [b2]; exact h) (by dsimp only; rw [b2]; exact ht) (by dsimp only; rw [b2]; exact hmm)
      · exact ⟨by dsimp only; rw [b2]; exact a4.b.le, by dsimp only; rw [b2]; exact a4.b.len⟩
      · dsimp only; omega
    · dsimp only; rw [b3, a2.log, List.append_assoc]
    · dsimp only; rw [b5, a2.mem]
    · exact b6
    · dsimp only; omega
    · intro h2 m2 hs2
      rw [hs1] at hs2
      cases hs2
      refine ⟨by rw [delivered_append, a2.nodata.1]; rfl, ?_, ?_⟩
      · rw [← a2.leftover]
        unfold leftover
        dsimp only
        rw [b2]
      · intro hshort
        obtain ⟨k, hk, hlast⟩ := b7 hshort
        exact ⟨k, hk, by rw [List.getLast?_append, hlast]; rfl⟩
    · intro h2 hs2; rw [hs1] at hs2; cases hs2
    · intro hs2; rw [hs1] at hs2; cases hs2
    · intro h1 h2
      obtain ⟨c1, c2, c3⟩ := hstay h1 h2
      exact ⟨c1, by dsimp only; rw [b2]; exact c2, by dsimp only; rw [b2]; exact c3⟩
  | dir n h ht =>
    rw [h, ht]
    dsimp only
    obtain ⟨data, calls2, w2, b1, b2, b3, b4, b5, b6, b7, b8, b9⟩ := dirLoop_ok H memSize hms (.real n)
      (clampLength (load2 ports 10) (load2 ports 12))
      (load2 ports 12) (clampLength (load2 ports 10) (load2 ports 12)) 0 w1 a4.b (Nat.le_refl _) hcl.1 (by omega)
    rw [b1]
    dsimp only
    obtain ⟨d1, d2, d3, d4⟩ := b3
    refine ⟨_, s1, calls1 ++ calls2, data, rfl, ?_, ?_, ⟨?_, ?_, ?_, ?_, ?_, ?_, ?_⟩, ?_⟩
    · refine run_trans a3 ?_
      rw [hx]
      exact run_onlyReaddir b5
    · refine ⟨?_, ⟨b2.le, b2.len⟩, ?_⟩
      · rw [hx]
        exact .dir n (by dsimp only; rw [d1]; exact h) (by dsimp only; rw [d3]; exact ht)
      · dsimp only; omega
    · dsimp only; rw [b4, a2.log, List.append_assoc]
    · dsimp only; rw [b6, a2.mem]
    · exact b7
    · dsimp only; omega
    · intro h2 m2 hs2; rw [hx] at hs2; cases hs2
    · intro h2 hs2
      rw [hx] at hs2
      cases hs2
      refine ⟨?_, ?_⟩
      · rw [entries_append, a2.nodata.2.2, ← a2.leftover]
        exact b8
      · intro hshort
        rcases b9 hshort with hlast | ⟨e, hlast, he⟩
        · left; rw [List.getLast?_append, hlast]; rfl
        · right; exact ⟨e, by rw [List.getLast?_append, hlast]; rfl, he⟩
    · intro hs2; rw [hx] at hs2; cases hs2
    · intro h1 h2
      obtain ⟨c1, c2, c3⟩ := hstay h1 h2
      exact ⟨c1, by dsimp only; rw [d1]; exact c2, by dsimp only; rw [d2]; exact c3⟩

/-- The effect of a write. -/
structure WriteEffect (ports : Fin 16 → Byte) (s' : Slot) (w w' : W σ) (calls : List Call) : Prop where
  log : w'.log = w.log ++ calls
  mem : w'.mem = w.mem
  len : (accepted calls).length ≤ room ports 14
  data : accepted calls = slice w.mem (load2 ports 14) (accepted calls).length
  success : w'.dev.success = (accepted calls).length
  short : ∀ h m, s' = .file h m → (accepted calls).length < room ports 14 →
    ∃ d, d ≠ [] ∧ calls.getLast? = some (.fwrite (.real h) d 0)

theorem opWrite_ok (H : Host σ) (memSize : Nat) (hms : 65536 ≤ memSize) (ports : Fin 16 → Byte) (s : Slot) (w : W σ) (hi : Inv s w) :
    ∃ w' s' calls, opWrite H memSize ports w = .ok w' ∧ s.run calls = some s' ∧ Inv s' w' ∧
      WriteEffect ports s' w w' calls ∧ leftover w'.dev = leftover w.dev := by
  obtain ⟨mode, hmd, hmr⟩ : ∃ mode, mode = (if ports 7 = 0 then Mode.write else .append) ∧ mode ≠ .read := by
    refine ⟨_, rfl, ?_⟩
    split <;> decide
  obtain ⟨w1, s1, calls1, a1, a2, a3, a4, a5, a6⟩ := setMode_ok H memSize hms ports mode s w hi
  have hcl := clamp_le (load2 ports 10) (load2 ports 14) (load2_lt ports 14)
  have hroom : room ports 14 = clampLength (load2 ports 10) (load2 ports 14) := rfl
  unfold opWrite
  rw [← hmd]
  simp only [bind, Except.bind, pure, Except.pure]
  rw [a1]
  dsimp only
  have hmm := a4.m
  have hnone : ∀ x : W σ, x = { w1 with dev := { w1.dev with success := 0 } } → (∀ h m, s1 ≠ .file h m) →
      WriteEffect ports s1 w x calls1 := by
    intro x hx hs
    subst hx
    refine ⟨a2.log, a2.mem, by rw [a2.nodata.2.1]; exact Nat.zero_le _, by rw [a2.nodata.2.1]; rfl, by rw [a2.nodata.2.1]; rfl, ?_⟩
    intro h m h2
    exact absurd h2 (hs h m)
  generalize hx : s1 = s1' at hmm
  cases hmm with
  | none h =>
    refine ⟨{ w1 with dev := { w1.dev with success := 0 } }, s1, calls1, by simp [h], a3, ⟨hx ▸ .none h, ⟨a4.b.le, a4.b.len⟩, Nat.zero_lt_succ _⟩, hnone _ rfl ?_, a2.leftover⟩
    intro h m hs; rw [hx] at hs; cases hs
  | invalid h ht =>
    refine ⟨{ w1 with dev := { w1.dev with success := 0 } }, s1, calls1, by simp [h, ht], a3, ⟨hx ▸ .invalid h ht, ⟨a4.b.le, a4.b.len⟩, Nat.zero_lt_succ _⟩, hnone _ rfl ?_, a2.leftover⟩
    intro h m hs; rw [hx] at hs; cases hs
  | dir n h ht =>
    refine ⟨{ w1 with dev := { w1.dev with success := 0 } }, s1, calls1, by simp [h, ht], a3, ⟨hx ▸ .dir n h ht, ⟨a4.b.le, a4.b.len⟩, Nat.zero_lt_succ _⟩, hnone _ rfl ?_, a2.leftover⟩
    intro h m hs; rw [hx] at hs; cases hs
  | file n m h ht hmm =>
    rw [h]
    dsimp only
    rw [if_pos ht]
    have hmode : w1.dev.mode = mode := a5 (by rw [h]; simp)
    obtain ⟨calls2, w2, b1, b2, b3, b4, b5, b6, b7, b8⟩ := writeLoop_ok H memSize hms (.real n)
      (clampLength (load2 ports 10) (load2 ports 14))
      (load2 ports 14) (clampLength (load2 ports 10) (load2 ports 14)) 0 w1 (Nat.le_refl _) hcl.1 (by omega)
    rw [b1]
    dsimp only
    have hs1 : s1 = .file n mode := by rw [hx, ← hmm, hmode]
    have hacc : accepted (calls1 ++ calls2) = accepted calls2 := by rw [accepted_append, a2.nodata.2.1]; rfl
    refine ⟨_, s1, calls1 ++ calls2, rfl, ?_, ?_, ⟨?_, ?_, ?_, ?_, ?_, ?_⟩, ?_⟩
    · refine run_trans a3 ?_
      rw [hs1]
      exact run_onlyWrite hmr b4
    · refine ⟨?_, ?_, ?_⟩
      · rw [hx]
        exact .file n m (by dsimp only; rw [b2]; exact h) (by dsimp only; rw [b2]; exact ht) (by dsimp only; rw [b2]; exact hmm)
      · exact ⟨by dsimp only; rw [b2]; exact a4.b.le, by dsimp only; rw [b2]; exact a4.b.len⟩
      · dsimp only; omega
    · dsimp only; rw [b3, a2.log, List.append_assoc]
    · dsimp only; rw [b5, a2.mem]
    · rw [hacc]; exact b6
    · rw [hacc, b7, a2.mem, slice_length]
    · rw [hacc]; dsimp only; omega
    · intro h2 m2 hs2 hshort
      rw [hs1] at hs2
      cases hs2
      rw [hacc] at hshort
      obtain ⟨d, hd, hlast⟩ := b8 hshort
      exact ⟨d, hd, by rw [List.getLast?_append, hlast]; rfl⟩
    · rw [← a2.leftover]
      unfold leftover
      dsimp only
      rw [b2]

/-- The effect of a stat. The text is that of the open file or, if none is open, of the file at the path. -/
structure StatEffect (ports : Fin 16 → Byte) (w w' : W σ) (calls : List Call) : Prop where
  log : w'.log = w.log ++ calls
  effect : (∃ st, w'.mem = writeAt w.mem (load2 ports 4) (statText (room ports 4) st) ∧ w'.dev.success = room ports 4 ∧
      ((w.dev.handle ≠ none ∧ st = w.dev.stat ∧ calls = []) ∨
        (w.dev.handle = none ∧ ∃ p, PathAt w.mem (load2 ports 8) (some p) ∧ calls = [.stat p st]))) ∨
    (w.dev.handle = none ∧ PathAt w.mem (load2 ports 8) none ∧ w'.mem = w.mem ∧ w'.dev.success = 0 ∧ calls = [])
  left : leftover w'.dev = leftover w.dev

theorem Match.of_same {s : Slot} {d d' : Dev} (h : Match s d) (h1 : d'.handle = d.handle) (h2 : d'.stat = d.stat)
    (h3 : d'.mode = d.mode) : Match s d' := by
  cases h with
  | none h => exact .none (h1.trans h)
  | invalid h ht => exact .invalid (h1.trans h) (by rw [h2]; exact ht)
  | file n m h ht hm => exact .file n m (h1.trans h) (by rw [h2]; exact ht) (h3.trans hm)
  | dir n h ht => exact .dir n (h1.trans h) (by rw [h2]; exact ht)

theorem opStat_ok (H : Host σ) (memSize : Nat) (hms : 65536 ≤ memSize) (ports : Fin 16 → Byte) (s : Slot) (w : W σ) (hi : Inv s w) :
    ∃ w' calls, opStat H memSize ports w = .ok w' ∧ s.run calls = some s ∧ Inv s w' ∧ StatEffect ports w w' calls := by
  have hcl := clamp_le (load2 ports 10) (load2 ports 4) (load2_lt ports 4)
  have hroom : room ports 4 = clampLength (load2 ports 10) (load2 ports 4) := rfl
  have hlen : ∀ st, load2 ports 4 + (formatStat (room ports 4) st).length ≤ memSize := by
    intro st
    rw [C19_stat_text, statText_length]
    omega
  cases hh : w.dev.handle with
  | some h =>
    have he : opStat H memSize ports w = .ok { w with
        mem := writeAt w.mem (load2 ports 4) (formatStat (room ports 4) w.dev.stat), dev := { w.dev with success := room ports 4 } } := by
      unfold opStat
      rw [hh]
      dsimp only
      rw [← hroom, store_ok _ _ _ _ (hlen _)]
      rfl
    refine ⟨_, [], he, rfl, ⟨hi.m.of_same rfl rfl rfl, ⟨hi.b.le, hi.b.len⟩, ?_⟩, ⟨by simp, .inl ⟨w.dev.stat, ?_, rfl, .inl ⟨?_, rfl, rfl⟩⟩, rfl⟩⟩
    · dsimp only; omega
    · dsimp only; rw [C19_stat_text]
    · rw [hh]; simp
  | none =>
    obtain ⟨r, hr, hp⟩ := readPath_ok ports w.mem memSize hms
    cases r with
    | none =>
      have he : opStat H memSize ports w = .ok { w with dev := { w.dev with success := 0 } } := by
        unfold opStat
        rw [hh]
        dsimp only
        rw [hr]
        rfl
      exact ⟨_, [], he, rfl, ⟨hi.m.of_same rfl rfl rfl, ⟨hi.b.le, hi.b.len⟩, Nat.zero_lt_succ _⟩,
        ⟨by simp, .inr ⟨hh, hp, rfl, rfl, rfl⟩, rfl⟩⟩
    | some p =>
      obtain ⟨st, s1, hst⟩ : ∃ st s1, H.stat p w.host = (st, s1) := ⟨_, _, rfl⟩
      have he : opStat H memSize ports w = .ok { w with
          mem := writeAt w.mem (load2 ports 4) (formatStat (room ports 4) st), dev := { w.dev with success := room ports 4 },
          host := s1, log := w.log ++ [.stat p st] } := by
        unfold opStat
        rw [hh]
        dsimp only
        rw [hr]
        simp only [bind, Except.bind, callStat, hst]
        rw [← hroom, store_ok _ _ _ _ (hlen _)]
        rfl
      refine ⟨_, [.stat p st], he, rfl, ⟨hi.m.of_same rfl rfl rfl, ⟨hi.b.le, hi.b.len⟩, ?_⟩,
        ⟨rfl, .inl ⟨st, ?_, rfl, .inr ⟨hh, p, hp, rfl⟩⟩, rfl⟩⟩
      · dsimp only; omega
      · dsimp only; rw [C19_stat_text]

/-- The effect of a delete. -/
structure DeleteEffect (ports : Fin 16 → Byte) (w w' : W σ) (calls : List Call) : Prop where
  log : w'.log = w.log ++ calls
  mem : w'.mem = w.mem
  effect : (∃ p r, PathAt w.mem (load2 ports 8) (some p) ∧ calls = [.delete p r] ∧ w'.dev.success = if r then 1 else 0) ∨
    (PathAt w.mem (load2 ports 8) none ∧ calls = [] ∧ w'.dev.success = 0)
  left : leftover w'.dev = leftover w.dev

theorem opDelete_ok (H : Host σ) (memSize : Nat) (hms : 65536 ≤ memSize) (ports : Fin 16 → Byte) (s : Slot) (w : W σ) (hi : Inv s w) :
    ∃ w' calls, opDelete H memSize ports w = .ok w' ∧ s.run calls = some s ∧ Inv s w' ∧ DeleteEffect ports w w' calls := by
  obtain ⟨r, hr, hp⟩ := readPath_ok ports w.mem memSize hms
  unfold opDelete
  rw [hr]
  simp only [bind, Except.bind, pure, Except.pure]
  cases r with
  | none =>
    exact ⟨_, [], rfl, rfl, ⟨hi.m.of_same rfl rfl rfl, ⟨hi.b.le, hi.b.len⟩, Nat.zero_lt_succ _⟩,
      ⟨by simp, rfl, .inr ⟨hp, rfl, rfl⟩, rfl⟩⟩
  | some p =>
    obtain ⟨r, s1, hst⟩ : ∃ r s1, H.delete p w.host = (r, s1) := ⟨_, _, rfl⟩
    simp only [callDelete, hst]
    refine ⟨_, [.delete p r], rfl, rfl, ⟨hi.m.of_same rfl rfl rfl, ⟨hi.b.le, hi.b.len⟩, ?_⟩,
      ⟨rfl, rfl, .inl ⟨p, r, hp, rfl, rfl⟩, rfl⟩⟩
    dsimp only
    split <;> omega

theorem opName_ok (H : Host σ) (s : Slot) (w : W σ) (hi : Inv s w) :
    ∃ calls, s.run calls = some .closed ∧ Inv .closed (opName H w) ∧ Quiet w (opName H w) calls := by
  have hb := hi.b
  have hsc := hi.sc
  cases hi.m with
  | none h =>
    have he : opName H w = w := by unfold opName; rw [h]
    rw [he]
    exact ⟨[], rfl, hi, .refl w⟩
  | invalid h ht =>
    have he : opName H w = { w with dev := { w.dev with handle := none } } := by unfold opName; rw [h]; dsimp only; rw [ht]
    rw [he]
    exact ⟨[], rfl, ⟨.none rfl, ⟨hb.le, hb.len⟩, hsc⟩, ⟨rfl, by simp, rfl, rfl, rfl, rfl, rfl, rfl⟩⟩
  | file n m h ht hm =>
    have he : opName H w = { (callFclose H (.real n) w) with dev := { w.dev with handle := none } } := by
      unfold opName; rw [h]; dsimp only; rw [ht]; rfl
    rw [he]
    exact ⟨[.fclose (.real n)], by simp [Slot.run, Slot.step], ⟨.none rfl, ⟨hb.le, hb.len⟩, hsc⟩, ⟨rfl, rfl, rfl, rfl, rfl, rfl, rfl, rfl⟩⟩
  | dir n h ht =>
    have he : opName H w = { (callClosedir H (.real n) w) with dev := { w.dev with handle := none } } := by
      unfold opName; rw [h]; dsimp only; rw [ht]; rfl
    rw [he]
    exact ⟨[.closedir (.real n)], by simp [Slot.run, Slot.step], ⟨.none rfl, ⟨hb.le, hb.len⟩, hsc⟩, ⟨rfl, rfl, rfl, rfl, rfl, rfl, rfl, rfl⟩⟩

/-! ## Histories -/

theorem Inv.setMem {s : Slot} {w : W σ} (h : Inv s w) (mem : Nat → Byte) : Inv s { w with mem := mem } := ⟨h.m, h.b, h.sc⟩

theorem guestOp_ok (H : Host σ) (memSize : Nat) (hms : 65536 ≤ memSize) (op : Op) (s : Slot) (w : W σ) (hi : Inv s w) :
    ∃ w' s' calls, guestOp H memSize op w = .ok w' ∧ w'.log = w.log ++ calls ∧ s.run calls = some s' ∧ Inv s' w' := by
  have hi := hi.setMem op.mem
  unfold guestOp deo
  by_cases h5 : op.port = 5
  · rw [if_pos h5]
    obtain ⟨w', calls, a1, a2, a3, a4⟩ := opStat_ok H memSize hms op.ports s _ hi
    exact ⟨w', s, calls, a1, a4.log, a2, a3⟩
  rw [if_neg h5]
  by_cases h6 : op.port = 6
  · rw [if_pos h6]
    obtain ⟨w', calls, a1, a2, a3, a4⟩ := opDelete_ok H memSize hms op.ports s _ hi
    exact ⟨w', s, calls, a1, a4.log, a2, a3⟩
  rw [if_neg h6]
  by_cases h9 : op.port = 9
  · rw [if_pos h9]
    obtain ⟨calls, a1, a2, a3⟩ := opName_ok H s _ hi
    exact ⟨_, .closed, calls, rfl, a3.log, a1, a2⟩
  rw [if_neg h9]
  by_cases h13 : op.port = 13
  · rw [if_pos h13]
    obtain ⟨w', s', calls, data, a1, a2, a3, a4, a5⟩ := opRead_ok H memSize hms op.ports s _ hi
    exact ⟨w', s', calls, a1, a4.log, a2, a3⟩
  rw [if_neg h13]
  by_cases h15 : op.port = 15
  · rw [if_pos h15]
    obtain ⟨w', s', calls, a1, a2, a3, a4, a5⟩ := opWrite_ok H memSize hms op.ports s _ hi
    exact ⟨w', s', calls, a1, a4.log, a2, a3⟩
  rw [if_neg h15]
  exact ⟨_, s, [], rfl, by simp, rfl, hi⟩

theorem guestOps_ok (H : Host σ) (memSize : Nat) (hms : 65536 ≤ memSize) (ops : List Op) (s : Slot) (w : W σ) (hi : Inv s w) :
    ∃ w' s' calls, guestOps H memSize ops w = .ok w' ∧ w'.log = w.log ++ calls ∧ s.run calls = some s' ∧ Inv s' w' := by
  induction ops generalizing s w with
  | nil => exact ⟨w, s, [], rfl, by simp, rfl, hi⟩
  | cons op ops ih =>
    obtain ⟨w1, s1, calls1, a1, a2, a3, a4⟩ := guestOp_ok H memSize hms op s w hi
    obtain ⟨w2, s2, calls2, b1, b2, b3, b4⟩ := ih s1 w1 a4
    refine ⟨w2, s2, calls1 ++ calls2, ?_, by rw [b2, a2, List.append_assoc], run_trans a3 b3, b4⟩
    unfold guestOps
    rw [List.foldlM_cons, a1]
    exact b1

/-- **C17.** In every history of port writes, whatever the guest memory contains and whatever the file system does, the
device runs without undefined behaviour and its calls obey the discipline of `Slot.step`. -/
theorem C17_discipline (H : Host σ) (memSize : Nat) (hms : 65536 ≤ memSize) (host : σ) (ops : List Op) :
    ∃ w s, guestOps H memSize ops (fresh host) = .ok w ∧ Slot.closed.run w.log = some s := by
  obtain ⟨w, s, calls, a1, a2, a3, a4⟩ := guestOps_ok H memSize hms ops .closed (fresh host) (fresh_inv host)
  refine ⟨w, s, a1, ?_⟩
  rw [a2]
  exact a3

/-- The number of handles obtained and of handles given back according to a log. -/
def opened : List Call → Nat
  | [] => 0
  | .fopen _ _ (some _) :: l => opened l + 1
  | .opendir _ (some _) :: l => opened l + 1
  | _ :: l => opened l
def closed : List Call → Nat
  | [] => 0
  | .fclose _ :: l => closed l + 1
  | .closedir _ :: l => closed l + 1
  | _ :: l => closed l

/-- 1 if a slot is open. -/
def Slot.count : Slot → Nat
  | .closed => 0
  | _ => 1

theorem run_balance (log : List Call) (s s' : Slot) (h : s.run log = some s') : s.count + opened log = closed log + s'.count := by
  induction log generalizing s with
  | nil => cases h; simp [opened, closed]
  | cons c l ih =>
    unfold Slot.run at h
    rw [List.foldlM_cons] at h
    cases hs : s.step c with
    | none => rw [hs] at h; cases h
    | some t =>
      rw [hs] at h
      have hb := ih t h
      cases c with
      | stat p r => cases hs; simpa [opened, closed] using hb
      | delete p r => cases hs; simpa [opened, closed] using hb
      | fopen p m r =>
        cases s with
        | closed => cases r <;> cases hs <;> simp [opened, closed, Slot.count] at hb ⊢ <;> omega
        | file h m => simp [Slot.step] at hs
        | dir h => simp [Slot.step] at hs
      | opendir p r =>
        cases s with
        | closed => cases r <;> cases hs <;> simp [opened, closed, Slot.count] at hb ⊢ <;> omega
        | file h m => simp [Slot.step] at hs
        | dir h => simp [Slot.step] at hs
      | fclose x =>
        cases s <;> cases x <;> simp [Slot.step] at hs
        obtain ⟨_, rfl⟩ := hs
        simp [opened, closed, Slot.count] at hb ⊢; omega
      | closedir x =>
        cases s <;> cases x <;> simp [Slot.step] at hs
        obtain ⟨_, rfl⟩ := hs
        simp [opened, closed, Slot.count] at hb ⊢; omega
      | fread x n d =>
        cases s <;> cases x <;> simp [Slot.step] at hs
        obtain ⟨_, rfl⟩ := hs
        simpa [opened, closed, Slot.count] using hb
      | fwrite x n d =>
        cases s <;> cases x <;> simp [Slot.step] at hs
        obtain ⟨_, rfl⟩ := hs
        simpa [opened, closed, Slot.count] using hb
      | readdir x d =>
        cases s <;> cases x <;> simp [Slot.step] at hs
        obtain ⟨_, rfl⟩ := hs
        simpa [opened, closed, Slot.count] using hb

/-- **C17.** In every history at most one handle is open, and none after the guest has set the name port. -/
theorem C17_no_leak (H : Host σ) (memSize : Nat) (hms : 65536 ≤ memSize) (host : σ) (ops : List Op) :
    ∃ w, guestOps H memSize ops (fresh host) = .ok w ∧ closed w.log ≤ opened w.log ∧ opened w.log ≤ closed w.log + 1 ∧
      ∀ ports mem, ∃ w', guestOp H memSize ⟨ports, 9, mem⟩ w = .ok w' ∧ opened w'.log = closed w'.log := by
  obtain ⟨w, s, calls, a1, a2, a3, a4⟩ := guestOps_ok H memSize hms ops .closed (fresh host) (fresh_inv host)
  have hlog : w.log = calls := a2
  have hb := run_balance calls .closed s a3
  have h0 : Slot.closed.count = 0 := rfl
  have h1 : s.count ≤ 1 := by cases s <;> simp [Slot.count]
  refine ⟨w, a1, by rw [hlog]; omega, by rw [hlog]; omega, ?_⟩
  intro ports mem
  obtain ⟨calls2, b1, b2, b3⟩ := opName_ok H s _ (a4.setMem mem)
  refine ⟨_, rfl, ?_⟩
  have hb2 := run_balance (calls ++ calls2) .closed .closed (run_trans a3 b1)
  rw [b3.log]
  dsimp only
  rw [hlog]
  omega

/-! ## C18 -/

/-- The clipped length is the length asked for or what remains of the 64K, whichever is less - except at address 0. -/
theorem C18_room (ports : Fin 16 → Byte) (p : Fin 16) (h : load2 ports p ≠ 0) :
    room ports p = min (load2 ports 10) (65536 - load2 ports p) := clamp_eq _ _ (Nat.pos_of_ne_zero h) (load2_lt ports p)

/-- **C18 fails at address 0**: nothing is read, written or formatted there, whatever the length. -/
theorem C18_address_zero_violated (ports : Fin 16 → Byte) (p : Fin 16) (h : load2 ports p = 0) : room ports p = 0 := by
  unfold room clampLength
  rw [h]
  dsimp only
  split <;> omega

/-- Memory outside `[a, a + n)` is the same. -/
def SameOutside (m m' : Nat → Byte) (a n : Nat) : Prop := ∀ i, ¬(a ≤ i ∧ i < a + n) → m' i = m i

theorem sameOutside_writeAt (m : Nat → Byte) (a : Nat) (l : List Byte) (n : Nat) (h : l.length ≤ n) : SameOutside m (writeAt m a l) a n := by
  intro i hi
  unfold writeAt
  rw [if_neg (by omega)]

theorem sameOutside_refl (m : Nat → Byte) (a n : Nat) : SameOutside m m a n := fun _ _ => rfl

/-- **C18.** A read, in every state a history can lead to: memory changes only in `[addr, addr + n)` where `n` is what
the success port then says; `n` is at most the length asked for and `addr + n ≤ 65536`; the bytes there are the ones the
file system delivered; and if `n` is less than it could be, the file system delivered nothing the last time it was
asked. -/
theorem C18_read (H : Host σ) (memSize : Nat) (hms : 65536 ≤ memSize) (host : σ) (ops : List Op) (ports : Fin 16 → Byte) (mem : Nat → Byte) :
    ∃ w w' n calls, guestOps H memSize ops (fresh host) = .ok w ∧ guestOp H memSize ⟨ports, 13, mem⟩ w = .ok w' ∧
      w'.log = w.log ++ calls ∧ successPort w'.dev ports = n ∧ n ≤ load2 ports 10 ∧ load2 ports 12 + n ≤ 65536 ∧
      SameOutside mem w'.mem (load2 ports 12) n ∧
      (∀ h m, Slot.closed.run w'.log = some (.file h m) → slice w'.mem (load2 ports 12) n = delivered calls ∧
        (n < room ports 12 → ∃ k, 0 < k ∧ calls.getLast? = some (.fread (.real h) k []))) ∧
      (Slot.closed.run w'.log = some .closed → n = 0) := by
  obtain ⟨w, s, calls0, a1, a2, a3, a4⟩ := guestOps_ok H memSize hms ops .closed (fresh host) (fresh_inv host)
  obtain ⟨w', s', calls, data, b1, b2, b3, b4, b5⟩ := opRead_ok H memSize hms ports s _ (a4.setMem mem)
  have hcl := clamp_le (load2 ports 10) (load2 ports 12) (load2_lt ports 12)
  have hroom : room ports 12 = clampLength (load2 ports 10) (load2 ports 12) := rfl
  have hlen := b4.len
  have hrun : Slot.closed.run w'.log = some s' := by
    rw [b4.log]
    dsimp only
    rw [a2]
    exact run_trans a3 b2
  have hsl : slice w'.mem (load2 ports 12) data.length = data := by rw [b4.mem]; exact slice_writeAt _ _ _
  refine ⟨w, w', data.length, calls, a1, b1, b4.log, ?_, by omega, by omega, ?_, ?_, ?_⟩
  · rw [successPort_eq _ _ b3.sc]; exact b4.success
  · rw [b4.mem]; exact sameOutside_writeAt _ _ _ _ (Nat.le_refl _)
  · intro h m hs
    rw [hrun] at hs
    obtain ⟨c1, c2, c3⟩ := b4.file h m (Option.some.inj hs)
    exact ⟨by rw [hsl]; exact c1, c3⟩
  · intro hs
    rw [hrun] at hs
    rw [(b4.closed (Option.some.inj hs)).1]; rfl

/-- **C18.** A write, in every state a history can lead to: the file system accepted, in order, the bytes at
`[addr, addr + n)` where `n` is what the success port says; memory does not change; and if `n` is less than it could be
while a file is open, the file system accepted nothing the last time. -/
theorem C18_write (H : Host σ) (memSize : Nat) (hms : 65536 ≤ memSize) (host : σ) (ops : List Op) (ports : Fin 16 → Byte) (mem : Nat → Byte) :
    ∃ w w' n calls, guestOps H memSize ops (fresh host) = .ok w ∧ guestOp H memSize ⟨ports, 15, mem⟩ w = .ok w' ∧
      w'.log = w.log ++ calls ∧ successPort w'.dev ports = n ∧ n ≤ load2 ports 10 ∧ load2 ports 14 + n ≤ 65536 ∧
      w'.mem = mem ∧ accepted calls = slice mem (load2 ports 14) n ∧
      (∀ h m, Slot.closed.run w'.log = some (.file h m) → n < room ports 14 →
        ∃ d, d ≠ [] ∧ calls.getLast? = some (.fwrite (.real h) d 0)) := by
  obtain ⟨w, s, calls0, a1, a2, a3, a4⟩ := guestOps_ok H memSize hms ops .closed (fresh host) (fresh_inv host)
  obtain ⟨w', s', calls, b1, b2, b3, b4, b5⟩ := opWrite_ok H memSize hms ports s _ (a4.setMem mem)
  have hcl := clamp_le (load2 ports 10) (load2 ports 14) (load2_lt ports 14)
  have hroom : room ports 14 = clampLength (load2 ports 10) (load2 ports 14) := rfl
  have hlen := b4.len
  have hrun : Slot.closed.run w'.log = some s' := by
    rw [b4.log]
    dsimp only
    rw [a2]
    exact run_trans a3 b2
  refine ⟨w, w', (accepted calls).length, calls, a1, b1, b4.log, ?_, by omega, by omega, b4.mem, b4.data, ?_⟩
  · rw [successPort_eq _ _ b3.sc]; exact b4.success
  · intro h m hs
    rw [hrun] at hs
    exact b4.short h m (Option.some.inj hs)

/-- **C18.** A stat, in every state a history can lead to: memory changes only in `[addr, addr + n)` where `n` is what
the success port says, and what is there is the documented text with `n` columns (or nothing happens because there is no
path). -/
theorem C18_stat (H : Host σ) (memSize : Nat) (hms : 65536 ≤ memSize) (host : σ) (ops : List Op) (ports : Fin 16 → Byte) (mem : Nat → Byte) :
    ∃ w w' n calls, guestOps H memSize ops (fresh host) = .ok w ∧ guestOp H memSize ⟨ports, 5, mem⟩ w = .ok w' ∧
      w'.log = w.log ++ calls ∧ successPort w'.dev ports = n ∧ n ≤ load2 ports 10 ∧ load2 ports 4 + n ≤ 65536 ∧
      SameOutside mem w'.mem (load2 ports 4) n ∧
      ((∃ st, slice w'.mem (load2 ports 4) n = statText n st ∧ n = room ports 4 ∧
        ((w.dev.handle ≠ none ∧ st = w.dev.stat) ∨ ∃ p, PathAt mem (load2 ports 8) (some p) ∧ calls = [.stat p st])) ∨
        (n = 0 ∧ PathAt mem (load2 ports 8) none)) := by
  obtain ⟨w, s, calls0, a1, a2, a3, a4⟩ := guestOps_ok H memSize hms ops .closed (fresh host) (fresh_inv host)
  obtain ⟨w', calls, b1, b2, b3, b4⟩ := opStat_ok H memSize hms ports s _ (a4.setMem mem)
  have hcl := clamp_le (load2 ports 10) (load2 ports 4) (load2_lt ports 4)
  have hroom : room ports 4 = clampLength (load2 ports 10) (load2 ports 4) := rfl
  have hsp := successPort_eq w'.dev ports b3.sc
  rcases b4.effect with ⟨st, c1, c2, c3⟩ | ⟨c1, c2, c3, c4, c5⟩
  · refine ⟨w, w', room ports 4, calls, a1, b1, b4.log, by rw [hsp]; exact c2, by omega, by omega, ?_, .inl ⟨st, ?_, rfl, ?_⟩⟩
    · rw [c1]; exact sameOutside_writeAt _ _ _ _ (by rw [statText_length])
    · have := slice_writeAt mem (load2 ports 4) (statText (room ports 4) st)
      rw [statText_length] at this
      rw [c1]; exact this
    · rcases c3 with c3 | ⟨d1, p, d2, d3⟩
      · exact .inl ⟨c3.1, c3.2.1⟩
      · exact .inr ⟨p, d2, d3⟩
  · refine ⟨w, w', 0, calls, a1, b1, b4.log, by rw [hsp]; exact c4, Nat.zero_le _, by have := load2_lt ports 4; omega, ?_, .inr ⟨rfl, c2⟩⟩
    rw [c3]; exact sameOutside_refl _ _ _

/-- **C18.** A delete: the success port says whether the file system deleted the file at the path. -/
theorem C18_delete (H : Host σ) (memSize : Nat) (hms : 65536 ≤ memSize) (host : σ) (ops : List Op) (ports : Fin 16 → Byte) (mem : Nat → Byte) :
    ∃ w w' calls, guestOps H memSize ops (fresh host) = .ok w ∧ guestOp H memSize ⟨ports, 6, mem⟩ w = .ok w' ∧
      w'.log = w.log ++ calls ∧ w'.mem = mem ∧
      ((∃ p r, PathAt mem (load2 ports 8) (some p) ∧ calls = [.delete p r] ∧ successPort w'.dev ports = if r then 1 else 0) ∨
        (PathAt mem (load2 ports 8) none ∧ calls = [] ∧ successPort w'.dev ports = 0)) := by
  obtain ⟨w, s, calls0, a1, a2, a3, a4⟩ := guestOps_ok H memSize hms ops .closed (fresh host) (fresh_inv host)
  obtain ⟨w', calls, b1, b2, b3, b4⟩ := opDelete_ok H memSize hms ports s _ (a4.setMem mem)
  have hsp := successPort_eq w'.dev ports b3.sc
  refine ⟨w, w', calls, a1, b1, b4.log, b4.mem, ?_⟩
  rw [hsp]
  exact b4.effect

/-! ## C19 -/

/-- The bytes the guest receives in a series of reads: after each, those at `[addr, addr + n)` where `n` is what the
success port says. -/
def guestReads (H : Host σ) (memSize : Nat) : List ((Fin 16 → Byte) × (Nat → Byte)) → W σ → Res (List Byte × W σ)
  | [], w => .ok ([], w)
  | (ports, mem) :: l, w => do
    let w ← guestOp H memSize ⟨ports, 13, mem⟩ w
    let (rest, w') ← guestReads H memSize l w
    return (slice w.mem (load2 ports 12) (successPort w.dev ports) ++ rest, w')

theorem reads_open (H : Host σ) (memSize : Nat) (hms : 65536 ≤ memSize) (rs : List ((Fin 16 → Byte) × (Nat → Byte))) (h : Nat)
    (w : W σ) (hi : Inv (.dir h) w) (hm : w.dev.mode = .read) :
    ∃ bytes w' calls, guestReads H memSize rs w = .ok (bytes, w') ∧ w'.log = w.log ++ calls ∧
      leftover w.dev ++ entriesText (entries calls) = bytes ++ leftover w'.dev := by
  induction rs generalizing w with
  | nil => exact ⟨[], w, [], rfl, by simp, by simp [entries, entriesText]⟩
  | cons r rs ih =>
    obtain ⟨ports, mem⟩ := r
    obtain ⟨w1, s1, calls1, data, b1, b2, b3, b4, b5⟩ := opRead_ok H memSize hms ports (.dir h) _ (hi.setMem mem)
    have hopen : w.dev.handle ≠ none := by
      cases hi.m with
      | dir n hh ht => rw [hh]; simp
    obtain ⟨c1, c2, c3⟩ := b5 hopen hm
    subst c1
    obtain ⟨bytes, w2, calls2, d1, d2, d3⟩ := ih w1 b3 (c3.trans hm)
    have hsl : slice w1.mem (load2 ports 12) (successPort w1.dev ports) = data := by
      rw [successPort_eq _ _ b3.sc, b4.success, b4.mem]
      exact slice_writeAt _ _ _
    refine ⟨data ++ bytes, w2, calls1 ++ calls2, ?_, ?_, ?_⟩
    · unfold guestReads
      have : guestOp H memSize ⟨ports, 13, mem⟩ w = .ok w1 := b1
      rw [this]
      simp only [bind, Except.bind, pure, Except.pure]
      rw [d1]
      dsimp only
      rw [hsl]
    · rw [d2, b4.log, List.append_assoc]
    · rw [entries_append, entriesText_append, ← List.append_assoc]
      have := (b4.dir h rfl).1
      dsimp only at this
      rw [this, List.append_assoc, d3, List.append_assoc]

/-- The text of all the entries, for names of at most 256 bytes. -/
theorem entriesText_eq (es : List (FStat × List Byte)) (h : ∀ e ∈ es, e.2.length ≤ 256) : entriesText es = es.flatMap entryText := by
  induction es with
  | nil => rfl
  | cons e l ih =>
    rw [entriesText, if_pos (h e (by simp)), ih fun e he => h e (by simp [he]), List.flatMap_cons]

/-- **C19.** A directory opened when nothing is left of another one, read in any number of steps of any sizes: the bytes
the guest received, followed by what the device has ready, are the lines of the entries the file system produced, in
order. Nothing is lost and nothing is duplicated. Missing: a directory opened when something is left, see
`C19_reopen_violated`; and names of more than 256 bytes, which are dropped. -/
theorem C19_directory_bytes_partial (H : Host σ) (memSize : Nat) (hms : 65536 ≤ memSize) (host : σ) (ops : List Op) (w : W σ)
    (hw : guestOps H memSize ops (fresh host) = .ok w) (hclosed : w.dev.handle = none) (hleft : leftover w.dev = [])
    (ports : Fin 16 → Byte) (mem : Nat → Byte) (rs : List ((Fin 16 → Byte) × (Nat → Byte))) (w1 : W σ) (h : Nat)
    (hw1 : guestOp H memSize ⟨ports, 13, mem⟩ w = .ok w1) (hdir : Slot.closed.run w1.log = some (.dir h)) :
    ∃ bytes w' calls, guestReads H memSize ((ports, mem) :: rs) w = .ok (bytes, w') ∧ w'.log = w.log ++ calls ∧
      ((∀ e ∈ entries calls, e.2.length ≤ 256) → bytes ++ leftover w'.dev = (entries calls).flatMap entryText) := by
  obtain ⟨w0, s, calls0, a1, a2, a3, a4⟩ := guestOps_ok H memSize hms ops .closed (fresh host) (fresh_inv host)
  rw [hw] at a1
  cases a1
  obtain ⟨w1', s1, calls1, data, b1, b2, b3, b4, b5⟩ := opRead_ok H memSize hms ports s _ (a4.setMem mem)
  have hb1 : guestOp H memSize ⟨ports, 13, mem⟩ w = .ok w1' := b1
  rw [hw1] at hb1
  cases hb1
  have hrun : Slot.closed.run w1.log = some s1 := by
    rw [b4.log]
    dsimp only
    rw [a2]
    exact run_trans a3 b2
  rw [hrun] at hdir
  cases hdir
  have hmode : w1.dev.mode = .read := by
    obtain ⟨x, s', calls', c1, c2, c3, c4, c5, c6⟩ := setMode_ok H memSize hms ports .read s _ (a4.setMem mem)
    unfold opRead at b1
    rw [c1] at b1
    simp only [bind, Except.bind, pure, Except.pure] at b1
    have hx := c4.m
    have hh1 : w1.dev.handle ≠ none := by
      cases b3.m with
      | dir n hh ht => rw [hh]; simp
    cases hxh : x.dev.handle with
    | none =>
      rw [hxh] at b1
      cases b1
      exact absurd hxh hh1
    | some f =>
      have hxm := c5 (by rw [hxh]; simp)
      rw [hxh] at b1
      dsimp only at b1
      have hcl := clamp_le (load2 ports 10) (load2 ports 12) (load2_lt ports 12)
      cases hxt : x.dev.stat.type with
      | invalid => rw [hxt] at b1; cases b1; exact hxm
      | regular =>
        obtain ⟨calls2, w2, e1, e2, -⟩ := readLoop_ok H memSize hms f (clampLength (load2 ports 10) (load2 ports 12))
          (load2 ports 12) (clampLength (load2 ports 10) (load2 ports 12)) 0 x (Nat.le_refl _) hcl.1 (by omega)
        rw [hxt] at b1
        dsimp only at b1
        rw [e1] at b1
        cases b1
        dsimp only
        rw [e2]
        exact hxm
      | directory =>
        obtain ⟨data, calls2, w2, e1, -, e3, -⟩ := dirLoop_ok H memSize hms f (clampLength (load2 ports 10) (load2 ports 12))
          (load2 ports 12) (clampLength (load2 ports 10) (load2 ports 12)) 0 x c4.b (Nat.le_refl _) hcl.1 (by omega)
        rw [hxt] at b1
        dsimp only at b1
        rw [e1] at b1
        cases b1
        dsimp only
        rw [e3.2.1]
        exact hxm
  obtain ⟨bytes, w2, calls2, d1, d2, d3⟩ := reads_open H memSize hms rs h w1 b3 hmode
  have hsl : slice w1.mem (load2 ports 12) (successPort w1.dev ports) = data := by
    rw [successPort_eq _ _ b3.sc, b4.success, b4.mem]
    exact slice_writeAt _ _ _
  refine ⟨data ++ bytes, w2, calls1 ++ calls2, ?_, ?_, ?_⟩
  · unfold guestReads
    rw [hw1]
    simp only [bind, Except.bind, pure, Except.pure]
    rw [d1]
    dsimp only
    rw [hsl]
  · rw [d2, b4.log, List.append_assoc]
  · intro hnames
    rw [← entriesText_eq _ hnames, entries_append, entriesText_append]
    have := (b4.dir h rfl).1
    dsimp only at this
    rw [hleft, List.nil_append] at this
    rw [this, List.append_assoc, List.append_assoc, d3]

end Buxn.File
