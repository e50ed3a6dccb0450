import Verif.Devices.AudioNote
/-!
# Audio in the graphical emulator

Models `/repo/src/gui.c:437-492` and `609-618`: the hand-over of notes from the emulator thread to the audio thread, the
mixing of the four channels and the notification of the end of a note.

The two threads are interleaved step by step. Each step is one access to shared memory, except that the copy of a
message into the staging buffer and the clearing of a buffer are one step each; `C49_no_race` justifies this: the other
thread never touches that buffer meanwhile. Memory is sequentially consistent; the acquire/release annotations of the
code, which make that sound for race-free programs, are not modelled.
-/
namespace Buxn.GuiAudio
open Buxn.VM Buxn.Audio

/-- Where the emulator thread is: outside, or between the exchange and the swap of `try_submit_audio`. -/
inductive MainPc | idle | swapping
  deriving DecidableEq

/-- Where the audio thread is: outside the hand-over part of `audio_callback`, or about to look at slot `n` of the
buffer it has loaded. -/
inductive AudioPc | idle | reading (b : Bool) (n : Nat)
  deriving DecidableEq

/-- The shared state, `gui.c:77-83`; the buffers are called `false` and `true`. `sent` and `got` are a record of the
messages sent by the guest and received by the channels, for each device. -/
structure St (μ : Type) where
  buf : Bool → Fin 4 → Option μ
  incoming : Option Bool
  outgoing : Bool
  want : Bool
  main : MainPc
  audio : AudioPc
  sent : Fin 4 → List μ
  got : Fin 4 → List μ

variable {μ : Type}

/-- `init`, `gui.c:504`, after the `memset` of `sokol_main`, `gui.c:939`. -/
def St.init : St μ :=
  { buf := fun _ _ => none, incoming := none, outgoing := false, want := false, main := .idle, audio := .idle,
    sent := fun _ => [], got := fun _ => [] }

/-- `buxn_audio_send`, `gui.c:458-466`. -/
def send (d : Fin 4) (m : μ) (s : St μ) : St μ :=
  { s with
    buf := upd s.buf s.outgoing (upd (s.buf s.outgoing) d (some m))
    want := true
    sent := upd s.sent d (s.sent d ++ [m]) }

/-- The exchange of `try_submit_audio`, `gui.c:440-444` and `454` when it fails. -/
def exchange (s : St μ) : St μ :=
  match s.incoming with
  | none => { s with incoming := some s.outgoing, main := .swapping }
  | some _ => { s with want := true }

/-- The swap, `gui.c:447-454`. -/
def swap (s : St μ) : St μ :=
  { s with
    outgoing := !s.outgoing
    buf := upd s.buf (!s.outgoing) (fun _ => none)
    want := false
    main := .idle }

/-- The load of the pointer, `gui.c:471-474`. -/
def load (s : St μ) : St μ :=
  match s.incoming with
  | some b => { s with audio := .reading b 0 }
  | none => s

/-- One round of the loop, `gui.c:475-480`. -/
def take (b : Bool) (n : Fin 4) (s : St μ) : St μ :=
  match s.buf b n with
  | some m => { s with audio := .reading b (n.val + 1), got := upd s.got n (s.got n ++ [m]) }
  | none => { s with audio := .reading b (n.val + 1) }

/-- `gui.c:481`. -/
def release (s : St μ) : St μ := { s with incoming := none, audio := .idle }

/-- One step of either thread. -/
inductive Step : St μ → St μ → Prop
  | send (s : St μ) (d : Fin 4) (m : μ) (h : s.main = .idle) : Step s (send d m s)
  | exchange (s : St μ) (h : s.main = .idle) (hw : s.want = true) : Step s (exchange s)
  | swap (s : St μ) (h : s.main = .swapping) : Step s (swap s)
  | load (s : St μ) (h : s.audio = .idle) : Step s (load s)
  | take (s : St μ) (b : Bool) (n : Fin 4) (h : s.audio = .reading b n.val) : Step s (take b n s)
  | release (s : St μ) (b : Bool) (h : s.audio = .reading b 4) : Step s (release s)

/-- Every schedule. -/
inductive Reach : St μ → Prop
  | init : Reach St.init
  | step {s s' : St μ} (h : Reach s) (hs : Step s s') : Reach s'

/-- `buxn_audio_notify_finished`, `audio.c:155-159`, as called for channel `i` by `frame`, `gui.c:615`: the vector run. -/
def finishVector (vm : VM) (i : Fin 4) : Short := vm.devLoad2 (0x30 + BitVec.ofNat 8 i.val)

/-- The rendering part of `audio_callback`, `gui.c:484-491`: every channel writes its frames over the buffer, from its
start. -/
def callback (ch n : Nat) (channels : List (List (List Int))) : List (List Int) :=
  channels.foldl (fun out fs => fs ++ out.drop fs.length) (List.replicate n (silence ch))

/-! ## Hand-over (C49) -/

/-- What the audio thread still has to take. -/
def pendIn (s : St μ) (d : Fin 4) : List μ :=
  match s.audio with
  | .reading b n => if n ≤ d.val then (s.buf b d).toList else []
  | .idle => match s.incoming with
    | some b => (s.buf b d).toList
    | none => []

/-- What the emulator thread still has to submit. -/
def pendOut (s : St μ) (d : Fin 4) : List μ :=
  match s.main with
  | .idle => (s.buf s.outgoing d).toList
  | .swapping => []

structure HInv (s : St μ) : Prop where
  idle : s.main = .idle → s.incoming ≠ some s.outgoing
  swapping : s.main = .swapping → s.incoming = none ∨ s.incoming = some s.outgoing
  reading : ∀ b n, s.audio = .reading b n → s.incoming = some b
  sub : ∀ d, (s.got d ++ (pendIn s d ++ pendOut s d)).Sublist (s.sent d)
  last : ∀ d, (s.got d ++ (pendIn s d ++ pendOut s d)).getLast? = (s.sent d).getLast?
  want : s.main = .idle → (∃ d, s.buf s.outgoing d ≠ none) → s.want = true

theorem bool_ne {a b : Bool} (h : a ≠ b) : a = !b := by revert h; cases a <;> cases b <;> decide

theorem HInv.init : HInv (St.init : St μ) := by
  refine ⟨fun _ => by simp [St.init], fun h => by simp [St.init] at h, fun b n h => by simp [St.init] at h,
    fun d => ?_, fun d => ?_, fun _ h => ?_⟩
  · simp [St.init, pendIn, pendOut]
  · simp [St.init, pendIn, pendOut]
  · obtain ⟨d, hd⟩ := h; simp [St.init] at hd

theorem sublist_drop_last {a b c l : List μ} {m : μ} (h : (a ++ (b ++ c)).Sublist l) :
    (a ++ (b ++ [m])).Sublist (l ++ [m]) := by
  rw [← List.append_assoc] at h ⊢
  exact (List.Sublist.trans (List.sublist_append_left _ _) h).append (List.Sublist.refl _)

theorem HInv.step {s s' : St μ} (h : HInv s) (hs : Step s s') : HInv s' := by
  cases hs with
  | send d m hm =>
    have hne := h.idle hm
    have hbuf : ∀ b, s.incoming = some b → (Buxn.GuiAudio.send d m s).buf b = s.buf b := by
      intro b hb
      apply upd_other
      intro hbe
      exact hne (by rw [hb, hbe])
    have hin : ∀ e, pendIn (Buxn.GuiAudio.send d m s) e = pendIn s e := by
      intro e
      unfold pendIn
      rw [show (Buxn.GuiAudio.send d m s).audio = s.audio from rfl,
        show (Buxn.GuiAudio.send d m s).incoming = s.incoming from rfl]
      cases ha : s.audio with
      | reading b n =>
        dsimp only
        rw [hbuf b (h.reading b n ha)]
      | idle =>
        dsimp only
        cases hi : s.incoming with
        | none => rfl
        | some b => dsimp only; rw [hbuf b hi]
    have hout : ∀ e, pendOut (Buxn.GuiAudio.send d m s) e = if e = d then [m] else pendOut s e := by
      intro e
      unfold pendOut
      rw [show (Buxn.GuiAudio.send d m s).main = s.main from rfl, hm]
      show (upd s.buf s.outgoing (upd (s.buf s.outgoing) d (some m)) s.outgoing e).toList = _
      rw [upd_same]
      by_cases he : e = d
      · rw [if_pos he, he, upd_same]; rfl
      · rw [if_neg he, upd_other _ _ he]
    refine ⟨fun _ => h.idle hm, fun h' => h.swapping h', h.reading, fun e => ?_, fun e => ?_, fun _ _ => rfl⟩
    · rw [hin, hout]
      show (s.got e ++ _).Sublist (upd s.sent d (s.sent d ++ [m]) e)
      by_cases he : e = d
      · subst he
        rw [if_pos rfl, upd_same]
        exact sublist_drop_last (h.sub e)
      · rw [if_neg he, upd_other _ _ he]
        exact h.sub e
    · rw [hin, hout]
      show (s.got e ++ _).getLast? = (upd s.sent d (s.sent d ++ [m]) e).getLast?
      by_cases he : e = d
      · subst he
        rw [if_pos rfl, upd_same, ← List.append_assoc, List.getLast?_concat, List.getLast?_concat]
      · rw [if_neg he, upd_other _ _ he]
        exact h.last e
  | exchange hm hw =>
    cases hi : s.incoming with
    | some b =>
      have hex : Buxn.GuiAudio.exchange s = { s with want := true } := by unfold Buxn.GuiAudio.exchange; rw [hi]
      rw [hex]
      exact ⟨fun _ => h.idle hm, fun h' => h.swapping h', h.reading, h.sub, h.last, fun _ _ => rfl⟩
    | none =>
      have hex : Buxn.GuiAudio.exchange s = { s with incoming := some s.outgoing, main := .swapping } := by
        unfold Buxn.GuiAudio.exchange; rw [hi]
      rw [hex]
      have ha : s.audio = .idle := by
        cases ha : s.audio with
        | idle => rfl
        | reading b n => have := h.reading b n ha; rw [hi] at this; cases this
      have e1 : ∀ d, pendIn s d = [] := fun d => by unfold pendIn; rw [ha, hi]
      have e2 : ∀ d, pendOut s d = (s.buf s.outgoing d).toList := fun d => by unfold pendOut; rw [hm]
      refine ⟨fun h' => (by cases h'), fun _ => .inr rfl, fun b n h' => ?_, fun d => ?_, fun d => ?_, fun h' => (by cases h')⟩
      · dsimp only at h'; rw [ha] at h'; cases h'
      · have := h.sub d
        rw [e1, e2] at this
        simpa [pendIn, pendOut, ha] using this
      · have := h.last d
        rw [e1, e2] at this
        simpa [pendIn, pendOut, ha] using this
  | swap hm =>
    have hsw := h.swapping hm
    have hbuf : ∀ b, s.incoming = some b → (Buxn.GuiAudio.swap s).buf b = s.buf b := by
      intro b hb
      apply upd_other
      rcases hsw with h' | h'
      · rw [h'] at hb; cases hb
      · rw [h'] at hb; cases hb; cases s.outgoing <;> decide
    have hin : ∀ e, pendIn (Buxn.GuiAudio.swap s) e = pendIn s e := by
      intro e
      unfold pendIn
      rw [show (Buxn.GuiAudio.swap s).audio = s.audio from rfl,
        show (Buxn.GuiAudio.swap s).incoming = s.incoming from rfl]
      cases ha : s.audio with
      | reading b n =>
        dsimp only
        rw [hbuf b (h.reading b n ha)]
      | idle =>
        dsimp only
        cases hi : s.incoming with
        | none => rfl
        | some b => dsimp only; rw [hbuf b hi]
    have hnew : ∀ e, (Buxn.GuiAudio.swap s).buf (Buxn.GuiAudio.swap s).outgoing e = none := by
      intro e
      show upd s.buf (!s.outgoing) (fun _ => none) (!s.outgoing) e = none
      rw [upd_same]
    have hout : ∀ e, pendOut (Buxn.GuiAudio.swap s) e = [] := by
      intro e
      unfold pendOut
      rw [show (Buxn.GuiAudio.swap s).main = .idle from rfl, hnew]
      rfl
    have hout' : ∀ e, pendOut s e = [] := fun e => by unfold pendOut; rw [hm]
    refine ⟨fun _ => ?_, fun h' => (by cases h'), h.reading, fun e => ?_, fun e => ?_, fun _ h' => ?_⟩
    · show s.incoming ≠ some (!s.outgoing)
      rcases hsw with h' | h' <;> rw [h']
      · simp
      · cases s.outgoing <;> simp
    · rw [hin, hout]
      have := h.sub e
      rwa [hout'] at this
    · rw [hin, hout]
      have := h.last e
      rwa [hout'] at this
    · obtain ⟨d, hd⟩ := h'
      exact absurd (hnew d) hd
  | load ha =>
    cases hi : s.incoming with
    | none =>
      have hld : Buxn.GuiAudio.load s = s := by unfold Buxn.GuiAudio.load; rw [hi]
      rw [hld]; exact h
    | some b =>
      have hld : Buxn.GuiAudio.load s = { s with audio := .reading b 0 } := by unfold Buxn.GuiAudio.load; rw [hi]
      rw [hld]
      have e1 : ∀ d, pendIn s d = (s.buf b d).toList := fun d => by unfold pendIn; rw [ha, hi]
      refine ⟨h.idle, h.swapping, fun b' n h' => ?_, fun d => ?_, fun d => ?_, h.want⟩
      · dsimp only at h'; cases h'; exact hi
      · have := h.sub d
        rw [e1] at this
        simpa [pendIn, pendOut] using this
      · have := h.last d
        rw [e1] at this
        simpa [pendIn, pendOut] using this
  | take b n ha =>
    have hinc := h.reading b n ha
    have hpo : ∀ s'' : St μ, s''.main = s.main → s''.buf = s.buf → s''.outgoing = s.outgoing → ∀ d, pendOut s'' d = pendOut s d := by
      intro s'' h1 h2 h3 d
      unfold pendOut
      rw [h1, h2, h3]
    have e1 : ∀ d : Fin 4, pendIn s d = if n.val ≤ d.val then (s.buf b d).toList else [] := fun d => by
      unfold pendIn; rw [ha]
    unfold Buxn.GuiAudio.take
    cases hb : s.buf b n with
    | none =>
      dsimp only
      have e2 : ∀ d : Fin 4, pendIn { s with audio := .reading b (n.val + 1) } d = pendIn s d := by
        intro d
        rw [e1]
        unfold pendIn
        dsimp only
        by_cases hd : d = n
        · subst hd
          rw [if_neg (by omega), if_pos (Nat.le_refl _), hb]; rfl
        · have : d.val ≠ n.val := fun h => hd (Fin.ext h)
          by_cases hle : n.val ≤ d.val
          · rw [if_pos (by omega), if_pos hle]
          · rw [if_neg (by omega), if_neg hle]
      refine ⟨h.idle, h.swapping, fun b' n' h' => ?_, fun d => ?_, fun d => ?_, h.want⟩
      · dsimp only at h'; cases h'; exact hinc
      · rw [e2, hpo { s with audio := .reading b (n.val + 1) } rfl rfl rfl]; exact h.sub d
      · rw [e2, hpo { s with audio := .reading b (n.val + 1) } rfl rfl rfl]; exact h.last d
    | some m =>
      dsimp only
      have e2 : ∀ d : Fin 4, upd s.got n (s.got n ++ [m]) d ++
          pendIn { s with audio := .reading b (n.val + 1), got := upd s.got n (s.got n ++ [m]) } d =
          s.got d ++ pendIn s d := by
        intro d
        rw [e1]
        unfold pendIn
        dsimp only
        by_cases hd : d = n
        · subst hd
          rw [if_neg (by omega), if_pos (Nat.le_refl _), hb, upd_same, List.append_nil]; rfl
        · have : d.val ≠ n.val := fun h => hd (Fin.ext h)
          rw [upd_other _ _ hd]
          by_cases hle : n.val ≤ d.val
          · rw [if_pos (by omega), if_pos hle]
          · rw [if_neg (by omega), if_neg hle]
      refine ⟨h.idle, h.swapping, fun b' n' h' => ?_, fun d => ?_, fun d => ?_, h.want⟩
      · dsimp only at h'; cases h'; exact hinc
      · rw [← List.append_assoc]
        dsimp only
        rw [e2, List.append_assoc,
          hpo { s with audio := .reading b (n.val + 1), got := upd s.got n (s.got n ++ [m]) } rfl rfl rfl]
        exact h.sub d
      · rw [← List.append_assoc]
        dsimp only
        rw [e2, List.append_assoc,
          hpo { s with audio := .reading b (n.val + 1), got := upd s.got n (s.got n ++ [m]) } rfl rfl rfl]
        exact h.last d
  | release b ha =>
    have e1 : ∀ d : Fin 4, pendIn s d = [] := fun d => by
      unfold pendIn; rw [ha]; dsimp only; rw [if_neg (by omega)]
    refine ⟨fun _ => by simp [Buxn.GuiAudio.release], fun _ => .inl rfl, fun b' n' h' => by simp [Buxn.GuiAudio.release] at h',
      fun d => ?_, fun d => ?_, h.want⟩
    · have := h.sub d
      rw [e1] at this
      exact this
    · have := h.last d
      rw [e1] at this
      exact this

theorem Reach.inv {s : St μ} (h : Reach s) : HInv s := by
  induction h with
  | init => exact HInv.init
  | step _ hs ih => exact ih.step hs

/-- **C49.** In every schedule: while the audio thread reads a buffer, the buffer the emulator thread writes notes to
(outside `try_submit_audio`) or clears (inside it) is another one. -/
theorem C49_no_race (s : St μ) (h : Reach s) (b : Bool) (n : Nat) (hr : s.audio = .reading b n) :
    (s.main = .idle → s.outgoing ≠ b) ∧ (s.main = .swapping → (!s.outgoing) ≠ b) := by
  have hi := h.inv
  have hin := hi.reading b n hr
  constructor
  · intro hm he
    exact hi.idle hm (by rw [hin, he])
  · intro hm he
    rcases hi.swapping hm with h' | h'
    · rw [hin] at h'; cases h'
    · rw [hin] at h'
      cases h'
      revert he
      cases s.outgoing <;> decide

/-- Each channel receives messages in the order they were sent, none twice, none that was not sent. -/
theorem C49_order (s : St μ) (h : Reach s) (d : Fin 4) : (s.got d).Sublist (s.sent d) :=
  List.Sublist.trans (List.sublist_append_left _ _) (h.inv.sub d)

/-- The last message sent to a channel is not lost: the channel has received it, or the audio thread is bound to take
it, or it is in the staging buffer and the emulator thread is bound to submit it. -/
theorem C49_last_not_lost (s : St μ) (h : Reach s) (d : Fin 4) (m : μ) (hl : (s.sent d).getLast? = some m) :
    (s.got d).getLast? = some m ∨
    (∃ b, s.incoming = some b ∧ s.buf b d = some m ∧ ∀ b' n, s.audio = .reading b' n → b' = b ∧ n ≤ d.val) ∨
    (s.main = .idle ∧ s.buf s.outgoing d = some m ∧ s.want = true) := by
  have hi := h.inv
  have hlast := hi.last d
  rw [hl] at hlast
  by_cases ho : pendOut s d = []
  · rw [ho, List.append_nil] at hlast
    by_cases hp : pendIn s d = []
    · rw [hp, List.append_nil] at hlast
      exact .inl hlast
    · right; left
      unfold pendIn at hp hlast
      cases ha : s.audio with
      | reading b n =>
        rw [ha] at hp hlast
        dsimp only at hp hlast
        by_cases hn : n ≤ d.val
        · rw [if_pos hn] at hp hlast
          cases hb : s.buf b d with
          | none => rw [hb] at hp; exact absurd rfl hp
          | some m' =>
            rw [hb] at hlast
            simp only [Option.toList] at hlast
            rw [List.getLast?_concat] at hlast
            cases hlast
            refine ⟨b, hi.reading b n ha, hb, ?_⟩
            intro b' n' h'
            cases h'
            exact ⟨rfl, hn⟩
        · rw [if_neg hn] at hp; exact absurd rfl hp
      | idle =>
        rw [ha] at hp hlast
        dsimp only at hp hlast
        cases hin : s.incoming with
        | none => rw [hin] at hp; exact absurd rfl hp
        | some b =>
          rw [hin] at hp hlast
          dsimp only at hp hlast
          cases hb : s.buf b d with
          | none => rw [hb] at hp; exact absurd rfl hp
          | some m' =>
            rw [hb] at hlast
            simp only [Option.toList] at hlast
            rw [List.getLast?_concat] at hlast
            cases hlast
            exact ⟨b, rfl, hb, fun b' n' h' => by cases h'⟩
  · right; right
    unfold pendOut at ho hlast
    cases hm : s.main with
    | swapping => rw [hm] at ho; exact absurd rfl ho
    | idle =>
      rw [hm] at ho hlast
      dsimp only at ho hlast
      cases hb : s.buf s.outgoing d with
      | none => rw [hb] at ho; exact absurd rfl ho
      | some m' =>
        rw [hb] at hlast
        simp only [Option.toList] at hlast
        rw [← List.append_assoc, List.getLast?_concat] at hlast
        cases hlast
        exact ⟨rfl, rfl, hi.want hm ⟨d, by rw [hb]; simp⟩⟩

/-- A schedule in which the guest sends while the audio thread is reading. -/
example : ∃ s : St Nat, Reach s ∧ s.audio = .reading false 1 ∧ s.got 0 = [1] ∧ s.sent 0 = [1, 2] ∧
    s.buf true 0 = some 2 := by
  refine ⟨send 0 2 (take false 0 (load (swap (exchange (send 0 1 St.init))))), ?_, rfl, rfl, rfl, rfl⟩
  have h1 := Reach.step .init (Step.send (St.init : St Nat) 0 1 rfl)
  have h2 := Reach.step h1 (.exchange _ rfl rfl)
  have h3 := Reach.step h2 (.swap _ rfl)
  have h4 := Reach.step h3 (.load _ rfl)
  have h5 := Reach.step h4 (.take _ false 0 rfl)
  exact Reach.step h5 (.send _ 0 2 rfl)

/-! ## End of a note (C50) -/

/-- The vector of audio channel `i`: the first two ports of its device, `0x30`, `0x40`, `0x50`, `0x60`. -/
def channelVector (vm : VM) (i : Fin 4) : Nat :=
  (vm.device (BitVec.ofNat 8 (0x30 + 0x10 * i.val))).toNat * 256 + (vm.device (BitVec.ofNat 8 (0x31 + 0x10 * i.val))).toNat

/-- **C50**, the first channel only: when its note has finished, its own vector is run. -/
theorem C50_finish_vector_partial (vm : VM) : (finishVector vm 0).toNat = channelVector vm 0 := by
  unfold finishVector channelVector
  rw [devLoad2_toNat]
  rfl

/-- The other channels do not get their vector run: the address is taken from the ports `0x31`, `0x32`, `0x33` of the
first channel. -/
theorem C50_other_channels_violated (i : Fin 4) (hi : i ≠ 0) (vm : VM) (hv : channelVector vm i ≠ 0)
    (h0 : ∀ p : Byte, 0x30 ≤ p.toNat → p.toNat < 0x40 → vm.device p = 0) :
    (finishVector vm i).toNat ≠ channelVector vm i := by
  have : finishVector vm i = 0 := by
    apply BitVec.eq_of_toNat_eq
    unfold finishVector
    rw [devLoad2_toNat]
    rw [h0, h0]
    · rfl
    all_goals
      clear hv hi
      revert i
      decide
  rw [this]
  exact fun h => hv h.symm

/-! ## Mixing (C51) -/

/-- The sum of what the channels give. -/
def sumFrames (ch n : Nat) (channels : List (List (List Int))) : List (List Int) :=
  channels.foldl (fun out fs => List.zipWith (List.zipWith (· + ·)) out (padded ch n fs)) (List.replicate n (silence ch))

theorem callback_stopped (ch n : Nat) (k : Nat) (out : List (List Int)) :
    (List.replicate k ([] : List (List Int))).foldl (fun out fs => fs ++ out.drop fs.length) out = out := by
  induction k with
  | zero => rfl
  | succ k ih => rw [List.replicate_succ, List.foldl_cons]; exact ih

/-- **C51**, only when at most one channel sounds: the output is what that channel gives. -/
theorem C51_one_channel_partial (ch n i j : Nat) (fs : List (List Int)) (h : fs.length ≤ n) :
    callback ch n (List.replicate i [] ++ [fs] ++ List.replicate j []) = padded ch n fs := by
  unfold callback
  rw [List.foldl_append, List.foldl_append, callback_stopped ch n, callback_stopped ch n, List.foldl_cons, List.foldl_nil]
  unfold padded
  rw [List.drop_replicate]

/-- When two channels sound, the later one replaces the earlier one instead of being added to it. -/
theorem C51_two_channels_violated :
    callback 2 1 [[[100, 100]], [[5, 5]], [], []] = [[5, 5]] ∧
    sumFrames 2 1 [[[100, 100]], [[5, 5]], [], []] = [[105, 105]] := by decide

end Buxn.GuiAudio
