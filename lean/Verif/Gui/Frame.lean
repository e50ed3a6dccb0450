import Verif.Gui.Touch
import Verif.Devices.SystemProps
/-!
# C66: frames, standard input and the end of the program

Models `frame` of `/repo/src/gui.c` (without the drawing, which is C22, and the submission of audio, C49) and its interplay
with `event`. Time is measured in rational numbers; rounding of `double` is not modelled.
-/
namespace Buxn.Gui
open Buxn.VM Buxn.Input
variable {σ : Type}

/-- The part of the application that `frame` adds, `gui.c:61-83`. -/
structure Loop (σ : Type) where
  app : App σ
  /-- `app.frame_time_accumulator`, in microseconds. -/
  acc : Rat
  stdinClosed : Bool
  /-- `app.audio_finished_ack`. -/
  ack : Fin 4 → Nat
  /-- Whether `sapp_quit` was called. -/
  quit : Bool
  /-- How often the picture was redrawn. -/
  redraws : Nat

/-- `FRAME_TIME_US`, `gui.c:25`. -/
def FRAME : Rat := 1000000 / 60

/-- What `frame` finds: the debugger's wish, the results of the calls of `platform_poll_stdin` up to the first 0 (`none` is a
negative result: the end of the input or an error), the numbers of finished sounds, and the time since the last frame. -/
structure FrameIn where
  dbg : Bool
  polls : List (Option (List Byte))
  finished : Fin 4 → Nat
  elapsed : Rat

/-- `buxn_console_send_data`, `console.c:4-16`. -/
def sendConsole (P : Program σ) (type value : Byte) (a : App σ) : App σ :=
  notify P 0x10 { a with dev := { a.dev with console := { a.dev.console with type := type, value := value } } }

/-- The loop over standard input, `gui.c:599-608`. -/
def pollStdin (P : Program σ) : List (Option (List Byte)) → Loop σ → Loop σ
  | [], l => l
  | p :: ps, l =>
    if l.stdinClosed then l
    else match p with
      | some bytes => pollStdin P ps { l with app := bytes.foldl (fun a c => sendConsole P CONSOLE_STDIN c a) l.app }
      | none => pollStdin P ps { l with stdinClosed := true, app := sendConsole P CONSOLE_END 0 l.app }

/-- The loop over the audio devices, `gui.c:613-619`, from channel `i`. -/
def ackAudio (P : Program σ) (finished : Fin 4 → Nat) (i : Fin 4) (l : Loop σ) : Loop σ :=
  if finished i ≠ l.ack i then
    { l with app := notify P (BitVec.ofNat 8 (0x30 + i.val)) l.app, ack := fun j => if j = i then finished i else l.ack j }
  else l

/-- The loop over the accumulated time, `gui.c:627-630`: `none` if it takes more than the given number of rounds. -/
def spend (P : Program σ) : Nat → Loop σ → Option (Loop σ)
  | 0, _ => none
  | n + 1, l => if l.acc ≥ FRAME then spend P n { l with acc := l.acc - FRAME, app := notify P 0x20 l.app } else some l

/-- `frame`, `gui.c:588-702`. -/
def frame (P : Program σ) (f : FrameIn) (l : Loop σ) : Option (Loop σ) :=
  let l := if System.exitCode l.app.vm > 0 then { l with quit := true } else l
  let l := if f.dbg then { l with app := notify P 0x90 l.app } else l
  let l := pollStdin P f.polls l
  let l := [0, 1, 2, 3].foldl (fun l i => ackAudio P f.finished i l) l
  let l := { l with acc := l.acc + f.elapsed }
  let redraw := decide (l.acc ≥ FRAME)
  (spend P (⌊l.acc / FRAME⌋.toNat + 1) l).map (fun l => if redraw then { l with redraws := l.redraws + 1 } else l)

/-- What the window system calls. -/
inductive Step
  | frame (f : FrameIn)
  | event (E : Env) (e : Event)

/-- One call; `none` if it goes wrong or does not end. -/
def step (P : Program σ) : Step → Loop σ → Option (Loop σ)
  | .frame f, l => frame P f l
  | .event E e, l => (event P E e l.app).toOption.map (fun a => { l with app := a })

/-- A session. -/
def session (P : Program σ) : List Step → Loop σ → Option (Loop σ)
  | [], l => some l
  | s :: ss, l => (step P s l).bind (session P ss)

/-- After `init`, `gui.c:493-567`: the time of one frame is in the accumulator. -/
def opened (a : App σ) : Loop σ where
  app := a
  acc := FRAME
  stdinClosed := false
  ack := fun _ => 0
  quit := false
  redraws := 0

/-! ## Specification -/
namespace Spec

/-- The time that has passed. -/
def time : List Step → Rat
  | [] => 0
  | .frame f :: ss => f.elapsed + time ss
  | .event _ _ :: ss => time ss

/-- What is read from standard input: bytes, up to the end. `none` is the end. -/
def input : List Step → List (Option (List Byte))
  | [] => []
  | .frame f :: ss => f.polls ++ input ss
  | .event _ _ :: ss => input ss

/-- What the program is to be told of it: type 1 with each byte, and type 4 once at the end. -/
def inputShown : List (Option (List Byte)) → List (Byte × Byte)
  | [] => []
  | some bytes :: ps => bytes.map (fun c => (1, c)) ++ inputShown ps
  | none :: _ => [(4, 0)]

/-- In how many frames more sounds of the channel have ended than at the frame before; `n` at the start. -/
def soundsEnded (i : Fin 4) : Nat → List Step → Nat
  | _, [] => 0
  | n, .frame f :: ss => (if f.finished i = n then 0 else 1) + soundsEnded i (f.finished i) ss
  | n, .event _ _ :: ss => soundsEnded i n ss

end Spec

/-- How often the screen vector was called. -/
def screenCalls (cs : List Call) : Nat := (cs.filter (·.port == 0x20)).length

/-- How often the port of the channel `i` was looked at for the vector that is called at the end of a sound. -/
def soundCalls (i : Fin 4) (cs : List Call) : Nat := (cs.filter (·.port == BitVec.ofNat 8 (0x30 + i.val))).length

/-- What the program was shown on the calls of the console vector: the ports 0x17 and 0x12. -/
def consoleCalls (cs : List Call) : List (Byte × Byte) :=
  (cs.filter (·.port == 0x10)).map (fun c => (c.seen.console.type, c.seen.console.value))

/-! ## Proofs -/

/-- Only calls for mouse and keyboard, and the console is left alone. -/
structure Quiet (a a' : App σ) : Prop where
  screen : screenCalls a'.calls = screenCalls a.calls
  console : consoleCalls a'.calls = consoleCalls a.calls
  sound : ∀ i, soundCalls i a'.calls = soundCalls i a.calls

theorem Quiet.refl (a : App σ) : Quiet a a := ⟨rfl, rfl, fun _ => rfl⟩
theorem Quiet.trans {a b c : App σ} (h : Quiet a b) (h' : Quiet b c) : Quiet a c :=
  ⟨h'.screen.trans h.screen, h'.console.trans h.console, fun i => (h'.sound i).trans (h.sound i)⟩

theorem screenCalls_append (x y : List Call) : screenCalls (x ++ y) = screenCalls x + screenCalls y := by
  unfold screenCalls; rw [List.filter_append, List.length_append]
theorem consoleCalls_append (x y : List Call) : consoleCalls (x ++ y) = consoleCalls x ++ consoleCalls y := by
  unfold consoleCalls; rw [List.filter_append, List.map_append]

theorem soundCalls_append (i : Fin 4) (x y : List Call) : soundCalls i (x ++ y) = soundCalls i x + soundCalls i y := by
  unfold soundCalls; rw [List.filter_append, List.length_append]

theorem notify_quiet (P : Program σ) (p : Byte) (a : App σ) (h1 : (p == 0x20) = false) (h2 : (p == 0x10) = false)
    (h3 : ∀ i : Fin 4, (p == BitVec.ofNat 8 (0x30 + i.val)) = false) : Quiet a (notify P p a) := by
  refine ⟨?_, ?_, ?_⟩
  · have h1' : p ≠ 0x20#8 := by simpa using h1
    rw [notify_calls, screenCalls_append]; simp [screenCalls, h1']
  · have h2' : p ≠ 0x10#8 := by simpa using h2
    rw [notify_calls, consoleCalls_append]; simp [consoleCalls, h2']
  · intro i
    rw [notify_calls, soundCalls_append]
    have : soundCalls i [⟨p, a.vm.devLoad2 p, a.dev⟩] = 0 := by
      unfold soundCalls
      rw [List.filter_cons_of_neg (by rw [h3 i]; decide)]
      rfl
    rw [this]; rfl

theorem setMouse_quiet {button : Byte} {down : Bool} {a a' : App σ} (h : setMouse button down a = .ok a') : Quiet a a' := by
  unfold setMouse at h
  obtain ⟨m, -, h⟩ := bind_ok h
  cases h; exact ⟨rfl, rfl, fun _ => rfl⟩
theorem setPad_quiet {b : Fin 8} {down : Bool} {a a' : App σ} (h : setPad b down a = .ok a') : Quiet a a' := by
  unfold setPad at h
  obtain ⟨m, -, h⟩ := bind_ok h
  cases h; exact ⟨rfl, rfl, fun _ => rfl⟩
theorem place_quiet {P : Program σ} {x y : Rat} {a a' : App σ} (h : place P x y a = .ok a') : Quiet a a' := by
  unfold place at h
  obtain ⟨_, -, h⟩ := bind_ok h
  obtain ⟨_, -, h⟩ := bind_ok h
  cases h; exact ⟨rfl, rfl, fun _ => rfl⟩
theorem sendChar_quiet (P : Program σ) (c : Byte) (a : App σ) : Quiet a (sendChar P c a) :=
  let q := notify_quiet P 0x80 { a with dev := { a.dev with controller := { a.dev.controller with ch := c } } } rfl rfl (by decide)
  ⟨q.screen, q.console, q.sound⟩

theorem processTouch_quiet {P : Program σ} {W H : Nat} {p : Phase} {t : Touch} {a a' : App σ}
    (h : processTouch P W H p t a = .ok a') : Quiet a a' := by
  unfold processTouch at h
  dsimp only at h
  cases p with
  | began =>
    dsimp only at h
    split at h
    · cases h; exact ⟨rfl, rfl, fun _ => rfl⟩
    · split at h <;> (cases h; exact ⟨rfl, rfl, fun _ => rfl⟩)
  | moved =>
    dsimp only at h
    split at h
    · obtain ⟨a1, h1, h⟩ := bind_ok h
      obtain ⟨a2, h2, h⟩ := bind_ok h
      cases h
      have i1 : Quiet a a1 := by
        unfold pressFirst at h1
        split at h1
        · exact setMouse_quiet h1
        · cases h1; exact .refl a
      have i2 := place_quiet h2
      exact (i1.trans ⟨i2.screen, i2.console, i2.sound⟩).trans (notify_quiet P 0x90 a2 rfl rfl (by decide))
    · cases h; exact .refl a
  | ended =>
    dsimp only at h
    split at h
    · cases h; exact ⟨rfl, rfl, fun _ => rfl⟩
    · split at h
      · obtain ⟨b, -, h⟩ := bind_ok h
        obtain ⟨a1, h1, h⟩ := bind_ok h
        obtain ⟨a2, h2, h⟩ := bind_ok h
        cases h
        have i1 : Quiet a a1 := by
          unfold clickFirst at h1
          split at h1
          · cases h1; exact ⟨rfl, rfl, fun _ => rfl⟩
          · obtain ⟨a3, h3, h1⟩ := bind_ok h1
            cases h1
            have i3 := setMouse_quiet h3
            exact Quiet.trans ⟨i3.screen, i3.console, i3.sound⟩ (notify_quiet P 0x90 a3 rfl rfl (by decide))
        exact (i1.trans (setMouse_quiet h2)).trans (notify_quiet P 0x90 a2 rfl rfl (by decide))
      · cases h; exact .refl a

theorem touches_quiet {P : Program σ} {W H : Nat} {p : Phase} {ts : List Touch} {a a' : App σ}
    (h : touches P W H p ts a = .ok a') : Quiet a a' := by
  induction ts generalizing a with
  | nil => cases h; exact .refl _
  | cons t ts ih =>
    unfold touches at h
    obtain ⟨a1, h1, h⟩ := bind_ok h
    refine Quiet.trans ?_ (ih h)
    split at h1
    · exact processTouch_quiet h1
    · cases h1; exact .refl a

theorem event_quiet {P : Program σ} {E : Env} {e : Event} {a a' : App σ} (h : event P E e a = .ok a') : Quiet a a' := by
  unfold event at h
  obtain ⟨⟨a1, u⟩, h1, h⟩ := bind_ok h
  have key : Quiet a a1 := by
    unfold handle at h1
    cases e with
    | mouse b down =>
      dsimp only at h1
      split at h1
      · obtain ⟨a2, h2, h1⟩ := bind_ok h1
        cases h1
        exact setMouse_quiet h2
      · cases h1; exact .refl _
    | scroll x y =>
      dsimp only at h1
      obtain ⟨_, -, h1⟩ := bind_ok h1
      obtain ⟨_, -, h1⟩ := bind_ok h1
      cases h1; exact ⟨rfl, rfl, fun _ => rfl⟩
    | move x y =>
      dsimp only at h1
      obtain ⟨a2, h2, h1⟩ := bind_ok h1
      cases h1
      exact place_quiet h2
    | touch p ts =>
      dsimp only at h1
      obtain ⟨a2, h2, h1⟩ := bind_ok h1
      cases h1
      exact touches_quiet h2
    | key k down =>
      dsimp only at h1
      obtain ⟨a2, h2, h1⟩ := bind_ok h1
      cases h1
      have i1 : Quiet a a2 := by
        unfold keyPress at h2
        split at h2
        · obtain ⟨a3, h3, h2⟩ := bind_ok h2
          cases h2
          exact (setPad_quiet h3).trans (notify_quiet P 0x80 a3 rfl rfl (by decide))
        · cases h2; exact .refl _
      split
      · exact i1.trans (sendChar_quiet P _ a2)
      · exact i1
    | char code ctrl alt shift =>
      dsimp only at h1
      split at h1
      · obtain ⟨a2, h2, h1⟩ := bind_ok h1
        obtain ⟨a3, h3, h1⟩ := bind_ok h1
        obtain ⟨a4, h4, h1⟩ := bind_ok h1
        cases h1
        exact (((setPad_quiet h2).trans (setPad_quiet h3)).trans (setPad_quiet h4)).trans (sendChar_quiet P _ a4)
      · cases h1; exact .refl _
    | other => cases h1; exact .refl _
  cases h
  cases u
  · exact key
  · have q := notify_quiet P 0x90 a1 rfl rfl (by decide)
    exact key.trans ⟨q.screen, q.console, q.sound⟩

theorem sendConsole_calls (P : Program σ) (t v : Byte) (a : App σ) :
    screenCalls (sendConsole P t v a).calls = screenCalls a.calls ∧
    consoleCalls (sendConsole P t v a).calls = consoleCalls a.calls ++ [(t, v)] := by
  unfold sendConsole
  rw [notify_calls]
  exact ⟨by rw [screenCalls_append]; rfl, by rw [consoleCalls_append]; rfl⟩

theorem sendBytes_calls (P : Program σ) (bytes : List Byte) (a : App σ) :
    screenCalls (bytes.foldl (fun a c => sendConsole P CONSOLE_STDIN c a) a).calls = screenCalls a.calls ∧
    consoleCalls (bytes.foldl (fun a c => sendConsole P CONSOLE_STDIN c a) a).calls = consoleCalls a.calls ++ bytes.map (fun c => (1, c)) := by
  induction bytes generalizing a with
  | nil => simp
  | cons c cs ih =>
    obtain ⟨h1, h2⟩ := sendConsole_calls P CONSOLE_STDIN c a
    obtain ⟨i1, i2⟩ := ih (sendConsole P CONSOLE_STDIN c a)
    rw [List.foldl_cons, i1, i2, h1, h2]
    simp [CONSOLE_STDIN]

/-- What is left of the loop when only the calls and the fields of `frame` are looked at. -/
structure SameTimer (l l' : Loop σ) : Prop where
  acc : l'.acc = l.acc
  screen : screenCalls l'.app.calls = screenCalls l.app.calls

theorem pollStdin_spec (P : Program σ) (ps : List (Option (List Byte))) (l : Loop σ) :
    SameTimer l (pollStdin P ps l) ∧ (pollStdin P ps l).stdinClosed = (l.stdinClosed || ps.contains none) ∧
    consoleCalls (pollStdin P ps l).app.calls = consoleCalls l.app.calls ++ (if l.stdinClosed then [] else Spec.inputShown ps) := by
  induction ps generalizing l with
  | nil =>
    unfold pollStdin
    refine ⟨⟨rfl, rfl⟩, by simp, by simp [Spec.inputShown]⟩
  | cons p ps ih =>
    unfold pollStdin
    by_cases hc : l.stdinClosed = true
    · rw [if_pos hc, if_pos hc]
      exact ⟨⟨rfl, rfl⟩, by simp [hc], by simp⟩
    · rw [if_neg hc, if_neg hc]
      have hc : l.stdinClosed = false := by simpa using hc
      cases p with
      | some bytes =>
        dsimp only
        obtain ⟨s1, s2⟩ := sendBytes_calls P bytes l.app
        obtain ⟨⟨i1, i2⟩, i3, i4⟩ := ih { l with app := bytes.foldl (fun a c => sendConsole P CONSOLE_STDIN c a) l.app }
        dsimp only at i1 i2 i3 i4
        refine ⟨⟨i1, i2.trans s1⟩, ?_, ?_⟩
        · rw [i3, hc]; simp
        · rw [i4, s2, hc]; simp [Spec.inputShown]
      | none =>
        dsimp only
        obtain ⟨s1, s2⟩ := sendConsole_calls P CONSOLE_END 0 l.app
        obtain ⟨⟨i1, i2⟩, i3, i4⟩ := ih { l with stdinClosed := true, app := sendConsole P CONSOLE_END 0 l.app }
        dsimp only at i1 i2 i3 i4
        refine ⟨⟨i1, i2.trans s1⟩, ?_, ?_⟩
        · rw [i3]; simp
        · rw [i4, s2]; simp [Spec.inputShown, CONSOLE_END]

theorem ackAudio_quiet (P : Program σ) (f : Fin 4 → Nat) (i : Fin 4) (l : Loop σ) :
    (screenCalls (ackAudio P f i l).app.calls = screenCalls l.app.calls ∧
      consoleCalls (ackAudio P f i l).app.calls = consoleCalls l.app.calls) ∧
    (ackAudio P f i l).acc = l.acc ∧ (ackAudio P f i l).stdinClosed = l.stdinClosed ∧
    (ackAudio P f i l).quit = l.quit := by
  unfold ackAudio
  split
  · have p1 : ∀ i : Fin 4, (BitVec.ofNat 8 (0x30 + i.val) == 0x20) = false := by decide
    have p2 : ∀ i : Fin 4, (BitVec.ofNat 8 (0x30 + i.val) == 0x10) = false := by decide
    refine ⟨⟨?_, ?_⟩, rfl, rfl, rfl⟩
    · dsimp only
      rw [notify_calls, screenCalls_append]
      simp only [screenCalls, List.filter_cons, p1 i]
      rfl
    · dsimp only
      rw [notify_calls, consoleCalls_append]
      simp only [consoleCalls, List.filter_cons, p2 i]
      simp
  · exact ⟨⟨rfl, rfl⟩, rfl, rfl, rfl⟩

theorem ackAll_quiet (P : Program σ) (f : Fin 4 → Nat) (is : List (Fin 4)) (l : Loop σ) :
    (screenCalls (is.foldl (fun l i => ackAudio P f i l) l).app.calls = screenCalls l.app.calls ∧
      consoleCalls (is.foldl (fun l i => ackAudio P f i l) l).app.calls = consoleCalls l.app.calls) ∧
    (is.foldl (fun l i => ackAudio P f i l) l).acc = l.acc ∧
    (is.foldl (fun l i => ackAudio P f i l) l).stdinClosed = l.stdinClosed ∧ (is.foldl (fun l i => ackAudio P f i l) l).quit = l.quit := by
  induction is generalizing l with
  | nil => exact ⟨⟨rfl, rfl⟩, rfl, rfl, rfl⟩
  | cons i is ih =>
    obtain ⟨a1, a2, a3, a4⟩ := ackAudio_quiet P f i l
    obtain ⟨b1, b2, b3, b4⟩ := ih (ackAudio P f i l)
    exact ⟨⟨b1.1.trans a1.1, b1.2.trans a1.2⟩, b2.trans a2, b3.trans a3, b4.trans a4⟩

/-- One channel: the port is looked at if the number has changed, and the number is remembered. -/
theorem ackAudio_sound (P : Program σ) (f : Fin 4 → Nat) (i : Fin 4) (l : Loop σ) :
    (soundCalls i (ackAudio P f i l).app.calls = soundCalls i l.app.calls + if f i = l.ack i then 0 else 1) ∧
    (ackAudio P f i l).ack i = f i ∧
    ∀ j, j ≠ i → soundCalls j (ackAudio P f i l).app.calls = soundCalls j l.app.calls ∧ (ackAudio P f i l).ack j = l.ack j := by
  unfold ackAudio
  by_cases h : f i = l.ack i
  · rw [if_neg (fun hn => hn h), if_pos h]
    exact ⟨rfl, h.symm, fun j _ => ⟨rfl, rfl⟩⟩
  · rw [if_pos h, if_neg h]
    have same : (BitVec.ofNat 8 (0x30 + i.val) == BitVec.ofNat 8 (0x30 + i.val)) = true := beq_self_eq_true _
    refine ⟨?_, if_pos rfl, ?_⟩
    · dsimp only
      rw [notify_calls, soundCalls_append]
      simp only [soundCalls, List.filter_cons, same]
      rfl
    · intro j hj
      have p : ∀ i j : Fin 4, j ≠ i → (BitVec.ofNat 8 (0x30 + i.val) == BitVec.ofNat 8 (0x30 + j.val)) = false := by decide
      refine ⟨?_, if_neg hj⟩
      dsimp only
      rw [notify_calls, soundCalls_append]
      simp only [soundCalls, List.filter_cons, p i j hj]
      rfl

theorem ackAll_sound (P : Program σ) (f : Fin 4 → Nat) (l : Loop σ) (i : Fin 4) :
    soundCalls i ([0, 1, 2, 3].foldl (fun l i => ackAudio P f i l) l).app.calls = soundCalls i l.app.calls + (if f i = l.ack i then 0 else 1) ∧
    ([0, 1, 2, 3].foldl (fun l i => ackAudio P f i l) l).ack i = f i := by
  have general : ∀ (is : List (Fin 4)) (l : Loop σ), is.Nodup →
      (i ∈ is → soundCalls i (is.foldl (fun l i => ackAudio P f i l) l).app.calls = soundCalls i l.app.calls + (if f i = l.ack i then 0 else 1) ∧
        (is.foldl (fun l i => ackAudio P f i l) l).ack i = f i) ∧
      (i ∉ is → soundCalls i (is.foldl (fun l i => ackAudio P f i l) l).app.calls = soundCalls i l.app.calls ∧
        (is.foldl (fun l i => ackAudio P f i l) l).ack i = l.ack i) := by
    intro is
    induction is with
    | nil => intro l _; exact ⟨fun h => (by cases h), fun _ => ⟨rfl, rfl⟩⟩
    | cons k is ih =>
      intro l hn
      rw [List.nodup_cons] at hn
      obtain ⟨i1, i2⟩ := ih (ackAudio P f k l) hn.2
      obtain ⟨k1, k2, k3⟩ := ackAudio_sound P f k l
      rw [List.foldl_cons]
      constructor
      · intro hm
        by_cases hk : i = k
        · subst hk
          obtain ⟨j1, j2⟩ := i2 hn.1
          exact ⟨by rw [j1, k1], by rw [j2, k2]⟩
        · obtain ⟨j1, j2⟩ := i1 ((List.mem_cons.1 hm).resolve_left hk)
          obtain ⟨m1, m2⟩ := k3 i hk
          exact ⟨by rw [j1, m1, m2], j2⟩
      · intro hm
        have hk : i ≠ k := fun h => hm (by rw [h]; exact List.mem_cons_self ..)
        obtain ⟨j1, j2⟩ := i2 (fun h => hm (List.mem_cons_of_mem _ h))
        obtain ⟨m1, m2⟩ := k3 i hk
        exact ⟨by rw [j1, m1], by rw [j2, m2]⟩
  exact (general [0, 1, 2, 3] l (by decide)).1 (by clear general; revert i; decide)

/-- The channels are not looked at. -/
structure SameSound (l l' : Loop σ) : Prop where
  calls : ∀ i, soundCalls i l'.app.calls = soundCalls i l.app.calls
  ack : l'.ack = l.ack

theorem SameSound.refl (l : Loop σ) : SameSound l l := ⟨fun _ => rfl, rfl⟩
theorem SameSound.trans {a b c : Loop σ} (h : SameSound a b) (h' : SameSound b c) : SameSound a c :=
  ⟨fun i => (h'.calls i).trans (h.calls i), h'.ack.trans h.ack⟩

theorem notify_sound (P : Program σ) (p : Byte) (a : App σ) (h3 : ∀ i : Fin 4, (p == BitVec.ofNat 8 (0x30 + i.val)) = false) (i : Fin 4) :
    soundCalls i (notify P p a).calls = soundCalls i a.calls := by
  rw [notify_calls, soundCalls_append]
  simp only [soundCalls, List.filter_cons, h3 i]
  rfl

theorem sendConsole_sound (P : Program σ) (t v : Byte) (a : App σ) (i : Fin 4) :
    soundCalls i (sendConsole P t v a).calls = soundCalls i a.calls := by
  unfold sendConsole
  rw [notify_sound P 0x10 _ (by decide)]

theorem pollStdin_sound (P : Program σ) (ps : List (Option (List Byte))) (l : Loop σ) : SameSound l (pollStdin P ps l) := by
  induction ps generalizing l with
  | nil => exact .refl l
  | cons p ps ih =>
    unfold pollStdin
    split
    · exact .refl l
    · cases p with
      | some bytes =>
        dsimp only
        refine SameSound.trans (b := { l with app := bytes.foldl (fun a c => sendConsole P CONSOLE_STDIN c a) l.app }) ⟨fun i => ?_, rfl⟩ (ih _)
        dsimp only
        generalize l.app = a
        induction bytes generalizing a with
        | nil => rfl
        | cons c cs ih2 => rw [List.foldl_cons, ih2, sendConsole_sound]
      | none =>
        dsimp only
        exact SameSound.trans (b := { l with stdinClosed := true, app := sendConsole P CONSOLE_END 0 l.app })
          ⟨fun i => sendConsole_sound P _ _ _ i, rfl⟩ (ih _)

theorem spend_sound (P : Program σ) (n : Nat) (l l' : Loop σ) (h : spend P n l = some l') : SameSound l l' := by
  induction n generalizing l with
  | zero => cases h
  | succ n ih =>
    unfold spend at h
    split at h
    · exact SameSound.trans (b := { l with acc := l.acc - FRAME, app := notify P 0x20 l.app })
        ⟨fun i => notify_sound P 0x20 _ (by decide) i, rfl⟩ (ih _ h)
    · cases h; exact .refl _

theorem frame_sound (P : Program σ) (f : FrameIn) (l l' : Loop σ) (h : frame P f l = some l') (i : Fin 4) :
    soundCalls i l'.app.calls = soundCalls i l.app.calls + (if f.finished i = l.ack i then 0 else 1) ∧ l'.ack i = f.finished i := by
  unfold frame at h
  dsimp only at h
  generalize h1 : (if System.exitCode l.app.vm > 0 then { l with quit := true } else l : Loop σ) = l1 at h
  have e1 : SameSound l l1 := by
    rw [← h1]; split
    · exact ⟨fun _ => rfl, rfl⟩
    · exact .refl l
  generalize h2 : (if f.dbg then { l1 with app := notify P 0x90 l1.app } else l1 : Loop σ) = l2 at h
  have e2 : SameSound l1 l2 := by
    rw [← h2]; split
    · exact ⟨fun i => notify_sound P 0x90 _ (by decide) i, rfl⟩
    · exact .refl l1
  have e3 := (e1.trans e2).trans (pollStdin_sound P f.polls l2)
  obtain ⟨e4, e5⟩ := ackAll_sound P f.finished (pollStdin P f.polls l2) i
  generalize [0, 1, 2, 3].foldl (fun l i => ackAudio P f.finished i l) (pollStdin P f.polls l2) = l4 at h e4 e5
  obtain ⟨l5, h5, h6⟩ := Option.map_eq_some_iff.1 h
  have e6 := spend_sound P _ _ _ h5
  have e7 : SameSound l5 l' := by
    rw [← h6]; split
    · exact ⟨fun _ => rfl, rfl⟩
    · exact .refl _
  have e8 := e6.trans e7
  refine ⟨?_, ?_⟩
  · rw [e8.calls i]
    show soundCalls i l4.app.calls = _
    rw [e4, e3.calls i, e3.ack]
  · rw [e8.ack]
    exact e5

theorem frame_pos : 0 < FRAME := by unfold FRAME; norm_num

theorem spend_spec (P : Program σ) (n : Nat) (l : Loop σ) (h0 : 0 ≤ l.acc) (hn : l.acc < n * FRAME) :
    ∃ l', spend P n l = some l' ∧ ∃ k : Nat, l'.acc = l.acc - k * FRAME ∧ 0 ≤ l'.acc ∧ l'.acc < FRAME ∧
      screenCalls l'.app.calls = screenCalls l.app.calls + k ∧ consoleCalls l'.app.calls = consoleCalls l.app.calls ∧
      l'.stdinClosed = l.stdinClosed ∧ l'.quit = l.quit ∧ l'.redraws = l.redraws := by
  induction n generalizing l with
  | zero =>
    have := hn
    simp at this
    linarith
  | succ n ih =>
    unfold spend
    by_cases h : l.acc ≥ FRAME
    · rw [if_pos h]
      obtain ⟨l', h1, k, h2, h3, h4, h5, h6, h7, h8, h9⟩ := ih { l with acc := l.acc - FRAME, app := notify P 0x20 l.app }
        (by dsimp only; linarith) (by dsimp only; push_cast at hn; linarith)
      refine ⟨l', h1, k + 1, ?_, h3, h4, ?_, ?_, h7, h8, h9⟩
      · rw [h2]; push_cast; ring
      · rw [h5]
        show screenCalls (notify P 0x20 l.app).calls + k = _
        rw [notify_calls, screenCalls_append]
        simp only [screenCalls, List.filter_cons_of_pos, List.filter_nil, List.length_cons, List.length_nil, beq_self_eq_true]
        omega
      · rw [h6]
        show consoleCalls (notify P 0x20 l.app).calls = _
        rw [notify_calls, consoleCalls_append]
        exact List.append_nil _
    · rw [if_neg h]
      exact ⟨l, rfl, 0, by simp, h0, not_le.1 h, rfl, rfl, rfl, rfl, rfl⟩

/-- A frame always ends. -/
theorem frame_spec (P : Program σ) (f : FrameIn) (l : Loop σ) (h0 : 0 ≤ l.acc) (he : 0 ≤ f.elapsed) :
    ∃ l', frame P f l = some l' ∧ ∃ k : Nat, l'.acc = l.acc + f.elapsed - k * FRAME ∧ 0 ≤ l'.acc ∧ l'.acc < FRAME ∧
      screenCalls l'.app.calls = screenCalls l.app.calls + k ∧
      consoleCalls l'.app.calls = consoleCalls l.app.calls ++ (if l.stdinClosed then [] else Spec.inputShown f.polls) ∧
      l'.stdinClosed = (l.stdinClosed || f.polls.contains none) ∧
      l'.quit = (l.quit || decide (System.exitCode l.app.vm > 0)) ∧
      l'.redraws = l.redraws + (if k = 0 then 0 else 1) := by
  generalize h1 : (if System.exitCode l.app.vm > 0 then { l with quit := true } else l : Loop σ) = l1
  have e1 : l1.app = l.app ∧ l1.acc = l.acc ∧ l1.stdinClosed = l.stdinClosed ∧
      l1.quit = (l.quit || decide (System.exitCode l.app.vm > 0)) ∧ l1.redraws = l.redraws := by
    rw [← h1]; split
    · rename_i hq; exact ⟨rfl, rfl, rfl, by simp [hq], rfl⟩
    · rename_i hq; exact ⟨rfl, rfl, rfl, by simp [hq], rfl⟩
  generalize h2 : (if f.dbg then { l1 with app := notify P 0x90 l1.app } else l1 : Loop σ) = l2
  have e2 : Quiet l1.app l2.app ∧ l2.acc = l1.acc ∧ l2.stdinClosed = l1.stdinClosed ∧ l2.quit = l1.quit ∧ l2.redraws = l1.redraws := by
    rw [← h2]; split
    · exact ⟨notify_quiet P 0x90 l1.app rfl rfl (by decide), rfl, rfl, rfl, rfl⟩
    · exact ⟨.refl _, rfl, rfl, rfl, rfl⟩
  generalize h3 : pollStdin P f.polls l2 = l3
  have e3 := pollStdin_spec P f.polls l2
  have e3q : l3.quit = l2.quit ∧ l3.redraws = l2.redraws := by
    rw [← h3]
    clear h3 e3 h2 e2
    generalize f.polls = ps
    induction ps generalizing l2 with
    | nil => exact ⟨rfl, rfl⟩
    | cons p ps ih =>
      unfold pollStdin
      split
      · exact ⟨rfl, rfl⟩
      · cases p with
        | some b => dsimp only; exact ih _
        | none => dsimp only; exact ih _
  rw [h3] at e3
  generalize h4 : [0, 1, 2, 3].foldl (fun l i => ackAudio P f.finished i l) l3 = l4
  have e4 := ackAll_quiet P f.finished [0, 1, 2, 3] l3
  have e4r : l4.redraws = l3.redraws := by
    have one : ∀ (i : Fin 4) (l : Loop σ), (ackAudio P f.finished i l).redraws = l.redraws := by
      intro i l; unfold ackAudio; split <;> rfl
    rw [← h4]
    simp only [List.foldl_cons, List.foldl_nil, one]
  rw [h4] at e4
  have hacc : l4.acc = l.acc := by rw [e4.2.1, e3.1.acc, e2.2.1, e1.2.1]
  have hdef : frame P f l = (spend P (⌊(l4.acc + f.elapsed) / FRAME⌋.toNat + 1) { l4 with acc := l4.acc + f.elapsed }).map
      (fun l => if decide (l4.acc + f.elapsed ≥ FRAME) then { l with redraws := l.redraws + 1 } else l) := by
    unfold frame
    dsimp only
    rw [h1, h2, h3, h4]
  have hfp := frame_pos
  have hnn : 0 ≤ (l4.acc + f.elapsed) / FRAME := div_nonneg (by rw [hacc]; linarith) (le_of_lt hfp)
  obtain ⟨l', s1, k, s2, s3, s4, s5, s6, s7, s8, s9⟩ := spend_spec P (⌊(l4.acc + f.elapsed) / FRAME⌋.toNat + 1)
    { l4 with acc := l4.acc + f.elapsed } (by dsimp only; rw [hacc]; linarith) (by
      dsimp only
      have hz : 0 ≤ ⌊(l4.acc + f.elapsed) / FRAME⌋ := Int.floor_nonneg.2 hnn
      have hlt := Int.lt_floor_add_one ((l4.acc + f.elapsed) / FRAME)
      have hcast : ((⌊(l4.acc + f.elapsed) / FRAME⌋.toNat + 1 : Nat) : Rat) = (⌊(l4.acc + f.elapsed) / FRAME⌋ : Int) + 1 := by
        have : ((⌊(l4.acc + f.elapsed) / FRAME⌋.toNat : Int)) = ⌊(l4.acc + f.elapsed) / FRAME⌋ := Int.toNat_of_nonneg hz
        push_cast
        rw [← this]
        push_cast
        rfl
      rw [hcast]
      rw [div_lt_iff₀ hfp] at hlt
      exact hlt)
  dsimp only at s2 s5 s6 s7 s8 s9
  rw [hdef, s1]
  have hredraw : decide (l4.acc + f.elapsed ≥ FRAME) = !decide (k = 0) := by
    by_cases hk : k = 0
    · subst hk
      simp at s2
      have : ¬ (l4.acc + f.elapsed ≥ FRAME) := by rw [← s2]; exact not_le.2 s4
      simp [this]
    · have : l4.acc + f.elapsed ≥ FRAME := by
        have hk1 : (1 : Rat) ≤ k := by exact_mod_cast Nat.one_le_iff_ne_zero.2 hk
        have : (1 : Rat) * FRAME ≤ k * FRAME := mul_le_mul_of_nonneg_right hk1 (le_of_lt hfp)
        linarith
      simp [this, hk]
  have hq : l4.quit = (l.quit || decide (System.exitCode l.app.vm > 0)) := by
    rw [e4.2.2.2, e3q.1, e2.2.2.2.1, e1.2.2.2.1]
  have hcl : l4.stdinClosed = (l.stdinClosed || f.polls.contains none) := by
    rw [e4.2.2.1, e3.2.1, e2.2.2.1, e1.2.2.1]
  have hsc : screenCalls l4.app.calls = screenCalls l.app.calls := by
    rw [e4.1.1, e3.1.screen, e2.1.screen, e1.1]
  have hco : consoleCalls l4.app.calls = consoleCalls l.app.calls ++ (if l.stdinClosed then [] else Spec.inputShown f.polls) := by
    rw [e4.1.2, e3.2.2, e2.1.console, e1.1, e2.2.2.1, e1.2.2.1]
  have hre : l4.redraws = l.redraws := by rw [e4r, e3q.2, e2.2.2.2.2, e1.2.2.2.2]
  refine ⟨_, rfl, k, ?_⟩
  rw [hredraw]
  by_cases hk : k = 0
  · subst hk
    dsimp only
    simp only [decide_true, Bool.not_true, Bool.false_eq_true, if_false]
    exact ⟨by rw [s2, hacc], s3, s4, by rw [s5, hsc], by rw [s6, hco], by rw [s7, hcl], by rw [s8, hq], by rw [s9, hre]; simp⟩
  · simp only [hk, decide_false, Bool.not_false, if_true]
    exact ⟨by rw [s2, hacc], s3, s4, by rw [s5, hsc], by rw [s6, hco], by rw [s7, hcl], by rw [s8, hq], by rw [s9, hre]; simp⟩

/-- The time of the frames does not run backwards. -/
def Spec.Forward (ss : List Step) : Prop := ∀ f, .frame f ∈ ss → 0 ≤ f.elapsed

theorem inputShown_append (x y : List (Option (List Byte))) :
    Spec.inputShown (x ++ y) = Spec.inputShown x ++ (if x.contains none then [] else Spec.inputShown y) := by
  induction x with
  | nil => simp [Spec.inputShown]
  | cons p ps ih =>
    cases p with
    | none => simp [Spec.inputShown]
    | some b =>
      simp only [List.cons_append, Spec.inputShown, ih, List.append_assoc]
      congr 2

theorem session_spec (P : Program σ) (ss : List Step) (l l' : Loop σ) (hf : Spec.Forward ss) (h0 : 0 ≤ l.acc)
    (h : session P ss l = some l') :
    0 ≤ l'.acc ∧ (∃ k : Nat, l'.acc = l.acc + Spec.time ss - k * FRAME ∧ screenCalls l'.app.calls = screenCalls l.app.calls + k) ∧
    ((∃ f, .frame f ∈ ss) → l'.acc < FRAME) ∧ (l.acc < FRAME → l'.acc < FRAME) ∧
    consoleCalls l'.app.calls = consoleCalls l.app.calls ++ (if l.stdinClosed then [] else Spec.inputShown (Spec.input ss)) := by
  induction ss generalizing l with
  | nil =>
    cases h
    exact ⟨h0, ⟨0, by simp [Spec.time], rfl⟩, fun ⟨f, hf⟩ => (by cases hf), id, by simp [Spec.input, Spec.inputShown]⟩
  | cons s ss ih =>
    unfold session at h
    cases hs : step P s l with
    | none => rw [hs] at h; cases h
    | some l1 =>
      rw [hs] at h
      have hf' : Spec.Forward ss := fun f hm => hf f (List.mem_cons_of_mem _ hm)
      cases s with
      | frame f =>
        obtain ⟨l2, e1, k, e2, e3, e4, e5, e6, e7, -⟩ := frame_spec P f l h0 (hf f (List.mem_cons_self ..))
        have : l2 = l1 := by
          have : step P (.frame f) l = some l2 := e1
          rw [hs] at this; exact (Option.some.inj this).symm
        subst this
        obtain ⟨i1, ⟨k', i2, i3⟩, i4, i4', i5⟩ := ih l2 hf' e3 h
        refine ⟨i1, ⟨k + k', ?_, ?_⟩, fun _ => i4' e4, fun _ => i4' e4, ?_⟩
        · rw [i2, e2]; simp only [Spec.time]; push_cast; ring
        · rw [i3, e5]; omega
        · rw [i5, e6, e7]
          simp only [Spec.input]
          rw [inputShown_append]
          cases l.stdinClosed <;> cases f.polls.contains none <;> simp
      | event E e =>
        unfold step at hs
        dsimp only at hs
        cases he : event P E e l.app with
        | error u => rw [he] at hs; cases hs
        | ok a =>
          rw [he] at hs
          have : l1 = { l with app := a } := (Option.some.inj hs).symm
          subst this
          have q := event_quiet he
          obtain ⟨i1, ⟨k', i2, i3⟩, i4, i4', i5⟩ := ih { l with app := a } hf' h0 h
          dsimp only at i2 i3 i5
          refine ⟨i1, ⟨k', i2, by rw [i3, q.screen]⟩, ?_, i4', ?_⟩
          · rintro ⟨f, hm⟩
            rcases List.mem_cons.1 hm with e | hm
            · cases e
            · exact i4 ⟨f, hm⟩
          · rw [i5, q.console]; rfl

/-! ## C66 -/

/-- **C66**, frames. Whatever the rate at which the window system draws, and whatever happens in between: after each frame the
screen vector has been called once for the start and once for each sixtieth of a second that has passed. -/
theorem C66_frames (P : Program σ) (a : App σ) (ss : List Step) (l : Loop σ) (hf : Spec.Forward ss) (h1 : ∃ f, .frame f ∈ ss)
    (h : session P ss (opened a) = some l) (ha : screenCalls a.calls = 0) :
    (screenCalls l.app.calls : Int) = 1 + ⌊Spec.time ss * 60 / 1000000⌋ := by
  obtain ⟨e1, ⟨k, e2, e3⟩, e4, -, -⟩ := session_spec P ss _ l hf (le_of_lt frame_pos) h
  have e5 := e4 h1
  have e3' : screenCalls l.app.calls = k := by rw [e3]; show screenCalls a.calls + k = k; omega
  rw [e3']
  have e2' : l.acc = FRAME + Spec.time ss - k * FRAME := e2
  have hk : ⌊Spec.time ss * 60 / 1000000⌋ = (k : Int) - 1 := by
    rw [Int.floor_eq_iff]
    rw [e2'] at e1 e5
    unfold FRAME at e1 e5
    push_cast
    constructor <;> linarith
  rw [hk]; ring

/-- **C66**, standard input. In every session the console vector is called once for each byte that was read before the end
of the input, in order, with type 1; then once with type 4; and never again. -/
theorem C66_input (P : Program σ) (a : App σ) (ss : List Step) (l : Loop σ) (hf : Spec.Forward ss)
    (h : session P ss (opened a) = some l) :
    consoleCalls l.app.calls = consoleCalls a.calls ++ Spec.inputShown (Spec.input ss) := by
  obtain ⟨-, -, -, -, e5⟩ := session_spec P ss _ l hf (le_of_lt frame_pos) h
  exact e5

/-- **C66**, progress. A session never gets stuck in `frame`, for every program, if the events are well behaved. -/
theorem C66_progress (P : Program σ) (hP : ∀ r, P.width r ≤ 65535 ∧ P.height r ≤ 65535) (ss : List Step) (l : Loop σ)
    (h0 : 0 ≤ l.acc) (hf : Spec.Forward ss) (hw : ∀ E e, .event E e ∈ ss → Spec.WheelFits e) : ∃ l', session P ss l = some l' := by
  induction ss generalizing l with
  | nil => exact ⟨l, rfl⟩
  | cons s ss ih =>
    have hf' : Spec.Forward ss := fun f hm => hf f (List.mem_cons_of_mem _ hm)
    have hw' : ∀ E e, .event E e ∈ ss → Spec.WheelFits e := fun E e hm => hw E e (List.mem_cons_of_mem _ hm)
    cases s with
    | frame f =>
      obtain ⟨l1, e1, k, -, e3, -⟩ := frame_spec P f l h0 (hf f (List.mem_cons_self ..))
      obtain ⟨l', h'⟩ := ih l1 e3 hf' hw'
      exact ⟨l', by unfold session step; dsimp only; rw [e1]; exact h'⟩
    | event E e =>
      obtain ⟨a, ha⟩ := C64_no_undefined_behaviour_partial P hP [(E, e)] (by
        intro x hx
        have := List.mem_singleton.1 hx
        subst this
        exact hw E e (List.mem_cons_self ..)) l.app
      have he : event P E e l.app = .ok a := by
        unfold events at ha
        obtain ⟨a1, h1, h2⟩ := bind_ok ha
        cases h2
        exact h1
      obtain ⟨l', h'⟩ := ih { l with app := a } h0 hf' hw'
      exact ⟨l', by unfold session step; dsimp only; rw [he]; exact h'⟩

theorem session_sound (P : Program σ) (ss : List Step) (l l' : Loop σ) (h : session P ss l = some l') (i : Fin 4) :
    soundCalls i l'.app.calls = soundCalls i l.app.calls + Spec.soundsEnded i (l.ack i) ss := by
  induction ss generalizing l with
  | nil => cases h; rfl
  | cons s ss ih =>
    unfold session at h
    obtain ⟨l1, h1, h2⟩ := Option.bind_eq_some_iff.1 h
    rw [ih l1 h2]
    cases s with
    | frame f =>
      obtain ⟨e1, e2⟩ := frame_sound P f l l1 h1 i
      rw [e1, e2, Nat.add_assoc]
      rfl
    | event E e =>
      unfold step at h1
      dsimp only at h1
      cases he : event P E e l.app with
      | error u => rw [he] at h1; cases h1
      | ok a =>
        rw [he] at h1
        have : l1 = { l with app := a } := (Option.some.inj h1).symm
        subst this
        have q := (event_quiet he).sound i
        dsimp only
        rw [q]
        rfl

/-- **C66**, sounds. In every session the program is told of the end of sounds once for each frame that finds that more have
ended, and not again until more end. Partial: for the channels after the first one it is told at the wrong port
(`C50_other_channels_violated`), and two sounds that end between two frames are told as one. -/
theorem C66_sounds_partial (P : Program σ) (a : App σ) (ss : List Step) (l : Loop σ) (h : session P ss (opened a) = some l)
    (i : Fin 4) : soundCalls i l.app.calls = soundCalls i a.calls + Spec.soundsEnded i 0 ss :=
  session_sound P ss _ l h i

/-- The program has asked to end: it has written something other than 0 to the state port. -/
def Spec.AskedToEnd (vm : VM) : Prop := vm.device 0x0f ≠ 0

/-- **C66**, end. A frame asks the window system to quit exactly if the program has set an exit status other than 0.
Partial: it should do so for every request to end (`C66_exit_violated`). -/
theorem C66_exit_partial (P : Program σ) (f : FrameIn) (l : Loop σ) (h0 : 0 ≤ l.acc) (he : 0 ≤ f.elapsed) (hq : l.quit = false) :
    ∃ l', frame P f l = some l' ∧ (l'.quit = true ↔ Spec.AskedToEnd l.app.vm ∧ (l.app.vm.device 0x0f).toNat % 128 ≠ 0) := by
  obtain ⟨l', e1, k, -, -, -, -, -, -, e8, -⟩ := frame_spec P f l h0 he
  refine ⟨l', e1, ?_⟩
  rw [e8, hq, Bool.false_or, decide_eq_true_iff]
  unfold System.exitCode Spec.AskedToEnd
  have hb : ∀ b : Byte, ((if b = 0 then -1 else ((b &&& 0x7f).toNat : Int)) > 0) ↔ (b ≠ 0 ∧ b.toNat % 128 ≠ 0) := by decide +kernel
  exact hb _

/-- **C66** fails for a program that ends with status 0 (by writing 0x80): the window stays open. -/
theorem C66_exit_violated :
    let vm : VM := { blank with device := fun a => if a = 0x0f then 0x80 else 0 }
    Spec.AskedToEnd vm ∧ System.exitCode vm = 0 ∧
    ((frame idle ⟨false, [], fun _ => 0, 20000⟩ (opened (start vm () ⟨0, [], 0, 0⟩))).map (·.quit)) = some false := by
  refine ⟨?_, ?_, ?_⟩
  · unfold Spec.AskedToEnd; decide
  · decide +kernel
  · decide +kernel

/-- A session: a slow frame, a key, a fast frame with input, and the end of the input. -/
def someSession : List Step :=
  [.frame ⟨false, [some [0x61, 0x62]], fun _ => 0, 50000⟩, .event ⟨512, 320, false⟩ (.key .up true),
   .frame ⟨false, [some [0x63], none], fun _ => 0, 1000⟩, .frame ⟨false, [], fun i => if i = 1 then 2 else 0, 17000⟩]

example : ((session idle someSession (opened (start blank () ⟨0, [], 0, 0⟩))).map
    (fun l => (screenCalls l.app.calls, consoleCalls l.app.calls, l.redraws))) =
      some (5, [(1, 0x61), (1, 0x62), (1, 0x63), (4, 0)], 2) := by decide +kernel
example : ((session idle someSession (opened (start blank () ⟨0, [], 0, 0⟩))).map
    (fun l => (soundCalls 1 l.app.calls, soundCalls 2 l.app.calls))) = some (1, 0) := by decide +kernel
example : Spec.soundsEnded 1 0 someSession = 1 := by decide
example : Spec.Forward someSession := by
  intro f hf
  simp only [someSession, List.mem_cons, List.not_mem_nil, or_false, reduceCtorEq, false_or, Step.frame.injEq] at hf
  rcases hf with rfl | rfl | rfl <;> norm_num

end Buxn.Gui
