import Verif.Gui.WholeSafe
import Verif.Gui.Keeps
/-!
# C77: the whole of `buxn-gui`
-/
namespace Buxn.Gui.Whole
open Buxn.VM Buxn.VM.Spec Buxn.Input Buxn.Boot Buxn.Bembd
open Buxn.Cli (deviceId devicePort ports Stop Respects Free respects_free)
variable {τ : Type}

/-- What holds as long as the program has not strayed. -/
structure Good (R : (Bool → File.Slot) → τ → Prop) (E : Cli.Env) (vm : VM) (s : State τ) : Prop where
  size : vm.memSize = 16 * 65536
  data : DataOk R (16 * 65536) s.data
  stop : ∀ u, s.stop = some (.fault u) → u = .signedOverflow ∧ E.cfg.wrapv = false

def Well (R : (Bool → File.Slot) → τ → Prop) (E : Cli.Env) (vm : VM) (s : State τ) : Prop := s.strayed = false → Good R E vm s

variable {R : (Bool → File.Slot) → τ → Prop}

theorem or_false_left {a b : Bool} (h : (a || b) = false) : a = false ∧ b = false := by
  cases a <;> cases b <;> simp_all

/-- What the guard lets through is what the program does. -/
theorem guarded_view (E : Cli.Env) (F : File.Host τ) (S : Sounds) (dev : Devices) (k0 : Byte × Byte) (n : Nat) (vm : VM)
    (hm : 65536 ≤ vm.memSize) (d : Data τ) (v : Short)
    (hr : refused (execute E.cfg (guarded F S dev) none k0 n vm d v) = false) :
    (execute E.cfg (host F S dev) none k0 n vm d v).view = (execute E.cfg (guarded F S dev) none k0 n vm d v).view := by
  rcases (guards F S dev).execute (cfg := E.cfg) (guarded_keeps F S dev) (host_keeps F S dev) k0 n vm hm d v with e | e
  · exact e.symm
  · exfalso
    cases hx : execute E.cfg (guarded F S dev) none k0 n vm d v with
    | halted => rw [hx] at e; cases e
    | running => rw [hx] at e; cases e
    | undefined u =>
      rw [hx] at e hr
      cases e
      cases hr

theorem run_well (E : Cli.Env) (F : File.Host τ) (hR : Respects F R) (S : Sounds) (v : Short) (vm : VM) (dev : Devices) (s : State τ)
    (h : Well R E vm s) : Well R E (run E F S v vm dev s).1 (run E F S v vm dev s).2 := by
  unfold run
  cases hs : s.stop with
  | some r => exact h
  | none =>
    dsimp only
    intro hst
    have hst' : (s.strayed || refused (execute E.cfg (guarded F S dev) none (E.locals s.runs) E.fuel vm s.data v)) = false := by
      revert hst
      split <;> exact id
    obtain ⟨h1, h2⟩ := or_false_left hst'
    have hg := h h1
    have hf := execute_fine (cfg := E.cfg) (guarded_sound F hR S dev) (E.locals s.runs) E.fuel vm s.data v
      (by rw [hg.size]; decide) (by rw [hg.size]; exact hg.data)
    have hv := guarded_view E F S dev (E.locals s.runs) E.fuel vm (by rw [hg.size]; decide) s.data v h2
    rw [hg.size] at hf
    clear hst hst'
    rw [hv]
    cases hx : execute E.cfg (guarded F S dev) none (E.locals s.runs) E.fuel vm s.data v with
    | halted vm d => rw [hx] at hf; exact ⟨hf.1, hf.2, fun u e => by cases e⟩
    | undefined u =>
      rw [hx] at hf h2
      refine ⟨hg.size, hg.data, ?_⟩
      intro u' e
      cases e
      refine hf ?_
      rintro rfl
      cases h2
    | running c => rw [hx] at hf; exact ⟨hf.1, hf.2, fun u e => by cases e⟩

/-- The flag stays. -/
theorem run_strayed (E : Cli.Env) (F : File.Host τ) (S : Sounds) (v : Short) (vm : VM) (dev : Devices) (s : State τ)
    (h : s.strayed = true) : (run E F S v vm dev s).2.strayed = true := by
  unfold run
  cases hs : s.stop with
  | some r => exact h
  | none =>
    dsimp only
    rw [h]
    split <;> rfl

theorem program_steady (E : Cli.Env) (F : File.Host τ) (hR : Respects F R) (S : Sounds) : Steady (program E F S) (Well R E) :=
  fun v vm dev s h => run_well E F hR S v vm dev s h

/-- The drawing. -/
theorem draw_well (E : Cli.Env) (l : Loop (State τ)) (h : Well R E l.app.vm l.app.rest) :
    Well R E (draw l).app.vm (draw l).app.rest ∧
    ((draw l).app.rest.strayed = false → (draw l).app.rest.stop = none →
      Screen.Shown ⟨(draw l).app.rest.data.gui, Screen.colors (draw l).app.vm⟩) := by
  unfold draw
  dsimp only
  cases hs : l.app.rest.stop with
  | some r => exact ⟨h, fun _ e => by dsimp only at e; rw [hs] at e; cases e⟩
  | none =>
    dsimp only
    by_cases hst : (l.app.rest.strayed || !decide (System.palette l.app.vm = l.app.rest.data.colors)) = false
    · obtain ⟨h1, h2⟩ := or_false_left hst
      have hp : System.palette l.app.vm = l.app.rest.data.colors := by simpa using h2
      have hg := h h1
      obtain ⟨w', e, hi, hsh⟩ := Screen.step_ok hg.data.scr .render trivial
      have e' : (Screen.renderFrame (table l.app.rest.data.colors) l.app.rest.data.gui >>=
        fun g => pure (⟨g, table l.app.rest.data.colors⟩ : Screen.World)) = .ok w' := e
      rw [colors_table, hp]
      cases hr : Screen.renderFrame (table l.app.rest.data.colors) l.app.rest.data.gui with
      | error u => rw [hr] at e'; cases e'
      | ok g =>
        rw [hr] at e'
        have ew := Except.ok.inj e'
        rw [← ew] at hi hsh
        refine ⟨fun _ => ⟨hg.size, ⟨hg.data.core, hg.data.con, hi, hg.data.audio⟩, fun u e => ?_⟩, fun _ _ => ?_⟩
        · cases e
        · dsimp only
          rw [colors_table, hp]
          exact hsh rfl
    · have hst' : (l.app.rest.strayed || !decide (System.palette l.app.vm = l.app.rest.data.colors)) = true := by
        cases hx : (l.app.rest.strayed || !decide (System.palette l.app.vm = l.app.rest.data.colors))
        · exact absurd hx hst
        · rfl
      rw [hst']
      split
      · exact ⟨fun e => (by cases e), fun e => (by cases e)⟩
      · exact ⟨fun e => (by cases e), fun e => (by cases e)⟩

theorem step_well (E : Cli.Env) (F : File.Host τ) (hR : Respects F R) (S : Sounds) (st : Step) (l l' : Loop (State τ))
    (h : step E F S st l = some l') (hw : Well R E l.app.vm l.app.rest) :
    Well R E l'.app.vm l'.app.rest ∧
    (l'.redraws ≠ l.redraws → l'.app.rest.strayed = false → l'.app.rest.stop = none →
      Screen.Shown ⟨l'.app.rest.data.gui, Screen.colors l'.app.vm⟩) := by
  obtain ⟨l1, h1, h2⟩ := Option.map_eq_some_iff.1 h
  have k := step_keeps (program_steady E F hR S) st l l1 h1 hw
  have rd : (draw l1).redraws = l1.redraws := by
    unfold draw
    dsimp only
    split
    · rfl
    · split <;> rfl
  by_cases hc : l1.redraws = l.redraws
  · rw [if_pos hc] at h2
    subst h2
    exact ⟨k, fun hn => absurd hc hn⟩
  · rw [if_neg hc] at h2
    subst h2
    obtain ⟨d1, d2⟩ := draw_well (R := R) E l1 k
    exact ⟨d1, fun _ => d2⟩

theorem session_well (E : Cli.Env) (F : File.Host τ) (hR : Respects F R) (S : Sounds) (ss : List Step) (l l' : Loop (State τ))
    (h : session E F S ss l = some l') (hw : Well R E l.app.vm l.app.rest) : Well R E l'.app.vm l'.app.rest := by
  induction ss generalizing l with
  | nil => cases h; exact hw
  | cons s ss ih =>
    obtain ⟨l1, h1, h2⟩ := Option.bind_eq_some_iff.1 h
    exact ih l1 h2 (step_well E F hR S s l l1 h1 hw).1

/-! ## The start -/

theorem exec_guestOnly (E : Cli.Env) (F : File.Host τ) (S : Sounds) : GuestOnly (exec E F S) where
  argc v w := rfl
  argv v w := rfl
  blind v w n l := by
    have hh : host F S (still ({ w.dev with argc := n, argv := l } : Console)) = host F S (still w.dev) := rfl
    have hg : guarded F S (still ({ w.dev with argc := n, argv := l } : Console)) = guarded F S (still w.dev) := rfl
    have hr : run E F S v w.vm (still ({ w.dev with argc := n, argv := l } : Console)) w.rest = run E F S v w.vm (still w.dev) w.rest := by
      unfold run
      rw [hh, hg]
    unfold exec
    dsimp only
    rw [hr]

abbrev WorldOk (R : (Bool → File.Slot) → τ → Prop) (E : Cli.Env) (w : World Console (State τ)) : Prop := Well R E w.vm w.rest

theorem exec_well (E : Cli.Env) (F : File.Host τ) (hR : Respects F R) (S : Sounds) (v : Short) (w : World Console (State τ))
    (h : WorldOk R E w) : WorldOk R E (exec E F S v w) := run_well E F hR S v w.vm (still w.dev) w.rest h

theorem sendData_well (E : Cli.Env) (F : File.Host τ) (hR : Respects F R) (S : Sounds) (t v : Byte) (w : World Console (State τ))
    (h : WorldOk R E w) : WorldOk R E (sendData (exec E F S) t v w) := exec_well E F hR S _ _ h

theorem sendArg_well (E : Cli.Env) (F : File.Host τ) (hR : Respects F R) (S : Sounds) (a : List Byte) (w : World Console (State τ))
    (h : WorldOk R E w) : WorldOk R E (sendArg (exec E F S) a w) := by
  have fin : ∀ w : World Console (State τ), WorldOk R E w → WorldOk R E (sendArg.finish (exec E F S) w) := by
    intro w h
    unfold sendArg.finish
    dsimp only
    split
    · exact sendData_well E F hR S CONSOLE_END 0x0a w h
    · exact sendData_well E F hR S CONSOLE_ARG_SEP 0x0a w h
  induction a generalizing w with
  | nil => exact fin w h
  | cons c cs ih =>
    unfold sendArg
    split
    · exact ih _ (sendData_well E F hR S _ _ w h)
    · exact fin w h

theorem sendArg_rest (E : Cli.Env) (F : File.Host τ) (S : Sounds) (a : List Byte) (w : World Console (State τ)) :
    (sendArg (exec E F S) a w).dev.argc = w.dev.argc - 1 ∧ (sendArg (exec E F S) a w).dev.argv = w.dev.argv.tail := by
  have hg := exec_guestOnly E F S
  have fin : ∀ w : World Console (State τ), (sendArg.finish (exec E F S) w).dev.argc = w.dev.argc - 1 ∧
      (sendArg.finish (exec E F S) w).dev.argv = w.dev.argv.tail := by
    intro w
    unfold sendArg.finish
    dsimp only
    split <;> simp only [(sendData_argc hg _ _ w).1, (sendData_argc hg _ _ w).2, and_self]
  induction a generalizing w with
  | nil => exact fin w
  | cons c cs ih =>
    unfold sendArg
    split
    · have := ih (sendData (exec E F S) CONSOLE_ARG c w)
      rw [(sendData_argc hg _ _ w).1, (sendData_argc hg _ _ w).2] at this
      exact this
    · exact fin w

theorem sendArgs_well (E : Cli.Env) (F : File.Host τ) (hR : Respects F R) (S : Sounds) (n : Nat) (w : World Console (State τ))
    (h : WorldOk R E w) (hn : w.dev.argc = w.dev.argv.length) :
    ∃ w', sendArgs (exec E F S) n w = .ok w' ∧ WorldOk R E w' := by
  induction n generalizing w with
  | zero => exact ⟨w, rfl, h⟩
  | succ n ih =>
    unfold sendArgs
    split
    · cases hv : w.dev.argv with
      | nil => rw [hv] at hn; simp at hn; omega
      | cons a l =>
        have h2 := sendArg_rest E F S a w
        refine ih _ (sendArg_well E F hR S a w h) ?_
        rw [h2.1, h2.2, hn, hv]
        simp
    · exact ⟨w, rfl, h⟩

theorem fresh_good (E : Cli.Env) (fs : τ) (h0 : R (fun _ => .closed) fs) (clock : Datetime.Clock) (hc : Cli.Spec.Sane clock) (freq w h : Nat)
    (hw : 0 < w ∧ w ≤ 32640) (hh : 0 < h ∧ h ≤ 32640) (vm : VM) (hm : vm.memSize = 16 * 65536) (es : List Title.Effect) :
    Good R E vm (fresh fs clock freq w h vm es) where
  size := hm
  data :=
    { core := (Cli.start_well (R := R) E fs h0 clock hc vm ⟨0, [], 0, 0⟩ hm).inv
      con := rfl
      scr := Screen.start_inv w h (by omega) (by omega) _
      audio := fun _ => Audio.fresh_inv freq }
  stop := fun u e => by cases e

/-- The bytes that a stream of the platform delivers. -/
def contents (t : InFile × Option Nat) : List Byte :=
  match t.2 with
  | some n => (t.1.readable.drop t.1.pos).take n
  | none => t.1.readable.drop t.1.pos

theorem ok_bind {α β : Type} (a : α) (f : α → Res β) : ((Except.ok a : Res α) >>= f) = f a := rfl

theorem boot_well (E : Cli.Env) (F : File.Host τ) (hR : Respects F R) (S : Sounds) (vm : VM) (fs : τ) (h0 : R (fun _ => .closed) fs)
    (clock : Datetime.Clock) (hc : Cli.Spec.Sane clock) (freq w h : Nat) (hw : 0 < w ∧ w ≤ 32640) (hh : 0 < h ∧ h ≤ 32640)
    (args : List (List Byte)) (rom : InFile × Option Nat) :
    (0xfff00 ≤ (contents rom).length → boot E F S vm fs clock freq w h args rom = .ok none) ∧
    ((contents rom).length < 0xfff00 → ∃ l, boot E F S vm fs clock freq w h args rom = .ok (some l) ∧ Well R E l.app.vm l.app.rest ∧
      l.acc = FRAME) := by
  obtain ⟨vm0, e0, hlt, hge⟩ := Start.load_fresh vm rom (contents rom) rfl
  constructor
  · intro hl
    unfold boot
    rw [e0, ok_bind, hge hl, ok_bind]
    rfl
  · intro hl
    obtain ⟨first, e1, hf⟩ := hlt hl
    have hm : first.memSize = 16 * 65536 := hf.size
    obtain ⟨es, e2⟩ : ∃ es, Title.bootTitle first = .ok (es, first) := by
      rcases Title.C68_boot first (by omega) with e | ⟨a, m, -, -, e⟩
      exacts [⟨_, e⟩, ⟨_, e⟩]
    have g0 : WorldOk R E ⟨first, consoleInit args.length args ⟨0, [], 0, 0⟩, fresh fs clock freq w h first es⟩ :=
      fun _ => fresh_good E fs h0 clock hc freq w h hw hh first hm es
    obtain ⟨w1, e3, g1⟩ := sendArgs_well E F hR S args.length _ (exec_well E F hR S 0x100 _ g0) (by
      show (consoleInit args.length args ⟨0, [], 0, 0⟩).argc = (consoleInit args.length args ⟨0, [], 0, 0⟩).argv.length
      rfl)
    refine ⟨opened (Gui.start w1.vm w1.rest w1.dev), ?_, g1, rfl⟩
    unfold boot
    rw [e0, ok_bind, e1, ok_bind]
    dsimp only
    rw [e2, ok_bind]
    dsimp only
    rw [e3, ok_bind]
    rfl

/-! ## C77 -/

theorem draw_loop (l : Loop (State τ)) : (draw l).redraws = l.redraws ∧ (draw l).acc = l.acc := by
  unfold draw
  dsimp only
  split
  · exact ⟨rfl, rfl⟩
  · split <;> exact ⟨rfl, rfl⟩

/-- A call of the window system ends. -/
theorem step_progress (E : Cli.Env) (F : File.Host τ) (S : Sounds) (st : Step) (l : Loop (State τ)) (h0 : 0 ≤ l.acc)
    (hf : Gui.Spec.Forward [st]) (hw : ∀ E e, .event E e ∈ [st] → Gui.Spec.WheelFits e) :
    ∃ l', step E F S st l = some l' ∧ 0 ≤ l'.acc := by
  obtain ⟨l1, h1⟩ := C66_progress (program E F S) (fun r => ⟨by
    show _ % 65536 ≤ 65535; omega, by show _ % 65536 ≤ 65535; omega⟩) [st] l h0 hf hw
  have h2 := (session_spec (program E F S) [st] l l1 hf h0 h1).1
  obtain ⟨l2, e1, e2⟩ := Option.bind_eq_some_iff.1 h1
  cases e2
  unfold step
  rw [e1]
  by_cases hc : l1.redraws = l.redraws
  · exact ⟨l1, congrArg some (if_pos hc), h2⟩
  · exact ⟨draw l1, congrArg some (if_neg hc), by rw [(draw_loop l1).2]; exact h2⟩

theorem session_progress (E : Cli.Env) (F : File.Host τ) (S : Sounds) (ss : List Step) (l : Loop (State τ)) (h0 : 0 ≤ l.acc)
    (hf : Gui.Spec.Forward ss) (hw : ∀ E e, .event E e ∈ ss → Gui.Spec.WheelFits e) : ∃ l', session E F S ss l = some l' := by
  induction ss generalizing l with
  | nil => exact ⟨l, rfl⟩
  | cons s ss ih =>
    obtain ⟨l1, h1, h2⟩ := step_progress E F S s l h0
      (fun f hm => hf f (by rw [List.mem_singleton.1 hm]; exact List.mem_cons_self ..))
      (fun E e hm => hw E e (by rw [List.mem_singleton.1 hm]; exact List.mem_cons_self ..))
    obtain ⟨l', h3⟩ := ih l1 h2 (fun f hm => hf f (List.mem_cons_of_mem _ hm)) (fun E e hm => hw E e (List.mem_cons_of_mem _ hm))
    refine ⟨l', ?_⟩
    unfold session
    rw [h1]
    exact h3

/-- **C77**, safety. Whatever the ROM (that fits into the memory), the arguments, the file system, the clock, the sounds, the size of the screen (up to
32640 each way), whatever the user does and however long one watches: the program starts, and no call of the window system
hangs in the program's own loops or goes wrong in its handling of the event; and the interpreter, the devices and the drawing
never run into undefined behaviour, except for the overflow of `MUL2` where the compiler does not define it (C01). Partial: time does not run
backwards and the wheel turns by less than 32768 in one event (C64, C66), and the ROM has not `strayed`. -/
theorem C77_no_undefined_behaviour_partial (E : Cli.Env) (F : File.Host τ) (S : Sounds) (vm : VM) (fs : τ) (clock : Datetime.Clock)
    (hc : Cli.Spec.Sane clock) (freq w h : Nat) (hw : 0 < w ∧ w ≤ 32640) (hh : 0 < h ∧ h ≤ 32640) (args : List (List Byte))
    (rom : InFile × Option Nat) (hl : (contents rom).length < 0xfff00) (ss : List Step) (hf : Gui.Spec.Forward ss)
    (hwh : ∀ E e, .event E e ∈ ss → Gui.Spec.WheelFits e) :
    ∃ l l', boot E F S vm fs clock freq w h args rom = .ok (some l) ∧ session E F S ss l = some l' ∧
      (l'.app.rest.strayed = false → ∀ u, l'.app.rest.stop = some (.fault u) → u = .signedOverflow ∧ E.cfg.wrapv = false) := by
  obtain ⟨l, h1, h2, h3⟩ := (boot_well E F (respects_free F) S vm fs trivial clock hc freq w h hw hh args rom).2 hl
  obtain ⟨l', h4⟩ := session_progress E F S ss l (by rw [h3]; exact le_of_lt frame_pos) hf hwh
  exact ⟨l, l', h1, h4, fun hs => (session_well E F (respects_free F) S ss l l' h4 h2 hs).stop⟩

/-- **C77**, the start. The program begins on a machine with nothing but the ROM in it, with the title and the icon of its metadata (C68); the vector at 0x100 is run, then the
arguments are sent, and then the window opens. -/
theorem C77_start (E : Cli.Env) (F : File.Host τ) (S : Sounds) (vm : VM) (fs : τ) (clock : Datetime.Clock)
    (hc : Cli.Spec.Sane clock) (freq w h : Nat) (hw : 0 < w ∧ w ≤ 32640) (hh : 0 < h ∧ h ≤ 32640) (args : List (List Byte))
    (rom : InFile × Option Nat) (hl : (contents rom).length < 0xfff00) :
    ∃ first es w1, Boot.Spec.Fresh (contents rom) first ∧ Title.bootTitle first = .ok (es, first) ∧
      sendArgs (exec E F S) args.length (exec E F S 0x100 ⟨first, consoleInit args.length args ⟨0, [], 0, 0⟩, fresh fs clock freq w h first es⟩) = .ok w1 ∧
      boot E F S vm fs clock freq w h args rom = .ok (some (opened (Gui.start w1.vm w1.rest w1.dev))) := by
  obtain ⟨vm0, e0, hlt, -⟩ := Start.load_fresh vm rom (contents rom) rfl
  obtain ⟨first, e1, hf⟩ := hlt hl
  have hm : first.memSize = 16 * 65536 := hf.size
  obtain ⟨es, e2⟩ : ∃ es, Title.bootTitle first = .ok (es, first) := by
    rcases Title.C68_boot first (by omega) with e | ⟨a, m, -, -, e⟩
    exacts [⟨_, e⟩, ⟨_, e⟩]
  have g0 : WorldOk (fun _ _ => True) E ⟨first, consoleInit args.length args ⟨0, [], 0, 0⟩, fresh fs clock freq w h first es⟩ :=
    fun _ => fresh_good E fs trivial clock hc freq w h hw hh first hm es
  obtain ⟨w1, e3, -⟩ := sendArgs_well E F (respects_free F) S args.length _ (exec_well E F (respects_free F) S 0x100 _ g0) (by
    show (consoleInit args.length args ⟨0, [], 0, 0⟩).argc = (consoleInit args.length args ⟨0, [], 0, 0⟩).argv.length
    rfl)
  refine ⟨first, es, w1, hf, e2, e3, ?_⟩
  unfold boot
  rw [e0, ok_bind, e1, ok_bind]
  show (Title.bootTitle first >>= _) = _
  rw [e2, ok_bind]
  show (sendArgs (exec E F S) args.length _ >>= _) = _
  rw [e3, ok_bind]
  rfl

/-- **C77**, a ROM that does not fit into the memory is refused. -/
theorem C77_too_long (E : Cli.Env) (F : File.Host τ) (S : Sounds) (vm : VM) (fs : τ) (clock : Datetime.Clock)
    (hc : Cli.Spec.Sane clock) (freq w h : Nat) (hw : 0 < w ∧ w ≤ 32640) (hh : 0 < h ∧ h ≤ 32640) (args : List (List Byte))
    (rom : InFile × Option Nat) (hl : 0xfff00 ≤ (contents rom).length) :
    boot E F S vm fs clock freq w h args rom = .ok none :=
  (boot_well E F (respects_free F) S vm fs trivial clock hc freq w h hw hh args rom).1 hl

/-- **C77**, the picture. Whenever the program redraws, at any point of any session, the two textures show exactly the two layers as
the program has drawn them, in the colours of that moment. Partial: the ROM has not `strayed`. -/
theorem C77_picture_partial (E : Cli.Env) (F : File.Host τ) (S : Sounds) (vm : VM) (fs : τ) (clock : Datetime.Clock)
    (hc : Cli.Spec.Sane clock) (freq w h : Nat) (hw : 0 < w ∧ w ≤ 32640) (hh : 0 < h ∧ h ≤ 32640) (args : List (List Byte))
    (rom : InFile × Option Nat) (hl : (contents rom).length < 0xfff00) (ss : List Step) (st : Step) (l l1 l2 : Loop (State τ))
    (h0 : boot E F S vm fs clock freq w h args rom = .ok (some l)) (h1 : session E F S ss l = some l1)
    (h2 : step E F S st l1 = some l2) (hr : l2.redraws ≠ l1.redraws) (hs : l2.app.rest.strayed = false)
    (hn : l2.app.rest.stop = none) :
    let g := l2.app.rest.data.gui
    let color := fun n => Screen.colors l2.app.vm n
    ∀ x y : Int, 0 ≤ x → x < g.scr.width → 0 ≤ y → y < g.scr.height →
      g.bgT (y * g.scr.width + x) = color (Screen.pix g.scr.width g.scr.bg x y) ∧
      g.fgT (y * g.scr.width + x) =
        if Screen.pix g.scr.width g.scr.fg x y = 0 then 0 else color (Screen.pix g.scr.width g.scr.fg x y) := by
  obtain ⟨l', h3, h4, -⟩ := (boot_well E F (respects_free F) S vm fs trivial clock hc freq w h hw hh args rom).2 hl
  rw [h0] at h3
  cases h3
  have hsh := (step_well E F (respects_free F) S st l1 l2 h2 (session_well E F (respects_free F) S ss l l1 h1 h4)).2 hr hs hn
  intro g color x y hx0 hx hy0 hy
  exact ⟨hsh.bg x y ⟨hx0, hx, hy0, hy⟩, hsh.fg x y ⟨hx0, hx, hy0, hy⟩⟩

/-- **C77**, files and text. At any point of any session both file devices have kept to the discipline of the file API, and the messages
shown are those that C67 speaks of for what the program has printed. Partial: the ROM has not `strayed`. -/
theorem C77_files_text_partial (E : Cli.Env) (F : File.Host τ) (S : Sounds) (vm : VM) (fs : τ) (clock : Datetime.Clock)
    (hc : Cli.Spec.Sane clock) (freq w h : Nat) (hw : 0 < w ∧ w ≤ 32640) (hh : 0 < h ∧ h ≤ 32640) (args : List (List Byte))
    (rom : InFile × Option Nat) (hl : (contents rom).length < 0xfff00) (ss : List Step) (l l' : Loop (State τ))
    (h0 : boot E F S vm fs clock freq w h args rom = .ok (some l)) (h1 : session E F S ss l = some l')
    (hs : l'.app.rest.strayed = false) :
    (∀ second, Cli.Spec.Disciplined (l'.app.rest.data.core.log second)) ∧
    ∀ level, ∃ ps r, Text.Spec.Cut (Text.Spec.stream level l'.app.rest.data.printed) ps r ∧
      (l'.app.rest.data.con.log.filter (·.1 == level)).map (·.2) = ps.map Text.Spec.shown := by
  obtain ⟨l2, h3, h4, -⟩ := (boot_well E F (respects_free F) S vm fs trivial clock hc freq w h hw hh args rom).2 hl
  rw [h0] at h3
  cases h3
  have hg := session_well E F (respects_free F) S ss l l' h1 h4 hs
  obtain ⟨sl, hsl, -⟩ := hg.data.core.files
  refine ⟨fun b => (hsl b).disciplined, ?_⟩
  obtain ⟨s, e, k⟩ := Text.C67_messages l'.app.rest.data.printed
  rw [hg.data.con] at e
  cases e
  exact k

/-- What is seen of the program after a run of a vector. -/
def Shows (vm' : VM) (s' : State τ) : Buxn.VM.Spec.Outcome (Data τ) → Prop
  | .halted vm d => s'.stop = none ∧ vm' = vm ∧ s'.data = d
  | .undefined u => s'.stop = some (.fault u)
  | .running c => s'.stop = some .unfinished ∧ vm' = c.vm ∧ s'.data = c.host

/-- **C77**, meaning. Wherever the program is (whether or not it has strayed), a run of a vector other than 0 is the run of the instruction set from that
address, with the devices of `gui.c` and what the user's devices show at that moment. -/
theorem C77_vector_is_uxn (E : Cli.Env) (F : File.Host τ) (S : Sounds) (v : Short) (hv : v ≠ 0) (vm : VM) (hm : 65536 ≤ vm.memSize)
    (dev : Devices) (s : State τ) (h : s.stop = none) :
    Shows (run E F S v vm dev s).1 (run E F S v vm dev s).2
      (Buxn.VM.Spec.run (Buxn.VM.Spec.cstep E.cfg (host F S dev)) E.fuel { vm := vm, host := s.data, pc := v.toNat }) := by
  unfold run
  rw [h]
  dsimp only
  rw [C01_execute_is_uxn_iso E.cfg (host F S dev) (host_keeps F S dev) (E.locals s.runs) E.fuel vm hm s.data v hv]
  split
  · rename_i e; rw [e]; exact ⟨rfl, rfl, rfl⟩
  · rename_i e; rw [e]; exact rfl
  · rename_i e; rw [e]; exact ⟨rfl, rfl, rfl⟩

theorem port_addr (p : Fin 16) : (∀ id ∈ [0x00, 0x10, 0x20, 0x30, 0x40, 0x50, 0x60, 0x70, 0x80, 0x90, 0xa0, 0xb0, 0xc0, 0xd0, 0xe0, (0xf0 : Byte)],
    deviceId (id + BitVec.ofNat 8 p.val) = id ∧ devicePort (id + BitVec.ofNat 8 p.val) = p) := by
  revert p; decide

/-- **C77**, reading. Which device answers a read of port `p` of device `id`, and that it is not another one that changes. -/
theorem C77_read_ports (S : Sounds) (dev : Devices) (p : Fin 16) (vm : VM) (d : Data τ) :
    let at_ (id : Byte) : Byte := id + BitVec.ofNat 8 p.val
    let page (id : Byte) : Fin 16 → Byte := fun q => vm.device (id + BitVec.ofNat 8 q.val)
    dei S dev (at_ 0x00) vm d = .ok (System.dei vm (at_ 0x00), vm, d) ∧
    dei S dev (at_ 0x10) vm d =
      .ok (if p = 2 then dev.console.value else if p = 7 then dev.console.type else vm.device (at_ 0x10), vm, d) ∧
    dei S dev (at_ 0x20) vm d =
      .ok ((Screen.dei vm d.gui (at_ 0x20)).1, vm, { d with gui := (Screen.dei vm d.gui (at_ 0x20)).2 }) ∧
    dei S dev (at_ 0x80) vm d = .ok (controllerDei { vm := vm, dev := dev.controller, rest := () } (at_ 0x80), vm, d) ∧
    dei S dev (at_ 0x90) vm d = .ok (mouseDei { vm := vm, dev := dev.mouse, rest := () } (at_ 0x90), vm, d) ∧
    dei S dev (at_ 0xa0) vm d = .ok (File.dei (d.core.file false) (page 0xa0) p, vm, d) ∧
    dei S dev (at_ 0xb0) vm d = .ok (File.dei (d.core.file true) (page 0xb0) p, vm, d) ∧
    (∀ t, Datetime.dei (d.core.clock.reading d.core.clock.calls) vm (at_ 0xc0) = .ok t →
      dei S dev (at_ 0xc0) vm d =
        .ok (t, vm, { d with core := { d.core with clock := ⟨d.core.clock.reading, d.core.clock.calls + 1⟩ } })) ∧
    (∀ id ∈ [0x70, 0xd0, 0xe0, (0xf0 : Byte)], dei S dev (at_ id) vm d = .ok (vm.device (at_ id), vm, d)) := by
  intro at_ page
  have ha := port_addr p
  have hd : ∀ id ∈ [0x00, 0x10, 0x20, 0x30, 0x40, 0x50, 0x60, 0x70, 0x80, 0x90, 0xa0, 0xb0, 0xc0, 0xd0, 0xe0, (0xf0 : Byte)],
    deviceId (at_ id) = id := fun id h => (ha id h).1
  refine ⟨?_, ?_, ?_, ?_, ?_, ?_, ?_, ?_, ?_⟩
  · unfold dei; rw [hd 0x00 (by decide)]; rfl
  · unfold dei
    rw [hd 0x10 (by decide)]
    show Except.ok (consoleDei _ _, vm, d) = _
    unfold consoleDei
    have e2 : ∀ p : Fin 16, ((0x10 : Byte) + BitVec.ofNat 8 p.val = 0x12) = (p = 2) := by decide
    have e7 : ∀ p : Fin 16, ((0x10 : Byte) + BitVec.ofNat 8 p.val = 0x17) = (p = 7) := by decide
    show Except.ok ((if (0x10 : Byte) + BitVec.ofNat 8 p.val = 0x12 then _ else if (0x10 : Byte) + BitVec.ofNat 8 p.val = 0x17 then _ else _), vm, d) = _
    simp only [e2, e7]
  · unfold dei; rw [hd 0x20 (by decide)]; rfl
  · unfold dei; rw [hd 0x80 (by decide)]; rfl
  · unfold dei; rw [hd 0x90 (by decide)]; rfl
  · unfold dei; rw [hd 0xa0 (by decide), (ha 0xa0 (by decide)).2]; rfl
  · unfold dei; rw [hd 0xb0 (by decide), (ha 0xb0 (by decide)).2]; rfl
  · intro t ht
    unfold dei
    rw [hd 0xc0 (by decide)]
    show (Datetime.dei (d.core.clock.reading d.core.clock.calls) vm (at_ 0xc0)).map _ = _
    rw [ht]
    rfl
  · intro id hid
    have hid' := hd id (by
      have : ∀ id ∈ [0x70, 0xd0, 0xe0, (0xf0 : Byte)],
        id ∈ [0x00, 0x10, 0x20, 0x30, 0x40, 0x50, 0x60, 0x70, 0x80, 0x90, 0xa0, 0xb0, 0xc0, 0xd0, 0xe0, (0xf0 : Byte)] := by decide
      exact this id hid)
    unfold dei
    rw [hid']
    have : id = 0x70 ∨ id = 0xd0 ∨ id = 0xe0 ∨ id = 0xf0 := by simpa using hid
    rcases this with rfl | rfl | rfl | rfl <;> rfl

/-- **C77**, reading the sounds. Ports 30 to 6f are those of four channels of sound: a read is a read of that channel as it is after whatever the thread that
plays the sounds has done to it (C15), and it leaves the other channels alone. -/
theorem C77_read_sounds (S : Sounds) (dev : Devices) (i : Fin 4) (p : Fin 16) (vm : VM) (d : Data τ) (hm : 65536 ≤ vm.memSize)
    (hi : ∀ i, Audio.Inv (d.audio i)) :
    let id : Byte := BitVec.ofNat 8 (0x30 + 0x10 * i.val)
    let page : Fin 16 → Byte := fun q => vm.device (id + BitVec.ofNat 8 q.val)
    ∃ c fs v page' c', Audio.history vm.memSize (S d.reads) (d.audio i) = .ok (c, fs) ∧
      Audio.dei page p c = .ok (v, page', c') ∧
      dei S dev (id + BitVec.ofNat 8 p.val) vm d =
        .ok (v, setPorts vm id page', { d with audio := upd d.audio i c', reads := d.reads + 1 }) := by
  intro id page
  obtain ⟨c, fs, e1, h1, -⟩ := Audio.history_ok vm.memSize hm (S d.reads) (d.audio i) (hi i)
  obtain ⟨v, page', c', e2, -⟩ := Audio.dei_ok page p c h1
  refine ⟨c, fs, v, page', c', e1, e2, ?_⟩
  have hid : ∀ i : Fin 4, ∀ p : Fin 16, (deviceId ((BitVec.ofNat 8 (0x30 + 0x10 * i.val) : Byte) + BitVec.ofNat 8 p.val) = BitVec.ofNat 8 (0x30 + 0x10 * i.val) ∧
    devicePort ((BitVec.ofNat 8 (0x30 + 0x10 * i.val) : Byte) + BitVec.ofNat 8 p.val) = p) ∧ channel (BitVec.ofNat 8 (0x30 + 0x10 * i.val)) = i := by decide
  have key : dei S dev (id + BitVec.ofNat 8 p.val) vm d = audioDei S id (id + BitVec.ofNat 8 p.val) vm d := by
    unfold dei
    rw [(hid i p).1.1]
    have : ∀ i : Fin 4, i = 0 ∨ i = 1 ∨ i = 2 ∨ i = 3 := by decide
    rcases this i with rfl | rfl | rfl | rfl <;> rfl
  rw [key]
  unfold audioDei
  rw [(hid i p).2, (hid i p).1.2, e1, ok_bind]
  dsimp only
  rw [show Audio.dei (ports vm id) p c = .ok (v, page', c') from e2]
  rfl

/-- **C77**, writing. Which device gets a write to port `p` of device `id`, and that it is not another one that changes. -/
theorem C77_write_ports (F : File.Host τ) (dev : Devices) (p : Fin 16) (vm : VM) (d : Data τ) :
    let at_ (id : Byte) : Byte := id + BitVec.ofNat 8 p.val
    let page (id : Byte) : Fin 16 → Byte := fun q => vm.device (id + BitVec.ofNat 8 q.val)
    deo F dev (at_ 0x00) vm d = System.deo callbacks (at_ 0x00) vm d ∧
    (deo F dev (at_ 0x10) vm d =
      if p = 8 then print .info (vm.device 0x18) vm d else if p = 9 then print .error (vm.device 0x19) vm d else .ok (vm, d)) ∧
    (∀ g, Screen.deo vm d.gui (at_ 0x20) = .ok g → deo F dev (at_ 0x20) vm d = .ok (vm, { d with gui := g })) ∧
    (∀ i : Fin 4, let id : Byte := BitVec.ofNat 8 (0x30 + 0x10 * i.val)
      deo F dev (at_ id) vm d = match Audio.deo (page id) p with
        | some m => .ok (vm, { d with sent := d.sent ++ [(i, m)] })
        | none => .ok (vm, d)) ∧
    (∀ second : Bool, let id : Byte := if second then 0xb0 else 0xa0
      ∀ w, File.deo F vm.memSize (page id) p { dev := d.core.file second, mem := vm.memory, host := d.core.fs, log := d.core.log second } = .ok w →
      deo F dev (at_ id) vm d = .ok ({ vm with memory := w.mem }, { d with core := { d.core with
        file := upd d.core.file second w.dev, log := upd d.core.log second w.log, fs := w.host } })) ∧
    (∀ id ∈ [0x70, 0x80, 0x90, 0xc0, 0xd0, 0xe0, (0xf0 : Byte)], deo F dev (at_ id) vm d = .ok (vm, d)) := by
  intro at_ page
  have ha := port_addr p
  have hd : ∀ id ∈ [0x00, 0x10, 0x20, 0x30, 0x40, 0x50, 0x60, 0x70, 0x80, 0x90, 0xa0, 0xb0, 0xc0, 0xd0, 0xe0, (0xf0 : Byte)],
    deviceId (at_ id) = id := fun id h => (ha id h).1
  refine ⟨?_, ?_, ?_, ?_, ?_, ?_⟩
  · unfold deo; rw [hd 0x00 (by decide)]; rfl
  · unfold deo
    rw [hd 0x10 (by decide)]
    have e8 : ∀ p : Fin 16, ((0x10 : Byte) + BitVec.ofNat 8 p.val = 0x18) ↔ (p = 8) := by decide
    have e9 : ∀ p : Fin 16, ((0x10 : Byte) + BitVec.ofNat 8 p.val = 0x19) ↔ (p = 9) := by decide
    by_cases h8 : p = 8
    · subst h8; rfl
    by_cases h9 : p = 9
    · subst h9; rfl
    rw [if_neg h8, if_neg h9]
    have hn : consoleDeo { vm := vm, dev := dev.console, rest := () } (at_ 0x10) = none := by
      unfold consoleDeo
      rw [if_neg (fun h => h8 ((e8 p).1 h)), if_neg (fun h => h9 ((e9 p).1 h))]
    show (match consoleDeo { vm := vm, dev := dev.console, rest := () } (at_ 0x10) with
      | some (false, c) => print .info c vm d
      | some (true, c) => print .error c vm d
      | none => .ok (vm, d)) = _
    rw [hn]
  · intro g hg
    unfold deo
    rw [hd 0x20 (by decide)]
    show (Screen.deo vm d.gui (at_ 0x20) >>= _) = _
    rw [hg]
    rfl
  · intro i id
    have hid : ∀ i : Fin 4, ∀ p : Fin 16, (deviceId ((BitVec.ofNat 8 (0x30 + 0x10 * i.val) : Byte) + BitVec.ofNat 8 p.val) = BitVec.ofNat 8 (0x30 + 0x10 * i.val) ∧
      devicePort ((BitVec.ofNat 8 (0x30 + 0x10 * i.val) : Byte) + BitVec.ofNat 8 p.val) = p) ∧ channel (BitVec.ofNat 8 (0x30 + 0x10 * i.val)) = i := by decide
    have four : ∀ i : Fin 4, i = 0 ∨ i = 1 ∨ i = 2 ∨ i = 3 := by decide
    unfold deo
    rw [show deviceId (at_ id) = id from (hid i p).1.1, show devicePort (at_ id) = p from (hid i p).1.2]
    rcases four i with rfl | rfl | rfl | rfl <;> rfl
  · intro second id w hw
    cases second
    · unfold deo
      rw [show deviceId (at_ id) = 0xa0 from hd 0xa0 (by decide)]
      show (Cli.fileDeo F false 0xa0 (at_ id) vm d.core).map _ = _
      unfold Cli.fileDeo
      rw [show devicePort (at_ id) = p from (ha 0xa0 (by decide)).2, show File.deo F vm.memSize (ports vm 0xa0) p _ = _ from hw]
      rfl
    · unfold deo
      rw [show deviceId (at_ id) = 0xb0 from hd 0xb0 (by decide)]
      show (Cli.fileDeo F true 0xb0 (at_ id) vm d.core).map _ = _
      unfold Cli.fileDeo
      rw [show devicePort (at_ id) = p from (ha 0xb0 (by decide)).2, show File.deo F vm.memSize (ports vm 0xb0) p _ = _ from hw]
      rfl
  · intro id hid
    have hid' := hd id (by
      have : ∀ id ∈ [0x70, 0x80, 0x90, 0xc0, 0xd0, 0xe0, (0xf0 : Byte)],
        id ∈ [0x00, 0x10, 0x20, 0x30, 0x40, 0x50, 0x60, 0x70, 0x80, 0x90, 0xa0, 0xb0, 0xc0, 0xd0, 0xe0, (0xf0 : Byte)] := by decide
      exact this id hid)
    unfold deo
    rw [hid']
    have : id = 0x70 ∨ id = 0x80 ∨ id = 0x90 ∨ id = 0xc0 ∨ id = 0xd0 ∨ id = 0xe0 ∨ id = 0xf0 := by simpa using hid
    rcases this with rfl | rfl | rfl | rfl | rfl | rfl | rfl <;> rfl

/-- **C77**, the callbacks of the system device. A change of the colours makes the next picture a new one; a new title and icon are told to the
window system, with no effect on the machine; a wish for debugging is ignored. -/
theorem C77_system (vm : VM) (d : Data τ) (hm : 65536 ≤ vm.memSize) :
    (∀ a ∈ [0x09, 0x0b, (0x0d : Byte)], System.deo callbacks a vm d =
      .ok (vm, { d with gui := Screen.forceRefresh d.gui, colors := System.palette vm })) ∧
    (∃ es, Title.setMetadata vm (vm.devLoad2 0x06) = .ok (es, vm) ∧
      System.deo callbacks 0x07 vm d = .ok (vm, { d with told := d.told ++ es })) ∧
    System.deo callbacks 0x0e vm d = .ok (vm, d) := by
  refine ⟨?_, ?_, ?_⟩
  · intro a ha
    have : a = 0x09 ∨ a = 0x0b ∨ a = 0x0d := by simpa using ha
    rcases this with rfl | rfl | rfl <;> rfl
  · obtain ⟨es, e⟩ := setMetadata_ok vm (vm.devLoad2 0x06) hm
    refine ⟨es, e, ?_⟩
    show (Title.setMetadata vm (vm.devLoad2 0x06)).map _ = _
    rw [e]
    rfl
  · show (if vm.device 0x0e ≠ 0 then Except.ok (vm, d) else Except.ok (vm, d)) = _
    split <;> rfl

/-! ## Cases that meet the hypotheses -/

/-- Colour 1 is red; the screen vector draws a pixel at (2, 3) and prints a line. -/
def dot : List Byte :=
  [0xa0, 0x0f, 0x00, 0x80, 0x08, 0x37, 0xa0, 0x01, 0x0d, 0x80, 0x20, 0x37, 0x00,
   0xa0, 0x00, 0x02, 0x80, 0x28, 0x37, 0xa0, 0x00, 0x03, 0x80, 0x2a, 0x37, 0x80, 0x01, 0x80, 0x2e, 0x17,
   0x80, 0x41, 0x80, 0x18, 0x17, 0x80, 0x0a, 0x80, 0x18, 0x17, 0x00]

/-- The screen vector adds to the high byte of the red colours, and to no low byte. -/
def half : List Byte := [0xa0, 0x01, 0x07, 0x80, 0x20, 0x37, 0x00, 0x80, 0x08, 0x16, 0x80, 0x10, 0x18, 0x80, 0x08, 0x17, 0x00]

/-- The environment of the examples. -/
def small : Cli.Env := ⟨⟨true, true⟩, fun _ => (0, 0), 20⟩

/-- A frame. -/
def tick : Step := .frame ⟨false, [], fun _ => 0, FRAME⟩

/-- What is seen after a session with a screen of 8 by 8: a pixel, the messages, and whether the ROM has strayed or stopped. -/
def seen (rom : List Byte) (ss : List Step) : Option (Nat × List (Text.Level × List Byte) × Bool × Bool) :=
  match boot small Cli.noFiles (fun _ => []) Cli.blank () Cli.noClock 44100 8 8 [] ({ bytes := rom }, none) with
  | .ok (some l) => (session small Cli.noFiles (fun _ => []) ss l).map fun l =>
      (l.app.rest.data.gui.bgT (3 * 8 + 2), l.app.rest.data.con.log, l.app.rest.strayed, l.app.rest.stop.isSome)
  | _ => none

example : seen dot [tick] = some (0xff0000ff, [(.info, [0x41]), (.info, [0x41])], false, false) := by decide +kernel

/-- **C77 fails for a ROM that has strayed**: after two frames the picture shows an empty pixel in the colour of the frame before, and not in the
one of that moment (see `C22_theme_violated`). -/
theorem C77_colors_violated :
    (match boot small Cli.noFiles (fun _ => []) Cli.blank () Cli.noClock 44100 8 8 [] ({ bytes := half }, none) with
      | .ok (some l) => (session small Cli.noFiles (fun _ => []) [tick, tick] l).map fun l =>
          (l.app.rest.data.gui.bgT 0, Screen.colors l.app.vm (Screen.pix 8 l.app.rest.data.gui.scr.bg 0 0), l.app.rest.strayed)
      | _ => none) = some (0xff000022, 0xff000033, true) := by decide +kernel

example : Gui.Spec.Forward [tick] ∧ ∀ E e, .event E e ∈ [tick] → Gui.Spec.WheelFits e :=
  ⟨fun f hf => by
    have := List.mem_singleton.1 hf
    cases this
    exact le_of_lt frame_pos, fun E e he => by
    have := List.mem_singleton.1 he
    cases this⟩
example : (contents ({ bytes := dot }, none)).length < 0xfff00 := by decide +kernel

end Buxn.Gui.Whole
