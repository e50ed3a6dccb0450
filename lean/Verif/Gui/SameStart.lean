import Verif.Gui.Same
/-!
# C92: a console program from its start, in a terminal and in a window

The start of a program (loading, the reset vector, the arguments) and its input, under `buxn-cli` and under `buxn-gui`.
-/
namespace Buxn.Gui.Whole
open Buxn.VM Buxn.Input Buxn.Cli Buxn.Boot Buxn.Boot.Spec Buxn.Bembd
variable {τ : Type}

/-! ## Specification -/

/-- `buxn_vm_execute(vm, vector)` in `buxn-gui`, with reads of the window refused: the program is stopped there. -/
def runRefusing (E : Cli.Env) (F : File.Host τ) (S : Sounds) (v : Short) (vm : VM) (dev : Devices) (s : State τ) : VM × State τ :=
  match s.stop with
  | some _ => (vm, s)
  | none =>
    match (execute E.cfg (windowless F S dev) none (E.locals s.runs) E.fuel vm s.data v).view with
    | .halted vm d => (vm, { s with data := d, runs := s.runs + 1 })
    | .undefined u => (vm, { s with runs := s.runs + 1, stop := some (.fault u) })
    | .running c => (c.vm, { s with data := c.host, runs := s.runs + 1, stop := some .unfinished })

/-- The same, while the program starts. -/
def execRefusing (E : Cli.Env) (F : File.Host τ) (S : Sounds) : Exec Console (State τ) := fun v w =>
  let (vm, s) := runRefusing E F S v w.vm (still w.dev) w.rest
  { w with vm := vm, rest := s }

/-- `load_boot_rom` up to the call of the reset vector, `gui.c:390-430`, with any way of running a vector. -/
def begun (exec : Exec Console (State τ)) (vm : VM) (fs : τ) (clock : Datetime.Clock) (freq w h : Nat) (args : List (List Byte))
    (rom : InFile × Option Nat) : Res (Option (World Console (State τ))) := do
  let vm ← VM.reset { vm with memSize := MEMORY_SIZE } RESET_ALL
  match ← guiLoad stdioRead vm rom with
  | none => return none
  | some vm =>
    let (es, vm) ← Title.bootTitle vm
    return some (exec 0x100 { vm := vm, dev := consoleInit args.length args ⟨0, [], 0, 0⟩, rest := fresh fs clock freq w h vm es })

/-- The two programs are at the same point: the same machine, the same console, and the same work done. -/
structure SameProgram (w : World Console (State τ)) (w' : World Console (Cli.State τ)) : Prop where
  vm : w'.vm = w.vm
  console : w'.dev = w.dev
  work : SameWork w.rest.data w'.rest.data
  running : w.rest.stop = none ∧ w'.rest.stop = none

/-! ## Proofs -/

theorem boot_eq (E : Cli.Env) (F : File.Host τ) (S : Sounds) (vm : VM) (fs : τ) (clock : Datetime.Clock) (freq w h : Nat) (args : List (List Byte))
    (rom : InFile × Option Nat) :
    boot E F S vm fs clock freq w h args rom = (begun (exec E F S) vm fs clock freq w h args rom >>= fun
      | none => .ok none
      | some w0 => (sendArgs (exec E F S) args.length w0).map fun w1 => some (opened (Gui.start w1.vm w1.rest w1.dev))) := by
  unfold boot begun
  cases VM.reset { vm with memSize := MEMORY_SIZE } RESET_ALL with
  | error u => rfl
  | ok vm =>
    simp only [bind, Except.bind, pure, Except.pure]
    cases guiLoad stdioRead vm rom with
    | error u => rfl
    | ok x =>
      cases x with
      | none => rfl
      | some vm =>
        dsimp only
        cases Title.bootTitle vm with
        | error u => rfl
        | ok y =>
          dsimp only
          cases sendArgs (exec E F S) args.length (exec E F S 0x100
            { vm := y.2, dev := consoleInit args.length args ⟨0, [], 0, 0⟩, rest := fresh fs clock freq w h y.2 y.1 }) <;> rfl

/-- The relation between the run in which reads of the window are refused, the run in `buxn-gui` and the run in `buxn-cli`. -/
structure Linked (r g : World Console (State τ)) (c : World Console (Cli.State τ)) : Prop where
  dev : g.dev = r.dev ∧ c.dev = r.dev
  same : r.rest.stop = none → g.vm = r.vm ∧ g.rest.data = r.rest.data ∧ g.rest.runs = r.rest.runs ∧ SameProgram g c ∧ 65536 ≤ g.vm.memSize

theorem windowless_size (F : File.Host τ) (S : Sounds) (dev : Devices) : Sound (fun _ _ => True) (fun _ => False) (windowless F S dev) where
  dei a vm d _ := by
    cases h : (windowless F S dev).dei a vm d with
    | error u => exact fun e => e
    | ok x => exact ⟨(windowless_keeps F S dev).dei _ _ _ _ _ _ h, trivial⟩
  deo a vm d _ := by
    cases h : (windowless F S dev).deo a vm d with
    | error u => exact fun e => e
    | ok x => exact ⟨(windowless_keeps F S dev).deo _ _ _ _ _ h, trivial⟩

/-- One vector. -/
theorem vector_alike {E : Cli.Env} {F : File.Host τ} {S : Sounds} (v : Short) (vm : VM) (dev : Devices) (s : State τ) (c : World Console (Cli.State τ))
    (h : SameProgram ⟨vm, dev.console, s⟩ c) (hm : 65536 ≤ vm.memSize) (hs : (runRefusing E F S v vm dev s).2.stop = none) :
    (run E F S v vm dev s).1 = (runRefusing E F S v vm dev s).1 ∧ (run E F S v vm dev s).2.data = (runRefusing E F S v vm dev s).2.data ∧
      (run E F S v vm dev s).2.runs = (runRefusing E F S v vm dev s).2.runs ∧
      SameProgram ⟨(run E F S v vm dev s).1, dev.console, (run E F S v vm dev s).2⟩ (Cli.exec E F v c) ∧ 65536 ≤ (run E F S v vm dev s).1.memSize := by
  obtain ⟨e1, e2, e3, e4, e5⟩ := h
  dsimp only at e1 e2 e3 e4
  unfold runRefusing at hs ⊢
  rw [e4] at hs ⊢
  dsimp only at hs ⊢
  cases hv : (execute E.cfg (windowless F S dev) none (E.locals s.runs) E.fuel vm s.data v).view with
  | undefined u => rw [hv] at hs; cases hs
  | running s => rw [hv] at hs; cases hs
  | halted vm' d =>
    have hsz : 65536 ≤ vm'.memSize := by
      have hf := execute_fine (cfg := E.cfg) (windowless_size F S dev) (E.locals s.runs) E.fuel vm s.data v hm trivial
      cases hx : execute E.cfg (windowless F S dev) none (E.locals s.runs) E.fuel vm s.data v with
      | undefined u => rw [hx] at hv; cases hv
      | running s => rw [hx] at hv; cases hv
      | halted vm1 d1 =>
        rw [hx] at hv hf
        cases hv
        rw [hf.1]; exact hm
    have hG := ((windowless_guards F S dev).execute (cfg := E.cfg) (windowless_keeps F S _) (host_keeps F S _) (E.locals s.runs) E.fuel vm hm
      s.data v).resolve_right (by rw [hv]; nofun)
    rw [hv] at hG
    have hC := (same_devices F S dev).execute (cfg := E.cfg) (windowless_keeps F S _) (Cli.host_keeps F dev.console) (E.locals s.runs)
      (E.locals c.rest.runs.length) E.fuel vm hm s.data c.rest.data e3 v (by rw [hv]; nofun)
    rw [hv, ← e2, ← e1] at hC
    unfold run Cli.exec
    rw [e4, e5, ← hG]
    dsimp only
    cases hx : execute E.cfg (Cli.host F c.dev) none (E.locals c.rest.runs.length) E.fuel c.vm c.rest.data v with
    | undefined u => rw [hx] at hC; cases hC
    | running s => rw [hx] at hC; cases hC
    | halted vm1 d1 =>
      rw [hx] at hC
      cases hC with
      | halted hw => exact ⟨rfl, rfl, rfl, ⟨rfl, e2, hw, rfl, rfl⟩, hsz⟩

theorem Linked.exec {E : Cli.Env} {F : File.Host τ} {S : Sounds} {r g : World Console (State τ)} {c : World Console (Cli.State τ)} (v : Short) (h : Linked r g c) :
    Linked (execRefusing E F S v r) (exec E F S v g) (Cli.exec E F v c) := by
  constructor
  · refine ⟨h.dev.1, ?_⟩
    show (Cli.exec E F v c).dev = r.dev
    rw [← h.dev.2]
    unfold Cli.exec
    dsimp only
    split
    · rfl
    · split <;> rfl
  intro hs
  have h0 : r.rest.stop = none := by
    cases hr : r.rest.stop with
    | none => rfl
    | some u =>
      exfalso
      unfold execRefusing runRefusing at hs
      rw [hr] at hs
      exact absurd (hr.symm.trans hs) nofun
  obtain ⟨e1, e2, e3, e4, e5⟩ := h.same h0
  have hd1 := h.dev.1
  have hr : (runRefusing E F S v g.vm (still g.dev) g.rest).1 = (runRefusing E F S v r.vm (still r.dev) r.rest).1 ∧
      (runRefusing E F S v g.vm (still g.dev) g.rest).2.data = (runRefusing E F S v r.vm (still r.dev) r.rest).2.data ∧
      (runRefusing E F S v g.vm (still g.dev) g.rest).2.runs = (runRefusing E F S v r.vm (still r.dev) r.rest).2.runs ∧
      (runRefusing E F S v g.vm (still g.dev) g.rest).2.stop = (runRefusing E F S v r.vm (still r.dev) r.rest).2.stop := by
    unfold runRefusing
    rw [h0, e4.running.1, e1, e2, e3, hd1]
    dsimp only
    split
    · exact ⟨rfl, rfl, rfl, rfl⟩
    · exact ⟨rfl, rfl, rfl, rfl⟩
    · exact ⟨rfl, rfl, rfl, rfl⟩
  obtain ⟨k1, k2, k3, k4, k5⟩ := vector_alike (E := E) (F := F) (S := S) v g.vm (still g.dev) g.rest c e4 e5 (hr.2.2.2.trans hs)
  exact ⟨k1.trans hr.1, k2.trans hr.2.1, k3.trans hr.2.2.1, k4, k5⟩

theorem Linked.sendData {E : Cli.Env} {F : File.Host τ} {S : Sounds} {r g : World Console (State τ)} {c : World Console (Cli.State τ)} (t v : Byte) (h : Linked r g c) :
    Linked (sendData (execRefusing E F S) t v r) (sendData (Whole.exec E F S) t v g) (sendData (Cli.exec E F) t v c) := by
  unfold Input.sendData
  dsimp only
  have hl : Linked { r with dev := { r.dev with type := t, value := v } } { g with dev := { g.dev with type := t, value := v } }
      { c with dev := { c.dev with type := t, value := v } } := by
    refine ⟨⟨by rw [h.dev.1], by rw [h.dev.2]⟩, fun hs => ?_⟩
    obtain ⟨e1, e2, e3, e4, e5⟩ := h.same hs
    exact ⟨e1, e2, e3, ⟨e4.vm, by show ({ c.dev with type := t, value := v } : Console) = _; rw [e4.console], e4.work, e4.running⟩, e5⟩
  by_cases hs : r.rest.stop = none
  · obtain ⟨e1, e2, e3, e4, e5⟩ := h.same hs
    rw [show c.vm.devLoad2 0x10 = r.vm.devLoad2 0x10 by rw [e4.vm, e1], show g.vm.devLoad2 0x10 = r.vm.devLoad2 0x10 by rw [e1]]
    exact hl.exec (E := E) (F := F) (S := S) (r.vm.devLoad2 0x10)
  · have hn : ∀ v', (execRefusing E F S v' { r with dev := { r.dev with type := t, value := v } }).rest.stop ≠ none := by
      intro v'
      unfold execRefusing runRefusing
      dsimp only
      cases hr : r.rest.stop with
      | none => exact absurd hr hs
      | some u => dsimp only; rw [hr]; nofun
    exact ⟨⟨by rw [(hl.exec (E := E) (F := F) (S := S) (g.vm.devLoad2 0x10)).dev.1]; rfl,
      (hl.exec (E := E) (F := F) (S := S) (c.vm.devLoad2 0x10)).dev.2⟩, fun e => absurd e (hn _)⟩

theorem Linked.finish {E : Cli.Env} {F : File.Host τ} {S : Sounds} {r g : World Console (State τ)} {c : World Console (Cli.State τ)} (h : Linked r g c) :
    Linked (sendArg.finish (execRefusing E F S) r) (sendArg.finish (Whole.exec E F S) g) (sendArg.finish (Cli.exec E F) c) := by
  unfold sendArg.finish
  dsimp only
  have key : ∀ {r g : World Console (State τ)} {c : World Console (Cli.State τ)}, Linked r g c →
      Linked { r with dev := { r.dev with argc := r.dev.argc - 1, argv := r.dev.argv.tail } } { g with dev := { g.dev with argc := g.dev.argc - 1, argv := g.dev.argv.tail } }
        { c with dev := { c.dev with argc := c.dev.argc - 1, argv := c.dev.argv.tail } } := by
    intro r g c h
    refine ⟨⟨by rw [h.dev.1], by rw [h.dev.2]⟩, fun hs => ?_⟩
    obtain ⟨e1, e2, e3, e4, e5⟩ := h.same hs
    exact ⟨e1, e2, e3, ⟨e4.vm, by show ({ c.dev with argc := c.dev.argc - 1, argv := c.dev.argv.tail } : Console) = _; rw [e4.console], e4.work, e4.running⟩, e5⟩
  rw [h.dev.1, h.dev.2]
  split
  · exact key (h.sendData _ _)
  · exact key (h.sendData _ _)

theorem Linked.sendArg {E : Cli.Env} {F : File.Host τ} {S : Sounds} (a : List Byte) {r g : World Console (State τ)} {c : World Console (Cli.State τ)} (h : Linked r g c) :
    Linked (sendArg (execRefusing E F S) a r) (sendArg (Whole.exec E F S) a g) (sendArg (Cli.exec E F) a c) := by
  induction a generalizing r g c with
  | nil => exact h.finish
  | cons b bs ih =>
    unfold Input.sendArg
    split
    · exact ih (h.sendData _ _)
    · exact h.finish

theorem Linked.sendArgs {E : Cli.Env} {F : File.Host τ} {S : Sounds} (n : Nat) {r g : World Console (State τ)} {c : World Console (Cli.State τ)} (h : Linked r g c)
    {r' : World Console (State τ)} (e : sendArgs (execRefusing E F S) n r = .ok r') :
    ∃ g' c', Input.sendArgs (Whole.exec E F S) n g = .ok g' ∧ Input.sendArgs (Cli.exec E F) n c = .ok c' ∧ Linked r' g' c' := by
  induction n generalizing r g c with
  | zero => cases e; exact ⟨g, c, rfl, rfl, h⟩
  | succ n ih =>
    unfold Input.sendArgs at e ⊢
    rw [h.dev.1, h.dev.2]
    split at e
    · rename_i hp
      rw [if_pos hp, if_pos hp]
      cases ha : r.dev.argv with
      | nil => rw [ha] at e; cases e
      | cons a as =>
        rw [ha] at e
        dsimp only at e ⊢
        exact ih (h.sendArg a) e
    · rename_i hp
      rw [if_neg hp, if_neg hp]
      cases e
      exact ⟨g, c, rfl, rfl, h⟩

/-- What has stopped stays stopped. -/
theorem stopped_exec {E : Cli.Env} {F : File.Host τ} {S : Sounds} {r : World Console (State τ)} {u : Stop} (h : r.rest.stop = some u) (v : Short) :
    (execRefusing E F S v r).rest.stop = some u := by
  unfold execRefusing runRefusing
  rw [h]
  exact h

theorem stopped_send {E : Cli.Env} {F : File.Host τ} {S : Sounds} {r : World Console (State τ)} {u : Stop} (h : r.rest.stop = some u) (t v : Byte) :
    (sendData (execRefusing E F S) t v r).rest.stop = some u := by
  unfold Input.sendData
  dsimp only
  apply stopped_exec
  exact h

theorem stopped_finish {E : Cli.Env} {F : File.Host τ} {S : Sounds} {r : World Console (State τ)} {u : Stop} (h : r.rest.stop = some u) :
    (sendArg.finish (execRefusing E F S) r).rest.stop = some u := by
  unfold sendArg.finish
  dsimp only
  by_cases hc : r.dev.argc = 1
  · rw [if_pos hc]; exact stopped_send h _ _
  · rw [if_neg hc]; exact stopped_send h _ _

theorem stopped_arg {E : Cli.Env} {F : File.Host τ} {S : Sounds} (a : List Byte) {r : World Console (State τ)} {u : Stop} (h : r.rest.stop = some u) :
    (sendArg (execRefusing E F S) a r).rest.stop = some u := by
  induction a generalizing r with
  | nil => exact stopped_finish h
  | cons b bs ih =>
    unfold Input.sendArg
    split
    · exact ih (stopped_send h _ _)
    · exact stopped_finish h

theorem stop_before {E : Cli.Env} {F : File.Host τ} {S : Sounds} {n : Nat} {r r' : World Console (State τ)} (e : sendArgs (execRefusing E F S) n r = .ok r')
    (hs : r'.rest.stop = none) : r.rest.stop = none := by
  cases h : r.rest.stop with
  | none => rfl
  | some u =>
    exfalso
    induction n generalizing r with
    | zero => cases e; rw [h] at hs; cases hs
    | succ n ih =>
      unfold Input.sendArgs at e
      split at e
      · cases ha : r.dev.argv with
        | nil => rw [ha] at e; cases e
        | cons a as => rw [ha] at e; exact ih e (stopped_arg a h)
      · cases e; rw [h] at hs; cases hs

/-- Both programs load the ROM in the same way. -/
theorem loaded_alike (vm : VM) (rom : List Byte) (hl : rom.length < 0xfff00) :
    ∃ vm0 vm1, VM.reset { vm with memSize := MEMORY_SIZE } RESET_ALL = .ok vm0 ∧ loadRom vm0 { bytes := rom } 0 = .ok vm1 ∧
      guiLoad stdioRead vm0 ({ bytes := rom }, none) = .ok (some vm1) ∧ vm1.memSize = 16 * 65536 := by
  obtain ⟨vm0, h0, hf⟩ := reset_fresh vm
  obtain ⟨vm2, h1, a1, a2, a3, a4, a5, a6, a7, a8⟩ := (C48_gui stdioRead _ stdio_delivers vm0 ({ bytes := rom }, none) rom rfl (by rw [hf.size]; decide)).1
    (by rw [hf.size]; omega)
  refine ⟨vm0, vm2, h0, ?_, h1, by rw [a1, hf.size]⟩
  rw [loadRom_eq hf]
  unfold Boot.store
  rw [if_pos (by rw [hf.size]; omega)]
  have hm : vm2.memory = fun i => if 0x100 ≤ i ∧ i < 0x100 + rom.length then rom.getD (i - 0x100) 0 else vm0.memory i := by
    funext i
    split
    · rename_i hi
      have := a7 (i - 0x100) (by omega)
      rw [show 0x100 + (i - 0x100) = i by omega] at this
      rw [this, List.getD_eq_getElem _ _ (by omega)]
    · exact a8 i (by omega)
  rw [← hm, ← a1, ← a2, ← a3, ← a4, ← a5, ← a6]

theorem bootTitle_vm {vm vm' : VM} {es : List Title.Effect} (h : Title.bootTitle vm = .ok (es, vm')) : vm' = vm := by
  unfold Title.bootTitle at h
  cases hf : Metadata.fromRom (fun i => vm.memory (i + 256)) (vm.memSize - 256) with
  | error u => rw [hf] at h; cases h
  | ok x =>
    rw [hf] at h
    simp only [bind, Except.bind, pure, Except.pure] at h
    cases x with
    | none => cases h; rfl
    | some m =>
      dsimp only at h
      split at h
      · cases ha : Title.apply vm.memory vm.memSize (Title.shift m) with
        | error u => rw [ha] at h; cases h
        | ok y =>
          rw [ha] at h
          have := apply_mem ha
          cases h
          rw [this]
      · cases h; rfl

theorem inputLoop_over {σ : Type} (exec : Exec Console σ) (stdin : List Byte) (w : World Console σ) (h : 0 ≤ System.exitCode w.vm) : inputLoop exec stdin w = w := by
  unfold inputLoop
  exact if_neg (fun e => by have := e.1; omega)

/-- **C92.** A program is started in a window; neither its reset vector nor what it does with its arguments reads a port of the window, is undefined or goes on
for longer than it is observed; and the reset vector does not end the program with an error. Then `buxn-cli` comes to the same point: the same machine, console
and files, and the same bytes printed; from there, it goes on with the input. -/
theorem C92_start_partial (E : Cli.Env) (F : File.Host τ) (S : Sounds) (vm : VM) (fs : τ) (clock : Datetime.Clock) (freq w h : Nat) (args : List (List Byte))
    (rom : List Byte) (hl : rom.length < 0xfff00) (w0 w1 : World Console (State τ))
    (hb : begun (execRefusing E F S) vm fs clock freq w h args ({ bytes := rom }, none) = .ok (some w0)) (hx : System.exitCode w0.vm ≤ 0)
    (ha : sendArgs (execRefusing E F S) args.length w0 = .ok w1) (hs : w1.rest.stop = none) :
    ∃ l wc, boot E F S vm fs clock freq w h args ({ bytes := rom }, none) = .ok (some l) ∧
      SameProgram ⟨l.app.vm, l.app.dev.console, l.app.rest⟩ wc ∧
      ∀ stdin, Cli.run E F vm fs clock args stdin { bytes := rom } 0 =
        let w := inputLoop (Cli.exec E F) stdin wc
        .ok (if System.exitCode w.vm < 0 then 0 else System.exitCode w.vm, w) := by
  obtain ⟨vm0, vm1, h0, h1, h2, h3⟩ := loaded_alike vm rom hl
  rw [boot_eq]
  unfold begun at hb ⊢
  rw [h0] at hb ⊢
  simp only [bind, Except.bind, pure, Except.pure, h2] at hb ⊢
  cases ht : Title.bootTitle vm1 with
  | error u => rw [ht] at hb; cases hb
  | ok y =>
    obtain ⟨es, vm2⟩ := y
    have := bootTitle_vm ht
    subst this
    rw [ht] at hb
    dsimp only at hb ⊢
    cases hb
    have base : Linked
        { vm := vm2, dev := consoleInit args.length args ⟨0, [], 0, 0⟩, rest := fresh fs clock freq w h vm2 es }
        { vm := vm2, dev := consoleInit args.length args ⟨0, [], 0, 0⟩, rest := fresh fs clock freq w h vm2 es }
        { vm := vm2, dev := consoleInit args.length args ⟨0, [], 0, 0⟩, rest := Cli.start fs clock } :=
      ⟨⟨rfl, rfl⟩, fun _ => ⟨rfl, rfl, rfl, ⟨rfl, rfl, ⟨rfl, rfl, rfl, rfl, rfl⟩, rfl, rfl⟩, by show 65536 ≤ vm2.memSize; rw [h3]; decide⟩⟩
    have after := base.exec (E := E) (F := F) (S := S) 0x100
    obtain ⟨g', c', e1, e2, hk⟩ := after.sendArgs args.length ha
    obtain ⟨k1, k2, k3, k4, k5⟩ := hk.same hs
    rw [e1]
    refine ⟨_, c', rfl, k4, fun stdin => ?_⟩
    have hx' : ¬ System.exitCode (Cli.exec E F 0x100 { vm := vm2, dev := consoleInit args.length args ⟨0, [], 0, 0⟩, rest := Cli.start fs clock }).vm > 0 := by
      have hst := stop_before ha hs
      have := (after.same hst).2.2.2.1.vm
      rw [this, (after.same hst).1]
      omega
    unfold Cli.run Boot.boot
    rw [h0]
    simp only [bind, Except.bind, pure, Except.pure, h1]
    rw [if_neg hx', e2]
    dsimp only
    by_cases hp : System.exitCode c'.vm > 0
    · rw [if_pos hp, inputLoop_over _ stdin c' (by omega), if_neg (by omega)]
    · rw [if_neg hp]

/-- **C92.** The programs are at the same point, and a byte of the input (or anything else on the console) is delivered to both. If what the program does then is
defined, comes to an end while it is observed and reads no port of the window, the programs are at the same point again. -/
theorem C92_input (E : Cli.Env) (F : File.Host τ) (S : Sounds) (type value : Byte) (a : App (State τ)) (w : World Console (Cli.State τ))
    (h : SameProgram ⟨a.vm, a.dev.console, a.rest⟩ w) (hm : 65536 ≤ a.vm.memSize)
    (hs : (runRefusing E F S (a.vm.devLoad2 0x10) a.vm { a.dev with console := { a.dev.console with type := type, value := value } } a.rest).2.stop = none) :
    let a' := sendConsole (program E F S) type value a
    SameProgram ⟨a'.vm, a'.dev.console, a'.rest⟩ (sendData (Cli.exec E F) type value w) ∧ 65536 ≤ a'.vm.memSize := by
  obtain ⟨e1, e2, e3, e4, e5⟩ := h
  dsimp only at e1 e2 e3 e4
  have h1 : SameProgram (τ := τ) ⟨a.vm, ({ a.dev with console := { a.dev.console with type := type, value := value } } : Devices).console, a.rest⟩
      { w with dev := { w.dev with type := type, value := value } } := ⟨e1, by dsimp only; rw [e2], e3, e4, e5⟩
  obtain ⟨k1, k2, k3, k4, k5⟩ := vector_alike (E := E) (F := F) (S := S) (a.vm.devLoad2 0x10) a.vm _ a.rest _ h1 hm hs
  unfold sendConsole notify Input.sendData
  dsimp only
  rw [show w.vm.devLoad2 0x10 = a.vm.devLoad2 0x10 by rw [e1]]
  by_cases hv : a.vm.devLoad2 0x10 = 0
  · rw [if_neg (by simpa using hv)]
    refine ⟨?_, hm⟩
    unfold Cli.exec
    dsimp only
    rw [e5]
    dsimp only
    unfold execute
    rw [if_pos hv]
    exact ⟨e1, by dsimp only; rw [e2], e3, e4, rfl⟩
  · rw [if_pos hv]
    exact ⟨k4, k5⟩

/-! ## Cases -/

/-- A program that prints what it gets on the console: `;on-console #10 DEO2 BRK @on-console #12 DEI #18 DEO BRK`. -/
def echo : List Byte := [0xa0, 0x01, 0x07, 0x80, 0x10, 0x37, 0x00, 0x80, 0x12, 0x16, 0x80, 0x18, 0x17, 0x00]

/-- What `buxn-gui` has printed when a program has been started with some arguments. -/
def printedBy (rom : List Byte) (args : List (List Byte)) : Option (List (Text.Level × Byte)) :=
  match boot small Cli.noFiles (fun _ => []) Cli.blank () Cli.noClock 44100 8 8 args ({ bytes := rom }, none) with
  | .ok (some l) => if l.app.rest.stop = none then some l.app.rest.data.printed else none
  | _ => none

/-- What `buxn-cli` has printed when it was run without input. -/
def printedByCli (rom : List Byte) (args : List (List Byte)) : Option (List (Text.Level × Byte)) :=
  match Cli.run small Cli.noFiles Cli.blank () Cli.noClock args [] { bytes := rom } 0 with
  | .ok (_, w) => if w.rest.stop = none then some (heard w.rest.data.out) else none
  | _ => none

/-- The hypotheses are met by the echo with an argument of two letters: nothing is refused, and the program does not end. -/
theorem echo_served :
    (match begun (execRefusing small Cli.noFiles (fun _ => [])) Cli.blank () Cli.noClock 44100 8 8 [[0x68, 0x69]] ({ bytes := echo }, none) with
    | .ok (some w0) => decide (System.exitCode w0.vm ≤ 0) &&
      (match sendArgs (execRefusing small Cli.noFiles (fun _ => [])) 1 w0 with
      | .ok w1 => decide (w1.rest.stop = none ∧ w1.rest.data.printed = [(.info, 0x68), (.info, 0x69), (.info, 0x0a)])
      | .error _ => false)
    | _ => false) = true := by decide +kernel

example : printedBy echo [[0x68, 0x69]] = some [(.info, 0x68), (.info, 0x69), (.info, 0x0a)] := by decide +kernel
/-- (`buxn-cli` sends the end of the input as well.) -/
example : printedByCli echo [[0x68, 0x69]] = some [(.info, 0x68), (.info, 0x69), (.info, 0x0a), (.info, 0)] := by decide +kernel

/-- The hypothesis about the ports is needed: a program that prints the width of the screen (`#23 DEI #18 DEO BRK`) does not do the same. -/
theorem C92_window_told : printedBy [0x80, 0x23, 0x16, 0x80, 0x18, 0x17, 0x00] [] = some [(.info, 8)] ∧ printedByCli [0x80, 0x23, 0x16, 0x80, 0x18, 0x17, 0x00] [] = some [(.info, 0)] := by
  decide +kernel

/-- **C92 fails for a program that ends with an error in its reset vector** (`;on-console #10 DEO2 #81 #0f DEO BRK @on-console …`, with arguments): `buxn-cli` is
done (`cli.c:155-158`), but in `buxn-gui` the arguments are still sent, and the program prints them. -/
theorem C92_ended_violated :
    let rom : List Byte := [0xa0, 0x01, 0x0c, 0x80, 0x10, 0x37, 0x80, 0x81, 0x80, 0x0f, 0x17, 0x00, 0x80, 0x12, 0x16, 0x80, 0x18, 0x17, 0x00]
    printedBy rom [[0x68, 0x69]] = some [(.info, 0x68), (.info, 0x69), (.info, 0x0a)] ∧ printedByCli rom [[0x68, 0x69]] = some [] := by
  decide +kernel

end Buxn.Gui.Whole
