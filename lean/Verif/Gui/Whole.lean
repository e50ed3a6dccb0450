import Verif.VM.Guard
import Verif.VM.Safe
import Verif.Misc.Cli
import Verif.Devices.ScreenRender
import Verif.Devices.AudioProps
import Verif.Gui.Console
import Verif.Gui.Title
import Verif.Gui.Frame
import Verif.Gui.Start
/-!
# The whole of `buxn-gui` (C77)

`/repo/src/gui.c` puts the interpreter (C01–C09), the system device (C10–C12), the console (C13, C67), the screen (C20–C22),
the audio devices (C15), the controller and the mouse (C14, C64, C65), the two file devices (C17–C19), the clock (C62) and the
window (C66, C68) together. As in C63 the file system is any functions, the clock any sequence of readings, and each run of a
vector is observed for `fuel` instructions.

The thread that plays the sounds changes the channels at any time: before each read of a port of an audio device it may have done
anything that C15 speaks of. (Reads of one thread that fall into writes of the other are not modelled.)

The drawing device does not hold against every program (C20–C22 say for which accesses it does). `strayed` notes whether the program has
made an access that these properties do not speak of; nothing in the program depends on it.
-/
namespace Buxn.Gui.Whole
open Buxn.VM Buxn.Input Buxn.Boot Buxn.Bembd
open Buxn.Cli (deviceId devicePort ports Stop)
variable {τ : Type}

/-- `devices_t` and `app_t` without what the user moves (`Devices`), `gui.c:31-83`. The files and the clock are `core` (whose list of
what is printed stays empty here). `printed` are the bytes that the program has printed, `colors` the colours when it last said that
they had changed; both are only for the statements. -/
structure Data (τ : Type) where
  core : Cli.Data τ
  con : Text.Con
  gui : Screen.Gui
  audio : Fin 4 → Audio.Chan
  /-- How often a channel was read. -/
  reads : Nat
  /-- The messages for the thread that plays the sounds (C49), oldest first. -/
  sent : List (Fin 4 × Audio.Message)
  /-- What the window system was told, oldest first. -/
  told : List Title.Effect
  printed : List (Text.Level × Byte)
  colors : Fin 4 → BitVec 32

/-- What the thread that plays the sounds has done to a channel before the `n`th read. -/
abbrev Sounds := Nat → List Audio.Event

/-- The callbacks of the system device, `gui.c:281-304`. -/
def callbacks : System.Callbacks (Data τ) where
  debug _ vm d := .ok (vm, d)
  setMetadata address vm d := (Title.setMetadata vm address).map fun (es, vm) => (vm, { d with told := d.told ++ es })
  themeChanged vm d := .ok (vm, { d with gui := Screen.forceRefresh d.gui, colors := System.palette vm })

/-- The number of an audio device, `gui.c:216`. -/
def channel (id : Byte) : Fin 4 := if id = 0x30 then 0 else if id = 0x40 then 1 else if id = 0x50 then 2 else 3

/-- `vm->device + device_id` as an array that is written. -/
def setPorts (vm : VM) (id : Byte) (mem : Fin 16 → Byte) : VM :=
  { vm with device := fun a => if deviceId a = id then mem (devicePort a) else vm.device a }

/-- `buxn_audio_dei` of one of the channels, `gui.c:210-219`. -/
def audioDei (S : Sounds) (id a : Byte) (vm : VM) (d : Data τ) : Res (Byte × VM × Data τ) := do
  let (c, _) ← Audio.history vm.memSize (S d.reads) (d.audio (channel id))
  let (v, mem, c) ← Audio.dei (ports vm id) (devicePort a) c
  return (v, setPorts vm id mem, { d with audio := upd d.audio (channel id) c, reads := d.reads + 1 })

/-- The devices with ports of their own, `gui.c:203-239`. -/
def isAudio (id : Byte) : Bool := id = 0x30 || id = 0x40 || id = 0x50 || id = 0x60

/-- `buxn_vm_dei`, `gui.c:199-239`. -/
def dei (S : Sounds) (dev : Devices) (a : Byte) (vm : VM) (d : Data τ) : Res (Byte × VM × Data τ) :=
  let id := deviceId a
  if id = 0x00 then .ok (System.dei vm a, vm, d)
  else if id = 0x10 then .ok (consoleDei { vm := vm, dev := dev.console, rest := () } a, vm, d)
  else if id = 0x20 then
    let (v, g) := Screen.dei vm d.gui a
    .ok (v, vm, { d with gui := g })
  else if isAudio id then audioDei S id a vm d
  else if id = 0x90 then .ok (mouseDei { vm := vm, dev := dev.mouse, rest := () } a, vm, d)
  else if id = 0x80 then .ok (controllerDei { vm := vm, dev := dev.controller, rest := () } a, vm, d)
  else if id = 0xa0 then .ok (File.dei (d.core.file false) (ports vm id) (devicePort a), vm, d)
  else if id = 0xb0 then .ok (File.dei (d.core.file true) (ports vm id) (devicePort a), vm, d)
  else if id = 0xc0 then
    (Datetime.dei (d.core.clock.reading d.core.clock.calls) vm a).map fun v =>
      (v, vm, { d with core := { d.core with clock := { d.core.clock with calls := d.core.clock.calls + 1 } } })
  else .ok (vm.device a, vm, d)

/-- A byte for one of the two streams, `gui.c:353-365`. -/
def print (l : Text.Level) (c : Byte) (vm : VM) (d : Data τ) : Res (VM × Data τ) := do
  let con ← Text.write l c d.con
  return (vm, { d with con := con, printed := d.printed ++ [(l, c)] })

/-- `buxn_vm_deo`, `gui.c:241-279`; what `buxn_audio_send` does with a message is C49. -/
def deo (F : File.Host τ) (dev : Devices) (a : Byte) (vm : VM) (d : Data τ) : Res (VM × Data τ) :=
  let id := deviceId a
  if id = 0x00 then System.deo callbacks a vm d
  else if id = 0x10 then
    match consoleDeo { vm := vm, dev := dev.console, rest := () } a with
    | some (false, c) => print .info c vm d
    | some (true, c) => print .error c vm d
    | none => .ok (vm, d)
  else if id = 0x20 then do
    let g ← Screen.deo vm d.gui a
    return (vm, { d with gui := g })
  else if isAudio id then
    match Audio.deo (ports vm id) (devicePort a) with
    | some m => .ok (vm, { d with sent := d.sent ++ [(channel id, m)] })
    | none => .ok (vm, d)
  else if id = 0xa0 then (Cli.fileDeo F false id a vm d.core).map fun (vm, c) => (vm, { d with core := c })
  else if id = 0xb0 then (Cli.fileDeo F true id a vm d.core).map fun (vm, c) => (vm, { d with core := c })
  else .ok (vm, d)

/-- The devices of `buxn-gui`. -/
def host (F : File.Host τ) (S : Sounds) (dev : Devices) : Host (Data τ) where
  dei := dei S dev
  deo := deo F dev

/-! ## What the drawing device is safe for -/

instance (s : Screen.Screen) : Decidable (Screen.Near s) := by unfold Screen.Near; infer_instance

instance (vm : VM) (two : Bool) (rA : Int) : Decidable (Screen.SpriteInMemory vm two rA) := by
  unfold Screen.SpriteInMemory; infer_instance

instance (vm : VM) (s : Screen.Screen) (ctrl : Byte) : Decidable (Screen.SpritesInMemory vm s ctrl) :=
  decidable_of_iff (∀ k, k < s.rML + 1 → Screen.SpriteInMemory vm (Screen.bit ctrl 7) (s.rA + k * Screen.addrStep s ctrl))
    ⟨fun h k hk => h k (by omega), fun h k hk => h k (by omega)⟩

/-- The read of a port of the screen is one that C20 to C22 speak of: the size asked for is at most 32640 each way. -/
def ReadOk (vm : VM) : Prop := (Screen.preferred vm).1 ≤ 32640 ∧ (Screen.preferred vm).2 ≤ 32640

/-- The write to a port of the screen is one that C20 to C22 speak of: the size asked for is at most 32640 each way; a fill starts near the
screen; a sprite lies in memory and its position has not run away. -/
def WriteOk (vm : VM) (g : Screen.Gui) (a : Byte) : Prop :=
  (a = 0x2e ∨ a = 0x2f → (Screen.preferred vm).1 ≤ 32640 ∧ (Screen.preferred vm).2 ≤ 32640) ∧
  (a = 0x2e → Screen.bit (vm.device 0x2e) 7 = true → Screen.Near (Screen.target vm g)) ∧
  (a = 0x2f → Screen.SpritesInMemory vm (Screen.target vm g) (vm.device 0x2f) ∧
    (-32768 ≤ g.scr.rX ∧ g.scr.rX ≤ 65400) ∧ -32768 ≤ g.scr.rY ∧ g.scr.rY ≤ 65400)

instance (vm : VM) : Decidable (ReadOk vm) := by unfold ReadOk; infer_instance
instance (vm : VM) (g : Screen.Gui) (a : Byte) : Decidable (WriteOk vm g a) := by unfold WriteOk; infer_instance

/-- The devices, with every other access to the screen refused (by an error that stands for nothing else here). -/
def guarded (F : File.Host τ) (S : Sounds) (dev : Devices) : Host (Data τ) where
  dei a vm d := if deviceId a = 0x20 ∧ ¬ ReadOk vm then .error .arith else dei S dev a vm d
  deo a vm d := if deviceId a = 0x20 ∧ ¬ WriteOk vm d.gui a then .error .arith else deo F dev a vm d

/-! ## The program -/

/-- The state of the program: the devices, how many vectors were run, and why the observation was broken off. -/
structure State (τ : Type) where
  data : Data τ
  runs : Nat
  stop : Option Stop
  strayed : Bool

/-- Whether a run was refused something. -/
def refused : Buxn.VM.Outcome (Data τ) → Bool
  | .undefined .arith => true
  | _ => false

/-- `buxn_vm_execute(vm, vector)` in `buxn-gui`. -/
def run (E : Cli.Env) (F : File.Host τ) (S : Sounds) (v : Short) (vm : VM) (dev : Devices) (s : State τ) : VM × State τ :=
  match s.stop with
  | some _ => (vm, s)
  | none =>
    let strayed := s.strayed || refused (execute E.cfg (guarded F S dev) none (E.locals s.runs) E.fuel vm s.data v)
    match (execute E.cfg (host F S dev) none (E.locals s.runs) E.fuel vm s.data v).view with
    | .halted vm d => (vm, { data := d, runs := s.runs + 1, stop := none, strayed := strayed })
    | .undefined u => (vm, { s with runs := s.runs + 1, stop := some (.fault u), strayed := strayed })
    | .running c => (c.vm, { data := c.host, runs := s.runs + 1, stop := some .unfinished, strayed := strayed })

/-- The program as C64 to C66 see it. The size of the screen is that of two ports, so that it is below 65536. -/
def program (E : Cli.Env) (F : File.Host τ) (S : Sounds) : Program (State τ) where
  run := run E F S
  width s := s.data.gui.scr.width.toNat % 65536
  height s := s.data.gui.scr.height.toNat % 65536

/-- The drawing at the end of `frame`, `gui.c:632-672`. -/
def draw (l : Loop (State τ)) : Loop (State τ) :=
  let s := l.app.rest
  match s.stop with
  | some _ => l
  | none =>
    let strayed := s.strayed || !decide (System.palette l.app.vm = s.data.colors)
    match Screen.renderFrame (Screen.colors l.app.vm) s.data.gui with
    | .ok g => { l with app := { l.app with rest := { s with data := { s.data with gui := g }, strayed := strayed } } }
    | .error u => { l with app := { l.app with rest := { s with stop := some (.fault u), strayed := strayed } } }

/-- A call of the window system: `frame` (with the drawing) or `event`. -/
def step (E : Cli.Env) (F : File.Host τ) (S : Sounds) (s : Step) (l : Loop (State τ)) : Option (Loop (State τ)) :=
  (Gui.step (program E F S) s l).map fun l' => if l'.redraws = l.redraws then l' else draw l'

/-- A session. -/
def session (E : Cli.Env) (F : File.Host τ) (S : Sounds) : List Step → Loop (State τ) → Option (Loop (State τ))
  | [], l => some l
  | s :: ss, l => (step E F S s l).bind (session E F S ss)

/-- The devices of the user at the start, `gui.c:494`. -/
def still (console : Console) : Devices := ⟨⟨0, 0, 0, 0, 0⟩, ⟨fun _ => 0, 0⟩, console⟩

/-- A run of a vector while the program starts. -/
def exec (E : Cli.Env) (F : File.Host τ) (S : Sounds) : Exec Console (State τ) := fun v w =>
  let (vm, s) := run E F S v w.vm (still w.dev) w.rest
  { w with vm := vm, rest := s }

/-- The devices after `init`, `gui.c:493-547`, with a screen of `w` by `h` and sounds of `freq` samples per second, on the machine `vm`; `es` is what the window
system was told. -/
def fresh (fs : τ) (clock : Datetime.Clock) (freq w h : Nat) (vm : VM) (es : List Title.Effect) : State τ where
  data := { core := (Cli.start fs clock).data, con := Text.start, gui := Screen.start w h, audio := fun _ => Audio.fresh freq,
            reads := 0, sent := [], told := es, printed := [], colors := System.palette vm }
  runs := 0
  stop := none
  strayed := false

/-- `load_boot_rom` and the end of `init`, `gui.c:390-435`, `547-566`: `rom` is the stream that the platform opened (C76). -/
def boot (E : Cli.Env) (F : File.Host τ) (S : Sounds) (vm : VM) (fs : τ) (clock : Datetime.Clock) (freq w h : Nat)
    (args : List (List Byte)) (rom : InFile × Option Nat) : Res (Option (Loop (State τ))) := do
  let vm ← VM.reset { vm with memSize := MEMORY_SIZE } RESET_ALL
  match ← guiLoad stdioRead vm rom with
  | none => return none
  | some vm =>
    let (es, vm) ← Title.bootTitle vm
    let w0 : World Console (State τ) :=
      { vm := vm, dev := consoleInit args.length args ⟨0, [], 0, 0⟩, rest := fresh fs clock freq w h vm es }
    let w1 ← sendArgs (exec E F S) args.length (exec E F S 0x100 w0)
    return some (opened (Gui.start w1.vm w1.rest w1.dev))

end Buxn.Gui.Whole
