import Verif.Devices.InputProps
import Mathlib.Data.Rat.Floor
import Mathlib.Algebra.Order.Field.Basic
import Mathlib.Tactic.Linarith
import Mathlib.Tactic.FieldSimp
import Mathlib.Tactic.Ring
/-!
# What the user does in the window

Models `event` and `process_touch` of `/repo/src/gui.c` and what they use (`get_draw_info`, `clamp`).

The program is a function of the vector, the machine, the devices of the user (mouse, controller, console) and the rest of
the host (screen, audio, files); it cannot change the devices of the user, since `buxn_mouse_deo`, `buxn_controller_deo`
and `buxn_console_deo` do not (`mouse.c:20-25`, `controller.c:16-21`, `console.c:63-69`). Calls of the program are recorded.
`float` is the rational numbers: rounding is not modelled. Submission of audio at the end of `event` (`gui.c:929`) is C49.
-/
namespace Buxn.Gui
open Buxn.VM Buxn.Input

/-- The devices that the host fills and the program reads, `gui.c:31-38`. -/
structure Devices where
  mouse : Mouse
  controller : Controller
  console : Console

/-- The static variables of `process_touch`, `gui.c:717-724`. -/
structure Fingers where
  hasFirst : Bool
  first : Nat
  hasSecond : Bool
  second : Nat
  lastX : Rat
  lastY : Rat
  accX : Rat
  accY : Rat

/-- A call of the program: the port of the vector, its value, and the devices as the program sees them. -/
structure Call where
  port : Byte
  vector : Short
  seen : Devices

/-- The program: what a run of a vector does, and the size of the screen it asked for. -/
structure Program (σ : Type) where
  run : Short → VM → Devices → σ → VM × σ
  width : σ → Nat
  height : σ → Nat

/-- The application; `calls` is oldest first. -/
structure App (σ : Type) where
  vm : VM
  dev : Devices
  fingers : Fingers
  rest : σ
  calls : List Call

variable {σ : Type}

/-- `vector = buxn_vm_dev_load2(vm, port); if (vector != 0) buxn_vm_execute(vm, vector)`: `buxn_mouse_update`
(`mouse.c:27-31`), `buxn_controller_send_event` (`controller.c:23-27`). -/
def notify (P : Program σ) (port : Byte) (a : App σ) : App σ :=
  let v := a.vm.devLoad2 port
  let (vm, rest) := if v ≠ 0 then P.run v a.vm a.dev a.rest else (a.vm, a.rest)
  { a with vm := vm, rest := rest, calls := a.calls ++ [⟨port, v, a.dev⟩] }

/-! ## Geometry -/

/-- The part of `draw_info_t` that matters here, `gui.c:51-59`. -/
structure Draw where
  scale : Rat
  xMargin : Rat
  yMargin : Rat

/-- `get_draw_info`, `gui.c:306-331`, for a window of `W` by `H` and a screen of `w` by `h`. (With a screen of width or
height 0, which `buxn_screen_maybe_resize` refuses, the code divides by 0.0.) -/
def drawInfo (W H w h : Nat) : Draw :=
  let xScale : Rat := W / w
  let yScale : Rat := H / h
  let scale := if xScale < yScale then xScale else yScale
  { scale := scale
    xMargin := (⌊((W : Rat) - w * scale) * (1 / 2)⌋ : Int)
    yMargin := (⌊((H : Rat) - h * scale) * (1 / 2)⌋ : Int) }

/-- `clamp`, `gui.c:705-714`. -/
def clamp (v lo hi : Rat) : Rat := if v < lo then lo else if v > hi then hi else v

/-- `(uint16_t)f`: truncation; undefined unless the truncated value can be represented. -/
def toU16 (x : Rat) : Res Short :=
  if -1 < x ∧ x < 65536 then .ok (BitVec.ofInt 16 (if x < 0 then 0 else ⌊x⌋)) else .error .arith

/-- `(int16_t)f`. -/
def toI16 (x : Rat) : Res Short :=
  if -32769 < x ∧ x < 32768 then .ok (BitVec.ofInt 16 (if x < 0 then ⌈x⌉ else ⌊x⌋)) else .error .arith

/-! ## Events -/

/-- `sapp_mousebutton`. -/
inductive Button | left | right | middle | other
  deriving DecidableEq

/-- The keys that `event` knows, `gui.c:846-892`. -/
inductive Key
  | leftControl | rightControl | leftAlt | rightAlt | leftShift | rightShift | home | up | down | left | right
  | enter | escape | backspace | tab | delete | other
  deriving DecidableEq

/-- `sapp_touchpoint`. -/
structure Touch where
  id : Nat
  x : Rat
  y : Rat
  changed : Bool

inductive Phase | began | moved | ended
  deriving DecidableEq

/-- `sapp_event`; `SAPP_EVENTTYPE_TOUCHES_CANCELLED` is treated like `TOUCHES_ENDED` throughout. -/
inductive Event
  | mouse (b : Button) (down : Bool)
  | scroll (x y : Rat)
  | move (x y : Rat)
  | touch (p : Phase) (ts : List Touch)
  | key (k : Key) (down : Bool)
  | char (code : Nat) (ctrl alt shift : Bool)
  | other

/-- The number of a mouse button, `gui.c:789-804`. -/
def mouseButton : Button → Option Byte
  | .left => some 0
  | .right => some 2
  | .middle => some 1
  | .other => none

/-- The button of the controller for a key, `gui.c:846-873` (constants: `controller.h:16-25`). -/
def keyButton : Key → Option (Fin 8)
  | .leftControl | .rightControl => some 0
  | .leftAlt | .rightAlt => some 1
  | .leftShift | .rightShift => some 2
  | .home => some 3
  | .up => some 4
  | .down => some 5
  | .left => some 6
  | .right => some 7
  | _ => none

/-- The character of a key, `gui.c:874-888`; 0 is none. -/
def keyChar : Key → Byte
  | .enter => 0x0d
  | .escape => 27
  | .backspace => 8
  | .tab => 9
  | .delete => 127
  | _ => 0

/-- `buxn_controller_send_char`, `controller.h:63-72`. -/
def sendChar (P : Program σ) (ch : Byte) (a : App σ) : App σ :=
  let a := notify P 0x80 { a with dev := { a.dev with controller := { a.dev.controller with ch := ch } } }
  { a with dev := { a.dev with controller := { a.dev.controller with ch := 0 } } }

/-- `buxn_controller_set_button(&app.devices.controller, 0, btn, down)`. -/
def setPad (btn : Fin 8) (down : Bool) (a : App σ) : Res (App σ) := do
  let c ← setButton a.dev.controller 0 btn down
  return { a with dev := { a.dev with controller := c } }

/-- `buxn_mouse_set_button(&app.devices.mouse, button, down)`. -/
def setMouse (button : Byte) (down : Bool) (a : App σ) : Res (App σ) := do
  let m ← mouseSetButton a.dev.mouse button down
  return { a with dev := { a.dev with mouse := m } }

/-- Placing the mouse, `gui.c:759-760` and `gui.c:822-823`. -/
def place (P : Program σ) (x y : Rat) (a : App σ) : Res (App σ) := do
  let x ← toU16 (clamp x 0 (P.width a.rest))
  let y ← toU16 (clamp y 0 (P.height a.rest))
  return { a with dev := { a.dev with mouse := { a.dev.mouse with x := x, y := y } } }

/-- The button while two fingers are down, `gui.c:743-745`. -/
def pressFirst (f : Fingers) (a : App σ) : Res (App σ) := if f.hasSecond then setMouse 0 true a else .ok a

/-- A tap of the second finger without a drag is a click, `gui.c:768-771`. -/
def clickFirst (P : Program σ) (a : App σ) (pressed : Bool) : Res (App σ) :=
  if pressed then .ok a else do return notify P 0x90 (← setMouse 0 true a)

/-- `process_touch`, `gui.c:716-778`. -/
def processTouch (P : Program σ) (W H : Nat) (p : Phase) (t : Touch) (a : App σ) : Res (App σ) :=
  let d := drawInfo W H (P.width a.rest) (P.height a.rest)
  let f := a.fingers
  match p with
  | .began =>
    if f.hasFirst = false then
      .ok { a with fingers := { f with hasFirst := true, first := t.id, lastX := t.x, lastY := t.y } }
    else if f.hasSecond = false then .ok { a with fingers := { f with hasSecond := true, second := t.id } }
    else .ok a
  | .moved =>
    if f.hasFirst ∧ t.id = f.first then do
      let a ← pressFirst f a
      let accX := f.accX + (t.x - f.lastX) * 2 / d.scale
      let accY := f.accY + (t.y - f.lastY) * 2 / d.scale
      let a := { a with fingers := { f with lastX := t.x, lastY := t.y, accX := accX - ⌊accX⌋, accY := accY - ⌊accY⌋ } }
      let a ← place P ((a.dev.mouse.x.toNat : Rat) + ⌊accX⌋) ((a.dev.mouse.y.toNat : Rat) + ⌊accY⌋) a
      return notify P 0x90 a
    else .ok a
  | .ended =>
    if f.hasFirst ∧ t.id = f.first then .ok { a with fingers := { f with hasFirst := false } }
    else if f.hasSecond ∧ t.id = f.second then do
      let a := { a with fingers := { f with hasSecond := false } }
      let pressed ← mouseCheckButton a.dev.mouse 0
      let a ← clickFirst P a pressed
      return notify P 0x90 (← setMouse 0 false a)
    else .ok a

/-- The loop over the touches, `gui.c:830-835`. -/
def touches (P : Program σ) (W H : Nat) (p : Phase) : List Touch → App σ → Res (App σ)
  | [], a => .ok a
  | t :: ts, a => do
    let a ← (if t.changed then processTouch P W H p t a else .ok a)
    touches P W H p ts a

/-- The end of `event`, `gui.c:924-927`. -/
def updateMouse (P : Program σ) (a : App σ) : App σ :=
  let a := notify P 0x90 a
  { a with dev := { a.dev with mouse := { a.dev.mouse with scrollX := 0, scrollY := 0 } } }

/-- The surroundings of an event: the size of the window, and what `platform_update_dbg` returns. -/
structure Env where
  W : Nat
  H : Nat
  dbg : Bool

/-- The button of a key, `gui.c:890-892`. -/
def keyPress (P : Program σ) (k : Key) (down : Bool) (a : App σ) : Res (App σ) :=
  match keyButton k with
  | some b => do return notify P 0x80 (← setPad b down a)
  | none => .ok a

/-- The switch of `event`, `gui.c:787-922`; the flag is `update_mouse`. -/
def handle (P : Program σ) (E : Env) (e : Event) (a : App σ) : Res (App σ × Bool) :=
  match e with
  | .mouse b down =>
    match mouseButton b with
    | some i => do return (← setMouse i down a, true)
    | none => .ok (a, E.dbg)
  | .scroll x y => do
    let sx ← toI16 x
    let sy ← toI16 y
    return ({ a with dev := { a.dev with mouse := { a.dev.mouse with scrollX := sx, scrollY := -sy } } }, true)
  | .move x y => do
    let d := drawInfo E.W E.H (P.width a.rest) (P.height a.rest)
    let a ← place P ((x - d.xMargin) / d.scale) ((y - d.yMargin) / d.scale) a
    return (a, true)
  | .touch p ts => do return (← touches P E.W E.H p ts a, E.dbg)
  | .key k down => do
    let a ← keyPress P k down a
    return (if keyChar k ≠ 0 ∧ down then sendChar P (keyChar k) a else a, E.dbg)
  | .char code ctrl alt shift =>
    if code ≤ 127 then do
      let a ← setPad 0 ctrl a
      let a ← setPad 1 alt a
      let a ← setPad 2 shift a
      return (sendChar P (BitVec.ofNat 8 code) a, E.dbg)
    else .ok (a, E.dbg)
  | .other => .ok (a, E.dbg)

/-- `event`, `gui.c:780-930`. -/
def event (P : Program σ) (E : Env) (e : Event) (a : App σ) : Res (App σ) := do
  let (a, update) ← handle P E e a
  return if update then updateMouse P a else a

/-- A history of events. -/
def events (P : Program σ) : List (Env × Event) → App σ → Res (App σ)
  | [], a => .ok a
  | (E, e) :: es, a => do events P es (← event P E e a)

/-- The application at the start: all zero, `gui.c:494` and `gui.c:934`. -/
def start (vm : VM) (rest : σ) (console : Console) : App σ where
  vm := vm
  dev := { mouse := ⟨0, 0, 0, 0, 0⟩, controller := ⟨fun _ => 0, 0⟩, console := console }
  fingers := ⟨false, 0, false, 0, 0, 0, 0, 0⟩
  rest := rest
  calls := []

end Buxn.Gui
