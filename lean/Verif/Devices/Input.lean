import Verif.Devices.Common
/-!
# Console, controller, mouse

Models `/repo/src/devices/console.c`, `/repo/src/devices/controller.c`, `/repo/src/devices/mouse.c` and the inline
functions of their headers.

A vector run is a parameter `exec : Short → VM × δ × σ → VM × δ × σ` standing for `buxn_vm_execute`; the device is
part of what it sees, since the guest reads the device during the run. (None of these devices is changed by `dei`
or `deo`, but the model does not assume that of `exec`.)
-/
namespace Buxn.Input
open Buxn.VM

/-- A running program with device state `δ` and other host state `σ`. -/
structure World (δ σ : Type) where
  vm : VM
  dev : δ
  rest : σ

/-- `buxn_vm_execute(vm, vector)` as a function of the whole world. -/
abbrev Exec (δ σ : Type) := Short → World δ σ → World δ σ

variable {σ : Type}

/-! ## Console -/

/-- `buxn_console_t`, `console.h:12-17`. `argv` is the list of the remaining C strings (without terminator). -/
structure Console where
  argc : Int
  argv : List (List Byte)
  type : Byte
  value : Byte

/-- `console.h:7-10`. -/
def CONSOLE_STDIN : Byte := 1
def CONSOLE_ARG : Byte := 2
def CONSOLE_ARG_SEP : Byte := 3
def CONSOLE_END : Byte := 4

/-- `buxn_console_send_data`, `console.c:4-16`. -/
def sendData (exec : Exec Console σ) (type value : Byte) (w : World Console σ) : World Console σ :=
  let w := { w with dev := { w.dev with type := type, value := value } }
  exec (w.vm.devLoad2 0x10) w

/-- `buxn_console_init`, `console.c:18-25`. -/
def consoleInit (argc : Int) (argv : List (List Byte)) (dev : Console) : Console :=
  { dev with argc := argc, argv := argv, type := if argc > 0 then 1 else 0 }

/-- The inner loop of `buxn_console_send_args`, `console.c:32-50`, at the characters `ch` (a zero byte or the end of
the list is the terminator). -/
def sendArg (exec : Exec Console σ) : List Byte → World Console σ → World Console σ
  | [], w => finish w
  | c :: cs, w => if c ≠ 0 then sendArg exec cs (sendData exec CONSOLE_ARG c w) else finish w
where
  finish (w : World Console σ) : World Console σ :=
    let w := if w.dev.argc = 1 then sendData exec CONSOLE_END 0x0a w else sendData exec CONSOLE_ARG_SEP 0x0a w
    { w with dev := { w.dev with argc := w.dev.argc - 1, argv := w.dev.argv.tail } }

/-- The outer loop, `console.c:27-52`, for at most `n` rounds. `argv[0]` beyond the list would be out of bounds. -/
def sendArgs (exec : Exec Console σ) : Nat → World Console σ → Res (World Console σ)
  | 0, w => .ok w
  | n + 1, w =>
    if w.dev.argc > 0 then
      match w.dev.argv with
      | a :: _ => sendArgs exec n (sendArg exec a w)
      | [] => .error .oob
    else .ok w

/-- `buxn_console_dei`, `console.c:54-61`. -/
def consoleDei (w : World Console σ) (address : Byte) : Byte :=
  if address = 0x12 then w.dev.value
  else if address = 0x17 then w.dev.type
  else w.vm.device address

/-- `buxn_console_deo`, `console.c:63-69`: the byte handed to the host's write or error callback. -/
def consoleDeo (w : World Console σ) (address : Byte) : Option (Bool × Byte) :=
  if address = 0x18 then some (false, w.vm.device address)
  else if address = 0x19 then some (true, w.vm.device address)
  else none

/-- `buxn_console_should_send_input`, `console.c:71-74`. -/
def shouldSendInput (vm : VM) : Bool := vm.devLoad2 0x10 != 0

/-- `buxn_console_send_input`, `console.c:76-79`; `buxn_console_send_input_end`, `console.c:81-84`. -/
def sendInput (exec : Exec Console σ) (c : Byte) (w : World Console σ) := sendData exec CONSOLE_STDIN c w
def sendInputEnd (exec : Exec Console σ) (w : World Console σ) := sendData exec CONSOLE_END 0 w

/-! ## Controller -/

/-- `buxn_controller_t`, `controller.h:11-14`. -/
structure Controller where
  buttons : Fin 4 → Byte
  ch : Byte

/-- `buxn_controller_set_button`, `controller.h:36-49`; the button is an enumeration constant `0..7`
(`controller.h:16-25`), and an index outside `0..3` would be out of bounds. -/
def setButton (dev : Controller) (index : Int) (btn : Fin 8) (down : Bool) : Res Controller :=
  if h : 0 ≤ index ∧ index < 4 then
    let i : Fin 4 := ⟨index.toNat, by omega⟩
    let mask : Byte := (1 : Byte) <<< btn.val
    if down then .ok { dev with buttons := upd dev.buttons i (dev.buttons i ||| mask) }
    else .ok { dev with buttons := upd dev.buttons i (dev.buttons i &&& ~~~mask) }
  else .error .oob

/-- `buxn_controller_dei`, `controller.c:4-14`. -/
def controllerDei (w : World Controller σ) (address : Byte) : Byte :=
  if address = 0x82 then w.dev.buttons 0
  else if address = 0x83 then w.dev.ch
  else if address = 0x85 then w.dev.buttons 1
  else if address = 0x86 then w.dev.buttons 2
  else if address = 0x87 then w.dev.buttons 3
  else w.vm.device address

/-- `buxn_controller_send_event`, `controller.c:23-27`. -/
def controllerEvent (exec : Exec Controller σ) (w : World Controller σ) : World Controller σ :=
  if w.vm.devLoad2 0x80 ≠ 0 then exec (w.vm.devLoad2 0x80) w else w

/-- `buxn_controller_send_button`, `controller.h:51-61`. -/
def sendButton (exec : Exec Controller σ) (index : Int) (btn : Fin 8) (down : Bool) (w : World Controller σ) :
    Res (World Controller σ) := do
  let dev ← setButton w.dev index btn down
  return controllerEvent exec { w with dev := dev }

/-- `buxn_controller_send_char`, `controller.h:63-72`. -/
def sendChar (exec : Exec Controller σ) (ch : Byte) (w : World Controller σ) : World Controller σ :=
  let w := controllerEvent exec { w with dev := { w.dev with ch := ch } }
  { w with dev := { w.dev with ch := 0 } }

/-! ## Mouse -/

/-- `buxn_mouse_t`, `mouse.h:9-15` (the scroll values are signed shorts; here their bit patterns). -/
structure Mouse where
  x : Short
  y : Short
  state : Byte
  scrollX : Short
  scrollY : Short

/-- `buxn_mouse_dei`, `mouse.c:4-18`. -/
def mouseDei (w : World Mouse σ) (address : Byte) : Byte :=
  if address = 0x92 then (w.dev.x >>> 8).setWidth 8
  else if address = 0x93 then w.dev.x.setWidth 8
  else if address = 0x94 then (w.dev.y >>> 8).setWidth 8
  else if address = 0x95 then w.dev.y.setWidth 8
  else if address = 0x96 then w.dev.state
  else if address = 0x9a then (w.dev.scrollX.sshiftRight 8).setWidth 8
  else if address = 0x9b then w.dev.scrollX.setWidth 8
  else if address = 0x9c then (w.dev.scrollY.sshiftRight 8).setWidth 8
  else if address = 0x9d then w.dev.scrollY.setWidth 8
  else w.vm.device address

/-- `buxn_mouse_set_button`, `mouse.h:26-34`: `1 << button` is an `int` shift, undefined from 31 on. -/
def mouseSetButton (dev : Mouse) (button : Byte) (down : Bool) : Res Mouse :=
  if button.toNat < 31 then
    let mask : Byte := ((1 : BitVec 32) <<< button.toNat).setWidth 8
    .ok { dev with state := if down then dev.state ||| mask else dev.state &&& ~~~mask }
  else .error .signedOverflow

/-- `buxn_mouse_check_button`, `mouse.h:36-40`. -/
def mouseCheckButton (dev : Mouse) (button : Byte) : Res Bool :=
  if button.toNat < 31 then
    .ok (decide (dev.state &&& ((1 : BitVec 32) <<< button.toNat).setWidth 8 ≠ 0))
  else .error .signedOverflow

/-- `buxn_mouse_update`, `mouse.c:27-31`. -/
def mouseUpdate (exec : Exec Mouse σ) (w : World Mouse σ) : World Mouse σ :=
  if w.vm.devLoad2 0x90 ≠ 0 then exec (w.vm.devLoad2 0x90) w else w

end Buxn.Input
