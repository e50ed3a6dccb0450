import Verif.Devices.Common
/-!
# Audio

Models `/repo/src/devices/audio.c` and the audio part of `/repo/src/gui.c`.

`uint32_t` and `uint16_t` arithmetic is on `Nat` with an explicit reduction. A stream element is represented by the
integer that is divided by `0x180` and by `32768` to give the `float` that is stored (so `±12582912` stands for
`±1.0`); the rounding of the division is not modelled. The sample pointer is an index into the guest memory.
-/
namespace Buxn.Audio
open Buxn.VM

def u32 (x : Nat) : Nat := x % 4294967296
/-- `x * y` and `x - y` of `uint32_t`. -/
def mul32 (x y : Nat) : Nat := (x * y) % 4294967296
def sub32 (x y : Nat) : Nat := (x + (4294967296 - y)) % 4294967296
def u16 (x : Nat) : Nat := x % 65536

/-- `buxn_audio_t`, `audio.h:35-43` (`pitch` is never used by the code). -/
structure Chan where
  freq : Nat
  addr : Nat
  count : Nat
  advance : Nat
  period : Nat
  age : Nat
  a : Nat
  d : Nat
  s : Nat
  r : Nat
  i : Nat
  len : Nat
  vol0 : Nat
  vol1 : Nat
  rep : Bool
  deriving DecidableEq, Repr

/-- `buxn_audio_message_t`, `audio.h:24-33`. -/
structure Message where
  addr : Nat
  adsr : Nat
  len : Nat
  pitch : Nat
  rep : Bool
  vol0 : Nat
  vol1 : Nat
  deriving DecidableEq, Repr

/-- `buxn_audio_state_t`, `audio.h:45-49`. -/
inductive State | stopped | playing | finished
  deriving DecidableEq, Repr

/-- `BUXN_AUDIO_ADVANCES`, `audio.c:16-19`. -/
def ADVANCES : List Nat :=
  [0x80000, 0x879c8, 0x8facd, 0x9837f, 0xa1451, 0xaadc1, 0xb504f, 0xbfc88, 0xcb2ff, 0xd7450, 0xe411f, 0xf1a1c]

/-- Unsigned division, trapping on zero. -/
def divU (x y : Nat) : Res Nat := if y = 0 then .error .arith else .ok (x / y)
/-- Unsigned remainder, trapping on zero. -/
def modU (x y : Nat) : Res Nat := if y = 0 then .error .arith else .ok (x % y)

/-- Conversion of a `uint32_t` to `int32_t`. -/
def toI32 (x : Nat) : Int := if x < 2147483648 then x else (x : Int) - 4294967296

/-- A signed 32-bit result, or overflow. -/
def i32 (x : Int) : Res Int := if -2147483648 ≤ x ∧ x ≤ 2147483647 then .ok x else .error .signedOverflow

/-- `buxn_audio_envelope`, `audio.c:21-30`. -/
def envelope (c : Chan) (age : Nat) : Res (Int × Chan) :=
  if c.r = 0 then .ok (0x888, c)
  else if age < c.a then do
    let q ← divU (mul32 0x888 age) c.a
    return (toI32 q, c)
  else if age < c.d then do
    let q ← divU (mul32 0x444 (sub32 (sub32 (mul32 2 c.d) c.a) age)) (sub32 c.d c.a)
    return (toI32 q, c)
  else if age < c.s then .ok (0x444, c)
  else if age < c.r then do
    let q ← divU (mul32 0x444 (sub32 c.r age)) (sub32 c.r c.s)
    return (toI32 q, c)
  else .ok (0, { c with advance := 0 })

/-- One round of the loop of `buxn_audio_get_vu`, `audio.c:36-40`. The quotient is an `int` division. -/
def vuSide (c : Chan) (vol : Nat) : Res (Int × Chan) :=
  if vol = 0 then .ok (0, c)
  else do
    let (e, c) ← envelope c c.age
    let p ← i32 (e * vol)
    let v ← i32 (1 + p.tdiv 0x800)
    return (if v > 0xf then 0xf else v, c)

/-- `buxn_audio_get_vu`, `audio.c:32-42`. -/
def getVu (c : Chan) : Res (Byte × Chan) :=
  if c.advance = 0 ∨ c.period = 0 then .ok (0, c)
  else do
    let (v0, c) ← vuSide c c.vol0
    let (v1, c) ← vuSide c c.vol1
    return (BitVec.ofInt 8 (v0 * 16) ||| BitVec.ofInt 8 v1, c)

/-- `note_period`, `audio.c:47`. -/
def notePeriod (freq : Nat) : Nat := u32 (freq * 0x4000) / 11025

/-- `buxn_audio_receive`, `audio.c:44-76`. The shift amount `8 - pitch / 12` is never negative, since `pitch < 108`. -/
def receive (m : Message) (c : Chan) : Res Chan := do
  let step := c.freq / 0xf
  let c := { c with len := m.len, addr := m.addr, vol0 := m.vol0, vol1 := m.vol1, rep := m.rep }
  if m.pitch < 108 ∧ c.len ≠ 0 then
    match ADVANCES[m.pitch % 12]? with
    | none => throw .oob
    | some adv =>
      let a := u32 (step * (m.adsr / 4096))
      let d := u32 (u32 (step * (m.adsr / 256 % 16)) + a)
      let s := u32 (u32 (step * (m.adsr / 16 % 16)) + d)
      let r := u32 (u32 (step * (m.adsr % 16)) + s)
      let c := { c with advance := adv >>> (8 - m.pitch / 12), a := a, d := d, s := s, r := r, age := 0, i := 0 }
      if c.len ≤ 0x100 then
        let p ← divU (u32 (notePeriod c.freq * 337) / 2) c.len
        return { c with period := p }
      else return { c with period := notePeriod c.freq }
  else return { c with advance := 0 }

/-- `buxn_audio_dei`, `audio.c:78-91`. `mem` is the channel's sixteen ports (`port` is masked by the caller,
`gui.c:214-219`). -/
def dei (mem : Fin 16 → Byte) (port : Fin 16) (c : Chan) : Res (Byte × (Fin 16 → Byte) × Chan) :=
  if port = 4 then do
    let (v, c) ← getVu c
    return (v, mem, c)
  else if port = 2 then
    let mem := upd (upd mem 2 (BitVec.ofNat 8 (c.i / 256))) 3 (BitVec.ofNat 8 (c.i % 256))
    .ok (mem port, mem, c)
  else .ok (mem port, mem, c)

/-- `buxn_vm_load2` with `BUXN_DEV_PRIV_ADDR_MASK`, `vm.h:86-91`. -/
def load2 (mem : Fin 16 → Byte) (p : Fin 16) : Nat := (mem p).toNat * 256 + (mem (p + 1)).toNat

/-- `buxn_audio_deo`, `audio.c:93-117`: the message handed to `buxn_audio_send`, if any. -/
def deo (mem : Fin 16 → Byte) (port : Fin 16) : Option Message :=
  if port = 15 then
    let addr := load2 mem 12
    let adsr := load2 mem 8
    let len := load2 mem 10
    let len := if len > 0x10000 - addr then u16 (0x10000 - addr) else len
    some { addr, adsr, len, pitch := (mem 15).toNat % 128, rep := decide ((mem 15).toNat < 128),
           vol0 := (mem 14).toNat / 16, vol1 := (mem 14).toNat % 16 }
  else none

/-- The sample value `(int8_t)(x + 0x80)`, `audio.c:136`. -/
def signed (x : Byte) : Int := (x + 0x80).toInt

/-- The samples stored for one frame, `audio.c:137-149`: one down-mixed sample for a single output channel (the
float `sample * 0.5f` has half the represented value; the numerator given here is the sum halved, so it is scaled by
two: the list holds `s*vol0 + s*vol1` and stands for half of it), else one sample per output channel. -/
def frame (channels : Nat) (s : Int) (vol0 vol1 : Nat) : Res (List Int) :=
  if channels < 2 then do
    let x ← i32 (s * vol0)
    let y ← i32 (s * vol1)
    return [x + y]
  else do
    let x ← i32 (s * vol0)
    let y ← i32 (s * vol1)
    return (List.range channels).map fun j => if j % 2 = 0 then x else y

/-- The first half of the loop body, `audio.c:126-135`: advance in the sample. The flag tells that the loop is left. -/
def move (c : Chan) : Res (Bool × Chan) := do
  let count := u32 (c.count + c.advance)
  let q ← divU count c.period
  let i := u16 (c.i + q)
  let m ← modU count c.period
  if i ≥ c.len then
    if c.rep = false then return (true, { c with count := m, i := i, advance := 0 })
    else
      let k ← modU i c.len
      return (false, { c with count := m, i := k })
  else return (false, { c with count := m, i := i })

/-- The second half, `audio.c:136-149`: the sample at the current index. -/
def emit (mem : Nat → Byte) (memSize channels : Nat) (c : Chan) : Res (List Int × Chan) := do
  let x ← (if c.addr + c.i < memSize then .ok (mem (c.addr + c.i)) else .error .oob)
  let (e, c) ← envelope { c with age := u32 (c.age + 1) } c.age
  let s ← i32 (signed x * e)
  let f ← frame channels s c.vol0 c.vol1
  return (f, c)

/-- The loop of `buxn_audio_render`, `audio.c:125-150`, for `n` frames; `mem`, `memSize` are the guest memory the
sample pointer points into. Returns the frames written. -/
def renderLoop (mem : Nat → Byte) (memSize channels : Nat) : Nat → Chan → Res (Chan × List (List Int))
  | 0, c => .ok (c, [])
  | n + 1, c => do
    let (stop, c) ← move c
    if stop then return (c, [])
    else
      let (f, c) ← emit mem memSize channels c
      let (c, fs) ← renderLoop mem memSize channels n c
      return (c, f :: fs)

/-- `buxn_audio_render`, `audio.c:119-153`: the result, the new channel, the frames written from the start of the
stream (the rest of the stream is left as it was). -/
def render (mem : Nat → Byte) (memSize channels n : Nat) (c : Chan) : Res (State × Chan × List (List Int)) :=
  if c.advance = 0 ∨ c.period = 0 then .ok (.stopped, c, [])
  else do
    let (c, fs) ← renderLoop mem memSize channels n c
    return (if c.advance = 0 then .finished else .playing, c, fs)

end Buxn.Audio
