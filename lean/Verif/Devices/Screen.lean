import Verif.Devices.Common
/-!
# Screen device

Models `/repo/src/devices/screen.c`, `/repo/include/buxn/devices/screen.h` and the part of `/repo/src/gui.c` that resizes
and renders (`gui.c:300-303`, `gui.c:366-388`, `gui.c:632-672`).

`int` is unbounded here: the overflow of coordinates after some 2^31 automatic increments and the overflow of
`width * height` for screens of more than 2^31 pixels are not modelled. The two layers live in one allocation
(`screen.h:33-34`); an access outside the layer it is meant for counts as out of bounds. A layer is an array of colours.
-/
namespace Buxn.Screen
open Buxn.VM

abbrev Layer := Int → Nat

/-- `buxn_screen_rect_t`, `screen.h:22-24`. -/
structure Rect where
  x1 : Int
  y1 : Int
  x2 : Int
  y2 : Int
  deriving DecidableEq, Repr

/-- `buxn_screen_t`, `screen.h:26-35`. -/
structure Screen where
  rX : Int
  rY : Int
  rA : Int
  rMX : Int
  rMY : Int
  rMA : Int
  rML : Nat
  rDX : Int
  rDY : Int
  width : Int
  height : Int
  fgRect : Rect
  bgRect : Rect
  fg : Layer
  bg : Layer

/-- `BUXN_BLENDING`, `screen.c:22-27`. -/
def BLENDING : List (List Nat) := [
  [0, 0, 0, 0, 1, 0, 1, 1, 2, 2, 0, 2, 3, 3, 3, 0],
  [0, 1, 2, 3, 0, 1, 2, 3, 0, 1, 2, 3, 0, 1, 2, 3],
  [1, 2, 3, 1, 1, 2, 3, 1, 1, 2, 3, 1, 1, 2, 3, 1],
  [2, 3, 1, 2, 2, 3, 1, 2, 2, 3, 1, 2, 2, 3, 1, 2]]

def blending (color blend : Nat) : Nat := (BLENDING.getD color []).getD blend 0

/-- `buxn_screen_dirty`, `screen.c:29-38`. -/
def dirty (r : Rect) (x1 y1 x2 y2 : Int) : Rect where
  x1 := if x1 < r.x1 then x1 else r.x1
  y1 := if y1 < r.y1 then y1 else r.y1
  x2 := if x2 > r.x2 then x2 else r.x2
  y2 := if y2 > r.y2 then y2 else r.y2

/-- The number of bytes of a layer, `screen.c:42` and `screen.c:51`. -/
def Screen.size (s : Screen) : Int := (s.width + 16) * (s.height + 16)

/-- `buxn_screen_resize`, `screen.c:49-59`. -/
def resize (s : Screen) (width height : Int) : Screen :=
  { s with
    width := width, height := height, fg := fun _ => 0, bg := fun _ => 0
    bgRect := dirty s.bgRect 0 0 width height
    fgRect := dirty s.fgRect 0 0 width height }

/-- `layer[i] = color`. -/
def put (size : Int) (l : Layer) (i : Int) (color : Nat) : Res Layer :=
  if 0 ≤ i ∧ i < size then .ok (fun j => if j = i then color else l j) else .error .oob

/-- `vm->memory[i]`. -/
def rdMem (vm : VM) (i : Int) : Res Nat :=
  if 0 ≤ i ∧ i < (vm.memSize : Int) then .ok (vm.memory i.toNat).toNat else .error .oob

/-- The inner loop of the fill mode, `screen.c:180-182`: `n` rounds. -/
def fillRow (size : Int) (color : Nat) : Nat → Int → Layer → Res Layer
  | 0, _, l => .ok l
  | n + 1, ax, l => do fillRow size color n (ax + 1) (← put size l ax color)

/-- The outer loop, `screen.c:179-183`: `n` rounds (`by - ay` is `ver * len`, so there are `ver` of them, none if `ver` is
not positive). -/
def fillRows (size : Int) (color : Nat) (len x1 : Int) (hor : Nat) : Nat → Int → Layer → Res Layer
  | 0, _, l => .ok l
  | n + 1, ay, l => do fillRows size color len x1 hor n (ay + len) (← fillRow size color hor (ay + x1) l)

/-- The loop over the columns of a sprite, `screen.c:217-222` and `screen.c:236-241` (`ch2` is 0 with one bit per pixel). -/
def spriteRow (size : Int) (blend : Nat) (ch1 ch2 : Nat) (fx : Int) : Nat → Int → Int → Layer → Res Layer
  | 0, _, _, l => .ok l
  | n + 1, ax, qx, l => do
    let color := ((ch1 >>> qx.toNat) &&& 1) ||| ((ch2 >>> qx.toNat) &&& 2)
    let l ← (if blend % 5 ≠ 0 ∨ color ≠ 0 then put size l ax (blending color blend) else .ok l)
    spriteRow size blend ch1 ch2 fx n (ax + 1) (qx - fx) l

/-- The loop over the rows, `screen.c:215-223` and `screen.c:234-242`: `n` rounds. `two` says whether there are two bits per
pixel. -/
def spriteRows (vm : VM) (size : Int) (blend : Nat) (two : Bool) (rA fx fy qfx xmar wmar2 : Int) (cols : Nat) :
    Nat → Int → Int → Layer → Res Layer
  | 0, _, _, l => .ok l
  | n + 1, ay, qy, l => do
    let ch1 ← rdMem vm (rA + qy)
    let ch2 ← (if two then (do let c ← rdMem vm (rA + qy + 8); return c <<< 1) else .ok 0)
    let l ← spriteRow size blend ch1 ch2 fx cols (xmar + ay) qfx l
    spriteRows vm size blend two rA fx fy qfx xmar wmar2 cols n (ay + wmar2) (qy + fy) l

/-- One round of the loop over the sprites, `screen.c:210-224` and `screen.c:229-243`. The variables `xmar` and so on are
`uint16_t`. -/
def sprite (vm : VM) (s : Screen) (blend : Nat) (two : Bool) (fx fy : Int) (rA x y : Int) (l : Layer) : Res Layer :=
  let xmar := (x + 8) % 65536
  let ymar := (y + 8) % 65536
  let xmar2 := (x + 16) % 65536
  let ymar2 := (y + 16) % 65536
  let qfx : Int := if fx > 0 then 7 else 0
  let qfy : Int := if fy < 0 then 7 else 0
  if xmar < s.width + 8 ∧ ymar2 < s.height + 16 then
    spriteRows vm s.size blend two rA fx fy qfx xmar (s.width + 16) (xmar2 - xmar).toNat (ymar2 - ymar).toNat
      (ymar * (s.width + 16)) qfy l
  else .ok l

/-- The loop over the sprites, `screen.c:209-225` and `screen.c:228-244`: `n` rounds; the result has the last `x`, `y` and
`rA`. -/
def sprites (vm : VM) (s : Screen) (blend : Nat) (two : Bool) (fx fy dyx dxy incr : Int) :
    Nat → Int → Int → Int → Layer → Res (Int × Int × Int × Layer)
  | 0, rA, x, y, l => .ok (rA, x, y, l)
  | n + 1, rA, x, y, l => do
    let l ← sprite vm s blend two fx fy rA x y l
    sprites vm s blend two fx fy dyx dxy incr n (rA + incr) (x + dyx) (y + dxy) l

/-- Whether a bit of the mode byte is set. -/
def bit (ctrl : Byte) (i : Nat) : Bool := ctrl.getLsbD i

/-- The layer and the rectangle selected by the mode byte, `screen.c:163-164` and `screen.c:205-206`. -/
def layerOf (s : Screen) (ctrl : Byte) : Layer := if bit ctrl 6 then s.fg else s.bg
def rectOf (s : Screen) (ctrl : Byte) : Rect := if bit ctrl 6 then s.fgRect else s.bgRect
def setLayer (s : Screen) (ctrl : Byte) (l : Layer) (r : Rect) : Screen :=
  if bit ctrl 6 then { s with fg := l, fgRect := r } else { s with bg := l, bgRect := r }

/-- The bounds of the fill mode, `screen.c:168-177`: `x1`, `x2`, `y1`, `y2`. -/
def fillBounds (s : Screen) (ctrl : Byte) : Int × Int × Int × Int :=
  let (x1, x2) : Int × Int := if bit ctrl 4 then (0 + 8, s.rX + 8) else (s.rX + 8, s.width + 8)
  let (y1, y2) : Int × Int := if bit ctrl 5 then (0 + 8, s.rY + 8) else (s.rY + 8, s.height + 8)
  (x1, x2, y1, y2)

/-- Port 0x2e after the resize, `screen.c:160-193`. -/
def pixelOp (s : Screen) (ctrl : Byte) : Res Screen :=
  let color := ctrl.toNat % 4
  let len := s.width + 16
  if bit ctrl 7 then do
    let (x1, x2, y1, y2) := fillBounds s ctrl
    let l ← fillRows s.size color len x1 (x2 - x1).toNat (y2 - y1).toNat (y1 * len) (layerOf s ctrl)
    return setLayer s ctrl l (dirty (rectOf s ctrl) (x1 - 8) (y1 - 8) (x2 - 8) (y2 - 8))
  else do
    let l ← (if s.rX ≥ 0 ∧ s.rY ≥ 0 ∧ s.rX < len ∧ s.rY < s.height then
        put s.size (layerOf s ctrl) ((s.rX + 8) + (s.rY + 8) * len) color
      else .ok (layerOf s ctrl))
    let s1 := setLayer s ctrl l (dirty (rectOf s ctrl) s.rX s.rY (s.rX + 1) (s.rY + 1))
    return { s1 with
      rX := if s.rMX ≠ 0 then s.rX + 1 else s.rX
      rY := if s.rMY ≠ 0 then s.rY + 1 else s.rY }

/-- `fx` and `fy`, `screen.c:199`. -/
def flipX (ctrl : Byte) : Int := if bit ctrl 4 then -1 else 1
def flipY (ctrl : Byte) : Int := if bit ctrl 5 then -1 else 1

/-- The rectangle of a sprite operation, `screen.c:246-256`, when the loop ended at `x`, `y`. -/
def spriteDirty (s : Screen) (ctrl : Byte) (x y : Int) : Rect :=
  let (x1, x2) : Int × Int := if flipX ctrl < 0 then (x, s.rX) else (s.rX, x)
  let (y1, y2) : Int × Int := if flipY ctrl < 0 then (y, s.rY) else (s.rY, y)
  dirty (rectOf s ctrl) (x1 - 8) (y1 - 8) (x2 + 8) (y2 + 8)

/-- Port 0x2f after the resize, `screen.c:197-258`. The two branches of the mode bit 7 differ in the number of bits per
pixel and in the increment (`rMA << 2` or `rMA << 1`). -/
def spriteOp (vm : VM) (s : Screen) (ctrl : Byte) : Res Screen := do
  let two := bit ctrl 7
  let incr := if two then s.rMA * 4 else s.rMA * 2
  let (rA, x, y, l) ← sprites vm s (ctrl.toNat % 16) two (flipX ctrl) (flipY ctrl) (flipX ctrl * s.rDY) (flipY ctrl * s.rDX)
    incr (s.rML + 1) s.rA s.rX s.rY (layerOf s ctrl)
  let s1 := setLayer s ctrl l (spriteDirty s ctrl x y)
  return { s1 with
    rA := rA
    rX := if s.rMX ≠ 0 then s.rX + s.rDX * flipX ctrl else s.rX
    rY := if s.rMY ≠ 0 then s.rY + s.rDY * flipY ctrl else s.rY }

/-- `buxn_screen_preferred_size`, `screen.c:61-65`. -/
def preferred (vm : VM) : Int × Int := ((vm.devLoad2 0x22).toNat, (vm.devLoad2 0x24).toNat)

/-- The textures of the host, `gui.c:45-49`; the pixel `(x, y)` is at `y * width + x`. -/
structure Gui where
  scr : Screen
  bgT : Int → Nat
  fgT : Int → Nat

/-- `buxn_screen_request_resize` of the host, `gui.c:366-388`: new textures, all zero, and `buxn_screen_resize`. -/
def requestResize (g : Gui) (width height : Int) : Gui where
  scr := resize g.scr width height
  bgT := fun _ => 0
  fgT := fun _ => 0

/-- `buxn_screen_maybe_resize`, `screen.c:101-113`. -/
def maybeResize (vm : VM) (g : Gui) : Gui :=
  let (w, h) := preferred vm
  if (w ≠ 0 ∧ h ≠ 0) ∧ (w ≠ g.scr.width ∨ h ≠ g.scr.height) then requestResize g w h else g

/-- A byte of a coordinate as `buxn_screen_dei` returns it: conversion of an `int` to `uint8_t`, after `>> 8` or not. -/
def byteOf (v : Int) (high : Bool) : Byte := BitVec.ofInt 8 (if high then v / 256 else v)

/-- `buxn_screen_dei`, `screen.c:115-131`. -/
def dei (vm : VM) (g : Gui) (a : Byte) : Byte × Gui :=
  let g := maybeResize vm g
  let s := g.scr
  let v : Byte :=
    if a = 0x22 then byteOf s.width true else if a = 0x23 then byteOf s.width false
    else if a = 0x24 then byteOf s.height true else if a = 0x25 then byteOf s.height false
    else if a = 0x28 then byteOf s.rX true else if a = 0x29 then byteOf s.rX false
    else if a = 0x2a then byteOf s.rY true else if a = 0x2b then byteOf s.rY false
    else if a = 0x2c then byteOf s.rA true else if a = 0x2d then byteOf s.rA false
    else vm.device a
  (v, g)

/-- `twos`, `screen.c:20`, of a short. -/
def twos (v : Nat) : Int := if v ≥ 0x8000 then (v : Int) - 0x10000 else v

/-- `buxn_screen_deo`, `screen.c:133-261`. -/
def deo (vm : VM) (g : Gui) (a : Byte) : Res Gui :=
  let s := g.scr
  if a = 0x26 then
    let c := vm.device 0x26
    let rMX := (c &&& 1).toNat
    let rMY := (c &&& 2).toNat
    .ok { g with scr := { s with
      rMX := rMX, rMY := rMY, rMA := (c &&& 4).toNat, rML := (c >>> 4).toNat, rDX := rMX * 8, rDY := rMY * 4 } }
  else if a = 0x28 ∨ a = 0x29 then
    .ok { g with scr := { s with rX := twos ((vm.device 0x28).toNat * 256 + (vm.device 0x29).toNat) } }
  else if a = 0x2a ∨ a = 0x2b then
    .ok { g with scr := { s with rY := twos ((vm.device 0x2a).toNat * 256 + (vm.device 0x2b).toNat) } }
  else if a = 0x2c ∨ a = 0x2d then
    .ok { g with scr := { s with rA := (vm.device 0x2c).toNat * 256 + (vm.device 0x2d).toNat } }
  else if a = 0x2e then do
    let g := maybeResize vm g
    return { g with scr := ← pixelOp g.scr (vm.device 0x2e) }
  else if a = 0x2f then do
    let g := maybeResize vm g
    return { g with scr := ← spriteOp vm g.scr (vm.device 0x2f) }
  else .ok g

/-- `clamp`, `screen.c:19`. -/
def clamp (v a b : Int) : Int := if v < a then a else if v ≥ b then b else v

/-- The four clamps, `screen.c:77-80`. -/
def clampRect (r : Rect) (w h : Int) : Rect := ⟨clamp r.x1 0 w, clamp r.y1 0 h, clamp r.x2 0 w, clamp r.y2 0 h⟩

/-- The inner loop of the rendering, `screen.c:88-92`: `n` rounds. `targetSize` is the number of pixels of the target. -/
def renderRow (size targetSize : Int) (layer : Layer) (pal : Nat → Nat) : Nat → Int → Int → (Int → Nat) → Res (Int → Nat)
  | 0, _, _, t => .ok t
  | n + 1, i, oo, t => do
    if 0 ≤ i ∧ i < size ∧ layer i < 4 ∧ 0 ≤ oo ∧ oo < targetSize then
      renderRow size targetSize layer pal n (i + 1) (oo + 1) (fun j => if j = oo then pal (layer i) else t j)
    else throw .oob

/-- The outer loop, `screen.c:87-93`: `n` rounds from `y`. -/
def renderRows (size targetSize w x1 : Int) (cols : Nat) (layer : Layer) (pal : Nat → Nat) : Nat → Int → (Int → Nat) → Res (Int → Nat)
  | 0, _, t => .ok t
  | n + 1, y, t => do
    let t ← renderRow size targetSize layer pal cols ((x1 + 8) + (y + 8) * (w + 16)) (y * w + x1) t
    renderRows size targetSize w x1 cols layer pal n (y + 1) t

/-- `buxn_screen_render`, `screen.c:67-99`, of one layer: the target, the new rectangle, and what it returns. -/
def renderLayer (w h : Int) (layer : Layer) (r : Rect) (pal : Nat → Nat) (t : Int → Nat) : Res (Bool × Rect × (Int → Nat)) :=
  let r := clampRect r w h
  if ¬(r.x2 > r.x1 ∧ r.y2 > r.y1) then .ok (false, r, t)
  else do
    let t ← renderRows ((w + 16) * (h + 16)) (w * h) w r.x1 (r.x2 - r.x1).toNat layer pal (r.y2 - r.y1).toNat r.y1 t
    return (true, ⟨w + 1, h + 1, 0, 0⟩, t)

/-- The redrawing of the host, `gui.c:632-672`: the background, and the foreground with colour 0 transparent. -/
def renderFrame (pal : Nat → Nat) (g : Gui) : Res Gui := do
  let s := g.scr
  let (_, bgRect, bgT) ← renderLayer s.width s.height s.bg s.bgRect pal g.bgT
  let (_, fgRect, fgT) ← renderLayer s.width s.height s.fg s.fgRect (fun c => if c = 0 then 0 else pal c) g.fgT
  return { scr := { s with bgRect := bgRect, fgRect := fgRect }, bgT := bgT, fgT := fgT }

/-- `buxn_screen_force_refresh`, `screen.c:269-273`. -/
def forceRefresh (g : Gui) : Gui :=
  { g with scr := { g.scr with
    bgRect := dirty g.scr.bgRect 0 0 g.scr.width g.scr.height
    fgRect := dirty g.scr.fgRect 0 0 g.scr.width g.scr.height } }

/-- The screen at the start, `gui.c:536-542`: a zero structure, resized. -/
def start (width height : Int) : Gui where
  scr := resize ⟨0, 0, 0, 0, 0, 0, 0, 0, 0, 0, 0, ⟨0, 0, 0, 0⟩, ⟨0, 0, 0, 0⟩, fun _ => 0, fun _ => 0⟩ width height
  bgT := fun _ => 0
  fgT := fun _ => 0

end Buxn.Screen
