import Verif.Devices.Common
/-!
# The system device

Models `/repo/src/devices/system.c`. The host callbacks (`system.h:22-29`) are parameters.
`uint32_t` computations are on `Nat` with the reduction modulo `2^32` written where it can take effect.
-/
namespace Buxn.System
open Buxn.VM
variable {σ : Type}

/-- The host program's callbacks, `system.h:22-29`. -/
structure Callbacks (σ : Type) where
  debug : Byte → VM → σ → Res (VM × σ)
  setMetadata : Short → VM → σ → Res (VM × σ)
  themeChanged : VM → σ → Res (VM × σ)

/-- `buxn_system_exit_code`, `system.c:5-9`. -/
def exitCode (vm : VM) : Int :=
  let state := vm.device 0x0f
  if state = 0 then -1 else ((state &&& 0x7f).toNat : Int)

/-- `buxn_system_dei`, `system.c:11-18`. -/
def dei (vm : VM) (address : Byte) : Byte :=
  if address = 0x04 then vm.wsp
  else if address = 0x05 then vm.rsp
  else vm.device address

/-- `memset(vm->memory + start, v, len)`, `system.c:39`. A zero-length call at `start` is allowed. -/
def memset (vm : VM) (start : Nat) (v : Byte) (len : Nat) : Res VM :=
  if start + len ≤ vm.memSize then
    .ok { vm with memory := fun i => if start ≤ i ∧ i < start + len then v else vm.memory i }
  else .error .oob

/-- The loop `system.c:59-61`; `k` iterations are left, `i = length - k`. -/
def copyLeft (src dst length : Nat) : Nat → VM → Res VM
  | 0, vm => .ok vm
  | k + 1, vm => do
    let i := length - (k + 1)
    let v ← vm.rd (src + i)
    let vm ← vm.wr (dst + i) v
    copyLeft src dst length k vm

/-- The loop `system.c:63-65`; `k` iterations are left, `i = length - k + 1`, and `length - i = k - 1`. -/
def copyRight (src dst : Nat) : Nat → VM → Res VM
  | 0, vm => .ok vm
  | k + 1, vm => do
    let v ← vm.rd (src + k)
    let vm ← vm.wr (dst + k) v
    copyRight src dst k vm

/-- `x < memory_size ? x : memory_size - 1`, `system.c:33`, `46`, `51`. -/
def clampStart (memSize x : Nat) : Nat := if x < memSize then x else memSize - 1

/-- `end <= memory_size ? end : memory_size`, `system.c:36`, `55`. -/
def clampEnd (memSize x : Nat) : Nat := if x ≤ memSize then x else memSize

/-- The expansion port, `system.c:23-69`. -/
def expansion (vm : VM) : Res VM := do
  let opAddr := (vm.devLoad2 0x02).toNat
  let op ← vm.rd opAddr
  let memorySize := vm.memSize
  let length := (← vm.memLoad2 (opAddr + 1)).toNat
  if op = 0 then
    let bank := (← vm.memLoad2 (opAddr + 3)).toNat
    let addr := (← vm.memLoad2 (opAddr + 5)).toNat
    let start := clampStart memorySize (bank * 65536 + addr)
    let stop := clampEnd memorySize ((start + length) % 2 ^ 32)
    let fill ← vm.rd (opAddr + 7)
    memset vm start fill ((stop + 2 ^ 32 - start) % 2 ^ 32)
  else if op = 1 ∨ op = 2 then
    let srcBank := (← vm.memLoad2 (opAddr + 3)).toNat
    let srcAddr := (← vm.memLoad2 (opAddr + 5)).toNat
    let src := clampStart memorySize (srcBank * 65536 + srcAddr)
    let dstBank := (← vm.memLoad2 (opAddr + 7)).toNat
    let dstAddr := (← vm.memLoad2 (opAddr + 9)).toNat
    let dst := clampStart memorySize (dstBank * 65536 + dstAddr)
    let max := if src > dst then src else dst
    let stop := clampEnd memorySize ((max + length) % 2 ^ 32)
    let length := (stop + 2 ^ 32 - max) % 2 ^ 32
    if op = 1 then copyLeft src dst length length vm else copyRight src dst length vm
  else return vm

/-- `buxn_system_deo`, `system.c:20-86`. -/
def deo (cb : Callbacks σ) (address : Byte) (vm : VM) (h : σ) : Res (VM × σ) :=
  if address = 0x03 then do return (← expansion vm, h)
  else if address = 0x04 then .ok ({ vm with wsp := vm.device address }, h)
  else if address = 0x05 then .ok ({ vm with rsp := vm.device address }, h)
  else if address = 0x07 then cb.setMetadata (vm.devLoad2 0x06) vm h
  else if address = 0x09 ∨ address = 0x0b ∨ address = 0x0d then cb.themeChanged vm h
  else if address = 0x0e then if vm.device address ≠ 0 then cb.debug (vm.device address) vm h else .ok (vm, h)
  else .ok (vm, h)

/-- `buxn_make_rgba`, `system.c:88-94`. -/
def makeRgba (r g b : Byte) : BitVec 32 :=
  0xff000000
  ||| b.setWidth 32 <<< 20 ||| b.setWidth 32 <<< 16
  ||| g.setWidth 32 <<< 12 ||| g.setWidth 32 <<< 8
  ||| r.setWidth 32 <<< 4 ||| r.setWidth 32 <<< 0

/-- `buxn_system_palette`, `system.c:96-106`; the index selects the colour. -/
def palette (vm : VM) (i : Fin 4) : BitVec 32 :=
  let r := vm.devLoad2 0x08
  let g := vm.devLoad2 0x0a
  let b := vm.devLoad2 0x0c
  let ch (x : Short) (s : Nat) : Byte := ((x >>> s) &&& 0x0f).setWidth 8
  match i with
  | 0 => makeRgba (ch r 12) (ch g 12) (ch b 12)
  | 1 => makeRgba (ch r 8) (ch g 8) (ch b 8)
  | 2 => makeRgba (ch r 4) (ch g 4) (ch b 4)
  | 3 => makeRgba (ch r 0) (ch g 0) (ch b 0)

end Buxn.System
