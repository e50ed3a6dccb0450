import Verif.Basic
/-!
# File device

Models `/repo/src/devices/file.c` and `/repo/include/buxn/devices/file.h`.

The file system is a parameter: a state `σ` and one function for each callback of `file.h:51-80`. Its contract is built
into the calls: `fread` delivers at most as many bytes as asked for (`file.h:57`), `fwrite` accepts at most as many as
given (`file.h:60`). A handle is a number; the address of `BUXN_FILE_INVALID_HANDLE` (`file.c:5`) is a separate value,
so no callback can return it. Every callback is recorded in a log.

The sixteen ports of the device are `Fin 16 → Byte`; file operations do not change them.
-/
namespace Buxn.File

abbrev Path := List Byte

/-- `buxn_file_mode_t`, `file.h:16-20`. -/
inductive Mode | read | write | append
  deriving DecidableEq, Repr

/-- `buxn_file_type_t`, `file.h:22-26`. -/
inductive FType | invalid | regular | directory
  deriving DecidableEq, Repr

/-- `buxn_file_stat_t`, `file.h:28-31`. -/
structure FStat where
  type : FType
  size : Nat
  deriving DecidableEq, Repr

/-- A non-null `buxn_file_handle_t*`. -/
inductive Hnd | invalid | real (h : Nat)
  deriving DecidableEq, Repr

/-- A callback that was called, with its arguments and result. -/
inductive Call
  | stat (p : Path) (r : FStat)
  | fopen (p : Path) (m : Mode) (r : Option Nat)
  | fclose (h : Hnd)
  | opendir (p : Path) (r : Option Nat)
  | closedir (h : Hnd)
  | fread (h : Hnd) (size : Nat) (data : List Byte)
  | fwrite (h : Hnd) (data : List Byte) (n : Nat)
  | readdir (h : Hnd) (r : Option (FStat × List Byte))
  | delete (p : Path) (r : Bool)
  deriving DecidableEq, Repr

/-- The callbacks, `file.h:51-80`. -/
structure Host (σ : Type) where
  stat : Path → σ → FStat × σ
  fopen : Path → Mode → σ → Option Nat × σ
  fclose : Hnd → σ → σ
  opendir : Path → σ → Option Nat × σ
  closedir : Hnd → σ → σ
  fread : Hnd → Nat → σ → List Byte × σ
  fwrite : Hnd → List Byte → σ → Nat × σ
  readdir : Hnd → σ → Option (FStat × List Byte) × σ
  delete : Path → σ → Bool × σ

/-- `buxn_file_t`, `file.h:33-42`. -/
structure Dev where
  handle : Option Hnd
  mode : Mode
  stat : FStat
  success : Nat
  pos : Nat
  len : Nat
  buf : Nat → Byte

/-- The device, the guest memory, the file system and the log. -/
structure W (σ : Type) where
  dev : Dev
  mem : Nat → Byte
  host : σ
  log : List Call

variable {σ : Type}

/-- An array after the bytes `l` are copied to index `a`. -/
def writeAt (f : Nat → Byte) (a : Nat) (l : List Byte) : Nat → Byte :=
  fun i => if a ≤ i ∧ i < a + l.length then l.getD (i - a) 0 else f i

/-- The bytes at `[a, a + n)`. -/
def slice (f : Nat → Byte) (a n : Nat) : List Byte := (List.range n).map fun j => f (a + j)

/-- `memcpy` into guest memory (or the write of a callback). -/
def store (memSize a : Nat) (l : List Byte) (w : W σ) : Res (W σ) :=
  if a + l.length ≤ memSize then .ok { w with mem := writeAt w.mem a l } else .error .oob

/-- `buxn_vm_load2` with `BUXN_DEV_PRIV_ADDR_MASK`, `vm.h:86-91`. -/
def load2 (ports : Fin 16 → Byte) (p : Fin 16) : Nat := (ports p).toNat * 256 + (ports (p + 1)).toNat

/-- `BUXN_FILE_MAX_PATH`, `file.h:8`. -/
def MAX_PATH : Nat := 1024

/-- The loop of `buxn_file_read_path`, `file.c:12-17`: the bytes put in the buffer from `addr` on when `len` are there
already (the fuel is `MAX_PATH + 1 - len`). -/
def readPathLoop (mem : Nat → Byte) (memSize : Nat) : Nat → Nat → Nat → Res (List Byte)
  | 0, _, _ => .ok []
  | fuel + 1, addr, len =>
    if addr % 65536 < memSize then
      if mem (addr % 65536) ≠ 0 ∧ len < MAX_PATH then do
        -- `buf[len++] = ch`; `buf` has MAX_PATH elements
        let rest ← (if len < MAX_PATH then readPathLoop mem memSize fuel (addr + 1) (len + 1) else .error .oob)
        return mem (addr % 65536) :: rest
      else .ok []
    else .error .oob

/-- `buxn_file_read_path`, `file.c:7-25`. -/
def readPath (ports : Fin 16 → Byte) (mem : Nat → Byte) (memSize : Nat) : Res (Option Path) := do
  let l ← readPathLoop mem memSize (MAX_PATH + 1) (load2 ports 8) 0
  if l.length ≥ MAX_PATH ∨ l.length = 0 then return none
  else return some l

/-- The callbacks as the device calls them: with the log. -/
def callStat (H : Host σ) (p : Path) (w : W σ) : FStat × W σ :=
  let (r, s) := H.stat p w.host
  (r, { w with host := s, log := w.log ++ [.stat p r] })
def callFopen (H : Host σ) (p : Path) (m : Mode) (w : W σ) : Option Hnd × W σ :=
  let (r, s) := H.fopen p m w.host
  (r.map Hnd.real, { w with host := s, log := w.log ++ [.fopen p m r] })
def callFclose (H : Host σ) (h : Hnd) (w : W σ) : W σ :=
  { w with host := H.fclose h w.host, log := w.log ++ [.fclose h] }
def callOpendir (H : Host σ) (p : Path) (w : W σ) : Option Hnd × W σ :=
  let (r, s) := H.opendir p w.host
  (r.map Hnd.real, { w with host := s, log := w.log ++ [.opendir p r] })
def callClosedir (H : Host σ) (h : Hnd) (w : W σ) : W σ :=
  { w with host := H.closedir h w.host, log := w.log ++ [.closedir h] }
def callFread (H : Host σ) (h : Hnd) (size : Nat) (w : W σ) : List Byte × W σ :=
  let (r, s) := H.fread h size w.host
  (r.take size, { w with host := s, log := w.log ++ [.fread h size (r.take size)] })
def callFwrite (H : Host σ) (h : Hnd) (data : List Byte) (w : W σ) : Nat × W σ :=
  let (r, s) := H.fwrite h data w.host
  (min r data.length, { w with host := s, log := w.log ++ [.fwrite h data (min r data.length)] })
def callReaddir (H : Host σ) (h : Hnd) (w : W σ) : Option (FStat × List Byte) × W σ :=
  let (r, s) := H.readdir h w.host
  (r, { w with host := s, log := w.log ++ [.readdir h r] })
def callDelete (H : Host σ) (p : Path) (w : W σ) : Bool × W σ :=
  let (r, s) := H.delete p w.host
  (r, { w with host := s, log := w.log ++ [.delete p r] })

/-- The first half of `buxn_file_set_mode`, `file.c:34-44`. -/
def closeForMode (H : Host σ) (mode : Mode) (w : W σ) : W σ :=
  match w.dev.handle with
  | none => w
  | some h =>
    if w.dev.mode ≠ mode then
      let w :=
        if h = .invalid then w
        else if w.dev.stat.type = .regular then callFclose H h w
        else if w.dev.stat.type = .directory then callClosedir H h w
        else w
      { w with dev := { w.dev with handle := none, success := 0 } }
    else w

/-- The second half, `file.c:46-65`. -/
def openForMode (H : Host σ) (memSize : Nat) (ports : Fin 16 → Byte) (mode : Mode) (w : W σ) : Res (W σ) :=
  match w.dev.handle with
  | some _ => .ok w
  | none => do
    match ← readPath ports w.mem memSize with
    | none => return w
    | some path =>
      let (st, w) := callStat H path w
      let w := { w with dev := { w.dev with stat := st } }
      let w :=
        match st.type with
        | .regular =>
          let (h, w) := callFopen H path mode w
          { w with dev := { w.dev with handle := h } }
        | .directory =>
          let (h, w) := callOpendir H path w
          { w with dev := { w.dev with handle := h } }
        | .invalid =>
          if mode ≠ Mode.read then
            let (h, w) := callFopen H path mode w
            { w with dev := { w.dev with handle := h, stat := { w.dev.stat with type := .regular } } }
          else { w with dev := { w.dev with handle := some .invalid } }
      return { w with dev := { w.dev with mode := mode } }

/-- `buxn_file_set_mode`, `file.c:27-68`. -/
def setMode (H : Host σ) (memSize : Nat) (ports : Fin 16 → Byte) (mode : Mode) (w : W σ) : Res (W σ) :=
  openForMode H memSize ports mode (closeForMode H mode w)

/-- The digit loop of `buxn_file_format_stat`, `file.c:77-84`: the characters from the last to the first and what
remains of the size. -/
def hexLoop : Nat → Nat → List Byte → List Byte × Nat
  | 0, size, acc => (acc, size)
  | n + 1, size, acc =>
    let c : Nat := 48 + size % 16
    let c := if c > 57 then c + 39 else c
    hexLoop n (size / 16) (BitVec.ofNat 8 c :: acc)

/-- `buxn_file_format_stat`, `file.c:70-92`: the `len` bytes written. (For `len = 0` the C code forms a pointer one
before the buffer without using it.) -/
def formatStat (len : Nat) (st : FStat) : List Byte :=
  match st.type with
  | .invalid => List.replicate len 0x21
  | .regular =>
    let (l, size) := hexLoop len st.size []
    if size ≠ 0 then List.replicate len 0x3f else l
  | .directory => List.replicate len 0x2d

/-- `buxn_file_clamp_length`, `file.c:94-98`: note that `max_len` is a `uint16_t`. -/
def clampLength (length addr : Nat) : Nat :=
  let max := (0x10000 - addr) % 65536
  if length > max then max else length

/-- `buxn_file_dei`, `file.c:100-108`. -/
def dei (dev : Dev) (ports : Fin 16 → Byte) (port : Fin 16) : Byte :=
  if port = 2 then BitVec.ofNat 8 (dev.success / 256)
  else if port = 3 then BitVec.ofNat 8 (dev.success % 256)
  else ports port

/-- `sizeof(device->read_dir_buf)`, `file.h:41`. -/
def DIR_BUF : Nat := 262

/-- Filling the directory buffer, `file.c:172-194`; the flag is false when the loop is left. -/
def refill (H : Host σ) (file : Hnd) (w : W σ) : Res (Bool × W σ) :=
  let w := { w with dev := { w.dev with pos := 0, len := 0 } }
  match callReaddir H file w with
  | (none, w) => .ok (false, w)
  | (some (st, name), w) =>
    let w := { w with dev := { w.dev with buf := writeAt w.dev.buf 0 (formatStat 4 st), len := 4 } }
    if 4 + name.length + 2 > DIR_BUF then .ok (false, { w with dev := { w.dev with len := 0 } })
    else
      let text := [0x20] ++ name ++ [0x0a]
      if 4 + text.length ≤ DIR_BUF then
        .ok (true, { w with dev := { w.dev with buf := writeAt w.dev.buf 4 text, len := (4 + text.length) % 65536 } })
      else .error .oob

/-- The loop of the directory read, `file.c:170-203`: `total` bytes so far. Each round delivers at least one byte, so
`length` rounds are enough. -/
def dirLoop (H : Host σ) (memSize : Nat) (file : Hnd) : Nat → Nat → Nat → Nat → W σ → Res (Nat × W σ)
  | 0, _, _, total, w => .ok (total, w)
  | fuel + 1, addr, length, total, w =>
    if length > 0 then do
      let (go, w) ← (if w.dev.pos ≥ w.dev.len then refill H file w else .ok (true, w))
      if go then
        let available := (w.dev.len + 65536 - w.dev.pos) % 65536
        let n := if length < available then length else available
        if w.dev.pos + n ≤ DIR_BUF then
          let w ← store memSize addr (slice w.dev.buf w.dev.pos n) w
          let w := { w with dev := { w.dev with pos := (w.dev.pos + n) % 65536 } }
          dirLoop H memSize file fuel ((addr + n) % 65536) (length - n) ((total + n) % 65536) w
        else throw .oob
      else return (total, w)
    else .ok (total, w)

/-- The loop of the file read, `file.c:209-217`. -/
def readLoop (H : Host σ) (memSize : Nat) (file : Hnd) : Nat → Nat → Nat → Nat → W σ → Res (Nat × W σ)
  | 0, _, _, total, w => .ok (total, w)
  | fuel + 1, addr, length, total, w =>
    if length > 0 then do
      let (data, w) := callFread H file length w
      -- the callback writes its bytes to `&vm->memory[read_addr]`
      let w ← store memSize addr data w
      if data.length = 0 then return (total, w)
      else readLoop H memSize file fuel ((addr + data.length) % 65536) (length - data.length) ((total + data.length) % 65536) w
    else .ok (total, w)

/-- The loop of the file write, `file.c:234-243`. -/
def writeLoop (H : Host σ) (memSize : Nat) (file : Hnd) : Nat → Nat → Nat → Nat → W σ → Res (Nat × W σ)
  | 0, _, _, total, w => .ok (total, w)
  | fuel + 1, addr, length, total, w =>
    if length > 0 then
      if addr + length ≤ memSize then
        let (n, w) := callFwrite H file (slice w.mem addr length) w
        if n = 0 then .ok (total, w)
        else writeLoop H memSize file fuel ((addr + n) % 65536) (length - n) ((total + n) % 65536) w
      else .error .oob
    else .ok (total, w)

/-- Port 5, `file.c:113-134`. -/
def opStat (H : Host σ) (memSize : Nat) (ports : Fin 16 → Byte) (w : W σ) : Res (W σ) :=
  let addr := load2 ports 4
  let length := clampLength (load2 ports 10) addr
  match w.dev.handle with
  | some _ => do
    let w ← store memSize addr (formatStat length w.dev.stat) w
    return { w with dev := { w.dev with success := length } }
  | none => do
    match ← readPath ports w.mem memSize with
    | some path =>
      let (st, w) := callStat H path w
      let w ← store memSize addr (formatStat length st) w
      return { w with dev := { w.dev with success := length } }
    | none => return { w with dev := { w.dev with success := 0 } }

/-- Port 6, `file.c:135-140`. -/
def opDelete (H : Host σ) (memSize : Nat) (ports : Fin 16 → Byte) (w : W σ) : Res (W σ) := do
  match ← readPath ports w.mem memSize with
  | some path =>
    let (r, w) := callDelete H path w
    return { w with dev := { w.dev with success := if r then 1 else 0 } }
  | none => return { w with dev := { w.dev with success := 0 } }

/-- Port 9, `file.c:141-152`. -/
def opName (H : Host σ) (w : W σ) : W σ :=
  match w.dev.handle with
  | some h =>
    let w :=
      match w.dev.stat.type with
      | .regular => callFclose H h w
      | .directory => callClosedir H h w
      | .invalid => w
    { w with dev := { w.dev with handle := none } }
  | none => w

/-- Port 13, `file.c:153-221`. -/
def opRead (H : Host σ) (memSize : Nat) (ports : Fin 16 → Byte) (w : W σ) : Res (W σ) := do
  let w ← setMode H memSize ports .read w
  let addr := load2 ports 12
  let length := clampLength (load2 ports 10) addr
  let (total, w) ← (match w.dev.handle with
    | none => .ok (0, w)
    | some file =>
      match w.dev.stat.type with
      | .directory => dirLoop H memSize file length addr length 0 w
      | .regular => readLoop H memSize file length addr length 0 w
      | .invalid => .ok (0, w))
  return { w with dev := { w.dev with success := total } }

/-- Port 15, `file.c:222-248`. -/
def opWrite (H : Host σ) (memSize : Nat) (ports : Fin 16 → Byte) (w : W σ) : Res (W σ) := do
  let mode := if ports 7 = 0 then Mode.write else .append
  let w ← setMode H memSize ports mode w
  let addr := load2 ports 14
  let length := clampLength (load2 ports 10) addr
  match w.dev.handle with
  | some file =>
    if w.dev.stat.type = .regular then
      let (total, w) ← writeLoop H memSize file length addr length 0 w
      return { w with dev := { w.dev with success := total } }
    else return { w with dev := { w.dev with success := 0 } }
  | none => return { w with dev := { w.dev with success := 0 } }

/-- `buxn_file_deo`, `file.c:110-250`. -/
def deo (H : Host σ) (memSize : Nat) (ports : Fin 16 → Byte) (port : Fin 16) (w : W σ) : Res (W σ) :=
  if port = 5 then opStat H memSize ports w
  else if port = 6 then opDelete H memSize ports w
  else if port = 9 then .ok (opName H w)
  else if port = 13 then opRead H memSize ports w
  else if port = 15 then opWrite H memSize ports w
  else .ok w

end Buxn.File
