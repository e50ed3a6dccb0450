import Verif.Devices.Common
import Verif.VM.Props
/-!
# Model of the debugger core

Models `/repo/src/dbg/core.c` and the inline `buxn_dbg_exec` of `/repo/include/buxn/dbg/core.h`.

Simplifications:
* The host side of the debugger, `buxn_dbg_begin_exec`, `buxn_dbg_begin_break`, `buxn_dbg_next_command`,
  `buxn_dbg_end_break`, `buxn_dbg_end_exec` (`core.h:134-149`, "must be provided by the host program"), is a parameter
  `Wire`. What it does while the program is paused is a `Script`: a tree of commands in which each further command may
  depend on the answers to the earlier ones. The tree is well founded: a debugger that sends commands forever without
  ever letting the program go on is not modelled.
* Results that C writes through pointers in the command are a `Reply`.
* The data a write command carries is a function from indices (the C code reads `values[0 .. size-1]`; that the host
  provides that many is the host's contract).
* A log of the calls made to the host program is added to the state. No modelled code reads it.
-/

namespace Buxn.Dbg
open Buxn.VM

/-- `buxn_dbg_brkp_t`, `core.h:54-57`. -/
structure Brkp where
  addr : Short
  mask : Byte
  deriving DecidableEq, Repr

/-- `core.h:19-25`. -/
def DEV : Byte := (1 : Byte) <<< 0
def PAUSE : Byte := (1 : Byte) <<< 1
def EXEC : Byte := (1 : Byte) <<< 2
def LOAD : Byte := (1 : Byte) <<< 3
def STORE : Byte := (1 : Byte) <<< 4
def TYPE_MASK : Byte := 0x01
/-- `BUXN_DBG_BRKP_NONE`, `core.h:27`. -/
def NONE : Byte := 0xff

/-- `buxn_dbg_standing_cmd_type_t`, `core.c:5-10`. -/
inductive Standing where
  | execute | pause | stepOver | stepOut
  deriving DecidableEq, Repr

/-- `struct buxn_dbg_s`, `core.c:25-34`, without the pointers. `brkps` has 255 entries. -/
structure Dbg where
  executing : Bool
  standing : Standing
  rsp : Byte
  nbrkps : Byte
  brkpMask : Byte
  brkps : Nat → Brkp

/-- `buxn_dbg_init`, `core.c:42-50`. -/
def init : Dbg :=
  { executing := false, standing := .execute, rsp := 0, nbrkps := 0, brkpMask := 0, brkps := fun _ => ⟨0, 0⟩ }

/-- `buxn_dbg_request_pause`, `core.c:52-55`. -/
def requestPause (d : Dbg) : Dbg := { d with standing := .pause }

/-- `buxn_dbg_should_hook`, `core.c:65-69`. -/
def shouldHook (d : Dbg) : Bool := decide (d.standing ≠ .execute) || decide (d.nbrkps ≠ 0)

/-- `dbg->brkps[i]`. -/
def brkpAt (d : Dbg) (i : Nat) : Res Brkp := if i < 255 then .ok (d.brkps i) else .error .oob

/-- Commands that keep the program paused, `core.h:33-45`, `core.h:64-113`. -/
inductive Query where
  | infoPc | infoWst | infoRst | infoNbrkps
  | brkpGet (id : Byte)
  | brkpSet (id : Byte) (b : Brkp)
  | devRead (addr size : Byte)
  | devWrite (addr size : Byte) (values : Nat → Byte)
  | memRead (addr size : Short)
  | memWrite (addr size : Short) (values : Nat → Byte)
  /-- a command whose number (or, for command 0, whose info number) is not in the enumerations -/
  | nop (type info : Byte)

/-- Commands that let the program go on. -/
inductive Go where
  | resume | stepIn | stepOver | stepOut
  deriving DecidableEq, Repr

/-- What a command gives back through its pointers. -/
inductive Reply where
  | pc (v : Short)
  | stack (pointer : Byte) (data : Byte → Byte)
  | nbrkps (n : Byte)
  /-- `none`: the buffer was left as it was -/
  | brkp (b : Option Brkp)
  | bytes (vs : List Byte)
  | done

/-- What the other end does during one pause, ending in a command that lets the program go on. -/
inductive Script (ω : Type) where
  | go (g : Go) (w : ω)
  | ask (q : Query) (k : Reply → Script ω)

/-- The host program's part, `core.h:134-149`, with its state `ω`. -/
structure Wire (ω : Type) where
  beginExec : Short → ω → ω
  beginBreak : Byte → ω → ω
  commands : ω → Script ω
  endBreak : ω → ω
  endExec : ω → ω

/-- Calls to the host program. -/
inductive Ev where
  | beginExec (pc : Short)
  | beginBreak (id : Byte)
  | command (q : Query)
  | go (g : Go)
  | endBreak
  | endExec

/-- Debugger, the other end, and the log of calls. -/
structure D (ω : Type) where
  dbg : Dbg
  wire : ω
  log : List Ev

/-- `buxn_dbg_opcode_class_t`, `core.c:17-23`. -/
inductive OpClass where
  | other | memLoad | memStore | devLoad | devStore
  deriving DecidableEq, Repr

/-- `stack` and `sp` in `core.c:96-98`. -/
def selStack (ret : Bool) (vm : VM) : Byte → Byte := if ret then vm.rs else vm.ws
def selSp (ret : Bool) (vm : VM) : Byte := if ret then vm.rsp else vm.wsp

/-- The decoding of the instruction at `pc`, `core.c:93-136`: class, `target_addr1`, `target_addr2`. -/
def decode (opcode : Byte) (pc : Short) (vm : VM) : OpClass × Short × Short :=
  let base := opcode &&& 0x1f
  let ret := decide (opcode &&& 0x40 ≠ 0)
  let stack := selStack ret vm
  let sp := selSp ret vm
  let top : Short := (stack (sp - 1)).setWidth 16
  let rel : Short := pc + 1 + (stack (sp - 1)).signExtend 16
  let abs : Short := ((stack (sp - 2)).setWidth 16 <<< 8) ||| top
  let (cls, t1) : OpClass × Short :=
    if base = 0x16 then (.devLoad, top)
    else if base = 0x17 then (.devStore, top)
    else if base = 0x10 then (.memLoad, top)
    else if base = 0x11 then (.memStore, top)
    else if base = 0x12 then (.memLoad, rel)
    else if base = 0x13 then (.memStore, rel)
    else if base = 0x14 then (.memLoad, abs)
    else if base = 0x15 then (.memStore, abs)
    else (.other, 0)
  let short := decide (opcode &&& 0x20 ≠ 0)
  (cls, t1, t1 + (if short then 1 else 0))

/-- The test of one breakpoint, `core.c:139-197`; `(cls, t1, t2)` is the decoded instruction. -/
def brkpMatches (b : Brkp) (justStarted : Bool) (cls : OpClass) (t1 t2 pc : Short) (vm : VM) : Bool :=
  if b.mask = 0 then false
  else if b.mask &&& TYPE_MASK = DEV then
    (decide (b.mask &&& EXEC ≠ 0) && justStarted && decide (vm.devLoad2 (b.addr.setWidth 8) = pc))
    || (decide (b.mask &&& LOAD ≠ 0) && decide (cls = .devLoad) && (decide (t1 = b.addr) || decide (t2 = b.addr)))
    || (decide (b.mask &&& STORE ≠ 0) && decide (cls = .devStore) && (decide (t1 = b.addr) || decide (t2 = b.addr)))
  else
    (decide (b.mask &&& EXEC ≠ 0) && decide (b.addr = pc))
    || (decide (b.mask &&& LOAD ≠ 0) && decide (cls = .memLoad) && (decide (t1 = b.addr) || decide (t2 = b.addr)))
    || (decide (b.mask &&& STORE ≠ 0) && decide (cls = .memStore) && (decide (t1 = b.addr) || decide (t2 = b.addr)))

/-- The loop over the breakpoints, `core.c:138-198`, from index `i` with `left` still to go. -/
def scan (d : Dbg) (p : Brkp → Bool) : Nat → Nat → Res Byte
  | _, 0 => .ok NONE
  | i, left + 1 => do
    let b ← brkpAt d i
    if p b then .ok (BitVec.ofNat 8 i) else scan d p (i + 1) left

/-- `core.c:84-199`: which breakpoint is hit. -/
def hitBrkp (d : Dbg) (justStarted : Bool) (pc : Short) (vm : VM) : Res Byte :=
  if d.brkpMask ≠ 0 then do
    let (cls, t1, t2) ←
      if d.brkpMask &&& (LOAD ||| STORE) ≠ 0 then do
        let opcode ← vm.rd pc.toNat
        pure (decode opcode pc vm)
      else pure (OpClass.other, (0 : Short), (0 : Short))
    scan d (fun b => brkpMatches b justStarted cls t1 t2 pc vm) 0 d.nbrkps.toNat
  else .ok NONE

/-- `core.c:275-281`: `for (i = nbrkps - 1; i >= 0; --i) if (brkps[i].mask != 0) break;`, result `i + 1`. -/
def shrink (brkps : Nat → Brkp) : Nat → Nat
  | 0 => 0
  | i + 1 => if (brkps i).mask ≠ 0 then i + 1 else shrink brkps i

/-- `core.c:288-291`. -/
def orMasks (brkps : Nat → Brkp) : Nat → Byte
  | 0 => 0
  | i + 1 => orMasks brkps i ||| (brkps i).mask

/-- `BUXN_DBG_CMD_BRKP_SET`, `core.c:268-294`. -/
def brkpSet (d : Dbg) (id : Byte) (b : Brkp) : Dbg :=
  if id ≠ NONE then
    let brkps := upd d.brkps id.toNat b
    let n : Byte :=
      if b.mask = 0 then BitVec.ofNat 8 (shrink brkps d.nbrkps.toNat)
      else if d.nbrkps.toNat ≤ id.toNat then id + 1 else d.nbrkps
    { d with brkps := brkps, nbrkps := n, brkpMask := orMasks brkps n.toNat }
  else d

section
variable {σ : Type}

/-- `BUXN_DBG_CMD_DEV_READ`, `core.c:296-300`. -/
def devRead (H : Host σ) (addr : Byte) : Nat → Nat → VM → σ → Res (List Byte × VM × σ)
  | _, 0, vm, h => .ok ([], vm, h)
  | i, left + 1, vm, h => do
    let (v, vm, h) ← H.dei (addr + BitVec.ofNat 8 i) vm h
    let (vs, vm, h) ← devRead H addr (i + 1) left vm h
    pure (v :: vs, vm, h)

/-- `BUXN_DBG_CMD_DEV_WRITE`, `core.c:302-307`. -/
def devWrite (H : Host σ) (addr : Byte) (values : Nat → Byte) : Nat → Nat → VM → σ → Res (VM × σ)
  | _, 0, vm, h => .ok (vm, h)
  | i, left + 1, vm, h => do
    let a := addr + BitVec.ofNat 8 i
    let (vm, h) ← H.deo a { vm with device := upd vm.device a (values i) } h
    devWrite H addr values (i + 1) left vm h

/-- `BUXN_DBG_CMD_MEM_READ`, `core.c:309-313`. -/
def memRead (vm : VM) (addr : Short) : Nat → Nat → Res (List Byte)
  | _, 0 => .ok []
  | i, left + 1 => do
    let v ← vm.rd (addr + BitVec.ofNat 16 i).toNat
    let vs ← memRead vm addr (i + 1) left
    pure (v :: vs)

/-- `BUXN_DBG_CMD_MEM_WRITE`, `core.c:315-319`. -/
def memWrite (addr : Short) (values : Nat → Byte) : Nat → Nat → VM → Res VM
  | _, 0, vm => .ok vm
  | i, left + 1, vm => do
    let vm ← vm.wr (addr + BitVec.ofNat 16 i).toNat (values i)
    memWrite addr values (i + 1) left vm

/-- The commands that keep the program paused, `core.c:222-240`, `core.c:262-320`. -/
def answer (H : Host σ) (pc : Short) : Query → VM → σ → Dbg → Res (Reply × VM × σ × Dbg)
  | .infoPc, vm, h, d => .ok (.pc pc, vm, h, d)
  | .infoWst, vm, h, d => .ok (.stack vm.wsp vm.ws, vm, h, d)
  | .infoRst, vm, h, d => .ok (.stack vm.rsp vm.rs, vm, h, d)
  | .infoNbrkps, vm, h, d => .ok (.nbrkps d.nbrkps, vm, h, d)
  | .brkpGet id, vm, h, d =>
    if id ≠ NONE then do
      let b ← brkpAt d id.toNat
      pure (.brkp (some b), vm, h, d)
    else .ok (.brkp none, vm, h, d)
  | .brkpSet id b, vm, h, d => .ok (.done, vm, h, brkpSet d id b)
  | .devRead a n, vm, h, d => do
    let (vs, vm, h) ← devRead H a 0 n.toNat vm h
    pure (.bytes vs, vm, h, d)
  | .devWrite a n vs, vm, h, d => do
    let (vm, h) ← devWrite H a vs 0 n.toNat vm h
    pure (.done, vm, h, d)
  | .memRead a n, vm, h, d => do
    let vs ← memRead vm a 0 n.toNat
    pure (.bytes vs, vm, h, d)
  | .memWrite a n vs, vm, h, d => do
    let vm ← memWrite a vs 0 n.toNat vm
    pure (.done, vm, h, d)
  -- no case of the `switch` applies
  | .nop _ _, vm, h, d => .ok (.done, vm, h, d)

/-- The commands that let the program go on, `core.c:241-261`. -/
def goOn (g : Go) (vm : VM) (d : Dbg) : Dbg :=
  match g with
  | .resume => { d with standing := .execute }
  | .stepIn => { d with standing := .pause }
  | .stepOver => { d with standing := .stepOver, rsp := vm.rsp }
  | .stepOut =>
    if 0 < vm.rsp.toNat then { d with standing := .stepOut, rsp := vm.rsp }
    else { d with standing := .execute }

variable {ω : Type}

/-- `while (should_pause) { buxn_dbg_next_command(...); ... }`, `core.c:218-322`. -/
def commandLoop (H : Host σ) (pc : Short) : Script ω → VM → σ → Dbg → List Ev → Res (VM × σ × D ω)
  | .go g w, vm, h, d, log => .ok (vm, h, ⟨goOn g vm d, w, log ++ [.go g]⟩)
  | .ask q k, vm, h, d, log =>
    match answer H pc q vm h d with
    | .error e => .error e
    | .ok (r, vm, h, d) => commandLoop H pc (k r) vm h d (log ++ [.command q])

/-- `core.c:201-215`: does the program pause here? -/
def shouldPause (d : Dbg) (hit : Byte) (vm : VM) : Res Bool := do
  let p ←
    if hit ≠ NONE then do
      let b ← brkpAt d hit.toNat
      pure (decide (b.mask &&& PAUSE ≠ 0))
    else pure false
  pure (p || match d.standing with
    | .execute => false
    | .pause => true
    | .stepOut => decide (vm.rsp.toNat < d.rsp.toNat)
    | .stepOver => decide (vm.rsp = d.rsp))

/-- `core.c:217-325`: the break. -/
def breakHere (H : Host σ) (W : Wire ω) (pc : Short) (hit : Byte) (pause : Bool) (vm : VM) (h : σ) (d : D ω) :
    Res (VM × σ × D ω) :=
  if pause ∨ hit ≠ NONE then do
    let w := W.beginBreak hit d.wire
    let log := d.log ++ [.beginBreak hit]
    let (vm, h, d) ←
      if pause then commandLoop H pc (W.commands w) vm h d.dbg log
      else .ok (vm, h, ⟨d.dbg, w, log⟩)
    pure (vm, h, { d with wire := W.endBreak d.wire, log := d.log ++ [.endBreak] })
  else .ok (vm, h, d)

/-- `core.c:76-81`. -/
def startExec (W : Wire ω) (pc : Short) (d : D ω) : Bool × D ω :=
  if d.dbg.executing then (false, d)
  else (true, ⟨{ d.dbg with executing := true }, W.beginExec pc d.wire, d.log ++ [.beginExec pc]⟩)

/-- `core.c:328-331`. -/
def finishExec (W : Wire ω) (pc : Short) (vm : VM) (h : σ) (d : D ω) : Res (VM × σ × D ω) := do
  let opcode ← vm.rd pc.toNat
  if opcode = 0 then
    pure (vm, h, ⟨{ d.dbg with executing := false }, W.endExec d.wire, d.log ++ [.endExec]⟩)
  else pure (vm, h, d)

/-- `buxn_dbg_hook`, `core.c:71-332`. -/
def hook (H : Host σ) (W : Wire ω) : Hook (σ × D ω) := fun pc vm (h, d) => do
  let (justStarted, d) := startExec W pc d
  let hit ← hitBrkp d.dbg justStarted pc vm
  let pause ← shouldPause d.dbg hit vm
  let (vm, h, d) ← breakHere H W pc hit pause vm h d
  let (vm, h, d) ← finishExec W pc vm h d
  pure (vm, h, d)

/-- `buxn_dbg_exec`, `core.h:120-130`, for at most `n` instructions; the VM had no hook of its own. The devices do not
look at the debugger. -/
def exec (cfg : Cfg) (H : Host σ) (W : Wire ω) (k0 : Byte × Byte) (n : Nat) (vm : VM) (h : σ) (d : D ω) (vector : Short) :
    Outcome (σ × D ω) :=
  if shouldHook d.dbg then execute cfg (Spec.withNotes (D ω) H) (some (hook H W)) k0 n vm (h, d) vector
  else execute cfg (Spec.withNotes (D ω) H) none k0 n vm (h, d) vector

end

end Buxn.Dbg
