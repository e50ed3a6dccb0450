import Verif.Basic
/-!
# Model of the interpreter

Models `/repo/include/buxn/vm/vm.h`, `/repo/include/buxn/vm/opcodes.h`, `/repo/src/vm/vm.c`
and `/repo/src/vm/exec.h`, function by function (macro by macro).

Simplifications:
* `config.userdata` is the host state `σ`; the callbacks `buxn_vm_dei`/`buxn_vm_deo`
  (`vm.h:124-130`, "must be provided by the host program") are parameters that receive the whole VM and
  may change all of it, or be undefined.
* `memory[]` is a function from indices together with `memSize`; every access made by the interpreter is
  checked against `memSize` and an access outside is the outcome `UB.oob`.
* The stacks and the device page are functions from 8-bit indices: in the C code each index expression into
  them has type `uint8_t` or is masked by `0xff`, so the check is by type.
* Two places where the C standard leaves freedom are parameters (`Cfg`): signed overflow in the
  multiplication of two promoted `uint16_t`, and the evaluation order of the two calls in `DEI2`.
* `restrict` is ignored.
-/

namespace Buxn.VM

/-- `buxn_vm_t`, `vm.h:58-68`. `config.hook` and `config.userdata` are separate parameters of the model. -/
structure VM where
  memSize : Nat
  wsp : Byte
  rsp : Byte
  ws : Byte → Byte
  rs : Byte → Byte
  device : Byte → Byte
  memory : Nat → Byte

/-- The callbacks `buxn_vm_dei`, `buxn_vm_deo`, `vm.h:124-130`. -/
structure Host (σ : Type) where
  dei : Byte → VM → σ → Res (Byte × VM × σ)
  deo : Byte → VM → σ → Res (VM × σ)

/-- What the C standard leaves open. `wrapv`: signed overflow wraps (as with `-fwrapv`) instead of being
undefined. `hiFirst`: which operand of `|` in `BUXN_UOP_DEV_IN2` (`exec.h:161-163`) is evaluated first. -/
structure Cfg where
  wrapv : Bool
  hiFirst : Bool

/-- Local variables of `BUXN_VM_EXECUTE` (`exec.h:429-439`) and the objects it works on. -/
structure Cpu (σ : Type) where
  vm : VM
  host : σ
  wsp : Byte
  rsp : Byte
  kwsp : Byte
  krsp : Byte
  pc : Short

/-- Interpreter code: state passing with undefined behaviour. -/
abbrev M (σ α : Type) := StateT (Cpu σ) (Except UB) α

variable {σ : Type}

/-- `BUXN_LOAD_STATE`, `exec.h:5-9`. -/
def loadState : M σ Unit := modify fun c => { c with wsp := c.vm.wsp, rsp := c.vm.rsp }

/-- `BUXN_SAVE_STATE`, `exec.h:11-15`. -/
def saveState : M σ Unit := modify fun c => { c with vm := { c.vm with wsp := c.wsp, rsp := c.rsp } }

/-- `mem[i]` as an rvalue; `i` is the value of the index expression. -/
def memRead (i : Nat) : M σ Byte := fun c =>
  if i < c.vm.memSize then .ok (c.vm.memory i, c) else .error .oob

/-- `mem[i] = v`. -/
def memWrite (i : Nat) (v : Byte) : M σ Unit := fun c =>
  if i < c.vm.memSize then .ok ((), { c with vm := { c.vm with memory := upd c.vm.memory i v } })
  else .error .oob

/-- The pointer a POP decrements: `BUXN_POLY_POP` (`exec.h:77-91`) picks `wsp`, `rsp`, `kwsp` or `krsp`. -/
def popPtr (k r : Bool) (c : Cpu σ) : Byte :=
  match k, r with
  | false, false => c.wsp
  | false, true => c.rsp
  | true, false => c.kwsp
  | true, true => c.krsp

def setPopPtr (k r : Bool) (p : Byte) (c : Cpu σ) : Cpu σ :=
  match k, r with
  | false, false => { c with wsp := p }
  | false, true => { c with rsp := p }
  | true, false => { c with kwsp := p }
  | true, true => { c with krsp := p }

/-- The stack array a micro-op works on: `ws` or `rs`. -/
def stackOf (r : Bool) (c : Cpu σ) : Byte → Byte := if r then c.vm.rs else c.vm.ws

def setStack (r : Bool) (f : Byte → Byte) (c : Cpu σ) : Cpu σ :=
  if r then { c with vm := { c.vm with rs := f } } else { c with vm := { c.vm with ws := f } }

/-- `BUXN_UOP_POP1X`, `exec.h:92`, assigned to a `uint16_t` temporary. -/
def pop1 (k r : Bool) : M σ Short := fun c =>
  let p := popPtr k r c - 1
  .ok ((stackOf r c p).setWidth 16, setPopPtr k r p c)

/-- `BUXN_UOP_POP2X`, `exec.h:93-94`. -/
def pop2 (k r : Bool) : M σ Short := fun c =>
  let p := popPtr k r c - 2
  .ok (((stackOf r c p).setWidth 16 <<< 8) ||| (stackOf r c (p + 1)).setWidth 16, setPopPtr k r p c)

/-- `BUXN_POLY_POP`, `exec.h:77-83`. -/
def pop (k r s : Bool) : M σ Short := if s then pop2 k r else pop1 k r

/-- `BUXN_UOP_PUSH1X`, `exec.h:107` (the value is masked to its low byte). -/
def push1 (r : Bool) (v : Short) : M σ Unit := fun c =>
  let p := if r then c.rsp else c.wsp
  let c := setStack r (upd (stackOf r c) p (v.setWidth 8)) c
  .ok ((), if r then { c with rsp := p + 1 } else { c with wsp := p + 1 })

/-- `BUXN_UOP_PUSH2X`, `exec.h:108-113`. -/
def push2 (r : Bool) (v : Short) : M σ Unit := fun c =>
  let p := if r then c.rsp else c.wsp
  let c := setStack r (upd (upd (stackOf r c) p ((v >>> 8).setWidth 8)) (p + 1) (v.setWidth 8)) c
  .ok ((), if r then { c with rsp := p + 2 } else { c with wsp := p + 2 })

/-- `BUXN_POLY_PUSH`, `exec.h:97-106`. -/
def push (r s : Bool) (v : Short) : M σ Unit := if s then push2 r v else push1 r v

/-- `BUXN_PC_REL`, `exec.h:125`: `pc` plus the low byte of the offset as a signed byte, truncated. -/
def pcRel (pc : Short) (offset : Short) : Short := pc + (offset.setWidth 8).signExtend 16

/-- `BUXN_POLY_JMP`, `exec.h:122-124`. -/
def jmp (s : Bool) (a : Short) : M σ Unit :=
  modify fun c => { c with pc := if s then a else pcRel c.pc a }

/-- `BUXN_UOP_LOAD1_GEN`, `exec.h:146`. `addr` is an `int` expression that never is negative. -/
def load1 (addr mask : Nat) : M σ Byte := memRead (addr &&& mask)

/-- `BUXN_POLY_LOAD`, `BUXN_POLY_LOADZ`, `BUXN_UOP_LOAD2_GEN`, `exec.h:128-149`. -/
def load (mask : Nat) (s : Bool) (addr : Short) : M σ Short :=
  if s then do
    let h ← load1 addr.toNat mask
    let l ← load1 (addr.toNat + 1) mask
    return (h.setWidth 16 <<< 8) ||| l.setWidth 16
  else do
    let v ← load1 addr.toNat mask
    return v.setWidth 16

/-- `BUXN_POLY_STORE`, `BUXN_POLY_STOREZ`, `BUXN_UOP_STORE*_GEN`, `exec.h:132-156`. -/
def store (mask : Nat) (s : Bool) (addr v : Short) : M σ Unit :=
  if s then do
    memWrite (addr.toNat &&& mask) ((v >>> 8).setWidth 8)
    memWrite ((addr.toNat + 1) &&& mask) (v.setWidth 8)
  else memWrite (addr.toNat &&& mask) (v.setWidth 8)

/-- A call of `buxn_vm_dei`, `exec.h:160`. -/
def callDei (H : Host σ) (a : Byte) : M σ Byte := fun c =>
  match H.dei a c.vm c.host with
  | .ok (v, vm, h) => .ok (v, { c with vm := vm, host := h })
  | .error e => .error e

/-- A call of `buxn_vm_deo`, `exec.h:169`, `exec.h:175-176`. -/
def callDeo (H : Host σ) (a : Byte) : M σ Unit := fun c =>
  match H.deo a c.vm c.host with
  | .ok (vm, h) => .ok ((), { c with vm := vm, host := h })
  | .error e => .error e

/-- `BUXN_POLY_DEV_IN`, `exec.h:159-163`. -/
def devIn (cfg : Cfg) (H : Host σ) (s : Bool) (a : Short) : M σ Short :=
  if s then
    if cfg.hiFirst then do
      let h ← callDei H (a.setWidth 8)
      let l ← callDei H ((a + 1).setWidth 8)
      return (h.setWidth 16 <<< 8) ||| l.setWidth 16
    else do
      let l ← callDei H ((a + 1).setWidth 8)
      let h ← callDei H (a.setWidth 8)
      return (h.setWidth 16 <<< 8) ||| l.setWidth 16
  else do
    let v ← callDei H (a.setWidth 8)
    return v.setWidth 16

/-- `dev[i] = v`, `exec.h:168`, `exec.h:173-174`. -/
def devWrite (i v : Byte) : M σ Unit :=
  modify fun c => { c with vm := { c.vm with device := upd c.vm.device i v } }

/-- `BUXN_POLY_DEV_OUT`, `exec.h:165-177`. -/
def devOut (H : Host σ) (s : Bool) (a v : Short) : M σ Unit :=
  if s then do
    devWrite (a.setWidth 8) ((v >>> 8).setWidth 8)
    devWrite ((a + 1).setWidth 8) (v.setWidth 8)
    callDeo H (a.setWidth 8)
    callDeo H ((a + 1).setWidth 8)
  else do
    devWrite (a.setWidth 8) (v.setWidth 8)
    callDeo H (a.setWidth 8)

/-- The polymorphic opcodes, in the order of `opcodes.h:7-37`. -/
inductive Op where
  | INC | POP | NIP | SWP | ROT | DUP | OVR | EQU | NEQ | GTH | LTH | JMP | JCN | JSR | STH
  | LDZ | STZ | LDR | STR | LDA | STA | DEI | DEO | ADD | SUB | MUL | DIV | AND | ORA | EOR | SFT
  deriving DecidableEq, Repr

/-- The labels that a byte can be dispatched to. -/
inductive Instr where
  | BRK | JCI | JMI | JSI
  | LIT (r s : Bool)
  | poly (op : Op) (k r s : Bool)
  deriving DecidableEq, Repr

/-- `BUXN_OPCODE_VALUE`, `opcodes.h:75-79`. -/
def opcodeValue (base : Nat) (k r s : Bool) : Nat :=
  base ||| (if k then 0x80 else 0) ||| (if r then 0x40 else 0) ||| (if s then 0x20 else 0)

/-- `BUXN_OPCODE_DISPATCH_POLY`, `opcodes.h:47-55`. -/
def dispatchPoly (op : Op) (base : Nat) : List (Instr × Nat) :=
  [ (.poly op false false false, opcodeValue base false false false)
  , (.poly op false false true,  opcodeValue base false false true)
  , (.poly op false true  false, opcodeValue base false true  false)
  , (.poly op false true  true,  opcodeValue base false true  true)
  , (.poly op true  false false, opcodeValue base true  false false)
  , (.poly op true  false true,  opcodeValue base true  false true)
  , (.poly op true  true  false, opcodeValue base true  true  false)
  , (.poly op true  true  true,  opcodeValue base true  true  true) ]

/-- `BUXN_OPCODE_DISPATCH`, `opcodes.h:5-41`, with `BUXN_OPCODE_DISPATCH_KEEP` (`opcodes.h:57-65`) for `LIT`. -/
def dispatchTable : List (Instr × Nat) :=
  [(.BRK, 0x00)] ++
  dispatchPoly .INC 0x01 ++ dispatchPoly .POP 0x02 ++ dispatchPoly .NIP 0x03 ++ dispatchPoly .SWP 0x04 ++
  dispatchPoly .ROT 0x05 ++ dispatchPoly .DUP 0x06 ++ dispatchPoly .OVR 0x07 ++ dispatchPoly .EQU 0x08 ++
  dispatchPoly .NEQ 0x09 ++ dispatchPoly .GTH 0x0a ++ dispatchPoly .LTH 0x0b ++ dispatchPoly .JMP 0x0c ++
  dispatchPoly .JCN 0x0d ++ dispatchPoly .JSR 0x0e ++ dispatchPoly .STH 0x0f ++ dispatchPoly .LDZ 0x10 ++
  dispatchPoly .STZ 0x11 ++ dispatchPoly .LDR 0x12 ++ dispatchPoly .STR 0x13 ++ dispatchPoly .LDA 0x14 ++
  dispatchPoly .STA 0x15 ++ dispatchPoly .DEI 0x16 ++ dispatchPoly .DEO 0x17 ++ dispatchPoly .ADD 0x18 ++
  dispatchPoly .SUB 0x19 ++ dispatchPoly .MUL 0x1a ++ dispatchPoly .DIV 0x1b ++ dispatchPoly .AND 0x1c ++
  dispatchPoly .ORA 0x1d ++ dispatchPoly .EOR 0x1e ++ dispatchPoly .SFT 0x1f ++
  [ (.JCI, 0x20), (.JMI, 0x40), (.JSI, 0x60)
  , (.LIT false false, opcodeValue 0x80 true false false)
  , (.LIT false true,  opcodeValue 0x80 true false true)
  , (.LIT true  false, opcodeValue 0x80 true true  false)
  , (.LIT true  true,  opcodeValue 0x80 true true  true) ]

/-- `dispatch_table[opcode]`, `exec.h:25-39`. -/
def dispatch (opcode : Byte) : Option Instr :=
  (dispatchTable.find? fun e => e.2 == opcode.toNat).map (·.1)

/-- `BUXN_POLY_CMP_OP`, `exec.h:260-266`. -/
def cmpOp (f : Short → Short → Bool) (k r s : Bool) : M σ Unit := do
  let b ← pop k r s
  let a ← pop k r s
  push r false (if f a b then 1 else 0)

/-- `BUXN_POLY_BIN_OP`, `exec.h:396-402`. -/
def binOp (f : Short → Short → M σ Short) (k r s : Bool) : M σ Unit := do
  let b ← pop k r s
  let a ← pop k r s
  let c ← f a b
  push r s c

/-- `a * b` for `uint16_t` operands: both are promoted to `int`, `exec.h:374`. -/
def mulInt (cfg : Cfg) (a b : Short) : M σ Short := fun c =>
  if cfg.wrapv || a.toNat * b.toNat < 2 ^ 31 then .ok (a * b, c) else .error .signedOverflow

/-- The bodies of the polymorphic opcodes, `exec.h:181-402`. -/
def opBody (cfg : Cfg) (H : Host σ) (op : Op) (k r s : Bool) : M σ Unit :=
  match op with
  | .INC => do                                            -- exec.h:181-188
      let a ← pop k r s
      push r s (a + 1)
  | .POP => do                                            -- exec.h:190-195
      let _ ← pop k r s
  | .NIP => do                                            -- exec.h:197-204
      let b ← pop k r s
      let _ ← pop k r s
      push r s b
  | .SWP => do                                            -- exec.h:206-214
      let b ← pop k r s
      let a ← pop k r s
      push r s b
      push r s a
  | .ROT => do                                            -- exec.h:216-226
      let c ← pop k r s
      let b ← pop k r s
      let a ← pop k r s
      push r s b
      push r s c
      push r s a
  | .DUP => do                                            -- exec.h:228-235
      let a ← pop k r s
      push r s a
      push r s a
  | .OVR => do                                            -- exec.h:237-246
      let b ← pop k r s
      let a ← pop k r s
      push r s a
      push r s b
      push r s a
  | .EQU => cmpOp (fun a b => a == b) k r s               -- exec.h:249
  | .NEQ => cmpOp (fun a b => a != b) k r s               -- exec.h:252
  | .GTH => cmpOp (fun a b => decide (b.toNat < a.toNat)) k r s  -- exec.h:255
  | .LTH => cmpOp (fun a b => decide (a.toNat < b.toNat)) k r s  -- exec.h:258
  | .JMP => do                                            -- exec.h:268-273
      let a ← pop k r s
      jmp s a
  | .JCN => do                                            -- exec.h:275-283
      let b ← pop k r s
      let a ← pop k r false
      if a ≠ 0 then jmp s b
  | .JSR => do                                            -- exec.h:285-291
      push (!r) true (← get).pc
      let a ← pop k r s
      jmp s a
  | .STH => do                                            -- exec.h:293-298
      let a ← pop k r s
      push (!r) s a
  | .LDZ => do                                            -- exec.h:303-309
      let a ← pop k r false
      let b ← load 0xff s a
      push r s b
  | .STZ => do                                            -- exec.h:311-317
      let a ← pop k r false
      let b ← pop k r s
      store 0xff s a b
  | .LDR => do                                            -- exec.h:319-325
      let a ← pop k r false
      let b ← load 0xffff s (pcRel (← get).pc a)
      push r s b
  | .STR => do                                            -- exec.h:327-333
      let a ← pop k r false
      let b ← pop k r s
      store 0xffff s (pcRel (← get).pc a) b
  | .LDA => do                                            -- exec.h:335-341
      let a ← pop k r true
      let b ← load 0xffff s a
      push r s b
  | .STA => do                                            -- exec.h:343-349
      let a ← pop k r true
      let b ← pop k r s
      store 0xffff s a b
  | .DEI => do                                            -- exec.h:351-359
      let a ← pop k r false
      saveState
      let b ← devIn cfg H s a
      loadState
      push r s b
  | .DEO => do                                            -- exec.h:361-369
      let a ← pop k r false
      let b ← pop k r s
      saveState
      devOut H s a b
      loadState
  | .ADD => binOp (fun a b => pure (a + b)) k r s         -- exec.h:372
  | .SUB => binOp (fun a b => pure (a - b)) k r s
  | .MUL => binOp (mulInt cfg) k r s
  | .DIV => binOp (fun a b => pure (if b ≠ 0 then a / b else 0)) k r s  -- exec.h:378-385
  | .AND => binOp (fun a b => pure (a &&& b)) k r s
  | .ORA => binOp (fun a b => pure (a ||| b)) k r s
  | .EOR => binOp (fun a b => pure (a ^^^ b)) k r s
  | .SFT => do                                            -- exec.h:387-394
      let b ← pop k r false
      let a ← pop k r s
      push r s ((a >>> (b &&& 0x0f).toNat) <<< ((b &&& 0xf0) >>> 4).toNat)

/-- `kwsp = wsp;` / `krsp = rsp;` in `BUXN_IMPL_POLY_OPCODE`, `exec.h:64-72`. -/
def keepPrologue (k r : Bool) : M σ Unit :=
  modify fun c => if k then (if r then { c with krsp := c.rsp } else { c with kwsp := c.wsp }) else c

/-- The body reached through the dispatch table, `exec.h:443-516`. `true`: continue, `false`: return. -/
def instrBody (cfg : Cfg) (H : Host σ) : Instr → M σ Bool
  | .BRK => do saveState; return false                    -- exec.h:443
  | .poly op k r s => do                                  -- exec.h:64-72, 444-474
      keepPrologue k r
      opBody cfg H op k r s
      return true
  | .JCI => do                                            -- exec.h:475-484
      let a ← pop1 false false
      if a ≠ 0 then
        let b ← load 0xffff true (← get).pc
        modify fun c => { c with pc := c.pc + (b + 2) }
      else
        modify fun c => { c with pc := c.pc + 2 }
      return true
  | .JMI => do                                            -- exec.h:485-489
      let a ← load 0xffff true (← get).pc
      modify fun c => { c with pc := c.pc + (a + 2) }
      return true
  | .JSI => do                                            -- exec.h:490-496
      push2 true ((← get).pc + 2)
      let a ← load 0xffff true (← get).pc
      modify fun c => { c with pc := c.pc + (a + 2) }
      return true
  | .LIT r s => do                                        -- exec.h:497-516
      let a ← load 0xffff s (← get).pc
      modify fun c => { c with pc := c.pc + (if s then 2 else 1) }
      push r s a
      return true

/-- `uint8_t opcode = mem[pc++]; goto *dispatch_table[opcode];`, `exec.h:36-38`.
A byte without table entry would jump to a null label (there is none, see `dispatch_total`). -/
def step (cfg : Cfg) (H : Host σ) : M σ Bool := do
  let opcode ← memRead (← get).pc.toNat
  modify fun c => { c with pc := c.pc + 1 }
  match dispatch opcode with
  | some i => instrBody cfg H i
  | none => throw .oob

/-- The optional hook of `vm.config.hook`, `vm.h:45-50`: it receives the VM and `pc`. -/
abbrev Hook (σ : Type) := Short → VM → σ → Res (VM × σ)

/-- `BUXN_VM_HOOK()` for `buxn_vm_execute_with_hook`, `vm.c:54`: `BUXN_SAVE_STATE(); hook.fn(vm, pc, ...)`.
The locals `wsp`/`rsp` are not reloaded afterwards. -/
def runHook (hook : Hook σ) : M σ Unit := do
  saveState
  fun c => match hook c.pc c.vm c.host with
    | .ok (vm, h) => .ok ((), { c with vm := vm, host := h })
    | .error e => .error e

/-- One round of `BUXN_NEXT_OPCODE`, `exec.h:34-39`: the hook if there is one, then the instruction. -/
def round (cfg : Cfg) (H : Host σ) (hook : Option (Hook σ)) : M σ Bool := do
  match hook with
  | some h => runHook h
  | none => pure ()
  step cfg H

/-- Outcome of running for a bounded number of rounds. -/
inductive Outcome (σ : Type) where
  | halted (vm : VM) (host : σ)
  | undefined (e : UB)
  | running (c : Cpu σ)

/-- `BUXN_VM_EXECUTE` for at most `n` instructions. -/
def runLoop (cfg : Cfg) (H : Host σ) (hook : Option (Hook σ)) : Nat → Cpu σ → Outcome σ
  | 0, c => .running c
  | n + 1, c =>
    match round cfg H hook c with
    | .error e => .undefined e
    | .ok (false, c') => .halted c'.vm c'.host
    | .ok (true, c') => runLoop cfg H hook n c'

/-- State after `BUXN_LOAD_STATE()` at the entry of `BUXN_VM_EXECUTE`, `exec.h:429-439`.
`kwsp`/`krsp` are uninitialised in C: they are parameters (`k0`). -/
def enter (vm : VM) (host : σ) (pc : Short) (k0 : Byte × Byte) : Cpu σ :=
  { vm := vm, host := host, wsp := vm.wsp, rsp := vm.rsp, kwsp := k0.1, krsp := k0.2, pc := pc }

/-- `buxn_vm_execute`, `vm.c:33-44`, observed for at most `n` instructions. -/
def execute (cfg : Cfg) (H : Host σ) (hook : Option (Hook σ)) (k0 : Byte × Byte) (n : Nat)
    (vm : VM) (host : σ) (pc : Short) : Outcome σ :=
  if pc = 0 then .halted vm host else runLoop cfg H hook n (enter vm host pc k0)

/-- Reset flags, `vm.h:28-31`. -/
def RESET_ZERO_PAGE : Byte := 1 <<< 1
def RESET_HIGH_MEM : Byte := 1 <<< 2
def RESET_DEVICE : Byte := 1 <<< 3
def RESET_STACK : Byte := 1 <<< 4

/-- `memset(memory + start, 0, len)` as a plain function; bounds are checked by `reset`. -/
def zeroRange (m : Nat → Byte) (start len : Nat) : Nat → Byte :=
  fun i => if start ≤ i ∧ i < start + len then 0 else m i

/-- `buxn_vm_reset`, `vm.c:11-31`. `memory_size - 0x100` is unsigned: with a memory smaller than the zero page
the memset would be out of bounds. -/
def reset (vm : VM) (flags : Byte) : Res VM := do
  let vm := if flags &&& RESET_STACK ≠ 0 then
      { vm with wsp := 0, rsp := 0, ws := fun _ => 0, rs := fun _ => 0 } else vm
  let vm := if flags &&& RESET_DEVICE ≠ 0 then { vm with device := fun _ => 0 } else vm
  let vm ← if flags &&& RESET_ZERO_PAGE ≠ 0 then
      if 0x100 ≤ vm.memSize then .ok { vm with memory := zeroRange vm.memory 0 0x100 } else .error .oob
    else .ok vm
  if flags &&& RESET_HIGH_MEM ≠ 0 then
    if 0x100 ≤ vm.memSize then
      .ok { vm with memory := zeroRange vm.memory 0x100 (vm.memSize - 0x100) }
    else .error .oob
  else .ok vm

end Buxn.VM
