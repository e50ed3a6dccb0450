import Verif.VM.Model
/-!
# Specification of the Uxn instruction set

A positional, table driven description, written independently of the interpreter: operands and results are natural
numbers, an instruction reads its operand bytes from below the stack pointer, then moves the pointer, then writes
its result bytes. Only the record types `VM`, `Host`, `Cfg` and the mnemonics `Op` are shared with the model.

Every 16-bit address is a number below 65536, so for a memory of at least 64K nothing here can be out of bounds;
the specification does not mention bounds at all.
-/

namespace Buxn.VM.Spec

variable {σ : Type}

/-- What an observer sees between two instructions. -/
structure Sys (σ : Type) where
  vm : VM
  host : σ
  pc : Nat

/-- The mnemonics of the opcodes `0x01 .. 0x1f`. -/
def mnemonics : List Op :=
  [.INC, .POP, .NIP, .SWP, .ROT, .DUP, .OVR, .EQU, .NEQ, .GTH, .LTH, .JMP, .JCN, .JSR, .STH,
   .LDZ, .STZ, .LDR, .STR, .LDA, .STA, .DEI, .DEO, .ADD, .SUB, .MUL, .DIV, .AND, .ORA, .EOR, .SFT]

/-- Sizes in bytes of the operands, bottom of stack first. `n` is 2 in short mode and 1 otherwise. -/
def operandSizes (n : Nat) : Op → List Nat
  | .INC | .POP | .DUP | .JMP | .JSR | .STH => [n]
  | .NIP | .SWP | .OVR | .EQU | .NEQ | .GTH | .LTH | .ADD | .SUB | .MUL | .DIV | .AND | .ORA | .EOR => [n, n]
  | .ROT => [n, n, n]
  | .JCN => [1, n]
  | .LDZ | .LDR | .DEI => [1]
  | .LDA => [2]
  | .STZ | .STR | .DEO | .SFT => [n, 1]
  | .STA => [n, 2]

/-- What an instruction does with its operands. -/
inductive Action where
  /-- push these values (first one deepest), each of operand size -/
  | push (vs : List Nat)
  /-- push one byte -/
  | pushByte (v : Nat)
  /-- push on the other stack -/
  | stash (v : Nat)
  | jump (target : Nat)
  /-- push the return address (a short) on the other stack and jump -/
  | call (target : Nat)
  /-- load from memory: the second number is the size of the page that addresses wrap in -/
  | load (addr page : Nat)
  | store (addr page : Nat) (v : Nat)
  | deviceIn (port : Nat)
  | deviceOut (port : Nat) (v : Nat)

/-- A byte read as a two's complement number. -/
def signed (b : Nat) : Int := if b < 128 then b else (b : Int) - 256

/-- `pc` displaced by a signed byte, wrapping in 64K. -/
def relative (pc d : Nat) : Nat := ((pc + signed d : Int) % 65536).toNat

/-- A jump operand: absolute when it is a short, otherwise relative to the next instruction. -/
def target (n pc d : Nat) : Nat := if n = 2 then d else relative pc d

/-- The meaning of each operation on operands of `n` bytes; `pc` is the address of the next instruction. -/
def action (n pc : Nat) : Op → List Nat → Action
  | .INC, [a] => .push [(a + 1) % 256 ^ n]
  | .POP, [_] => .push []
  | .NIP, [_, b] => .push [b]
  | .SWP, [a, b] => .push [b, a]
  | .ROT, [a, b, c] => .push [b, c, a]
  | .DUP, [a] => .push [a, a]
  | .OVR, [a, b] => .push [a, b, a]
  | .EQU, [a, b] => .pushByte (if a = b then 1 else 0)
  | .NEQ, [a, b] => .pushByte (if a = b then 0 else 1)
  | .GTH, [a, b] => .pushByte (if a > b then 1 else 0)
  | .LTH, [a, b] => .pushByte (if a < b then 1 else 0)
  | .JMP, [d] => .jump (target n pc d)
  | .JCN, [c, d] => .jump (if c = 0 then pc else target n pc d)
  | .JSR, [d] => .call (target n pc d)
  | .STH, [a] => .stash a
  | .LDZ, [a] => .load a 256
  | .STZ, [v, a] => .store a 256 v
  | .LDR, [d] => .load (relative pc d) 65536
  | .STR, [v, d] => .store (relative pc d) 65536 v
  | .LDA, [a] => .load a 65536
  | .STA, [v, a] => .store a 65536 v
  | .DEI, [p] => .deviceIn p
  | .DEO, [v, p] => .deviceOut p v
  | .ADD, [a, b] => .push [(a + b) % 256 ^ n]
  | .SUB, [a, b] => .push [(256 ^ n + a - b) % 256 ^ n]
  | .MUL, [a, b] => .push [(a * b) % 256 ^ n]
  | .DIV, [a, b] => .push [if b = 0 then 0 else a / b]
  | .AND, [a, b] => .push [a &&& b]
  | .ORA, [a, b] => .push [a ||| b]
  | .EOR, [a, b] => .push [a ^^^ b]
  | .SFT, [a, b] => .push [a / 2 ^ (b % 16) * 2 ^ (b / 16) % 256 ^ n]
  | _, _ => .push []

/-- The big-endian value of `n` stack cells starting at `p`. -/
def valueAt (stk : Byte → Byte) (p : Byte) : Nat → Nat
  | 2 => (stk p).toNat * 256 + (stk (p + 1)).toNat
  | _ => (stk p).toNat

/-- The operands of the given sizes, the first of which starts at cell `p`. -/
def operandsAt (stk : Byte → Byte) (p : Byte) : List Nat → List Nat
  | [] => []
  | n :: ns => valueAt stk p n :: operandsAt stk (p + BitVec.ofNat 8 n) ns

/-- Stack and pointer selection. -/
def stack (r : Bool) (vm : VM) : Byte → Byte := if r then vm.rs else vm.ws
def ptr (r : Bool) (vm : VM) : Byte := if r then vm.rsp else vm.wsp
def setPtr (r : Bool) (p : Byte) (vm : VM) : VM := if r then { vm with rsp := p } else { vm with wsp := p }

/-- Store the low byte of `v` in cell `p`. -/
def poke (r : Bool) (p : Byte) (v : Nat) (vm : VM) : VM :=
  if r then { vm with rs := upd vm.rs p (BitVec.ofNat 8 v) } else { vm with ws := upd vm.ws p (BitVec.ofNat 8 v) }

/-- Write an `n`-byte value at the stack pointer, most significant byte first, and advance the pointer. -/
def pushValue (r : Bool) (n : Nat) (v : Nat) (vm : VM) : VM :=
  match n with
  | 2 => setPtr r (ptr r vm + 2) (poke r (ptr r vm + 1) v (poke r (ptr r vm) (v / 256) vm))
  | _ => setPtr r (ptr r vm + 1) (poke r (ptr r vm) v vm)

def pushAll (r : Bool) (n : Nat) (vs : List Nat) (vm : VM) : VM := vs.foldl (fun vm v => pushValue r n v vm) vm

/-- An `n`-byte big-endian value in memory, addresses wrapping in a page. -/
def peekMem (vm : VM) (addr page n : Nat) : Nat :=
  if n = 2 then (vm.memory (addr % page)).toNat * 256 + (vm.memory ((addr + 1) % page)).toNat
  else (vm.memory (addr % page)).toNat

def pokeMem (vm : VM) (addr page n v : Nat) : VM :=
  if n = 2 then
    { vm with memory := upd (upd vm.memory (addr % page) (BitVec.ofNat 8 (v / 256)))
                          ((addr + 1) % page) (BitVec.ofNat 8 v) }
  else { vm with memory := upd vm.memory (addr % page) (BitVec.ofNat 8 v) }

/-- Reading a device port: one `dei` call per byte. Which byte of a short is asked for first is left open by the
code (`cfg.hiFirst`). -/
def deviceIn (cfg : Cfg) (H : Host σ) (n port : Nat) (vm : VM) (h : σ) : Res (Nat × VM × σ) :=
  let p := BitVec.ofNat 8 port
  let q := BitVec.ofNat 8 (port + 1)
  if n = 2 then
    if cfg.hiFirst then do
      let (x, vm, h) ← H.dei p vm h
      let (y, vm, h) ← H.dei q vm h
      pure (x.toNat * 256 + y.toNat, vm, h)
    else do
      let (y, vm, h) ← H.dei q vm h
      let (x, vm, h) ← H.dei p vm h
      pure (x.toNat * 256 + y.toNat, vm, h)
  else do
    let (x, vm, h) ← H.dei p vm h
    pure (x.toNat, vm, h)

/-- Writing a device port: the bytes are in the device page before the first `deo` call. -/
def deviceOut (H : Host σ) (n port v : Nat) (vm : VM) (h : σ) : Res (VM × σ) :=
  let p := BitVec.ofNat 8 port
  let q := BitVec.ofNat 8 (port + 1)
  if n = 2 then do
    let vm := { vm with device := upd (upd vm.device p (BitVec.ofNat 8 (v / 256))) q (BitVec.ofNat 8 v) }
    let (vm, h) ← H.deo p vm h
    H.deo q vm h
  else
    H.deo p { vm with device := upd vm.device p (BitVec.ofNat 8 v) } h

/-- Carry out an action. `r` selects the operand stack, `n` is the operand size, `pc` the next instruction. -/
def perform (cfg : Cfg) (H : Host σ) (r : Bool) (n pc : Nat) (vm : VM) (h : σ) : Action → Res (Sys σ)
  | .push vs => .ok { vm := pushAll r n vs vm, host := h, pc := pc }
  | .pushByte v => .ok { vm := pushValue r 1 v vm, host := h, pc := pc }
  | .stash v => .ok { vm := pushValue (!r) n v vm, host := h, pc := pc }
  | .jump t => .ok { vm := vm, host := h, pc := t }
  | .call t => .ok { vm := pushValue (!r) 2 pc vm, host := h, pc := t }
  | .load a page => .ok { vm := pushValue r n (peekMem vm a page n) vm, host := h, pc := pc }
  | .store a page v => .ok { vm := pokeMem vm a page n v, host := h, pc := pc }
  | .deviceIn p => do
      let (v, vm, h) ← deviceIn cfg H n p vm h
      pure { vm := pushValue r n v vm, host := h, pc := pc }
  | .deviceOut p v => do
      let (vm, h) ← deviceOut H n p v vm h
      pure { vm := vm, host := h, pc := pc }

/-- One operation in the modes short/return/keep. -/
def operation (cfg : Cfg) (H : Host σ) (op : Op) (short ret keep : Bool) (pc : Nat) (vm : VM) (h : σ) :
    Res (Sys σ) :=
  let n := if short then 2 else 1
  let sizes := operandSizes n op
  let bottom := ptr ret vm - BitVec.ofNat 8 sizes.sum
  let operands := operandsAt (stack ret vm) bottom sizes
  let vm := if keep then vm else setPtr ret bottom vm
  perform cfg H ret n pc vm h (action n pc op operands)

/-- One instruction. `none`: the machine halts. -/
def step (cfg : Cfg) (H : Host σ) (s : Sys σ) : Res (Option (Sys σ)) :=
  let opcode := s.vm.memory s.pc
  let pc := (s.pc + 1) % 65536
  let short := opcode.getLsbD 5
  let ret := opcode.getLsbD 6
  let keep := opcode.getLsbD 7
  let imm := peekMem s.vm pc 65536 2
  match opcode.toNat % 32 with
  | 0 =>
    match keep, ret, short with
    | false, false, false => .ok none                                        -- BRK
    | false, false, true =>                                                  -- JCI
      let vm := setPtr false (s.vm.wsp - 1) s.vm
      .ok (some { vm := vm, host := s.host,
                  pc := (if s.vm.ws (s.vm.wsp - 1) = 0 then pc + 2 else pc + 2 + imm) % 65536 })
    | false, true, false =>                                                  -- JMI
      .ok (some { s with pc := (pc + 2 + imm) % 65536 })
    | false, true, true =>                                                   -- JSI
      .ok (some { vm := pushValue true 2 ((pc + 2) % 65536) s.vm, host := s.host, pc := (pc + 2 + imm) % 65536 })
    | true, r, sh =>                                                         -- LIT, LIT2, LITr, LIT2r
      let n := if sh then 2 else 1
      .ok (some { vm := pushValue r n (peekMem s.vm pc 65536 n) s.vm, host := s.host, pc := (pc + n) % 65536 })
  | b + 1 =>
    match mnemonics[b]? with
    | some op => (operation cfg H op short ret keep pc s.vm s.host).map some
    | none => .ok none


/-- The one place where the interpreter's C code relies on more than the C standard gives: the product of two
shorts that does not fit in a 31-bit positive `int` (`MUL2`). -/
def mulOverflows (s : Sys σ) : Prop :=
  let opcode := s.vm.memory s.pc
  let ret := opcode.getLsbD 6
  opcode.toNat % 32 = 0x1a ∧ opcode.getLsbD 5 = true ∧
    2 ^ 31 ≤ valueAt (stack ret s.vm) (ptr ret s.vm - 4) 2 * valueAt (stack ret s.vm) (ptr ret s.vm - 2) 2

/-- Result of running the specification for at most `n` instructions. -/
inductive Outcome (σ : Type) where
  | halted (vm : VM) (host : σ)
  | undefined (e : UB)
  | running (s : Sys σ)

/-- Run a step function. -/
def run (next : Sys σ → Res (Option (Sys σ))) : Nat → Sys σ → Outcome σ
  | 0, s => .running s
  | n + 1, s =>
    match next s with
    | .error e => .undefined e
    | .ok none => .halted s.vm s.host
    | .ok (some s') => run next n s'

/-- The state before each of the at most `n` instructions a run executes, in order (a final BRK included). -/
def visited (next : Sys σ → Res (Option (Sys σ))) : Nat → Sys σ → List (Sys σ)
  | 0, _ => []
  | n + 1, s =>
    s ::
      match next s with
      | .ok (some s') => visited next n s'
      | _ => []

instance (s : Sys σ) : Decidable (mulOverflows s) := by unfold mulOverflows; infer_instance

/-- The instruction set as far as the C standard guarantees it: a compiler without `-fwrapv` owes nothing when
`MUL2` overflows. With `cfg.wrapv` this is `step`. -/
def cstep (cfg : Cfg) (H : Host σ) (s : Sys σ) : Res (Option (Sys σ)) :=
  if cfg.wrapv = false ∧ mulOverflows s then .error .signedOverflow else step cfg H s

/-- A device that leaves the size of the memory alone (all of buxn's devices do). -/
structure KeepsMemSize (H : Host σ) : Prop where
  dei : ∀ a vm h v vm' h', H.dei a vm h = .ok (v, vm', h') → vm'.memSize = vm.memSize
  deo : ∀ a vm h vm' h', H.deo a vm h = .ok (vm', h') → vm'.memSize = vm.memSize

/-- A device that never itself runs into the undefined behaviour `e`, on memories of at least 64K. -/
structure Avoids (e : UB) (H : Host σ) : Prop where
  dei : ∀ a vm h, 65536 ≤ vm.memSize → H.dei a vm h ≠ .error e
  deo : ∀ a vm h, 65536 ≤ vm.memSize → H.deo a vm h ≠ .error e

/-- A device that leaves the stacks alone (all of buxn's devices but system do). -/
structure KeepsStacks (H : Host σ) : Prop where
  dei : ∀ a vm h v vm' h', H.dei a vm h = .ok (v, vm', h') →
    vm'.wsp = vm.wsp ∧ vm'.rsp = vm.rsp ∧ vm'.ws = vm.ws ∧ vm'.rs = vm.rs
  deo : ∀ a vm h vm' h', H.deo a vm h = .ok (vm', h') →
    vm'.wsp = vm.wsp ∧ vm'.rsp = vm.rsp ∧ vm'.ws = vm.ws ∧ vm'.rs = vm.rs

/-- A host whose state has a notebook added that the devices do not look at. -/
def withNotes (τ : Type) (H : Host σ) : Host (σ × τ) where
  dei a vm h := (H.dei a vm h.1).map fun x => (x.1, x.2.1, (x.2.2, h.2))
  deo a vm h := (H.deo a vm h.1).map fun x => (x.1, (x.2, h.2))

/-- A hook that looks at everything and changes nothing but the notebook. -/
def observer {τ : Type} (note : Sys σ → τ → τ) : Hook (σ × τ) := fun pc vm h =>
  .ok (vm, (h.1, note { vm := vm, host := h.1, pc := pc.toNat } h.2))

/-- Add a notebook to an outcome. -/
def Outcome.addNotes {τ : Type} (t : τ) : Outcome σ → Outcome (σ × τ)
  | .halted vm h => .halted vm (h, t)
  | .undefined e => .undefined e
  | .running s => .running { vm := s.vm, host := (s.host, t), pc := s.pc }

/-- Sizes of the results an operation pushes on its operand stack (device reads included). -/
def resultSizes (n : Nat) : Op → List Nat
  | .INC | .NIP | .ADD | .SUB | .MUL | .DIV | .AND | .ORA | .EOR | .SFT | .LDZ | .LDR | .LDA | .DEI => [n]
  | .SWP | .DUP => [n, n]
  | .ROT | .OVR => [n, n, n]
  | .EQU | .NEQ | .GTH | .LTH => [1]
  | .POP | .JMP | .JCN | .JSR | .STH | .STZ | .STR | .STA | .DEO => []

end Buxn.VM.Spec
