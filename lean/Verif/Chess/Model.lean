import Verif.VM.Model
import Verif.Asm.Lexer
/-!
# Model of the type checker: symbolic execution

Models the part of `/repo/src/asm/chess.c` between the start of "Symbolic execution" and the start of "Parsing",
and `buxn_chess_end`, function by function. Reading annotations (`buxn_chess_handle_symbol` and the parsers) is in
`Verif.Chess.Parse`.

Simplifications:
* Display names and source regions of values are dropped, and so are reports of type `TRACE`: they only feed
  messages. A report keeps its severity, its kind and the trace it belongs to. The stack snapshot handed to
  `buxn_chess_deo` is dropped, the bytes and ports are kept.
* `semantics` is a record of Booleans. `BUXN_CHESS_SEM_SIZE_SHORT` is the field `short`.
* Strings are lists of bytes. `buxn_chess_str_t.len` is a `uint8_t`, but tokens of the assembler have at most 47
  characters (`asm.c:10`), so no length wraps.
* `buxn_chess_addr_info_t` objects are identified with their key: `buxn_chess_ensure_addr_info` makes one per
  address. The maps `addr_map`, `cast_map` and `jump_map` are functions or sets (`Verif.Asm.Hamt` is about the
  trie that implements them). The value of a label has no semantics but `ROUTINE`, which it has exactly when it
  has a signature.
* A value node is a number; `heap` is what the nodes hold, `pool` the list `value_pool`, nodes from `fresh` on have
  not been allocated yet. Allocation of entries and strings is assumed to succeed.
* `buxn_chess_copy_stack` copies the entries below `len`; in the model it copies everything. An entry at or above
  `len` is written before it is read.
* Reading `content[-1]`, reading through a null `whole_value` and the failure of the assertion at
  `chess.c:626` set the flag `oob`. The product of two shorts that does not fit in an `int` sets `mulOverflow`.
* `len` and `size` of a stack are `uint8_t`. A stack that gets 256 bytes is recorded as having none; the flag
  `wrapped` is set.
* `buxn_chess_get_rom` of the hosts (`asm.c:314-317`, `tests/common.c:134-137`) is `rom[address - 256]`; asking it for
  an instruction below `0x0100` sets `lowRom`. Everywhere else it is asked only for addresses that have a symbol.
* `next_trace_id` does not wrap.
-/

namespace Buxn.Chess

open Buxn.Asm (Str SymType)
open Buxn.VM (Instr Op dispatch)

/-- `buxn_chess_value_t`, `chess.h:44-52`, without name, region and signature. `ret` is `BUXN_CHESS_SEM_RETURN`. -/
structure Value where
  short : Bool := false
  const : Bool := false
  address : Bool := false
  ret : Bool := false
  routine : Bool := false
  nominal : Bool := false
  forked : Bool := false
  halfHi : Bool := false
  halfLo : Bool := false
  value : Short := 0
  type : Str := []
  whole : Option Nat := none
  deriving DecidableEq, Repr, Inhabited

/-- `buxn_chess_value_size`, `chess.c:403-406`. -/
def Value.size (v : Value) : Nat := if v.short then 2 else 1

/-- `buxn_chess_stack_t`, `chess.h:68-72`. -/
structure Stack where
  len : Byte
  size : Byte
  content : Byte → Value

def Stack.empty : Stack := ⟨0, 0, fun _ => {}⟩

/-- `buxn_chess_routine_type_t`, `chess.h:34-37`. -/
inductive Kind where
  | vector | subroutine
  deriving DecidableEq, Repr

/-- `buxn_chess_signature_t`, `chess.h:59-66`. A `buxn_chess_sig_stack_t` is a list of at most 8 values. -/
structure Sig where
  wstIn : List Value := []
  rstIn : List Value := []
  wstOut : List Value := []
  rstOut : List Value := []
  kind : Kind := .vector
  deriving DecidableEq, Repr

/-- `buxn_chess_cast_t`, `chess.c:72-76`. -/
structure Cast where
  wst : List Value := []
  rst : List Value := []
  deriving DecidableEq, Repr

/-- What `symbols[addr]` points at: `id` stands for the address of the object. -/
structure Sym where
  id : Nat
  type : SymType
  name : Str
  deriving DecidableEq, Repr

/-- What the checker knows about the program when `buxn_chess_end` begins to run it. `label a = some none` is a
label without signature. `keys` are the labelled addresses in the order of `addr_map.first`. -/
structure Program where
  rom : Short → Byte
  sym : Short → Option Sym
  label : Short → Option (Option Sig)
  keys : List Short
  cast : Short → Option Cast

/-- The errors the checker reports. -/
inductive Problem where
  | underflow | overflow
  | sizeMismatch | notRoutine | wrongType
  | brkInSubroutine | returnFromVector | unknownAddress | intoVector | noReturnAddress
  | invalidJump | nonOpcode | zeroPage | castMismatch
  deriving DecidableEq, Repr

/-- The warnings the checker reports while it executes. -/
inductive Doubt where
  | nonAddress | loadNonAddress | loadCode | storeNonAddress | storeCode | deiNonAddress | deoNonAddress
  | unlabelled
  deriving DecidableEq, Repr

/-- What the host is told. -/
inductive Event where
  | error (trace : Nat) (p : Problem)
  | warning (trace : Nat) (w : Doubt)
  | beginTrace (trace parent : Nat)
  | endTrace (trace : Nat) (success : Bool)
  | deo (trace : Nat) (value port : Byte)
  /-- "does not terminate", with `BUXN_CHESS_NO_TRACE` -/
  | noTermination (address : Short)
  deriving DecidableEq, Repr

/-- `buxn_chess_entry_t`, `chess.c:126-133`. -/
structure Entry where
  key : Short
  wst : Stack
  rst : Stack
  trace : Nat
  parent : Nat
  address : Short

/-- The value nodes, `chess.c:59-64`: their contents, `chess->value_pool`, the first one not allocated yet, and
`ctx->values`, those the current trace has taken. -/
structure Nodes where
  heap : Nat → Value
  pool : List Nat
  fresh : Nat
  taken : List Nat

/-- `buxn_chess_t` together with `buxn_chess_exec_ctx_t` (`chess.c:135-192`) and the local variables of
`buxn_chess_execute`. -/
structure Run where
  -- buxn_chess_t
  queue : List Entry
  terminatedAt : Short → Bool
  errorAt : Short → Bool
  markedAt : Short → Bool
  arcs : List (Short × Short)
  nodes : Nodes
  nextTrace : Nat
  success : Bool
  log : List Event
  oob : Bool
  mulOverflow : Bool
  /-- whether the host was asked for a byte below `0x0100`, which is not in the ROM -/
  lowRom : Bool
  /-- whether a stack has been filled to 256 bytes, which are recorded as 0 -/
  wrapped : Bool
  -- the entry being executed
  key : Short
  wst : Stack
  rst : Stack
  trace : Nat
  parent : Nat
  -- buxn_chess_exec_ctx_t; `keep` tells whether wsp and rsp point at the shadow stacks
  shadowWst : Stack
  shadowRst : Stack
  keep : Bool
  pc : Short
  opcode : Byte
  terminated : Bool
  ok : Bool
  /-- whether a trace is being executed -/
  running : Bool
  /-- whether the trace was ended because its last jump has been followed before; only for the record -/
  again : Bool
  /-- whether control is in the inner loop of `buxn_chess_execute`, past the test of the zero page -/
  inner : Bool

/-! ## Reports -/

/-- `buxn_chess_terminate`, `chess.c:408-411`. -/
def terminate (c : Run) : Run := { c with terminated := true }

/-- `buxn_chess_report_exec_error`, `chess.c:436-451`. -/
def error (p : Problem) (c : Run) : Run :=
  { c with
    log := c.log ++ [.error c.trace p]
    terminated := true
    ok := false
    success := false
    errorAt := upd c.errorAt c.key true }

/-- `buxn_chess_report_exec_warning`, `chess.c:454-464`. -/
def warning (w : Doubt) (c : Run) : Run := { c with log := c.log ++ [.warning c.trace w] }

/-! ## Stacks -/

/-- `buxn_chess_raw_push`, `chess.c:479-487`. -/
def rawPush (s : Stack) (v : Value) : Stack :=
  { len := s.len + 1, size := s.size + BitVec.ofNat 8 v.size, content := upd s.content s.len v }

/-- `buxn_chess_value_error`, `chess.c:539-550`. -/
def valueError : Value := {}

/-- `stack->content[stack->len - 1]`. -/
def top (s : Stack) : Value := s.content (s.len - 1)

/-- The same as an access: out of bounds when the stack has no entries. -/
def touchTop (s : Stack) (c : Run) : Run := if s.len = 0 then { c with oob := true } else c

/-- Taking a node out of the pool or allocating one and filling it, `chess.c:573-587`. -/
def Nodes.take (v : Value) (m : Nodes) : Nat × Nodes :=
  match m.pool with
  | n :: pool => (n, { m with pool := pool, taken := n :: m.taken, heap := upd m.heap n v })
  | [] => (m.fresh, { m with fresh := m.fresh + 1, taken := m.fresh :: m.taken, heap := upd m.heap m.fresh v })

/-- Splitting a short, `chess.c:584-617`: low half, high half. -/
def lowHalf (n : Nat) (v : Value) : Value :=
  { halfLo := true, whole := some n, const := v.const, forked := v.forked,
    value := if v.const then v.value &&& 0xff else 0 }

def highHalf (n : Nat) (v : Value) : Value :=
  { halfHi := true, whole := some n, const := v.const, forked := v.forked,
    value := if v.const then v.value >>> 8 else 0 }

/-- `buxn_chess_pop_from` with `size` 1, `chess.c:559-622`. -/
def popByte (s : Stack) (c : Run) : Value × Stack × Run :=
  if s.size.toNat < 1 then (valueError, s, error .underflow c)
  else
    let c := touchTop s c
    let t := top s
    if t.size = 1 then (t, { s with len := s.len - 1, size := s.size - 1 }, c)
    else
      let (n, m) := c.nodes.take t
      (lowHalf n t, { s with content := upd s.content (s.len - 1) (highHalf n t), size := s.size - 1 },
        { c with nodes := m })

/-- Merging two bytes, `chess.c:630-657`. -/
def merge (hi lo : Value) : Value :=
  { short := true
    const := hi.const && lo.const
    value := if hi.const && lo.const then (hi.value <<< 8) ||| lo.value else 0
    forked := hi.forked && lo.forked
    address := hi.address && lo.address }

/-- `buxn_chess_pop_from` with `size` 2, `chess.c:557-657`. -/
def popShort (s : Stack) (c : Run) : Value × Stack × Run :=
  if s.size.toNat < 2 then (valueError, s, error .underflow c)
  else
    let c := touchTop s c
    let t := top s
    if t.size = 2 then (t, { s with len := s.len - 1, size := s.size - 2 }, c)
    else
      let c := if s.len.toNat < 2 then { c with oob := true } else c
      let (lo, s, c) := popByte s c
      let (hi, s, c) := popByte s c
      (merge hi lo, s, c)

/-- `buxn_chess_pop_from`, `chess.c:559-660`. -/
def popFrom (s : Stack) (short : Bool) (c : Run) : Value × Stack × Run :=
  if short then popShort s c else popByte s c

/-- The stack of the entry. -/
def realStack (r : Bool) (c : Run) : Stack := if r then c.rst else c.wst
def setReal (r : Bool) (s : Stack) (c : Run) : Run := if r then { c with rst := s } else { c with wst := s }

/-- `ctx->rsp` or `ctx->wsp`. -/
def popStack (r : Bool) (c : Run) : Stack :=
  if c.keep then (if r then c.shadowRst else c.shadowWst) else realStack r c
def setPop (r : Bool) (s : Stack) (c : Run) : Run :=
  if c.keep then (if r then { c with shadowRst := s } else { c with shadowWst := s }) else setReal r s c

/-- `buxn_chess_pop_from` on a stack of the entry. -/
def popReal (short r : Bool) (c : Run) : Value × Run :=
  let (v, s, c) := popFrom (realStack r c) short c
  (v, setReal r s c)

/-- `buxn_chess_pop_ex`, `chess.c:662-672`. -/
def popEx (short r : Bool) (c : Run) : Value × Run :=
  if c.terminated then (valueError, c)
  else
    let (v, s, c) := popFrom (popStack r c) short c
    (v, setPop r s c)

/-- `buxn_chess_op_flag_2`, `buxn_chess_op_flag_r`, `buxn_chess_op_flag_k`, `chess.c:524-537`. -/
def flag2 (c : Run) : Bool := c.opcode.getLsbD 5
def flagR (c : Run) : Bool := c.opcode.getLsbD 6
def flagK (c : Run) : Bool := c.opcode.getLsbD 7

/-- `buxn_chess_pop`, `chess.c:674-681`. -/
def pop (c : Run) : Value × Run := popEx (flag2 c) (flagR c) c

/-- `buxn_chess_push_ex`, `chess.c:683-718`. -/
def pushEx (r : Bool) (v : Value) (c : Run) : Run :=
  if c.terminated then c
  else
    let s := realStack r c
    if s.size.toNat + v.size > 256 then error .overflow c
    else
      let t : Value := if 0 < s.len.toNat then top s else {}
      let c := { c with wrapped := c.wrapped || decide (s.size.toNat + v.size = 256) }
      if v.halfLo && t.halfHi && (t.whole == v.whole) then
        match t.whole with
        | some n => setReal r { s with content := upd s.content (s.len - 1) (c.nodes.heap n), size := s.size + 1 } c
        | none => { c with oob := true }
      else
        setReal r { len := s.len + 1, size := s.size + BitVec.ofNat 8 v.size, content := upd s.content s.len v } c

/-- `buxn_chess_push`, `chess.c:720-723`. -/
def push (v : Value) (c : Run) : Run := pushEx (flagR c) v c

/-! ## Signatures -/

inductive Direction where
  | into | out
  deriving DecidableEq, Repr

/-- The assignability checks, `chess.c:787-851`. -/
def checkValue (d : Direction) (want got : Value) (c : Run) : Run :=
  let c := if want.address && (!got.address && !got.const) then warning .nonAddress c else c
  let c := if want.routine && !got.routine then error .notRoutine c else c
  if want.nominal then
    let assignable := (got.nominal && want.type.isPrefixOf got.type) || (decide (d = .out) && !got.nominal)
    if assignable then c else error .wrongType c
  else c

/-- The loop at `chess.c:777-852`; the values from the last to the first. -/
def checkValues (d : Direction) (r : Bool) : List Value → Run → Run
  | [], c => c
  | want :: rest, c =>
    let (got, c) := popReal want.short r c
    checkValues d r rest (checkValue d want got c)

/-- The sum of the sizes of some values, computed in a `uint8_t`. -/
def sigSize (vs : List Value) : Byte := vs.foldl (fun n v => n + BitVec.ofNat 8 v.size) 0

/-- `buxn_chess_check_stack`, `chess.c:730-853`. -/
def checkStack (d : Direction) (r : Bool) (sig : List Value) (c : Run) : Run :=
  let size := (realStack r c).size
  let fits := match d with
    | .out => decide (size = sigSize sig)
    | .into => decide ((sigSize sig).toNat ≤ size.toNat)
  let c := if fits then c else error .sizeMismatch c
  if c.terminated then c else checkValues d r sig.reverse c

/-- The signature of a labelled address; the pointer is only followed for routines. -/
def sigAt (P : Program) (a : Short) : Sig :=
  match P.label a with
  | some (some sig) => sig
  | _ => {}

/-- `buxn_chess_check_return`, `chess.c:855-871`. -/
def checkReturn (P : Program) (c : Run) : Run :=
  let sig := sigAt P c.key
  checkStack .out true sig.rstOut (checkStack .out false sig.wstOut c)

/-- `buxn_chess_fork`, `chess.c:873-892`: the new entry. It is put at the front of `verification_list`. -/
def forked (c : Run) : Entry :=
  { key := c.key, wst := c.wst, rst := c.rst, trace := c.nextTrace, parent := c.trace, address := c.pc }

def fork (e : Entry) (c : Run) : Run := { c with queue := e :: c.queue, nextTrace := c.nextTrace + 1 }

/-- `ctx->entry->info->terminated = b`. -/
def setTerminatedAt (b : Bool) (c : Run) : Run := { c with terminatedAt := upd c.terminatedAt c.key b }

/-- `buxn_chess_BRK`, `chess.c:894-904`. -/
def opBRK (P : Program) (c : Run) : Run :=
  let c := if (sigAt P c.key).kind = .subroutine then error .brkInSubroutine c else c
  terminate (checkReturn P (setTerminatedAt true c))

/-! ## Jumps -/

/-- `BUXN_CHESS_JUMP_RETURNED`, `BUXN_CHESS_JUMP_CONTINUE`, `chess.c:1049-1053`. -/
inductive JumpResult where
  | returned | proceed
  deriving DecidableEq, Repr

/-- `buxn_chess_abs_jmp`, `chess.c:1053-1078`. -/
def absJmp (P : Program) (addr : Value) (c : Run) : JumpResult × Run :=
  if addr.address && addr.ret then
    let c := if (sigAt P c.key).kind = .vector then error .returnFromVector c else c
    (.returned, terminate (checkReturn P (setTerminatedAt true c)))
  else if addr.const then (.proceed, { c with pc := addr.value })
  else (.proceed, error .unknownAddress c)

/-- Pushing the outputs of a signature, `chess.c:1109-1119`. -/
def pushAll (r : Bool) (vs : List Value) (c : Run) : Run := vs.foldl (fun c v => pushEx r v c) c

/-- `buxn_chess_short_circuit`, `chess.c:1080-1155`. -/
def shortCircuit (P : Program) (target : Short) (c : Run) : Run :=
  let sig := sigAt P target
  if (sigAt P c.key).kind = .subroutine ∧ sig.kind = .vector then error .intoVector c
  else
    let c := checkStack .into false sig.wstIn c
    let c := checkStack .into true sig.rstIn c
    let c := pushAll false sig.wstOut c
    let c := pushAll true sig.rstOut c
    if sig.kind = .subroutine then
      if 2 ≤ c.rst.size.toNat then
        let (a, c) := popReal true true c
        let (res, c) := absJmp P a c
        if res = .returned then setTerminatedAt (decide (target ≠ c.key)) c else c
      else error .noReturnAddress c
    else
      setTerminatedAt (decide (target ≠ c.key)) (terminate (checkReturn P c))

/-- `pc` displaced by the low byte of a value, as in `chess.c:1165`, `chess.c:1393`, `chess.c:1403`. -/
def relative (pc v : Short) : Short := pc + (v.setWidth 8).signExtend 16

/-- Whether a label with a signature is at an address. -/
def isRoutine (P : Program) (a : Short) : Bool :=
  match P.label a with
  | some (some _) => true
  | _ => false

/-- `buxn_chess_jump`, `chess.c:1157-1222`. -/
def jump (P : Program) (addr : Value) (c : Run) : Run :=
  if c.terminated then c
  else
    let start := c.pc
    let c :=
      if addr.short then (absJmp P addr c).2
      else if addr.const then { c with pc := relative c.pc addr.value }
      else error .unknownAddress c
    if c.terminated then c
    else if isRoutine P c.pc then shortCircuit P c.pc c
    else if (start, c.pc) ∈ c.arcs then terminate { c with again := true }
    else { c with arcs := (start, c.pc) :: c.arcs }

/-- `buxn_chess_jump_stash`, `chess.c:1224-1240`. -/
def jumpStash (P : Program) (addr : Value) (r : Bool) (c : Run) : Run :=
  jump P addr (pushEx (!r) { short := true, address := true, const := true, value := c.pc } c)

/-- `buxn_chess_jump_conditional`, `chess.c:1242-1262`. -/
def jumpConditional (P : Program) (cond addr : Value) (c : Run) : Run :=
  if cond.const && cond.forked then
    if cond.value ≠ 0 then jump P addr c else c
  else jump P addr (fork (forked c) c)

/-! ## Operations -/

/-- `buxn_chess_INC`, `chess.c:906-923`. -/
def opINC (c : Run) : Run :=
  let (v, c) := pop c
  let v := if v.const then { v with value := v.value + 1 } else v
  push { v with nominal := false, type := [], halfHi := false, halfLo := false, whole := none } c

/-- `buxn_chess_POP`, `chess.c:925-928`. -/
def opPOP (c : Run) : Run := (pop c).2

/-- `buxn_chess_NIP`, `chess.c:930-936`. -/
def opNIP (c : Run) : Run :=
  let (b, c) := pop c
  let (_, c) := pop c
  push b c

/-- `buxn_chess_SWP`, `chess.c:938-944`. -/
def opSWP (c : Run) : Run :=
  let (b, c) := pop c
  let (a, c) := pop c
  push a (push b c)

/-- `buxn_chess_ROT`, `chess.c:946-954`. -/
def opROT (c : Run) : Run :=
  let (z, c) := pop c
  let (b, c) := pop c
  let (a, c) := pop c
  push a (push z (push b c))

/-- `buxn_chess_DUP`, `chess.c:956-961`. -/
def opDUP (c : Run) : Run :=
  let (a, c) := pop c
  push a (push a c)

/-- `buxn_chess_OVR`, `chess.c:963-970`. -/
def opOVR (c : Run) : Run :=
  let (b, c) := pop c
  let (a, c) := pop c
  push a (push b (push a c))

/-- `buxn_chess_boolean_op`, `chess.c:972-1007`. -/
def booleanOp (f : Short → Short → Bool) (c : Run) : Run :=
  let (b, c) := pop c
  let (a, c) := pop c
  if a.const && b.const && a.forked && b.forked then
    push { const := true, forked := true, value := if f a.value b.value then 1 else 0 } c
  else
    let e := forked c
    let no : Value := { const := true, forked := true }
    let e := if flagR c then { e with rst := rawPush e.rst no } else { e with wst := rawPush e.wst no }
    let c := { c with wrapped := c.wrapped || decide ((realStack (flagR c) c).size.toNat + 1 = 256) }
    push { const := true, forked := true, value := 1 } (fork e c)

/-- `buxn_chess_JMP`, `chess.c:1264-1268`. -/
def opJMP (P : Program) (c : Run) : Run :=
  let (a, c) := pop c
  jump P a c

/-- `buxn_chess_JCN`, `chess.c:1270-1275`. -/
def opJCN (P : Program) (c : Run) : Run :=
  let (a, c) := pop c
  let (cond, c) := popEx false (flagR c) c
  jumpConditional P cond a c

/-- `buxn_chess_JSR`, `chess.c:1277-1281`. -/
def opJSR (P : Program) (c : Run) : Run :=
  let (a, c) := pop c
  jumpStash P a (flagR c) c

/-- `buxn_chess_STH`, `chess.c:1283-1287`. -/
def opSTH (c : Run) : Run :=
  let (a, c) := pop c
  pushEx (!flagR c) a c

/-- `buxn_chess_value_is_address`, `chess.c:1289-1293`. -/
def isAddress (v : Value) : Bool := v.address || v.const

/-- `symbol != NULL && symbol->type == BUXN_ASM_SYM_OPCODE`. -/
def isOpcode (P : Program) (a : Short) : Bool :=
  match P.sym a with
  | some s => decide (s.type = .opcode)
  | none => false

/-- The value of a label. -/
def labelValue (sig : Option Sig) : Value := { routine := sig.isSome }

/-- `buxn_chess_load`, `chess.c:1295-1339`. -/
def load (P : Program) (addr : Value) (c : Run) : Run :=
  if c.terminated then c
  else
    let c := if isAddress addr then c else warning .loadNonAddress c
    let (v, c) : Value × Run :=
      if addr.const then
        match P.label addr.value with
        | some sig => (labelValue sig, c)
        | none => ({}, if isOpcode P addr.value then warning .loadCode c else c)
      else ({}, c)
    push { v with short := v.short || flag2 c } c

/-- `buxn_chess_store`, `chess.c:1341-1374`. -/
def store (P : Program) (addr : Value) (c : Run) : Run :=
  if c.terminated then c
  else
    let c := if isAddress addr then c else warning .storeNonAddress c
    if addr.const then
      match P.label addr.value with
      | some _ => c
      | none => if isOpcode P addr.value then warning .storeCode c else c
    else c

/-- `buxn_chess_LDZ`, `chess.c:1376-1380`. -/
def opLDZ (P : Program) (c : Run) : Run :=
  let (a, c) := popEx false (flagR c) c
  load P a c

/-- `buxn_chess_STZ`, `chess.c:1382-1387`. -/
def opSTZ (P : Program) (c : Run) : Run :=
  let (a, c) := popEx false (flagR c) c
  let (_, c) := pop c
  store P a c

/-- `buxn_chess_LDR`, `chess.c:1389-1396`. -/
def opLDR (P : Program) (c : Run) : Run :=
  let (a, c) := popEx false (flagR c) c
  load P (if a.const then { a with value := relative c.pc a.value } else a) c

/-- `buxn_chess_STR`, `chess.c:1398-1406`. -/
def opSTR (P : Program) (c : Run) : Run :=
  let (a, c) := popEx false (flagR c) c
  let (_, c) := pop c
  store P (if a.const then { a with value := relative c.pc a.value } else a) c

/-- `buxn_chess_LDA`, `chess.c:1408-1412`. -/
def opLDA (P : Program) (c : Run) : Run :=
  let (a, c) := popEx true (flagR c) c
  load P a c

/-- `buxn_chess_STA`, `chess.c:1414-1419`. -/
def opSTA (P : Program) (c : Run) : Run :=
  let (a, c) := popEx true (flagR c) c
  let (_, c) := pop c
  store P a c

/-- `buxn_chess_DEI`, `chess.c:1421-1447`. -/
def opDEI (c : Run) : Run :=
  let (a, c) := popEx false (flagR c) c
  let c := if isAddress a then c else warning .deiNonAddress c
  push { short := flag2 c } c

def tellDeo (value port : Byte) (c : Run) : Run := { c with log := c.log ++ [.deo c.trace value port] }

/-- `buxn_chess_DEO`, `chess.c:1449-1502`. -/
def opDEO (c : Run) : Run :=
  let (a, c) := popEx false (flagR c) c
  let (v, c) := pop c
  let c := if isAddress a then c else warning .deoNonAddress c
  if a.const && v.const then
    if v.short then tellDeo (lo v.value) (lo (a.value + 1)) (tellDeo (hi v.value) (lo a.value) c)
    else tellDeo (lo v.value) (lo a.value) c
  else c

/-- `buxn_chess_bin_op` and `buxn_chess_bin_pointer_arith`, `chess.c:1504-1559`; they differ in the address trait. -/
def binOp (pointer : Bool) (f : Short → Short → Short) (c : Run) : Run :=
  let (b, c) := pop c
  let (a, c) := pop c
  push
    { short := flag2 c
      const := a.const && b.const
      value := if a.const && b.const then f a.value b.value else 0
      address := pointer && (a.address || b.address) } c

/-- `buxn_chess_op_mul`, `chess.c:1581-1584`, as part of `buxn_chess_MUL`: the operands are promoted to `int`. -/
def opMUL (c : Run) : Run :=
  let (b, c) := pop c
  let (a, c) := pop c
  let c := if a.const && b.const && decide (2 ^ 31 ≤ a.value.toNat * b.value.toNat) then
      { c with mulOverflow := true } else c
  push
    { short := flag2 c
      const := a.const && b.const
      value := if a.const && b.const then a.value * b.value else 0 } c

/-- `buxn_chess_op_div`, `chess.c:1591-1594`. -/
def foldDiv (a b : Short) : Short := if b = 0 then 0 else a / b

/-- The expression at `chess.c:1647`. -/
def foldShift (a b : Short) : Short := (a >>> (b &&& 0x0f).toNat) <<< ((b &&& 0xf0) >>> 4).toNat

/-- `buxn_chess_SFT`, `chess.c:1631-1650`. -/
def opSFT (c : Run) : Run :=
  let (b, c) := popEx false (flagR c) c
  let (a, c) := pop c
  push
    { short := flag2 c
      const := a.const && b.const
      value := if a.const && b.const then foldShift a.value b.value else 0 } c

/-- Two bytes of the ROM as a short. -/
def rom2 (P : Program) (a b : Short) : Short := ((P.rom a).setWidth 16 <<< 8) ||| (P.rom b).setWidth 16

/-- `buxn_chess_immediate_jump_target`, `chess.c:1652-1677`. -/
def immediate (P : Program) (c : Run) : Value × Run :=
  let a := c.pc
  let b := c.pc + 1
  let c := { c with pc := c.pc + 2 }
  match P.sym a, P.sym b with
  | some x, some y =>
    if x.id = y.id ∧ x.type = .labelRef then
      ({ short := true, address := true, const := true, value := c.pc + rom2 P a b }, c)
    else (valueError, error .invalidJump c)
  | _, _ => (valueError, error .invalidJump c)

/-- `buxn_chess_JCI`, `chess.c:1679-1684`. -/
def opJCI (P : Program) (c : Run) : Run :=
  let (a, c) := immediate P c
  let (cond, c) := popEx false false c
  jumpConditional P cond a c

/-- `buxn_chess_JMI`, `chess.c:1686-1690`. -/
def opJMI (P : Program) (c : Run) : Run :=
  let (a, c) := immediate P c
  jump P a c

/-- `buxn_chess_JSI`, `chess.c:1692-1696`. -/
def opJSI (P : Program) (c : Run) : Run :=
  let (a, c) := immediate P c
  jumpStash P a false c

/-- `buxn_chess_make_lit_byte`, `chess.c:1698-1727`. A byte is never more than 255, so a label is always taken to be
in the zero page. -/
def litByte (P : Program) (a : Short) (sym : Option Sym) (c : Run) : Value × Run :=
  match sym with
  | none => ({}, warning .unlabelled c)
  | some s =>
    if s.type = .labelRef then
      ({ address := true, const := true, value := (P.rom a).setWidth 16, nominal := true, type := s.name }, c)
    else ({ const := true, value := (P.rom a).setWidth 16 }, c)

/-- `symbol_hi == symbol_lo`. -/
def sameSym (x y : Option Sym) : Bool :=
  match x, y with
  | none, none => true
  | some x, some y => decide (x.id = y.id)
  | _, _ => false

/-- `buxn_chess_LIT` in short mode, `chess.c:1729-1828`. -/
def lit2 (P : Program) (c : Run) : Run :=
  let a := c.pc
  let b := c.pc + 1
  let c := { c with pc := c.pc + 2 }
  match P.label a with
  | some sig =>
    match P.label b with
    | some sig' => push (labelValue sig') (push (labelValue sig) c)
    | none =>
      match P.sym b with
      | none => push { labelValue sig with short := true } c
      | some s =>
        let c := push (labelValue sig) c
        let (v, c) := litByte P b (some s) c
        push v c
  | none =>
    if sameSym (P.sym a) (P.sym b) then
      match P.sym a with
      | some s =>
        if s.type = .labelRef then push { short := true, address := true, const := true, value := rom2 P a b } c
        else if s.type = .number ∨ s.type = .text ∨ s.type = .opcode then
          push { short := true, const := true, value := rom2 P a b } c
        else push { short := true } (warning .unlabelled c)
      | none => push { short := true } (warning .unlabelled c)
    else
      let (v, c) := litByte P a (P.sym a) c
      let c := push v c
      let (w, c) := litByte P b (P.sym b) c
      push w c

/-- `buxn_chess_LIT`, `chess.c:1729-1828`. -/
def opLIT (P : Program) (c : Run) : Run :=
  if flag2 c then lit2 P c
  else
    let a := c.pc
    let c := { c with pc := c.pc + 1 }
    match P.label a with
    | some sig => push (labelValue sig) c
    | none =>
      match P.sym a with
      | some s =>
        let (v, c) := litByte P a (some s) c
        push v c
      | none => push {} c

/-- `switch (ctx.current_opcode)`, `chess.c:2036-2038`, for the polymorphic operations. -/
def opPoly (P : Program) (op : Op) (c : Run) : Run :=
  match op with
  | .INC => opINC c
  | .POP => opPOP c
  | .NIP => opNIP c
  | .SWP => opSWP c
  | .ROT => opROT c
  | .DUP => opDUP c
  | .OVR => opOVR c
  | .EQU => booleanOp (fun a b => a == b) c                           -- chess.c:1009-1017
  | .NEQ => booleanOp (fun a b => a != b) c                           -- chess.c:1019-1027
  | .GTH => booleanOp (fun a b => decide (b.toNat < a.toNat)) c       -- chess.c:1029-1037
  | .LTH => booleanOp (fun a b => decide (a.toNat < b.toNat)) c       -- chess.c:1039-1047
  | .JMP => opJMP P c
  | .JCN => opJCN P c
  | .JSR => opJSR P c
  | .STH => opSTH c
  | .LDZ => opLDZ P c
  | .STZ => opSTZ P c
  | .LDR => opLDR P c
  | .STR => opSTR P c
  | .LDA => opLDA P c
  | .STA => opSTA P c
  | .DEI => opDEI c
  | .DEO => opDEO c
  | .ADD => binOp true (fun a b => a + b) c                           -- chess.c:1561-1569
  | .SUB => binOp true (fun a b => a - b) c                           -- chess.c:1571-1579
  | .MUL => opMUL c
  | .DIV => binOp false foldDiv c
  | .AND => binOp false (fun a b => a &&& b) c                        -- chess.c:1601-1609
  | .ORA => binOp false (fun a b => a ||| b) c                        -- chess.c:1611-1619
  | .EOR => binOp false (fun a b => a ^^^ b) c                        -- chess.c:1621-1629
  | .SFT => opSFT c

/-- The same switch. The opcode is looked up in the table that the interpreter uses too. -/
def perform (P : Program) (c : Run) : Run :=
  match dispatch c.opcode with
  | some .BRK => opBRK P c
  | some .JCI => opJCI P c
  | some .JMI => opJMI P c
  | some .JSI => opJSI P c
  | some (.LIT _ _) => opLIT P c
  | some (.poly op _ _ _) => opPoly P op c
  | none => c

/-! ## Casts -/

/-- Popping the values a cast is applied to, `chess.c:1876-1883`; the wanted sizes from the last to the first. The
result is in stack order. -/
def popInputs (r : Bool) : List Value → List Value → Run → List Value × Run
  | [], acc, c => (acc, c)
  | v :: vs, acc, c =>
    let (x, c) := popReal v.short r c
    popInputs r vs (x :: acc) c

/-- What a cast makes of a value, `chess.c:1884-1905`. -/
def castValue (input output : Value) : Value :=
  { output with
    const := output.const || input.const
    value := if input.const then input.value else output.value
    forked := output.forked || input.forked
    halfHi := output.halfHi || input.halfHi
    halfLo := output.halfLo || input.halfLo
    whole := if input.halfHi || input.halfLo then input.whole else output.whole }

/-- `buxn_chess_apply_cast`, `chess.c:1863-1919`. -/
def applyCast (r : Bool) (cast : List Value) (c : Run) : Run :=
  if (sigSize cast).toNat ≤ (realStack r c).size.toNat then
    let (inputs, c) := popInputs r cast.reverse [] c
    setReal r ((List.zipWith castValue inputs cast).foldl rawPush (realStack r c)) c
  else error .castMismatch c

/-- The end of the loop body, `chess.c:2041-2061`. -/
def applyCasts (cast : Option Cast) (c : Run) : Run :=
  match cast with
  | none => c
  | some k => applyCast true k.rst (applyCast false k.wst c)

/-! ## Traces -/

/-- Fetching and executing one instruction, `chess.c:1999-2061`: from the lookup of the cast to the end of the loop
body. -/
def instruction (P : Program) (c : Run) : Run :=
  let cast := P.cast c.pc
  let sym := P.sym c.pc
  let c := { c with opcode := P.rom c.pc, inner := false, lowRom := c.lowRom || decide (c.pc.toNat < 256) }
  match sym with
  | none => error .nonOpcode c
  | some s =>
    if s.type ≠ .opcode then error .nonOpcode c
    else
      let c := { c with pc := c.pc + 1 }
      let c :=
        if flagK c then { c with shadowWst := c.wst, shadowRst := c.rst, keep := true } else { c with keep := false }
      applyCasts cast (perform P c)

/-- One round of the loops of `buxn_chess_execute`, `chess.c:1966-2061`: the test of the zero page, then either one
round of the inner loop or one instruction. -/
def round (P : Program) (c : Run) : Run :=
  if ¬ c.inner ∧ c.pc.toNat < 256 then error .zeroPage c
  else if c.pc ≠ c.key ∧ isRoutine P c.pc then shortCircuit P c.pc { c with inner := true }
  else instruction P c

/-- The beginning of `buxn_chess_execute`, `chess.c:1926-1964`. Without a symbol at the first address the function
returns early: no end of trace is reported. -/
def startTrace (P : Program) (e : Entry) (c : Run) : Run :=
  let c :=
    { c with
      key := e.key, wst := e.wst, rst := e.rst, trace := e.trace, parent := e.parent
      nodes := { c.nodes with taken := [] }, pc := e.address, opcode := 0, keep := false, terminated := false, ok := false
      inner := false, running := true, again := false
      log := c.log ++ [.beginTrace e.trace e.parent] }
  match P.sym e.address with
  | none => { error .nonOpcode c with running := false }
  | some _ => c

/-- The end of `buxn_chess_execute`, `chess.c:2064-2076`: the nodes of the trace go to the pool one by one. -/
def endTrace (c : Run) : Run :=
  { c with
    log := c.log ++ [.endTrace c.trace c.ok]
    nodes := { c.nodes with pool := c.nodes.taken.reverse ++ c.nodes.pool, taken := [] }
    running := false }

/-- One step of the loop at `chess.c:2508-2516` with `buxn_chess_execute` unrolled; `none` when there is nothing left
to do. -/
def advance (P : Program) (c : Run) : Option Run :=
  if c.running then
    if c.terminated then some (endTrace c) else some (round P c)
  else
    match c.queue with
    | [] => none
    | e :: queue => some (startTrace P e { c with queue := queue })

/-- Some number of steps, or fewer when nothing is left to do. -/
def steps (P : Program) : Nat → Run → Run
  | 0, c => c
  | n + 1, c =>
    match advance P c with
    | none => c
    | some c => steps P n c

/-- The loop over `addr_map` at the end of `buxn_chess_end`, `chess.c:2518-2553`. -/
def checkTermination : List Short → Run → Run
  | [], c => c
  | a :: as, c =>
    if c.markedAt a ∧ ¬ c.errorAt a ∧ ¬ c.terminatedAt a then
      checkTermination as { c with log := c.log ++ [.noTermination a], success := false }
    else checkTermination as c

/-- `buxn_chess_mark_routine_for_verification`, `chess.c:489-522`: the entry for a routine. -/
def routineEntry (a : Short) (sig : Sig) (trace : Nat) : Entry :=
  let rst := if sig.kind = .subroutine then
      rawPush Stack.empty { short := true, address := true, ret := true } else Stack.empty
  { key := a, address := a, trace := trace, parent := 0
    wst := sig.wstIn.foldl rawPush Stack.empty
    rst := sig.rstIn.foldl rawPush rst }

end Buxn.Chess
