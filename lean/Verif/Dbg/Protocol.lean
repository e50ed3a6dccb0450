import Verif.Dbg.Core
import Mathlib.Data.List.GetD
import Mathlib.Tactic.Linarith
/-!
# Model of the debugger protocol

Models `/repo/src/dbg/protocol.c` and the inline `buxn_dbg_protocol_msg` of `/repo/include/buxn/dbg/protocol.h`.

The serialisation library `bserial` is not part of the repository. It is modelled by a stream of items: integers, blobs
and records of named integers and blobs. What is assumed about it:
* what is written is read back in the same order;
* `bserial_any_int` into an 8 or 16 bit variable gives the value if it fits; what it does with one that does not fit is
  left open (`Lib`: an error or any value);
* `bserial_blob` reading with capacity `*len` fails on a longer blob, otherwise it sets `*len` to the blob's length;
* an item of another kind than expected is an error;
* a record is read field by field, each field goes to the `BSERIAL_KEY` of its name. A name that is not asked for is
  skipped, a field that is missing leaves the variable as it was.
The C functions serve both directions; here they are a writing and a reading function.
-/

namespace Buxn.Dbg
open Buxn.VM

/-- A value in the stream. -/
inductive Field where
  | int (n : Nat)
  | blob (bs : List Byte)
  deriving DecidableEq, Repr

inductive Item where
  | val (f : Field)
  | record (fs : List (String × Field))
  deriving DecidableEq, Repr

/-- `bserial_any_int` in read mode for 8 and 16 bit variables; `none` is an error. -/
structure Lib where
  narrow8 : Nat → Option Byte
  narrow16 : Nat → Option Short
  fits8 : ∀ n < 256, narrow8 n = some (BitVec.ofNat 8 n)
  fits16 : ∀ n < 65536, narrow16 n = some (BitVec.ofNat 16 n)

/-- A command as the client sends it and `core.c` receives it. -/
inductive Cmd where
  | ask (q : Query)
  | go (g : Go)

/-- Messages, `protocol.h:9-26`, except replies. -/
inductive Msg where
  | beginExec (addr : Short)
  | endExec
  | beginBreak (id : Byte)
  | endBreak
  | paused
  | request (c : Cmd)

/-- `BUXN_DBG_MAX_MEM_ACCESS_SIZE`, `protocol.h:7`, and the size of the message buffer, `protocol.h:28`. -/
def MAX_MEM_ACCESS : Nat := 4096

def i8 (b : Byte) : Item := .val (.int b.toNat)
def i16 (s : Short) : Item := .val (.int s.toNat)
def f8 (b : Byte) : Field := .int b.toNat
def f16 (s : Short) : Field := .int s.toNat

/-- `values[0 .. n-1]`. -/
def firstN (vs : Nat → Byte) (n : Nat) : List Byte := (List.range n).map vs

/-- The numbers of the commands, `core.h:33-45`. -/
def goNum : Go → Byte
  | .resume => 1 | .stepOver => 2 | .stepIn => 3 | .stepOut => 4

/-- A command in write mode, `protocol.c:32-205` with `type == BUXN_DBG_MSG_COMMAND_REQ`. `none`: malformed. -/
def writeCmd : Cmd → Option (List Item)
  | .go g => some [i8 (goNum g)]
  -- protocol.c:37-41
  | .ask .infoPc => some [i8 0, i8 0]
  | .ask .infoWst => some [i8 0, i8 1]
  | .ask .infoRst => some [i8 0, i8 2]
  | .ask .infoNbrkps => some [i8 0, i8 3]
  | .ask (.nop t i) => some (if t = 0 then [i8 0, i8 i] else [i8 t])
  -- protocol.c:79-81
  | .ask (.brkpGet id) => some [i8 5, i8 id]
  -- protocol.c:98-110
  | .ask (.brkpSet id b) => some [i8 6, .record [("id", f8 id), ("addr", f16 b.addr), ("mask", f8 b.mask)]]
  -- protocol.c:112-121
  | .ask (.devRead a n) => some [i8 7, .record [("addr", f8 a), ("size", f8 n)]]
  -- protocol.c:135-153
  | .ask (.devWrite a n vs) => some [i8 8, .record [("addr", f8 a), ("values", .blob (firstN vs n.toNat))]]
  -- protocol.c:155-168
  | .ask (.memRead a n) =>
    if MAX_MEM_ACCESS < n.toNat then none else some [i8 9, .record [("addr", f16 a), ("size", f16 n)]]
  -- protocol.c:181-199
  | .ask (.memWrite a n vs) => some [i8 10, .record [("addr", f16 a), ("values", .blob (firstN vs n.toNat))]]

/-- `buxn_dbg_protocol_msg` in write mode, `protocol.h:46-54`, `protocol.c:9-217`. -/
def writeMsg : Msg → Option (List Item)
  | .beginExec a => some [i8 0, i16 a]
  | .endExec => some [i8 1]
  | .beginBreak id => some [i8 2, i8 id]
  | .endBreak => some [i8 3]
  | .paused => some [i8 4]
  | .request c => (writeCmd c).map (i8 5 :: ·)

/-- What the variables read into hold beforehand (`wire.c:79`: `buxn_dbg_msg_t msg;` is not initialised). -/
structure Junk where
  addr : Short
  size : Short
  id : Byte
  mask : Byte

/-- `bserial_any_int(ctx, &x)` in read mode. -/
def readInt8 (L : Lib) : List Item → Option (Byte × List Item)
  | .val (.int n) :: rest => (L.narrow8 n).map (·, rest)
  | _ => none

def readInt16 (L : Lib) : List Item → Option (Short × List Item)
  | .val (.int n) :: rest => (L.narrow16 n).map (·, rest)
  | _ => none

/-- `BSERIAL_RECORD(ctx, ...) { ... }` in read mode: `onKey` is the body. -/
def readRecord {α : Type} (onKey : α → String → Field → Option α) (start : α) : List Item → Option (α × List Item)
  | .record fs :: rest => (fs.foldlM (fun a kv => onKey a kv.1 kv.2) start).map (·, rest)
  | _ => none

/-- `bserial_any_int` and `bserial_blob` for a field. -/
def field8 (L : Lib) : Field → Option Byte
  | .int n => L.narrow8 n
  | .blob _ => none

def field16 (L : Lib) : Field → Option Short
  | .int n => L.narrow16 n
  | .blob _ => none

def fieldBlob (capacity : Nat) : Field → Option (List Byte)
  | .blob bs => if bs.length ≤ capacity then some bs else none
  | .int _ => none

/-- The keys of a breakpoint to set, `protocol.c:100-108`. -/
def onBrkpSet (L : Lib) (a : Byte × Short × Byte) (k : String) (f : Field) : Option (Byte × Short × Byte) :=
  if k = "id" then (field8 L f).map fun v => (v, a.2.1, a.2.2)
  else if k = "addr" then (field16 L f).map fun v => (a.1, v, a.2.2)
  else if k = "mask" then (field8 L f).map fun v => (a.1, a.2.1, v)
  else some a

/-- The keys of a device read, `protocol.c:114-121`. -/
def onDevRead (L : Lib) (a : Byte × Byte) (k : String) (f : Field) : Option (Byte × Byte) :=
  if k = "addr" then (field8 L f).map fun v => (v, a.2)
  else if k = "size" then (field8 L f).map fun v => (a.1, v)
  else some a

/-- The keys of a device write, `protocol.c:141-152`: address, size and buffer; `size = (uint8_t)len`. -/
def onDevWrite (L : Lib) (a : Byte × Byte × List Byte) (k : String) (f : Field) : Option (Byte × Byte × List Byte) :=
  if k = "addr" then (field8 L f).map fun v => (v, a.2.1, a.2.2)
  else if k = "values" then (fieldBlob 256 f).map fun v => (a.1, BitVec.ofNat 8 v.length, v)
  else some a

/-- The keys of a memory read, `protocol.c:157-167`. -/
def onMemRead (L : Lib) (a : Short × Short) (k : String) (f : Field) : Option (Short × Short) :=
  if k = "addr" then (field16 L f).map fun v => (v, a.2)
  else if k = "size" then
    match field16 L f with
    | none => none
    | some v => if MAX_MEM_ACCESS < v.toNat then none else some (a.1, v)
  else some a

/-- The keys of a memory write, `protocol.c:187-198`; `size = (uint8_t)len`, also here. -/
def onMemWrite (L : Lib) (a : Short × Short × List Byte) (k : String) (f : Field) : Option (Short × Short × List Byte) :=
  if k = "addr" then (field16 L f).map fun v => (v, a.2.1, a.2.2)
  else if k = "values" then (fieldBlob MAX_MEM_ACCESS f).map fun v => (a.1, (BitVec.ofNat 8 v.length).setWidth 16, v)
  else some a

/-- A command in read mode after its number `t`, `protocol.c:36-205` with `type == BUXN_DBG_MSG_COMMAND_REQ`. -/
def readCmdBody (L : Lib) (j : Junk) (t : Byte) (items : List Item) : Option (Cmd × List Item) :=
  if t = 0 then (readInt8 L items).map fun x =>
    (.ask (if x.1 = 0 then .infoPc else if x.1 = 1 then .infoWst else if x.1 = 2 then .infoRst
      else if x.1 = 3 then .infoNbrkps else .nop 0 x.1), x.2)
  else if t = 1 then some (.go .resume, items)
  else if t = 2 then some (.go .stepOver, items)
  else if t = 3 then some (.go .stepIn, items)
  else if t = 4 then some (.go .stepOut, items)
  else if t = 5 then (readInt8 L items).map fun x => (.ask (.brkpGet x.1), x.2)
  else if t = 6 then (readRecord (onBrkpSet L) (j.id, j.addr, j.mask) items).map fun x =>
    (.ask (.brkpSet x.1.1 ⟨x.1.2.1, x.1.2.2⟩), x.2)
  else if t = 7 then (readRecord (onDevRead L) (j.addr.setWidth 8, j.size.setWidth 8) items).map fun x =>
    (.ask (.devRead x.1.1 x.1.2), x.2)
  else if t = 8 then (readRecord (onDevWrite L) (j.addr.setWidth 8, j.size.setWidth 8, []) items).map fun x =>
    (.ask (.devWrite x.1.1 x.1.2.1 fun i => x.1.2.2.getD i 0), x.2)
  else if t = 9 then (readRecord (onMemRead L) (j.addr, j.size) items).map fun x =>
    (.ask (.memRead x.1.1 x.1.2), x.2)
  else if t = 10 then (readRecord (onMemWrite L) (j.addr, j.size, []) items).map fun x =>
    (.ask (.memWrite x.1.1 x.1.2.1 fun i => x.1.2.2.getD i 0), x.2)
  else some (.ask (.nop t 0), items)

/-- A command in read mode, `protocol.c:32-205`. -/
def readCmd (L : Lib) (j : Junk) (items : List Item) : Option (Cmd × List Item) :=
  (readInt8 L items).bind fun x => readCmdBody L j x.1 x.2

/-- `buxn_dbg_protocol_msg_body` in read mode for everything but replies, `protocol.c:17-217`. -/
def readMsgBody (L : Lib) (j : Junk) (t : Byte) (items : List Item) : Option (Msg × List Item) :=
  if t = 0 then (readInt16 L items).map fun x => (.beginExec x.1, x.2)
  else if t = 1 then some (.endExec, items)
  else if t = 2 then (readInt8 L items).map fun x => (.beginBreak x.1, x.2)
  else if t = 3 then some (.endBreak, items)
  else if t = 4 then some (.paused, items)
  else if t = 5 then (readCmd L j items).map fun x => (.request x.1, x.2)
  else none

/-- `buxn_dbg_protocol_msg` in read mode for everything but replies, `protocol.h:46-54`. -/
def readMsg (L : Lib) (j : Junk) (items : List Item) : Option (Msg × List Item) :=
  (readInt8 L items).bind fun x => readMsgBody L j x.1 x.2

/-- The number of a command, `core.h:33-45`. -/
def cmdNum : Cmd → Byte
  | .go g => goNum g
  | .ask .infoPc => 0
  | .ask .infoWst => 0
  | .ask .infoRst => 0
  | .ask .infoNbrkps => 0
  | .ask (.brkpGet _) => 5
  | .ask (.brkpSet ..) => 6
  | .ask (.devRead ..) => 7
  | .ask (.devWrite ..) => 8
  | .ask (.memRead ..) => 9
  | .ask (.memWrite ..) => 10
  | .ask (.nop t _) => t

/-- The body of a reply in write mode, `protocol.c:52-76`, `:86-95`, `:125-131`, `:173-179`. `junk` is what the buffer
holds when `core.c` did not answer (the breakpoint 255). Answers come in the form `core.c` gives them. -/
def writeAnswer (junk : Brkp) : Reply → List Item
  | .pc v => [i16 v]
  | .stack p data => [.record [("pointer", f8 p), ("data", .blob ((List.range 256).map fun i => data (BitVec.ofNat 8 i)))]]
  | .nbrkps n => [i8 n]
  | .brkp b => let b := b.getD junk; [.record [("addr", f16 b.addr), ("mask", f8 b.mask)]]
  | .bytes vs => [.val (.blob vs)]
  | .done => []

/-- `buxn_dbg_protocol_msg` in write mode for the reply `r` to command `c`. -/
def writeReply (junk : Brkp) (c : Cmd) (r : Reply) : List Item := i8 6 :: i8 (cmdNum c) :: writeAnswer junk r

/-- The keys of a stack, `protocol.c:58-66`. -/
def onStack (L : Lib) (a : Byte × List Byte) (k : String) (f : Field) : Option (Byte × List Byte) :=
  if k = "pointer" then (field8 L f).map fun v => (v, a.2)
  else if k = "data" then
    match fieldBlob 256 f with
    | none => none
    | some v => if v.length ≠ 256 then none else some (a.1, v)
  else some a

/-- The keys of a breakpoint, `protocol.c:87-94`. -/
def onBrkp (L : Lib) (a : Short × Byte) (k : String) (f : Field) : Option (Short × Byte) :=
  if k = "addr" then (field16 L f).map fun v => (v, a.2)
  else if k = "mask" then (field8 L f).map fun v => (a.1, v)
  else some a

/-- `uint64_t len = size; bserial_blob(...); if (len != size) malformed`, `protocol.c:126-130`, `protocol.c:174-178`. -/
def readBlob (size : Nat) : List Item → Option (Reply × List Item)
  | .val f :: rest =>
    match fieldBlob size f with
    | none => none
    | some bs => if bs.length ≠ size then none else some (.bytes bs, rest)
  | _ => none

/-- The body of a reply in read mode; `q` is the command the client has sent, whose pointers are filled. -/
def readAnswer (L : Lib) (j : Junk) (q : Query) (items : List Item) : Option (Reply × List Item) :=
  match q with
  | .infoPc => (readInt16 L items).map fun x => (.pc x.1, x.2)
  | .infoWst => (readRecord (onStack L) (j.id, []) items).map fun x => (.stack x.1.1 fun i => x.1.2.getD i.toNat 0, x.2)
  | .infoRst => (readRecord (onStack L) (j.id, []) items).map fun x => (.stack x.1.1 fun i => x.1.2.getD i.toNat 0, x.2)
  | .infoNbrkps => (readInt8 L items).map fun x => (.nbrkps x.1, x.2)
  | .brkpGet _ => (readRecord (onBrkp L) (j.addr, j.mask) items).map fun x => (.brkp (some ⟨x.1.1, x.1.2⟩), x.2)
  | .devRead _ n => readBlob n.toNat items
  | .memRead _ n => readBlob n.toNat items
  | _ => some (.done, items)

/-- `buxn_dbg_protocol_msg` in read mode for a reply to `c`. If the number in the reply is not that of the command sent,
the C code interprets the client's union as another member; this is given up here as `none`. -/
def readReply (L : Lib) (j : Junk) (c : Cmd) (items : List Item) : Option (Reply × List Item) :=
  (readInt8 L items).bind fun x =>
    if x.1 = 6 then (readInt8 L x.2).bind fun y =>
      if y.1 = cmdNum c then
        match c with
        | .go _ => some (.done, y.2)
        | .ask q => readAnswer L j q y.2
      else none
    else none

/-! ## Specification -/

/-- Equal, except that write commands need to agree only on the bytes they carry. -/
def SameQuery : Query → Query → Prop
  | .devWrite a n vs, .devWrite a' n' vs' => a = a' ∧ n = n' ∧ ∀ i < n.toNat, vs i = vs' i
  | .memWrite a n vs, .memWrite a' n' vs' => a = a' ∧ n = n' ∧ ∀ i < n.toNat, vs i = vs' i
  | q, q' => q = q'

def SameMsg : Msg → Msg → Prop
  | .request (.ask q), .request (.ask q') => SameQuery q q'
  | m, m' => m = m'

/-- The documented messages within the size limits: at most 4096 bytes of memory at a time; and, because of the
conversion to `uint8_t`, at most 255 bytes in a memory write. -/
def Encodable : Msg → Prop
  | .request (.ask (.memRead _ n)) => n.toNat ≤ 4096
  | .request (.ask (.memWrite _ n _)) => n.toNat ≤ 255
  | .request (.ask (.nop _ _)) => False
  | _ => True

/-- An answer of the kind and size the command asks for, as `core.c` produces it. -/
def Answers : Query → Reply → Prop
  | .infoPc, .pc _ => True
  | .infoWst, .stack _ _ => True
  | .infoRst, .stack _ _ => True
  | .infoNbrkps, .nbrkps _ => True
  | .brkpGet id, .brkp b => id ≠ 255 ∧ b.isSome
  | .devRead _ n, .bytes vs => vs.length = n.toNat
  | .memRead _ n, .bytes vs => vs.length = n.toNat
  | .brkpSet _ _, .done => True
  | .devWrite .., .done => True
  | .memWrite .., .done => True
  | _, _ => False

/-! ## Proofs -/

theorem narrow8_toNat (L : Lib) (b : Byte) : L.narrow8 b.toNat = some b := by
  rw [L.fits8 _ b.isLt, BitVec.ofNat_toNat, BitVec.setWidth_eq]

theorem narrow16_toNat (L : Lib) (b : Short) : L.narrow16 b.toNat = some b := by
  rw [L.fits16 _ b.isLt, BitVec.ofNat_toNat, BitVec.setWidth_eq]

theorem readInt8_i8 (L : Lib) (b : Byte) (rest : List Item) : readInt8 L (i8 b :: rest) = some (b, rest) := by
  simp only [readInt8, i8, narrow8_toNat, Option.map]

theorem readInt16_i16 (L : Lib) (b : Short) (rest : List Item) : readInt16 L (i16 b :: rest) = some (b, rest) := by
  simp only [readInt16, i16, narrow16_toNat, Option.map]

theorem firstN_length (vs : Nat → Byte) (n : Nat) : (firstN vs n).length = n := by simp [firstN]

theorem firstN_getD (vs : Nat → Byte) (n i : Nat) (h : i < n) : (firstN vs n).getD i 0 = vs i := by
  simp [firstN, List.getD, h]

theorem sameQuery_refl (q : Query) : SameQuery q q := by
  cases q <;> simp [SameQuery]

theorem readCmd_num (L : Lib) (j : Junk) (t : Byte) (rest : List Item) : readCmd L j (i8 t :: rest) = readCmdBody L j t rest := by
  unfold readCmd; rw [readInt8_i8]; rfl

theorem readMsg_num (L : Lib) (j : Junk) (t : Byte) (rest : List Item) : readMsg L j (i8 t :: rest) = readMsgBody L j t rest := by
  unfold readMsg; rw [readInt8_i8]; rfl

theorem field8_f8 (L : Lib) (b : Byte) : field8 L (f8 b) = some b := narrow8_toNat L b
theorem field16_f16 (L : Lib) (b : Short) : field16 L (f16 b) = some b := narrow16_toNat L b

theorem readCmd_go (L : Lib) (j : Junk) (g : Go) (rest : List Item) :
    readCmd L j (i8 (goNum g) :: rest) = some (.go g, rest) := by
  rw [readCmd_num]
  cases g <;> rfl

theorem readRecord_two {α : Type} {f : α → String → Field → Option α} {a a1 a2 : α} {k1 k2 : String} {v1 v2 : Field} (rest : List Item)
    (h1 : f a k1 v1 = some a1) (h2 : f a1 k2 v2 = some a2) :
    readRecord f a (.record [(k1, v1), (k2, v2)] :: rest) = some (a2, rest) := by
  simp only [readRecord, List.foldlM_cons, List.foldlM_nil, bind, Option.bind, h1, h2, pure, Option.map]

theorem readCmd_writeCmd (L : Lib) (j : Junk) (q : Query) (rest items : List Item) (he : Encodable (.request (.ask q)))
    (hw : writeCmd (.ask q) = some items) :
    ∃ q', readCmd L j (items ++ rest) = some (.ask q', rest) ∧ SameQuery q q' := by
  have info : ∀ i : Byte, readCmd L j (i8 0 :: i8 i :: rest) = some (.ask (if i = 0 then .infoPc else if i = 1 then .infoWst else
      if i = 2 then .infoRst else if i = 3 then .infoNbrkps else .nop 0 i), rest) := by
    intro i
    rw [readCmd_num]
    unfold readCmdBody
    rw [if_pos rfl, readInt8_i8]
    rfl
  cases q with
  | infoPc => cases hw; exact ⟨.infoPc, info 0, rfl⟩
  | infoWst => cases hw; exact ⟨.infoWst, info 1, rfl⟩
  | infoRst => cases hw; exact ⟨.infoRst, info 2, rfl⟩
  | infoNbrkps => cases hw; exact ⟨.infoNbrkps, info 3, rfl⟩
  | nop t i => exact he.elim
  | brkpGet id =>
    cases hw
    refine ⟨.brkpGet id, ?_, rfl⟩
    show readCmd L j (i8 5 :: i8 id :: rest) = _
    rw [readCmd_num]
    show (readInt8 L (i8 id :: rest)).map _ = _
    rw [readInt8_i8]; rfl
  | brkpSet id b =>
    cases hw
    refine ⟨.brkpSet id b, ?_, rfl⟩
    show readCmd L j (i8 6 :: .record [("id", f8 id), ("addr", f16 b.addr), ("mask", f8 b.mask)] :: rest) = _
    rw [readCmd_num]
    have : readRecord (onBrkpSet L) (j.id, j.addr, j.mask)
        (.record [("id", f8 id), ("addr", f16 b.addr), ("mask", f8 b.mask)] :: rest) = some ((id, b.addr, b.mask), rest) := by
      have h1 : onBrkpSet L (j.id, j.addr, j.mask) "id" (f8 id) = some (id, j.addr, j.mask) := by
        simp [onBrkpSet, field8_f8]
      have h2 : onBrkpSet L (id, j.addr, j.mask) "addr" (f16 b.addr) = some (id, b.addr, j.mask) := by
        simp [onBrkpSet, field16_f16]
      have h3 : onBrkpSet L (id, b.addr, j.mask) "mask" (f8 b.mask) = some (id, b.addr, b.mask) := by
        simp [onBrkpSet, field8_f8]
      simp only [readRecord, List.foldlM_cons, List.foldlM_nil, bind, Option.bind, h1, h2, h3, pure, Option.map]
    show (readRecord (onBrkpSet L) (j.id, j.addr, j.mask) _).map _ = _
    rw [this]; rfl
  | devRead a n =>
    cases hw
    refine ⟨.devRead a n, ?_, rfl⟩
    show readCmd L j (i8 7 :: .record [("addr", f8 a), ("size", f8 n)] :: rest) = _
    rw [readCmd_num]
    show (readRecord (onDevRead L) _ _).map _ = _
    rw [readRecord_two (a1 := (a, j.size.setWidth 8)) (a2 := (a, n)) rest (by simp [onDevRead, field8_f8]) (by simp [onDevRead, field8_f8])]
    rfl
  | devWrite a n vs =>
    cases hw
    have hn := n.isLt
    refine ⟨.devWrite a n fun i => (firstN vs n.toNat).getD i 0, ?_, rfl, rfl, fun i hi => (firstN_getD _ _ _ hi).symm⟩
    show readCmd L j (i8 8 :: .record [("addr", f8 a), ("values", .blob (firstN vs n.toNat))] :: rest) = _
    rw [readCmd_num]
    show (readRecord (onDevWrite L) _ _).map _ = _
    have h2 : onDevWrite L (a, j.size.setWidth 8, []) "values" (.blob (firstN vs n.toNat)) = some (a, n, firstN vs n.toNat) := by
      have : fieldBlob 256 (.blob (firstN vs n.toNat)) = some (firstN vs n.toNat) := if_pos (by rw [firstN_length]; omega)
      simp [onDevWrite, this, firstN_length]
    rw [readRecord_two (a1 := (a, j.size.setWidth 8, [])) (a2 := (a, n, firstN vs n.toNat)) rest (by simp [onDevWrite, field8_f8]) h2]
    rfl
  | memRead a n =>
    have hn : n.toNat ≤ 4096 := he
    have hn' : ¬ MAX_MEM_ACCESS < n.toNat := by unfold MAX_MEM_ACCESS; omega
    simp only [writeCmd, if_neg hn'] at hw
    cases hw
    refine ⟨.memRead a n, ?_, rfl⟩
    show readCmd L j (i8 9 :: .record [("addr", f16 a), ("size", f16 n)] :: rest) = _
    rw [readCmd_num]
    show (readRecord (onMemRead L) _ _).map _ = _
    rw [readRecord_two (a1 := (a, j.size)) (a2 := (a, n)) rest (by simp [onMemRead, field16_f16])
      (by simp only [onMemRead, field16_f16, if_neg hn']; rfl)]
    rfl
  | memWrite a n vs =>
    have hn : n.toNat ≤ 255 := he
    cases hw
    refine ⟨.memWrite a n fun i => (firstN vs n.toNat).getD i 0, ?_, rfl, rfl, fun i hi => (firstN_getD _ _ _ hi).symm⟩
    show readCmd L j (i8 10 :: .record [("addr", f16 a), ("values", .blob (firstN vs n.toNat))] :: rest) = _
    rw [readCmd_num]
    show (readRecord (onMemWrite L) _ _).map _ = _
    have hs : (BitVec.ofNat 8 n.toNat).setWidth 16 = n := by
      apply BitVec.eq_of_toNat_eq
      rw [BitVec.toNat_setWidth, BitVec.toNat_ofNat]; omega
    have h2 : onMemWrite L (a, j.size, []) "values" (.blob (firstN vs n.toNat)) = some (a, n, firstN vs n.toNat) := by
      have : fieldBlob MAX_MEM_ACCESS (.blob (firstN vs n.toNat)) = some (firstN vs n.toNat) :=
        if_pos (by rw [firstN_length]; unfold MAX_MEM_ACCESS; omega)
      unfold onMemWrite
      rw [if_neg (by decide), if_pos rfl, this, Option.map_some, firstN_length, hs]
    rw [readRecord_two (a1 := (a, j.size, [])) (a2 := (a, n, firstN vs n.toNat)) rest (by simp [onMemWrite, field16_f16]) h2]
    rfl

/-- **C28**, messages. Every documented message within the limits is written, and reading it back, followed by
anything, gives the same message and leaves what follows. -/
theorem C28_round_trip_partial (L : Lib) (j : Junk) (m : Msg) (hm : Encodable m) (rest : List Item) :
    ∃ items m', writeMsg m = some items ∧ readMsg L j (items ++ rest) = some (m', rest) ∧ SameMsg m m' := by
  cases m with
  | beginExec a =>
    refine ⟨_, .beginExec a, rfl, ?_, rfl⟩
    show readMsg L j (i8 0 :: i16 a :: rest) = _
    rw [readMsg_num]
    show (readInt16 L _).map _ = _
    rw [readInt16_i16]; rfl
  | endExec => exact ⟨_, .endExec, rfl, readMsg_num L j 1 rest, rfl⟩
  | beginBreak id =>
    refine ⟨_, .beginBreak id, rfl, ?_, rfl⟩
    show readMsg L j (i8 2 :: i8 id :: rest) = _
    rw [readMsg_num]
    show (readInt8 L _).map _ = _
    rw [readInt8_i8]; rfl
  | endBreak => exact ⟨_, .endBreak, rfl, readMsg_num L j 3 rest, rfl⟩
  | paused => exact ⟨_, .paused, rfl, readMsg_num L j 4 rest, rfl⟩
  | request c =>
    have start : ∀ its, readMsg L j ((i8 5 :: its) ++ rest) = (readCmd L j (its ++ rest)).map fun x => (.request x.1, x.2) :=
      fun its => readMsg_num L j 5 (its ++ rest)
    cases c with
    | go g =>
      refine ⟨_, .request (.go g), rfl, ?_, rfl⟩
      rw [start]
      show (readCmd L j (i8 (goNum g) :: rest)).map _ = _
      rw [readCmd_go]; rfl
    | ask q =>
      have hw : ∃ items, writeCmd (.ask q) = some items := by
        cases q with
        | memRead a n =>
          have hn : n.toNat ≤ 4096 := hm
          refine ⟨_, if_neg (by unfold MAX_MEM_ACCESS; omega)⟩
        | _ => exact ⟨_, rfl⟩
      obtain ⟨items, hw⟩ := hw
      obtain ⟨q', hr, hs⟩ := readCmd_writeCmd L j q rest items hm hw
      refine ⟨i8 5 :: items, .request (.ask q'), by simp only [writeMsg, hw, Option.map], ?_, hs⟩
      rw [start, hr]; rfl

/-- Reading `n` messages one after the other. -/
def readMany (L : Lib) (j : Nat → Junk) : Nat → List Item → Option (List Msg × List Item)
  | 0, items => some ([], items)
  | n + 1, items => do
    let (m, items) ← readMsg L (j n) items
    let (ms, items) ← readMany L j n items
    some (m :: ms, items)

/-- **C28**: a series of messages is read back as that series, and nothing after it is consumed. -/
theorem C28_stream_partial (L : Lib) (j : Nat → Junk) (ms : List Msg) (hm : ∀ m ∈ ms, Encodable m) (rest : List Item) :
    ∃ written ms', ms.mapM writeMsg = some written ∧
      readMany L j ms.length (written.flatten ++ rest) = some (ms', rest) ∧ List.Forall₂ SameMsg ms ms' := by
  induction ms with
  | nil => exact ⟨[], [], rfl, rfl, .nil⟩
  | cons m ms ih =>
    obtain ⟨written, ms', h1, h2, h3⟩ := ih fun m' h => hm m' (List.mem_cons_of_mem _ h)
    obtain ⟨its, m', hw, hr, hs⟩ := C28_round_trip_partial L (j ms.length) m (hm m List.mem_cons_self) (written.flatten ++ rest)
    refine ⟨its :: written, m' :: ms', ?_, ?_, .cons hs h3⟩
    · simp only [List.mapM_cons, hw, h1, bind, Option.bind, pure]
    · simp only [List.length_cons, readMany, List.flatten_cons, List.append_assoc, hr, h2, bind, Option.bind]

/-- **C28**, replies: what the server answers is what the client gets, whatever was in its variables. -/
theorem C28_reply (L : Lib) (j : Junk) (junk : Brkp) (q : Query) (r : Reply) (h : Answers q r) (rest : List Item) :
    readReply L j (.ask q) (writeReply junk (.ask q) r ++ rest) = some (r, rest) := by
  have start : readReply L j (.ask q) (writeReply junk (.ask q) r ++ rest) = readAnswer L j q (writeAnswer junk r ++ rest) := by
    simp only [readReply, writeReply, List.cons_append, readInt8_i8, Option.bind, if_true]
  rw [start]
  have hstack : ∀ (p : Byte) (data : Byte → Byte),
      (readRecord (onStack L) (j.id, []) (writeAnswer junk (.stack p data) ++ rest)).map (fun x =>
        (Reply.stack x.1.1 fun i => x.1.2.getD i.toNat 0, x.2)) = some (.stack p data, rest) := by
    intro p data
    have hl : ((List.range 256).map fun i => data (BitVec.ofNat 8 i)).length = 256 := by
      rw [List.length_map, List.length_range]
    have hg : (fun i : Byte => ((List.range 256).map fun i => data (BitVec.ofNat 8 i)).getD i.toNat 0) = data := by
      funext i
      have hi := i.isLt
      rw [List.getD_eq_getElem _ _ (by rw [hl]; exact hi), List.getElem_map, List.getElem_range,
        BitVec.ofNat_toNat, BitVec.setWidth_eq]
    show (readRecord (onStack L) (j.id, []) (.record [("pointer", f8 p), ("data", .blob ((List.range 256).map fun i => data (BitVec.ofNat 8 i)))] :: rest)).map _ = _
    generalize (List.range 256).map (fun i => data (BitVec.ofNat 8 i)) = l at hl hg ⊢
    have h2 : onStack L (p, []) "data" (.blob l) = some (p, l) := by
      have : fieldBlob 256 (.blob l) = some l := if_pos (by omega)
      unfold onStack
      rw [if_neg (by decide), if_pos rfl, this]
      exact if_neg (by omega)
    rw [readRecord_two (a1 := (p, [])) (a2 := (p, l)) rest (by simp [onStack, field8_f8]) h2]
    rw [Option.map_some, hg]
  have hblob : ∀ (vs : List Byte) (n : Nat), vs.length = n → readBlob n (.val (.blob vs) :: rest) = some (.bytes vs, rest) := by
    intro vs n h
    have : fieldBlob n (.blob vs) = some vs := if_pos (by omega)
    unfold readBlob
    dsimp only
    rw [this]
    dsimp only
    exact if_neg (by omega)
  cases q <;> cases r <;> try exact h.elim
  · show (readInt16 L (i16 _ :: rest)).map _ = _
    rw [readInt16_i16]; rfl
  · exact hstack _ _
  · exact hstack _ _
  · show (readInt8 L (i8 _ :: rest)).map _ = _
    rw [readInt8_i8]; rfl
  · rename_i id b
    obtain ⟨b, rfl⟩ := Option.isSome_iff_exists.mp h.2
    show (readRecord (onBrkp L) (j.addr, j.mask) (.record [("addr", f16 b.addr), ("mask", f8 b.mask)] :: rest)).map _ = _
    rw [readRecord_two (a1 := (b.addr, j.mask)) (a2 := (b.addr, b.mask)) rest (by simp [onBrkp, field16_f16])
      (by simp [onBrkp, field8_f8])]
    rfl
  · rfl
  · exact hblob _ _ h
  · rfl
  · exact hblob _ _ h
  · rfl

/-- Replies to the commands that let the program go on carry nothing but the command's number. -/
theorem C28_reply_go (L : Lib) (j : Junk) (junk : Brkp) (g : Go) (rest : List Item) :
    readReply L j (.go g) (writeReply junk (.go g) .done ++ rest) = some (.done, rest) := by
  simp only [readReply, writeReply, writeAnswer, List.cons_append, List.nil_append, readInt8_i8, Option.bind, if_true]

/-- The debugger core gives answers of that kind to every command that is in the enumerations. -/
theorem answer_answers {σ : Type} (H : Host σ) (pc : Short) (q : Query) (vm : VM) (h : σ) (d : Dbg) (r : Reply) (vm' : VM) (h' : σ) (d' : Dbg)
    (hq : ∀ t i, q ≠ .nop t i) (hid : q ≠ .brkpGet 255) (e : answer H pc q vm h d = .ok (r, vm', h', d')) : Answers q r := by
  cases q with
  | infoPc => cases e; trivial
  | infoWst => cases e; trivial
  | infoRst => cases e; trivial
  | infoNbrkps => cases e; trivial
  | brkpSet id b => cases e; trivial
  | nop t i => exact (hq t i rfl).elim
  | brkpGet id =>
    simp only [answer, bind, Except.bind, pure, Except.pure] at e
    split at e
    · split at e
      · cases e
      · cases e; exact ⟨fun hh => hid (by rw [hh]), rfl⟩
    · rename_i hn
      have : id = 255 := by simpa [NONE] using hn
      exact (hid (by rw [this])).elim
  | devRead a n =>
    have key : ∀ left i vm h x, devRead H a i left vm h = .ok x → x.1.length = left := by
      intro left
      induction left with
      | zero => intro i vm h x e; cases e; rfl
      | succ left ih =>
        intro i vm h x e
        simp only [devRead, bind, Except.bind, pure, Except.pure] at e
        split at e
        · cases e
        · split at e
          · cases e
          · rename_i y hy
            cases e
            simp [ih _ _ _ _ hy]
    simp only [answer, bind, Except.bind, pure, Except.pure] at e
    split at e
    · cases e
    · rename_i y hy; cases e; exact key _ _ _ _ _ hy
  | devWrite a n vs =>
    simp only [answer, bind, Except.bind, pure, Except.pure] at e
    split at e
    · cases e
    · cases e; trivial
  | memRead a n =>
    have key : ∀ left i x, memRead vm a i left = .ok x → x.length = left := by
      intro left
      induction left with
      | zero => intro i x e; cases e; rfl
      | succ left ih =>
        intro i x e
        simp only [memRead, bind, Except.bind, pure, Except.pure] at e
        split at e
        · cases e
        · split at e
          · cases e
          · rename_i y hy
            cases e
            simp [ih _ _ hy]
    simp only [answer, bind, Except.bind, pure, Except.pure] at e
    split at e
    · cases e
    · rename_i y hy; cases e; exact key _ _ _ hy
  | memWrite a n vs =>
    simp only [answer, bind, Except.bind, pure, Except.pure] at e
    split at e
    · cases e
    · cases e; trivial

/-- **C28**, from end to end: the client receives what the core answered. -/
theorem C28_end_to_end {σ : Type} (L : Lib) (j : Junk) (junk : Brkp) (H : Host σ) (pc : Short) (q : Query) (vm vm' : VM) (h h' : σ)
    (d d' : Dbg) (r : Reply) (hq : ∀ t i, q ≠ .nop t i) (hid : q ≠ .brkpGet 255)
    (e : answer H pc q vm h d = .ok (r, vm', h', d')) (rest : List Item) :
    readReply L j (.ask q) (writeReply junk (.ask q) r ++ rest) = some (r, rest) :=
  C28_reply L j junk q r (answer_answers H pc q vm h d r vm' h' d' hq hid e) rest

/-- **C28**, malformed input: a first item that is no integer, or no message number, is refused. -/
theorem C28_bad_type (L : Lib) (j : Junk) (items : List Item)
    (h : match items with
      | .val (.int n) :: _ => 6 ≤ n ∧ n < 256
      | _ => True) : readMsg L j items = none := by
  unfold readMsg
  split at h
  · rename_i n rest
    simp only [readInt8, L.fits8 n h.2, Option.map, Option.bind, readMsgBody]
    have h' : ∀ k < 6, BitVec.ofNat 8 n ≠ BitVec.ofNat 8 k := by
      intro k hk e
      have := congrArg BitVec.toNat e
      simp at this; omega
    have h0 : BitVec.ofNat 8 n ≠ 0 := h' 0 (by omega)
    have h1 : BitVec.ofNat 8 n ≠ 1 := h' 1 (by omega)
    have h2 : BitVec.ofNat 8 n ≠ 2 := h' 2 (by omega)
    have h3 : BitVec.ofNat 8 n ≠ 3 := h' 3 (by omega)
    have h4 : BitVec.ofNat 8 n ≠ 4 := h' 4 (by omega)
    have h5 : BitVec.ofNat 8 n ≠ 5 := h' 5 (by omega)
    rw [if_neg h0, if_neg h1, if_neg h2, if_neg h3, if_neg h4, if_neg h5]
  · rename_i hne
    cases items with
    | nil => rfl
    | cons x xs =>
      cases x with
      | record fs => rfl
      | val f =>
        cases f with
        | blob bs => rfl
        | int n => exact (hne n xs rfl).elim

theorem foldlM_inv {α β : Type} (P : α → Prop) (f : α → β → Option α) (hf : ∀ a b a', P a → f a b = some a' → P a') (l : List β)
    (a a' : α) (ha : P a) (h : l.foldlM f a = some a') : P a' := by
  induction l generalizing a with
  | nil => cases h; exact ha
  | cons b l ih =>
    simp only [List.foldlM_cons, bind, Option.bind] at h
    split at h
    · cases h
    · rename_i x hx; exact ih x (hf _ _ _ ha hx) h

/-- The number of buffer bytes a command makes the core write (for an answer) or read (the values of a write). -/
def bufferUse : Query → Nat
  | .infoPc => 2 + 1
  | .infoWst => 257
  | .infoRst => 257
  | .infoNbrkps => 1
  | .brkpGet _ => 4 + 1
  | .devRead _ n => n.toNat
  | .devWrite _ n _ => n.toNat
  | .memRead _ n => n.toNat
  | .memWrite _ n _ => n.toNat
  | .brkpSet _ _ => 0
  | .nop _ _ => 0

theorem ite_cases {α : Type} {c : Prop} [Decidable c] {a b r : α} (h : (if c then a else b) = r) : (c ∧ a = r) ∨ (¬ c ∧ b = r) := by
  split at h
  · exact Or.inl ⟨‹_›, h⟩
  · exact Or.inr ⟨‹_›, h⟩

theorem readMsg_request {L : Lib} {j : Junk} {items rest : List Item} {c : Cmd} (h : readMsg L j items = some (.request c, rest)) :
    ∃ items', readCmd L j items' = some (c, rest) := by
  unfold readMsg at h
  cases hx : readInt8 L items with
  | none => rw [hx] at h; cases h
  | some x =>
    rw [hx] at h
    replace h : readMsgBody L j x.1 x.2 = _ := h
    unfold readMsgBody at h
    have hmap : ∀ {α β : Type} {o : Option α} {f : α → β} {b : β}, o.map f = some b → ∃ a, o = some a ∧ f a = b :=
      fun h => by simpa using h
    split at h
    · obtain ⟨_, _, e⟩ := hmap h; cases e
    split at h
    · cases h
    split at h
    · obtain ⟨_, _, e⟩ := hmap h; cases e
    split at h
    · cases h
    split at h
    · cases h
    split at h
    · obtain ⟨y, hy, e⟩ := hmap h; cases e; exact ⟨_, hy⟩
    · cases h

theorem readRecord_inv {α : Type} (P : α → Prop) {f : α → String → Field → Option α} (hf : ∀ a k v a', P a → f a k v = some a' → P a')
    {a a' : α} {items rest : List Item} (ha : P a) (h : readRecord f a items = some (a', rest)) : P a' := by
  cases items with
  | nil => cases h
  | cons x xs =>
    cases x with
    | val v => cases h
    | record fs =>
      simp only [readRecord, Option.map] at h
      split at h
      · rename_i y hy
        cases h
        exact foldlM_inv P _ (fun a b a' hp h => hf a b.1 b.2 a' hp h) fs a a' ha hy
      · cases h

/-- **C28**: whatever arrives, a command that is accepted stays within the message buffer of 4096 bytes. The hypothesis
is about the case that the size is missing in a memory read or write and the library lets that pass: then the
uninitialised variable is used. -/
theorem C28_fits_buffer (L : Lib) (j : Junk) (hj : j.size.toNat ≤ 4096) (items rest : List Item) (q : Query)
    (h : readMsg L j items = some (.request (.ask q), rest)) : bufferUse q ≤ 4096 := by
  obtain ⟨items', h⟩ := readMsg_request h
  have hmap : ∀ {α β : Type} {o : Option α} {f : α → β} {b : β}, o.map f = some b → ∃ a, o = some a ∧ f a = b :=
    fun h => by simpa using h
  unfold readCmd at h
  cases hx : readInt8 L items' with
  | none => rw [hx] at h; cases h
  | some x =>
    rw [hx] at h
    replace h : readCmdBody L j x.1 x.2 = _ := h
    unfold readCmdBody at h
    rcases ite_cases h with ⟨_, h⟩ | ⟨_, h⟩
    · obtain ⟨y, _, e⟩ := hmap h
      injection e with e _; injection e with e
      subst e
      repeat' split
      all_goals first | decide | (show 0 ≤ 4096; omega)
    rcases ite_cases h with ⟨_, h⟩ | ⟨_, h⟩
    · cases h
    rcases ite_cases h with ⟨_, h⟩ | ⟨_, h⟩
    · cases h
    rcases ite_cases h with ⟨_, h⟩ | ⟨_, h⟩
    · cases h
    rcases ite_cases h with ⟨_, h⟩ | ⟨_, h⟩
    · cases h
    rcases ite_cases h with ⟨_, h⟩ | ⟨_, h⟩
    · obtain ⟨y, _, e⟩ := hmap h
      cases e; show 5 ≤ 4096; omega
    rcases ite_cases h with ⟨_, h⟩ | ⟨_, h⟩
    · obtain ⟨y, _, e⟩ := hmap h
      cases e; show 0 ≤ 4096; omega
    rcases ite_cases h with ⟨_, h⟩ | ⟨_, h⟩
    · obtain ⟨y, _, e⟩ := hmap h
      cases e
      have := y.1.2.isLt
      show y.1.2.toNat ≤ 4096; omega
    rcases ite_cases h with ⟨_, h⟩ | ⟨_, h⟩
    · obtain ⟨y, _, e⟩ := hmap h
      cases e
      have := y.1.2.1.isLt
      show y.1.2.1.toNat ≤ 4096; omega
    rcases ite_cases h with ⟨_, h⟩ | ⟨_, h⟩
    · obtain ⟨y, hy, e⟩ := hmap h
      cases e
      show y.1.2.toNat ≤ 4096
      refine readRecord_inv (fun a : Short × Short => a.2.toNat ≤ 4096) ?_ hj hy
      intro a k v a' ha e
      unfold onMemRead at e
      split at e
      · obtain ⟨w, _, e⟩ := hmap e; rw [← e]; exact ha
      split at e
      · split at e
        · cases e
        · split at e
          · cases e
          · rename_i hn; cases e; unfold MAX_MEM_ACCESS at hn; dsimp only; omega
      · cases e; exact ha
    rcases ite_cases h with ⟨_, h⟩ | ⟨_, h⟩
    · obtain ⟨y, hy, e⟩ := hmap h
      cases e
      show y.1.2.1.toNat ≤ 4096
      refine readRecord_inv (fun a : Short × Short × List Byte => a.2.1.toNat ≤ 4096) ?_ hj hy
      intro a k v a' ha e
      unfold onMemWrite at e
      split at e
      · obtain ⟨w, _, e⟩ := hmap e; rw [← e]; exact ha
      split at e
      · obtain ⟨w, _, e⟩ := hmap e
        rw [← e]
        have := (BitVec.ofNat 8 w.length).isLt
        dsimp only
        rw [BitVec.toNat_setWidth]
        omega
      · cases e; exact ha
    · cases h; show 0 ≤ 4096; omega

/-- A library that refuses integers that do not fit. -/
def strictLib : Lib where
  narrow8 n := if n < 256 then some (BitVec.ofNat 8 n) else none
  narrow16 n := if n < 65536 then some (BitVec.ofNat 16 n) else none
  fits8 _ h := if_pos h
  fits16 _ h := if_pos h

def noJunk : Junk := ⟨0, 0, 0, 0⟩

/-- Non-vacuity: a memory write of three bytes. -/
example : ∃ items m', writeMsg (.request (.ask (.memWrite 0x1234 3 fun i => BitVec.ofNat 8 (i + 7)))) = some items ∧
    readMsg strictLib noJunk items = some (.request (.ask m'), []) ∧
    SameQuery (.memWrite 0x1234 3 fun i => BitVec.ofNat 8 (i + 7)) m' :=
  ⟨_, _, rfl, rfl, rfl, rfl, fun i h => by
    have h : i < 3 := h
    have : i = 0 ∨ i = 1 ∨ i = 2 := by omega
    rcases this with rfl | rfl | rfl <;> rfl⟩

/-- The property is violated by memory writes of more than 255 bytes: of 256 bytes none arrives. -/
theorem C28_long_write_violated (L : Lib) (j : Junk) (vs : Nat → Byte) : ∃ items q', writeMsg (.request (.ask (.memWrite 0x1000 256 vs))) = some items ∧
    readMsg L j items = some (.request (.ask (.memWrite 0x1000 0 q')), []) := by
  refine ⟨_, fun i => (firstN vs 256).getD i 0, rfl, ?_⟩
  show readMsg L j (i8 5 :: i8 10 :: .record [("addr", f16 0x1000), ("values", .blob (firstN vs 256))] :: []) = _
  rw [readMsg_num]
  show (readCmd L j _).map _ = _
  rw [readCmd_num]
  show ((readRecord (onMemWrite L) _ _).map _).map _ = _
  have h2 : onMemWrite L (0x1000, j.size, []) "values" (.blob (firstN vs 256)) = some (0x1000, 0, firstN vs 256) := by
    have : fieldBlob MAX_MEM_ACCESS (.blob (firstN vs 256)) = some (firstN vs 256) := by
      unfold fieldBlob
      dsimp only
      rw [firstN_length, if_pos (by decide)]
    unfold onMemWrite
    rw [if_neg (by decide), if_pos rfl, this, Option.map_some, firstN_length]
    rfl
  rw [readRecord_two (a1 := (0x1000, j.size, [])) (a2 := (0x1000, 0, firstN vs 256)) [] (by simp [onMemWrite, field16_f16]) h2]
  rfl

/-- Command numbers outside the enumeration are accepted rather than refused ... -/
theorem C28_unknown_violated : ∃ q, readMsg strictLib noJunk [i8 5, i8 200] = some (.request (.ask q), []) := ⟨_, rfl⟩

/-- ... but they do nothing. -/
theorem C28_unknown_harmless {σ : Type} (H : Host σ) (pc : Short) (t i : Byte) (vm : VM) (h : σ) (d : Dbg) :
    answer H pc (.nop t i) vm h d = .ok (.done, vm, h, d) := rfl

end Buxn.Dbg
