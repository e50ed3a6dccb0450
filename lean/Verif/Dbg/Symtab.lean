import Verif.Dbg.StrPool
import Mathlib.Algebra.BigOperators.Group.Finset.Basic
import Mathlib.Data.List.GetD
/-!
# Writing and reading debug symbol files

Models `buxn_dbg_write_symtab`, `buxn_dbg_read_symtab_header` and `buxn_dbg_read_symtab`
(`/repo/src/dbg/symtab.c:142-409`) and the allocation of strings (`/repo/src/dbg/btmp_buf.h:12-37`).

The serialisation library `bserial` is not part of the repository. A file is modelled by what the library makes of it:
the header (an array length and a record) and the body record with its two sections. What is assumed about the library:
what is written is read back in the same order; an integer that fits the variable it is read into is read as it is (what
happens to one that does not is left open); a record is read field by field, each goes to the `BSERIAL_KEY` of its name,
a missing field leaves the variable as it was, an unknown one is skipped; a blob of announced length `n` writes `n` bytes,
or fewer and then an I/O error if the input ends. File positions and field order are as in the file, also when it was not
written by the writer.

Pointers are 64 bit; signed overflow in `btmp_buf_alloc` (undefined in C) wraps around. Memory is a function from
addresses to bytes; a store outside of the string area of the table is the error `oob`.
-/

namespace Buxn.Symtab
open Buxn.VM

abbrev Ptr64 := BitVec 64

/-- A position in a source file, `asm.h:14-18`; the fields are `int`. -/
structure Pos where
  line : BitVec 32
  col : BitVec 32
  byte : BitVec 32
  deriving DecidableEq, Repr

/-- `buxn_dbg_sym_t`, `symtab.h:26-32`, with the file name kept as an `F`. -/
structure Sym (F : Type) where
  type : Byte
  id : Short
  addrMin : Short
  addrMax : Short
  file : F
  start : Pos
  stop : Pos
  deriving DecidableEq, Repr

/-- A blob: announced length, and the bytes that follow in the input. -/
structure Blob where
  len : BitVec 64
  data : List Byte
  deriving DecidableEq, Repr

/-- The value of a field of the body record. -/
inductive Sect where
  | array (len : BitVec 64) (blobs : List Blob)
  | table (len : BitVec 64) (rows : List (List (String × Int)))
  deriving DecidableEq, Repr

/-- A symbol file. -/
structure SymFile where
  headerLen : BitVec 64
  header : List (String × Int)
  body : List (String × Sect)
  deriving DecidableEq, Repr

inductive Err where
  | malformed | io | oob
  deriving DecidableEq, Repr

/-- `bserial_any_int` in read mode, by type of the variable. -/
structure Lib where
  u8 : Int → Option Byte
  u16 : Int → Option Short
  u32 : Int → Option (BitVec 32)
  i32 : Int → Option (BitVec 32)
  fits8 : ∀ b : Byte, u8 b.toNat = some b
  fits16 : ∀ b : Short, u16 b.toNat = some b
  fits32 : ∀ b : BitVec 32, u32 b.toNat = some b
  fitsI32 : ∀ b : BitVec 32, i32 b.toInt = some b

/-! ## Writing -/

/-- The loop of `symtab.c:337-354` with `strpool_size`. -/
def insertSized (hash : Ptr → BitVec 64) (e fuel : Nat) (nameLen : Ptr → Nat) : List Ptr → Slots → BitVec 32 → Option (Slots × BitVec 32)
  | [], slots, size => some (slots, size)
  | f :: fs, slots, size =>
    match insertLoop (hash f) e f slots fuel (startIdx (hash f)) with
    | none => none
    | some (slots, new) =>
      insertSized hash e fuel nameLen fs slots (if new then size + (BitVec.ofNat 32 (nameLen f) + 1) else size)

/-- One row, `symtab.c:234-300` in write mode. -/
def writeRow (s : Sym Ptr) (strId : BitVec 32) : List (String × Int) :=
  [("type", s.type.toNat), ("id", s.id.toNat), ("addr_min", s.addrMin.toNat), ("addr_max", s.addrMax.toNat),
   ("filename", strId.toNat), ("start.line", s.start.line.toInt), ("start.col", s.start.col.toInt),
   ("start.byte", s.start.byte.toInt), ("end.line", s.stop.line.toInt), ("end.col", s.stop.col.toInt),
   ("end.byte", s.stop.byte.toInt)]

/-- `symtab.c:230-301` in write mode: all rows. The check of `:269` is against the number of symbols. -/
def writeRows (hash : Ptr → BitVec 64) (e fuel : Nat) (slots : Slots) (numSymbols : BitVec 32) : List (Sym Ptr) → Option (List (List (String × Int)))
  | [] => some []
  | s :: ss =>
    match lookupLoop (hash s.file) e s.file slots fuel (startIdx (hash s.file)) with
    | none => none
    | some i =>
      let strId := BitVec.ofNat 32 (idOf slots i)
      if numSymbols ≤ strId then none
      else (writeRows hash e fuel slots numSymbols ss).map (writeRow s strId :: ·)

/-- `buxn_dbg_write_symtab`, `symtab.c:323-380`. `none`: malformed, or a loop that does not end within `fuel` rounds. -/
def write (hash : Ptr → BitVec 64) (fuel numFiles : Nat) (names : Ptr → List Byte) (syms : List (Sym Ptr)) : Option SymFile :=
  let e := expFor numFiles
  match insertSized hash e fuel (fun f => (names f).length) (syms.map (·.file)) (fun _ => none) 0 with
  | none => none
  | some (slots, size) =>
    let pool := poolList slots e
    let numStrings := BitVec.ofNat 32 (idOf slots (2 ^ e))
    let numSymbols := BitVec.ofNat 32 syms.length
    match writeRows hash e fuel slots numSymbols syms with
    | none => none
    | some rows => some {
        headerLen := 2
        header := [("num_symbols", numSymbols.toNat), ("num_strings", numStrings.toNat), ("string_pool_size", size.toNat)]
        body := [("strpool", .array (numStrings.setWidth 64) (pool.map fun f => ⟨BitVec.ofNat 64 (names f).length, names f⟩)),
          ("symtab", .table (numSymbols.setWidth 64) rows)] }

/-! ## Reading -/

structure Header where
  numSymbols : BitVec 32
  numStrings : BitVec 32
  poolSize : BitVec 32
  deriving DecidableEq, Repr

/-- `bserial_any_int` and `BSERIAL_CHECK_STATUS`. -/
def getInt {α : Type} (n : Int → Option α) (v : Int) : Except Err α :=
  match n v with
  | some x => .ok x
  | none => .error .malformed

/-- The fields of the header record, `symtab.c:172-185`. -/
def onHeader (L : Lib) (h : Header) (kv : String × Int) : Except Err Header :=
  if kv.1 = "num_symbols" then (getInt L.u32 kv.2).map fun x => { h with numSymbols := x }
  else if kv.1 = "num_strings" then (getInt L.u32 kv.2).map fun x => { h with numStrings := x }
  else if kv.1 = "string_pool_size" then (getInt L.u32 kv.2).map fun x => { h with poolSize := x }
  else .ok h

/-- `buxn_dbg_read_symtab_header`, `symtab.c:165-188`, `:383-388`; the header starts as zeros (`:127`). -/
def readHeader (L : Lib) (f : SymFile) : Except Err Header :=
  if f.headerLen ≠ 2 then .error .malformed
  else f.header.foldlM (onHeader L) ⟨0, 0, 0⟩

abbrev Mem := Nat → Byte

/-- The string area of the table: `header.string_pool_size` bytes at `base` (`symtab.c:151`, `:158`). -/
structure Area where
  base : Nat
  size : Nat

/-- A store of one byte. -/
def store (A : Area) (mem : Mem) (a : Nat) (v : Byte) : Except Err Mem :=
  if A.base ≤ a ∧ a < A.base + A.size then .ok (upd mem a v) else .error .oob

/-- `btmp_buf_t`, `btmp_buf.h:7-10`. -/
structure Buf where
  mem : Ptr64
  size : BitVec 64

/-- `btmp_buf_alloc` with alignment 1, `btmp_buf.h:12-28`. -/
def alloc (b : Buf) (size : BitVec 64) : Option (Ptr64 × Buf) :=
  let aligned := (b.mem + 1 - 1) &&& (-1)
  let newPtr := aligned + size
  let bufEnd := b.mem + b.size
  if newPtr.sle bufEnd then some (aligned, ⟨newPtr, b.size - (newPtr - b.mem)⟩) else none

/-- `btmp_buf_alloc_str`, `btmp_buf.h:31-37`. -/
def allocStr (A : Area) (b : Buf) (mem : Mem) (len : BitVec 64) : Except Err (Ptr64 × Buf × Mem) :=
  match alloc b (len + 1) with
  | none => .error .malformed
  | some (str, b) => (store A mem (str + len).toNat 0).map fun mem => (str, b, mem)

/-- The bytes of a blob stored at `a`, one after the other. -/
def storeAll (A : Area) (a : Ptr64) : List Byte → Mem → Except Err Mem
  | [], mem => .ok mem
  | v :: vs, mem => (store A mem a.toNat v).bind fun mem => storeAll A (a + 1) vs mem

/-- `bserial_blob_body`: at most `len` bytes; too few are an I/O error. -/
def blobBody (A : Area) (mem : Mem) (str : Ptr64) (blob : Blob) : Except Err Mem :=
  (storeAll A str (blob.data.take blob.len.toNat) mem).bind fun mem =>
    if blob.data.length < blob.len.toNat then .error .io else .ok mem

/-- One string of the pool, `symtab.c:207-212`. -/
def readBlob (A : Area) (b : Buf) (mem : Mem) (blob : Blob) : Except Err (Ptr64 × Buf × Mem) :=
  (allocStr A b mem blob.len).bind fun r => (blobBody A r.2.2 r.1 blob).map fun mem => (r.1, r.2.1, mem)

abbrev Strings := Nat → Option Ptr64

/-- The loop of `symtab.c:206-213` over `left` more strings, from index `i`. -/
def readPool (A : Area) : Nat → Nat → List Blob → Buf → Mem → Strings → Except Err (Buf × Mem × Strings)
  | 0, _, _, b, mem, strings => .ok (b, mem, strings)
  | _ + 1, _, [], _, _, _ => .error .io
  | left + 1, i, blob :: blobs, b, mem, strings =>
    (readBlob A b mem blob).bind fun r => readPool A left (i + 1) blobs r.2.1 r.2.2 (upd strings i (some r.1))

/-- A field of a row, `symtab.c:237-298` in read mode. -/
def onRow (L : Lib) (numStrings : BitVec 32) (strings : Strings) (s : Sym (Option Ptr64)) (kv : String × Int) : Except Err (Sym (Option Ptr64)) :=
  if kv.1 = "type" then (getInt L.u8 kv.2).map fun x => { s with type := x }
  else if kv.1 = "id" then (getInt L.u16 kv.2).map fun x => { s with id := x }
  else if kv.1 = "addr_min" then (getInt L.u16 kv.2).map fun x => { s with addrMin := x }
  else if kv.1 = "addr_max" then (getInt L.u16 kv.2).map fun x => { s with addrMax := x }
  else if kv.1 = "filename" then
    (getInt L.u32 kv.2).bind fun x => if numStrings ≤ x then .error .malformed else .ok { s with file := strings x.toNat }
  else if kv.1 = "start.line" then (getInt L.i32 kv.2).map fun x => { s with start := { s.start with line := x } }
  else if kv.1 = "start.col" then (getInt L.i32 kv.2).map fun x => { s with start := { s.start with col := x } }
  else if kv.1 = "start.byte" then (getInt L.i32 kv.2).map fun x => { s with start := { s.start with byte := x } }
  else if kv.1 = "end.line" then (getInt L.i32 kv.2).map fun x => { s with stop := { s.stop with line := x } }
  else if kv.1 = "end.col" then (getInt L.i32 kv.2).map fun x => { s with stop := { s.stop with col := x } }
  else if kv.1 = "end.byte" then (getInt L.i32 kv.2).map fun x => { s with stop := { s.stop with byte := x } }
  else .ok s

abbrev Symbols := Nat → Sym (Option Ptr64)

/-- The loop of `symtab.c:234-300` over `left` more rows, from index `i`. -/
def readRows (L : Lib) (numStrings : BitVec 32) (strings : Strings) : Nat → Nat → List (List (String × Int)) → Symbols → Except Err Symbols
  | 0, _, _, syms => .ok syms
  | _ + 1, _, [], _ => .error .io
  | left + 1, i, row :: rows, syms =>
    (row.foldlM (onRow L numStrings strings) (syms i)).bind fun s => readRows L numStrings strings left (i + 1) rows (upd syms i s)

/-- What has been read so far. -/
structure Reader where
  buf : Buf
  mem : Mem
  strings : Strings
  symbols : Symbols

/-- A field of the body record, `symtab.c:199-302` in read mode. -/
def onBody (L : Lib) (A : Area) (h : Header) (r : Reader) (kv : String × Sect) : Except Err Reader :=
  if kv.1 = "strpool" then
    match kv.2 with
    | .array len blobs =>
      if len ≠ h.numStrings.setWidth 64 then .error .malformed
      else (readPool A len.toNat 0 blobs r.buf r.mem r.strings).map fun x => { r with buf := x.1, mem := x.2.1, strings := x.2.2 }
    | .table _ _ => .error .malformed
  else if kv.1 = "symtab" then
    match kv.2 with
    | .table len rows =>
      if len ≠ h.numSymbols.setWidth 64 then .error .malformed
      else (readRows L h.numStrings r.strings len.toNat 0 rows r.symbols).map fun x => { r with symbols := x }
    | .array _ _ => .error .malformed
  else .ok r

/-- The table as the caller sees it: the number of symbols, the symbols, and the memory with the file names. The file name
of a symbol is `none` when the pointer was never set. -/
structure Table where
  num : BitVec 32
  symbols : Symbols
  mem : Mem

/-- `buxn_dbg_read_symtab_header` and `buxn_dbg_read_symtab` (`symtab.c:383-409`) with a string area at `base`. `junk` and
`mem` are what the memory of the caller holds beforehand. -/
def read (L : Lib) (base : Ptr64) (junk : Symbols) (mem : Mem) (f : SymFile) : Except Err Table :=
  (readHeader L f).bind fun h =>
    (f.body.foldlM (onBody L ⟨base.toNat, h.poolSize.toNat⟩ h)
      { buf := ⟨base, h.poolSize.setWidth 64⟩, mem := mem, strings := fun _ => none, symbols := junk }).map fun r =>
        { num := h.numSymbols, symbols := r.symbols, mem := r.mem }

/-! ## Specification -/

/-- At `a` there is the NUL terminated string `bs`. -/
def CStr (mem : Mem) (a : Nat) (bs : List Byte) : Prop := (∀ i, i < bs.length → mem (a + i) = bs.getD i 0) ∧ mem (a + bs.length) = 0

/-- The symbol read back is the one written: all numbers, and a file name with the same characters. -/
def SameSym (mem : Mem) (names : Ptr → List Byte) (out : Sym (Option Ptr64)) (s : Sym Ptr) : Prop :=
  out.type = s.type ∧ out.id = s.id ∧ out.addrMin = s.addrMin ∧ out.addrMax = s.addrMax ∧ out.start = s.start ∧ out.stop = s.stop ∧
    ∃ a, out.file = some a ∧ CStr mem a.toNat (names s.file)

end Buxn.Symtab
