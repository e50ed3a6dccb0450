import Verif.VM.Model
/-!
# The assembler: state, reports and tokenizer

Models `/repo/src/asm/asm.c:1-702` (types, reports, tokenizer) function by function.

Simplifications common to the model of the assembler:
* strings are lists of bytes; memory management (arena, buffers, interning) is not modelled, so a token owns its text.
  The symbol table is a map from names to entries; that the hash tries of the code are such maps is property C40;
* line, column and byte numbers are natural numbers (C: `int`, which is enough for files below 2 GB);
* the cursor and argument of a macro under expansion belong to the unit that is read, not to the macro;
* what the assembler tells its host (`put_rom`, `put_symbol`, `report`, `fopen`, `fclose`) is a log, newest first. The text
  of the offending token and related regions are left out of reports.
-/

namespace Buxn.Asm
open Buxn.VM

abbrev Str := List Byte

/-- A character constant. -/
def ch (c : Char) : Byte := BitVec.ofNat 8 c.toNat

/-- A string constant. -/
def str (s : String) : Str := s.toList.map ch

/-- `buxn_asm_file_pos_t`, `asm.h:14-18`. -/
structure Pos where
  line : Nat
  col : Nat
  byte : Nat
  deriving DecidableEq, Repr

/-- `buxn_asm_source_region_t`, `asm.h:38-41`. -/
structure Region where
  file : Str
  start : Pos
  stop : Pos
  deriving DecidableEq, Repr

/-- `buxn_asm_token_t`, `asm.c:84-87`. -/
structure Token where
  lex : Str
  region : Region
  deriving DecidableEq, Repr

/-- `buxn_asm_label_ref_type_t`, `asm.c:172-176`. -/
inductive RefKind where
  | zero | abs | rel
  deriving DecidableEq, Repr

/-- `buxn_asm_label_ref_size_t`, `asm.c:178-181`. -/
inductive RefSize where
  | byte | short
  deriving DecidableEq, Repr

/-- `buxn_asm_sym_type_t`, `asm.h:25-36`. -/
inductive SymType where
  | macro | macroRef | include | comment | mark | label | labelRef | opcode | number | text
  deriving DecidableEq, Repr

/-- `buxn_asm_sym_t`, `asm.h:43-49`. -/
structure SymInfo where
  type : SymType
  name : Option Str := none
  generated : Bool := false
  region : Region
  id : Short := 0
  deriving DecidableEq, Repr

/-- What the host sees. `ref` and the flag of `rom` are not part of the code: `ref` marks a reference that is being
emitted, with the name and number of its label, the flag a byte that is filled in later. -/
inductive Event where
  | rom (addr : Short) (value : Byte) (patch : Bool)
  | sym (addr : Short) (s : SymInfo)
  | error (msg : String) (region : Region)
  | warning (msg : String) (region : Region)
  | fopen (name : Str)
  | fclose (name : Str)
  | ref (addr : Short) (kind : RefKind) (size : RefSize) (target : Option Str) (id : Short)
  deriving DecidableEq, Repr

/-- `buxn_asm_forward_ref_t`, `asm.c:183-191`, also used for `@`-labels. -/
structure FRef where
  token : Token
  labelId : Short := 0
  lambdaId : Short := 0
  addr : Short
  kind : RefKind := .zero
  size : RefSize := .byte
  deriving DecidableEq, Repr

/-- The union in `buxn_asm_symtab_node_s`, `asm.c:148-152`. -/
inductive Entry where
  | unknown
  | macro (body : List Token) (id : Short) (expanding : Bool)
  | label (id : Short) (addr : Short)
  | forward (id : Short) (refs : List FRef)
  deriving DecidableEq, Repr

/-- `buxn_asm_symtab_node_t`, `asm.c:140-153`. -/
structure Node where
  token : Token
  referenced : Bool
  entry : Entry
  deriving DecidableEq, Repr

/-- A result of `fgetc`, `asm.h:8-9`. -/
inductive Ch where
  | char (b : Byte)
  | eof
  | ioError
  deriving DecidableEq, Repr

/-- `buxn_asm_t`, `asm.c:205-230`. -/
structure Asm where
  writeAddr : Short
  depth : Nat
  readBuf : Option Ch
  success : Bool
  numLabels : Short
  numLambdas : Short
  numMacros : Short
  includes : List Str
  symtab : Str → Option Node
  /-- the keys of `symtab` in the order of creation, newest first -/
  names : List Str
  scope : Str
  lambdas : List FRef
  atLabels : List FRef
  deferred : List (Str × Token)
  log : List Event

/-- `buxn_asm_error_ex`, `asm.c:240-245`, and its variants `:247-281`. -/
def error (msg : String) (r : Region) (s : Asm) : Bool × Asm :=
  (false, { s with success := false, log := .error msg r :: s.log })

/-- `buxn_asm_warning`, `asm.c:283-299`. -/
def warning (msg : String) (r : Region) (s : Asm) : Asm := { s with log := .warning msg r :: s.log }

/-- `buxn_asm_put_symbol`. -/
def putSymbol (addr : Short) (i : SymInfo) (s : Asm) : Asm := { s with log := .sym addr i :: s.log }

def noPos : Pos := ⟨0, 0, 0⟩

/-! ## Reading characters -/

/-- An opened file: what `fgetc` returns, `none` being an I/O error; then end of file forever. -/
abbrev Stream := List (Option Byte)

def fgetc : Stream → Ch × Stream
  | [] => (.eof, [])
  | some b :: st => (.char b, st)
  | none :: st => (.ioError, st)

/-- `buxn_asm_file_unit_t`, `asm.c:96-100`. -/
structure FileUnit where
  stream : Stream
  path : Str
  pos : Pos
  deriving DecidableEq, Repr

/-- `buxn_asm_peek_char`, `asm.c:304-323`. The error function returns `false`, which is the character 0. -/
def peekChar (u : FileUnit) (s : Asm) : Ch × FileUnit × Asm :=
  match s.readBuf with
  | some c => (c, u, s)
  | none =>
    let (c, st) := fgetc u.stream
    let u := { u with stream := st }
    let s := { s with readBuf := some c }
    if c = .ioError then (.char 0, u, (error "I/O error" ⟨u.path, noPos, noPos⟩ s).2) else (c, u, s)

/-- `buxn_asm_consume_char`, `asm.c:325-328`. -/
def consumeChar (s : Asm) : Asm := { s with readBuf := none }

/-- `buxn_asm_get_char`, `asm.c:330-356`. -/
def getChar (u : FileUnit) (s : Asm) : Ch × FileUnit × Asm :=
  let (c, u, s) := peekChar u s
  let s := consumeChar s
  let u := { u with pos := { u.pos with byte := u.pos.byte + 1, col := u.pos.col + 1 } }
  if c = .ioError ∨ c = .eof then (c, u, s)
  else if c = .char (ch '\n') then (c, { u with pos := { u.pos with line := u.pos.line + 1, col := 1 } }, s)
  else if c = .char (ch '\r') then
    let (next, u, s) := peekChar u s
    let s := if next = .char (ch '\n') then consumeChar s else s
    (next, { u with pos := { u.pos with line := u.pos.line + 1, col := 1 } }, s)
  else (c, u, s)

/-- `buxn_asm_is_runic`, `asm.c:358-372`. -/
def isRunic (c : Byte) : Bool :=
  c = ch '{' || c = ch '}' || c = ch '[' || c = ch ']' || c = ch '(' || c = ch ')' || c = ch '|' || c = ch '$' || c = ch '#' || c = ch '"' ||
  c = ch '@' || c = ch '&' || c = ch '/' || c = ch ',' || c = ch '_' || c = ch '.' || c = ch '-' || c = ch ';' || c = ch '=' ||
  c = ch '!' || c = ch '?' || c = ch '%' || c = ch '~'

/-- `'0' <= ch && ch <= '9'`; `char` may be signed, a byte from 128 on is in neither range. -/
def isDigit (c : Byte) : Bool := ch '0' ≤ c && c ≤ ch '9'

def isLowHex (c : Byte) : Bool := ch 'a' ≤ c && c ≤ ch 'f'

/-- The number of leading `+`, at most two: `asm.c:378-380`, also `:1737-1739`. -/
def plusCount (s : Str) : Nat :=
  match s with
  | a :: b :: _ => if a = ch '+' then (if b = ch '+' then 2 else 1) else 0
  | [a] => if a = ch '+' then 1 else 0
  | [] => 0

/-- `buxn_asm_is_number`, `asm.c:374-404`. -/
def isNumber (s : Str) : Bool :=
  if s.length = 0 then false
  else if 0 < plusCount s then (s.drop (plusCount s)).all isDigit
  else s.all fun c => isDigit c || isLowHex c

/-- `buxn_asm_is_uppercased`, `asm.c:406-409`. -/
def isUppercased (c : Byte) : Bool := ch 'A' ≤ c && c ≤ ch 'Z'

/-- `buxn_asm_is_sep`, `asm.c:411-419`. -/
def isSep (c : Byte) : Bool := c = ch ' ' || c = ch '\n' || c = ch '\t' || c = ch '\r' || c = 0x0c || c = 0x0b

/-! ## Opcodes -/

/-- `BUXN_OP_REF_CODE`, `asm.c:21-22`, with a signed `char`. -/
def refCode (a b c : Byte) : BitVec 32 := (a.signExtend 32 <<< 16) ||| (b.signExtend 32 <<< 8) ||| c.signExtend 32

def refOf (s : String) : BitVec 32 :=
  match str s with
  | [a, b, c] => refCode a b c
  | _ => 0

/-- `BUXN_BASE_OPCODE_REFS`, `asm.c:24-57`. -/
def baseRefs : List (BitVec 32) :=
  ["LIT", "INC", "POP", "NIP", "SWP", "ROT", "DUP", "OVR", "EQU", "NEQ", "GTH", "LTH", "JMP", "JCN", "JSR", "STH",
   "LDZ", "STZ", "LDR", "STR", "LDA", "STA", "DEI", "DEO", "ADD", "SUB", "MUL", "DIV", "AND", "ORA", "EOR", "SFT"].map refOf

/-- The loop over the flags, `asm.c:455-476`. -/
def opFlags : Str → Byte → Bool → Option (Byte × Bool)
  | [], op, red => some (op, red)
  | f :: fs, op, red =>
    if f = ch '2' then opFlags fs (op ||| 0x20) (red || op &&& 0x20 ≠ 0)
    else if f = ch 'r' then opFlags fs (op ||| 0x40) (red || op &&& 0x40 ≠ 0)
    else if f = ch 'k' then opFlags fs (op ||| 0x80) (red || op &&& 0x80 ≠ 0)
    else none

/-- `buxn_asm_parse_opcode`, `asm.c:426-484`: the opcode and whether a flag is redundant. -/
def parseOpcode (w : Str) : Option (Byte × Bool) :=
  match w with
  | a :: b :: c :: flags =>
    let code := refCode a b c
    if code = refOf "BRK" then (if flags.length = 0 then some (0x00, false) else none)
    else
      let i := baseRefs.findIdx (· = code)
      if 32 ≤ i then none
      else opFlags flags (if i = 0 then 0x80 else BitVec.ofNat 8 i) false
  | _ => none

/-! ## Tokens -/

def MAX_TOKEN_LEN : Nat := 47
def MAX_LONG_STRING_LEN : Nat := 1024

/-- The loop of `buxn_asm_scan_regular_token`, `asm.c:486-530`: `left` more characters fit, `acc` is the text so far
(reversed), `c` the character to append, `stop` is `end`. -/
def scanRegular (start : Pos) : Nat → Str → Byte → Pos → FileUnit → Asm → Option Token × FileUnit × Asm
  | 0, _, _, stop, u, s => (none, u, (error "Token is too long" ⟨u.path, start, stop⟩ s).2)
  | left + 1, acc, c, _, u, s =>
    let acc := c :: acc
    let stop := u.pos
    let (c, u, s) := getChar u s
    match c with
    | .ioError => (none, u, s)
    | .eof => (some ⟨acc.reverse, ⟨u.path, start, stop⟩⟩, u, s)
    | .char b => if isSep b then (some ⟨acc.reverse, ⟨u.path, start, stop⟩⟩, u, s) else scanRegular start left acc b stop u s

/-- The loop of `buxn_asm_scan_long_string`, `asm.c:532-588`: `left` more characters fit. -/
def scanLong (start : Pos) : Nat → Str → FileUnit → Asm → Option Token × FileUnit × Asm
  | left, acc, u, s =>
    let stop := u.pos
    let (c, u, s) := getChar u s
    match c with
    | .ioError => (none, u, s)
    | .eof => (none, u, (error "Unterminated long string" ⟨u.path, start, stop⟩ s).2)
    | .char b =>
      if b = ch '"' then (some ⟨acc.reverse, ⟨u.path, start, stop⟩⟩, u, s)
      else match left with
        | 0 => (none, u, (error "String is too long" ⟨u.path, start, stop⟩ s).2)
        | left + 1 => scanLong start left (b :: acc) u s

/-- `buxn_asm_next_token_in_file`, `asm.c:590-613`. The loop over separators gets fuel; `nextInFile` supplies enough. -/
def nextInFileLoop : Nat → FileUnit → Asm → Option Token × FileUnit × Asm
  | 0, u, s => (none, u, s)
  | fuel + 1, u, s =>
    let pos := u.pos
    let (c, u, s) := getChar u s
    match c with
    | .ioError => (none, u, s)
    | .eof => (none, u, s)
    | .char b =>
      if isSep b then nextInFileLoop fuel u s
      else if b = ch '"' then
        let (next, u, s) := peekChar u s
        if next = .char (ch ' ') then
          -- asm.c:540-541
          let (_, u, s) := getChar u s
          scanLong pos (MAX_LONG_STRING_LEN - 1) [ch '"'] u s
        else scanRegular pos MAX_TOKEN_LEN [] b pos u s
      else scanRegular pos MAX_TOKEN_LEN [] b pos u s

def nextInFile (u : FileUnit) (s : Asm) : Option Token × FileUnit × Asm := nextInFileLoop (2 * u.stream.length + 2) u s

/-- `buxn_asm_macro_unit_t`, `asm.c:102-109`: what is left of the body, and the argument. -/
structure MacroUnit where
  rest : List Token
  arg : Str
  deriving DecidableEq, Repr

/-- The copying loop of `asm.c:631-660`: the expanded text (reversed), or `none` if it gets too long. -/
def expandText (arg : Str) : Str → Str → Option Str
  | [], acc => some acc
  | c :: cs, acc =>
    if c = ch '^' then (if MAX_LONG_STRING_LEN < acc.length + arg.length then none else expandText arg cs (arg.reverse ++ acc))
    else if MAX_LONG_STRING_LEN < acc.length + 1 then none else expandText arg cs (c :: acc)

/-- `buxn_asm_next_token_in_macro`, `asm.c:615-688`. -/
def nextInMacro (u : MacroUnit) (s : Asm) : Option Token × MacroUnit × Asm :=
  match u.rest with
  | [] => (none, u, s)
  | t :: rest =>
    if u.arg.length = 0 then (some t, { u with rest := rest }, s)
    else match expandText u.arg t.lex [] with
      | none => (none, u, (error "Expanded token is too long" t.region s).2)
      | some rev =>
        let text := rev.reverse
        let limit := if text.head? = some (ch '"') then MAX_LONG_STRING_LEN else MAX_TOKEN_LEN
        if limit < text.length then (none, u, (error "Expanded token is too long" t.region s).2)
        else (some (if ch '^' ∈ t.lex then { t with lex := text } else t), { u with rest := rest }, s)

/-- `buxn_asm_unit_t`, `asm.c:111-117`. -/
inductive Unit where
  | file (u : FileUnit)
  | macro (u : MacroUnit)
  deriving DecidableEq, Repr

/-- `buxn_asm_next_token`, `asm.c:690-700`. -/
def nextToken (u : Unit) (s : Asm) : Option Token × Unit × Asm :=
  match u with
  | .file u => let (t, u, s) := nextInFile u s; (t, .file u, s)
  | .macro u => let (t, u, s) := nextInMacro u s; (t, .macro u, s)

end Buxn.Asm
