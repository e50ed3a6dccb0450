import Verif.Asm.Lexer
/-!
# The assembler: symbols, code generation, directives

Models `/repo/src/asm/asm.c:704-2421` function by function; see `Lexer.lean` for the simplifications.
-/

namespace Buxn.Asm
open Buxn.VM

def RESET_VECTOR : Short := 0x0100
def MAX_DEPTH : Nat := 32

/-- `x >> 8`. -/
def hi8 (x : Short) : Byte := (x >>> 8).setWidth 8

/-- `x & 0xff`. -/
def lo8 (x : Short) : Byte := x.setWidth 8

/-- `if (!f()) { return false; } g`. -/
def andThen (r : Bool × Asm) (f : Asm → Bool × Asm) : Bool × Asm := if r.1 then f r.2 else (false, r.2)

/-- `buxn_asm_str_pop_front`, `asm.c:706-713`. -/
def popFront (s : Str) : Str := s.tail

/-! ## Symbols -/

def setNode (name : Str) (n : Node) (s : Asm) : Asm := { s with symtab := fun k => if k = name then some n else s.symtab k }

/-- `buxn_asm_find_or_create_symbol`, `asm.c:784-838`. -/
def findOrCreate (t : Token) (name : Str) (s : Asm) : Option Node × Asm :=
  match name with
  | [] => (none, (error "Symbol name cannot be empty" t.region s).2)
  | c :: _ =>
    if isRunic c then (none, (error "Symbol name cannot be runic" t.region s).2)
    else if (parseOpcode name).isSome then (none, (error "Symbol name cannot be an opcode" t.region s).2)
    else if isNumber name then (none, (error "Symbol name cannot be numeric" t.region s).2)
    else match s.symtab name with
      | some n => (some n, s)
      | none =>
        let n : Node := ⟨t, false, .unknown⟩
        (some n, { setNode name n s with names := name :: s.names })

/-- `buxn_asm_put_symbol2`, `asm.c:995-999`. -/
def putSymbol2 (addr : Short) (i : SymInfo) (s : Asm) : Asm := putSymbol (addr + 1) i (putSymbol addr i s)

/-- The region of the rune, `asm.c:1026-1030`. -/
def runeRegion (r : Region) : Region := { r with stop := { r.start with col := r.start.col + 1, byte := r.start.byte + 1 } }

/-- The region after the rune, `asm.c:1046-1049`. -/
def argRegion (isRunic : Bool) (r : Region) : Region :=
  if isRunic then { r with start := { r.start with col := r.start.col + 1, byte := r.start.byte + 1 } } else r

/-- `buxn_asm_emit`, `asm.c:1001-1010`. -/
def emit (t : Token) (b : Byte) (patch : Bool) (s : Asm) : Bool × Asm :=
  let addr := s.writeAddr
  let s := { s with writeAddr := addr + 1 }
  if addr < RESET_VECTOR then error "Writing to zero page" t.region s
  else (true, { s with log := .rom addr b patch :: s.log })

/-- `buxn_asm_emit2`, `asm.c:1012-1018`. -/
def emit2 (t : Token) (x : Short) (patch : Bool) (s : Asm) : Bool × Asm :=
  andThen (emit t (hi8 x) patch s) fun s => andThen (emit t (lo8 x) patch s) fun s => (true, s)

/-- `buxn_asm_emit_opcode`, `asm.c:1020-1039`. -/
def emitOpcode (t : Token) (op : Byte) (isRunic : Bool) (s : Asm) : Bool × Asm :=
  let addr := s.writeAddr
  andThen (emit t op false s) fun s =>
    (true, putSymbol addr { type := .opcode, region := if isRunic then runeRegion t.region else t.region, id := op.setWidth 16 } s)

/-- `buxn_asm_emit_byte`, `asm.c:1041-1058`. -/
def emitByte (t : Token) (b : Byte) (isRunic : Bool) (s : Asm) : Bool × Asm :=
  let addr := s.writeAddr
  andThen (emit t b false s) fun s =>
    (true, putSymbol addr { type := .number, region := argRegion isRunic t.region, id := b.setWidth 16 } s)

/-- `buxn_asm_emit_short`, `asm.c:1060-1077`. -/
def emitShort (t : Token) (x : Short) (isRunic : Bool) (s : Asm) : Bool × Asm :=
  let addr := s.writeAddr
  andThen (emit2 t x false s) fun s =>
    (true, putSymbol2 addr { type := .number, region := argRegion isRunic t.region, id := x } s)

/-- Not in the code: mark a reference. -/
def markRef (addr : Short) (kind : RefKind) (size : RefSize) (target : Option Str) (id : Short) (s : Asm) : Asm := { s with log := .ref addr kind size target id :: s.log }

/-- `buxn_asm_emit_addr_placeholder`, `asm.c:1079-1113`, for a label with the given name (if it has one) and number; the
number of a lambda is chosen by the caller here. -/
def emitPlaceholder (t : Token) (kind : RefKind) (size : RefSize) (name : Option Str) (id : Short) (isRunic : Bool) (s : Asm) : Bool × Asm :=
  let sym : SymInfo := { type := .labelRef, name := name, region := argRegion isRunic t.region, id := id }
  let addr := s.writeAddr
  match size with
  | .byte => andThen (emit t 0x01 false s) fun s => (true, putSymbol addr sym (markRef addr kind size name id s))
  | .short => andThen (emit2 t 0x01 false s) fun s => (true, putSymbol2 addr sym (markRef addr kind size name id s))

/-- `asm.c:1124-1128`: a symbol that is new gets a number. -/
def numberLabel (e : Entry) (s : Asm) : Asm := if e = .unknown then { s with numLabels := s.numLabels + 1 } else s

/-- The number and the references of a symbol that is not yet a label. -/
def forwardOf (e : Entry) (fresh : Short) : Short × List FRef :=
  match e with
  | .forward id refs => (id, refs)
  | _ => (fresh, [])

/-- `asm.c:1130-1145`: a placeholder, and a note in the symbol. -/
def addForwardRef (t : Token) (kind : RefKind) (size : RefSize) (name : Str) (n : Node) (id : Short) (refs : List FRef) (isRunic : Bool) (s : Asm) : Bool × Asm :=
  let addr := s.writeAddr
  andThen (emitPlaceholder t kind size (some name) id isRunic (setNode name { n with entry := .forward id refs } s)) fun s =>
    (true, setNode name { n with entry := .forward id ({ token := t, addr := addr, kind := kind, size := size } :: refs) } s)

/-- `buxn_asm_emit_forward_ref`, `asm.c:1115-1146`. `n` is the node of `name`, unknown or a forward reference. -/
def emitForwardRef (t : Token) (kind : RefKind) (size : RefSize) (name : Str) (n : Node) (isRunic : Bool) (s : Asm) : Bool × Asm :=
  let f := forwardOf n.entry (s.numLabels + 1)
  addForwardRef t kind size name n f.1 f.2 isRunic (numberLabel n.entry s)

/-- `buxn_asm_emit_lambda_ref`, `asm.c:1148-1175`. -/
def emitLambdaRef (t : Token) (kind : RefKind) (size : RefSize) (isRunic : Bool) (s : Asm) : Bool × Asm :=
  let addr := s.writeAddr
  let id := s.numLabels + 1
  andThen (emitPlaceholder t kind size none id isRunic { s with numLabels := id }) fun s =>
    (true, { s with
      lambdas := { token := t, labelId := id, lambdaId := s.numLambdas, addr := addr, kind := kind, size := size } :: s.lambdas
      numLambdas := s.numLambdas + 1 })

/-- `buxn_asm_calculate_addr`, `asm.c:1177-1202`. -/
def calculateAddr (t : Token) (kind : RefKind) (fromAddr toAddr : Short) (s : Asm) : Int × Asm :=
  match kind with
  | .zero => ((toAddr &&& 0xff).toNat, if 0xff < toAddr then warning "Taking zero-address of a label past page zero" t.region s else s)
  | .abs => (toAddr.toNat, s)
  | .rel => ((toAddr.toNat : Int) - (fromAddr.toNat + 2), s)

/-- `buxn_asm_emit_addr`, `asm.c:1204-1237`. -/
def emitAddr (t : Token) (kind : RefKind) (size : RefSize) (addr : Int) (sym : Option SymInfo) (patch : Bool) (s : Asm) : Bool × Asm :=
  let writeAddr := s.writeAddr
  match size with
  | .byte =>
    if kind = .rel ∧ (127 < addr ∨ addr < -128) then error "Referenced address is too far" t.region s
    else andThen (emit t (lo8 (BitVec.ofInt 16 addr)) patch s) fun s =>
      (true, match sym with
        | some i => putSymbol writeAddr i s
        | none => s)
  | .short => andThen (emit2 t (BitVec.ofInt 16 addr) patch s) fun s =>
      (true, match sym with
        | some i => putSymbol2 writeAddr i s
        | none => s)

/-- `buxn_asm_emit_backward_ref`, `asm.c:1239-1278`, for a label with number `id` at `labelAddr`. -/
def emitBackwardRef (t : Token) (kind : RefKind) (size : RefSize) (name : Option Str) (id labelAddr : Short) (withSymbol isRunic : Bool) (s : Asm) : Bool × Asm :=
  let writeAddr := s.writeAddr
  let (addr, s) := calculateAddr t kind writeAddr labelAddr s
  let sym : SymInfo := { type := .labelRef, name := name, region := argRegion isRunic t.region, id := id }
  andThen (emitAddr t kind size addr (if withSymbol then some sym else none) (!withSymbol) s) fun s =>
    (true, if withSymbol then markRef writeAddr kind size name id s else s)

/-- The loop of `asm.c:917-931`. -/
def patchAll (name : Str) (id labelAddr : Short) : List FRef → Asm → Asm
  | [], s => s
  | r :: rs, s =>
    patchAll name id labelAddr rs (emitBackwardRef r.token r.kind r.size (some name) id labelAddr false false { s with writeAddr := r.addr }).2

/-- Lines `asm.c:908-945`: the label gets the current address, the references to it are filled in. -/
def placeLabel (t : Token) (name : Str) (n : Node) (id : Short) (refs : List FRef) (s : Asm) : Bool × Asm :=
  let writeAddr := s.writeAddr
  let s := setNode name { n with entry := .label id writeAddr } s
  let s := patchAll name id writeAddr refs s
  let s := setNode name { n with entry := .label id writeAddr, referenced := !refs.isEmpty } s
  let s := { s with writeAddr := writeAddr }
  (true, putSymbol writeAddr { type := .label, name := some name, region := t.region, id := id } s)

/-- Lines `asm.c:892-907`: by the kind of symbol found. -/
def defineLabel (t : Token) (name : Str) (n : Node) (s : Asm) : Bool × Asm :=
  match n.entry with
  | .unknown => placeLabel t name n (s.numLabels + 1) [] { s with numLabels := s.numLabels + 1 }
  | .forward id refs => placeLabel t name n id refs s
  | .label _ _ => error "Duplicated definition" t.region s
  | .macro _ _ _ => error "Duplicated definition" t.region s

/-- `buxn_asm_register_label`, `asm.c:884-946`. -/
def registerLabel (t : Token) (name : Str) (s : Asm) : Bool × Asm :=
  match findOrCreate t name s with
  | (none, s) => (false, s)
  | (some n, s) => defineLabel t name n s

/-- `buxn_asm_resolve_local_name`, `asm.c:948-968`. -/
def resolveLocalName (t : Token) (name : Str) (s : Asm) : Option Str × Asm :=
  if MAX_TOKEN_LEN < name.length + s.scope.length + 1 then (none, (error "Label name is too long" t.region s).2)
  else (some (s.scope ++ ch '/' :: name), s)

/-- `buxn_asm_resolve_label_ref`, `asm.c:970-990`. -/
def resolveLabelRef (t : Token) (ref : Str) (s : Asm) : Option Str × Asm :=
  match ref with
  | [] => (none, (error "Reference cannot be empty" t.region s).2)
  | c :: rest => if c = ch '&' ∨ c = ch '/' then resolveLocalName t rest s else (some ref, s)

/-- `buxn_asm_emit_label_ref`, `asm.c:1290-1350`. -/
def emitLabelRef (t : Token) (kind : RefKind) (size : RefSize) (name : Str) (isRunicRef : Bool) (s : Asm) : Bool × Asm :=
  if name = [ch '{'] then emitLambdaRef t kind size isRunicRef s
  else match resolveLabelRef t name s with
    | (none, s) => (false, s)
    | (some full, s) =>
      if full = [ch '@'] then
        -- asm.c:1308-1325, buxn_asm_pop_at_label :1280-1288
        match s.atLabels with
        | l :: ls => emitBackwardRef t kind size none l.labelId l.addr true isRunicRef { s with atLabels := ls }
        | [] => error "No previously declared @-label" t.region s
      else match full with
        | [] => error "Reference cannot be empty" t.region s
        | c :: _ =>
          if isRunic c then error "Reference cannot be runic" t.region s
          else match findOrCreate t full s with
            | (none, s) => (false, s)
            | (some n, s) =>
              match n.entry with
              | .label id addr => emitBackwardRef t kind size (some full) id addr true isRunicRef (setNode full { n with referenced := true } s)
              | .unknown => emitForwardRef t kind size full n isRunicRef s
              | .forward _ _ => emitForwardRef t kind size full n isRunicRef s
              | .macro _ _ _ => error "Invalid reference" t.region s

/-- `buxn_asm_emit_jsi`, `asm.c:1352-1361`. -/
def emitJsi (t : Token) (s : Asm) : Bool × Asm :=
  andThen (emitOpcode t 0x60 false s) fun s => emitLabelRef t .rel .short t.lex false s

/-! ## Comments and macros -/

/-- A number of tokens that a unit cannot exceed. -/
def unitFuel : Unit → Nat
  | .file u => 2 * u.stream.length + 3
  | .macro u => u.rest.length + 2

/-- The loop of `buxn_asm_process_comment`, `asm.c:1454-1469`: the final depth. -/
def commentLoop : Nat → Nat → Unit → Asm → Nat × Unit × Asm
  | 0, depth, u, s => (depth, u, s)
  | fuel + 1, depth, u, s =>
    if depth = 0 then (0, u, s)
    else match nextToken u s with
      | (none, u, s) => (depth, u, s)
      | (some t, u, s) =>
        let s := putSymbol s.writeAddr { type := .comment, name := some t.lex, region := t.region, id := BitVec.ofNat 16 depth } s
        commentLoop fuel (if t.lex = [ch '('] then depth + 1 else if t.lex = [ch ')'] then depth - 1 else depth) u s

/-- `buxn_asm_process_comment`, `asm.c:1442-1483`. -/
def processComment (t : Token) (u : Unit) (s : Asm) : Bool × Unit × Asm :=
  let s := putSymbol s.writeAddr { type := .comment, name := some t.lex, region := t.region } s
  let (depth, u, s) := commentLoop (unitFuel u) 1 u s
  if depth ≠ 0 then (false, u, (error "Unbalanced comment" t.region s).2) else (true, u, s)

/-- `buxn_asm_process_mark`, `asm.c:1485-1492`. -/
def processMark (t : Token) (s : Asm) : Asm := putSymbol s.writeAddr { type := .mark, name := some t.lex, region := t.region } s

/-- The loop of `asm.c:1511-1541`: find the opening brace. -/
def macroHead (start : Token) : Nat → Unit → Asm → Bool × Unit × Asm
  | 0, u, s => (false, u, (error "Macro must be followed by '{'" start.region s).2)
  | fuel + 1, u, s =>
    match nextToken u s with
    | (none, u, s) => (false, u, (error "Macro must be followed by '{'" start.region s).2)
    | (some t, u, s) =>
      let c := t.lex.headD 0
      if c = ch '(' then
        match processComment t u s with
        | (false, u, s) => (false, u, s)
        | (true, u, s) => macroHead start fuel u s
      else if c = ch '[' then macroHead start fuel u (processMark t s)
      else if c = ch ']' then
        if t.lex.length ≠ 1 then (false, u, (error "Invalid runic token" t.region s).2) else macroHead start fuel u (processMark t s)
      else if c = ch '{' ∧ t.lex.length = 1 then (true, u, s)
      else (false, u, (error "Macro must be followed by '{'" t.region s).2)

/-- The token opens a lambda, `asm.c:1566-1580`. -/
def opensLambda (lex : Str) : Bool :=
  match lex with
  | [c, b] => b = ch '{' && (c = ch ',' || c = ch '_' || c = ch '.' || c = ch '-' || c = ch ';' || c = ch '=' || c = ch '!' || c = ch '?')
  | _ => false

/-- The loop of `asm.c:1551-1602`: the body (reversed); `none` if an error was reported. -/
def macroBody (start : Token) : Nat → Nat → List Token → Unit → Asm → Option (List Token) × Unit × Asm
  | 0, _, _, u, s => (none, u, (error "Macro has unbalanced `{`" start.region s).2)
  | fuel + 1, depth, acc, u, s =>
    match nextToken u s with
    | (none, u, s) => (none, u, (error "Macro has unbalanced `{`" start.region s).2)
    | (some t, u, s) =>
      if t.lex.headD 0 = ch '%' then (none, u, (error "Nested macro definition detected" t.region s).2)
      else
        let depth := if t.lex = [ch '}'] then depth - 1 else if opensLambda t.lex then depth + 1 else depth
        if depth = 0 then (some acc, u, s) else macroBody start fuel depth (t :: acc) u s

/-- `buxn_asm_create_macro`, `asm.c:1494-1614`. After an error inside the body the code leaves a partial macro behind, here
it is empty; assembly is abandoned in that case. -/
def createMacro (start : Token) (name : Str) (n : Node) (u : Unit) (s : Asm) : Bool × Unit × Asm :=
  let s := { s with numMacros := s.numMacros + 1 }
  let id := s.numMacros
  let s := putSymbol 0 { type := .macro, name := some name, region := start.region, id := id } s
  match macroHead start (unitFuel u) u s with
  | (false, u, s) => (false, u, s)
  | (true, u, s) =>
    let s := setNode name { n with entry := .macro [] 0 false } s
    match macroBody start (unitFuel u) 1 [] u s with
    | (none, u, s) => (false, u, s)
    | (some acc, u, s) => (true, u, setNode name { n with entry := .macro acc.reverse id false } s)

/-- `buxn_asm_process_macro`, `asm.c:1616-1638`. -/
def processMacro (start : Token) (u : Unit) (s : Asm) : Bool × Unit × Asm :=
  match findOrCreate start (popFront start.lex) s with
  | (none, s) => (false, u, s)
  | (some n, s) =>
    match n.entry with
    | .unknown => createMacro start (popFront start.lex) n u s
    | _ => (false, u, (error "Conflicting definition" start.region s).2)

/-- A hexadecimal digit, `asm.c:1652-1656`. -/
def hexDigit (d : Nat) : Byte := if d < 10 then ch '0' + BitVec.ofNat 8 d else ch 'a' + BitVec.ofNat 8 (d - 10)

/-- The digits written by `buxn_asm_make_lambda_name`, `asm.c:1647-1659`. -/
def lambdaDigits (id : Short) : Str :=
  let d (i : Nat) := id.toNat / 16 ^ (3 - i) % 16
  (if d 0 ≠ 0 then [hexDigit (d 0)] else []) ++ (if d 0 ≠ 0 ∨ d 1 ≠ 0 then [hexDigit (d 1)] else []) ++ [hexDigit (d 2), hexDigit (d 3)]

/-- `buxn_asm_make_lambda_name`, `asm.c:1640-1666`; its buffer is the subject of C41. -/
def lambdaName (id : Short) : Str := ch '@' :: lambdaDigits id

/-- An anonymous label, `asm.c:1671-1691`. -/
def processAtLabel (t : Token) (s : Asm) : Asm :=
  let id := s.numLabels + 1
  let addr := s.writeAddr
  let s := { s with
    atLabels := { token := t, labelId := id, lambdaId := s.numLambdas, addr := addr } :: s.atLabels
    numLabels := id
    numLambdas := s.numLambdas + 1 }
  putSymbol addr { type := .label, name := some (lambdaName id), generated := true, region := t.region, id := id } s

/-- `buxn_asm_process_global_label`, `asm.c:1668-1712`. -/
def processGlobalLabel (t : Token) (s : Asm) : Bool × Asm :=
  let name := popFront t.lex
  if name = [ch '@'] then (true, processAtLabel t s)
  else andThen (registerLabel t name s) fun s => (true, { s with scope := name.takeWhile (· ≠ ch '/') })

/-- `buxn_asm_process_local_label`, `asm.c:1714-1723`. -/
def processLocalLabel (t : Token) (s : Asm) : Bool × Asm :=
  match resolveLocalName t (popFront t.lex) s with
  | (none, s) => (false, s)
  | (some name, s) => registerLabel t name s

/-! ## Numbers and padding -/

/-- The loop of `asm.c:1749-1758`: digits from the last to the first, `i` the position. -/
def hexLoop : Str → Nat → Short → Option Short
  | [], _, acc => some acc
  | c :: cs, i, acc =>
    if isDigit c then hexLoop cs (i + 1) (acc ||| ((c - ch '0').setWidth 16 <<< (i * 4)))
    else if isLowHex c then hexLoop cs (i + 1) (acc ||| ((c - ch 'a' + 10).setWidth 16 <<< (i * 4)))
    else none

/-- The loop of `asm.c:1766-1777`; `number` stays below 2^20, so that 32 bits are enough. -/
def decLoop (limit : Nat) : Str → Nat → Except String Nat
  | [], acc => .ok acc
  | c :: cs, acc =>
    if isDigit c then
      let acc := acc * 10 + (c.toNat - (ch '0').toNat)
      if limit < acc then .error "Invalid number: Too big" else decLoop limit cs acc
    else .error "Invalid number: Unexpected character found"

/-- `buxn_asm_parse_number`, `asm.c:1725-1784`: the value and the number of bytes. -/
def parseNumber (w : Str) : Except String (Short × Nat) :=
  if w.length = 0 then .error "Invalid number: Empty string"
  else if plusCount w = 0 then
    if 4 < w.length then .error "Invalid number: Too many characters"
    else match hexLoop w.reverse 0 0 with
      | none => .error "Invalid number: Unexpected character found"
      | some n => .ok (n, if w.length ≤ 2 then 1 else 2)
  else match decLoop (if plusCount w = 1 then 0xff else 0xffff) (w.drop (plusCount w)) 0 with
    | .error e => .error e
    | .ok n => .ok (BitVec.ofNat 16 n, plusCount w)

/-- `buxn_asm_resolve_padding`, `asm.c:1786-1834`. -/
def resolvePadding (t : Token) (s : Asm) : Option Short × Asm :=
  let p := popFront t.lex
  if p.length = 0 then (none, (error "Invalid padding" t.region s).2)
  else if isNumber p then
    match parseNumber p with
    | .error e => (none, (error e t.region s).2)
    | .ok (n, _) => (some n, s)
  else match resolveLabelRef t p s with
    | (none, s) => (none, s)
    | (some name, s) =>
      if name = [ch '@'] then
        match s.atLabels with
        | [] => (none, (error "No previously declared @-label" t.region s).2)
        | l :: ls => (some l.addr, { s with atLabels := ls })
      else match s.symtab name with
        | none => (none, (error "Undeclared label is used for padding" t.region s).2)
        | some n =>
          match n.entry with
          | .label _ addr => (some addr, setNode name { n with referenced := true } s)
          | _ => (none, (error "Invalid symbol is being used for padding" t.region s).2)

/-- `buxn_asm_process_abs_padding`, `asm.c:1836-1845`. -/
def processAbsPadding (t : Token) (s : Asm) : Bool × Asm :=
  match resolvePadding t s with
  | (none, s) => (false, s)
  | (some p, s) => (true, { s with writeAddr := p })

/-- `buxn_asm_process_rel_padding`, `asm.c:1847-1861`. -/
def processRelPadding (t : Token) (s : Asm) : Bool × Asm :=
  match resolvePadding t s with
  | (none, s) => (false, s)
  | (some p, s) =>
    let old := s.writeAddr
    let s := { s with writeAddr := old + p }
    (true, if s.writeAddr < old then warning "Relative padding caused wrap around" t.region s else s)

/-- The checks at the start of `buxn_asm_process_lit_number` and `buxn_asm_process_raw_number`, `asm.c:1868-1879`, `:1897-1908`. -/
def parseLiteral (w : Str) : Except String (Short × Nat) :=
  match w with
  | [] => .error "Invalid number: Empty string"
  | c :: _ => if c ≠ ch '+' ∧ w.length ≠ 2 ∧ w.length ≠ 4 then .error "Invalid number: Invalid number of hex digits" else parseNumber w

/-- `buxn_asm_process_lit_number`, `asm.c:1863-1890`. -/
def processLitNumber (t : Token) (s : Asm) : Bool × Asm :=
  match parseLiteral (popFront t.lex) with
  | .error e => error e t.region s
  | .ok (n, k) =>
    if k = 1 then andThen (emitOpcode t 0x80 true s) fun s => emitByte t (lo8 n) true s
    else andThen (emitOpcode t 0xa0 true s) fun s => emitShort t n true s

/-- `buxn_asm_process_raw_number`, `asm.c:1892-1917`. -/
def processRawNumber (t : Token) (s : Asm) : Bool × Asm :=
  match parseLiteral t.lex with
  | .error e => error e t.region s
  | .ok (n, k) => if k = 1 then emitByte t (lo8 n) false s else emitShort t n false s

/-! ## Lambdas, words, text -/

/-- `buxn_asm_process_lambda_close`, `asm.c:1985-2023`. -/
def processLambdaClose (t : Token) (s : Asm) : Bool × Asm :=
  match s.lambdas with
  | [] => error "Unbalanced lambda" t.region s
  | r :: rs =>
    let current := s.writeAddr
    let (addr, s) := calculateAddr r.token r.kind r.addr current s
    let s := { s with writeAddr := r.addr }
    andThen (emitAddr r.token r.kind r.size addr none true s) fun s =>
      let s := { s with writeAddr := current }
      let s := putSymbol current { type := .label, name := some (lambdaName r.lambdaId), generated := true, region := t.region, id := r.labelId } s
      (true, { s with lambdas := rs })

/-- The loop of `asm.c:2087-2092`. -/
def textLoop (t : Token) (sym : SymInfo) : Str → Short → Asm → Bool × Asm
  | [], _, s => (true, s)
  | c :: cs, addr, s => andThen (emit t c false s) fun s => textLoop t sym cs (addr + 1) (putSymbol addr sym s)

/-- `buxn_asm_process_text`, `asm.c:2074-2094`. -/
def processText (t : Token) (s : Asm) : Bool × Asm :=
  if t.lex.length ≤ 1 then error "Invalid raw text" t.region s
  else textLoop t { type := .text, region := t.region, id := BitVec.ofNat 16 t.lex.length } t.lex.tail s.writeAddr s

/-- What a nested unit does: `none` when the fuel is used up. -/
abbrev Nested := Unit → Asm → Option (Bool × Asm)

/-- The bracket of `asm.c:1967-1983`: the expansion of a macro body. -/
def runMacro (rec : Nested) (t : Token) (name : Str) (n : Node) (body : List Token) (id : Short) (arg : Str) (u : Unit) (s : Asm) : Option (Bool × Unit × Asm) :=
  let s := setNode name { n with entry := .macro body id true } s
  let s := { s with depth := s.depth + 1 }
  match rec (.macro ⟨body, arg⟩) s with
  | none => none
  | some (ok, s) =>
    let s := { s with depth := s.depth - 1 }
    let s := match s.symtab name with
      | some n' => setNode name { n' with entry := .macro body id false } s
      | none => s
    some (ok, u, if ok then s else (error "Error while expanding macro" t.region s).2)

/-- `buxn_asm_expand_macro`, `asm.c:1919-1983`. -/
def expandMacro (rec : Nested) (t : Token) (name : Str) (n : Node) (body : List Token) (id : Short) (expanding : Bool) (u : Unit) (s : Asm) :
    Option (Bool × Unit × Asm) :=
  if MAX_DEPTH ≤ s.depth then some (false, u, (error "Max preprocessor depth depth reached" t.region s).2)
  else if expanding then some (false, u, (error "Macro recursion detected" t.region s).2)
  else
    let s := putSymbol 0 { type := .macroRef, name := some name, region := t.region, id := id } s
    if name.getLast? = some (ch ':') then
      match nextToken u s with
      | (none, u, s) => some (false, u, if s.success then (error "Macro expects an argument" t.region s).2 else s)
      | (some a, u, s) => runMacro rec t name n body id a.lex u s
    else runMacro rec t name n body id [] u s

/-- `buxn_asm_process_word`, `asm.c:2025-2072`. -/
def processWord (rec : Nested) (t : Token) (u : Unit) (s : Asm) : Option (Bool × Unit × Asm) :=
  match parseOpcode t.lex with
  | some (op, redundant) =>
    let s := if redundant then warning "Opcode contains redundant flags" t.region s else s
    let (ok, s) := emitOpcode t op false s
    some (ok, u, s)
  | none =>
    match findOrCreate t t.lex s with
    | (none, s) => some (false, u, s)
    | (some n, s) =>
      match n.entry with
      | .macro body id expanding =>
        let n := { n with referenced := true }
        expandMacro rec t t.lex n body id expanding u (setNode t.lex n s)
      | .label id addr =>
        let s := setNode t.lex { n with referenced := true } s
        let (ok, s) := andThen (emitOpcode t 0x60 false s) fun s => emitBackwardRef t .rel .short (some t.lex) id addr true false s
        some (ok, u, s)
      | .unknown =>
        let (ok, s) := andThen (emitOpcode t 0x60 false s) fun s => emitForwardRef t .rel .short t.lex n false s
        some (ok, u, s)
      | .forward _ _ =>
        let (ok, s) := andThen (emitOpcode t 0x60 false s) fun s => emitForwardRef t .rel .short t.lex n false s
        some (ok, u, s)

/-! ## Units and files -/

/-- The files the host can open, by name. -/
abbrev Files := Str → Option Stream

/-- The C string in a buffer. -/
def cstr (s : Str) : Str := s.takeWhile (· ≠ 0)

/-- `buxn_asm_process_file`, `asm.c:2365-2396`. -/
def processFile (files : Files) (rec : Nested) (path : Str) (s : Asm) : Option (Bool × Asm) :=
  let s := { s with log := .fopen (cstr path) :: s.log }
  match files (cstr path) with
  | none => some (error "Could not open file" ⟨path, noPos, noPos⟩ s)
  | some stream =>
    match rec (.file ⟨stream, path, ⟨1, 1, 0⟩⟩) s with
    | none => none
    | some (ok, s) => some (ok, { s with log := .fclose (cstr path) :: s.log })

/-- `buxn_asm_process_include`, `asm.c:2096-2141`. -/
def processInclude (files : Files) (rec : Nested) (name : Str) (t : Token) (s : Asm) : Option (Bool × Asm) :=
  if name ∈ s.includes then some (true, s)
  else
    let s := { s with includes := name :: s.includes, depth := s.depth + 1 }
    match processFile files rec name s with
    | none => none
    | some (ok, s) =>
      let s := { s with depth := s.depth - 1 }
      some (if ok then (true, s) else error "Error while processing include" t.region s)

/-- The case `~`, `asm.c:2167-2218`. -/
def processTilde (files : Files) (rec : Nested) (t : Token) (s : Asm) : Option (Bool × Asm) :=
  if MAX_DEPTH ≤ s.depth then some (error "Max preprocessor depth depth reached" t.region s)
  else
    let filename := popFront t.lex
    let isDeferred : Bool := filename.head? = some (ch '~')
    let filename := if isDeferred then popFront filename else filename
    let s := putSymbol s.writeAddr { type := .include, name := some filename, region := t.region } s
    if isDeferred then
      some (true, if filename ∈ s.includes then s else { s with deferred := s.deferred ++ [(filename, t)] })
    else processInclude files rec filename t s

/-- A result that leaves the unit alone. -/
def keep (u : Unit) (r : Bool × Asm) : Option (Bool × Unit × Asm) := some (r.1, u, r.2)

/-- The switch in `buxn_asm_process_unit`, `asm.c:2149-2359`. -/
def processToken (files : Files) (rec : Nested) (t : Token) (u : Unit) (s : Asm) : Option (Bool × Unit × Asm) :=
  let c := t.lex.headD 0
  let arg := popFront t.lex
  if c = ch '(' then some (processComment t u s)
  else if c = ch ')' then keep u (error "Unexpected rune" t.region s)
  else if c = ch '[' then keep u (true, processMark t s)
  else if c = ch ']' then
    keep u (if t.lex.length ≠ 1 then error "Invalid runic token" t.region s else (true, processMark t s))
  else if c = ch '~' then (processTilde files rec t s).map fun r => (r.1, u, r.2)
  else if c = ch '%' then some (processMacro t u s)
  else if c = ch '@' then keep u (processGlobalLabel t s)
  else if c = ch '&' then keep u (processLocalLabel t s)
  else if c = ch '!' then keep u (andThen (emitOpcode t 0x40 true s) fun s => emitLabelRef t .rel .short arg true s)
  else if c = ch '?' then keep u (andThen (emitOpcode t 0x20 true s) fun s => emitLabelRef t .rel .short arg true s)
  else if c = ch '}' then
    keep u (if t.lex.length ≠ 1 then error "Invalid runic token" t.region s else processLambdaClose t s)
  else if c = ch '{' then keep u (if t.lex.length ≠ 1 then error "Invalid runic token" t.region s else emitJsi t s)
  else if c = ch '/' then keep u (emitJsi t s)
  else if c = ch '|' then keep u (processAbsPadding t s)
  else if c = ch '$' then keep u (processRelPadding t s)
  else if c = ch '#' then keep u (processLitNumber t s)
  else if c = ch '.' then keep u (andThen (emitOpcode t 0x80 true s) fun s => emitLabelRef t .zero .byte arg true s)
  else if c = ch '-' then keep u (emitLabelRef t .zero .byte arg true s)
  else if c = ch ',' then keep u (andThen (emitOpcode t 0x80 true s) fun s => emitLabelRef t .rel .byte arg true s)
  else if c = ch '_' then keep u (emitLabelRef t .rel .byte arg true s)
  else if c = ch ';' then keep u (andThen (emitOpcode t 0xa0 true s) fun s => emitLabelRef t .abs .short arg true s)
  else if c = ch '=' then keep u (emitLabelRef t .abs .short arg true s)
  else if c = ch '"' then keep u (processText t s)
  else if isNumber t.lex then keep u (processRawNumber t s)
  else processWord rec t u s

/-- `buxn_asm_process_unit`, `asm.c:2143-2363`. -/
def unitLoop (files : Files) (rec : Nested) : Nat → Unit → Asm → Option (Bool × Asm)
  | 0, _, _ => none
  | fuel + 1, u, s =>
    match nextToken u s with
    | (none, _, s) => some (s.success, s)
    | (some t, u, s) =>
      match processToken files rec t u s with
      | none => none
      | some (false, _, s) => some (false, s)
      | some (true, u, s) => unitLoop files rec fuel u s

/-- Units within units, at most `levels` deep; `fuel` bounds the tokens of each unit. -/
def processUnit (files : Files) (fuel : Nat) : Nat → Nested
  | 0 => fun u s => unitLoop files (fun _ _ => none) fuel u s
  | levels + 1 => fun u s => unitLoop files (processUnit files fuel levels) fuel u s

/-- The loop of `asm.c:1372-1384` over the deferred includes; the list may grow meanwhile. -/
def deferredLoop (files : Files) (rec : Nested) : Nat → Nat → Asm → Option (Bool × Asm)
  | 0, _, _ => none
  | fuel + 1, i, s =>
    match s.deferred[i]? with
    | none => some (true, s)
    | some (name, t) =>
      match processInclude files rec name t s with
      | none => none
      | some (false, s) => some (false, s)
      | some (true, s) => deferredLoop files rec fuel (i + 1) s

/-- `asm.c:1418-1430`: unresolved references of one symbol. -/
def reportRefs : List FRef → Asm → Asm
  | [], s => s
  | r :: rs, s => reportRefs rs (error "Could not resolve reference" r.token.region s).2

/-- `asm.c:1408-1437`: all symbols, oldest first. -/
def reportSymbols : List Str → Asm → Asm
  | [], s => s
  | k :: ks, s =>
    let s := match s.symtab k with
      | none => s
      | some n =>
        let unused := !n.referenced && !(match k with | c :: _ => isUppercased c | [] => false)
        match n.entry with
        | .forward _ refs => reportRefs refs s
        | .unknown => (error "Internal error: Unknown symbol" n.token.region s).2
        | .label _ addr => if unused && addr ≠ RESET_VECTOR then warning "Unreferenced symbol" n.token.region s else s
        | .macro _ _ _ => if unused then warning "Unreferenced symbol" n.token.region s else s
    reportSymbols ks s

/-- `asm.c:1386-1394`. -/
def reportLambdas : List FRef → Asm → Asm
  | [], s => s
  | r :: rs, s => reportLambdas rs (error "Unbalanced lambda" r.token.region s).2

/-- `asm.c:1396-1405`. -/
def reportAtLabels : List FRef → Asm → Asm
  | [], s => s
  | r :: rs, s => reportAtLabels rs (warning "Unreferenced @-label" r.token.region s)

/-- `buxn_asm_resolve`, `asm.c:1370-1438`. -/
def resolve (files : Files) (rec : Nested) (fuel : Nat) (s : Asm) : Option (Bool × Asm) :=
  match deferredLoop files rec fuel 0 s with
  | none => none
  | some (false, s) => some (false, s)
  | some (true, s) =>
    let s := reportLambdas s.lambdas s
    let s := reportAtLabels s.atLabels s
    let s := reportSymbols s.names.reverse s
    some (s.success, s)

/-- The start of `buxn_asm`, `asm.c:2400-2408`. -/
def initial : Asm where
  writeAddr := RESET_VECTOR
  depth := 0
  readBuf := none
  success := true
  numLabels := 0
  numLambdas := 0
  numMacros := 0
  includes := []
  symtab := fun _ => none
  names := []
  scope := str "RESET"
  lambdas := []
  atLabels := []
  deferred := []
  log := []

/-- `buxn_asm`, `asm.c:2398-2421`: the result and the final state. -/
def assemble (files : Files) (fuel : Nat) (filename : Str) : Option (Bool × Asm) :=
  let nested := processUnit files fuel MAX_DEPTH
  match processFile files nested filename initial with
  | none => none
  | some (false, s) => some (s.success, s)
  | some (true, s) =>
    match resolve files nested fuel s with
    | none => none
    | some (_, s) => some (s.success, s)

end Buxn.Asm
