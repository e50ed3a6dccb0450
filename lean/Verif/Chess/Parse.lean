import Verif.Chess.Model
/-!
# Model of the type checker: reading annotations

Models `/repo/src/asm/chess.c` from "Parsing" to the end: `buxn_chess_begin`, `buxn_chess_handle_symbol`, the parsers
of signatures and casts, and `buxn_chess_end`.

Simplifications (besides those of `Verif.Chess.Model`):
* Two symbols belong to the same object when the assembler reports the same type and the same range of the same
  file; file names are compared as strings where the code compares pointers to interned strings.
* The memory of `current_signature` and `current_cast` is reused by the code until it is handed over; the model
  keeps the contents.
-/

namespace Buxn.Chess

open Buxn.Asm (Str SymType SymInfo ch str)

/-- The parsers that `anno_handler` points at. -/
inductive Handler where
  | signature | signature2 | cast | cast2
  deriving DecidableEq, Repr

/-- `buxn_chess_sig_parse_state_t`, `chess.c:65-70`. -/
inductive Place where
  | wstIn | rstIn | wstOut | rstOut
  deriving DecidableEq, Repr

/-- The warnings about annotations. They have no trace. -/
inductive Complaint where
  | sealed | unexpected | tooMany | redundantSignature | redundantCast
  deriving DecidableEq, Repr

/-- `buxn_chess_t`, `chess.c:154-192`, while the assembler runs. -/
structure Reader where
  handler : Option Handler
  nextTrace : Nat
  curType : SymType
  curGenerated : Bool
  curAddr : Short
  hasCur : Bool
  sig : Sig
  cast : Cast
  tokens : List Str
  /-- `tmp_buff_ptr - tmp_buf` -/
  used : Nat
  place : Place
  isSealed : Bool
  sym : Short → Option Sym
  last : Option (Sym × SymInfo)
  nextSym : Nat
  label : Short → Option (Option Sig)
  keys : List Short
  casts : Short → Option Cast
  marked : Short → Bool
  queue : List Entry
  log : List Complaint
  /-- the assertion at `chess.c:2615` has failed -/
  lowCode : Bool

/-- `buxn_chess_begin`, `chess.c:2473-2482`. -/
def Reader.begin : Reader :=
  { handler := none, nextTrace := 1, curType := .macro, curGenerated := false, curAddr := 0, hasCur := false
    sig := {}, cast := {}, tokens := [], used := 0, place := .wstIn, isSealed := false
    sym := fun _ => none, last := none, nextSym := 0, label := fun _ => none, keys := [], casts := fun _ => none
    marked := fun _ => false, queue := [], log := [], lowCode := false }

/-- `BUXN_CHESS_MAX_ARGS`, `chess.h:9`. -/
def maxArgs : Nat := 8
/-- `BUXN_CHESS_MAX_SIG_TOKENS`, `chess.c:13`. -/
def maxTokens : Nat := maxArgs * 4 + 1
/-- The size of `tmp_buf`, `chess.c:170`. -/
def tmpSize : Nat := 16 * maxTokens

/-- `buxn_chess_parse_value`, `chess.c:2083-2116`. -/
def parseValue (name : Str) : Value :=
  let short := name.getLast? == some (ch '*')
  let core := if short then name.dropLast else name
  let address := core.head? == some (ch '[') && core.getLast? == some (ch ']')
  let inside := if address then (core.drop 1).dropLast else core
  let nominal := match name with
    | b :: _ => decide ((ch 'A').toNat ≤ b.toNat ∧ b.toNat ≤ (ch 'Z').toNat)
    | [] => false
  { short := short, address := address, nominal := nominal, type := if nominal then inside else [] }

/-- A warning that ends the annotation. -/
def Reader.reject (w : Complaint) (r : Reader) : Reader := { r with log := r.log ++ [w], handler := none }

/-- The list a value of a signature goes to, `chess.c:2244-2258`. -/
def Sig.part (p : Place) (s : Sig) : List Value :=
  match p with
  | .wstIn => s.wstIn
  | .rstIn => s.rstIn
  | .wstOut => s.wstOut
  | .rstOut => s.rstOut

def Sig.extend (p : Place) (v : Value) (s : Sig) : Sig :=
  match p with
  | .wstIn => { s with wstIn := s.wstIn ++ [v] }
  | .rstIn => { s with rstIn := s.rstIn ++ [v] }
  | .wstOut => { s with wstOut := s.wstOut ++ [v] }
  | .rstOut => { s with rstOut := s.rstOut ++ [v] }

/-- `--` and `->` -/
def isDashes (t : Str) : Bool := t == str "--"
def isArrow (t : Str) : Bool := t == str "->"

/-- `buxn_chess_parse_signature2` on a token, `chess.c:2163-2274`. After a warning about a sealed signature the token is
still processed, without effect since the handler is gone. -/
def signatureToken (t : Str) (r : Reader) : Reader :=
  let r := if r.isSealed then r.reject .sealed else r
  if t = str "." then
    match r.place with
    | .wstIn => { r with place := .rstIn }
    | .wstOut => { r with place := .rstOut }
    | _ => r.reject .unexpected
  else if t = str "!" then { r with isSealed := true }
  else if isDashes t || isArrow t then
    match r.place with
    | .wstIn | .rstIn =>
      { r with place := .wstOut, sig := { r.sig with kind := if isDashes t then .subroutine else .vector } }
    | _ => r.reject .unexpected
  else if (r.sig.part r.place).length < maxArgs then { r with sig := r.sig.extend r.place (parseValue t) }
  else r.reject .tooMany

/-- Enqueueing a routine, `chess.c:489-522`. -/
def Reader.mark (a : Short) (sig : Sig) (r : Reader) : Reader :=
  { r with
    queue := routineEntry a sig r.nextTrace :: r.queue
    nextTrace := r.nextTrace + 1
    marked := upd r.marked a true }

/-- `buxn_chess_parse_signature2` at the end of the comment, `chess.c:2275-2299`. -/
def signatureEnd (r : Reader) : Reader :=
  match r.label r.curAddr with
  | some none =>
    let sig := r.sig
    let r := { r with label := upd r.label r.curAddr (some (some sig)) }
    if r.isSealed then r else r.mark r.curAddr sig
  | _ => { r with log := r.log ++ [.redundantSignature] }

/-- `buxn_chess_parse_cast2` on a token, `chess.c:2327-2410`. -/
def castToken (t : Str) (r : Reader) : Reader :=
  let r := if r.isSealed then r.reject .sealed else r
  if t = str "." then
    match r.place with
    | .wstIn => { r with place := .rstIn }
    | _ => r.reject .unexpected
  else if t = str "!" then { r with isSealed := true }
  else if isDashes t || isArrow t then r.reject .unexpected
  else
    match r.place with
    | .rstIn =>
      if r.cast.rst.length < maxArgs then
        { r with cast := { r.cast with rst := r.cast.rst ++ [parseValue t] } } else r.reject .tooMany
    | _ =>
      if r.cast.wst.length < maxArgs then
        { r with cast := { r.cast with wst := r.cast.wst ++ [parseValue t] } } else r.reject .tooMany

/-- `buxn_chess_parse_cast2` at the end of the comment, `chess.c:2411-2446`. -/
def castEnd (r : Reader) : Reader :=
  match r.casts r.curAddr with
  | none => { r with casts := upd r.casts r.curAddr (some r.cast) }
  | some _ => { r with log := r.log ++ [.redundantCast] }

/-- One call through `anno_handler` in the second stage; nothing happens once the handler is gone. -/
def secondStage (h : Handler) (t : Str) (r : Reader) : Reader :=
  match r.handler with
  | none => r
  | some _ => if h = .signature2 then signatureToken t r else castToken t r

/-- `buxn_chess_parse`, `chess.c:2118-2161`. -/
def buffer (trigger : Bool) (h : Handler) (t : Str) (r : Reader) : Reader :=
  if trigger then
    let r := { r with place := .wstIn, isSealed := false, handler := some h }
    let r := r.tokens.foldl (fun r t => secondStage h t r) r
    secondStage h t r
  else if r.tokens.length < maxTokens then
    if r.used + t.length + 1 > tmpSize then { r with handler := none }
    else { r with tokens := r.tokens ++ [t], used := r.used + t.length + 1 }
  else { r with handler := none }

/-- `chess->anno_handler(chess, sym)`; the two first stages are `chess.c:2302-2325` and `chess.c:2449-2470`. -/
def annotate (t : Str) (r : Reader) : Reader :=
  match r.handler with
  | none => r
  | some .signature =>
    let trigger := isDashes t || isArrow t
    buffer trigger .signature2 t (if trigger then { r with sig := {} } else r)
  | some .signature2 => signatureToken t r
  | some .cast =>
    let trigger := t == str "!"
    buffer trigger .cast2 t (if trigger then { r with cast := {} } else r)
  | some .cast2 => castToken t r

/-- `chess->anno_handler(chess, NULL)` and `chess->anno_handler = NULL`, `chess.c:2584-2587`. -/
def annotationEnd (r : Reader) : Reader :=
  match r.handler with
  | none => r
  | some .signature2 => { signatureEnd r with handler := none }
  | some .cast2 => { castEnd r with handler := none }
  | some _ => { r with handler := none }

/-- A comment, `chess.c:2563-2596`. -/
def handleComment (i : SymInfo) (r : Reader) : Reader :=
  let name := i.name.getD []
  if i.id = 0 then
    if name.length = 1 ∧ r.hasCur then
      let r := { r with used := 0, tokens := [] }
      if r.curType = .label ∧ ¬ r.curGenerated then { r with handler := some .signature }
      else if r.curType = .opcode ∨ r.curType = .labelRef ∨ r.curType = .number ∨ r.curType = .text then
        { r with handler := some .cast }
      else r
    else r
  else if i.id = 1 ∧ name = str ")" then annotationEnd r
  else if i.id = 1 then annotate name r
  else { r with handler := none }

/-- Whether a symbol continues the previous one, `chess.c:2625-2631`. -/
def continues (i j : SymInfo) : Bool :=
  decide (i.type = j.type ∧ i.region.file = j.region.file ∧ i.region.start.byte = j.region.start.byte ∧
    i.region.stop.byte = j.region.stop.byte)

/-- `buxn_chess_ensure_addr_info`, `chess.c:214-232`. -/
def Reader.ensure (a : Short) (r : Reader) : Reader :=
  match r.label a with
  | some _ => r
  | none => { r with label := upd r.label a (some none), keys := a :: r.keys }

/-- A symbol that stands for a byte of the ROM, `chess.c:2609-2642`. -/
def handleCode (addr : Short) (i : SymInfo) (r : Reader) : Reader :=
  let r := { r with lowCode := r.lowCode || decide (addr.toNat < 256) }
  let r := if i.type = .opcode then
      { r with curType := i.type, curGenerated := i.generated, curAddr := addr, handler := none, hasCur := true }
    else r
  let fresh : Sym := { id := r.nextSym, type := i.type, name := i.name.getD (str "@") }
  match r.last with
  | some (s, j) =>
    if continues i j then { r with sym := upd r.sym addr (some s) }
    else { r with sym := upd r.sym addr (some fresh), last := some (fresh, i), nextSym := r.nextSym + 1 }
  | none => { r with sym := upd r.sym addr (some fresh), last := some (fresh, i), nextSym := r.nextSym + 1 }

/-- `buxn_chess_handle_symbol`, `chess.c:2556-2646`. -/
def handleSymbol (addr : Short) (i : SymInfo) (r : Reader) : Reader :=
  match i.type with
  | .comment => handleComment i r
  | .label =>
    if i.generated then r
    else
      Reader.ensure addr { r with
        curType := i.type, curGenerated := i.generated, curAddr := addr, hasCur := true, handler := none }
  | .opcode | .labelRef | .number | .text => handleCode addr i r
  | .macro => { r with hasCur := false }
  | _ => r

/-- Everything the assembler reported (`asm.c:133-135`), in order. -/
def readAll (events : List Asm.Event) : Reader :=
  events.foldl (fun r e => match e with
    | .sym a i => handleSymbol a i r
    | _ => r) Reader.begin

/-- The beginning of `buxn_chess_end`, `chess.c:2484-2506`: `0x0100` is verified as a vector unless it has a signature. -/
def Reader.finish (r : Reader) : Reader :=
  let r := r.ensure 0x0100
  match r.label 0x0100 with
  | some none => Reader.mark 0x0100 {} { r with label := upd r.label 0x0100 (some (some {})) }
  | _ => r

/-- What is executed. -/
def Reader.program (rom : Short → Byte) (r : Reader) : Program :=
  { rom := rom, sym := r.sym, label := r.label, keys := r.keys, cast := r.casts }

def Reader.run (r : Reader) : Run :=
  { queue := r.queue, terminatedAt := fun _ => false, errorAt := fun _ => false, markedAt := r.marked
    arcs := [], nodes := ⟨fun _ => {}, [], 0, []⟩, nextTrace := r.nextTrace, success := true
    log := [], oob := false, mulOverflow := false, lowRom := false, wrapped := false
    key := 0, wst := Stack.empty, rst := Stack.empty, trace := 0, parent := 0
    shadowWst := Stack.empty, shadowRst := Stack.empty, keep := false, pc := 0, opcode := 0
    terminated := false, ok := false, running := false, again := false, inner := false }

/-- `buxn_chess_end`, `chess.c:2484-2554`, given enough steps: what was reported and the result. `none`: the steps were
not enough. -/
def check (rom : Short → Byte) (events : List Asm.Event) (n : Nat) : Option Run :=
  let r := (readAll events).finish
  let c := steps (r.program rom) n r.run
  match advance (r.program rom) c with
  | none => some (checkTermination r.keys c)
  | some _ => none

end Buxn.Chess
