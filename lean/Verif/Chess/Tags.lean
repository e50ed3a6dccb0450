import Verif.Chess.Call
/-!
# C84: nominal types and address semantics, the specification

`doc/chess.md` gives every value on a stack a nominal type and an address trait. Here is what this means for the bytes
on the two stacks of a running program, without the data structures of the checker: every byte carries a tag that says
of which type it is a value (or which half of a value), and whether it belongs to an address.

* signatures, casts and literals put tags on bytes (`doc/chess.md`, "Constructing a nominally-typed value", "Address
  semantics");
* operations that only move bytes take the tags along, all other operations produce bytes without type ("If a
  nominally-typed value is modified in anyway, it immediately loses its nominal type"); the sum and the difference of
  an address and anything are addresses, and so is a successor of an address;
* a call may only be made when the inputs of the routine have the types that its signature asks for, where a type whose
  name begins with the name asked for is accepted too ("nominal subtyping using prefix matching").
-/

namespace Buxn.Chess

open Buxn.Asm (Str SymType)
open Buxn.VM (Instr Op dispatch)
open Buxn.VM.Spec (operandSizes)

namespace Types

/-- A byte is a value of its own, or the high or low byte of a short. -/
inductive Part where
  | whole | high | low
  deriving DecidableEq, Repr

/-- What is known about a byte. -/
structure Tag where
  type : Option (Str × Part) := none
  address : Bool := false
  deriving DecidableEq, Repr

/-- The tags of a value of `n` bytes, the byte on top (the low one) first. -/
def mark (n : Nat) (type : Option Str) (address : Bool) : List Tag :=
  if n = 2 then [⟨type.map (·, .low), address⟩, ⟨type.map (·, .high), address⟩] else [⟨type.map (·, .whole), address⟩]

/-- The bytes (top first) are a value of the type. -/
def Of (U : Str) (g : List Tag) : Prop := g.map Tag.type = (mark g.length (some U) false).map Tag.type

/-- What a signature or a cast says about a value. -/
def declared (v : Value) : List Tag := mark (if v.short then 2 else 1) (if v.nominal then some v.type else none) v.address

/-- Both stacks (`true` is the return stack), top first. -/
abbrev Tags := Bool → List Tag

/-- Put values on a stack, the first one deepest. -/
def pile (gs : List (List Tag)) (ts : List Tag) : List Tag := gs.foldl (fun ts g => g ++ ts) ts

/-- Groups of the given sizes, from the top downwards. -/
def groups : List Nat → List Tag → List (List Tag)
  | [], _ => []
  | n :: ns, ts => ts.take n :: groups ns (ts.drop n)

/-- All bytes belong to an address. -/
def isAddr (g : List Tag) : Bool := g.all Tag.address

/-- What an operation leaves on the stack, given its operands, the deepest one first (as in `Buxn.VM.Spec.action`). -/
def meaning (n : Nat) : Op → List (List Tag) → List (List Tag)
  | .INC, [a] => [mark n none (isAddr a)]
  | .NIP, [_, b] => [b]
  | .SWP, [a, b] => [b, a]
  | .ROT, [a, b, c] => [b, c, a]
  | .DUP, [a] => [a, a]
  | .OVR, [a, b] => [a, b, a]
  | .STH, [a] => [a]
  | .JSR, _ => [mark 2 none true]
  | .EQU, _ | .NEQ, _ | .GTH, _ | .LTH, _ => [mark 1 none false]
  | .ADD, [a, b] | .SUB, [a, b] => [mark n none (isAddr a || isAddr b)]
  | .MUL, _ | .DIV, _ | .AND, _ | .ORA, _ | .EOR, _ | .SFT, _ => [mark n none false]
  | .LDZ, _ | .LDR, _ | .LDA, _ | .DEI, _ => [mark n none false]
  | _, _ => []

/-- Whether the results go to the other stack. -/
def away : Op → Bool
  | .STH | .JSR => true
  | _ => false

/-- An operation with operand size `n`, on the return stack (`r`) or not, keeping its operands (`k`) or not. -/
def operate (n : Nat) (op : Op) (k r : Bool) (T : Tags) : Tags :=
  let sizes := operandSizes n op
  let gs := (groups sizes.reverse (T r)).reverse
  let T : Tags := fun r' => if r' = r ∧ k = false then (T r').drop sizes.sum else T r'
  fun r' => if r' = (if away op then !r else r) then pile (meaning n op gs) (T r') else T r'

/-- The tags of one byte of a literal: the name of a label is the type of its zero page address. -/
def literalByte (P : Program) (a : Short) : List Tag :=
  match P.label a, P.sym a with
  | none, some s => if s.type = .labelRef then mark 1 (some s.name) true else mark 1 none false
  | _, _ => mark 1 none false

/-- Whether two bytes of the program come from the same token. -/
def together (P : Program) (a b : Short) : Bool :=
  match P.sym a, P.sym b with
  | some x, some y => decide (x.id = y.id)
  | _, _ => false

/-- The tags of a literal of two bytes: a reference to a label is an address, everything else are two bytes. -/
def literalShort (P : Program) (a b : Short) : List Tag :=
  match P.label a, P.sym a with
  | none, some s =>
    if together P a b then mark 2 none (decide (s.type = .labelRef)) else literalByte P b ++ literalByte P a
  | _, _ => literalByte P b ++ literalByte P a

/-- The instruction at an address, as far as the stacks go before control reaches the next instruction. -/
def instr (P : Program) (pc : Short) (T : Tags) : Tags :=
  match dispatch (P.rom pc) with
  | some (.poly op k r b) => operate (if b then 2 else 1) op k r T
  | some (.LIT r b) => fun r' =>
      if r' = r then (if b then literalShort P (pc + 1) (pc + 2) else literalByte P (pc + 1)) ++ T r' else T r'
  | some .JCI => fun r' => if r' = false then (T r').drop 1 else T r'
  | some .JSI => fun r' => if r' = true then mark 2 none true ++ T r' else T r'
  | _ => T

/-- The values on top of a stack (the last declared one is on top) have the types that are asked for. -/
def Accept : List Value → List Tag → Prop
  | [], _ => True
  | v :: vs, ts =>
    (if v.short then 2 else 1) ≤ ts.length ∧
    (v.nominal = true → ∃ U, v.type <+: U ∧ Of U (ts.take (if v.short then 2 else 1))) ∧
      Accept vs (ts.drop (if v.short then 2 else 1))

/-- The bytes of some declared values. -/
def bytes (vs : List Value) : Nat := (vs.map fun v => if v.short then 2 else 1).sum

/-- The inputs of a routine are there, with their types. -/
def Suits (sig : Sig) (T : Tags) : Prop := Accept sig.wstIn.reverse (T false) ∧ Accept sig.rstIn.reverse (T true)

/-- What is left on the stacks when a routine has returned: its outputs have taken the place of its inputs, and the
return address is gone. -/
def called (sig : Sig) (T : Tags) : Tags := fun r =>
  if r then
    (pile (sig.rstOut.map declared) ((T true).drop (bytes sig.rstIn))).drop (if sig.kind = .subroutine then 2 else 0)
  else pile (sig.wstOut.map declared) ((T false).drop (bytes sig.wstIn))

/-- A cast gives the values on top of the stacks new types. -/
def asserted (k : Option Cast) (T : Tags) : Tags :=
  match k with
  | none => T
  | some k => fun r =>
    let vs := if r then k.rst else k.wst
    pile (vs.map declared) ((T r).drop (bytes vs))

/-- A byte that a cast gives a new type must not be a half of a short that has a type, and address semantics must not
be taken from it. (Otherwise the checker remembers the short, see `C84_revived_violated`.) -/
def Recast : List Value → List Tag → Prop
  | [], _ => True
  | v :: vs, ts =>
    (v.short = false → ∀ t ∈ ts.take 1, (∀ U p, t.type = some (U, p) → p = .whole) ∧ (t.address = true → v.address = true)) ∧
      Recast vs (ts.drop (if v.short then 2 else 1))

def Clean (k : Option Cast) (T : Tags) : Prop :=
  ∀ c, k = some c → Recast c.wst.reverse (T false) ∧ Recast c.rst.reverse (T true)

end Types

end Buxn.Chess
