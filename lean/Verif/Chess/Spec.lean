import Verif.Chess.Model
import Verif.VM.Spec
/-!
# Specification vocabulary for the type checker

What a simulated stack holds, when its bookkeeping is right, and when it describes a stack of the VM.
-/

namespace Buxn.Chess

open Buxn.Asm (Str)

/-- The cells below an index, the highest (the top of a stack) first. -/
def below {α : Type} (f : Byte → α) : Nat → List α
  | 0 => []
  | n + 1 => f (BitVec.ofNat 8 n) :: below f n

/-- The values on a simulated stack, top first. -/
def items (s : Stack) : List Value := below s.content s.len.toNat

/-- Their size in bytes. -/
def total (l : List Value) : Nat := (l.map Value.size).sum

/-- The bookkeeping is right: the recorded size is the sum of the sizes of the values. -/
def Sound (s : Stack) : Prop := s.size.toNat = total (items s)

/-- Only bytes are halves, and a half refers to a node that has been allocated. -/
structure Tidy (fresh : Nat) (v : Value) : Prop where
  whole_short : v.short = true → v.halfHi = false ∧ v.halfLo = false
  known : v.halfHi = true ∨ v.halfLo = true → ∃ n, v.whole = some n ∧ n < fresh

/-- Allocated nodes hold shorts, and a node is in one list only. -/
structure Nodes.Ok (m : Nodes) : Prop where
  distinct : (m.pool ++ m.taken).Nodup
  pool : ∀ n ∈ m.pool, n < m.fresh
  taken : ∀ n ∈ m.taken, n < m.fresh
  shorts : ∀ n, n < m.fresh → (m.heap n).short = true ∧ Tidy m.fresh (m.heap n)

/-- A stack as the checker should keep it. -/
structure Stack.Ok (m : Nodes) (s : Stack) : Prop where
  sound : Sound s
  tidy : ∀ v ∈ items s, Tidy m.fresh v

/-- The state of a trace as it should be. -/
structure Run.Ok (c : Run) : Prop where
  nodes : c.nodes.Ok
  wst : c.wst.Ok c.nodes
  rst : c.rst.Ok c.nodes

/-- A value that says nothing about its number: those of signatures and casts. -/
def Plain (v : Value) : Prop :=
  v.const = false ∧ v.forked = false ∧ v.ret = false ∧ v.routine = false ∧ v.halfHi = false ∧ v.halfLo = false ∧
    v.whole = none

/-- A list of arguments. -/
def PlainArgs (l : List Value) : Prop := l.length ≤ 8 ∧ ∀ v ∈ l, Plain v

structure Sig.Ok (s : Sig) : Prop where
  wstIn : PlainArgs s.wstIn
  rstIn : PlainArgs s.rstIn
  wstOut : PlainArgs s.wstOut
  rstOut : PlainArgs s.rstOut

/-- A program as the parser delivers it. -/
structure Program.Ok (P : Program) : Prop where
  sigs : ∀ a s, P.label a = some (some s) → s.Ok
  casts : ∀ a k, P.cast a = some k → PlainArgs k.wst ∧ PlainArgs k.rst

/-- The state of the checker as it should be: the bookkeeping of all stacks is right (the shadow stacks only count in
keep mode) and nothing was accessed out of bounds. -/
structure Safe (c : Run) : Prop where
  ok : c.Ok
  shadow : c.keep = true → c.shadowWst.Ok c.nodes ∧ c.shadowRst.Ok c.nodes
  queue : ∀ e ∈ c.queue, e.wst.Ok c.nodes ∧ e.rst.Ok c.nodes
  unharmed : c.oob = false

/-- The same, unless a stack was filled to 256 bytes. -/
def Fine (c : Run) : Prop := c.wrapped = true ∨ Safe c

end Buxn.Chess
