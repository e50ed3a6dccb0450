import Verif.Asm.Jumps
import Verif.Asm.Tokens
import Verif.Asm.Mnemonics
/-!
# C78: what a source means

A specification of the language of the assembler that does not mention the assembler: the words of the files are read in order,
bytes are put at addresses, references are put where they are met, whether their label is known or not, and labels are placed. At
the end every reference stands for a number. That the assembler agrees is proved in `MeaningProps.lean`.

It is built on the specifications of numbers (C32), mnemonics (C33), words (C34) and of the value of a reference (C35).
-/

namespace Buxn.Asm.Meaning
open Buxn.VM Buxn.Asm Buxn.Asm.Spec

/-- What a reference is about: a label with a name, wherever it is defined; an anonymous label, at an address; or the end of the
lambda with a number. -/
inductive Target where
  | name (n : Str)
  | place (a : Short)
  | lambda (k : Nat)
  deriving DecidableEq

/-- A reference: where it is, what it looks like, and what it is about. -/
structure Reference where
  addr : Short
  kind : RefKind
  size : RefSize
  target : Target
  deriving DecidableEq

/-- What has been read so far. -/
structure State where
  /-- where the next byte goes -/
  addr : Short := 0x0100
  /-- the label in front of local labels -/
  scope : Str := str "RESET"
  /-- the bytes, newest first -/
  bytes : List (Short × Byte) := []
  /-- the references, newest first -/
  refs : List Reference := []
  labels : List (Str × Short) := []
  /-- anonymous labels that nothing refers to yet, newest first -/
  anonymous : List Short := []
  /-- the lambdas that are open, innermost first -/
  opened : List Nat := []
  /-- how many lambdas there were -/
  count : Nat := 0
  /-- the ends of lambdas -/
  closed : List (Nat × Short) := []
  macros : List (Str × List Str) := []
  included : List Str := []
  /-- the files to be included at the end -/
  deferred : List Str := []
  /-- the names of labels and macros that were mentioned other than to define them -/
  used : List Str := []
  /-- what has been put into memory so far and where, newest first -/
  writes : List (Short × Byte) := []

/-- Bytes are put one after the other. -/
def State.put : List Byte → State → State
  | [], s => s
  | b :: bs, s => State.put bs { s with addr := s.addr + 1, bytes := (s.addr, b) :: s.bytes, writes := (s.addr, b) :: s.writes }

/-- The number of bytes of a reference. -/
def width : RefSize → Short
  | .byte => 1
  | .short => 2

/-- Where the target of a reference is. -/
def State.find (s : State) : Target → Option Short
  | .name n => s.labels.lookup n
  | .place a => some a
  | .lambda k => s.closed.lookup k

/-- The bytes of a number at an address, the last one first. -/
def spelled (a : Short) (v : Int) : RefSize → List (Short × Byte)
  | .byte => [(a, BitVec.ofInt 8 v)]
  | .short => [(a + 1, BitVec.ofInt 8 v), (a, BitVec.ofInt 8 (v / 256))]

/-- What a reference looks like when its target is known, and before that. -/
def Reference.spell (r : Reference) : Option Short → List (Short × Byte)
  | some l => spelled r.addr (refValue r.kind r.addr l) r.size
  | none => spelled r.addr 1 r.size

/-- A reference is put. -/
def State.refer (kind : RefKind) (size : RefSize) (t : Target) (s : State) : State :=
  { s with addr := s.addr + width size, refs := ⟨s.addr, kind, size, t⟩ :: s.refs, writes := Reference.spell ⟨s.addr, kind, size, t⟩ (s.find t) ++ s.writes }

/-- When a target is placed, the references to it are filled in, the newest first. -/
def State.fill (t : Target) (s : State) : List (Short × Byte) := (s.refs.filter fun r => r.target = t).reverse.flatMap fun r => r.spell (some s.addr)

/-- What the text of a reference is about: `{` opens a lambda, `@` is the newest anonymous label that is not used yet, anything
else is a name. -/
def State.target (ref : Str) (s : State) : Option (Target × State) :=
  if ref = str "{" then some (.lambda s.count, { s with opened := s.count :: s.opened, count := s.count + 1 })
  else if ref = str "@" then
    match s.anonymous with
    | [] => none
    | a :: rest => some (.place a, { s with anonymous := rest })
  else (fullName s.scope ref).map fun n => (.name n, { s with used := n :: s.used })

/-- A reference with a text. -/
def Refers (ref : Str) (kind : RefKind) (size : RefSize) (s s' : State) : Prop :=
  ∃ t s1, s.target ref = some (t, s1) ∧ s' = s1.refer kind size t

/-- A label is defined, once. -/
def Defines (name : Str) (s s' : State) : Prop := s.labels.lookup name = none ∧ s' = { s with labels := (name, s.addr) :: s.labels, writes := s.fill (.name name) ++ s.writes }

/-- A number after `|` or `$`: a literal, or any one to four hexadecimal digits. -/
inductive Amount : Str → Nat → Prop
  | hex (ds : Str) : ds ≠ [] → ds.length ≤ 4 → HexDigits ds → Amount ds (numeral 16 ds)
  | literal {w : Str} {v k : Nat} : Literal w v k → Amount w v

/-- What padding is about: a number, an anonymous label, or a label that is already defined. -/
inductive Pads : Str → State → Short → State → Prop
  | number {p : Str} {v : Nat} {s : State} : Amount p v → Pads p s (BitVec.ofNat 16 v) s
  | anonymous {s : State} {a : Short} {rest : List Short} : s.anonymous = a :: rest → Pads (str "@") s a { s with anonymous := rest }
  | label {p n : Str} {s : State} {a : Short} : (¬ ∃ v, Amount p v) → fullName s.scope p = some n → s.labels.lookup n = some a →
      Pads p s a { s with used := n :: s.used }

/-- The runes: a word that starts with one of them is not a name. -/
def RUNES : Str := str "{}[]()|$#\"@&/,_.-;=!?%~"

/-- A word that is a name: of a macro or of a label. -/
def IsName (w : Str) : Prop := (∀ c, w.head? = some c → c ∉ RUNES) ∧ (¬ ∃ v k, Literal w v k) ∧ ¬ ∃ i, Mnemonic w i

/-- A word without a rune: a number, an instruction, or a call. -/
def Bare (w : Str) (s s' : State) : Prop :=
  (∃ v k, Literal w v k ∧ s' = s.put (bytesOf v k)) ∨
  ((¬ ∃ v k, Literal w v k) ∧ ∃ i op, Mnemonic w i ∧ dispatch op = some i ∧ s' = s.put [op]) ∨
  IsName w ∧ Refers w .rel .short (s.put [0x60]) s'

/-- What a word does, if it is not a comment, a mark, an include or about a macro. -/
def Word (w : Str) (s s' : State) : Prop :=
  match w with
  | [] => False
  | rune :: rest =>
    match runes.lookup rune with
    | some (op, kind, size) => Refers rest kind size (s.put op.toList) s'
    | none =>
      if rune = ch '#' then ∃ v k, Literal rest v k ∧ s' = s.put ((if k = 1 then 0x80 else 0xa0) :: bytesOf v k)
      else if rune = ch '"' then rest ≠ [] ∧ s' = s.put rest
      else if rune = ch '|' then ∃ a s1, Pads rest s a s1 ∧ s' = { s1 with addr := a }
      else if rune = ch '$' then ∃ a s1, Pads rest s a s1 ∧ s' = { s1 with addr := s.addr + a }
      else if w = str "@@" then s' = { s with anonymous := s.addr :: s.anonymous }
      else if rune = ch '@' then ∃ s1, Defines rest s s1 ∧ s' = { s1 with scope := rest.takeWhile (· ≠ ch '/') }
      else if rune = ch '&' then Defines (s.scope ++ str "/" ++ rest) s s'
      else if w = str "}" then ∃ k ks, s.opened = k :: ks ∧ s' = { s with opened := ks, closed := (k, s.addr) :: s.closed, writes := s.fill (.lambda k) ++ s.writes }
      else if w = str "{" ∨ rune = ch '/' then Refers w .rel .short (s.put [0x60]) s'
      else Bare w s s'

/-- What follows a comment, of which some levels are open. -/
def comment : Nat → List Str → Option (List Str)
  | 0, ws => some ws
  | _ + 1, [] => none
  | d + 1, w :: ws => comment (if w = str "(" then d + 2 else if w = str ")" then d else d + 1) ws

def IsComment (w : Str) : Prop := w.head? = some (ch '(')

/-- Brackets around groups of words mean nothing. -/
def IsMark (w : Str) : Prop := w.head? = some (ch '[') ∨ w = str "]"

/-- What follows the brace that opens the body of a macro. -/
inductive Opens : List Str → List Str → Prop
  | brace {ws : List Str} : Opens (str "{" :: ws) ws
  | mark {w : Str} {ws rest : List Str} : IsMark w → Opens ws rest → Opens (w :: ws) rest
  | comment {w : Str} {ws ws' rest : List Str} : IsComment w → comment 1 ws = some ws' → Opens ws' rest → Opens (w :: ws) rest

/-- The words that open a lambda, except for `{` itself, which does not count in the body of a macro (see
`C78_macro_brace_violated`). -/
def LAMBDAS : List Str := [str ",{", str "_{", str ".{", str "-{", str ";{", str "={", str "!{", str "?{"]

/-- The body of a macro up to the brace that closes it, and what follows. -/
def body : Nat → List Str → Option (List Str × List Str)
  | _, [] => none
  | d, w :: ws =>
    if w.head? = some (ch '%') then none
    else if w = str "}" then (if d ≤ 1 then some ([], ws) else (body (d - 1) ws).map fun r => (w :: r.1, r.2))
    else (body (if w ∈ LAMBDAS then d + 1 else d) ws).map fun r => (w :: r.1, r.2)

/-- The argument of a macro replaces every `^`. -/
def replace (arg w : Str) : Str := w.flatMap fun c => if c = ch '^' then arg else [c]

/-- The words of a file. -/
def Words (files : Files) (name : Str) (ws : List Str) : Prop :=
  ∃ raw ls, files (name.takeWhile (· ≠ 0)) = some (raw.map some) ∧ Tokens [] (normalise raw) ls true ∧ ws = ls.map (·.text)

/-- The meaning of words: how they take one state to another. -/
inductive Reads (files : Files) : List Str → State → State → Prop
  | done {s : State} : Reads files [] s s
  | comment {w : Str} {ws rest : List Str} {s s' : State} : IsComment w → comment 1 ws = some rest → Reads files rest s s' → Reads files (w :: ws) s s'
  | mark {w : Str} {ws : List Str} {s s' : State} : IsMark w → Reads files ws s s' → Reads files (w :: ws) s s'
  /-- the definition of a macro -/
  | define {w name : Str} {ws ws' b rest : List Str} {s s' : State} : w = ch '%' :: name → IsName name → s.macros.lookup name = none → Opens ws ws' →
      body 1 ws' = some (b, rest) → Reads files rest { s with macros := (name, b) :: s.macros } s' → Reads files (w :: ws) s s'
  /-- a macro without argument -/
  | expand {w : Str} {b ws : List Str} {s s1 s' : State} : IsName w → s.macros.lookup w = some b → w.getLast? ≠ some (ch ':') →
      Reads files b { s with used := w :: s.used } s1 → Reads files ws s1 s' → Reads files (w :: ws) s s'
  /-- a macro with an argument, the next word -/
  | apply {w arg : Str} {b ws : List Str} {s s1 s' : State} : IsName w → s.macros.lookup w = some b → w.getLast? = some (ch ':') →
      Reads files (b.map (replace arg)) { s with used := w :: s.used } s1 → Reads files ws s1 s' → Reads files (w :: arg :: ws) s s'
  /-- a file is read where it is included -/
  | include {w name : Str} {inner ws : List Str} {s s1 s' : State} : w = ch '~' :: name → name.head? ≠ some (ch '~') → name ∉ s.included →
      Words files name inner → Reads files inner { s with included := name :: s.included } s1 → Reads files ws s1 s' → Reads files (w :: ws) s s'
  /-- but only once -/
  | again {w name : Str} {ws : List Str} {s s' : State} : w = ch '~' :: name → name.head? ≠ some (ch '~') → name ∈ s.included →
      Reads files ws s s' → Reads files (w :: ws) s s'
  /-- or at the end -/
  | defer {w name : Str} {ws : List Str} {s s' : State} : w = ch '~' :: ch '~' :: name →
      Reads files ws (if name ∈ s.included then s else { s with deferred := s.deferred ++ [name] }) s' → Reads files (w :: ws) s s'
  /-- anything else -/
  | word {w : Str} {ws : List Str} {s s1 s' : State} : (IsName w → s.macros.lookup w = none) → Word w s s1 → Reads files ws s1 s' → Reads files (w :: ws) s s'

/-- The files that are included at the end, in order; more may come meanwhile. -/
inductive Ends (files : Files) : State → State → Prop
  | done {s : State} : s.deferred = [] → Ends files s s
  | include {s s1 s' : State} {name : Str} {rest inner : List Str} : s.deferred = name :: rest → name ∉ s.included → Words files name inner →
      Reads files inner { s with deferred := rest, included := name :: s.included } s1 → Ends files s1 s' → Ends files s s'
  | again {s s' : State} {name : Str} {rest : List Str} : s.deferred = name :: rest → name ∈ s.included → Ends files { s with deferred := rest } s' → Ends files s s'

/-- The meaning of a program: its main file and what it includes at the end. -/
def Program (files : Files) (main : Str) (s : State) : Prop :=
  ∃ ws s1, Words files main ws ∧ Reads files ws {} s1 ∧ Ends files s1 s

/-- The addresses of a reference. -/
def Reference.cells (r : Reference) : List Short :=
  match r.size with
  | .byte => [r.addr]
  | .short => [r.addr + 1, r.addr]

/-- All addresses that the program fills. -/
def State.places (s : State) : List Short := s.bytes.map (·.1) ++ s.refs.flatMap (·.cells)

/-- A memory image is that of a program: bytes are where they were put, every reference has a target and holds the number that it
stands for (which has to fit), and the rest is zero. -/
structure Holds (s : State) (mem : Short → Byte) : Prop where
  bytes : ∀ p ∈ s.bytes, mem p.1 = p.2
  refs : ∀ r ∈ s.refs, ∃ l, s.find r.target = some l ∧ InReach r.kind r.size r.addr l ∧ HoldsNumber mem r.addr r.size (refValue r.kind r.addr l)
  rest : ∀ a, a ∉ s.places → mem a = 0

/-- The memory image of a program, also if it puts something where something else was: what was put last counts. -/
def State.image (s : State) (a : Short) : Byte := (s.writes.lookup a).getD 0

/-- The memory is the one of a program. -/
structure Denotes (s : State) (mem : Short → Byte) : Prop where
  image : ∀ a, mem a = s.image a
  once : s.places.Nodup → Holds s mem

end Buxn.Asm.Meaning
