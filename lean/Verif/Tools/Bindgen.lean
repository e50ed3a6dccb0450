import Verif.Asm.Annotation
import Verif.Devices.Common
/-!
# The binding generator (C70)

`/repo/src/bindgen.c` assembles a file, watches the symbols (through the annotations of C44) and prints a C header. Modelled
as a function of the symbols that the assembler announces. The names are values: the code keeps pointers into strings that
the assembler keeps for as long as it runs.
-/
namespace Buxn.Bindgen
open Buxn.VM Buxn.Asm Buxn.Anno

/-! ## Model -/

/-- `annotation_type_t`, `bindgen.c:38-42`. -/
inductive Kind
  | device | enum | command
  deriving DecidableEq, Repr

/-- The table of `main`, `bindgen.c:76-80`. -/
def annos : List Anno := [⟨str "device", .prefix⟩, ⟨str "enum", .prefix⟩, ⟨str "command", .prefix⟩]

/-- `annotation - ctx->anno_spec.annotations`, `bindgen.c:461`. -/
def kindAt (i : Nat) : Kind := if i = 0 then .device else if i = 1 then .enum else .command

/-- `format_options_t`, `bindgen.c:15-18`. -/
structure Format where
  pre : Str
  suf : Str

/-- The command line, as `main` has read it: the arguments, the include guard and the formats. The option parser is not
modelled. -/
structure Opts where
  args : List Str
  guard : Option Str
  fmt : Kind → Format

/-- `cmd_field_info_t`, `bindgen.c:23-28`. -/
structure Field where
  name : Str
  size : Short
  deriving DecidableEq, Repr

/-- `cmd_struct_info_t`, `bindgen.c:30-36`. -/
structure Cmd where
  name : Str
  fields : List Field
  deriving DecidableEq, Repr

/-- `buxn_asm_ctx_s`, `bindgen.c:44-58`, and what has been printed. `last_cmd` is the last of `cmds`; a `str_t` of length 0 is
`[]`. -/
structure State where
  anno : Anno.State := {}
  scope : Str := []
  kind : Kind := .device
  base : Short := 0
  last : Short := 0
  cmds : List Cmd := []
  lastName : Str := []
  out : Str := []

/-- `toupper` and `tolower` of the C locale. The code passes a `char`, which is not allowed for bytes from 0x80 to 0xfe; the
library of the modelled platform returns them unchanged. -/
def upper (b : Byte) : Byte := if 97 ≤ b.toNat ∧ b.toNat ≤ 122 then b - 32 else b
def lower (b : Byte) : Byte := if 65 ≤ b.toNat ∧ b.toNat ≤ 90 then b + 32 else b

/-- `print_str` and `print_null_str`, `bindgen.c:335-355`. -/
def print (f : Byte → Byte) (s : Str) : Str := s.map fun b => if b = ch '-' then ch '_' else f b

/-- `split_label_name`, `bindgen.c:318-333`. -/
def split (name : Str) : Str × Str := (name.takeWhile (· ≠ ch '/'), (name.dropWhile (· ≠ ch '/')).drop 1)

/-- The digits of a number. -/
def digits (b n : Nat) : Str := (Nat.toDigits b n).map ch
/-- `%d`. -/
def decimal (n : Int) : Str := if n < 0 then ch '-' :: digits 10 n.natAbs else digits 10 n.natAbs
/-- `%02x`. -/
def hex2 (n : Nat) : Str := if (digits 16 n).length < 2 then ch '0' :: digits 16 n else digits 16 n

/-- `finalize_section`, `bindgen.c:499-520`. -/
def finalize (o : Opts) (s : State) : State :=
  if s.scope ≠ [] then
    { s with
      scope := []
      out := s.out ++ match s.kind with
        | .command => str "};\n"
        | k => str "} " ++ (o.fmt k).pre ++ print lower s.scope ++ (o.fmt k).suf ++ str ";\n" }
  else s

/-- `handle_annotation`, `bindgen.c:447-497`. -/
def handleAnnotation (o : Opts) (s : State) (c : Call) : State :=
  match c.anno with
  | none => s
  | some i =>
    let s := finalize o s
    let scope := (split (cname c.sym)).1
    { s with
      kind := kindAt i
      scope := scope
      base := c.addr
      last := c.addr
      out := s.out ++ (match kindAt i with | .command => str "\nenum {\n" | _ => str "\ntypedef enum {\n")
      cmds := if kindAt i = .command then s.cmds ++ [⟨scope, []⟩] else s.cmds }

/-- Add to the last structure. Without one this would be a null pointer; see `C70_no_null`. -/
def addField (f : Field) (cmds : List Cmd) : List Cmd :=
  match cmds.getLast? with
  | some c => cmds.dropLast ++ [{ c with fields := c.fields ++ [f] }]
  | none => cmds

/-- `bindgen.c:372-397` and `bindgen.c:423-443`: the same code twice. -/
def flush (addr : Short) (s : State) : State :=
  if addr ≠ s.last ∧ s.lastName ≠ [] then
    { s with cmds := addField ⟨s.lastName, addr - s.last⟩ s.cmds, lastName := [] }
  else s

/-- `bindgen.c:399-419`: an enumerator. -/
def member (o : Opts) (addr : Short) (name scope loc : Str) (s : State) : State :=
  { s with
    out := s.out ++ (str "\t/// " ++ name ++ str "\n\t" ++ print upper (o.fmt s.kind).pre ++ print upper scope ++ str "_" ++ print upper loc ++
      match s.kind with
      | .device => str " = 0x" ++ hex2 addr.toNat ++ str ",\n"
      | .enum => str " = " ++ decimal addr.toNat ++ str ",\n"
      | .command => str " = " ++ decimal ((addr.toNat : Int) - s.base.toNat) ++ str ",\n")
    lastName := if s.kind = .command then loc else s.lastName
    last := addr }

/-- What `buxn_asm_put_symbol` does after the annotations, `bindgen.c:360-444`. -/
def label (o : Opts) (addr : Short) (sym : SymInfo) (s : State) : State :=
  if sym.type = .label then
    let p := split (cname sym)
    if p.1 = s.scope ∧ p.2 ≠ [] then member o addr (cname sym) p.1 p.2 (flush addr s) else s
  else flush addr s

/-- `buxn_asm_put_symbol`, `bindgen.c:357-445`. -/
def putSymbol (o : Opts) (addr : Short) (sym : SymInfo) (s : State) : State :=
  let r := Anno.handle annos addr sym s.anno
  label o addr sym (r.2.foldl (handleAnnotation o) { s with anno := r.1 })

/-- All symbols. -/
def putSymbols (o : Opts) (syms : List (Short × SymInfo)) (s : State) : State := syms.foldl (fun s p => putSymbol o p.1 p.2 s) s

/-- The type of a field, `bindgen.c:184`. -/
def isByte (f : Field) : Bool := f.size = 1

/-- `bindgen.c:171-255`: the structure, the reader and the writer of a command. -/
def structText (o : Opts) (c : Cmd) : Str :=
  let f := o.fmt .command
  let name := print lower c.name
  str "\ntypedef struct {\n" ++
    c.fields.flatMap (fun x => str "\tuint" ++ str (if x.size = 1 then "8" else "16") ++ str "_t " ++ print lower x.name ++ str ";\n") ++
    str "} " ++ f.pre ++ name ++ f.suf ++ str ";\n" ++
  str "\nstatic inline " ++ f.pre ++ name ++ f.suf ++ str "\n" ++ f.pre ++ name ++ str "_read(buxn_vm_t* vm, uint16_t addr) {\n" ++
    str "\treturn (" ++ f.pre ++ name ++ f.suf ++ str ") {\n" ++
    c.fields.flatMap (fun x => str "\t\t." ++ print lower x.name ++ str " = buxn_vm_mem_load" ++ str (if x.size = 1 then "" else "2") ++ str "(vm, addr + " ++
      print upper f.pre ++ print upper c.name ++ str "_" ++ print upper x.name ++ str "),\n") ++
    str "\t};\n}\n" ++
  str "\nstatic inline void\n" ++ f.pre ++ name ++ str "_write(buxn_vm_t* vm, uint16_t addr, " ++ f.pre ++ name ++ f.suf ++ str " value) {\n" ++
    c.fields.flatMap (fun x => str "\tbuxn_vm_mem_store" ++ str (if x.size = 1 then "" else "2") ++ str "(vm, addr + " ++
      print upper f.pre ++ print upper c.name ++ str "_" ++ print upper x.name ++ str ", value." ++ print lower x.name ++ str ");\n") ++
    str "}\n"

/-- `main` from `bindgen.c:155` on. `syms` are the symbols that the assembler announced, `ok` is what it returned. -/
def header (o : Opts) (syms : List (Short × SymInfo)) (ok : Bool) : Str :=
  let s := finalize o (putSymbols o syms {
    out := (match o.guard with | some g => str "#ifndef " ++ g ++ str "\n" ++ str "#define " ++ g ++ str "\n\n" | none => []) ++
      str "// buxn-bindgen" ++ o.args.flatMap (fun a => str " " ++ a) ++ str "\n" })
  s.out ++ s.cmds.flatMap (structText o) ++
    (if ok then [] else str "\n#warning \"Error encountered, header might be incomplete\"\n") ++
    (match o.guard with | some _ => str "\n#endif\n" | none => [])

/-! ## Specification -/

namespace Spec
open Anno.Spec

/-- The word of an annotation. -/
def word : Kind → Str
  | .device => str "device"
  | .enum => str "enum"
  | .command => str "command"

/-- A comment that starts with the word of the annotation, as in `(device )`. -/
def announces (k : Kind) : Item → Bool
  | .comment o _ _ => (cname o.2).drop 1 = word k
  | .plain _ _ => false

/-- The annotations of a definition: those in the comments since the definition before it. -/
def attached (before : List Item) (s : SymInfo) : List Kind :=
  if isDef s then [Kind.device, .enum, .command].filter fun k => (sinceDef before).any (announces k) else []

/-- A symbol, with the annotations that it starts a group for. -/
structure Ev where
  addr : Short
  sym : SymInfo
  opens : List Kind

def evsOf (before : List Item) : Item → List Ev
  | .plain a s => [⟨a, s, attached before s⟩]
  | .comment o l c => (o :: (l ++ [c])).map fun p => ⟨p.1, p.2, []⟩

def evsFrom (before : List Item) : List Item → List Ev
  | [] => []
  | x :: l => evsOf before x ++ evsFrom (before ++ [x]) l

/-- The symbols of a program. -/
def evs (l : List Item) : List Ev := evsFrom [] l

/-- The part of a name before the first slash. -/
def scopeOf (name : Str) : Str := name.takeWhile (· ≠ ch '/')
/-- The part of a name after the first slash. -/
def localOf (name : Str) : Str := (name.dropWhile (· ≠ ch '/')).drop 1

/-- A label of the group: the part after the slash. -/
def memberOf (scope : Str) (e : Ev) : Option Str :=
  if e.sym.type = .label ∧ scopeOf (cname e.sym) = scope ∧ localOf (cname e.sym) ≠ [] then some (localOf (cname e.sym)) else none

/-- A group: what follows an annotated definition up to the next one. -/
structure Group where
  kind : Kind
  scope : Str
  base : Short
  body : List Ev

def groups : List Ev → List Group
  | [] => []
  | e :: r =>
    (match e.opens.getLast? with
      | none => []
      | some k =>
        e.opens.dropLast.map (fun k => ⟨k, scopeOf (cname e.sym), e.addr, []⟩) ++
          [⟨k, scopeOf (cname e.sym), e.addr, e :: r.takeWhile (fun e => e.opens.isEmpty)⟩]) ++ groups r

/-- A name in C: dashes become underscores. -/
def inC (f : Byte → Byte) (s : Str) : Str := s.map fun b => if b = ch '-' then ch '_' else f b

/-- The value of a member: the address, for a command the distance from the start of the group. -/
def value (g : Group) (a : Short) : Str :=
  match g.kind with
  | .device => str "0x" ++ hex2 a.toNat
  | .enum => decimal a.toNat
  | .command => decimal ((a.toNat : Int) - g.base.toNat)

/-- A member is printed under its name in the source. -/
def memberText (o : Opts) (g : Group) (e : Ev) : Str :=
  match memberOf g.scope e with
  | none => []
  | some l => str "\t/// " ++ cname e.sym ++ str "\n\t" ++ inC upper (o.fmt g.kind).pre ++ inC upper g.scope ++ str "_" ++ inC upper l ++
      str " = " ++ value g e.addr ++ str ",\n"

/-- The enumeration of a group: with a name, except for a command. -/
def groupText (o : Opts) (g : Group) : Str :=
  (if g.kind = .command then str "\nenum {\n" else str "\ntypedef enum {\n") ++ g.body.flatMap (memberText o g) ++
    (if g.kind = .command then str "};\n" else str "} " ++ (o.fmt g.kind).pre ++ inC lower g.scope ++ (o.fmt g.kind).suf ++ str ";\n")

def preamble (o : Opts) : Str :=
  (match o.guard with | some g => str "#ifndef " ++ g ++ str "\n" ++ str "#define " ++ g ++ str "\n\n" | none => []) ++
    str "// buxn-bindgen" ++ o.args.flatMap (fun a => str " " ++ a) ++ str "\n"

def epilogue (o : Opts) (ok : Bool) : Str :=
  (if ok then [] else str "\n#warning \"Error encountered, header might be incomplete\"\n") ++
    (match o.guard with | some _ => str "\n#endif\n" | none => [])

/-- Labels, and what is annotated, have a name that does not start with a slash. -/
def Named (l : List Ev) : Prop := ∀ e ∈ l, (e.sym.type = .label ∧ localOf (cname e.sym) ≠ []) ∨ e.opens ≠ [] → scopeOf (cname e.sym) ≠ []

/-- Where a field ends, as far as the symbols tell: the first address other than its own that is announced, up to the next
field. Labels of other groups do not count. -/
def extent (scope : Str) (a : Short) : List Ev → Option Short
  | [] => none
  | e :: r =>
    if (memberOf scope e).isSome then (if e.addr = a then none else some e.addr)
    else if e.sym.type = .label then extent scope a r
    else if e.addr = a then extent scope a r else some e.addr

/-- The fields of a command. -/
def fields (scope : Str) : List Ev → List Field
  | [] => []
  | e :: r =>
    (match memberOf scope e with
      | none => []
      | some l => match extent scope e.addr r with
        | some b => [⟨l, b - e.addr⟩]
        | none => []) ++ fields scope r

/-- The structure of a command: a byte for a field of one byte, otherwise 16 bits. -/
def structDecl (o : Opts) (scope : Str) (fs : List Field) : Str :=
  str "\ntypedef struct {\n" ++
    fs.flatMap (fun x => (if x.size = 1 then str "\tuint8_t " else str "\tuint16_t ") ++ inC lower x.name ++ str ";\n") ++
    str "} " ++ (o.fmt .command).pre ++ inC lower scope ++ (o.fmt .command).suf ++ str ";\n"

/-- Each field is read with its size, from the address with the value of its member added. -/
def reader (o : Opts) (scope : Str) (fs : List Field) : Str :=
  let name := (o.fmt .command).pre ++ inC lower scope
  str "\nstatic inline " ++ name ++ (o.fmt .command).suf ++ str "\n" ++ name ++ str "_read(buxn_vm_t* vm, uint16_t addr) {\n\treturn (" ++
    name ++ (o.fmt .command).suf ++ str ") {\n" ++
    fs.flatMap (fun x => str "\t\t." ++ inC lower x.name ++ (if x.size = 1 then str " = buxn_vm_mem_load(vm, addr + " else str " = buxn_vm_mem_load2(vm, addr + ") ++
      inC upper (o.fmt .command).pre ++ inC upper scope ++ str "_" ++ inC upper x.name ++ str "),\n") ++ str "\t};\n}\n"

/-- Each field is written with its size, to the address with the value of its member added. -/
def writer (o : Opts) (scope : Str) (fs : List Field) : Str :=
  let name := (o.fmt .command).pre ++ inC lower scope
  str "\nstatic inline void\n" ++ name ++ str "_write(buxn_vm_t* vm, uint16_t addr, " ++ name ++ (o.fmt .command).suf ++ str " value) {\n" ++
    fs.flatMap (fun x => (if x.size = 1 then str "\tbuxn_vm_mem_store(vm, addr + " else str "\tbuxn_vm_mem_store2(vm, addr + ") ++
      inC upper (o.fmt .command).pre ++ inC upper scope ++ str "_" ++ inC upper x.name ++ str ", value." ++ inC lower x.name ++ str ");\n") ++ str "}\n"

def commandText (o : Opts) (scope : Str) (fs : List Field) : Str := structDecl o scope fs ++ reader o scope fs ++ writer o scope fs

/-- The groups of commands. -/
def commands (gs : List Group) : List Group := gs.filter fun g => g.kind = .command

/-- The end of each field is known: after the last one something else is announced. -/
def Closed (scope : Str) : List Ev → Prop
  | [] => True
  | e :: r => ((memberOf scope e).isSome → (∀ x ∈ r, memberOf scope x = none) → extent scope e.addr r ≠ none) ∧ Closed scope r

end Spec

/-! ## Proof: from the symbols to the groups -/

open Spec Anno.Spec

/-- Without the state of the annotations. -/
def strip (s : State) : State := { s with anno := {} }

/-- The start of a group. -/
def openGroup (o : Opts) (a : Short) (sym : SymInfo) (s : State) (k : Kind) : State :=
  let s := finalize o s
  { s with
    kind := k
    scope := scopeOf (cname sym)
    base := a
    last := a
    out := s.out ++ (match k with | .command => str "\nenum {\n" | _ => str "\ntypedef enum {\n")
    cmds := if k = .command then s.cmds ++ [⟨scopeOf (cname sym), []⟩] else s.cmds }

/-- A symbol, after the annotations. -/
def feed (o : Opts) (s : State) (e : Ev) : State := label o e.addr e.sym (e.opens.foldl (openGroup o e.addr e.sym) s)

theorem strip_finalize (o : Opts) (s : State) : strip (finalize o s) = finalize o (strip s) := by
  unfold finalize strip
  dsimp only
  split <;> rfl

theorem strip_flush (a : Short) (s : State) : strip (flush a s) = flush a (strip s) := by
  unfold flush strip
  dsimp only
  split <;> rfl

theorem strip_label (o : Opts) (a : Short) (sym : SymInfo) (s : State) : strip (label o a sym s) = label o a sym (strip s) := by
  unfold label
  split
  · have e1 : (strip s).scope = s.scope := rfl
    dsimp only
    rw [e1]
    split
    · rw [← strip_flush]; rfl
    · rfl
  · exact strip_flush a s

theorem strip_handleAnnotation (o : Opts) (s : State) (c : Call) : strip (handleAnnotation o s c) = handleAnnotation o (strip s) c := by
  unfold handleAnnotation
  cases c.anno with
  | none => rfl
  | some i => dsimp only; rw [← strip_finalize]; rfl

theorem strip_fold (o : Opts) (cs : List Call) (s : State) : strip (cs.foldl (handleAnnotation o) s) = cs.foldl (handleAnnotation o) (strip s) := by
  induction cs generalizing s with
  | nil => rfl
  | cons c cs ih => rw [List.foldl_cons, List.foldl_cons, ih, strip_handleAnnotation]

/-- The annotations that a definition receives. -/
theorem fold_calls (o : Opts) (a : Short) (sym : SymInfo) (cs : List Call) (is : List Nat)
    (h : List.Forall₂ (fun c i => c.anno = some i ∧ c.addr = a ∧ c.sym = sym) cs is) (s : State) :
    cs.foldl (handleAnnotation o) s = (is.map kindAt).foldl (openGroup o a sym) s := by
  induction h generalizing s with
  | nil => rfl
  | @cons c i cs is h _ ih =>
    rw [List.foldl_cons, ih, List.map_cons, List.foldl_cons]
    congr 1
    unfold handleAnnotation openGroup
    rw [h.1, h.2.1, h.2.2]
    rfl

theorem fold_none (o : Opts) (cs : List Call) (h : ∀ c ∈ cs, c.anno = none) (s : State) : cs.foldl (handleAnnotation o) s = s := by
  induction cs generalizing s with
  | nil => rfl
  | cons c cs ih =>
    rw [List.foldl_cons]
    have : handleAnnotation o s c = s := by unfold handleAnnotation; rw [h c (by simp)]
    rw [this]
    exact ih (fun c hc => h c (by simp [hc])) s

theorem kinds_prefix (i : Nat) : (annos[i]?).map Anno.kind = if i < 3 then some .prefix else none := by
  match i with
  | 0 => rfl
  | 1 => rfl
  | 2 => rfl
  | n + 3 => simp [annos]

theorem apply_calls (r : Region) (st : Anno.State) : ∀ c ∈ (Anno.apply annos r st).2, c.anno = none := by
  unfold Anno.apply
  split
  · intro c hc; rw [List.mem_singleton.1 hc]
  split
  · split
    · intro c hc; cases hc
    · rename_i i _
      rw [kinds_prefix]
      by_cases hi : i < 3
      · rw [if_pos hi]; intro c hc; cases hc
      · rw [if_neg hi]; intro c hc; cases hc
  · intro c hc; cases hc

theorem finish_calls (sym : SymInfo) (st : Anno.State) : ∀ c ∈ (Anno.finish annos sym st).2, c.anno = none := by
  unfold finish
  split
  · intro c hc; cases hc
  · exact apply_calls _ st

/-- A word of a comment starts no group. -/
theorem comment_calls (a : Short) (sym : SymInfo) (st : Anno.State) (h : sym.type = .comment) :
    ∀ c ∈ (Anno.handle annos a sym st).2, c.anno = none := by
  unfold Anno.handle
  dsimp only
  rw [if_pos h]
  split
  · intro c hc; cases hc
  split
  · exact finish_calls sym _
  · intro c hc; cases hc

theorem annotationOf_iff (sym : SymInfo) (i : Nat) (hi : i < 3) : annotationOf annos sym = some i ↔ (cname sym).drop 1 = word (kindAt i) := by
  have hw : ∀ i : Fin 3, word (kindAt i.val) ≠ [] := by decide
  unfold annotationOf
  by_cases hl : (cname sym).length ≤ 1
  · rw [if_pos hl]
    have : (cname sym).drop 1 = [] := List.drop_eq_nil_iff.2 hl
    rw [this]
    constructor
    · intro h; cases h
    · intro h; exact absurd h.symm (hw ⟨i, hi⟩)
  · rw [if_neg hl]
    generalize (cname sym).drop 1 = w
    have e : annos.findIdx? (fun a => decide (a.name = w)) =
        if str "device" = w then some 0 else if str "enum" = w then some 1 else if str "command" = w then some 2 else none := by
      simp only [annos, List.findIdx?_cons, List.findIdx?_nil, decide_eq_true_eq]
      split
      · rfl
      · split
        · rfl
        · split <;> rfl
    rw [e]
    by_cases h1 : w = str "device"
    · subst h1
      rw [if_pos rfl]
      have : ∀ i : Fin 3, some 0 = some i.val ↔ str "device" = word (kindAt i.val) := by decide
      exact this ⟨i, hi⟩
    · rw [if_neg (fun h => h1 h.symm)]
      by_cases h2 : w = str "enum"
      · subst h2
        rw [if_pos rfl]
        have : ∀ i : Fin 3, some 1 = some i.val ↔ str "enum" = word (kindAt i.val) := by decide
        exact this ⟨i, hi⟩
      · rw [if_neg (fun h => h2 h.symm)]
        by_cases h3 : w = str "command"
        · subst h3
          rw [if_pos rfl]
          have : ∀ i : Fin 3, some 2 = some i.val ↔ str "command" = word (kindAt i.val) := by decide
          exact this ⟨i, hi⟩
        · rw [if_neg (fun h => h3 h.symm)]
          constructor
          · intro h; cases h
          · intro h
            have : ∀ i : Fin 3, word (kindAt i.val) = str "device" ∨ word (kindAt i.val) = str "enum" ∨ word (kindAt i.val) = str "command" := by decide
            rcases this ⟨i, hi⟩ with e | e | e
            · exact absurd (h.trans e) h1
            · exact absurd (h.trans e) h2
            · exact absurd (h.trans e) h3

theorem waiting_iff (before : List Item) (i : Nat) (hi : i < 3) :
    (waiting annos before i).isSome = (sinceDef before).any (announces (kindAt i)) := by
  unfold waiting kindOf
  rw [kinds_prefix, if_pos hi, if_pos rfl]
  generalize sinceDef before = l
  induction l with
  | nil => rfl
  | cons x l ih =>
    rw [List.findSome?_cons, List.any_cons]
    cases x with
    | plain a s => exact ih
    | comment op inner c =>
      by_cases h : annotationOf annos op.2 = some i
      · have h2 := (annotationOf_iff op.2 i hi).1 h
        simp [textFor, h, announces, h2]
      · have h2 : ¬ (cname op.2).drop 1 = word (kindAt i) := fun e => h ((annotationOf_iff op.2 i hi).2 e)
        have e1 : textFor annos i (.comment op inner c) = none := if_neg h
        have e2 : announces (kindAt i) (.comment op inner c) = false := by unfold announces; exact decide_eq_false h2
        rw [e1, e2, Bool.false_or]
        exact ih

theorem attached_eq (before : List Item) (s : SymInfo) (h : isDef s = true) :
    ((List.range 3).filter (fun i => (waiting annos before i).isSome)).map kindAt = attached before s := by
  unfold attached
  rw [if_pos h, show List.range 3 = [0, 1, 2] from rfl]
  have w := waiting_iff before
  simp only [List.filter_cons, List.filter_nil, w 0 (by omega), w 1 (by omega), w 2 (by omega)]
  show _ = if (sinceDef before).any (announces .device) = true then _ else _
  have k0 : kindAt 0 = .device := rfl
  have k1 : kindAt 1 = .enum := rfl
  have k2 : kindAt 2 = .command := rfl
  rw [k0, k1, k2]
  cases (sinceDef before).any (announces .device) <;> cases (sinceDef before).any (announces .enum) <;>
    cases (sinceDef before).any (announces .command) <;> rfl

theorem put_plain (o : Opts) (before : List Item) (a : Short) (s : SymInfo) (st : State) (hw : WellFormed (.plain a s))
    (hi : Anno.Inv annos before st.anno) :
    Anno.Inv annos (before ++ [.plain a s]) (putSymbol o a s st).anno ∧
    strip (putSymbol o a s st) = feed o (strip st) ⟨a, s, attached before s⟩ := by
  obtain ⟨h1, h2⟩ := step_plain annos before a s st.anno hw hi
  have hanno : ∀ (cs : List Call) (st : State), (label o a s (cs.foldl (handleAnnotation o) st)).anno = st.anno := by
    intro cs
    have hl : ∀ st : State, (label o a s st).anno = st.anno := by
      intro st
      unfold label
      split
      · dsimp only
        split
        · show (flush a st).anno = _
          unfold flush; split <;> rfl
        · rfl
      · unfold flush; split <;> rfl
    intro st
    rw [hl]
    induction cs generalizing st with
    | nil => rfl
    | cons c cs ih =>
      rw [List.foldl_cons, ih]
      unfold handleAnnotation
      cases c.anno with
      | none => rfl
      | some i =>
        show (finalize o st).anno = _
        unfold finalize
        split <;> rfl
  refine ⟨by unfold putSymbol; dsimp only; rw [hanno]; exact h1, ?_⟩
  unfold putSymbol feed
  dsimp only
  rw [strip_label, strip_fold]
  congr 1
  show _ = (attached before s).foldl (openGroup o a s) (strip st)
  show (Anno.handle annos a s st.anno).2.foldl (handleAnnotation o) (strip st) = _
  by_cases hd : isDef s = true
  · rw [← attached_eq before s hd]
    refine fold_calls o a s _ _ ?_ _
    have e : reportsOf annos before (.plain a s) =
        (List.range 3).filterMap fun i => (waiting annos before i).map fun text => (⟨some (a, s), some i, text⟩ : Report) := by
      exact if_pos hd
    rw [e] at h2
    clear e hanno
    generalize List.range 3 = is at h2
    generalize (Anno.handle annos a s st.anno).2 = cs at h2
    induction is generalizing cs with
    | nil => cases h2; exact .nil
    | cons i is ih =>
      rw [List.filterMap_cons] at h2
      rw [List.filter_cons]
      cases hwt : waiting annos before i with
      | none => rw [hwt] at h2; exact ih cs h2
      | some r =>
        rw [hwt] at h2
        cases h2 with
        | cons hc hr => exact .cons ⟨hc.1, hc.2.2.1, hc.2.2.2⟩ (ih _ hr)
  · have e : reportsOf annos before (.plain a s) = [] := if_neg hd
    have e2 : attached before s = [] := by unfold attached; rw [if_neg hd]
    rw [e] at h2
    rw [e2]
    generalize (Anno.handle annos a s st.anno).2 = cs at h2
    cases h2
    rfl

theorem put_comments (o : Opts) (l : List (Short × SymInfo)) (hl : ∀ p ∈ l, p.2.type = .comment) (st : State) :
    (putSymbols o l st).anno = (Anno.run annos l st.anno).1 ∧
    strip (putSymbols o l st) = (l.map fun p => (⟨p.1, p.2, []⟩ : Ev)).foldl (feed o) (strip st) := by
  induction l generalizing st with
  | nil => exact ⟨rfl, rfl⟩
  | cons p l ih =>
    have hp : putSymbol o p.1 p.2 st = flush p.1 { st with anno := (Anno.handle annos p.1 p.2 st.anno).1 } := by
      unfold putSymbol
      dsimp only
      rw [fold_none o _ (comment_calls p.1 p.2 st.anno (hl p (by simp)))]
      unfold label
      rw [if_neg (by rw [hl p (by simp)]; decide)]
    obtain ⟨i1, i2⟩ := ih (fun q hq => hl q (by simp [hq])) (putSymbol o p.1 p.2 st)
    have ha : (putSymbol o p.1 p.2 st).anno = (Anno.handle annos p.1 p.2 st.anno).1 := by
      rw [hp]; unfold flush; split <;> rfl
    have hs : strip (putSymbol o p.1 p.2 st) = feed o (strip st) ⟨p.1, p.2, []⟩ := by
      rw [hp, strip_flush]
      unfold feed label
      dsimp only
      rw [if_neg (by rw [hl p (by simp)]; decide)]
      rfl
    refine ⟨?_, ?_⟩
    · show (putSymbols o l (putSymbol o p.1 p.2 st)).anno = _
      rw [i1, ha]
      rfl
    · show strip (putSymbols o l (putSymbol o p.1 p.2 st)) = _
      rw [i2, hs]
      rfl

theorem putSymbols_append (o : Opts) (x y : List (Short × SymInfo)) (s : State) :
    putSymbols o (x ++ y) s = putSymbols o y (putSymbols o x s) := List.foldl_append ..

/-- The symbols of a program are those of its items. -/
theorem put_items (o : Opts) (before l : List Item) (hw : ∀ x ∈ l, WellFormed x) (st : State) (hi : Anno.Inv annos before st.anno) :
    strip (putSymbols o (symbols l) st) = (evsFrom before l).foldl (feed o) (strip st) := by
  induction l generalizing before st with
  | nil => rfl
  | cons x l ih =>
    have hs : symbols (x :: l) = x.symbols ++ symbols l := by unfold symbols; rw [List.flatMap_cons]
    rw [hs, putSymbols_append]
    have hwx := hw x (by simp)
    have key : Anno.Inv annos (before ++ [x]) (putSymbols o x.symbols st).anno ∧
        strip (putSymbols o x.symbols st) = (evsOf before x).foldl (feed o) (strip st) := by
      cases x with
      | plain a s => exact put_plain o before a s st hwx hi
      | comment op inner c =>
        have hl : ∀ p ∈ op :: (inner ++ [c]), p.2.type = .comment := by
          intro p hp
          obtain ⟨⟨h1, -⟩, ⟨h2, -⟩, h3⟩ := hwx
          rcases List.mem_cons.1 hp with rfl | hp
          · exact h1
          · rcases List.mem_append.1 hp with hp | hp
            · exact (h3 p hp).1
            · rw [List.mem_singleton.1 hp]; exact h2
        obtain ⟨e1, e2⟩ := put_comments o (op :: (inner ++ [c])) hl st
        refine ⟨?_, e2⟩
        show Anno.Inv annos _ (putSymbols o (op :: (inner ++ [c])) st).anno
        rw [e1]
        exact (step_comment annos before op inner c st.anno hwx hi).1
    rw [ih (before ++ [x]) (fun y hy => hw y (by simp [hy])) _ key.1, key.2]
    exact (List.foldl_append ..).symm

/-! ## Proof: from the groups to the text -/

/-- The current group. -/
def cur (s : State) : Group := ⟨s.kind, s.scope, s.base, []⟩

/-- The end of the current group. -/
def closing (o : Opts) (s : State) : Str :=
  if s.scope ≠ [] then
    (if s.kind = .command then str "};\n" else str "} " ++ (o.fmt s.kind).pre ++ inC lower s.scope ++ (o.fmt s.kind).suf ++ str ";\n")
  else []

theorem finalize_spec (o : Opts) (s : State) :
    (finalize o s).out = s.out ++ closing o s ∧ (finalize o s).cmds = s.cmds ∧ (finalize o s).lastName = s.lastName := by
  unfold finalize closing
  by_cases h : s.scope ≠ []
  · rw [if_pos h, if_pos h]
    refine ⟨?_, rfl, rfl⟩
    dsimp only
    cases s.kind <;> rfl
  · rw [if_neg h, if_neg h]
    exact ⟨(List.append_nil _).symm, rfl, rfl⟩

theorem flush_same (a : Short) (s : State) : (flush a s).scope = s.scope ∧ (flush a s).kind = s.kind ∧ (flush a s).base = s.base ∧
    (flush a s).out = s.out ∧ (flush a s).last = s.last := by
  unfold flush
  split <;> exact ⟨rfl, rfl, rfl, rfl, rfl⟩

theorem member_iff (scope : Str) (e : Ev) (l : Str) : memberOf scope e = some l ↔
    e.sym.type = .label ∧ (split (cname e.sym)).1 = scope ∧ (split (cname e.sym)).2 ≠ [] ∧ (split (cname e.sym)).2 = l := by
  unfold memberOf
  by_cases h : e.sym.type = .label ∧ scopeOf (cname e.sym) = scope ∧ localOf (cname e.sym) ≠ []
  · rw [if_pos h]
    exact ⟨fun e => ⟨h.1, h.2.1, h.2.2, Option.some.inj e⟩, fun e => congrArg some e.2.2.2⟩
  · rw [if_neg h]
    constructor
    · intro e; cases e
    · intro e; exact absurd ⟨e.1, e.2.1, e.2.2.1⟩ h

/-- What a symbol does to the current group. -/
theorem label_cases (o : Opts) (e : Ev) (s : State) :
    (∃ l, memberOf s.scope e = some l ∧ label o e.addr e.sym s = member o e.addr (cname e.sym) s.scope l (flush e.addr s)) ∨
    (memberOf s.scope e = none ∧ e.sym.type = .label ∧ label o e.addr e.sym s = s) ∨
    (memberOf s.scope e = none ∧ e.sym.type ≠ .label ∧ label o e.addr e.sym s = flush e.addr s) := by
  unfold label
  dsimp only
  by_cases ht : e.sym.type = .label
  · rw [if_pos ht]
    by_cases h : (split (cname e.sym)).1 = s.scope ∧ (split (cname e.sym)).2 ≠ []
    · rw [if_pos h]
      exact .inl ⟨_, (member_iff _ _ _).2 ⟨ht, h.1, h.2, rfl⟩, by rw [h.1]⟩
    · rw [if_neg h]
      refine .inr (.inl ⟨?_, ht, rfl⟩)
      cases hm : memberOf s.scope e with
      | none => rfl
      | some l => obtain ⟨-, h1, h2, -⟩ := (member_iff _ _ _).1 hm; exact absurd ⟨h1, h2⟩ h
  · rw [if_neg ht]
    refine .inr (.inr ⟨?_, ht, rfl⟩)
    cases hm : memberOf s.scope e with
    | none => rfl
    | some l => exact absurd ((member_iff _ _ _).1 hm).1 ht

theorem label_spec (o : Opts) (e : Ev) (s : State) :
    cur (label o e.addr e.sym s) = cur s ∧ (label o e.addr e.sym s).out = s.out ++ memberText o (cur s) e := by
  obtain ⟨f1, f2, f3, f4, -⟩ := flush_same e.addr s
  rcases label_cases o e s with ⟨l, h1, h2⟩ | ⟨h1, -, h2⟩ | ⟨h1, -, h2⟩
  · rw [h2]
    have hm : memberText o (cur s) e = str "\t/// " ++ cname e.sym ++ str "\n\t" ++ inC upper (o.fmt s.kind).pre ++ inC upper s.scope ++ str "_" ++ inC upper l ++
        str " = " ++ value (cur s) e.addr ++ str ",\n" := by
      unfold memberText
      rw [show (cur s).scope = s.scope from rfl, h1]
      rfl
    refine ⟨?_, ?_⟩
    · show (⟨(flush e.addr s).kind, (flush e.addr s).scope, (flush e.addr s).base, []⟩ : Group) = _
      rw [f1, f2, f3]; rfl
    · rw [hm]
      unfold member value
      dsimp only
      rw [f2, f3, f4]
      have hk : (cur s).kind = s.kind := rfl
      rw [hk]
      cases s.kind <;> simp only [List.append_assoc] <;> rfl
  · rw [h2]
    refine ⟨rfl, ?_⟩
    unfold memberText
    rw [show (cur s).scope = s.scope from rfl, h1]
    exact (List.append_nil _).symm
  · rw [h2]
    refine ⟨?_, ?_⟩
    · unfold cur; rw [f1, f2, f3]
    · unfold memberText
      rw [show (cur s).scope = s.scope from rfl, h1, f4]
      exact (List.append_nil _).symm

theorem cur_closing {s s' : State} (h : cur s = cur s') (o : Opts) : closing o s = closing o s' := by
  have h1 : s.kind = s'.kind := congrArg Group.kind h
  have h2 : s.scope = s'.scope := congrArg Group.scope h
  unfold closing; rw [h1, h2]

theorem open_spec (o : Opts) (a : Short) (sym : SymInfo) (s : State) (k : Kind) :
    cur (openGroup o a sym s k) = ⟨k, scopeOf (cname sym), a, []⟩ ∧
    (openGroup o a sym s k).out = s.out ++ closing o s ++ (if k = .command then str "\nenum {\n" else str "\ntypedef enum {\n") ∧
    (openGroup o a sym s k).cmds = (if k = .command then s.cmds ++ [⟨scopeOf (cname sym), []⟩] else s.cmds) ∧
    (openGroup o a sym s k).lastName = s.lastName ∧ (openGroup o a sym s k).last = a := by
  obtain ⟨f1, f2, f3⟩ := finalize_spec o s
  refine ⟨rfl, ?_, ?_, f3, rfl⟩
  · unfold openGroup
    dsimp only
    rw [f1]
    cases k <;> rfl
  · unfold openGroup
    dsimp only
    rw [f2]

/-- Several groups at once: all but the last are empty. -/
theorem opens_spec (o : Opts) (a : Short) (sym : SymInfo) (hs : scopeOf (cname sym) ≠ []) (ks : List Kind) (k : Kind) (s : State) :
    cur ((ks ++ [k]).foldl (openGroup o a sym) s) = ⟨k, scopeOf (cname sym), a, []⟩ ∧
    ((ks ++ [k]).foldl (openGroup o a sym) s).out = s.out ++ closing o s ++
      (ks.map fun k => (⟨k, scopeOf (cname sym), a, []⟩ : Group)).flatMap (groupText o) ++
      (if k = .command then str "\nenum {\n" else str "\ntypedef enum {\n") := by
  induction ks generalizing s with
  | nil =>
    obtain ⟨h1, h2, -⟩ := open_spec o a sym s k
    refine ⟨h1, ?_⟩
    show (openGroup o a sym s k).out = _
    rw [h2]
    simp
  | cons j ks ih =>
    obtain ⟨h1, h2, -⟩ := open_spec o a sym s j
    obtain ⟨i1, i2⟩ := ih (openGroup o a sym s j)
    refine ⟨i1, ?_⟩
    rw [List.cons_append, List.foldl_cons, i2, h2, List.map_cons, List.flatMap_cons]
    have hc : closing o (openGroup o a sym s j) =
        if j = .command then str "};\n" else str "} " ++ (o.fmt j).pre ++ inC lower (scopeOf (cname sym)) ++ (o.fmt j).suf ++ str ";\n" := by
      unfold closing
      rw [show (openGroup o a sym s j).scope = scopeOf (cname sym) from rfl, if_pos hs]
      rfl
    rw [hc]
    unfold groupText
    dsimp only
    rw [List.flatMap_nil, List.append_nil]
    simp only [List.append_assoc]

theorem groups_cons_quiet (e : Ev) (r : List Ev) (h : e.opens = []) : groups (e :: r) = groups r := by
  show (match e.opens.getLast? with | none => [] | some _ => _) ++ groups r = _
  rw [h]
  rfl

theorem groups_cons_open (e : Ev) (r : List Ev) (ks : List Kind) (k : Kind) (h : e.opens = ks ++ [k]) :
    groups (e :: r) = (ks.map fun k => (⟨k, scopeOf (cname e.sym), e.addr, []⟩ : Group)) ++
      ⟨k, scopeOf (cname e.sym), e.addr, e :: r.takeWhile (fun e => e.opens.isEmpty)⟩ :: groups r := by
  show (match e.opens.getLast? with | none => [] | some k => _) ++ groups r = _
  rw [h, List.getLast?_concat, List.dropLast_concat]
  simp

theorem memberText_cur (o : Opts) (k : Kind) (sc : Str) (b : Short) (body : List Ev) (e : Ev) :
    memberText o ⟨k, sc, b, body⟩ e = memberText o ⟨k, sc, b, []⟩ e := rfl

/-- The text of all groups. -/
theorem text_from (o : Opts) (l : List Ev) (hn : Named l) (s : State) :
    (finalize o (l.foldl (feed o) s)).out = s.out ++ (l.takeWhile (fun e => e.opens.isEmpty)).flatMap (memberText o (cur s)) ++ closing o s ++
      (groups l).flatMap (groupText o) := by
  induction l generalizing s with
  | nil =>
    rw [List.foldl_nil, (finalize_spec o s).1]
    simp [groups]
  | cons e r ih =>
    have hn' : Named r := fun x hx => hn x (by simp [hx])
    rw [List.foldl_cons, ih hn']
    rcases List.eq_nil_or_concat e.opens with h | ⟨ks, k, h⟩
    · have hf : feed o s e = label o e.addr e.sym s := by unfold feed; rw [h]; rfl
      obtain ⟨l1, l2⟩ := label_spec o e s
      rw [hf, l1, l2, cur_closing l1, groups_cons_quiet e r h, List.takeWhile_cons, h]
      simp only [List.isEmpty_nil, if_true, List.flatMap_cons, List.append_assoc]
    · rw [List.concat_eq_append] at h
      have hs : scopeOf (cname e.sym) ≠ [] := hn e (by simp) (.inr (by rw [h]; simp))
      obtain ⟨o1, o2⟩ := opens_spec o e.addr e.sym hs ks k s
      have hf : feed o s e = label o e.addr e.sym ((ks ++ [k]).foldl (openGroup o e.addr e.sym) s) := by unfold feed; rw [h]
      generalize (ks ++ [k]).foldl (openGroup o e.addr e.sym) s = s1 at o1 o2 hf
      obtain ⟨l1, l2⟩ := label_spec o e s1
      have hc : closing o s1 =
          if k = .command then str "};\n" else str "} " ++ (o.fmt k).pre ++ inC lower (scopeOf (cname e.sym)) ++ (o.fmt k).suf ++ str ";\n" := by
        have e1 : s1.kind = k := congrArg Group.kind o1
        have e2 : s1.scope = scopeOf (cname e.sym) := congrArg Group.scope o1
        unfold closing
        rw [e1, e2, if_pos hs]
      have ht : (e :: r).takeWhile (fun e => e.opens.isEmpty) = [] := by
        rw [List.takeWhile_cons, h]
        simp
      rw [hf, l1, l2, cur_closing l1, o1, o2, hc, groups_cons_open e r ks k h, ht]
      simp only [List.flatMap_append, List.flatMap_cons, List.flatMap_nil, List.append_nil, List.append_assoc]
      have hg : groupText o ⟨k, scopeOf (cname e.sym), e.addr, e :: r.takeWhile (fun e => e.opens.isEmpty)⟩ =
          (if k = .command then str "\nenum {\n" else str "\ntypedef enum {\n") ++
          (memberText o ⟨k, scopeOf (cname e.sym), e.addr, []⟩ e ++
            ((r.takeWhile (fun e => e.opens.isEmpty)).flatMap (memberText o ⟨k, scopeOf (cname e.sym), e.addr, []⟩) ++
          (if k = .command then str "};\n" else str "} " ++ (o.fmt k).pre ++ inC lower (scopeOf (cname e.sym)) ++ (o.fmt k).suf ++ str ";\n"))) := by
        unfold groupText
        rw [List.flatMap_cons]
        simp only [List.append_assoc]
        rfl
      rw [hg]
      simp only [List.append_assoc]

theorem strip_out (s : State) : (strip s).out = s.out ∧ (strip s).cmds = s.cmds := ⟨rfl, rfl⟩

theorem start_inv : Anno.Inv annos [] ({} : State).anno where
  currentDef a s h := by cases h
  noDef _ := ⟨rfl, rfl⟩
  code a s h := by cases h
  noCode _ := ⟨rfl, rfl⟩
  pending i := by
    show none = _
    unfold waiting
    split <;> rfl

/-- The header, but for the commands. -/
theorem header_split (o : Opts) (l : List Item) (hw : ∀ x ∈ l, WellFormed x) (hn : Named (evs l)) (ok : Bool) :
    header o (symbols l) ok = preamble o ++ (groups (evs l)).flatMap (groupText o) ++
      ((evs l).foldl (feed o) { out := preamble o }).cmds.flatMap (structText o) ++ epilogue o ok := by
  have h := put_items o [] l hw { out := preamble o } start_inv
  have ht := text_from o (evs l) hn { out := preamble o }
  have hc0 : closing o { out := preamble o } = [] := rfl
  have hl0 : ((evs l).takeWhile (fun e => e.opens.isEmpty)).flatMap (memberText o (cur { out := preamble o })) = [] := by
    rw [List.flatMap_eq_nil_iff]
    intro e he
    have hm : e ∈ evs l := List.takeWhile_subset _ he
    have : memberOf [] e = none := by
      unfold memberOf
      rw [if_neg]
      rintro ⟨h1, h2, h3⟩
      exact hn e hm (.inl ⟨h1, h3⟩) h2
    unfold memberText
    rw [show (cur { out := preamble o }).scope = [] from rfl, this]
  rw [hc0, hl0, List.append_nil, List.append_nil] at ht
  have hs : strip ({ out := preamble o } : State) = { out := preamble o } := rfl
  rw [hs] at h
  change strip (putSymbols o (symbols l) { out := preamble o }) = (evs l).foldl (feed o) { out := preamble o } at h
  rw [← h] at ht ⊢
  rw [← strip_finalize] at ht
  have hh : header o (symbols l) ok = (finalize o (putSymbols o (symbols l) { out := preamble o })).out ++
      (finalize o (putSymbols o (symbols l) { out := preamble o })).cmds.flatMap (structText o) ++
      (if ok then [] else str "\n#warning \"Error encountered, header might be incomplete\"\n") ++
      (match o.guard with | some _ => str "\n#endif\n" | none => []) := rfl
  rw [hh, (finalize_spec o _).2.1, show (finalize o (putSymbols o (symbols l) { out := preamble o })).out = _ from ht, List.append_assoc]
  rfl

/-! ## Proof: the commands -/

/-- Add fields to the last structure. -/
def addAll (cmds : List Cmd) (fs : List Field) : List Cmd := fs.foldl (fun c f => addField f c) cmds

theorem addField_name (f : Field) (cmds : List Cmd) : (addField f cmds).map Cmd.name = cmds.map Cmd.name := by
  unfold addField
  rcases List.eq_nil_or_concat cmds with rfl | ⟨l, c, rfl⟩
  · rfl
  · rw [List.concat_eq_append, List.getLast?_concat, List.dropLast_concat]
    simp

theorem addAll_concat (l : List Cmd) (c : Cmd) (fs : List Field) : addAll (l ++ [c]) fs = l ++ [{ c with fields := c.fields ++ fs }] := by
  induction fs generalizing c with
  | nil => simp [addAll]
  | cons f fs ih =>
    have : addField f (l ++ [c]) = l ++ [{ c with fields := c.fields ++ [f] }] := by
      unfold addField
      rw [List.getLast?_concat, List.dropLast_concat]
    show addAll (addField f (l ++ [c])) fs = _
    rw [this, ih]
    simp

/-- The symbols of the current group that are still to come. -/
abbrev ahead (l : List Ev) : List Ev := l.takeWhile (fun e => e.opens.isEmpty)

/-- The field that waits for its end. -/
def waitingField (s : State) (l : List Ev) : List Field :=
  if s.lastName = [] then [] else match extent s.scope s.last l with
    | some b => [⟨s.lastName, b - s.last⟩]
    | none => []

/-- The field that waits will get its end, or will be replaced. -/
def Settles (s : State) (l : List Ev) : Prop :=
  s.lastName ≠ [] → (∀ x ∈ l, memberOf s.scope x = none) → extent s.scope s.last l ≠ none

/-- One symbol of a group of which all fields are closed. -/
theorem label_fields (o : Opts) (e : Ev) (r : List Ev) (s : State) (hk : s.kind = .command) (hc : Closed s.scope (e :: r))
    (hs : Settles s (e :: r)) :
    let s' := label o e.addr e.sym s
    s'.kind = s.kind ∧ s'.scope = s.scope ∧ Settles s' r ∧
      addAll s.cmds (waitingField s (e :: r) ++ fields s.scope (e :: r)) = addAll s'.cmds (waitingField s' r ++ fields s.scope r) := by
  have hcur := (label_spec o e s).1
  have hk' : (label o e.addr e.sym s).kind = s.kind := congrArg Group.kind hcur
  have hsc' : (label o e.addr e.sym s).scope = s.scope := congrArg Group.scope hcur
  refine ⟨hk', hsc', ?_⟩
  rcases label_cases o e s with ⟨l, h1, h2⟩ | ⟨h1, ht, h2⟩ | ⟨h1, ht, h2⟩
  · -- a member
    obtain ⟨-, -, hl, rfl⟩ := (member_iff _ _ _).1 h1
    obtain ⟨f1, f2, f3, f4, f5⟩ := flush_same e.addr s
    have e1 : (label o e.addr e.sym s).lastName = (split (cname e.sym)).2 := by
      rw [h2]; show (if (flush e.addr s).kind = .command then _ else _) = _
      rw [f2, if_pos hk]
    have e2 : (label o e.addr e.sym s).last = e.addr := by rw [h2]; rfl
    have e3 : (label o e.addr e.sym s).cmds = (flush e.addr s).cmds := by rw [h2]; rfl
    refine ⟨?_, ?_⟩
    · intro _ hno
      rw [hsc', e2]
      refine hc.1 (by rw [h1]; rfl) ?_
      rw [hsc'] at hno
      exact hno
    · have e4 : waitingField (label o e.addr e.sym s) r = match extent s.scope e.addr r with
          | some b => [⟨(split (cname e.sym)).2, b - e.addr⟩]
          | none => [] := by
        unfold waitingField
        rw [e1, if_neg hl, hsc', e2]
      have e5 : fields s.scope (e :: r) = (match extent s.scope e.addr r with
          | some b => [⟨(split (cname e.sym)).2, b - e.addr⟩]
          | none => []) ++ fields s.scope r := by
        show (match memberOf s.scope e with | none => [] | some l => _) ++ _ = _
        rw [h1]
      rw [e3, e4, e5]
      have e6 : waitingField s (e :: r) = if s.lastName = [] then [] else if e.addr = s.last then [] else [⟨s.lastName, e.addr - s.last⟩] := by
        unfold waitingField
        split
        · rfl
        · unfold extent
          rw [h1]
          simp only [Option.isSome_some, if_true]
          by_cases ha : e.addr = s.last
          · rw [if_pos ha, if_pos ha]
          · rw [if_neg ha, if_neg ha]
      rw [e6]
      unfold flush
      by_cases hn : s.lastName = []
      · rw [if_pos hn, if_neg (fun h => h.2 hn)]
        rfl
      · rw [if_neg hn]
        by_cases ha : e.addr = s.last
        · rw [if_pos ha, if_neg (fun h => h.1 ha)]
          rfl
        · rw [if_neg ha, if_pos ⟨ha, hn⟩]
          rfl
  · -- a label of another group
    rw [h2]
    have e5 : fields s.scope (e :: r) = fields s.scope r := by
      show (match memberOf s.scope e with | none => [] | some l => _) ++ _ = _
      rw [h1]; rfl
    have e6 : extent s.scope s.last (e :: r) = extent s.scope s.last r := by
      show (if (memberOf s.scope e).isSome then _ else if e.sym.type = .label then extent s.scope s.last r else _) = _
      rw [h1, if_pos ht]; rfl
    refine ⟨?_, ?_⟩
    · intro hn hno
      rw [← e6]
      exact hs hn (fun x hx => by rcases List.mem_cons.1 hx with rfl | hx; exact h1; exact hno x hx)
    · unfold waitingField
      rw [e5, e6]
  · -- anything else
    rw [h2]
    obtain ⟨f1, f2, f3, f4, f5⟩ := flush_same e.addr s
    have e5 : fields s.scope (e :: r) = fields s.scope r := by
      show (match memberOf s.scope e with | none => [] | some l => _) ++ _ = _
      rw [h1]; rfl
    have e6 : extent s.scope s.last (e :: r) = if e.addr = s.last then extent s.scope s.last r else some e.addr := by
      show (if (memberOf s.scope e).isSome then _ else if e.sym.type = .label then extent s.scope s.last r else
        if e.addr = s.last then extent s.scope s.last r else some e.addr) = _
      rw [h1, if_neg ht]; rfl
    by_cases hf : e.addr ≠ s.last ∧ s.lastName ≠ []
    · have hfl : flush e.addr s = { s with cmds := addField ⟨s.lastName, e.addr - s.last⟩ s.cmds, lastName := [] } := by
        unfold flush; rw [if_pos hf]
      rw [hfl]
      refine ⟨fun hn => absurd rfl hn, ?_⟩
      have e7 : waitingField s (e :: r) = [⟨s.lastName, e.addr - s.last⟩] := by
        unfold waitingField
        rw [if_neg hf.2, e6, if_neg hf.1]
      rw [e7, e5]
      rfl
    · have hfl : flush e.addr s = s := by unfold flush; rw [if_neg hf]
      rw [hfl]
      by_cases hn : s.lastName = []
      · refine ⟨fun h => absurd hn h, ?_⟩
        unfold waitingField
        rw [if_pos hn, if_pos hn, e5]
      · have ha : e.addr = s.last := by by_contra h; exact hf ⟨h, hn⟩
        rw [if_pos ha] at e6
        refine ⟨?_, ?_⟩
        · intro hn hno
          rw [← e6]
          exact hs hn (fun x hx => by rcases List.mem_cons.1 hx with rfl | hx; exact h1; exact hno x hx)
        · unfold waitingField
          rw [e5, e6]

/-- One symbol of another group: nothing waits and nothing is added. -/
theorem label_other (o : Opts) (e : Ev) (s : State) (hk : s.kind ≠ .command) (hl : s.lastName = []) :
    let s' := label o e.addr e.sym s
    s'.kind = s.kind ∧ s'.lastName = [] ∧ s'.cmds = s.cmds := by
  have hcur := (label_spec o e s).1
  have hf : flush e.addr s = s := by unfold flush; rw [if_neg (fun h => h.2 hl)]
  refine ⟨congrArg Group.kind hcur, ?_⟩
  rcases label_cases o e s with ⟨l, h1, h2⟩ | ⟨h1, ht, h2⟩ | ⟨h1, ht, h2⟩
  · rw [h2, hf]
    exact ⟨(if_neg hk).trans hl, rfl⟩
  · rw [h2]; exact ⟨hl, rfl⟩
  · rw [h2, hf]; exact ⟨hl, rfl⟩

theorem opens_cmds (o : Opts) (a : Short) (sym : SymInfo) (ks : List Kind) (s : State) :
    ((ks.foldl (openGroup o a sym) s).cmds = s.cmds ++ (ks.filter (· = .command)).map (fun _ => ⟨scopeOf (cname sym), []⟩)) ∧
    (ks.foldl (openGroup o a sym) s).lastName = s.lastName := by
  induction ks generalizing s with
  | nil => exact ⟨(List.append_nil _).symm, rfl⟩
  | cons k ks ih =>
    obtain ⟨-, -, h1, h2, -⟩ := open_spec o a sym s k
    obtain ⟨i1, i2⟩ := ih (openGroup o a sym s k)
    rw [List.foldl_cons, i1, i2, h1, h2]
    refine ⟨?_, rfl⟩
    cases k <;> simp

/-- The structures that are made of the symbols. -/
theorem cmds_from (o : Opts) (l : List Ev) (hn : Named l) (s : State)
    (hg : ∀ g ∈ commands (groups l), Closed g.scope g.body)
    (hcmd : s.kind = .command → Closed s.scope (ahead l) ∧ Settles s (ahead l) ∧ s.cmds ≠ [])
    (hoth : s.kind ≠ .command → s.lastName = []) :
    (l.foldl (feed o) s).cmds =
      (if s.kind = .command then addAll s.cmds (waitingField s (ahead l) ++ fields s.scope (ahead l)) else s.cmds) ++
      (commands (groups l)).map fun g => ⟨g.scope, fields g.scope g.body⟩ := by
  induction l generalizing s with
  | nil =>
    show s.cmds = _ ++ []
    rw [List.append_nil]
    split
    · rename_i hk
      obtain ⟨-, h2, -⟩ := hcmd hk
      have : s.lastName = [] := by
        by_contra h
        exact h2 h (fun x hx => by cases hx) rfl
      show s.cmds = addAll s.cmds (waitingField s [] ++ [])
      unfold waitingField
      rw [if_pos this]
      rfl
    · rfl
  | cons e r ih =>
    have hn' : Named r := fun x hx => hn x (by simp [hx])
    rw [List.foldl_cons]
    rcases List.eq_nil_or_concat e.opens with h | ⟨ks, k, h⟩
    · have hf : feed o s e = label o e.addr e.sym s := by unfold feed; rw [h]; rfl
      have ha : ahead (e :: r) = e :: ahead r := by
        unfold ahead; rw [List.takeWhile_cons, h]; rfl
      rw [groups_cons_quiet e r h] at hg ⊢
      rw [hf]
      by_cases hk : s.kind = .command
      · obtain ⟨c1, c2, c3⟩ := hcmd hk
        rw [ha] at c1 c2
        obtain ⟨l1, l2, l3, l4⟩ := label_fields o e (ahead r) s hk c1 c2
        have hne : (label o e.addr e.sym s).cmds ≠ [] := by
          intro h0
          have hlen : ∀ (fs : List Field) (c : List Cmd), (addAll c fs).length = c.length := by
            intro fs
            induction fs with
            | nil => exact fun _ => rfl
            | cons f fs ih =>
              intro c
              show (addAll (addField f c) fs).length = _
              rw [ih]
              have := congrArg List.length (addField_name f c)
              simpa using this
          have h4 := congrArg List.length l4
          rw [hlen, hlen, h0] at h4
          exact c3 (List.length_eq_zero_iff.1 h4)
        rw [ih hn' (label o e.addr e.sym s) hg (fun _ => ⟨by rw [l2]; exact c1.2, l3, hne⟩) (fun hx => absurd (l1.trans hk) hx),
          if_pos (l1.trans hk), if_pos hk, ha, l4, l2]
      · obtain ⟨l1, l2, l3⟩ := label_other o e s hk (hoth hk)
        have hk' : (label o e.addr e.sym s).kind ≠ .command := by rw [l1]; exact hk
        rw [ih hn' (label o e.addr e.sym s) hg (fun hx => absurd hx hk') (fun _ => l2), if_neg hk', if_neg hk, l3]
    · rw [List.concat_eq_append] at h
      have hs : scopeOf (cname e.sym) ≠ [] := hn e (by simp) (.inr (by rw [h]; simp))
      have ha : ahead (e :: r) = [] := by
        unfold ahead
        rw [List.takeWhile_cons, h]
        simp
      -- nothing waits at the start of a group
      have hnil : s.lastName = [] := by
        by_cases hk : s.kind = .command
        · obtain ⟨-, h2, -⟩ := hcmd hk
          rw [ha] at h2
          by_contra hx
          exact h2 hx (fun x hx => by cases hx) rfl
        · exact hoth hk
      have hnow : (if s.kind = .command then addAll s.cmds (waitingField s (ahead (e :: r)) ++ fields s.scope (ahead (e :: r))) else s.cmds) = s.cmds := by
        split
        · rw [ha]
          unfold waitingField
          rw [if_pos hnil]
          rfl
        · rfl
      rw [hnow]
      obtain ⟨o1, -⟩ := opens_spec o e.addr e.sym hs ks k s
      obtain ⟨p1, p2⟩ := opens_cmds o e.addr e.sym (ks ++ [k]) s
      have hf : feed o s e = label o e.addr e.sym ((ks ++ [k]).foldl (openGroup o e.addr e.sym) s) := by unfold feed; rw [h]
      rw [hf]
      rw [groups_cons_open e r ks k h] at hg ⊢
      generalize (ks ++ [k]).foldl (openGroup o e.addr e.sym) s = s1 at o1 p1 p2
      have k1 : s1.kind = k := congrArg Group.kind o1
      have k2 : s1.scope = scopeOf (cname e.sym) := congrArg Group.scope o1
      have hempty : ∀ ks : List Kind, (commands (ks.map fun k => (⟨k, scopeOf (cname e.sym), e.addr, []⟩ : Group))).map (fun g => (⟨g.scope, fields g.scope g.body⟩ : Cmd)) =
          (ks.filter (· = .command)).map (fun _ => ⟨scopeOf (cname e.sym), []⟩) := by
        intro ks
        induction ks with
        | nil => rfl
        | cons j ks ih =>
          unfold commands at ih ⊢
          rw [List.map_cons, List.filter_cons, List.filter_cons]
          cases j
          · exact ih
          · exact ih
          · simp only [decide_true, if_true, List.map_cons, ih]
            rfl
      have hsplit : commands ((ks.map fun k => (⟨k, scopeOf (cname e.sym), e.addr, []⟩ : Group)) ++
          ⟨k, scopeOf (cname e.sym), e.addr, e :: r.takeWhile (fun e => e.opens.isEmpty)⟩ :: groups r) =
          commands (ks.map fun k => (⟨k, scopeOf (cname e.sym), e.addr, []⟩ : Group)) ++
          ((if k = .command then [⟨k, scopeOf (cname e.sym), e.addr, e :: ahead r⟩] else []) ++ commands (groups r)) := by
        unfold commands
        rw [List.filter_append, List.filter_cons]
        congr 1
        by_cases hk : k = .command
        · simp [hk]
        · simp [hk]
      rw [hsplit] at hg ⊢
      rw [List.map_append, hempty, List.map_append]
      have hgr : ∀ g ∈ commands (groups r), Closed g.scope g.body := fun g hm => hg g (by simp [hm])
      have hnil1 : s1.lastName = [] := p2.trans hnil
      by_cases hk : k = .command
      · have hclosed : Closed s1.scope (e :: ahead r) := by
          rw [k2]
          exact hg ⟨k, scopeOf (cname e.sym), e.addr, e :: ahead r⟩ (by rw [if_pos hk]; simp)
        obtain ⟨l1, l2, l3, l4⟩ := label_fields o e (ahead r) s1 (k1.trans hk) hclosed (fun hx => absurd hnil1 hx)
        have hcm : s1.cmds = (s.cmds ++ (ks.filter (· = .command)).map (fun _ => (⟨scopeOf (cname e.sym), []⟩ : Cmd))) ++ [⟨scopeOf (cname e.sym), []⟩] := by
          rw [p1, List.filter_append, hk]
          simp
        have hw0 : waitingField s1 (e :: ahead r) = [] := by unfold waitingField; rw [if_pos hnil1]
        have hne : (label o e.addr e.sym s1).cmds ≠ [] := by
          intro h0
          rw [hw0, List.nil_append, hcm, addAll_concat, h0] at l4
          have hlen : ∀ (fs : List Field) (c : List Cmd), (addAll c fs).length = c.length := by
            intro fs
            induction fs with
            | nil => exact fun _ => rfl
            | cons f fs ih =>
              intro c
              show (addAll (addField f c) fs).length = _
              rw [ih]
              have := congrArg List.length (addField_name f c)
              simpa using this
          have h4 := congrArg List.length l4
          rw [hlen] at h4
          simp at h4
        rw [ih hn' (label o e.addr e.sym s1) hgr (fun _ => ⟨by rw [l2]; exact hclosed.2, l3, hne⟩) (fun hx => absurd (l1.trans (k1.trans hk)) hx),
          if_pos (l1.trans (k1.trans hk)), l2, ← l4, hw0, List.nil_append, hcm, addAll_concat, k2, if_pos hk]
        simp
      · obtain ⟨l1, l2, l3⟩ := label_other o e s1 (by rw [k1]; exact hk) hnil1
        have hk' : (label o e.addr e.sym s1).kind ≠ .command := by rw [l1, k1]; exact hk
        rw [ih hn' (label o e.addr e.sym s1) hgr (fun hx => absurd hx hk') (fun _ => l2), if_neg hk', l3, p1, if_neg hk, List.filter_append]
        simp [hk]

theorem structText_eq (o : Opts) (c : Cmd) : structText o c = commandText o c.name c.fields := by
  have e1 : ∀ x : Field, (str "\tuint" ++ str (if x.size = 1 then "8" else "16") ++ str "_t " : Str) = if x.size = 1 then str "\tuint8_t " else str "\tuint16_t " := by
    intro x; split <;> rfl
  have e2 : ∀ x : Field, (str " = buxn_vm_mem_load" ++ (str (if x.size = 1 then "" else "2") ++ str "(vm, addr + ") : Str) =
      if x.size = 1 then str " = buxn_vm_mem_load(vm, addr + " else str " = buxn_vm_mem_load2(vm, addr + " := by
    intro x; split <;> rfl
  have e3 : ∀ x : Field, (str "\tbuxn_vm_mem_store" ++ str (if x.size = 1 then "" else "2") ++ str "(vm, addr + " : Str) =
      if x.size = 1 then str "\tbuxn_vm_mem_store(vm, addr + " else str "\tbuxn_vm_mem_store2(vm, addr + " := by
    intro x; split <;> rfl
  have e4 : (str "_read(buxn_vm_t* vm, uint16_t addr) {\n\treturn (" : Str) = str "_read(buxn_vm_t* vm, uint16_t addr) {\n" ++ str "\treturn (" := rfl
  unfold structText commandText structDecl reader writer
  dsimp only
  simp only [← e1, ← e2, ← e3, e4, List.append_assoc]
  rfl

theorem label_names (o : Opts) (e : Ev) (s : State) : (label o e.addr e.sym s).cmds.map Cmd.name = s.cmds.map Cmd.name := by
  have hf : (flush e.addr s).cmds.map Cmd.name = s.cmds.map Cmd.name := by
    unfold flush
    split
    · exact addField_name _ _
    · rfl
  rcases label_cases o e s with ⟨l, -, h2⟩ | ⟨-, -, h2⟩ | ⟨-, -, h2⟩
  · rw [h2]; exact hf
  · rw [h2]
  · rw [h2]; exact hf

theorem names_from (o : Opts) (l : List Ev) (s : State) :
    (l.foldl (feed o) s).cmds.map Cmd.name = s.cmds.map Cmd.name ++ (commands (groups l)).map Group.scope := by
  induction l generalizing s with
  | nil => simp [groups, commands]
  | cons e r ih =>
    rw [List.foldl_cons, ih]
    have h1 : (feed o s e).cmds.map Cmd.name = (e.opens.foldl (openGroup o e.addr e.sym) s).cmds.map Cmd.name := label_names o e _
    rw [h1, (opens_cmds o e.addr e.sym e.opens s).1, List.map_append, List.append_assoc]
    congr 1
    rcases List.eq_nil_or_concat e.opens with h | ⟨ks, k, h⟩
    · rw [groups_cons_quiet e r h, h]; rfl
    · rw [List.concat_eq_append] at h
      rw [groups_cons_open e r ks k h, h]
      unfold commands
      rw [List.filter_append, List.filter_append, List.map_append, List.map_append, List.map_append, List.append_assoc]
      congr 1
      · induction ks with
        | nil => rfl
        | cons j ks ih2 =>
          have ih3 : ∀ ks : List Kind, List.map Cmd.name (List.map (fun _ => (⟨scopeOf (cname e.sym), []⟩ : Cmd)) (ks.filter (· = .command))) =
              List.map Group.scope ((ks.map fun k => (⟨k, scopeOf (cname e.sym), e.addr, []⟩ : Group)).filter fun g => g.kind = .command) := by
            intro ks
            induction ks with
            | nil => rfl
            | cons j ks ih => cases j <;> simp_all
          exact ih3 _
      · cases k <;> rfl

/-! ## C70 -/

/-- **C70**, header. For every program: the header consists of the preamble, one enumeration for each annotated definition in
the order of the source, which lists each label of its group in order and under the name in the source with its value; then
for each command a structure, a reader and a writer; and the end, which tells of an error. -/
theorem C70_header (o : Opts) (l : List Item) (hw : ∀ x ∈ l, WellFormed x) (hn : Named (evs l)) (ok : Bool) :
    ∃ fs : List (List Field), fs.length = (commands (groups (evs l))).length ∧
      header o (symbols l) ok = preamble o ++ (groups (evs l)).flatMap (groupText o) ++
        (List.zip ((commands (groups (evs l))).map Group.scope) fs).flatMap (fun p => commandText o p.1 p.2) ++ epilogue o ok := by
  have h := header_split o l hw hn ok
  have hnm := names_from o (evs l) { out := preamble o }
  generalize ((evs l).foldl (feed o) { out := preamble o }).cmds = cmds at h hnm
  have hnm' : cmds.map Cmd.name = (commands (groups (evs l))).map Group.scope := hnm
  refine ⟨cmds.map Cmd.fields, ?_, ?_⟩
  · have := congrArg List.length hnm'
    simpa using this
  · rw [h, ← hnm']
    congr 2
    clear h hnm hnm'
    induction cmds with
    | nil => rfl
    | cons c cs ih => rw [List.flatMap_cons, ih, structText_eq]; rfl

/-- **C70**, fields. If the end of the last field of each command is announced, the fields of each command are its labels,
each with the size up to the next address that is announced. Partial: what is announced is not always the end of the field
(`C70_width_violated`), and a field with nothing behind it is lost or becomes part of the next command
(`C70_last_field_violated`). -/
theorem C70_fields_partial (o : Opts) (l : List Item) (hw : ∀ x ∈ l, WellFormed x) (hn : Named (evs l)) (ok : Bool)
    (hc : ∀ g ∈ commands (groups (evs l)), Closed g.scope g.body) :
    header o (symbols l) ok = preamble o ++ (groups (evs l)).flatMap (groupText o) ++
      (commands (groups (evs l))).flatMap (fun g => commandText o g.scope (fields g.scope g.body)) ++ epilogue o ok := by
  rw [header_split o l hw hn ok, cmds_from o (evs l) hn { out := preamble o } hc (fun h => by cases h) (fun _ => rfl)]
  congr 2
  show List.flatMap _ (List.map _ _) = _
  rw [List.flatMap_map]
  have hf : (structText o ∘ fun g : Group => (⟨g.scope, fields g.scope g.body⟩ : Cmd)) = fun g => commandText o g.scope (fields g.scope g.body) :=
    funext fun g => structText_eq o _
  exact congrArg (fun f => List.flatMap f (commands (groups (evs l)))) hf

/-- **C70**, sizes. A field that is followed by the next one, with only space, comments and labels of other groups in between,
has the size of the distance. -/
theorem C70_sizes_partial (scope : Str) (a : Short) (between : List Ev) (next : Ev) (rest : List Ev)
    (hb : ∀ x ∈ between, memberOf scope x = none ∧ (x.sym.type = .label ∨ x.addr = a ∨ x.addr = next.addr))
    (hm : (memberOf scope next).isSome) (hne : next.addr ≠ a) :
    extent scope a (between ++ next :: rest) = some next.addr := by
  induction between with
  | nil =>
    show (if (memberOf scope next).isSome then (if next.addr = a then none else some next.addr) else _) = _
    rw [if_pos hm, if_neg hne]
  | cons x between ih =>
    obtain ⟨h1, h2⟩ := hb x (by simp)
    have ih := ih (fun y hy => hb y (by simp [hy]))
    show (if (memberOf scope x).isSome then _ else if x.sym.type = .label then extent scope a (between ++ next :: rest) else
      if x.addr = a then extent scope a (between ++ next :: rest) else some x.addr) = _
    rw [h1]
    rw [if_neg (by simp)]
    split
    · exact ih
    split
    · exact ih
    · rename_i h3 h4
      rcases h2 with h2 | h2 | h2
      · exact absurd h2 h3
      · exact absurd h2 h4
      · rw [h2]

/-! ## What the reader and the writer do -/

namespace Spec

/-- A field in memory: the distance from the start of the command, and whether it has 16 bits. -/
structure Slot where
  off : Short
  wide : Bool

/-- The fields of a command, as `fields`, with the values of their members. -/
def slots (scope : Str) (base : Short) : List Ev → List Slot
  | [] => []
  | e :: r =>
    (match memberOf scope e with
      | none => []
      | some _ => match extent scope e.addr r with
        | some b => [⟨e.addr - base, b - e.addr ≠ 1⟩]
        | none => []) ++ slots scope base r

/-- `buxn_vm_mem_store` and `buxn_vm_mem_store2` at `addr + off`, `vm.h:103-112`. -/
def putSlot (addr : Short) (s : Slot) (v : Short) (m : Short → Byte) : Short → Byte :=
  if s.wide then upd (upd m (addr + s.off) ((v >>> 8).setWidth 8)) (addr + s.off + 1) (v.setWidth 8)
  else upd m (addr + s.off) (v.setWidth 8)

/-- `buxn_vm_mem_load` and `buxn_vm_mem_load2` at `addr + off`, `vm.h:93-101`. -/
def getSlot (addr : Short) (s : Slot) (m : Short → Byte) : Short :=
  if s.wide then ((m (addr + s.off)).setWidth 16 <<< 8) ||| (m (addr + s.off + 1)).setWidth 16 else (m (addr + s.off)).setWidth 16

/-- The writer of a command, with a value for each field. -/
def writeAll (addr : Short) : List (Slot × Short) → (Short → Byte) → (Short → Byte)
  | [], m => m
  | (s, v) :: l, m => writeAll addr l (putSlot addr s v m)

/-- What fits into a field. -/
def Slot.Fits (s : Slot) (v : Short) : Prop := s.wide = false → v.toNat < 256

/-- The bytes of a field, from the start of the command. -/
def Slot.cells (s : Slot) : List Short := if s.wide then [s.off, s.off + 1] else [s.off]

/-- Each field ends after its start, and not behind the start of a later field. -/
def Laid (scope : Str) (base : Short) : List Ev → Prop
  | [] => True
  | e :: r => ((memberOf scope e).isSome → base.toNat ≤ e.addr.toNat ∧ ∀ b, extent scope e.addr r = some b →
      e.addr.toNat < b.toNat ∧ ∀ x ∈ r, (memberOf scope x).isSome → b.toNat ≤ x.addr.toNat) ∧ Laid scope base r

end Spec

theorem store_other (addr : Short) (s : Slot) (v : Short) (m : Short → Byte) (p : Short) (h : ∀ c ∈ s.cells, p ≠ addr + c) :
    putSlot addr s v m p = m p := by
  unfold putSlot
  unfold Slot.cells at h
  cases hw : s.wide with
  | true =>
    rw [hw] at h
    simp only [if_true, List.mem_cons, List.not_mem_nil, or_false, forall_eq_or_imp, forall_eq] at h ⊢
    rw [upd_other _ _ (by rw [BitVec.add_assoc]; exact h.2), upd_other _ _ h.1]
  | false =>
    rw [hw] at h
    simp only [Bool.false_eq_true, if_false, List.mem_singleton, forall_eq] at h ⊢
    rw [upd_other _ _ h]

theorem store_load (addr : Short) (s : Slot) (v : Short) (hv : s.Fits v) (m m' : Short → Byte)
    (h : ∀ c ∈ s.cells, m' (addr + c) = putSlot addr s v m (addr + c)) : getSlot addr s m' = v := by
  unfold putSlot at h
  unfold Slot.cells at h
  unfold getSlot
  cases hw : s.wide with
  | true =>
    rw [hw] at h
    simp only [if_true, List.mem_cons, List.not_mem_nil, or_false, forall_eq_or_imp, forall_eq] at h ⊢
    obtain ⟨h1, h2⟩ := h
    have hne : addr + s.off ≠ addr + s.off + 1 := by
      intro e
      have := congrArg BitVec.toNat e
      have hlt := (addr + s.off).isLt
      rw [BitVec.toNat_add (addr + s.off)] at this
      simp at this
      omega
    rw [upd_other _ _ hne, upd_same] at h1
    rw [← BitVec.add_assoc, upd_same] at h2
    rw [h1, h2]
    apply BitVec.eq_of_toNat_eq
    rw [join_toNat]
    simp only [BitVec.toNat_setWidth, BitVec.toNat_ushiftRight, Nat.shiftRight_eq_div_pow]
    have := v.isLt
    omega
  | false =>
    rw [hw] at h
    simp only [Bool.false_eq_true, if_false, List.mem_singleton, forall_eq] at h ⊢
    rw [h, upd_same]
    have := hv hw
    apply BitVec.eq_of_toNat_eq
    simp
    omega

theorem write_other (addr : Short) (l : List (Slot × Short)) (m : Short → Byte) (p : Short) (h : ∀ x ∈ l, ∀ c ∈ x.1.cells, p ≠ addr + c) :
    writeAll addr l m p = m p := by
  induction l generalizing m with
  | nil => rfl
  | cons x l ih =>
    obtain ⟨s, v⟩ := x
    show writeAll addr l (putSlot addr s v m) p = _
    rw [ih _ (fun y hy => h y (by simp [hy])), store_other addr s v m p (h (s, v) (by simp))]

theorem write_load (addr : Short) (l : List (Slot × Short)) (hl : l.Pairwise (fun x y => ∀ c ∈ x.1.cells, ∀ d ∈ y.1.cells, c ≠ d))
    (hf : ∀ x ∈ l, x.1.Fits x.2) (m : Short → Byte) : ∀ x ∈ l, getSlot addr x.1 (writeAll addr l m) = x.2 := by
  induction l generalizing m with
  | nil => intro x hx; cases hx
  | cons y l ih =>
    obtain ⟨s, v⟩ := y
    rw [List.pairwise_cons] at hl
    intro x hx
    rcases List.mem_cons.1 hx with rfl | hx
    · refine store_load addr s v (hf (s, v) (by simp)) m _ ?_
      intro c hc
      show writeAll addr l (putSlot addr s v m) (addr + c) = _
      rw [write_other]
      intro y hy d hd e
      exact hl.1 y hy c hc d hd (by rwa [BitVec.add_right_inj] at e)
    · exact ih hl.2 (fun y hy => hf y (by simp [hy])) _ x hx

theorem slots_wide (scope : Str) (base : Short) (l : List Ev) :
    (slots scope base l).map (fun s => !s.wide) = (fields scope l).map (fun f => decide (f.size = 1)) := by
  induction l with
  | nil => rfl
  | cons e r ih =>
    show List.map _ ((match memberOf scope e with | none => [] | some _ => _) ++ slots scope base r) =
      List.map _ ((match memberOf scope e with | none => [] | some _ => _) ++ fields scope r)
    rw [List.map_append, List.map_append, ih]
    congr 1
    cases memberOf scope e with
    | none => rfl
    | some l =>
      dsimp only
      cases extent scope e.addr r with
      | none => rfl
      | some b => simp

theorem slots_from (scope : Str) (base : Short) (l : List Ev) (hl : Laid scope base l) :
    ∀ s ∈ slots scope base l, ∃ e ∈ l, (memberOf scope e).isSome ∧ s.off = e.addr - base ∧ e.addr.toNat < 65535 := by
  induction l with
  | nil => intro s hs; cases hs
  | cons e r ih =>
    intro s hs
    rcases List.mem_append.1 (show s ∈ (match memberOf scope e with | none => [] | some _ => _) ++ slots scope base r from hs) with h | h
    · cases hm : memberOf scope e with
      | none => rw [hm] at h; cases h
      | some l =>
        rw [hm] at h
        dsimp only at h
        cases hx : extent scope e.addr r with
        | none => rw [hx] at h; cases h
        | some b =>
          rw [hx] at h
          rw [List.mem_singleton.1 h]
          have h1 := ((hl.1 (by rw [hm]; rfl)).2 b hx).1
          have h2 := b.isLt
          exact ⟨e, by simp, by rw [hm]; rfl, rfl, by omega⟩
    · obtain ⟨x, h1, h2⟩ := ih hl.2 s h
      exact ⟨x, by simp [h1], h2⟩

theorem laid_base (scope : Str) (base : Short) (l : List Ev) (h : Laid scope base l) :
    ∀ e ∈ l, (memberOf scope e).isSome → base.toNat ≤ e.addr.toNat := by
  induction l with
  | nil => intro e he; cases he
  | cons x r ih =>
    intro e he hm
    rcases List.mem_cons.1 he with rfl | he
    · exact (h.1 hm).1
    · exact ih h.2 e he hm

theorem off_toNat {a base : Short} (h : base.toNat ≤ a.toNat) : (a - base).toNat = a.toNat - base.toNat := by
  rw [BitVec.toNat_sub]
  have := a.isLt
  omega

theorem laid_disjoint (scope : Str) (base : Short) (l : List Ev) (h : Laid scope base l) :
    (slots scope base l).Pairwise (fun x y => ∀ c ∈ x.cells, ∀ d ∈ y.cells, c ≠ d) := by
  induction l with
  | nil => exact .nil
  | cons e r ih =>
    show List.Pairwise _ ((match memberOf scope e with | none => [] | some _ => _) ++ slots scope base r)
    rw [List.pairwise_append]
    refine ⟨?_, ih h.2, ?_⟩
    · cases memberOf scope e with
      | none => exact .nil
      | some l =>
        dsimp only
        cases extent scope e.addr r with
        | none => exact .nil
        | some b => exact List.pairwise_singleton ..
    · intro x hx y hy c hc d hd
      cases hm : memberOf scope e with
      | none => rw [hm] at hx; cases hx
      | some l =>
        rw [hm] at hx
        dsimp only at hx
        obtain ⟨hb, h1⟩ := h.1 (by rw [hm]; rfl)
        cases hxt : extent scope e.addr r with
        | none => rw [hxt] at hx; cases hx
        | some b =>
          rw [hxt] at hx
          have hx := List.mem_singleton.1 hx
          subst hx
          obtain ⟨h2, h3⟩ := h1 b hxt
          obtain ⟨z, hz, hzm, hoff, hz'⟩ := slots_from scope base r h.2 y hy
          have h4 := h3 z hz hzm
          have h5 := laid_base scope base r h.2 z hz hzm
          have hb' := b.isLt
          -- the cells of the first field end before `b`
          have hcb : base.toNat + c.toNat < b.toNat := by
            unfold Slot.cells at hc
            dsimp only at hc
            by_cases hw : b - e.addr ≠ 1
            · rw [if_pos (by simpa using hw)] at hc
              have hne : b.toNat ≠ e.addr.toNat + 1 := by
                intro hbe
                apply hw
                apply BitVec.eq_of_toNat_eq
                rw [off_toNat (by omega), hbe]
                simp
              have h1' : ((1 : Short)).toNat = 1 := rfl
              rcases List.mem_cons.1 hc with rfl | hc
              · rw [off_toNat hb]; omega
              · rw [List.mem_singleton.1 hc, BitVec.toNat_add, off_toNat hb, h1', Nat.mod_eq_of_lt (by omega)]
                omega
            · rw [if_neg (by simpa using hw)] at hc
              rw [List.mem_singleton.1 hc, off_toNat hb]
              omega
          have hzo : y.off.toNat = z.addr.toNat - base.toNat := by rw [hoff, off_toNat h5]
          have hdb : b.toNat ≤ base.toNat + d.toNat := by
            unfold Slot.cells at hd
            have h1' : ((1 : Short)).toNat = 1 := rfl
            split at hd
            · rcases List.mem_cons.1 hd with rfl | hd
              · rw [hzo]; omega
              · rw [List.mem_singleton.1 hd, BitVec.toNat_add, h1', hzo, Nat.mod_eq_of_lt (by omega)]
                omega
            · rw [List.mem_singleton.1 hd, hzo]
              omega
          intro hcd
          subst hcd
          omega

/-- **C70**, round trip. In a command whose fields are laid out one after the other: reading back what the writer has stored
returns every value that fits its field, at every address, also when the addresses wrap; and nothing else is changed. -/
theorem C70_roundtrip (scope : Str) (base : Short) (body : List Ev) (h : Laid scope base body) (addr : Short) (vals : List Short)
    (hlen : vals.length = (slots scope base body).length) (hf : ∀ x ∈ List.zip (slots scope base body) vals, x.1.Fits x.2) (m : Short → Byte) :
    (slots scope base body).map (fun s => getSlot addr s (writeAll addr (List.zip (slots scope base body) vals) m)) = vals ∧
    ∀ p, (∀ s ∈ slots scope base body, ∀ c ∈ s.cells, p ≠ addr + c) → writeAll addr (List.zip (slots scope base body) vals) m p = m p := by
  have hd := laid_disjoint scope base body h
  generalize slots scope base body = ss at hlen hf hd ⊢
  have hp : (List.zip ss vals).Pairwise (fun x y => ∀ c ∈ x.1.cells, ∀ d ∈ y.1.cells, c ≠ d) := by
    have : (List.zip ss vals).map Prod.fst = ss := List.map_fst_zip (by omega)
    rw [← this, List.pairwise_map] at hd
    exact hd
  constructor
  · have h1 := write_load addr (List.zip ss vals) hp hf m
    generalize writeAll addr (List.zip ss vals) m = m' at h1
    clear hd hp hf
    induction ss generalizing vals with
    | nil => cases vals with
      | nil => rfl
      | cons v vals => cases hlen
    | cons s ss ih => cases vals with
      | nil => cases hlen
      | cons v vals =>
        rw [List.map_cons, h1 (s, v) (by simp), ih vals (by simpa using hlen) (fun x hx => h1 x (by simp [hx]))]
  · intro p hpp
    refine write_other addr _ m p fun x hx c hc => hpp x.1 ?_ c hc
    exact (List.of_mem_zip (show (x.1, x.2) ∈ _ from hx)).1

/-- **C70**, no null pointer: a field is added only when there is a structure. For every list of symbols. -/
theorem C70_no_null (o : Opts) (syms : List (Short × SymInfo)) (out : Str) (addr : Short) :
    let s := putSymbols o syms { out := out }
    addr ≠ s.last ∧ s.lastName ≠ [] → s.cmds.getLast? ≠ none := by
  have key : ∀ (s : State), (s.kind = .command → s.cmds ≠ []) ∧ (s.lastName ≠ [] → s.cmds ≠ []) →
      ((putSymbols o syms s).kind = .command → (putSymbols o syms s).cmds ≠ []) ∧
      ((putSymbols o syms s).lastName ≠ [] → (putSymbols o syms s).cmds ≠ []) := by
    induction syms with
    | nil => exact fun s h => h
    | cons p syms ih =>
      intro s h
      show ((putSymbols o syms (putSymbol o p.1 p.2 s)).kind = _ → _) ∧ _
      apply ih
      unfold putSymbol
      dsimp only
      generalize (Anno.handle annos p.1 p.2 s.anno).2 = cs
      generalize (Anno.handle annos p.1 p.2 s.anno).1 = an
      have h0 : (({ s with anno := an } : State).kind = .command → ({ s with anno := an } : State).cmds ≠ []) ∧
          (({ s with anno := an } : State).lastName ≠ [] → ({ s with anno := an } : State).cmds ≠ []) := h
      generalize ({ s with anno := an } : State) = s0 at h0
      have h1 : ∀ s0 : State, (s0.kind = .command → s0.cmds ≠ []) ∧ (s0.lastName ≠ [] → s0.cmds ≠ []) →
          ((cs.foldl (handleAnnotation o) s0).kind = .command → (cs.foldl (handleAnnotation o) s0).cmds ≠ []) ∧
          ((cs.foldl (handleAnnotation o) s0).lastName ≠ [] → (cs.foldl (handleAnnotation o) s0).cmds ≠ []) := by
        induction cs with
        | nil => exact fun s h => h
        | cons c cs ih =>
          intro s0 h0
          rw [List.foldl_cons]
          apply ih
          unfold handleAnnotation
          cases c.anno with
          | none => exact h0
          | some i =>
            have e1 : (finalize o s0).cmds = s0.cmds := by unfold finalize; split <;> rfl
            have e2 : (finalize o s0).lastName = s0.lastName := by unfold finalize; split <;> rfl
            dsimp only
            rw [e1, e2]
            constructor
            · intro hk
              rw [if_pos hk]
              simp
            · intro hk
              split
              · simp
              · exact h0.2 hk
      have h2 := h1 s0 h0
      generalize cs.foldl (handleAnnotation o) s0 = s1 at h2
      have hfl : (flush p.1 s1).kind = s1.kind ∧ ((flush p.1 s1).lastName ≠ [] → s1.lastName ≠ []) ∧ (s1.cmds ≠ [] → (flush p.1 s1).cmds ≠ []) := by
        unfold flush
        split
        · refine ⟨rfl, fun hx => absurd rfl hx, fun hx hy => hx ?_⟩
          have := congrArg (List.map Cmd.name) hy
          rw [addField_name] at this
          exact List.map_eq_nil_iff.1 this
        · exact ⟨rfl, id, id⟩
      have h3 : ((flush p.1 s1).kind = .command → (flush p.1 s1).cmds ≠ []) ∧ ((flush p.1 s1).lastName ≠ [] → (flush p.1 s1).cmds ≠ []) :=
        ⟨fun hk => hfl.2.2 (h2.1 (hfl.1.symm.trans hk)), fun hk => hfl.2.2 (h2.2 (hfl.2.1 hk))⟩
      unfold label
      split
      · dsimp only
        split
        · unfold member
          refine ⟨h3.1, fun hx => ?_⟩
          dsimp only at hx ⊢
          by_cases hk : (flush p.1 s1).kind = .command
          · exact h3.1 hk
          · rw [if_neg hk] at hx
            exact h3.2 hx
        · exact h2
      · exact h3
  have h0 := (key { out := out } ⟨fun h => (by cases h), fun h => absurd rfl h⟩).2
  intro s hs hn
  exact h0 hs.2 (List.getLast?_eq_none_iff.1 hn)

/-- **C70**, for every source that the assembler accepts (comments nested less than 65536 deep and without zero bytes). -/
theorem C70_program (o : Opts) (files : Files) (fuel : Nat) (filename : Str) (s : Asm) (h : assemble files fuel filename = some (true, s)) :
    ∃ program, (∀ i ∈ program, Announced i) ∧ announced s.log = symbols program ∧
      ((∀ i ∈ program, Ordinary i) → Named (evs program) → ∃ fs : List (List Field), fs.length = (commands (groups (evs program))).length ∧
        header o (announced s.log) true = preamble o ++ (groups (evs program)).flatMap (groupText o) ++
          (List.zip ((commands (groups (evs program))).map Group.scope) fs).flatMap (fun p => commandText o p.1 p.2) ++ epilogue o true) := by
  obtain ⟨program, hw, ha⟩ := C44_comments_balanced files fuel filename s h
  refine ⟨program, hw, ha, fun ho hn => ?_⟩
  rw [ha]
  exact C70_header o program (fun i hi => (hw i hi).wellFormed (ho i hi)) hn true

/-! ## Examples -/

namespace Example

def at' (n : Nat) : Region := ⟨str "m", ⟨1, n, n⟩, ⟨1, n + 1, n + 1⟩⟩
def word (a : Short) (w : String) (d : Short) : Short × SymInfo := (a, { type := .comment, name := some (str w), region := at' 1, id := d })
def note (a : Short) (w : String) : Item := .comment (word a ("(" ++ w) 0) [] (word a ")" 1)
def lab (a : Short) (w : String) : Item := .plain a { type := .label, name := some (str w), region := at' 1, id := 1 }
def num (a : Short) : Item := .plain a { type := .number, region := at' 1 }

/-- `(device ) |00 @Sys/vector $2 &exp $1 |100 (command ) @fill &op $1 &len-x $2 &v $1 00` -/
def program : List Item :=
  [note 0x100 "device", lab 0 "Sys/vector", lab 2 "Sys/exp", note 0x100 "command", lab 0x100 "fill", lab 0x100 "fill/op", lab 0x101 "fill/len-x",
   lab 0x103 "fill/v", num 0x104]

def opts : Opts := ⟨[str "a"], some (str "G"), fun _ => ⟨str "b_", str "_t"⟩⟩

theorem wellFormed_program : ∀ i ∈ program, WellFormed i := by
  intro i hi
  simp only [program, List.mem_cons, List.not_mem_nil, or_false] at hi
  rcases hi with rfl | rfl | rfl | rfl | rfl | rfl | rfl | rfl | rfl
  all_goals simp only [note, lab, num, WellFormed]
  all_goals decide

theorem named_program : Named (evs program) := by
  unfold Named
  decide +kernel

instance closedDecidable (scope : Str) : (l : List Ev) → Decidable (Closed scope l)
  | [] => .isTrue trivial
  | e :: r =>
    have := closedDecidable scope r
    inferInstanceAs (Decidable (((memberOf scope e).isSome → (∀ x ∈ r, memberOf scope x = none) → extent scope e.addr r ≠ none) ∧ Closed scope r))

/-- Not by trying all shorts. -/
@[reducible] def optionDecidable {α : Type} (P : α → Prop) [DecidablePred P] : (o : Option α) → Decidable (∀ b ∈ o, P b)
  | none => .isTrue fun _ h => (by cases h)
  | some a => decidable_of_iff (P a) ⟨fun h b hb => (by cases hb; exact h), fun h => h a rfl⟩

instance laidDecidable (scope : Str) (base : Short) : (l : List Ev) → Decidable (Laid scope base l)
  | [] => .isTrue trivial
  | e :: r =>
    have := laidDecidable scope base r
    have : Decidable (∀ b ∈ extent scope e.addr r, e.addr.toNat < b.toNat ∧ ∀ x ∈ r, (memberOf scope x).isSome → b.toNat ≤ x.addr.toNat) := optionDecidable _ _
    inferInstanceAs (Decidable (((memberOf scope e).isSome → base.toNat ≤ e.addr.toNat ∧ ∀ b ∈ extent scope e.addr r,
      e.addr.toNat < b.toNat ∧ ∀ x ∈ r, (memberOf scope x).isSome → b.toNat ≤ x.addr.toNat) ∧ Laid scope base r))

theorem closed_program : ∀ g ∈ commands (groups (evs program)), Closed g.scope g.body := by decide +kernel

theorem laid_program : ∀ g ∈ commands (groups (evs program)), Laid g.scope g.base g.body := by decide +kernel

/-- The hypotheses are met, and the fields of the command are as declared. -/
example : (commands (groups (evs program))).map (fun g => (g.scope, fields g.scope g.body)) =
    [(str "fill", [⟨str "op", 1⟩, ⟨str "len-x", 2⟩, ⟨str "v", 1⟩])] := by decide +kernel

example : ((groups (evs program)).map (groupText opts)).flatten =
    str "\ntypedef enum {\n\t/// Sys/vector\n\tB_SYS_VECTOR = 0x00,\n\t/// Sys/exp\n\tB_SYS_EXP = 0x02,\n} b_sys_t;\n" ++
    str "\nenum {\n\t/// fill/op\n\tB_FILL_OP = 0,\n\t/// fill/len-x\n\tB_FILL_LEN_X = 1,\n\t/// fill/v\n\tB_FILL_V = 3,\n};\n" := by decide +kernel

example (addr : Short) (m : Short → Byte) : writeAll addr (List.zip [⟨0, false⟩, ⟨1, true⟩, ⟨3, false⟩] [7, 0x1234, 9]) m (addr + 2) = 0x34 := by
  simp [writeAll, putSlot, upd, BitVec.add_assoc]

/-- `(command ) @fill &len 0010 &v $1 00` -/
def initialised : List Item :=
  [note 0x100 "command", lab 0x100 "fill", lab 0x100 "fill/len", num 0x100, num 0x101, lab 0x102 "fill/v", num 0x103]

/-- `(command ) @one &a $1 &last $2` at the end of the file. -/
def open' : List Item := [note 0x100 "command", lab 0x100 "one", lab 0x100 "one/a", lab 0x101 "one/last"]

/-- The structures that the program makes. -/
def made (l : List Item) : List Cmd := (putSymbols opts (symbols l) {}).cmds

end Example

open Example in
/-- **C70**, violated: a field of two bytes that has a value in the source (`&len 0010`) becomes a field of one byte, since each
byte of the value is announced. The writer then stores only the low byte, at the place of the high one. -/
theorem C70_width_violated : (∀ i ∈ initialised, WellFormed i) ∧
    made initialised = [⟨str "fill", [⟨str "len", 1⟩, ⟨str "v", 1⟩]⟩] := by
  constructor
  · intro i hi
    simp only [initialised, List.mem_cons, List.not_mem_nil, or_false] at hi
    rcases hi with rfl | rfl | rfl | rfl | rfl | rfl | rfl
    all_goals simp only [note, lab, num, WellFormed]
    all_goals decide
  · decide +kernel

open Example in
/-- **C70**, violated: the last field of a command is lost at the end of a file. If another command follows and the field takes
no space that is announced, as in `(command ) @one &last (command ) $2 @two 0000 &c 00`, the structure of the other command
gets it. -/
theorem C70_last_field_violated : made open' = [⟨str "one", [⟨str "a", 1⟩]⟩] ∧
    made [note 0x100 "command", lab 0x100 "one", lab 0x100 "one/last", note 0x100 "command", lab 0x102 "two", num 0x102, num 0x103, lab 0x104 "two/c", num 0x105] =
      [⟨str "one", []⟩, ⟨str "two", [⟨str "last", 1⟩, ⟨str "c", 1⟩]⟩] := by
  constructor <;> decide +kernel

open Example in
/-- **C70**, violated: two annotations on one definition make an enumeration without members, which is not C. -/
theorem C70_two_annotations_violated :
    ((groups (evs [note 0x100 "device", note 0x100 "enum", lab 0 "d/a", lab 1 "d/b"])).map fun g => (g.kind, g.body.length)) = [(.device, 0), (.enum, 2)] := by
  decide +kernel

/-- **C70**, the letters of a name: those of ASCII change their case, and every other byte is kept. -/
theorem C70_letters : (∀ p ∈ (str "abcdefghijklmnopqrstuvwxyz").zip (str "ABCDEFGHIJKLMNOPQRSTUVWXYZ"), upper p.1 = p.2 ∧ lower p.2 = p.1) ∧
    (∀ b : Byte, b ∉ str "abcdefghijklmnopqrstuvwxyz" → upper b = b) ∧ ∀ b : Byte, b ∉ str "ABCDEFGHIJKLMNOPQRSTUVWXYZ" → lower b = b := by
  refine ⟨?_, ?_, ?_⟩ <;> decide +kernel

end Buxn.Bindgen
