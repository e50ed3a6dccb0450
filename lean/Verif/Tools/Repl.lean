import Verif.Misc.Cli
import Verif.Asm.Tokens
import Verif.Chess.Notation
/-!
# The interactive prompt (C71)

`/repo/src/repl.c` assembles a small program around each line that is typed (`src/repl.tal`), has it checked, runs it on a
machine that lives on, and prints the stacks with the names that the checker has for their values. Modelled: the file that the
line is read from, the signature that tells the checker what is on the stack, the printing of the stacks, and the loop with the
machine and its devices. What the assembler and the checker make of a line is any `Outcome`; they are the subject of C32–C47.
-/
namespace Buxn.Repl
open Buxn.VM Buxn.Input
open Buxn.Asm (Str ch str)

/-! ## Model: the file that reads lines -/

/-- `buxn_repl_readline_state_t`, `repl.c:51-55`. -/
inductive Phase
  | opened | eol | eof
  deriving DecidableEq, Repr

/-- `buxn_repl_file_readline_t`, `repl.c:57-64`, and `repl.terminated`. `line` is what is left of the current line. -/
structure Reader where
  phase : Phase := .opened
  line : Option Str := none
  terminated : Bool := false
  deriving DecidableEq, Repr

/-- A `char` as an `int`: signed. -/
def signed (b : Byte) : Int := b.toInt

/-- What happens during one call. -/
structure Got where
  value : Int
  reader : Reader
  typed : List Str
  /-- the prompt that was shown, if a line was asked for -/
  prompt : Option Str

/-- `%d`. -/
def decimal (n : Int) : Str := if n < 0 then ch '-' :: (Nat.toDigits 10 n.natAbs).map ch else (Nat.toDigits 10 n.natAbs).map ch

/-- The end of `buxn_repl_readline_file_getc`, `repl.c:383-391`. `line` is a C string: it has no zero bytes. -/
def next (line : Str) (r : Reader) (typed : List Str) (prompt : Option Str) : Got :=
  match line with
  | [] => ⟨10, { r with line := none, phase := .eol }, typed, prompt⟩
  | c :: rest => ⟨signed c, { r with line := some rest }, typed, prompt⟩

/-- `repl.c:361-380`. `typed` are the lines that will be typed; when there are no more, `bestlineWithHistory` returns null. -/
def ask (depth : Int) (r : Reader) (typed : List Str) : Got :=
  match r.line with
  | some line => next line r typed none
  | none =>
    let prompt := if 0 < depth then str "[" ++ decimal depth ++ str "> " else str "> "
    match typed with
    | [] => ⟨-1, { r with phase := .eof, terminated := true }, [], some prompt⟩
    | l :: typed => next l r typed (some prompt)

/-- `buxn_repl_readline_file_getc`, `repl.c:346-392`. `depth` is `mark_depth` at the time of the call. -/
def getc (depth : Int) (r : Reader) (typed : List Str) : Got :=
  match r.phase with
  | .eof => ⟨-1, r, typed, none⟩
  | .eol => if 0 < depth then ask depth { r with phase := .opened } typed else ⟨-1, r, typed, none⟩
  | .opened => ask depth r typed

/-- Calls of `getc`, with the depth at the time of each: the values returned, and what is left. -/
def calls : List Int → Reader → List Str → List Int × Reader × List Str
  | [], r, typed => ([], r, typed)
  | d :: ds, r, typed =>
    let g := getc d r typed
    let rest := calls ds g.reader g.typed
    (g.value :: rest.1, rest.2)

/-! ## Model: the signature -/

/-- `buxn_chess_value_t`, `chess.h:44-52`, as far as it is printed. -/
structure Val where
  name : Str
  short : Bool
  address : Bool
  deriving DecidableEq, Repr

/-- The length of a `buxn_chess_str_t` is a byte, `chess.h:39-42`. -/
def cut (s : Str) : Str := s.take (s.length % 256)

/-- `buxn_chess_format_value`, `chess.c:311-326`. -/
def formatValue (v : Val) : Str :=
  cut (str " " ++ (if v.address then str "[" else []) ++ v.name ++ (if v.address then str "]" else []) ++ (if v.short then str "*" else []))

/-- `buxn_chess_format_stack`, `chess.c:328-353`. -/
def formatStack (l : List Val) : Str := cut ((l.take 8).flatMap formatValue ++ if 8 < l.length then str " ..." else [])

/-- `print_stack_state`, `repl.c:24`: what the checker knew about the stacks, the last one on top. `size` is the field that
counts bytes. -/
structure Sym where
  vals : List Val := []
  size : Nat := 0
  deriving DecidableEq, Repr

structure Known where
  wst : Sym := {}
  rst : Sym := {}
  deriving DecidableEq, Repr

/-- The file `/repl/signature`, `repl.c:532-556`. -/
def sigText (k : Known) : Str := str "(" ++ formatStack k.wst.vals ++ str " ." ++ formatStack k.rst.vals ++ str " -> )"

/-! ## Model: printing -/

/-- `%*s`. -/
def pad (n : Nat) (s : Str) : Str := List.replicate (n - s.length) (ch ' ') ++ s

/-- A digit of `%x`, and of `%X`. -/
def hexDigit (n : Nat) : Byte := ch ("0123456789abcdef".toList.getD n '0')
def hexUpper (n : Nat) : Byte := ch ("0123456789ABCDEF".toList.getD n '0')
/-- `%02x` and `%04x`. -/
def hex2 (b : Byte) : Str := [hexDigit (b.toNat / 16), hexDigit (b.toNat % 16)]
def hex4 (h l : Byte) : Str := hex2 h ++ hex2 l

/-- `repl.c:104-113`: the smallest width of a column, and its width. `width` is `buxn_repl_str_width`, which belongs to the
library `utf8proc`. -/
def minSize (v : Val) : Nat := if v.short then 4 else 2
def column (width : Str → Nat) (v : Val) : Nat := max (width (formatValue v)) (minSize v)

/-- The loop in `repl.c:117-130`; `offset` is a byte. `vm_stack[offset + 1]` would be out of bounds at 255. -/
def printValues (width : Str → Nat) (stk : Byte → Byte) : List Val → Byte → Res Str
  | [], _ => .ok []
  | v :: l, offset =>
    if v.short then
      if offset = 255 then .error .oob
      else (printValues width stk l (offset + 2)).map fun t => str "|" ++ pad (column width v) (hex4 (stk offset) (stk (offset + 1))) ++ t
    else (printValues width stk l (offset + 1)).map fun t => str "|" ++ pad (column width v) (hex2 (stk offset)) ++ t

/-- `buxn_repl_print_stack`, `repl.c:93-140`. -/
def printStack (width : Str → Nat) (name : Str) (s : Sym) (stk : Byte → Byte) (p : Byte) : Res Str :=
  if p.toNat = s.size then
    (printValues width stk s.vals 0).map fun t =>
      name ++ str ":" ++ s.vals.flatMap (fun v => str "|" ++ pad (minSize v) (formatValue v)) ++ str "|\n" ++
        pad name.length [] ++ str " " ++ t ++ str "|\n"
  else
    .ok (name ++ str ":" ++ (List.range p.toNat).flatMap (fun i => str " " ++ [hexUpper ((stk (BitVec.ofNat 8 i)).toNat / 16), hexUpper ((stk (BitVec.ofNat 8 i)).toNat % 16)]) ++ str "\n")

/-! ## Model: the machine and its devices -/

variable {τ : Type}

/-- The devices, and `need_reset`. -/
structure Data (τ : Type) where
  base : Cli.Data τ
  needReset : Bool

/-- The callbacks of the system device, `repl.c:277-294`. -/
def callbacks : System.Callbacks (Data τ) where
  debug v vm d := .ok (vm, if v = 0xff then { d with needReset := true } else d)
  setMetadata _ vm d := .ok (vm, d)
  themeChanged vm d := .ok (vm, d)

/-- `repl.console`, which nobody touches. -/
def console : Console := ⟨0, [], 0, 0⟩

/-- `buxn_vm_dei`, `repl.c:230-252`: as in `buxn-cli`. -/
def dei (a : Byte) (vm : VM) (d : Data τ) : Res (Byte × VM × Data τ) :=
  (Cli.dei console a vm d.base).map fun r => (r.1, r.2.1, { d with base := r.2.2 })

/-- `buxn_vm_deo`, `repl.c:254-275`, with the callbacks of the console, `repl.c:296-310`: as in `buxn-cli` but for the system
device. -/
def deo (F : File.Host τ) (a : Byte) (vm : VM) (d : Data τ) : Res (VM × Data τ) :=
  if Cli.deviceId a = 0x00 then System.deo callbacks a vm d
  else (Cli.deo F console a vm d.base).map fun r => (r.1, { d with base := r.2 })

def host (F : File.Host τ) : Host (Data τ) where
  dei := dei
  deo := deo F

/-! ## Model: the loop -/

/-- What the assembler and the checker make of a line: the bytes that they write (`buxn_asm_put_rom`, `repl.c:462-465`), what
the checker reports when a `DEO` to port 0e of the value 2b is reached (`buxn_chess_deo`, `repl.c:602-616`), whether assembly
succeeded, whether the line contained anything (`repl.c:475-477`), the number of errors of the checker outside of the frame
(`repl.c:673-679`), and whether the input has ended. -/
structure Outcome where
  rom : List (Short × Byte)
  told : List Known
  ok : Bool
  line : Bool
  errors : Nat
  ended : Bool

/-- The program between two lines. `arena` is the arena that was used last, `resets` how often each was reset; the names in
`known` are in arena `home`, which was then reset `born` times. -/
structure State (τ : Type) where
  turns : Nat
  vm : VM
  data : Data τ
  known : Known
  home : Bool
  born : Nat
  arena : Bool
  resets : Bool → Nat
  out : List Str
  terminated : Bool
  stop : Option Cli.Stop

/-- `repl.c:167-179`. -/
def start (vm : VM) (fs : τ) (clock : Datetime.Clock) : State τ where
  turns := 0
  vm := vm
  data := ⟨(Cli.start fs clock).data, false⟩
  known := {}
  home := false
  born := 0
  arena := false
  resets := fun _ => 0
  out := []
  terminated := false
  stop := none

/-- There are names to print. -/
def Known.any (k : Known) : Bool := !(k.wst.vals.isEmpty && k.rst.vals.isEmpty)

/-- The bytes that the assembler writes. -/
def put (rom : List (Short × Byte)) (vm : VM) : VM := rom.foldl (fun vm p => { vm with memory := upd vm.memory p.1.toNat p.2 }) vm

/-- `buxn_chess_deo`, `repl.c:602-616`. -/
def hear (told : List Known) (s : State τ) : State τ :=
  told.foldl (fun s k => { s with known := k, home := s.arena, born := s.resets s.arena }) s

/-- `BUXN_VM_RESET_SOFT`, `vm.h:37`. -/
def RESET_SOFT : Byte := (1 <<< 2) ||| (1 <<< 4)

/-- `repl.c:198-215`. -/
def after (width : Str → Nat) (s : State τ) : Res (State τ) :=
  if s.data.needReset then do
    let vm ← VM.reset s.vm RESET_SOFT
    return { s with vm := vm, known := {}, data := { s.data with needReset := false } }
  else do
    let w ← printStack width (str "WST") s.known.wst s.vm.ws s.vm.wsp
    let r ← printStack width (str "RST") s.known.rst s.vm.rs s.vm.rsp
    return { s with out := s.out ++ [w, r] }

/-- `buxn_vm_execute` and what follows, `repl.c:195-216`. -/
def run (E : Cli.Env) (F : File.Host τ) (width : Str → Nat) (s : State τ) : Res (State τ) :=
  match execute E.cfg (host F) none (E.locals s.turns) E.fuel s.vm s.data 0x100 with
  | .halted vm d => after width { s with vm := vm, data := d }
  | .undefined u => .ok { s with stop := some (.fault u) }
  | .running c => .ok { s with vm := c.vm, data := c.host, stop := some .unfinished }

/-- One round of the loop, `repl.c:180-217`. The names that the signature consists of must not have been freed. -/
def turn (E : Cli.Env) (F : File.Host τ) (width : Str → Nat) (W : Str → VM → Outcome) (s : State τ) : Res (State τ) :=
  let s := { s with turns := s.turns + 1, arena := !s.arena, resets := upd s.resets (!s.arena) (s.resets (!s.arena) + 1) }
  if s.known.any ∧ s.born ≠ s.resets s.home then .error .oob
  else
    let o := W (sigText s.known) s.vm
    let s := { s with vm := put o.rom s.vm, terminated := o.ended }
    if o.ok && o.line then
      let s := hear o.told s
      if o.errors = 0 then run E F width s else .ok s
    else .ok s

/-- The loop: the lines of a session, until the input ends or a run is not over. -/
def session (E : Cli.Env) (F : File.Host τ) (width : Str → Nat) : List (Str → VM → Outcome) → State τ → Res (State τ)
  | [], s => .ok s
  | W :: Ws, s =>
    if s.terminated ∨ s.stop ≠ none then .ok s
    else do
      let s ← turn E F width W s
      session E F width Ws s

/-! ## Specification -/

namespace Spec

/-- The bytes of a value. -/
def size (v : Val) : Nat := if v.short then 2 else 1

/-- The values of a stack, with the bytes that belong to each, from the bottom. -/
def cells : List Val → List Byte → List (Val × List Byte)
  | [], _ => []
  | v :: l, bs => (v, bs.take (size v)) :: cells l (bs.drop (size v))

/-- The bytes on a stack. -/
def bytesOf (stk : Byte → Byte) (p : Byte) : List Byte := (List.range p.toNat).map fun i => stk (BitVec.ofNat 8 i)

/-- The second row of the table: the value under each name, in hexadecimal. -/
def row (width : Str → Nat) (l : List (Val × List Byte)) : Str :=
  l.flatMap fun c => str "|" ++ pad (column width c.1) (c.2.flatMap hex2)

/-- The first row of the table: the names. -/
def heading (l : List Val) : Str := l.flatMap fun v => str "|" ++ pad (minSize v) (formatValue v)

/-- What the checker knows fits together: the size is that of the values, and they are on a stack of 255 bytes. -/
def Sums (s : Sym) : Prop := s.size = (s.vals.map size).sum ∧ s.size ≤ 255

/-- A value as a word of a signature. -/
def word (v : Val) : Str := Chess.ValueText.word ⟨v.name, v.address, v.short⟩

/-- A name that can be written in a signature: it makes one word, which is not one of the reserved words or a parenthesis and not
too long for the assembler. -/
structure Writable (v : Val) : Prop where
  proper : Chess.ValueText.Proper ⟨v.name, v.address, v.short⟩
  solid : ∀ c ∈ v.name, ¬ Asm.Spec.IsSep c
  free : word v ∉ Chess.reserved ∧ word v ≠ str "(" ∧ word v ≠ str ")" ∧ word v ≠ [Asm.Spec.QUOTE]
  short : (word v).length ≤ 47

/-- Stacks that can be written as a signature: at most eight values each, and not too much text. -/
structure Fits (k : Known) : Prop where
  wst : k.wst.vals.length ≤ 8 ∧ ∀ v ∈ k.wst.vals, Writable v
  rst : k.rst.vals.length ≤ 8 ∧ ∀ v ∈ k.rst.vals, Writable v
  texts : (k.wst.vals.map fun v => (word v).length + 1).sum < 256 ∧ (k.rst.vals.map fun v => (word v).length + 1).sum < 256
  buffer : Chess.InBuffer (k.wst.vals.map word ++ str "." :: k.rst.vals.map word)

end Spec
open Spec

/-! ## The line -/

theorem next_line (l : Str) (ds : List Int) (hd : ds.length = l.length) (r : Reader) (hp : r.phase = .opened) (hl : r.line = some l) (d : Int)
    (typed : List Str) : calls (ds ++ [d]) r typed = (l.map signed ++ [10], { r with phase := .eol, line := none }, typed) := by
  induction l generalizing ds r with
  | nil =>
    have : ds = [] := List.length_eq_zero_iff.1 hd
    subst this
    obtain ⟨ph, ln, t⟩ := r
    cases hp
    cases hl
    rfl
  | cons c l ih =>
    cases ds with
    | nil => cases hd
    | cons e ds =>
      have h := ih ds (by simpa using hd) { r with line := some l } hp rfl
      have hg : getc e r typed = ⟨signed c, { r with line := some l }, typed, none⟩ := by
        obtain ⟨ph, ln, t⟩ := r
        cases hp
        cases hl
        rfl
      show (let g := getc e r typed; let rest := calls (ds ++ [d]) g.reader g.typed; (g.value :: rest.1, rest.2)) = _
      rw [hg]
      dsimp only
      rw [h]
      rfl

/-- **C71**, lines. When a line is asked for, the next calls return its characters in order and a line feed, whatever the marks
are in the meantime; and nothing more is asked for. -/
theorem C71_line (l : Str) (d : Int) (ds : List Int) (hd : ds.length = l.length) (r : Reader)
    (hr : (r.phase = .opened ∨ r.phase = .eol ∧ 0 < d) ∧ r.line = none) (typed : List Str) :
    calls (d :: ds) r (l :: typed) = (l.map signed ++ [10], { r with phase := .eol, line := none }, typed) ∧
    (getc d r (l :: typed)).prompt = some (if 0 < d then str "[" ++ decimal d ++ str "> " else str "> ") := by
  have hg : getc d r (l :: typed) = next l { r with phase := .opened } typed (some (if 0 < d then str "[" ++ decimal d ++ str "> " else str "> ")) := by
    unfold getc ask
    rcases hr with ⟨h | ⟨h, h0⟩, hl⟩
    · rw [h, hl]
      cases r
      cases h
      rfl
    · rw [h]
      dsimp only
      rw [if_pos h0, hl]
  constructor
  · show (let g := getc d r (l :: typed); let rest := calls ds g.reader g.typed; (g.value :: rest.1, rest.2)) = _
    rw [hg]
    cases l with
    | nil =>
      have : ds = [] := List.length_eq_zero_iff.1 hd
      subst this
      rfl
    | cons c l =>
      rcases List.eq_nil_or_concat ds with rfl | ⟨es, e, rfl⟩
      · cases hd
      · rw [List.concat_eq_append] at hd ⊢
        have h := next_line l es (by simpa using hd) { r with phase := .opened, line := some l } rfl rfl e typed
        show (let g : Got := ⟨signed c, { r with phase := .opened, line := some l }, typed, _⟩; let rest := calls (es ++ [e]) g.reader g.typed; (g.value :: rest.1, rest.2)) = _
        dsimp only
        rw [h]
        rfl
  · rw [hg]
    cases l <;> rfl

/-- **C71**, end of a line. Without an open mark the end of a line is the end of the file, for as long as there is none, and
nothing is asked for. -/
theorem C71_line_end (ds : List Int) (h0 : ∀ d ∈ ds, ¬ 0 < d) (r : Reader) (hr : r.phase = .eol) (typed : List Str) :
    calls ds r typed = (ds.map fun _ => -1, r, typed) := by
  induction ds with
  | nil => rfl
  | cons d ds ih =>
    have hg : getc d r typed = ⟨-1, r, typed, none⟩ := by
      unfold getc
      rw [hr]
      exact if_neg (h0 d (by simp))
    show (let g := getc d r typed; let rest := calls ds g.reader g.typed; (g.value :: rest.1, rest.2)) = _
    rw [hg]
    dsimp only
    rw [ih (fun e he => h0 e (by simp [he]))]
    rfl

/-- **C71**, end of the input. When there is no line, the program is told to end, and the file stays at its end. -/
theorem C71_input_end (d : Int) (ds : List Int) (r : Reader) (hr : (r.phase = .opened ∨ r.phase = .eol ∧ 0 < d) ∧ r.line = none) :
    calls (d :: ds) r [] = ((d :: ds).map fun _ => -1, { r with phase := .eof, terminated := true }, []) := by
  have hg : ∃ p, getc d r [] = ⟨-1, { r with phase := .eof, terminated := true }, [], p⟩ := by
    unfold getc ask
    rcases hr with ⟨h | ⟨h, h0⟩, hl⟩
    · rw [h, hl]; exact ⟨_, rfl⟩
    · rw [h]
      dsimp only
      rw [if_pos h0, hl]
      exact ⟨_, rfl⟩
  obtain ⟨p, hg⟩ := hg
  have hrest : ∀ ds : List Int, calls ds { r with phase := .eof, terminated := true } [] = (ds.map fun _ => -1, { r with phase := .eof, terminated := true }, []) := by
    intro ds
    induction ds with
    | nil => rfl
    | cons e ds ih =>
      show (let g : Got := ⟨-1, { r with phase := .eof, terminated := true }, [], none⟩; let rest := calls ds g.reader g.typed; (g.value :: rest.1, rest.2)) = _
      dsimp only
      rw [ih]
      rfl
  show (let g := getc d r []; let rest := calls ds g.reader g.typed; (g.value :: rest.1, rest.2)) = _
  rw [hg]
  dsimp only
  rw [hrest]
  rfl

theorem calls_append (as bs : List Int) (r : Reader) (typed : List Str) :
    calls (as ++ bs) r typed = ((calls as r typed).1 ++ (calls bs (calls as r typed).2.1 (calls as r typed).2.2).1,
      (calls bs (calls as r typed).2.1 (calls as r typed).2.2).2) := by
  induction as generalizing r typed with
  | nil => rfl
  | cons d as ih =>
    show (let g := getc d r typed; let rest := calls (as ++ bs) g.reader g.typed; (g.value :: rest.1, rest.2)) = _
    dsimp only
    rw [ih]
    rfl

/-- **C71**, text. As long as marks are open at the end of each line, the file consists of the lines that are typed, each ended by
a line feed. A block is a line and the depths at the times of the calls. -/
theorem C71_text (blocks : List (Str × Int × List Int)) (hb : ∀ b ∈ blocks, b.2.2.length = b.1.length ∧ 0 < b.2.1) (r : Reader)
    (hr : (r.phase = .opened ∨ r.phase = .eol) ∧ r.line = none) (typed : List Str) :
    (calls (blocks.flatMap fun b => b.2.1 :: b.2.2) r (blocks.map (·.1) ++ typed)).1 = blocks.flatMap (fun b => b.1.map signed ++ [10]) ∧
    (calls (blocks.flatMap fun b => b.2.1 :: b.2.2) r (blocks.map (·.1) ++ typed)).2.2 = typed := by
  induction blocks generalizing r with
  | nil => exact ⟨rfl, rfl⟩
  | cons b bs ih =>
    obtain ⟨h1, h2⟩ := hb b (by simp)
    have hl := (C71_line b.1 b.2.1 b.2.2 h1 r ⟨hr.1.imp id fun h => ⟨h, h2⟩, hr.2⟩ (bs.map (·.1) ++ typed)).1
    simp only [List.flatMap_cons, List.map_cons, List.cons_append]
    rw [← List.cons_append, calls_append, hl]
    obtain ⟨i1, i2⟩ := ih (fun c hc => hb c (by simp [hc])) { r with phase := .eol, line := none } ⟨.inr rfl, rfl⟩
    exact ⟨by dsimp only; rw [i1], i2⟩

/-- **C71**, characters: every byte but fe and ff is read as itself; these two are taken for the end of the file and an error. -/
theorem C71_bytes (b : Byte) : (b ≠ 0xff → signed b ≠ -1) ∧ (b ≠ 0xfe → signed b ≠ -2) ∧ (BitVec.ofInt 8 (signed b) = b) := by
  revert b; decide

theorem C71_bytes_violated : signed 0xff = -1 ∧ signed 0xfe = -2 := by decide

/-! ## The signature -/

theorem cut_eq (s : Str) (h : s.length < 256) : cut s = s := by
  unfold cut
  rw [Nat.mod_eq_of_lt h, List.take_length]

theorem formatValue_eq (v : Val) (h : (word v).length ≤ 47) : formatValue v = Asm.Spec.SPACE :: word v := by
  have e : (str " " ++ (if v.address then str "[" else []) ++ v.name ++ (if v.address then str "]" else []) ++ (if v.short then str "*" else [])) =
      Asm.Spec.SPACE :: word v := by
    obtain ⟨n, s, a⟩ := v
    cases s <;> cases a <;> simp [word, Chess.ValueText.word, str, ch, Asm.Spec.SPACE]
  unfold formatValue
  rw [e, cut_eq _ (by simp; omega)]

theorem formatStack_eq (l : List Val) (h8 : l.length ≤ 8) (hw : ∀ v ∈ l, Writable v) (ht : (l.map fun v => (word v).length + 1).sum < 256) :
    formatStack l = (l.map word).flatMap (Asm.Spec.SPACE :: ·) := by
  have e : l.flatMap formatValue = (l.map word).flatMap (Asm.Spec.SPACE :: ·) ∧
      ((l.map word).flatMap (Asm.Spec.SPACE :: ·)).length = (l.map fun v => (word v).length + 1).sum := by
    clear h8 ht
    induction l with
    | nil => exact ⟨rfl, rfl⟩
    | cons v l ih =>
      obtain ⟨i1, i2⟩ := ih (fun x hx => hw x (by simp [hx]))
      refine ⟨?_, ?_⟩
      · rw [List.flatMap_cons, i1, formatValue_eq v (hw v (by simp)).short]
        rfl
      · rw [List.map_cons, List.flatMap_cons, List.length_append, i2]
        simp
  unfold formatStack
  rw [List.take_of_length_le h8, if_neg (by omega), List.append_nil, e.1, cut_eq _ (by rw [e.2]; exact ht)]

/-- A word that the assembler reads as one token. -/
structure Solid (w : Str) : Prop where
  ne : w ≠ []
  solid : ∀ c ∈ w, ¬ Asm.Spec.IsSep c
  quote : w ≠ [Asm.Spec.QUOTE]
  short : w.length ≤ 47

theorem tokens_words (ws : List Str) (h : ∀ w ∈ ws, Solid w) (pre : Str) :
    ∃ ts, Asm.Spec.Tokens pre (ws.flatMap (Asm.Spec.SPACE :: ·)) ts true ∧ ts.map (·.text) = ws := by
  induction ws generalizing pre with
  | nil => exact ⟨[], .nothing (fun c hc => by cases hc), rfl⟩
  | cons w ws ih =>
    have hw := h w (by simp)
    obtain ⟨ts, h1, h2⟩ := ih (fun x hx => h x (by simp [hx])) (pre ++ [Asm.Spec.SPACE] ++ w)
    refine ⟨_ :: ts, .word (seps := [Asm.Spec.SPACE]) (w := w) (fun c hc => ?_) hw.ne hw.solid (fun c hc => ?_) (fun hq => hw.quote hq.1) hw.short h1, ?_⟩
    · rw [List.mem_singleton.1 hc]; unfold Asm.Spec.IsSep; decide
    · cases ws with
      | nil => cases hc
      | cons x xs => cases hc; unfold Asm.Spec.IsSep; decide
    · rw [List.map_cons, h2]

theorem writable_solid (v : Val) (h : Writable v) : Solid (word v) where
  ne := by
    obtain ⟨n, s, a⟩ := v
    cases a
    · have := (h.proper.plain rfl).1
      intro e
      apply this
      unfold word Chess.ValueText.word at e
      exact (List.append_eq_nil_iff.1 e).1
    · intro e
      unfold word Chess.ValueText.word at e
      cases (List.append_eq_nil_iff.1 e).1
  solid := by
    have hb : ¬ Asm.Spec.IsSep (ch '[') ∧ ¬ Asm.Spec.IsSep (ch ']') ∧ ¬ Asm.Spec.IsSep (ch '*') := by unfold Asm.Spec.IsSep; decide
    have hs := h.solid
    obtain ⟨n, s, a⟩ := v
    intro c hc
    unfold word Chess.ValueText.word at hc
    rcases List.mem_append.1 hc with hc | hc
    · cases a
      · exact hs c hc
      · rcases List.mem_append.1 hc with hc | hc
        · rcases List.mem_cons.1 hc with rfl | hc
          · exact hb.1
          · exact hs c hc
        · rw [List.mem_singleton.1 hc]; exact hb.2.1
    · cases s
      · cases hc
      · rw [List.mem_singleton.1 hc]; exact hb.2.2
  quote := h.free.2.2.2
  short := h.short

/-- The signature, as C56 has it. -/
def signature (k : Known) : Chess.SigText := ⟨⟨k.wst.vals.map word, some (k.rst.vals.map word)⟩, .vector, ⟨[], none⟩, false⟩

theorem signature_words (k : Known) : (signature k).words = k.wst.vals.map word ++ str "." :: (k.rst.vals.map word ++ [str "->"]) := by
  simp [Chess.SigText.words, signature, Chess.Side.words, Chess.arrow]

theorem signature_proper (k : Known) (h : Fits k) : (signature k).Proper where
  ins := by
    refine ⟨⟨by simpa [signature] using h.wst.1, ?_⟩, ?_⟩
    · intro t ht
      obtain ⟨v, hv, rfl⟩ := List.mem_map.1 ht
      exact (h.wst.2 v hv).free.1
    · intro l hl
      cases hl
      refine ⟨by simpa using h.rst.1, ?_⟩
      intro t ht
      obtain ⟨v, hv, rfl⟩ := List.mem_map.1 ht
      exact (h.rst.2 v hv).free.1
  outs := ⟨⟨by simp [signature], fun t ht => by cases ht⟩, fun l hl => by cases hl⟩
  fits := h.buffer

/-- **C71**, what the assembler reads. The file with the signature consists of a parenthesis, the values on the working stack, a
dot, those on the return stack, an arrow and a parenthesis. -/
theorem C71_signature_words (k : Known) (h : Fits k) :
    ∃ ts, Asm.Spec.Tokens [] (sigText k) ts true ∧ ts.map (·.text) =
      str "(" :: (k.wst.vals.map word ++ str "." :: (k.rst.vals.map word ++ [str "->", str ")"])) := by
  have e : sigText k = str "(" ++ ((k.wst.vals.map word ++ str "." :: (k.rst.vals.map word ++ [str "->", str ")"])).flatMap (Asm.Spec.SPACE :: ·)) := by
    unfold sigText
    rw [formatStack_eq _ h.wst.1 h.wst.2 h.texts.1, formatStack_eq _ h.rst.1 h.rst.2 h.texts.2]
    simp only [List.flatMap_append, List.flatMap_cons, List.append_assoc, List.flatMap_nil, List.append_nil]
    rfl
  have hs : ∀ w ∈ (k.wst.vals.map word ++ str "." :: (k.rst.vals.map word ++ [str "->", str ")"])), Solid w := by
    have fixed : Solid (str ".") ∧ Solid (str "->") ∧ Solid (str ")") := by
      refine ⟨⟨by decide, ?_, by decide, by decide⟩, ⟨by decide, ?_, by decide, by decide⟩, ⟨by decide, ?_, by decide, by decide⟩⟩ <;>
        (unfold Asm.Spec.IsSep; decide)
    intro w hw
    rcases List.mem_append.1 hw with hw | hw
    · obtain ⟨v, hv, rfl⟩ := List.mem_map.1 hw
      exact writable_solid v (h.wst.2 v hv)
    rcases List.mem_cons.1 hw with rfl | hw
    · exact fixed.1
    rcases List.mem_append.1 hw with hw | hw
    · obtain ⟨v, hv, rfl⟩ := List.mem_map.1 hw
      exact writable_solid v (h.rst.2 v hv)
    rcases List.mem_cons.1 hw with rfl | hw
    · exact fixed.2.1
    · rw [List.mem_singleton.1 hw]; exact fixed.2.2
  generalize hws : (k.wst.vals.map word ++ str "." :: (k.rst.vals.map word ++ [str "->", str ")"])) = ws at e hs
  obtain ⟨ts, h1, h2⟩ := tokens_words ws hs ([] ++ [] ++ str "(")
  rw [e]
  have key := Asm.Spec.Tokens.word (pre := []) (seps := []) (w := str "(") (fun c hc => by cases hc) (by decide) (by unfold Asm.Spec.IsSep; decide)
      (fun c hc => by
        cases ws with
        | nil => cases hc
        | cons x xs => cases hc; unfold Asm.Spec.IsSep; decide)
      (fun hq => absurd hq.1 (by decide)) (by decide) h1
  exact ⟨_, key, by rw [List.map_cons, h2]⟩

/-- **C71**, what the checker learns. Stacks that fit are known to the checker of the next line: the routine has a signature whose
inputs are the values of both stacks, in order, with their sizes and whether they are addresses; it need not end with anything
on the stacks. -/
theorem C71_signature (k : Known) (h : Fits k) (r : Chess.Reader) (a : Short) (l o c : Asm.SymInfo) (ts : List Asm.SymInfo)
    (hc : Chess.Comment l o c ts) (hl : r.label a = none ∨ r.label a = some none)
    (hts : ts.map (fun i => i.name.getD []) = k.wst.vals.map word ++ str "." :: (k.rst.vals.map word ++ [str "->"])) :
    ∃ s : Chess.Sig, ((Chess.labelled a l o c ts).foldl (fun r e => Chess.handleSymbol e.1 e.2 r) r).label a = some (some s) ∧
      s.kind = .vector ∧ s.wstOut = [] ∧ s.rstOut = [] ∧
      s.wstIn.map (fun v => (v.short, v.address)) = k.wst.vals.map (fun v => (v.short, v.address)) ∧
      s.rstIn.map (fun v => (v.short, v.address)) = k.rst.vals.map (fun v => (v.short, v.address)) := by
  have h1 := (Chess.C56_labelled r a l o c ts hc hl (signature k) (signature_proper k h) (by rw [hts, signature_words])).1
  refine ⟨_, h1, rfl, rfl, rfl, ?_, ?_⟩
  · show ((k.wst.vals.map word).map Chess.parseValue).map _ = _
    rw [List.map_map, List.map_map]
    apply List.map_congr_left
    intro v hv
    have := Chess.C56_value ⟨v.name, v.address, v.short⟩ (h.wst.2 v hv).proper
    show ((Chess.parseValue (word v)).short, _) = _
    unfold word
    rw [this]
  · show ((k.rst.vals.map word).map Chess.parseValue).map _ = _
    rw [List.map_map, List.map_map]
    apply List.map_congr_left
    intro v hv
    have := Chess.C56_value ⟨v.name, v.address, v.short⟩ (h.rst.2 v hv).proper
    show ((Chess.parseValue (word v)).short, _) = _
    unfold word
    rw [this]

/-- **C71**, violated: a value whose word has more than 47 characters makes the assembler refuse the frame of every line that
follows, whatever is typed. -/
theorem C71_long_name_violated (v : Val) (rest : List Val) (rst : Sym) (hs : ∀ c ∈ v.name, ¬ Asm.Spec.IsSep c) (hn : 47 < v.name.length)
    (ha : v.address = false) (h2 : v.name.length < 200) (hr : rest = []) :
    ∃ ts, Asm.Spec.Tokens [] (sigText ⟨⟨v :: rest, 1⟩, rst⟩) ts false := by
  subst hr
  obtain ⟨n, s, a⟩ := v
  cases ha
  have e1 : formatValue ⟨n, s, false⟩ = Asm.Spec.SPACE :: (n ++ if s then str "*" else []) := by
    have e : (str " " ++ (if false = true then str "[" else []) ++ n ++ (if false = true then str "]" else []) ++ (if s then str "*" else [])) =
        Asm.Spec.SPACE :: (n ++ if s then str "*" else []) := by
      cases s <;> simp [str, ch, Asm.Spec.SPACE]
    unfold formatValue
    dsimp only at h2 ⊢
    rw [e, cut_eq]
    cases s <;> simp [str] <;> omega
  have e2 : formatStack [⟨n, s, false⟩] = Asm.Spec.SPACE :: (n ++ if s then str "*" else []) := by
    unfold formatStack
    show cut (formatValue ⟨n, s, false⟩ ++ [] ++ []) = _
    rw [List.append_nil, List.append_nil, e1, cut_eq]
    dsimp only at h2
    cases s <;> simp [str] <;> omega
  have e3 : sigText ⟨⟨[⟨n, s, false⟩], 1⟩, rst⟩ = ([] ++ str "(") ++ ([Asm.Spec.SPACE] ++ n ++ ((if s then str "*" else []) ++ str " ." ++ formatStack rst.vals ++ str " -> )")) := by
    unfold sigText
    rw [e2]
    simp
  rw [e3]
  refine ⟨_, .word (seps := []) (w := str "(") (fun c hc => by cases hc) (by decide) (by unfold Asm.Spec.IsSep; decide) (fun c hc => ?_)
    (fun hq => absurd hq.1 (by decide)) (by decide) (.longWord ?_ hs hn)⟩
  · cases hc; unfold Asm.Spec.IsSep; decide
  · intro c hc; rw [List.mem_singleton.1 hc]; unfold Asm.Spec.IsSep; decide

/-- **C71**, violated: with nine values on the stack, the signature is not one, and the checker takes both stacks for empty. -/
theorem C71_ninth_value_violated :
    let k : Known := ⟨⟨List.replicate 9 ⟨str "a", false, false⟩, 9⟩, {}⟩
    sigText k = str "( a a a a a a a a ... . -> )" ∧
    (let r : Chess.Reader := { Chess.Reader.begin with handler := some .signature, label := fun _ => some none }
     (Chess.readBody (List.replicate 8 (str "a") ++ [str "...", str ".", str "->"]) r).label r.curAddr = some none) := by
  decide +kernel

/-! ## The stacks -/

theorem printValues_eq (width : Str → Nat) (stk : Byte → Byte) (p : Byte) (l : List Val) (off : Byte)
    (h : off.toNat + (l.map size).sum = p.toNat) :
    printValues width stk l off = .ok (row width (cells l ((bytesOf stk p).drop off.toNat))) := by
  induction l generalizing off with
  | nil => rfl
  | cons v l ih =>
    have hp := p.isLt
    have hsum : (((v :: l).map size).sum) = size v + (l.map size).sum := by simp
    rw [hsum] at h
    have hbyte : ∀ k, off.toNat + k < p.toNat → (bytesOf stk p)[off.toNat + k]? = some (stk (BitVec.ofNat 8 (off.toNat + k))) := by
      intro k hk
      unfold bytesOf
      rw [List.getElem?_map, List.getElem?_range hk]
      rfl
    have hoff : BitVec.ofNat 8 (off.toNat + 0) = off := by
      apply BitVec.eq_of_toNat_eq; simp
    unfold printValues
    show _ = Except.ok (row width ((v, ((bytesOf stk p).drop off.toNat).take (size v)) :: cells l (((bytesOf stk p).drop off.toNat).drop (size v))))
    cases hv : v.short with
    | true =>
      have hs : size v = 2 := by unfold size; rw [hv]; rfl
      rw [hs] at h ⊢
      have hne : off ≠ 255 := by
        intro e
        have : off.toNat = 255 := by rw [e]; rfl
        omega
      have ho : (off + 2).toNat = off.toNat + 2 := by
        rw [BitVec.toNat_add]; exact Nat.mod_eq_of_lt (show off.toNat + 2 < 256 by omega)
      rw [if_pos rfl, if_neg hne, ih (off + 2) (by omega), ho, List.drop_drop]
      have ht : ((bytesOf stk p).drop off.toNat).take 2 = [stk off, stk (off + 1)] := by
        apply List.ext_getElem?
        intro i
        rw [List.getElem?_take]
        match i with
        | 0 => rw [if_pos (by omega), List.getElem?_drop, hbyte 0 (by omega), hoff]; rfl
        | 1 =>
          rw [if_pos (by omega), List.getElem?_drop, hbyte 1 (by omega)]
          have : BitVec.ofNat 8 (off.toNat + 1) = off + 1 := by
            apply BitVec.eq_of_toNat_eq; simp
          rw [this]; rfl
        | i + 2 => rw [if_neg (by omega)]; rfl
      rw [ht]
      rfl
    | false =>
      have hs : size v = 1 := by unfold size; rw [hv]; rfl
      rw [hs] at h ⊢
      have ho : (off + 1).toNat = off.toNat + 1 := by
        rw [BitVec.toNat_add]; exact Nat.mod_eq_of_lt (show off.toNat + 1 < 256 by omega)
      rw [if_neg (by simp), ih (off + 1) (by omega), ho, List.drop_drop]
      have ht : ((bytesOf stk p).drop off.toNat).take 1 = [stk off] := by
        apply List.ext_getElem?
        intro i
        rw [List.getElem?_take]
        match i with
        | 0 => rw [if_pos (by omega), List.getElem?_drop, hbyte 0 (by omega), hoff]; rfl
        | i + 1 => rw [if_neg (by omega)]; rfl
      rw [ht]
      rfl

/-- **C71**, the table. If the checker's values take as many bytes as there are on the stack, a table is printed: the names, and
under each the bytes that belong to it, from the bottom of the stack to the top, none left out and none twice. Otherwise the
bytes are printed. -/
theorem C71_stack_shown (width : Str → Nat) (name : Str) (s : Sym) (hs : Sums s) (stk : Byte → Byte) (p : Byte) :
    (p.toNat = s.size →
      printStack width name s stk p = .ok (name ++ str ":" ++ heading s.vals ++ str "|\n" ++ List.replicate name.length (ch ' ') ++ str " " ++
        row width (cells s.vals (bytesOf stk p)) ++ str "|\n") ∧
      ((cells s.vals (bytesOf stk p)).map (·.1) = s.vals ∧ (cells s.vals (bytesOf stk p)).flatMap (·.2) = bytesOf stk p ∧
        ∀ c ∈ cells s.vals (bytesOf stk p), c.2.length = size c.1)) ∧
    (p.toNat ≠ s.size → printStack width name s stk p =
      .ok (name ++ str ":" ++ (bytesOf stk p).flatMap (fun b => str " " ++ [hexUpper (b.toNat / 16), hexUpper (b.toNat % 16)]) ++ str "\n")) := by
  constructor
  · intro hp
    constructor
    · unfold printStack
      rw [if_pos hp, printValues_eq width stk p s.vals 0 (by rw [hp, hs.1]; exact Nat.zero_add _)]
      simp only [pad, Except.map, List.length_nil, Nat.sub_zero, List.append_nil]
      rfl
    · have hl : (bytesOf stk p).length = (s.vals.map size).sum := by
        unfold bytesOf; rw [List.length_map, List.length_range, hp, hs.1]
      generalize bytesOf stk p = bs at hl
      clear hp hs
      generalize s.vals = l at hl
      induction l generalizing bs with
      | nil =>
        have : bs = [] := List.length_eq_zero_iff.1 hl
        subst this
        exact ⟨rfl, rfl, fun c hc => by cases hc⟩
      | cons v l ih =>
        have hsum : (((v :: l).map size).sum) = size v + (l.map size).sum := by simp
        rw [hsum] at hl
        obtain ⟨i1, i2, i3⟩ := ih (bs.drop (size v)) (by rw [List.length_drop]; omega)
        refine ⟨?_, ?_, ?_⟩
        · show v :: _ = _; rw [i1]
        · show bs.take (size v) ++ (cells l (bs.drop (size v))).flatMap (·.2) = bs
          rw [i2, List.take_append_drop]
        · intro c hc
          rcases List.mem_cons.1 hc with rfl | hc
          · show (bs.take (size v)).length = size v
            rw [List.length_take]; omega
          · exact i3 c hc
  · intro hp
    unfold printStack
    rw [if_neg hp]
    unfold bytesOf
    rw [List.flatMap_map]

/-! ## The loop -/

/-- The devices keep their invariant. -/
def Inv (m : Nat) (d : Data τ) : Prop := Cli.Inv m d.base

theorem system_deo (a : Byte) (vm : VM) (d : Data τ) (hs : 65536 + 7 ≤ vm.memSize ∧ vm.memSize + 65536 ≤ 2 ^ 32) :
    ∃ vm' d', System.deo callbacks a vm d = .ok (vm', d') ∧ vm'.memSize = vm.memSize ∧ d'.base = d.base := by
  by_cases h3 : a = 0x03
  · subst h3
    obtain ⟨vm', h1, h2⟩ := System.C11_in_bounds callbacks vm d hs.1 hs.2
    exact ⟨vm', d, h1, h2, rfl⟩
  unfold System.deo
  rw [if_neg h3]
  split
  · exact ⟨_, _, rfl, rfl, rfl⟩
  split
  · exact ⟨_, _, rfl, rfl, rfl⟩
  split
  · exact ⟨_, _, rfl, rfl, rfl⟩
  split
  · exact ⟨_, _, rfl, rfl, rfl⟩
  split
  · split
    · refine ⟨_, _, rfl, rfl, ?_⟩
      split <;> rfl
    · exact ⟨_, _, rfl, rfl, rfl⟩
  · exact ⟨_, _, rfl, rfl, rfl⟩

theorem host_sound (F : File.Host τ) : Sound Inv (fun _ => True) (host F) where
  dei a vm d hi := by
    obtain ⟨v, d', e, h⟩ := Cli.dei_ok console a vm d.base hi
    have : (host F).dei a vm d = .ok (v, vm, { d with base := d' }) := by
      show dei a vm d = _
      unfold dei
      rw [e]
      rfl
    rw [this]
    exact ⟨rfl, h⟩
  deo a vm d hi := by
    by_cases h0 : Cli.deviceId a = 0
    · obtain ⟨vm', d', e, h1, h2⟩ := system_deo a vm d hi.size
      have : (host F).deo a vm d = .ok (vm', d') := by
        show deo F a vm d = _
        unfold deo
        rw [if_pos h0, e]
      rw [this]
      exact ⟨h1, by unfold Inv; rw [h2]; exact hi⟩
    · obtain ⟨vm', d', e, h1, h2⟩ := Cli.deo_ok F (Cli.respects_free F) console a vm d.base hi
      have : (host F).deo a vm d = .ok (vm', { d with base := d' }) := by
        show deo F a vm d = _
        unfold deo
        rw [if_neg h0, e]
        rfl
      rw [this]
      exact ⟨h1, h2⟩

/-- The program between two lines, and what it knows is consistent. -/
structure Well (E : Cli.Env) (s : State τ) : Prop where
  size : s.vm.memSize = 16 * 65536
  inv : Cli.Inv (16 * 65536) s.data.base
  stop : ∀ u, s.stop = some (.fault u) → u = .signedOverflow ∧ E.cfg.wrapv = false
  sums : Sums s.known.wst ∧ Sums s.known.rst

/-- The names of the stacks are from the last line. -/
def Fresh (s : State τ) : Prop := s.known.any = true → s.home = s.arena ∧ s.born = s.resets s.arena

theorem put_spec (rom : List (Short × Byte)) (vm : VM) :
    (put rom vm).memSize = vm.memSize ∧ (put rom vm).ws = vm.ws ∧ (put rom vm).rs = vm.rs ∧ (put rom vm).wsp = vm.wsp ∧
    (put rom vm).rsp = vm.rsp ∧ (put rom vm).device = vm.device ∧
    ∀ i, (∀ p ∈ rom, i ≠ p.1.toNat) → (put rom vm).memory i = vm.memory i := by
  induction rom generalizing vm with
  | nil => exact ⟨rfl, rfl, rfl, rfl, rfl, rfl, fun _ _ => rfl⟩
  | cons p rom ih =>
    obtain ⟨h1, h2, h3, h4, h5, h6, h7⟩ := ih { vm with memory := upd vm.memory p.1.toNat p.2 }
    refine ⟨h1, h2, h3, h4, h5, h6, fun i hi => ?_⟩
    have := h7 i (fun q hq => hi q (by simp [hq]))
    rw [show (put (p :: rom) vm).memory i = upd vm.memory p.1.toNat p.2 i from this, upd_other _ _ (hi p (by simp))]

theorem hear_spec (told : List Known) (s : State τ) :
    hear told s = { s with
      known := told.getLastD s.known
      home := if told = [] then s.home else s.arena
      born := if told = [] then s.born else s.resets s.arena } := by
  induction told generalizing s with
  | nil => rfl
  | cons k told ih =>
    show hear told { s with known := k, home := s.arena, born := s.resets s.arena } = _
    rw [ih]
    cases told with
    | nil => rfl
    | cons j told => rfl

/-- `turn`, from the point where the line has been read. -/
theorem turn_eq (E : Cli.Env) (F : File.Host τ) (width : Str → Nat) (W : Str → VM → Outcome) (s : State τ) (hf : Fresh s) :
    let o := W (sigText s.known) s.vm
    let s1 := { s with
      turns := s.turns + 1, arena := !s.arena, resets := upd s.resets (!s.arena) (s.resets (!s.arena) + 1)
      vm := put o.rom s.vm, terminated := o.ended }
    turn E F width W s = if o.ok && o.line then (if o.errors = 0 then run E F width (hear o.told s1) else .ok (hear o.told s1)) else .ok s1 := by
  intro o s1
  have h : ¬ (s.known.any = true ∧ s.born ≠ upd s.resets (!s.arena) (s.resets (!s.arena) + 1) s.home) := by
    rintro ⟨h1, h2⟩
    obtain ⟨h3, h4⟩ := hf h1
    apply h2
    rw [h3, upd_other _ _ (by cases s.arena <;> decide), h4]
  unfold turn
  dsimp only
  rw [if_neg h]

theorem reset_soft (vm : VM) (hm : 0x100 ≤ vm.memSize) : ∃ vm', VM.reset vm RESET_SOFT = .ok vm' ∧ vm'.memSize = vm.memSize ∧ vm'.wsp = 0 ∧ vm'.rsp = 0 ∧
    vm'.device = vm.device ∧ ∀ i, vm'.memory i = if 0x100 ≤ i ∧ i < vm.memSize then 0 else vm.memory i := by
  obtain ⟨vm', h1, h2, h3, h4, h5, h6, h7, h8⟩ := VM.C08_reset_exact vm RESET_SOFT hm
  refine ⟨vm', h1, h2, h7.trans rfl, h8.trans rfl, funext fun i => (h4 i).trans rfl, fun i => ?_⟩
  rw [h3 i]
  have e1 : RESET_SOFT.getLsbD 1 = false := by decide
  have e2 : RESET_SOFT.getLsbD 2 = true := by decide
  rw [e1, e2]
  simp only [Bool.false_eq_true, false_and, false_or, true_and]

theorem printStack_ok (width : Str → Nat) (name : Str) (s : Sym) (hs : Sums s) (stk : Byte → Byte) (p : Byte) :
    ∃ t, printStack width name s stk p = .ok t := by
  by_cases h : p.toNat = s.size
  · exact ⟨_, ((C71_stack_shown width name s hs stk p).1 h).1⟩
  · exact ⟨_, (C71_stack_shown width name s hs stk p).2 h⟩

theorem after_well (E : Cli.Env) (width : Str → Nat) (s : State τ) (h : Well E s) :
    ∃ s', after width s = .ok s' ∧ Well E s' ∧ (Fresh s → Fresh s') := by
  unfold after
  split
  · obtain ⟨vm', h1, h2, -⟩ := reset_soft s.vm (by rw [h.size]; decide)
    rw [h1]
    refine ⟨_, rfl, ⟨h2.trans h.size, h.inv, h.stop, ⟨rfl, Nat.zero_le _⟩, ⟨rfl, Nat.zero_le _⟩⟩, fun _ hx => by cases hx⟩
  · obtain ⟨t, ht⟩ := printStack_ok width (str "WST") s.known.wst h.sums.1 s.vm.ws s.vm.wsp
    obtain ⟨u, hu⟩ := printStack_ok width (str "RST") s.known.rst h.sums.2 s.vm.rs s.vm.rsp
    rw [ht]
    simp only [bind, Except.bind, pure, Except.pure]
    rw [hu]
    exact ⟨_, rfl, ⟨h.size, h.inv, h.stop, h.sums⟩, id⟩

theorem run_well (E : Cli.Env) (F : File.Host τ) (width : Str → Nat) (s : State τ) (h : Well E s) :
    ∃ s', run E F width s = .ok s' ∧ Well E s' ∧ (Fresh s → Fresh s') := by
  have hf := execute_fine (cfg := E.cfg) (host_sound F) (E.locals s.turns) E.fuel s.vm s.data 0x100
    (by rw [h.size]; decide) (by rw [h.size]; exact h.inv)
  rw [h.size] at hf
  unfold run
  cases hx : execute E.cfg (host F) none (E.locals s.turns) E.fuel s.vm s.data 0x100 with
  | halted vm d =>
    rw [hx] at hf
    exact after_well E width { s with vm := vm, data := d } ⟨hf.1, hf.2, h.stop, h.sums⟩
  | undefined u =>
    rw [hx] at hf
    refine ⟨_, rfl, ⟨h.size, h.inv, ?_, h.sums⟩, id⟩
    intro u' e
    cases e
    exact hf trivial
  | running c =>
    rw [hx] at hf
    exact ⟨_, rfl, ⟨hf.1, hf.2, fun u e => (by cases e), h.sums⟩, id⟩

/-- What the checker says about the stacks is consistent (C45). -/
def Consistent (W : Str → VM → Outcome) : Prop := ∀ t vm, ∀ k ∈ (W t vm).told, Sums k.wst ∧ Sums k.rst

theorem hear_well (E : Cli.Env) (told : List Known) (ht : ∀ k ∈ told, Sums k.wst ∧ Sums k.rst) (s : State τ) (h : Well E s) :
    Well E (hear told s) ∧ (told ≠ [] → Fresh (hear told s)) := by
  rw [hear_spec]
  refine ⟨⟨h.size, h.inv, h.stop, ?_⟩, fun hne _ => ⟨if_neg hne, if_neg hne⟩⟩
  dsimp only
  rcases List.eq_nil_or_concat told with rfl | ⟨l, k, rfl⟩
  · exact h.sums
  · rw [List.concat_eq_append] at ht ⊢
    rw [List.getLastD_concat]
    exact ht k (by simp)

/-- One line: it is safe if the names on the stacks are those of the line before. -/
theorem turn_well (E : Cli.Env) (F : File.Host τ) (width : Str → Nat) (W : Str → VM → Outcome) (s : State τ) (h : Well E s) (hf : Fresh s)
    (hw : Consistent W) :
    ∃ s', turn E F width W s = .ok s' ∧ Well E s' ∧
      (((W (sigText s.known) s.vm).ok && (W (sigText s.known) s.vm).line) = true ∧ (W (sigText s.known) s.vm).told ≠ [] → Fresh s') := by
  rw [turn_eq E F width W s hf]
  have hc := hw (sigText s.known) s.vm
  generalize W (sigText s.known) s.vm = o at hc
  have h1 : Well E { s with
      turns := s.turns + 1, arena := !s.arena, resets := upd s.resets (!s.arena) (s.resets (!s.arena) + 1)
      vm := put o.rom s.vm, terminated := o.ended } := ⟨(put_spec o.rom s.vm).1.trans h.size, h.inv, h.stop, h.sums⟩
  generalize ({ s with
      turns := s.turns + 1, arena := !s.arena, resets := upd s.resets (!s.arena) (s.resets (!s.arena) + 1)
      vm := put o.rom s.vm, terminated := o.ended } : State τ) = s1 at h1
  obtain ⟨h2, h3⟩ := hear_well E o.told hc s1 h1
  split
  · split
    · obtain ⟨s', e, r1, r2⟩ := run_well E F width _ h2
      exact ⟨s', e, r1, fun hx => r2 (h3 hx.2)⟩
    · exact ⟨_, rfl, h2, fun hx => h3 hx.2⟩
  · rename_i hno
    exact ⟨_, rfl, h1, fun hx => absurd hx.1 hno⟩

theorem start_well (E : Cli.Env) (vm : VM) (fs : τ) (clock : Datetime.Clock) (hc : Cli.Spec.Sane clock) (hm : vm.memSize = 16 * 65536) :
    Well E (start vm fs clock) ∧ Fresh (start vm fs clock) :=
  ⟨⟨hm, (Cli.start_well E fs trivial clock hc vm console hm).inv, fun u e => (by cases e), ⟨rfl, Nat.zero_le _⟩, ⟨rfl, Nat.zero_le _⟩⟩,
    fun hx => by cases hx⟩

/-- A line that the checker follows to its end, whatever is on the stacks. -/
def Checked (W : Str → VM → Outcome) : Prop := ∀ t vm, (W t vm).ok = true ∧ (W t vm).line = true ∧ (W t vm).told ≠ []

/-- **C71**, safety. A session in which every line is assembled and followed to its end by the checker never runs into undefined
behaviour, in the machine, its devices or the printing of the stacks (but for `MUL2`, see C01); whatever the lines do, whatever
the file system and the clock. Partial: a line that is empty or not accepted leaves names behind whose memory is reused
(`C71_empty_lines_violated`). -/
theorem C71_safe_partial (E : Cli.Env) (F : File.Host τ) (width : Str → Nat) (vm : VM) (fs : τ) (clock : Datetime.Clock)
    (hc : Cli.Spec.Sane clock) (hm : vm.memSize = 16 * 65536) (Ws : List (Str → VM → Outcome)) (hw : ∀ W ∈ Ws, Consistent W ∧ Checked W) :
    ∃ s, session E F width Ws (start vm fs clock) = .ok s ∧ Well E s := by
  obtain ⟨h1, h2⟩ := start_well E vm fs clock hc hm
  generalize start vm fs clock = s at h1 h2
  induction Ws generalizing s with
  | nil => exact ⟨s, rfl, h1⟩
  | cons W Ws ih =>
    unfold session
    split
    · exact ⟨s, rfl, h1⟩
    · obtain ⟨s', e, r1, r2⟩ := turn_well E F width W s h1 h2 (hw W (by simp)).1
      rw [e]
      obtain ⟨c1, c2, c3⟩ := (hw W (by simp)).2 (sigText s.known) s.vm
      exact ih (fun V hV => hw V (by simp [hV])) s' r1 (r2 ⟨by rw [c1, c2]; rfl, c3⟩)

/-- **C71**, refused lines. A line that is empty, not assembled or not accepted runs nothing: the stacks, the devices and what has
been printed stay as they are, and in memory only what the assembler has written is changed. -/
theorem C71_refused (E : Cli.Env) (F : File.Host τ) (width : Str → Nat) (W : Str → VM → Outcome) (s : State τ) (hf : Fresh s) :
    let o := W (sigText s.known) s.vm
    ¬ (o.ok = true ∧ o.line = true ∧ o.errors = 0) →
    ∃ s', turn E F width W s = .ok s' ∧ s'.data = s.data ∧ s'.out = s.out ∧ s'.stop = s.stop ∧ s'.vm.ws = s.vm.ws ∧ s'.vm.rs = s.vm.rs ∧
      s'.vm.wsp = s.vm.wsp ∧ s'.vm.rsp = s.vm.rsp ∧ s'.vm.device = s.vm.device ∧
      ∀ i, (∀ p ∈ o.rom, i ≠ p.1.toNat) → s'.vm.memory i = s.vm.memory i := by
  intro o hno
  rw [turn_eq E F width W s hf]
  show ∃ s', (if o.ok && o.line then (if o.errors = 0 then run E F width (hear o.told _) else Except.ok (hear o.told _)) else Except.ok _) = _ ∧ _
  obtain ⟨p1, p2, p3, p4, p5, p6, p7⟩ := put_spec o.rom s.vm
  split
  · rename_i h1
    rw [Bool.and_eq_true] at h1
    rw [if_neg (fun h => hno ⟨h1.1, h1.2, h⟩)]
    refine ⟨_, rfl, ?_⟩
    rw [hear_spec]
    exact ⟨rfl, rfl, rfl, p2, p3, p4, p5, p6, p7⟩
  · exact ⟨_, rfl, rfl, rfl, rfl, p2, p3, p4, p5, p6, p7⟩

/-- **C71.** A program asks for a reset by writing ff to port 0e, and in no other way: any other output leaves the request as it was. -/
theorem C71_reset (F : File.Host τ) (a : Byte) (vm vm' : VM) (d d' : Data τ) (h : (host F).deo a vm d = .ok (vm', d')) :
    d'.needReset = (d.needReset || decide (a = 0x0e ∧ vm.device 0x0e = 0xff)) := by
  change deo F a vm d = _ at h
  unfold deo at h
  by_cases h0 : Cli.deviceId a = 0x00
  · rw [if_pos h0] at h
    unfold System.deo callbacks at h
    dsimp only at h
    by_cases ha : a = 0x0e
    · subst ha
      rw [if_neg (by decide), if_neg (by decide), if_neg (by decide), if_neg (by decide), if_neg (by decide), if_pos rfl] at h
      by_cases hv : vm.device 0x0e = 0xff
      · rw [if_pos (by rw [hv]; decide), if_pos hv] at h
        cases h
        rw [decide_eq_true ⟨rfl, hv⟩, Bool.or_true]
      · rw [if_neg hv] at h
        rw [decide_eq_false (fun h => hv h.2), Bool.or_false]
        split at h <;> cases h <;> rfl
    · have hq : decide (a = 0x0e ∧ vm.device 0x0e = 0xff) = false := decide_eq_false fun h => ha h.1
      rw [hq, Bool.or_false]
      rw [if_neg (c := a = 0x0e) ha] at h
      split at h
      · cases he : System.expansion vm with
        | error u => rw [he] at h; cases h
        | ok v => rw [he] at h; cases h; rfl
      repeat (first | (cases h; rfl) | split at h)
  · rw [if_neg h0] at h
    have ha : a ≠ 0x0e := by rintro rfl; exact h0 (by decide)
    have hq : decide (a = 0x0e ∧ vm.device 0x0e = 0xff) = false := decide_eq_false fun h => ha h.1
    rw [hq, Bool.or_false]
    cases he : Cli.deo F console a vm d.base with
    | error u => rw [he] at h; cases h
    | ok r => rw [he] at h; cases h; rfl

/-- **C71**, accepted lines. A line that is accepted runs as the instruction set says, from the reset vector, on the stacks and the
memory that the lines before it have left, with the assembled bytes. If it ends, the stacks are shown, with the values that the
checker found last; or, if it asked for a reset (ff written to port 0e), both stacks are empty and the memory above the zero page is cleared. -/
theorem C71_accepted (E : Cli.Env) (F : File.Host τ) (width : Str → Nat) (W : Str → VM → Outcome) (s : State τ) (h : Well E s) (hf : Fresh s)
    (hw : Consistent W) :
    let o := W (sigText s.known) s.vm
    o.ok = true → o.line = true → o.errors = 0 →
    ∃ s', turn E F width W s = .ok s' ∧
      match Buxn.VM.Spec.run (Buxn.VM.Spec.cstep E.cfg (host F)) E.fuel { vm := put o.rom s.vm, host := s.data, pc := 0x100 } with
      | .halted vm d =>
        if d.needReset then s'.vm.wsp = 0 ∧ s'.vm.rsp = 0 ∧ s'.known = {} ∧ s'.data = ⟨d.base, false⟩ ∧ s'.vm.device = vm.device ∧ s'.out = s.out ∧
          (∀ i, s'.vm.memory i = if 0x100 ≤ i ∧ i < 16 * 65536 then 0 else vm.memory i)
        else s'.vm = vm ∧ s'.data = d ∧ s'.known = o.told.getLastD s.known ∧ ∃ w r, s'.out = s.out ++ [w, r] ∧
          printStack width (str "WST") s'.known.wst vm.ws vm.wsp = .ok w ∧ printStack width (str "RST") s'.known.rst vm.rs vm.rsp = .ok r
      | .undefined u => s'.stop = some (.fault u)
      | .running _ => s'.stop = some .unfinished := by
  intro o h1 h2 h3
  rw [turn_eq E F width W s hf]
  show ∃ s', (if o.ok && o.line then (if o.errors = 0 then run E F width (hear o.told _) else Except.ok (hear o.told _)) else Except.ok _) = _ ∧ _
  rw [if_pos (by rw [h1, h2]; rfl), if_pos h3]
  have hsz := (put_spec o.rom s.vm).1.trans h.size
  have hx := execute_is_uxn_sound (cfg := E.cfg) (host_sound F) (E.locals (s.turns + 1)) E.fuel (put o.rom s.vm) s.data
      0x100 (by decide) (by rw [hsz]; decide) (by rw [hsz]; exact h.inv)
  have hfine := execute_fine (cfg := E.cfg) (host_sound F) (E.locals (s.turns + 1)) E.fuel (put o.rom s.vm) s.data 0x100
    (by rw [hsz]; decide) (by rw [hsz]; exact h.inv)
  rw [hsz] at hfine
  have h0 : ((0x100 : Short)).toNat = 0x100 := rfl
  rw [h0] at hx
  rw [← hx, hear_spec]
  unfold run
  dsimp only
  have hsums : Sums (o.told.getLastD s.known).wst ∧ Sums (o.told.getLastD s.known).rst := by
    have hc : ∀ k ∈ o.told, Sums k.wst ∧ Sums k.rst := hw (sigText s.known) s.vm
    generalize o.told = told at hc
    rcases List.eq_nil_or_concat told with rfl | ⟨l, k, rfl⟩
    · exact h.sums
    · rw [List.concat_eq_append] at hc ⊢
      rw [List.getLastD_concat]
      exact hc k (by simp)
  cases hex : execute E.cfg (host F) none (E.locals (s.turns + 1)) E.fuel (put o.rom s.vm) s.data 0x100 with
  | halted vm d =>
    rw [hex] at hfine
    show ∃ s', after width _ = Except.ok s' ∧ (if d.needReset then _ else _)
    unfold after
    dsimp only
    cases hr : d.needReset with
    | true =>
      rw [if_pos rfl]
      obtain ⟨vm', r1, r2, r3, r4, r5, r6⟩ := reset_soft vm (by rw [hfine.1]; decide)
      rw [r1]
      refine ⟨_, rfl, ?_⟩
      rw [if_pos rfl]
      exact ⟨r3, r4, rfl, rfl, r5, rfl, fun i => by rw [← hfine.1]; exact r6 i⟩
    | false =>
      rw [if_neg (by simp)]
      obtain ⟨w, hw1⟩ := printStack_ok width (str "WST") _ hsums.1 vm.ws vm.wsp
      obtain ⟨r, hr1⟩ := printStack_ok width (str "RST") _ hsums.2 vm.rs vm.rsp
      rw [hw1]
      simp only [bind, Except.bind, pure, Except.pure]
      rw [hr1]
      refine ⟨_, rfl, ?_⟩
      rw [if_neg (by simp)]
      exact ⟨rfl, rfl, rfl, w, r, rfl, hw1, hr1⟩
  | undefined u => exact ⟨_, rfl, rfl⟩
  | running c => exact ⟨_, rfl, rfl⟩

/-- An empty line. -/
def emptyLine : Str → VM → Outcome := fun _ _ => ⟨[], [], true, false, 0, false⟩

/-- **C71**, violated: after a line that leaves a value on a stack, two empty lines (or refused ones) are enough to have the
signature made of names whose memory has been given back. -/
theorem C71_empty_lines_violated (E : Cli.Env) (F : File.Host τ) (width : Str → Nat) (s : State τ) (hf : Fresh s) (hk : s.known.any = true)
    (h1 : s.stop = none) (h2 : s.terminated = false) : session E F width [emptyLine, emptyLine] s = .error .oob := by
  have e1 := turn_eq E F width emptyLine s hf
  obtain ⟨f1, f2⟩ := hf hk
  unfold session
  rw [if_neg (by rw [h1, h2]; simp), e1]
  simp only [emptyLine, Bool.and_false, Bool.false_eq_true, if_false]
  show (session E F width [emptyLine] _) = _
  unfold session
  dsimp only
  rw [if_neg (by rw [h1]; simp)]
  show ((turn E F width emptyLine _) >>= _) = _
  have : ∀ s' : State τ, s'.known = s.known → s'.arena = (!s.arena) → s'.home = s.home → s'.born = s.born →
      s'.resets = upd s.resets (!s.arena) (s.resets (!s.arena) + 1) → turn E F width emptyLine s' = .error .oob := by
    intro s' g1 g2 g3 g4 g5
    unfold turn
    dsimp only
    rw [g1, g2, g3, g4, g5, if_pos]
    refine ⟨hk, ?_⟩
    rw [f1, f2, Bool.not_not, upd_same, upd_other _ _ (by cases s.arena <;> decide)]
    omega
  rw [this]
  · rfl
  all_goals rfl

/-! ## Concrete cases -/

/-- A byte called `n`, and above it the address of something called `at`; on the return stack a short. -/
def exampleKnown : Known := ⟨⟨[⟨str "n", false, false⟩, ⟨str "at", true, true⟩], 3⟩, ⟨[⟨str "ret", true, false⟩], 2⟩⟩

example : sigText exampleKnown = str "( n [at]* . ret* -> )" := by decide +kernel

/-- It meets the hypotheses of `C71_signature`, `C71_signature_words` and `C71_stack_shown`. -/
theorem exampleKnown_fits : Fits exampleKnown ∧ Sums exampleKnown.wst ∧ Sums exampleKnown.rst := by
  have hw : ∀ v ∈ exampleKnown.wst.vals ++ exampleKnown.rst.vals, Writable v := by
    intro v hv
    have : v = ⟨str "n", false, false⟩ ∨ v = ⟨str "at", true, true⟩ ∨ v = ⟨str "ret", true, false⟩ := by
      simpa [exampleKnown] using hv
    rcases this with rfl | rfl | rfl
    all_goals exact ⟨by constructor <;> decide, by unfold Asm.Spec.IsSep; decide, by decide, by decide⟩
  exact ⟨⟨⟨by decide, fun v hv => hw v (List.mem_append_left _ hv)⟩, ⟨by decide, fun v hv => hw v (List.mem_append_right _ hv)⟩,
    ⟨by decide, by decide⟩, by unfold Chess.InBuffer; decide⟩, ⟨by decide, by decide⟩, ⟨by decide, by decide⟩⟩

/-- A line that pushes these, followed to its end by the checker: it meets the hypotheses of `C71_safe_partial`, and those of
`C71_accepted` on the first line. -/
def exampleLine : Str → VM → Outcome := fun _ _ => ⟨[(0x100, 0x80), (0x101, 0x07)], [exampleKnown], true, true, 0, false⟩

example : Consistent exampleLine ∧ Checked exampleLine :=
  ⟨fun _ _ k hk => by
    have : k = exampleKnown := by simpa [exampleLine] using hk
    rw [this]; exact exampleKnown_fits.2,
   fun _ _ => ⟨rfl, rfl, List.cons_ne_nil _ _⟩⟩

/-- And the state after it those of `C71_empty_lines_violated`. -/
example (s : State τ) (hs : s.stop = none) :
    let s' := hear [exampleKnown] { s with terminated := false }
    Fresh s' ∧ s'.known.any = true ∧ s'.stop = none ∧ s'.terminated = false :=
  ⟨fun _ => ⟨rfl, rfl⟩, rfl, hs, rfl⟩

end Buxn.Repl
