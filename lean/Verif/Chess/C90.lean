import Verif.Chess.NamesReading
import Verif.Chess.Notation
/-!
# C90: names and positions do not matter to the type checker

Labels, the values in annotations and the types can be given other names, prose can be rewritten and everything can be moved: the checker says the
same about the program, as long as the names of types are the beginning of the same names as before.
-/
namespace Buxn.Chess.Names
open Buxn.Asm (Str SymType SymInfo Region Pos ch str)

/-! ## Specification -/

/-- The symbols among the things the assembler reports. -/
def symbolsOf (events : List Asm.Event) : List (Short × SymInfo) := events.filterMap fun
  | .sym a i => some (a, i)
  | _ => none

/-- All that is told to the user, whether the program is accepted, and whether the checker itself stayed within bounds. -/
def verdict (c : Run) : List Event × Bool × Bool × Bool × Bool × Bool := (c.log, c.success, c.oob, c.mulOverflow, c.lowRom, c.wrapped)

/-! ## Proof -/

variable {N : Naming} {M : Moving}

theorem readAll_eq (events : List Asm.Event) : readAll events = readSymbols (symbolsOf events) Reader.begin := by
  unfold readAll readSymbols symbolsOf
  generalize Reader.begin = r
  induction events generalizing r with
  | nil => rfl
  | cons e events ih =>
    cases e with
    | sym a i => exact ih _
    | rom a v p => exact ih _
    | error m g => exact ih _
    | warning m g => exact ih _
    | ref a n k => exact ih _
    | fopen f => exact ih _
    | fclose => exact ih _

theorem RR.begin : RR N M Reader.begin Reader.begin :=
  .mk Reader.begin {} {} [] 0 (fun _ => none) none (fun _ => none) (fun _ => none) [] .none ⟨.nil, .nil⟩ .nil (fun _ => .no) .no (fun _ => .no) (fun _ => .no) .nil

theorem RR.finish {r r' : Reader} (h : RR N M r r') : RR N M r.finish r'.finish := by
  have h1 := h.ensure 0x0100
  unfold Reader.finish
  dsimp only
  generalize r.ensure 0x0100 = d at h1 ⊢
  generalize r'.ensure 0x0100 = d' at h1 ⊢
  have hl := h1.label 0x0100
  have h2 := (h1.setLabel1 (upd_R h1.label 0x0100 (.yes (.yes SigR.none)))).mark 0x0100 SigR.none
  generalize d.label 0x0100 = x at hl ⊢
  generalize d'.label 0x0100 = x' at hl ⊢
  cases hl with
  | no => exact h1
  | yes hl =>
    cases hl with
    | no => exact h2
    | yes hl => exact h1

theorem RR.program {r r' : Reader} (h : RR N M r r') (rom : Short → Byte) : ProgR N (r.program rom) (r'.program rom) :=
  ⟨rfl, h.keys, h.sym, h.label, h.casts⟩

theorem RR.run {r r' : Reader} (h : RR N M r r') : Rel N r.run r'.run := by
  cases h with
  | mk sig cast tokens used sym last label casts queue h1 h2 h3 h4 h5 h6 h7 h8 =>
    exact .mk r.run queue ⟨fun _ => {}, [], 0, []⟩ Stack.empty Stack.empty Stack.empty Stack.empty h8 (.mk ⟨fun _ => {}, [], 0, []⟩ _ fun _ => .same _ rfl) .empty .empty .empty .empty

theorem Rel.verdict {c c' : Run} (h : Rel N c c') : verdict c' = verdict c := by cases h; rfl

theorem check_R {events events' : List Asm.Event} (h : Alike N M (symbolsOf events) (symbolsOf events')) (rom : Short → Byte) (n : Nat) :
    OptR (Rel N) (check rom events n) (check rom events' n) := by
  have h1 : RR N M (readAll events) (readAll events') := by
    rw [readAll_eq, readAll_eq]
    exact RR.read h .begin rfl
  have h2 := h1.finish
  have hP := h2.program rom
  have h3 := h2.run.steps hP n
  have h4 := h3.advance hP
  have h5 := h3.checkTermination (readAll events).finish.keys
  unfold check
  dsimp only
  rw [h2.keys]
  generalize Chess.advance _ (Chess.steps ((readAll events).finish.program rom) n (readAll events).finish.run) = x at h4 ⊢
  generalize Chess.advance _ (Chess.steps ((readAll events').finish.program rom) n (readAll events').finish.run) = x' at h4 ⊢
  cases h4 with
  | no => exact .yes h5
  | yes _ => exact .no

/-- **C90.** Two programs that differ in names and positions get the same verdict, after the same number of steps. -/
theorem C90_same_verdict {events events' : List Asm.Event} (h : Alike N M (symbolsOf events) (symbolsOf events')) (rom : Short → Byte) (n : Nat) :
    (check rom events' n).map verdict = (check rom events n).map verdict := by
  have h1 := check_R h rom n
  generalize check rom events n = x at h1 ⊢
  generalize check rom events' n = x' at h1 ⊢
  cases h1 with
  | no => rfl
  | yes h => exact congrArg some h.verdict

/-- **C90.** The same complaints are made about their annotations, in the same order, and the same routines are verified. -/
theorem C90_same_reading {events events' : List Asm.Event} (h : Alike N M (symbolsOf events) (symbolsOf events')) :
    (readAll events').log = (readAll events).log ∧ (readAll events').marked = (readAll events).marked ∧ (readAll events').keys = (readAll events).keys := by
  have h1 : RR N M (readAll events) (readAll events') := by
    rw [readAll_eq, readAll_eq]
    exact RR.read h .begin rfl
  exact ⟨h1.log, h1.marked, h1.keys⟩

/-! ## Namings -/

/-- Any names will do when different types are called differently, no name of a type is the beginning of another name, and no label is called like a type. -/
def Naming.free (types : Str → Str → Prop) (labels : Str → Str → Prop)
    (one : ∀ w w' x x', types w w' → types x x' → (w = x ↔ w' = x'))
    (apart : ∀ w w' x x', types w w' → types x x' ∨ labels x x' → (w <+: x → types x x' ∧ w = x) ∧ (w' <+: x' → types x x' ∧ w' = x')) : Naming where
  type := types
  label := labels
  order w w' x x' hw hx := by
    have h := apart w w' x x' hw hx
    constructor
    · intro e
      obtain ⟨h1, h2⟩ := h.1 e
      rw [(one _ _ _ _ hw h1).1 h2]
      exact List.prefix_rfl
    · intro e
      obtain ⟨h1, h2⟩ := h.2 e
      rw [(one _ _ _ _ hw h1).2 h2]
      exact List.prefix_rfl

/-- Words that are not types can be replaced freely. -/
theorem Token.plain (v v' : ValueText) (hv : v.Proper) (hv' : v'.Proper) (hs : v'.short = v.short) (ha : v'.address = v.address)
    (hu : v.word.head?.any upper = false) (hu' : v'.word.head?.any upper = false) (hm : v.word ∉ marks) (hm' : v'.word ∉ marks) : Token N v.word v'.word := by
  refine .inr ⟨hm, hm', ?_⟩
  rw [C56_value v hv, C56_value v' hv', hu, hu', hs, ha]
  exact .mk { short := v.short, address := v.address, nominal := false, type := [] } [] (fun e => by cases e)

/-- Types can be replaced by their new names. -/
theorem Token.typed (v v' : ValueText) (hv : v.Proper) (hv' : v'.Proper) (hs : v'.short = v.short) (ha : v'.address = v.address)
    (hu : v.word.head?.any upper = true) (hu' : v'.word.head?.any upper = true) (hn : N.type v.name v'.name) (hm : v.word ∉ marks) (hm' : v'.word ∉ marks) : Token N v.word v'.word := by
  refine .inr ⟨hm, hm', ?_⟩
  rw [C56_value v hv, C56_value v' hv', hu, hu', hs, ha]
  exact .mk { short := v.short, address := v.address, nominal := true, type := v.name } v'.name (fun _ => hn)

/-! ## Cases -/

/-- A range of a file. -/
def range (b e : Nat) : Region := ⟨str "f", ⟨1, b, b⟩, ⟨1, e, e⟩⟩

def word (depth : Nat) (b : Nat) (w : String) : Short × SymInfo :=
  (0x100, { type := .comment, name := some (str w), region := range b (b + w.length), id := BitVec.ofNat 16 depth })

/-- `|100 @main ( x Color -- Col ) NIP JMP2r` with other names, from some byte on. -/
def program (start : Nat) (label x t u : String) : List Asm.Event :=
  [.sym 0x100 { type := .label, name := some (str label), region := range start (start + 20) },
   .sym 0x100 (word 0 (start + 60) "(").2, .sym 0x100 (word 1 (start + 62) x).2, .sym 0x100 (word 1 (start + 82) t).2, .sym 0x100 (word 1 (start + 102) "--").2,
   .sym 0x100 (word 1 (start + 105) u).2, .sym 0x100 (word 1 (start + 125) ")").2,
   .sym 0x100 { type := .opcode, name := some (str "NIP"), region := range (start + 127) (start + 130) },
   .sym 0x101 { type := .opcode, name := some (str "JMP2r"), region := range (start + 131) (start + 136) }]

def programRom (a : Short) : Byte := if a = 0x100 then 0x03 else if a = 0x101 then 0x6c else 0

def caseNaming : Naming where
  type w w' := (w = str "Color" ∧ w' = str "Shade") ∨ (w = str "Col" ∧ w' = str "Sh")
  label _ _ := False
  order w w' x x' hw hx := by
    rcases hx with hx | hx
    · rcases hw with ⟨rfl, rfl⟩ | ⟨rfl, rfl⟩ <;> rcases hx with ⟨rfl, rfl⟩ | ⟨rfl, rfl⟩ <;> decide
    · exact hx.elim

def caseMoving : Moving where
  place r r' := r'.file = r.file ∧ r'.start.byte = r.start.byte + 40 ∧ r'.stop.byte = r.stop.byte + 40
  apart r r' q q' h k := by
    unfold SamePlace
    rw [h.1, h.2.1, h.2.2, k.1, k.2.1, k.2.2]
    constructor <;> rintro ⟨h1, h2, h3⟩ <;> exact ⟨h1, by omega, by omega⟩

theorem case_alike : Alike caseNaming caseMoving (symbolsOf (program 0 "main" "x" "Color" "Col")) (symbolsOf (program 40 "start" "ignored" "Shade" "Sh")) := by
  refine .symbol ⟨rfl, by decide, rfl, nofun, ⟨rfl, rfl, rfl⟩⟩ ?_
  refine .comment (ws := [word 1 62 "x", word 1 82 "Color", word 1 102 "--", word 1 105 "Col"])
    (ws' := [word 1 102 "ignored", word 1 122 "Shade", word 1 142 "--", word 1 145 "Sh"]) rfl rfl rfl rfl (by decide) ?_ ?_ rfl rfl rfl rfl rfl rfl ?_
  · have hv : ∀ t : Str, parseValue t = { parseValue t with type := (parseValue t).type } := fun _ => rfl
    refine .cons ⟨⟨rfl, rfl⟩, rfl, by decide, fun _ => ⟨by decide, by decide⟩, fun _ => ?_⟩ (.cons ⟨⟨rfl, rfl⟩, rfl, by decide, fun _ => ⟨by decide, by decide⟩, fun _ => ?_⟩
      (.cons ⟨⟨rfl, rfl⟩, rfl, by decide, fun _ => ⟨by decide, by decide⟩, fun _ => ?_⟩ (.cons ⟨⟨rfl, rfl⟩, rfl, by decide, fun _ => ⟨by decide, by decide⟩, fun _ => ?_⟩ .nil)))
    · exact Token.plain ⟨str "x", false, false⟩ ⟨str "ignored", false, false⟩ ⟨by decide⟩ ⟨by decide⟩ rfl rfl rfl rfl (by decide) (by decide)
    · exact Token.typed ⟨str "Color", false, false⟩ ⟨str "Shade", false, false⟩ ⟨by decide⟩ ⟨by decide⟩ rfl rfl rfl rfl (.inl ⟨rfl, rfl⟩) (by decide) (by decide)
    · exact .inl ⟨rfl, by decide⟩
    · exact Token.typed ⟨str "Col", false, false⟩ ⟨str "Sh", false, false⟩ ⟨by decide⟩ ⟨by decide⟩ rfl rfl rfl rfl (.inr ⟨rfl, rfl⟩) (by decide) (by decide)
  · intro k
    match k with
    | 0 => decide
    | 1 => decide
    | 2 => decide
    | 3 => decide
    | k + 4 => rw [List.take_of_length_le (by show 4 ≤ k + 4; omega), List.take_of_length_le (by show 4 ≤ k + 4; omega)]; decide
  · exact .symbol ⟨rfl, by decide, rfl, nofun, ⟨rfl, rfl, rfl⟩⟩ (.symbol ⟨rfl, by decide, rfl, nofun, ⟨rfl, rfl, rfl⟩⟩ .done)

example (n : Nat) : (check programRom (program 40 "start" "ignored" "Shade" "Sh") n).map verdict = (check programRom (program 0 "main" "x" "Color" "Col") n).map verdict :=
  C90_same_verdict case_alike _ n

/-- Both are accepted. -/
example : (check programRom (program 0 "main" "x" "Color" "Col") 20).map verdict = some ([.beginTrace 1 0, .endTrace 1 false], true, false, false, false, false) := by decide +kernel

/-- The condition on the names of types is needed: with names none of which is the beginning of the other, the same program is refused. -/
theorem C90_order_needed :
    (check programRom (program 0 "main" "x" "Color" "Col") 20).map (·.success) = some true ∧ (check programRom (program 0 "main" "x" "Color" "Hue") 20).map (·.success) = some false := by
  decide +kernel

end Buxn.Chess.Names
