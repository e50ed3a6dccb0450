import Verif.Asm.DbgSyms
import Verif.Devices.Common
import Mathlib.Tactic.Ring
import Mathlib.Tactic.Linarith
import Mathlib.Tactic.Zify
/-!
# C69: the ROM viewer

Models `/repo/src/romviz.c`. The symbol table is a list of entries (reading it is C30, writing it C42); the library `termbox2`
is what is drawn, and a list of terminal sizes and keys. `int`s that count lines and bytes are unbounded.
-/
namespace Buxn.Romviz
open Buxn.VM Buxn.Asm
local notation "Entry" => Buxn.Asm.Dbg.Entry

/-- `find_symbol`, `romviz.c:30-52`. The index `*current_index` is represented by the entries from there on. -/
def find (address : Short) : List Entry → List Entry × Option Entry
  | [] => ([], none)
  | e :: es =>
    if e.type = .label then find address es
    else if e.addrMin.toNat ≤ address.toNat ∧ address.toNat ≤ e.addrMax.toNat then (e :: es, some e)
    else if e.addrMin.toNat > address.toNat then (e :: es, none)
    else find address es

inductive Colour
  | white | green | cyan | red | yellow
  deriving DecidableEq

/-- The colour of a symbol, `romviz.c:168-179`. -/
def colour : Option Entry → Colour
  | none => .white
  | some e =>
    match e.type with
    | .text => .green
    | .opcode => .cyan
    | .number => .red
    | .labelRef => .yellow
    | _ => .white

/-- A byte on the terminal: column and row of its two digits, colour, and whether it is highlighted. -/
structure Cell where
  x : Nat
  y : Nat
  byte : Byte
  colour : Colour
  focus : Bool
  deriving DecidableEq

/-- `rom[index]`. -/
def rd (rom : List Byte) (index : Int) : Res Byte :=
  if 0 ≤ index then
    match rom[index.toNat]? with
    | some b => .ok b
    | none => .error .oob
  else .error .oob

/-- `rom_size = (uint16_t)size`, `romviz.c:87`. -/
def romSize (rom : List Byte) : Nat := rom.length % 65536

/-- The loops of `romviz.c:155-182`, over the given rows and columns. -/
def drawLoop (rom : List Byte) (pos off : Int) (n : Nat) : List (Nat × Nat) → List Entry → Option Entry → Res (List Cell × Option Entry)
  | [], _, f => .ok ([], f)
  | (y, x) :: cs, syms, f =>
    let index : Int := x + (y + off) * n
    if index ≥ romSize rom then .ok ([], f)
    else do
      let s := find (BitVec.ofInt 16 (index + 256)) syms
      let f := if index = pos then s.2 else f
      let b ← rd rom index
      let rest ← drawLoop rom pos off n cs s.1 f
      return (⟨x * 3, y + 3, b, colour s.2, decide (index = pos)⟩ :: rest.1, rest.2)

/-- What the user sees and the program knows after a frame. -/
structure Shown where
  /-- `num_bytes_per_row`. -/
  n : Nat
  off : Int
  cells : List Cell
  /-- `focused_symbol`. -/
  focus : Option Entry

/-- The head of the loop, `romviz.c:140-150`: bytes per row and the first line. -/
def view (W H : Nat) (pos off : Int) : Res (Nat × Int) :=
  let n := W / 3 / 4 * 4
  if n = 0 then .error .arith
  else
    let focus := Int.tdiv pos n
    let off := if focus < off then focus else off
    let last := off + H - 3 - 1
    .ok (n, if focus > last then off + (focus - last) else off)

/-- The rows and columns in the order of the loops. -/
def places (rows n : Nat) : List (Nat × Nat) := (List.range rows).flatMap (fun y => (List.range n).map (fun x => (y, x)))

/-- `opcode_names[rom[view_pos]]` is read if the focused symbol is an opcode, `romviz.c:219-220`; the table of names has an
entry for each byte. -/
def header (rom : List Byte) (pos : Int) : Option Entry → Res Byte
  | some e => if e.type = .opcode then rd rom pos else .ok 0
  | none => .ok 0

/-- The drawing of a frame, `romviz.c:136-184`, and of its header. -/
def frame (rom : List Byte) (syms : List Entry) (W H : Nat) (pos off : Int) : Res Shown := do
  let v ← view W H pos off
  let r ← drawLoop rom pos v.2 v.1 (places (H - 3) v.1) syms none
  let _ ← header rom pos r.2
  return ⟨v.1, v.2, r.1, r.2⟩

inductive Key
  | right | left | up | down | enter | other
  deriving DecidableEq

/-- The loop of `romviz.c:314-322`: the position of the label with this number. -/
def jump (id : Short) : List Entry → Option Int
  | [] => none
  | e :: es => if e.type = .label ∧ e.id = id ∧ e.addrMin.toNat ≥ 256 then some (e.addrMin.toNat - 256) else jump id es

/-- A key, `romviz.c:283-324`. -/
def key (rom : List Byte) (syms : List Entry) (n : Nat) (focus : Option Entry) (k : Key) (pos : Int) : Int :=
  match k with
  | .right => if pos + 1 < romSize rom then pos + 1 else pos
  | .left => if pos - 1 ≥ 0 then pos - 1 else pos
  | .up => if pos - n ≥ 0 then pos - n else 0
  | .down => if pos + n < romSize rom then pos + n else romSize rom - 1
  | .enter =>
    match focus with
    | some e => if e.type = .labelRef then (jump e.id syms).getD pos else pos
    | none => pos
  | .other => pos

/-- A session: sizes of the terminal, and the keys pressed after each frame. The position and the first line are the state. -/
def session (rom : List Byte) (syms : List Entry) : List (Nat × Nat × List Key) → Int → Int → Res (Int × Int)
  | [], pos, off => .ok (pos, off)
  | (W, H, ks) :: fs, pos, off => do
    let s ← frame rom syms W H pos off
    session rom syms fs (ks.foldl (fun p k => key rom syms s.n s.focus k p) pos) s.off

/-- The source text of a symbol, `romviz.c:256-264`: offset and length in a file of `size` bytes. -/
def excerpt (size start stop : Int) : Int × Int :=
  let start := if start ≥ size then size - 1 else start
  let stop := if stop ≥ size then size - 1 else stop
  let start := if start < 0 then 0 else start
  let stop := if stop < start then start else stop
  (start, stop - start)

/-! ## Specification -/
namespace Spec

/-- The entry is about the byte at an address. -/
def covers (a : Nat) (e : Entry) : Bool := e.type != .label && (decide (e.addrMin.toNat ≤ a) && decide (a ≤ e.addrMax.toNat))

/-- The table is in order: as the assembler writes it for a program that does not go back (C42). -/
structure Ordered (syms : List Entry) : Prop where
  each : ∀ e ∈ syms, e.type ≠ .label → e.addrMin.toNat ≤ e.addrMax.toNat
  apart : syms.Pairwise (fun e e' => e.type ≠ .label → e'.type ≠ .label → e.addrMax.toNat < e'.addrMin.toNat)

/-- The symbol at an index of the ROM. -/
def symbolAt (syms : List Entry) (i : Nat) : Option Entry := syms.find? (covers (i + 256))

/-- How the byte at index `i` is to be shown, with `n` in a row, if the first row is row `off`. -/
def shownAs (syms : List Entry) (pos : Int) (n off i : Nat) (b : Byte) : Cell :=
  ⟨i % n * 3, i / n - off + 3, b, colour (symbolAt syms i), decide ((i : Int) = pos)⟩

end Spec

/-! ## Proofs -/

theorem find_spec (syms : List Entry) (h : Spec.Ordered syms) (a : Short) :
    (find a syms).2 = syms.find? (Spec.covers a.toNat) ∧
    (∀ b, a.toNat ≤ b → (find a syms).1.find? (Spec.covers b) = syms.find? (Spec.covers b)) ∧ Spec.Ordered (find a syms).1 := by
  induction syms with
  | nil => exact ⟨rfl, fun _ _ => rfl, h⟩
  | cons e es ih =>
    have hes : Spec.Ordered es := ⟨fun x hx => h.each x (List.mem_cons_of_mem _ hx), (List.pairwise_cons.1 h.apart).2⟩
    obtain ⟨i1, i2, i3⟩ := ih hes
    unfold find
    by_cases hl : e.type = .label
    · have hn : ∀ b, Spec.covers b e = false := fun b => by unfold Spec.covers; rw [hl]; rfl
      rw [if_pos hl]
      refine ⟨?_, fun b hb => ?_, i3⟩
      · rw [List.find?_cons, hn]; exact i1
      · rw [List.find?_cons, hn]; exact i2 b hb
    · rw [if_neg hl]
      have hl' : (e.type != SymType.label) = true := by simpa using hl
      by_cases hc : e.addrMin.toNat ≤ a.toNat ∧ a.toNat ≤ e.addrMax.toNat
      · rw [if_pos hc]
        refine ⟨?_, fun _ _ => rfl, h⟩
        rw [List.find?_cons_of_pos]
        unfold Spec.covers
        rw [hl', decide_eq_true hc.1, decide_eq_true hc.2]; rfl
      · rw [if_neg hc]
        by_cases hg : e.addrMin.toNat > a.toNat
        · rw [if_pos hg]
          refine ⟨?_, fun _ _ => rfl, h⟩
          symm
          rw [List.find?_eq_none]
          intro x hx hcov
          unfold Spec.covers at hcov
          simp only [Bool.and_eq_true, decide_eq_true_iff, bne_iff_ne, ne_eq] at hcov
          obtain ⟨c1, c2, c3⟩ := hcov
          rcases List.mem_cons.1 hx with rfl | hx
          · omega
          · have := (List.pairwise_cons.1 h.apart).1 x hx hl c1
            have := h.each e (List.mem_cons_self ..) hl
            omega
        · rw [if_neg hg]
          have hn : ∀ b, a.toNat ≤ b → Spec.covers b e = false := fun b hb => by
            unfold Spec.covers
            rw [decide_eq_false (p := b ≤ e.addrMax.toNat) (by omega), Bool.and_false, Bool.and_false]
          refine ⟨?_, fun b hb => ?_, i3⟩
          · rw [List.find?_cons, hn _ (Nat.le_refl _)]; exact i1
          · rw [List.find?_cons, hn b hb]; exact i2 b hb

theorem places_eq (rows n : Nat) (hn : 0 < n) : places rows n = (List.range (rows * n)).map (fun k => (k / n, k % n)) := by
  unfold places
  induction rows with
  | zero => simp
  | succ r ih =>
    rw [List.range_succ, List.flatMap_append, ih, Nat.succ_mul, List.range_add, List.map_append]
    congr 1
    simp only [List.flatMap_cons, List.flatMap_nil, List.append_nil, List.map_map]
    apply List.map_congr_left
    intro x hx
    have hx := List.mem_range.1 hx
    simp only [Function.comp_apply]
    rw [Nat.mul_comm r n, Nat.mul_add_mod, Nat.mod_eq_of_lt hx, Nat.mul_add_div hn, Nat.div_eq_of_lt hx]
    rfl

theorem rd_ok {rom : List Byte} {i : Nat} (h : i < rom.length) : rd rom (i : Int) = .ok rom[i] := by
  unfold rd
  rw [if_pos (by omega), Int.toNat_natCast, List.getElem?_eq_getElem h]

theorem romSize_le (rom : List Byte) : romSize rom ≤ rom.length := Nat.mod_le _ _
theorem romSize_lt (rom : List Byte) : romSize rom < 65536 := Nat.mod_lt _ (by decide)

/-- The drawing never leaves the ROM, for any table. -/
theorem drawLoop_ok (rom : List Byte) (pos : Int) (off n : Nat) (cs : List (Nat × Nat)) (syms : List Entry) (f : Option Entry)
    (hf : ∀ e, f = some e → 0 ≤ pos ∧ pos < romSize rom) :
    ∃ r, drawLoop rom pos off n cs syms f = .ok r ∧ ∀ e, r.2 = some e → 0 ≤ pos ∧ pos < romSize rom := by
  induction cs generalizing syms f with
  | nil => exact ⟨_, rfl, hf⟩
  | cons c cs ih =>
    obtain ⟨y, x⟩ := c
    unfold drawLoop
    dsimp only
    have hi : (x : Int) + ((y : Int) + (off : Int)) * (n : Int) = ((x + (y + off) * n : Nat) : Int) := by push_cast; ring
    rw [hi]
    by_cases hs : ((x + (y + off) * n : Nat) : Int) ≥ romSize rom
    · rw [if_pos hs]; exact ⟨_, rfl, hf⟩
    · rw [if_neg hs]
      have hlt : x + (y + off) * n < rom.length := by have := romSize_le rom; omega
      rw [rd_ok hlt]
      simp only [bind, Except.bind, pure, Except.pure]
      obtain ⟨r, e1, e2⟩ := ih (find (BitVec.ofInt 16 (((x + (y + off) * n : Nat) : Int) + 256)) syms).1
        (if ((x + (y + off) * n : Nat) : Int) = pos then (find (BitVec.ofInt 16 (((x + (y + off) * n : Nat) : Int) + 256)) syms).2 else f) (by
          intro e he
          split at he
          · rename_i hp; rw [← hp]; omega
          · exact hf e he)
      rw [e1]
      exact ⟨_, rfl, e2⟩

theorem header_ok (rom : List Byte) (pos : Int) (f : Option Entry) (h : ∀ e, f = some e → 0 ≤ pos ∧ pos < romSize rom) :
    ∃ b, header rom pos f = .ok b := by
  unfold header
  cases f with
  | none => exact ⟨_, rfl⟩
  | some e =>
    dsimp only
    obtain ⟨h3, h5⟩ := h e rfl
    obtain ⟨k, rfl⟩ := Int.eq_ofNat_of_zero_le h3
    rw [rd_ok (by have := romSize_le rom; omega)]
    split <;> exact ⟨_, rfl⟩

theorem view_ok (W H : Nat) (pos off : Int) (hW : 12 ≤ W) (hp : -1 ≤ pos) (ho : 0 ≤ off) :
    ∃ n off' : Nat, view W H pos off = .ok (n, (off' : Int)) ∧ n = W / 3 / 4 * 4 ∧ 0 < n ∧
      (0 ≤ pos → 4 ≤ H → off' ≤ pos.toNat / n ∧ pos.toNat / n < off' + (H - 3)) := by
  have hn : W / 3 / 4 * 4 ≠ 0 := by omega
  unfold view
  dsimp only
  rw [if_neg hn]
  generalize hN : W / 3 / 4 * 4 = n at hn
  have hn0 : 0 < n := by omega
  have hq : 0 ≤ Int.tdiv pos n := by
    rcases lt_or_ge pos 0 with h | h
    · have : pos = -1 := by omega
      subst this
      rw [Int.neg_tdiv]
      have : Int.tdiv 1 (n : Int) = ((1 / n : Nat) : Int) := by
        rw [Int.tdiv_eq_ediv_of_nonneg (by decide)]; rfl
      rw [this]
      have : 1 / n = 0 := Nat.div_eq_of_lt (by omega)
      rw [this]; decide
    · exact Int.tdiv_nonneg h (by omega)
  have hq2 : 0 ≤ pos → Int.tdiv pos n = ((pos.toNat / n : Nat) : Int) := by
    intro h
    rw [Int.tdiv_eq_ediv_of_nonneg h]
    obtain ⟨k, rfl⟩ := Int.eq_ofNat_of_zero_le h
    simp
  generalize hd : Int.tdiv pos n = q at hq hq2
  refine ⟨n, (if q > (if q < off then q else off) + (H : Int) - 3 - 1 then (if q < off then q else off) + (q - ((if q < off then q else off) + (H : Int) - 3 - 1)) else (if q < off then q else off)).toNat, ?_, rfl, hn0, ?_⟩
  · congr 2
    split <;> split <;> omega
  · intro h0 h4
    have := hq2 h0
    generalize pos.toNat / n = m at this
    split <;> split <;> omega

/-- The drawing of consecutive bytes. -/
theorem drawLoop_spec (rom : List Byte) (full : List Entry) (pos : Int) (off n : Nat) (hn : 0 < n) (hr : romSize rom + 256 ≤ 65536) (m : Nat) :
    ∀ (k : Nat) (syms : List Entry) (f : Option Entry), Spec.Ordered syms →
      (∀ b, k + off * n + 256 ≤ b → syms.find? (Spec.covers b) = full.find? (Spec.covers b)) →
      ∃ r, drawLoop rom pos off n ((List.range' k m).map (fun k => (k / n, k % n))) syms f = .ok r ∧
        (∀ c, c ∈ r.1 ↔ ∃ i b, rom[i]? = some b ∧ i < romSize rom ∧ k + off * n ≤ i ∧ i < k + m + off * n ∧ c = Spec.shownAs full pos n off i b) ∧
        r.2 = if (k : Int) + off * n ≤ pos ∧ pos < k + m + off * n ∧ pos < romSize rom then Spec.symbolAt full pos.toNat else f := by
  induction m with
  | zero =>
    intro k syms f _ _
    refine ⟨_, rfl, fun c => ⟨fun h => (by cases h), fun ⟨i, b, _, _, h1, h2, _⟩ => by omega⟩, ?_⟩
    rw [if_neg (by omega)]
  | succ m ih =>
    intro k syms f ho hs
    rw [List.range'_succ, List.map_cons]
    unfold drawLoop
    dsimp only
    have hk : k % n + (k / n + off) * n = k + off * n := by
      have := Nat.mod_add_div k n
      rw [Nat.add_mul, Nat.mul_comm (k / n) n]; omega
    have hi : ((k % n : Nat) : Int) + (((k / n : Nat) : Int) + (off : Int)) * (n : Int) = ((k + off * n : Nat) : Int) := by
      rw [← hk]; push_cast; ring
    rw [hi]
    by_cases hsz : ((k + off * n : Nat) : Int) ≥ romSize rom
    · rw [if_pos hsz]
      refine ⟨_, rfl, fun c => ⟨fun h => (by cases h), fun ⟨i, b, _, _, h1, h2, _⟩ => by omega⟩, ?_⟩
      rw [if_neg (by push_cast at hsz; omega)]
    · rw [if_neg hsz]
      have hsz' : k + off * n < romSize rom := by omega
      have hlt : k + off * n < rom.length := by have := romSize_le rom; omega
      rw [rd_ok hlt]
      simp only [bind, Except.bind, pure, Except.pure]
      have ha : (BitVec.ofInt 16 (((k + off * n : Nat) : Int) + 256)).toNat = k + off * n + 256 := by
        rw [BitVec.toNat_ofInt]
        omega
      obtain ⟨g1, g2, g3⟩ := find_spec syms ho (BitVec.ofInt 16 (((k + off * n : Nat) : Int) + 256))
      rw [ha] at g1 g2
      have hsym : (find (BitVec.ofInt 16 (((k + off * n : Nat) : Int) + 256)) syms).2 = Spec.symbolAt full (k + off * n) := by
        rw [g1, hs _ (Nat.le_refl _)]; rfl
      generalize find (BitVec.ofInt 16 (((k + off * n : Nat) : Int) + 256)) syms = fs at g1 g2 g3 hsym
      obtain ⟨r, e1, e2, e3⟩ := ih (k + 1) fs.1 (if ((k + off * n : Nat) : Int) = pos then fs.2 else f) g3 (fun b hb => by
        rw [g2 b (by omega)]; exact hs b (by omega))
      rw [e1]
      refine ⟨_, rfl, fun c => ?_, ?_⟩
      · dsimp only
        rw [List.mem_cons, e2]
        have hcell : (⟨k % n * 3, k / n + 3, rom[k + off * n], colour fs.2, decide (((k + off * n : Nat) : Int) = pos)⟩ : Cell) =
            Spec.shownAs full pos n off (k + off * n) rom[k + off * n] := by
          unfold Spec.shownAs
          rw [hsym, Nat.add_mul_mod_self_right, Nat.add_mul_div_right _ _ hn, Nat.add_sub_cancel]
        constructor
        · rintro (rfl | ⟨i, b, h1, h2, h3, h4, h5⟩)
          · exact ⟨k + off * n, rom[k + off * n], List.getElem?_eq_getElem hlt, hsz', Nat.le_refl _, by omega, hcell⟩
          · exact ⟨i, b, h1, h2, by omega, by omega, h5⟩
        · rintro ⟨i, b, h1, h2, h3, h4, h5⟩
          by_cases he : i = k + off * n
          · left
            subst he
            rw [List.getElem?_eq_getElem hlt] at h1
            cases h1
            rw [h5, hcell]
          · exact .inr ⟨i, b, h1, h2, by omega, by omega, h5⟩
      · dsimp only
        rw [e3]
        by_cases hp : ((k + off * n : Nat) : Int) = pos
        · rw [if_pos hp, if_neg (by push_cast at *; omega), if_pos (by push_cast at *; omega), hsym]
          congr 1
          omega
        · rw [if_neg hp]
          by_cases hq : (k : Int) + off * n ≤ pos ∧ pos < k + (m + 1 : Nat) + off * n ∧ pos < romSize rom
          · rw [if_pos (by push_cast at *; omega), if_pos hq]
          · rw [if_neg (by push_cast at *; omega), if_neg hq]

/-! ## C69 -/

/-- Where the first line is after a frame. -/
def Spec.Scrolled (H : Nat) (pos : Int) (n off : Nat) : Prop := 0 ≤ pos → 4 ≤ H → off ≤ pos.toNat / n ∧ pos.toNat / n < off + (H - 3)

/-- **C69**, drawing. For a ROM that fits into the memory, a table in order, and a terminal of at least 12 columns: a frame
shows exactly the bytes of consecutive rows of the ROM, each in its place and in the colour of the symbol that covers its
address; the position is among the rows shown, highlighted, and its symbol is the one that the header describes. -/
theorem C69_drawn_partial (rom : List Byte) (syms : List Entry) (W H : Nat) (pos off : Int) (hr : rom.length ≤ 65280)
    (ho : Spec.Ordered syms) (hW : 12 ≤ W) (hp : 0 ≤ pos) (hoff : 0 ≤ off) :
    ∃ s o, frame rom syms W H pos off = .ok s ∧ s.off = (o : Nat) ∧ s.n = W / 3 / 4 * 4 ∧
      (∀ c, c ∈ s.cells ↔ ∃ i b, rom[i]? = some b ∧ o ≤ i / s.n ∧ i / s.n < o + (H - 3) ∧ c = Spec.shownAs syms pos s.n o i b) ∧
      (4 ≤ H → pos < rom.length → o ≤ pos.toNat / s.n ∧ pos.toNat / s.n < o + (H - 3) ∧ s.focus = Spec.symbolAt syms pos.toNat) := by
  obtain ⟨n, o, v1, v2, v3, v4⟩ := view_ok W H pos off hW (by omega) hoff
  have hsz : romSize rom = rom.length := Nat.mod_eq_of_lt (by omega)
  obtain ⟨r, e1, e2, e3⟩ := drawLoop_spec rom syms pos o n v3 (by omega) ((H - 3) * n) 0 syms none ho (fun _ _ => rfl)
  have hpl : places (H - 3) n = (List.range' 0 ((H - 3) * n)).map (fun k => (k / n, k % n)) := by
    rw [places_eq _ _ v3, List.range_eq_range']
  obtain ⟨r', e4, e5⟩ := drawLoop_ok rom pos o n (places (H - 3) n) syms none (fun e h => by cases h)
  rw [hpl, e1] at e4
  cases e4
  refine ⟨⟨n, o, r.1, r.2⟩, o, ?_, rfl, v2, fun c => ?_, fun h4 hlt => ?_⟩
  · unfold frame
    rw [v1]
    simp only [bind, Except.bind, pure, Except.pure]
    rw [hpl, e1]
    dsimp only
    obtain ⟨b, hb⟩ := header_ok rom pos r.2 e5
    rw [hb]
  · dsimp only
    rw [e2]
    have key : ∀ i, (0 + o * n ≤ i ∧ i < 0 + (H - 3) * n + o * n) ↔ (o ≤ i / n ∧ i / n < o + (H - 3)) := by
      intro i
      rw [Nat.le_div_iff_mul_le v3, Nat.div_lt_iff_lt_mul v3, Nat.add_mul]
      omega
    constructor
    · rintro ⟨i, b, h1, h2, h3, h4, h5⟩
      exact ⟨i, b, h1, ((key i).1 ⟨h3, h4⟩).1, ((key i).1 ⟨h3, h4⟩).2, h5⟩
    · rintro ⟨i, b, h1, h3, h4, h5⟩
      obtain ⟨g, -⟩ := List.getElem?_eq_some_iff.1 h1
      exact ⟨i, b, h1, by omega, ((key i).2 ⟨h3, h4⟩).1, ((key i).2 ⟨h3, h4⟩).2, h5⟩
  · obtain ⟨w1, w2⟩ := v4 hp h4
    refine ⟨w1, w2, ?_⟩
    dsimp only
    rw [e3, if_pos]
    have w1' := (Nat.le_div_iff_mul_le v3).1 w1
    have w2' := (Nat.div_lt_iff_lt_mul v3).1 w2
    rw [Nat.add_mul] at w2'
    rw [hsz]
    refine ⟨?_, ?_, hlt⟩
    · push_cast; zify at w1'; rw [Int.toNat_of_nonneg hp] at w1'; linarith
    · have : (((H - 3) * n : Nat) : Int) = ((H - 3 : Nat) : Int) * n := by push_cast; rfl
      zify at w2'
      rw [Int.toNat_of_nonneg hp] at w2'
      rw [this]
      linarith

theorem key_range (rom : List Byte) (syms : List Entry) (n : Nat) (f : Option Entry) (k : Key) (pos : Int) (hp : -1 ≤ pos) :
    -1 ≤ key rom syms n f k pos := by
  have hj : ∀ id es p, jump id es = some p → 0 ≤ p := by
    intro id es
    induction es with
    | nil => intro p h; cases h
    | cons e es ih =>
      intro p h
      unfold jump at h
      split at h
      · cases h; omega
      · exact ih p h
  unfold key
  cases k with
  | right => dsimp only; split <;> omega
  | left => dsimp only; split <;> omega
  | up => dsimp only; split <;> omega
  | down => dsimp only; split <;> omega
  | other => exact hp
  | enter =>
    dsimp only
    cases f with
    | none => exact hp
    | some e =>
      dsimp only
      split
      · cases h : jump e.id syms with
        | none => exact hp
        | some p => have := hj _ _ _ h; show -1 ≤ p; omega
      · exact hp

/-- **C69**, safety. Whatever the ROM, the table (also a damaged one), the sizes of the terminal and the keys: as long as the
terminal has at least 12 columns, nothing outside of the ROM is read and nothing is divided by zero. -/
theorem C69_safe_partial (rom : List Byte) (syms : List Entry) (fs : List (Nat × Nat × List Key)) (hW : ∀ f ∈ fs, 12 ≤ f.1)
    (pos off : Int) (hp : -1 ≤ pos) (ho : 0 ≤ off) : ∃ r, session rom syms fs pos off = .ok r := by
  induction fs generalizing pos off with
  | nil => exact ⟨_, rfl⟩
  | cons f fs ih =>
    obtain ⟨W, H, ks⟩ := f
    obtain ⟨n, o, v1, -, -, -⟩ := view_ok W H pos off (hW _ (List.mem_cons_self ..)) hp ho
    obtain ⟨r, e1, e2⟩ := drawLoop_ok rom pos o n (places (H - 3) n) syms none (fun e h => by cases h)
    have hfr : frame rom syms W H pos off = .ok ⟨n, o, r.1, r.2⟩ := by
      unfold frame
      rw [v1]
      simp only [bind, Except.bind, pure, Except.pure]
      rw [e1]
      dsimp only
      obtain ⟨b, hb⟩ := header_ok rom pos r.2 e2
      rw [hb]
    unfold session
    rw [hfr]
    simp only [bind, Except.bind, pure, Except.pure]
    refine ih (fun f hf => hW f (List.mem_cons_of_mem _ hf)) _ _ ?_ (by omega)
    have : ∀ (ks : List Key) (p : Int), -1 ≤ p → -1 ≤ ks.foldl (fun p k => key rom syms n r.2 k p) p := by
      intro ks
      induction ks with
      | nil => exact fun p h => h
      | cons k ks ihk => exact fun p h => ihk _ (key_range rom syms n r.2 k p h)
    exact this ks pos hp

/-- **C69** fails for a narrow terminal: there is no room for four bytes, and the program divides by zero. -/
theorem C69_narrow_violated (rom : List Byte) (syms : List Entry) (H : Nat) : frame rom syms 11 H 0 0 = .error .arith := rfl

/-- **C69** fails for a ROM of 64K (with expansion memory): its size is taken to be 0, and nothing of it is shown. -/
theorem C69_large_violated (rom : List Byte) (h : rom.length = 65536) (syms : List Entry) :
    ((frame rom syms 80 24 0 0).toOption.map (·.cells)) = some [] := by
  have hz : romSize rom = 0 := by unfold romSize; rw [h]
  have hv : view 80 24 0 0 = .ok (24, 0) := rfl
  unfold frame
  rw [hv]
  simp only [bind, Except.bind, pure, Except.pure]
  have : drawLoop rom 0 0 24 (places (24 - 3) 24) syms none = .ok ([], none) := by
    have hp : places (24 - 3) 24 = (0, 0) :: (places (24 - 3) 24).tail := by decide +kernel
    rw [hp]
    unfold drawLoop
    dsimp only
    rw [if_pos (by rw [hz]; decide)]
  rw [this]
  rfl

/-- **C69**, arrow keys. They move the position by one byte or one row, and never leave the ROM. -/
theorem C69_arrows (rom : List Byte) (syms : List Entry) (n : Nat) (f : Option Entry) (pos : Int) (h0 : 0 ≤ pos) (h1 : pos < romSize rom) :
    (∀ k, k ≠ .enter → 0 ≤ key rom syms n f k pos ∧ key rom syms n f k pos < romSize rom) ∧
    (pos + 1 < romSize rom → key rom syms n f .right pos = pos + 1) ∧ (0 < pos → key rom syms n f .left pos = pos - 1) ∧
    (pos + n < romSize rom → key rom syms n f .down pos = pos + n) ∧ (n ≤ pos → key rom syms n f .up pos = pos - n) := by
  refine ⟨fun k hk => ?_, fun h => if_pos h, fun h => if_pos (by omega), fun h => if_pos h, fun h => if_pos (by omega)⟩
  unfold key
  cases k with
  | right => dsimp only; split <;> omega
  | left => dsimp only; split <;> omega
  | up => dsimp only; split <;> omega
  | down => dsimp only; split <;> omega
  | other => exact ⟨h0, h1⟩
  | enter => exact absurd rfl hk

/-- **C69**, Enter. On a reference to a label whose entry is in the table (one entry for each number, as C42 has it), Enter goes
to the address of the label. -/
theorem C69_enter (rom : List Byte) (syms : List Entry) (n : Nat) (e l : Entry) (pos : Int) (he : e.type = .labelRef)
    (hl : l ∈ syms) (ht : l.type = .label) (hid : l.id = e.id) (ha : 256 ≤ l.addrMin.toNat)
    (hu : ∀ x ∈ syms, x.type = .label → x.id = l.id → x = l) : key rom syms n (some e) .enter pos = l.addrMin.toNat - 256 := by
  unfold key
  dsimp only
  rw [if_pos he]
  have : jump e.id syms = some ((l.addrMin.toNat : Int) - 256) := by
    induction syms with
    | nil => cases hl
    | cons x xs ih =>
      unfold jump
      by_cases hx : x.type = .label ∧ x.id = e.id ∧ x.addrMin.toNat ≥ 256
      · rw [if_pos hx, hu x (List.mem_cons_self ..) hx.1 (by rw [hx.2.1, hid])]
      · rw [if_neg hx]
        rcases List.mem_cons.1 hl with rfl | hl
        · exact absurd ⟨ht, hid, ha⟩ hx
        · exact ih hl (fun y hy => hu y (List.mem_cons_of_mem _ hy))
  rw [this]
  rfl

/-- **C69**, source text. Whatever the table says and however long the file is now, the text shown lies in the file. -/
theorem C69_excerpt_in_bounds (size start stop : Int) (h : 0 < size) :
    0 ≤ (excerpt size start stop).1 ∧ 0 ≤ (excerpt size start stop).2 ∧ (excerpt size start stop).1 + (excerpt size start stop).2 ≤ size := by
  unfold excerpt
  dsimp only
  repeat' split
  all_goals omega

/-- **C69**, source text. A word that ends before the end of the file is shown as it is. Partial: at the very end of the file it
loses its last character (`C69_excerpt_violated`). -/
theorem C69_excerpt_partial (size start stop : Int) (h0 : 0 ≤ start) (h1 : start ≤ stop) (h2 : stop < size) :
    excerpt size start stop = (start, stop - start) := by
  unfold excerpt
  dsimp only
  repeat' split
  all_goals first | omega | rfl

/-- **C69** fails at the end of a file that does not end in a newline: of the word `BRK` in the bytes 4 to 6 of a file of 7,
only `BR` is shown. -/
theorem C69_excerpt_violated : excerpt 7 4 7 = (4, 2) := by decide

/-! ## The tables that the assembler writes -/

theorem entries_nonempty {l : List (Short × SymInfo)} {gs : List (List (Short × SymInfo))} {es : List Entry} (ht : Asm.Spec.Tidy l)
    (hl : gs.flatten = l) (hr : Asm.Spec.Runs gs) (hf : List.Forall₂ Asm.Spec.Describes gs es) :
    ∀ e ∈ es, e.addrMin.toNat ≤ e.addrMax.toNat := by
  induction hf generalizing l with
  | nil => intro e he; cases he
  | @cons g e gs es hd hf ih =>
    rw [List.flatten_cons] at hl
    have hg := hr.1 g (by simp)
    have ht' : Asm.Spec.Tidy gs.flatten := by
      intro a x y b h
      exact ht (g ++ a) x y b (by rw [← hl, h, List.append_assoc])
    have ih := ih ht' rfl ⟨fun g' h' => hr.1 g' (by simp [h']), hr.2.tail⟩
    have hchain : g.IsChain fun x y => x.2.type ≠ .label ∧ y.1.toNat = x.1.toNat + 1 := by
      rw [List.isChain_iff_forall_rel_of_append_cons_cons]
      intro a b l₁ l₂ h
      exact ht l₁ a b (l₂ ++ gs.flatten) (by rw [← hl, h]; simp) (hg.2 a (by rw [h]; simp) b (by rw [h]; simp))
    have hcov := Asm.covered_run g e hd (hchain.imp fun _ _ h => h.2)
    intro x hx
    rcases List.mem_cons.1 hx with rfl | hx
    · have := congrArg List.length hcov
      unfold Asm.Spec.covered at this
      simp only [List.length_map, List.length_range] at this
      have : 0 < g.length := List.length_pos_iff.2 hg.1
      omega
    · exact ih x hx

theorem min_covered (e : Entry) (h : e.addrMin.toNat ≤ e.addrMax.toNat) : e.addrMin ∈ Asm.Spec.covered e ∧ e.addrMax ∈ Asm.Spec.covered e := by
  unfold Asm.Spec.covered
  refine ⟨List.mem_map.2 ⟨0, List.mem_range.2 (by omega), by simp⟩,
    List.mem_map.2 ⟨e.addrMax.toNat - e.addrMin.toNat, List.mem_range.2 (by omega), ?_⟩⟩
  apply BitVec.eq_of_toNat_eq
  rw [BitVec.toNat_add, BitVec.toNat_ofNat]
  have := e.addrMax.isLt
  have := e.addrMin.isLt
  omega

/-- **C69**, order. The debug file of an accepted program that puts its bytes at increasing addresses (and whose symbols are
tidy, C42) is in order, so that `C69_drawn_partial` applies to it. -/
theorem C69_ordered (files : Files) (fuel : Nat) (filename : Str) (s : Asm) (h : assemble files fuel filename = some (true, s))
    (hl : ∀ x ∈ Asm.Spec.debugSymbols s.log, x.2.region.start.line ≠ 0) (ht : Asm.Spec.Tidy (Asm.Spec.debugSymbols s.log))
    (hi : (Asm.Spec.emitted s.log).reverse.Pairwise (fun a b => a.toNat < b.toNat)) : Spec.Ordered (Asm.Dbg.file s.log) := by
  obtain ⟨gs, h1, h2, h3⟩ := C42_runs s.log hl
  have hne := entries_nonempty ht h1 h2 h3
  obtain ⟨hc, -⟩ := C42_entries_partial files fuel filename s h hl ht
  rw [← hc, List.pairwise_flatMap, List.pairwise_filter] at hi
  refine ⟨fun e he _ => hne e he, ?_⟩
  refine hi.2.imp_of_mem ?_
  intro e e' he he' hR n1 n2
  exact hR (by simpa using n1) (by simpa using n2) _ (min_covered e (hne e he)).2 _ (min_covered e' (hne e' he')).1

/-- A table: an opcode, a label and a number of two bytes. -/
def someSyms : List Entry :=
  [⟨.opcode, 0, 0x100, 0x100, ⟨[], ⟨1, 1, 0⟩, ⟨1, 4, 3⟩⟩⟩, ⟨.label, 1, 0x101, 0x101, ⟨[], ⟨1, 5, 4⟩, ⟨1, 7, 6⟩⟩⟩,
   ⟨.number, 0, 0x101, 0x102, ⟨[], ⟨1, 8, 7⟩, ⟨1, 12, 11⟩⟩⟩]
example : Spec.Ordered someSyms := by
  refine ⟨by decide, by decide⟩
example : ((frame [1, 2, 3] someSyms 80 24 1 0).toOption.map (fun s => s.cells.map (·.colour))) = some [.cyan, .red, .red] := by decide +kernel
/-- **C69** fails for a table that is not in order, as the assembler writes it for a program that goes back (C42): the byte at
0x100 has a symbol, but is shown without. -/
theorem C69_order_violated :
    let syms : List Entry := [⟨.number, 0, 0x101, 0x101, ⟨[], ⟨1, 1, 0⟩, ⟨1, 3, 2⟩⟩⟩, ⟨.opcode, 0, 0x100, 0x100, ⟨[], ⟨2, 1, 4⟩, ⟨2, 4, 7⟩⟩⟩]
    (Spec.symbolAt syms 0).map (·.type) = some .opcode ∧
    ((frame [1, 2] syms 80 24 0 0).toOption.map (fun s => s.cells.map (·.colour))) = some [.white, .red] := by
  decide +kernel

end Buxn.Romviz
