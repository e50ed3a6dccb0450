import Verif.Asm.Lambdas
/-!
# C42: debug symbols

How the command line assembler (`/repo/src/asm.c`) turns the symbols it is told about into the entries of the `.dbg` file,
and which addresses these entries cover.
-/

namespace Buxn.Asm
open Buxn.VM Spec

namespace Dbg

/-- `buxn_dbg_sym_t`, `symtab.h:26-33`. -/
structure Entry where
  type : SymType
  id : Short
  addrMin : Short
  addrMax : Short
  region : Region
  deriving DecidableEq, Repr

/-- `current_symbol` and `debug_symbols` of the context, `asm.c:34-35`. `none` is the state after zero initialisation: its file
name is `NULL`, which is no symbol's file name, and its line is 0. -/
structure Ctx where
  symbols : List Entry := []
  current : Option Entry := none

/-- `asm.c:64-66` and `asm.c:664-666`: an entry whose line is 0 is not written. -/
def flush (c : Ctx) : List Entry :=
  match c.current with
  | none => c.symbols
  | some e => if e.region.start.line ≠ 0 then c.symbols ++ [e] else c.symbols

/-- The comparison of `asm.c:54-59`. File names are interned, so that comparing pointers is comparing names. -/
def same (type : SymType) (r : Region) (e : Entry) : Bool :=
  type == e.type && r.file == e.region.file && r.start.byte == e.region.start.byte && r.stop.byte == e.region.stop.byte

/-- The new symbol of `asm.c:68-72`. -/
def begin (type : SymType) (addr : Short) (i : SymInfo) (c : Ctx) : Ctx :=
  { symbols := flush c, current := some ⟨type, i.id, addr, addr, i.region⟩ }

/-- `buxn_asm_put_dbg_sym`, `asm.c:46-73`. -/
def putDbgSym (type : SymType) (addr : Short) (i : SymInfo) (c : Ctx) : Ctx :=
  match c.current with
  | some e => if same type i.region e then { c with current := some { e with addrMax := addr } } else begin type addr i c
  | none => begin type addr i c

/-- `buxn_asm_put_symbol`, `asm.c:82-130`, without the `.sym` file, the counters and the type checker. -/
def putSymbol (addr : Short) (i : SymInfo) (c : Ctx) : Ctx :=
  match i.type with
  | .label => putDbgSym .label addr i c
  | .opcode => putDbgSym .opcode addr i c
  | .labelRef => putDbgSym .labelRef addr i c
  | .text => putDbgSym .text addr i c
  | .number => putDbgSym .number addr i c
  | .comment | .macroRef | .mark | .include | .macro => c

/-- The events of an assembly, oldest first. -/
def host : List Event → Ctx → Ctx
  | [], c => c
  | .sym a i :: es, c => host es (putSymbol a i c)
  | _ :: es, c => host es c

/-- The entries of the `.dbg` file after an assembly with this log (newest first). -/
def file (log : List Event) : List Entry := flush (host log.reverse {})

end Dbg

/-! ## Specification -/

namespace Spec

/-- The kinds of symbols that the debugger is told about. -/
def debugType (t : SymType) : Bool := t == .label || t == .labelRef || t == .opcode || t == .number || t == .text

/-- The symbols for the debugger, oldest first. -/
def debugSymbols (log : List Event) : List (Short × SymInfo) :=
  log.reverse.filterMap fun
    | .sym a i => if debugType i.type then some (a, i) else none
    | _ => none

/-- Two symbols of the same kind for the same piece of text. -/
def SamePlace (x y : Short × SymInfo) : Prop :=
  x.2.type = y.2.type ∧ x.2.region.file = y.2.region.file ∧ x.2.region.start.byte = y.2.region.start.byte ∧ x.2.region.stop.byte = y.2.region.stop.byte

/-- An entry describes a run of symbols: kind, number and place are those of the first, the addresses those of the first and
the last. -/
def Describes (g : List (Short × SymInfo)) (e : Dbg.Entry) : Prop :=
  ∃ x y, g.head? = some x ∧ g.getLast? = some y ∧ e = ⟨x.2.type, x.2.id, x.1, y.1, x.2.region⟩

/-- The symbols of a run are of one kind and place, those of neighbouring runs are not. -/
def Runs (gs : List (List (Short × SymInfo))) : Prop :=
  (∀ g ∈ gs, g ≠ [] ∧ ∀ x ∈ g, ∀ y ∈ g, SamePlace x y) ∧ gs.IsChain fun g h => ∀ x ∈ g, ∀ y ∈ h, ¬ SamePlace x y

/-- The addresses that an entry covers. -/
def covered (e : Dbg.Entry) : List Short := (List.range (e.addrMax.toNat + 1 - e.addrMin.toNat)).map fun i => e.addrMin + BitVec.ofNat 16 i

/-- Neighbouring symbols of one kind and place are consecutive bytes, and not labels. -/
def Tidy (l : List (Short × SymInfo)) : Prop :=
  ∀ a x y b, l = a ++ x :: y :: b → SamePlace x y → x.2.type ≠ .label ∧ y.1.toNat = x.1.toNat + 1

end Spec

namespace Dbg

theorem same_iff (a b : Short) (i j : SymInfo) (id : Short) (lo hi : Short) : same i.type i.region ⟨j.type, id, lo, hi, j.region⟩ = true ↔ SamePlace (a, i) (b, j) := by
  simp [same, SamePlace, and_assoc]

theorem _root_.Buxn.Asm.Spec.SamePlace.refl (x : Short × SymInfo) : SamePlace x x := ⟨rfl, rfl, rfl, rfl⟩
theorem _root_.Buxn.Asm.Spec.SamePlace.symm {x y : Short × SymInfo} (h : SamePlace x y) : SamePlace y x := ⟨h.1.symm, h.2.1.symm, h.2.2.1.symm, h.2.2.2.symm⟩
theorem _root_.Buxn.Asm.Spec.SamePlace.trans {x y z : Short × SymInfo} (h : SamePlace x y) (h' : SamePlace y z) : SamePlace x z :=
  ⟨h.1.trans h'.1, h.2.1.trans h'.2.1, h.2.2.1.trans h'.2.2.1, h.2.2.2.trans h'.2.2.2⟩

/-- What has been recorded after the symbols `l`. -/
def Inv (l : List (Short × SymInfo)) (c : Ctx) : Prop :=
  (l = [] ∧ c = {}) ∨ ∃ gs g e, l = gs.flatten ++ g ∧ c.current = some e ∧ Describes g e ∧ Runs (gs ++ [g]) ∧ List.Forall₂ Describes gs c.symbols

theorem Describes.cons_snoc {g : List (Short × SymInfo)} {e : Entry} (h : Describes g e) (x : Short × SymInfo) : Describes (g ++ [x]) { e with addrMax := x.1 } := by
  obtain ⟨a, b, ha, hb, rfl⟩ := h
  refine ⟨a, x, ?_, ?_, rfl⟩
  · cases g with
    | nil => cases ha
    | cons y ys => exact ha
  · simp

theorem Inv.step {l : List (Short × SymInfo)} {c : Ctx} (h : Inv l c) (hl : ∀ x ∈ l, x.2.region.start.line ≠ 0) (x : Short × SymInfo) :
    Inv (l ++ [x]) (putDbgSym x.2.type x.1 x.2 c) := by
  rcases h with ⟨rfl, rfl⟩ | ⟨gs, g, e, rfl, hc, hd, ⟨hr1, hr2⟩, hf⟩
  · refine .inr ⟨[], [x], ⟨x.2.type, x.2.id, x.1, x.1, x.2.region⟩, rfl, rfl, ⟨x, x, rfl, rfl, rfl⟩, ⟨?_, List.isChain_singleton _⟩, .nil⟩
    intro g hg
    rw [List.nil_append, List.mem_singleton] at hg
    subst hg
    exact ⟨by simp, fun a ha b hb => by rw [List.mem_singleton] at ha hb; rw [ha, hb]; exact .refl x⟩
  · unfold putDbgSym
    rw [hc]
    dsimp only
    have hg := hr1 g (by simp)
    obtain ⟨a, b, ha, hb, rfl⟩ := hd
    have hag : a ∈ g := List.mem_of_head? ha
    split
    · rename_i hs
      have hsp : SamePlace x a := (same_iff x.1 a.1 x.2 a.2 _ _ _).1 hs
      refine .inr ⟨gs, g ++ [x], _, by simp, rfl, Describes.cons_snoc ⟨a, b, ha, hb, rfl⟩ x, ⟨?_, ?_⟩, hf⟩
      · intro g' hg'
        rcases List.mem_append.1 hg' with h | h
        · exact hr1 g' (by simp [h])
        · rw [List.mem_singleton] at h
          subst h
          refine ⟨by simp, ?_⟩
          have key : ∀ y ∈ g ++ [x], SamePlace y a := by
            intro y hy
            rcases List.mem_append.1 hy with h | h
            · exact hg.2 y h a hag
            · rw [List.mem_singleton] at h; subst h; exact hsp
          intro y hy z hz
          exact (key y hy).trans (key z hz).symm
      · rw [List.isChain_append] at hr2 ⊢
        refine ⟨hr2.1, List.isChain_singleton _, ?_⟩
        intro p hp q hq y hy z hz hyz
        simp only [List.head?_cons, Option.mem_def, Option.some.injEq] at hq
        subst hq
        have hz' : SamePlace z a := by
          rcases List.mem_append.1 hz with h | h
          · exact hg.2 z h a hag
          · rw [List.mem_singleton] at h; subst h; exact hsp
        exact hr2.2.2 p hp g (by simp) y hy a hag (hyz.trans hz')
    · rename_i hs
      have hsp : ¬ SamePlace x a := fun h => hs ((same_iff x.1 a.1 x.2 a.2 _ _ _).2 h)
      refine .inr ⟨gs ++ [g], [x], ⟨x.2.type, x.2.id, x.1, x.1, x.2.region⟩, by simp, rfl, ⟨x, x, rfl, rfl, rfl⟩, ⟨?_, ?_⟩, ?_⟩
      · intro g' hg'
        rcases List.mem_append.1 hg' with h | h
        · exact hr1 g' h
        · rw [List.mem_singleton] at h
          subst h
          exact ⟨by simp, fun a ha b hb => by rw [List.mem_singleton] at ha hb; rw [ha, hb]; exact .refl x⟩
      · rw [List.isChain_append]
        refine ⟨hr2, List.isChain_singleton _, ?_⟩
        intro p hp q hq y hy z hz hyz
        simp only [List.getLast?_append, List.getLast?_singleton, Option.some_or, List.head?_cons, Option.mem_def, Option.some.injEq] at hp hq
        subst hp; subst hq
        rw [List.mem_singleton] at hz
        subst hz
        exact hsp (hyz.symm.trans (hg.2 y hy a hag))
      · have hline : a.2.region.start.line ≠ 0 := hl a (by simp [hag])
        show List.Forall₂ Describes (gs ++ [g]) (flush c)
        unfold flush
        rw [hc]
        dsimp only
        rw [if_pos hline]
        exact List.rel_append hf (.cons ⟨a, b, ha, hb, rfl⟩ .nil)

theorem host_eq (es : List Event) (c : Ctx) : host es c =
    (es.filterMap fun | .sym a i => if debugType i.type then some (a, i) else none | _ => none).foldl (fun c x => putDbgSym x.2.type x.1 x.2 c) c := by
  induction es generalizing c with
  | nil => rfl
  | cons e es ih =>
    cases e with
    | sym a i =>
      rw [host, ih, List.filterMap_cons]
      cases hi : i.type <;> simp [putSymbol, hi, debugType]
    | rom => exact ih c
    | error => exact ih c
    | warning => exact ih c
    | fopen => exact ih c
    | fclose => exact ih c
    | ref => exact ih c

theorem foldl_inv (l done : List (Short × SymInfo)) (c : Ctx) (h : Inv done c) (hl : ∀ x ∈ done ++ l, x.2.region.start.line ≠ 0) :
    Inv (done ++ l) (l.foldl (fun c x => putDbgSym x.2.type x.1 x.2 c) c) := by
  induction l generalizing done c with
  | nil => rw [List.append_nil]; exact h
  | cons x l ih =>
    have := ih (done ++ [x]) _ (h.step (fun y hy => hl y (by simp [hy])) x) (by rw [List.append_assoc]; exact hl)
    rw [List.append_assoc] at this
    exact this

end Dbg

/-- **C42.** The entries of the debug file describe the runs of symbols of one kind and place, one entry for each run, in the
order of the symbols, and no symbol is in two runs or in none. -/
theorem C42_runs (log : List Event) (hl : ∀ x ∈ debugSymbols log, x.2.region.start.line ≠ 0) :
    ∃ gs, gs.flatten = debugSymbols log ∧ Runs gs ∧ List.Forall₂ Describes gs (Dbg.file log) := by
  have h := Dbg.foldl_inv (debugSymbols log) [] {} (.inl ⟨rfl, rfl⟩) (by simpa using hl)
  rw [List.nil_append] at h
  unfold Dbg.file
  rw [Dbg.host_eq]
  change Dbg.Inv (debugSymbols log) (List.foldl _ _ (debugSymbols log)) at h
  change ∃ gs, _ ∧ _ ∧ List.Forall₂ Describes gs (Dbg.flush (List.foldl _ _ (debugSymbols log)))
  generalize List.foldl (fun c (x : Short × SymInfo) => Dbg.putDbgSym x.2.type x.1 x.2 c) {} (debugSymbols log) = c at h
  rcases h with ⟨h, rfl⟩ | ⟨gs, g, e, h, hc, hd, hr, hf⟩
  · rw [h]
    exact ⟨[], rfl, ⟨fun g hg => (by cases hg), List.isChain_nil⟩, .nil⟩
  · refine ⟨gs ++ [g], by rw [h]; simp, hr, ?_⟩
    unfold Dbg.flush
    rw [hc]
    obtain ⟨a, b, ha, hb, rfl⟩ := hd
    have : a.2.region.start.line ≠ 0 := hl a (by rw [h]; simp [List.mem_of_head? ha])
    dsimp only
    rw [if_pos this]
    exact List.rel_append hf (.cons ⟨a, b, ha, hb, rfl⟩ .nil)

/-! ## Which addresses have symbols -/

/-- The addresses of the symbols that stand for bytes, newest first. -/
def symbolBytes (log : List Event) : List Short :=
  log.filterMap fun
    | .sym a i => if debugType i.type && i.type != .label then some a else none
    | _ => none

/-- A step adds symbols for exactly the bytes that it adds. -/
def Matched (s s' : Asm) : Prop := ∃ es, emitted s'.log = es ++ emitted s.log ∧ symbolBytes s'.log = es ++ symbolBytes s.log

theorem Matched.refl (s : Asm) : Matched s s := ⟨[], rfl, rfl⟩

theorem Matched.trans {a b c : Asm} (h : Matched a b) (h' : Matched b c) : Matched a c := by
  obtain ⟨e, h1, h2⟩ := h
  obtain ⟨e', h1', h2'⟩ := h'
  exact ⟨e' ++ e, by rw [h1', h1, List.append_assoc], by rw [h2', h2, List.append_assoc]⟩

theorem Matched.same {s s' : Asm} (h : s'.log = s.log) : Matched s s' := ⟨[], by rw [h]; rfl, by rw [h]; rfl⟩

/-- What `emit` does when there is no error. -/
theorem emit_log (t : Token) (b : Byte) (p : Bool) (s : Asm) (h : (emit t b p s).2.success = true) : emit t b p s = (true, { s with writeAddr := s.writeAddr + 1, log := .rom s.writeAddr b p :: s.log }) := by
  unfold emit at *
  dsimp only at *
  split
  · rename_i hz; rw [if_pos hz] at h; cases h
  · rfl

theorem emit2_log (t : Token) (x : Short) (p : Bool) (s : Asm) (h : (emit2 t x p s).2.success = true) :
    emit2 t x p s = (true, { s with writeAddr := s.writeAddr + 1 + 1, log := .rom (s.writeAddr + 1) (lo8 x) p :: .rom s.writeAddr (hi8 x) p :: s.log }) := by
  unfold emit2 at *
  obtain ⟨e1, he⟩ := andThen_ok (P := emit t (hi8 x) p s = _) (fun h => ⟨by rw [emit_log _ _ _ _ h], emit_log _ _ _ _ h⟩)
    (andThen_ext (emit_ext _ _ _ _) fun s => .refl s) h
  rw [he, e1] at h ⊢
  dsimp only at h ⊢
  obtain ⟨e2, he⟩ := andThen_ok (P := emit t (lo8 x) p _ = _) (fun h => ⟨by rw [emit_log _ _ _ _ h], emit_log _ _ _ _ h⟩) (.refl _) h
  rw [he, e2]

theorem ok_emit {t : Token} {b : Byte} {p : Bool} {s : Asm} {f : Asm → Bool × Asm} (hf : ∀ s', Ext s' (f s').2) (h : (andThen (emit t b p s) f).2.success = true) :
    andThen (emit t b p s) f = f { s with writeAddr := s.writeAddr + 1, log := .rom s.writeAddr b p :: s.log } := by
  obtain ⟨e1, he⟩ := andThen_ok (P := emit t b p s = _) (fun h => ⟨by rw [emit_log _ _ _ _ h], emit_log _ _ _ _ h⟩) (hf _) h
  rw [he, e1]

theorem ok_emit2 {t : Token} {x : Short} {p : Bool} {s : Asm} {f : Asm → Bool × Asm} (hf : ∀ s', Ext s' (f s').2) (h : (andThen (emit2 t x p s) f).2.success = true) :
    andThen (emit2 t x p s) f =
      f { s with writeAddr := s.writeAddr + 1 + 1, log := .rom (s.writeAddr + 1) (lo8 x) p :: .rom s.writeAddr (hi8 x) p :: s.log } := by
  obtain ⟨e1, he⟩ := andThen_ok (P := emit2 t x p s = _) (fun h => ⟨by rw [emit2_log _ _ _ _ h], emit2_log _ _ _ _ h⟩) (hf _) h
  rw [he, e1]

/-- A step without errors adds symbols for exactly the bytes that it adds. -/
def Match (s s' : Asm) : Prop := Ext s s' ∧ (s'.success = true → Matched s s')

theorem Match.trans {a b c : Asm} (h : Match a b) (h' : Match b c) : Match a c :=
  ⟨h.1.trans h'.1, fun hs => (h.2 (h'.1.ok hs)).trans (h'.2 hs)⟩

theorem matched_byte {s s' : Asm} {b : Byte} {i : SymInfo} (hi : debugType i.type = true ∧ i.type ≠ .label) (h : s'.log = .sym s.writeAddr i :: .rom s.writeAddr b false :: s.log) :
    Matched s s' := by
  refine ⟨[s.writeAddr], ?_, ?_⟩
  · rw [h]; rfl
  · rw [h]; simp [symbolBytes, hi]

theorem matched_short {s s' : Asm} {b b' : Byte} {i : SymInfo} (hi : debugType i.type = true ∧ i.type ≠ .label)
    (h : s'.log = .sym (s.writeAddr + 1) i :: .sym s.writeAddr i :: .rom (s.writeAddr + 1) b' false :: .rom s.writeAddr b false :: s.log) : Matched s s' := by
  refine ⟨[s.writeAddr + 1, s.writeAddr], ?_, ?_⟩
  · rw [h]; rfl
  · rw [h]; simp [symbolBytes, hi]

theorem matched_ref {s : Asm} (a : Short) (k : RefKind) (z : RefSize) (n : Option Str) (id : Short) : Matched s (markRef a k z n id s) := ⟨[], rfl, rfl⟩

theorem matched_error {s : Asm} (m : String) (r : Region) : Matched s (warning m r s) := ⟨[], rfl, rfl⟩

theorem emitPlaceholder_match (t : Token) (k : RefKind) (z : RefSize) (n : Option Str) (id : Short) (r : Bool) (s : Asm) : Match s (emitPlaceholder t k z n id r s).2 := by
  refine ⟨emitPlaceholder_ext _ _ _ _ _ _ _, ?_⟩
  unfold emitPlaceholder
  cases z with
  | byte =>
    dsimp only
    intro h
    rw [ok_emit (fun s => (markRef_ext _ _ _ _ _ _).trans (putSymbol_ext _ _ _)) h]
    exact ⟨[s.writeAddr], rfl, by simp [putSymbol, markRef, symbolBytes, debugType]⟩
  | short =>
    dsimp only
    intro h
    rw [ok_emit2 (fun s => (markRef_ext _ _ _ _ _ _).trans (putSymbol2_ext _ _ _)) h]
    exact ⟨[s.writeAddr + 1, s.writeAddr], rfl, by simp [putSymbol, putSymbol2, markRef, symbolBytes, debugType]⟩

theorem calculateAddr_match (t : Token) (k : RefKind) (a l : Short) (s : Asm) : Match s (calculateAddr t k a l s).2 := by
  unfold calculateAddr
  cases k with
  | zero =>
    dsimp only
    split
    · exact ⟨Ext.event _ rfl rfl rfl rfl, fun _ => ⟨[], rfl, rfl⟩⟩
    · exact ⟨.refl s, fun _ => .refl s⟩
  | abs => exact ⟨.refl s, fun _ => .refl s⟩
  | rel => exact ⟨.refl s, fun _ => .refl s⟩

/-- With a symbol the bytes are new, without one they are filled in. -/
theorem emitAddr_match (t : Token) (k : RefKind) (z : RefSize) (v : Int) (i : Option SymInfo) (s : Asm) (hi : ∀ x, i = some x → debugType x.type = true ∧ x.type ≠ .label) :
    Match s (emitAddr t k z v i i.isNone s).2 := by
  refine ⟨emitAddr_ext _ _ _ _ _ _ _, ?_⟩
  have he : ∀ a s, Ext s (match i with | some i => putSymbol a i s | none => s) := by
    intro a s
    cases i with
    | none => exact .refl s
    | some x => exact putSymbol_ext _ _ _
  have he2 : ∀ a s, Ext s (match i with | some i => putSymbol2 a i s | none => s) := by
    intro a s
    cases i with
    | none => exact .refl s
    | some x => exact putSymbol2_ext _ _ _
  unfold emitAddr
  cases z with
  | byte =>
    dsimp only
    split
    · intro h; cases h
    · intro h
      rw [ok_emit (fun s => he _ s) h]
      cases i with
      | none => exact ⟨[], rfl, rfl⟩
      | some x => exact matched_byte (hi x rfl) rfl
  | short =>
    dsimp only
    intro h
    rw [ok_emit2 (fun s => he2 _ s) h]
    cases i with
    | none => exact ⟨[], rfl, rfl⟩
    | some x => exact matched_short (hi x rfl) rfl

theorem Match.ok {s : Asm} {r : Bool × Asm} {f : Asm → Bool × Asm} (h : Match s r.2) (hf : ∀ s', Match s' (f s').2) : Match s (andThen r f).2 := by
  unfold andThen
  split
  · exact h.trans (hf _)
  · exact h

theorem Match.same {s s' : Asm} (h : s'.log = s.log) (h' : s'.success = s.success) : Match s s' := ⟨.same h h', fun _ => .same h⟩

theorem emitBackwardRef_match (t : Token) (k : RefKind) (z : RefSize) (n : Option Str) (id l : Short) (w r : Bool) (s : Asm) : Match s (emitBackwardRef t k z n id l w r s).2 := by
  unfold emitBackwardRef
  dsimp only
  have h := calculateAddr_match t k s.writeAddr l s
  generalize calculateAddr t k s.writeAddr l s = p at h
  obtain ⟨v, s1⟩ := p
  refine h.trans (Match.ok ?_ fun s => ?_)
  · cases w with
    | true => exact emitAddr_match _ _ _ _ (some _) _ (fun x hx => by cases hx; exact ⟨rfl, by simp⟩)
    | false => exact emitAddr_match _ _ _ _ none _ (fun x hx => by cases hx)
  · cases w with
    | true => exact ⟨markRef_ext _ _ _ _ _ _, fun _ => matched_ref _ _ _ _ _⟩
    | false => exact .same rfl rfl

theorem putLabel_match (a : Short) (i : SymInfo) (s : Asm) (hi : debugType i.type = false ∨ i.type = .label) : Match s (putSymbol a i s) := by
  refine ⟨putSymbol_ext _ _ _, fun _ => ⟨[], rfl, ?_⟩⟩
  rcases hi with hi | hi <;> simp [putSymbol, symbolBytes, hi]

theorem patchAll_match (name : Str) (id l : Short) (fs : List FRef) (s : Asm) : Match s (patchAll name id l fs s) := by
  induction fs generalizing s with
  | nil => exact .same rfl rfl
  | cons f fs ih =>
    rw [patchAll]
    have h1 : Match s { s with writeAddr := f.addr } := .same rfl rfl
    exact (h1.trans (emitBackwardRef_match f.token f.kind f.size (some name) id l false false _)).trans (ih _)

theorem placeLabel_match (t : Token) (name : Str) (n : Node) (id : Short) (fs : List FRef) (s : Asm) : Match s (placeLabel t name n id fs s).2 := by
  unfold placeLabel
  dsimp only
  have h1 : Match s (setNode name { n with entry := .label id s.writeAddr } s) := .same rfl rfl
  have h2 := patchAll_match name id s.writeAddr fs (setNode name { n with entry := .label id s.writeAddr } s)
  generalize patchAll name id s.writeAddr fs (setNode name { n with entry := .label id s.writeAddr } s) = s1 at h2
  have h3 : Match s1 { setNode name { n with entry := .label id s.writeAddr, referenced := !fs.isEmpty } s1 with writeAddr := s.writeAddr } := .same rfl rfl
  exact ((h1.trans h2).trans h3).trans (putLabel_match _ _ _ (.inr rfl))

theorem processLambdaClose_match (t : Token) (s : Asm) : Match s (processLambdaClose t s).2 := by
  unfold processLambdaClose
  split
  · exact ⟨error_ext _ _ _, fun h => by cases h⟩
  · rename_i f fs hl
    dsimp only
    have hc := calculateAddr_match f.token f.kind f.addr s.writeAddr s
    generalize calculateAddr f.token f.kind f.addr s.writeAddr s = p at hc
    obtain ⟨v, s1⟩ := p
    dsimp only at *
    have h1 : Match s1 { s1 with writeAddr := f.addr } := .same rfl rfl
    have h2 := emitAddr_match f.token f.kind f.size v none { s1 with writeAddr := f.addr } (fun x hx => by cases hx)
    refine Match.ok ((hc.trans h1).trans h2) fun s2 => ?_
    have h3 : Match s2 { s2 with writeAddr := s.writeAddr } := .same rfl rfl
    have h4 := putLabel_match s.writeAddr { type := .label, name := some (lambdaName f.lambdaId), generated := true, region := t.region, id := f.labelId }
      { s2 with writeAddr := s.writeAddr } (.inr rfl)
    have h5 : Match _ { (putSymbol s.writeAddr { type := .label, name := some (lambdaName f.lambdaId), generated := true, region := t.region, id := f.labelId }
      { s2 with writeAddr := s.writeAddr }) with lambdas := fs } := .same rfl rfl
    exact (h3.trans h4).trans h5

theorem match_atoms : Atoms Match where
  trans h h' := h.trans h'
  frame h := .same h.log h.success
  error m r s := ⟨error_ext _ _ _, fun h => (by cases h)⟩
  event e s h := by
    refine ⟨event_ext e s h, fun _ => ⟨[], ?_, ?_⟩⟩
    · cases e <;> first | rfl | cases h
    · cases e with
      | sym a i => simp [symbolBytes, debugType, h.1, h.2.1, h.2.2.1, h.2.2.2.1, h.2.2.2.2]
      | warning => rfl
      | fopen => rfl
      | fclose => rfl
      | rom => cases h
      | error => cases h
      | ref => cases h
  opcode t b r s := ⟨ext_atoms.opcode t b r s, fun h => by
    unfold emitOpcode at *
    dsimp only at *
    rw [ok_emit (fun s => putSymbol_ext _ _ _) h]
    exact matched_byte ⟨rfl, by simp⟩ rfl⟩
  byte t b r s := ⟨ext_atoms.byte t b r s, fun h => by
    unfold emitByte at *
    dsimp only at *
    rw [ok_emit (fun s => putSymbol_ext _ _ _) h]
    exact matched_byte ⟨rfl, by simp⟩ rfl⟩
  short t x r s := ⟨ext_atoms.short t x r s, fun h => by
    unfold emitShort at *
    dsimp only at *
    rw [ok_emit2 (fun s => putSymbol2_ext _ _ _) h]
    exact matched_short ⟨rfl, by simp⟩ rfl⟩
  text t i c s hi := ⟨ext_atoms.text t i c s hi, fun h => by
    unfold textStep at *
    rw [ok_emit (fun s => putSymbol_ext _ _ _) h]
    exact matched_byte ⟨by rw [hi]; rfl, by rw [hi]; simp⟩ rfl⟩
  findOrCreate t n s := by
    refine ⟨ext_atoms.findOrCreate t n s, ?_⟩
    have fail : ∀ m : String, (error m t.region s).2.success = true → Matched s (error m t.region s).2 := fun m h => by cases h
    unfold findOrCreate
    split
    · exact fail _
    · split
      · exact fail _
      · split
        · exact fail _
        · split
          · exact fail _
          · split
            · exact fun _ => .refl s
            · exact fun _ => .same rfl
  referenced _ _ _ _ := .same rfl rfl
  setMacro _ _ _ _ _ _ _ _ := .same rfl rfl
  forward t k z name n r s _ _ := by
    unfold emitForwardRef addForwardRef
    have h1 : Match s (numberLabel n.entry s) := by
      unfold numberLabel
      split
      · exact .same rfl rfl
      · exact .same rfl rfl
    refine h1.trans (Match.trans (b := setNode name { n with entry := _ } (numberLabel n.entry s)) (.same rfl rfl) (Match.ok (emitPlaceholder_match _ _ _ _ _ _ _) fun s => .same rfl rfl))
  lambda t k z r s := by
    unfold emitLambdaRef
    have h1 : Match s { s with numLabels := s.numLabels + 1 } := .same rfl rfl
    exact h1.trans (Match.ok (emitPlaceholder_match _ _ _ _ _ _ _) fun s => .same rfl rfl)
  backward _ _ _ _ _ _ _ _ _ _ _ := emitBackwardRef_match _ _ _ _ _ _ _ _ _
  atRef t k z r s l ls _ := by
    have h1 : Match s { s with atLabels := ls } := .same rfl rfl
    exact h1.trans (emitBackwardRef_match _ _ _ _ _ _ _ _ _)
  atLabel t s := by
    refine ⟨ext_atoms.atLabel t s, fun _ => ⟨[], rfl, ?_⟩⟩
    simp [processAtLabel, putSymbol, symbolBytes]
  define t name n s _ := by
    unfold defineLabel
    split
    · have h1 : Match s { s with numLabels := s.numLabels + 1 } := .same rfl rfl
      exact h1.trans (placeLabel_match _ _ _ _ _ _)
    · exact placeLabel_match _ _ _ _ _ _
    · exact ⟨error_ext _ _ _, fun h => by cases h⟩
    · exact ⟨error_ext _ _ _, fun h => by cases h⟩
  close t s := processLambdaClose_match t s

/-- **C42.** The symbols of an accepted program that stand for bytes have exactly the addresses of the bytes emitted, in the
same order: no byte is without a symbol, none has two, and no symbol is without a byte. -/
theorem C42_bytes (files : Files) (fuel : Nat) (filename : Str) (s : Asm) (h : assemble files fuel filename = some (true, s)) :
    symbolBytes s.log = emitted s.log := by
  obtain ⟨⟨⟨_, hk⟩, _⟩, hs⟩ := assemble_good match_atoms.closed (reported fun m r s => ⟨warning_ext m r s, fun _ => ⟨[], rfl, rfl⟩⟩) files fuel filename _ h
  obtain ⟨es, h1, h2⟩ := hk hs.symm
  rw [h1, h2]
  rfl

/-! ## What the entries cover -/

theorem covered_run (g : List (Short × SymInfo)) (e : Dbg.Entry) (hd : Describes g e)
    (hc : g.IsChain fun x y => y.1.toNat = x.1.toNat + 1) : covered e = g.map (·.1) := by
  obtain ⟨x, y, hx, hy, rfl⟩ := hd
  cases g with
  | nil => cases hx
  | cons a g =>
    simp only [List.head?_cons, Option.some.injEq] at hx
    subst hx
    unfold covered
    dsimp only
    induction g generalizing a with
    | nil =>
      simp only [List.getLast?_singleton, Option.some.injEq] at hy
      subst hy
      rw [show a.1.toNat + 1 - a.1.toNat = 1 from by omega]
      simp
    | cons b g ih =>
      rw [List.isChain_cons_cons] at hc
      have hy' : (b :: g).getLast? = some y := by rw [← hy]; simp
      have ih' := ih b hc.2 hy'
      have hle : b.1.toNat ≤ y.1.toNat := by
        have hl := congrArg List.length ih'
        simp only [List.length_map, List.length_range, List.length_cons] at hl
        omega
      rw [show y.1.toNat + 1 - a.1.toNat = (y.1.toNat + 1 - b.1.toNat) + 1 from by omega, List.range_succ_eq_map, List.map_cons, List.map_map, List.map_cons, ← ih']
      congr 1
      · simp
      · apply List.map_congr_left
        intro i _
        have : b.1 = a.1 + 1 := by
          apply BitVec.eq_of_toNat_eq
          rw [BitVec.toNat_add, show (1 : Short).toNat = 1 from rfl, hc.1]
          have := b.1.isLt
          omega
        rw [this]
        simp only [Function.comp_apply]
        apply BitVec.eq_of_toNat_eq
        simp only [BitVec.toNat_add, BitVec.toNat_ofNat, Nat.succ_eq_add_one, show (1 : Short).toNat = 1 from rfl]
        omega

theorem runs_covered {l : List (Short × SymInfo)} {gs : List (List (Short × SymInfo))} {es : List Dbg.Entry} (ht : Tidy l) (hl : gs.flatten = l)
    (hr : Runs gs) (hf : List.Forall₂ Describes gs es) :
    (es.filter (·.type != .label)).flatMap covered = (l.filter (·.2.type != .label)).map (·.1) ∧
      (es.filter (·.type == .label)).map (fun e => (e.addrMin, e.addrMax, e.id, e.region)) = (l.filter (·.2.type == .label)).map (fun x => (x.1, x.1, x.2.id, x.2.region)) := by
  induction hf generalizing l with
  | nil => subst hl; exact ⟨rfl, rfl⟩
  | @cons g e gs es hd hf ih =>
    rw [List.flatten_cons] at hl
    have hg := hr.1 g (by simp)
    have ht' : Tidy gs.flatten := by
      intro a x y b h
      exact ht (g ++ a) x y b (by rw [← hl, h, List.append_assoc])
    obtain ⟨ih1, ih2⟩ := ih ht' rfl ⟨fun g' h' => hr.1 g' (by simp [h']), hr.2.tail⟩
    have hchain : g.IsChain fun x y => x.2.type ≠ .label ∧ y.1.toNat = x.1.toNat + 1 := by
      rw [List.isChain_iff_forall_rel_of_append_cons_cons]
      intro a b l₁ l₂ h
      exact ht l₁ a b (l₂ ++ gs.flatten) (by rw [← hl, h]; simp) (hg.2 a (by rw [h]; simp) b (by rw [h]; simp))
    have hcov := covered_run g e hd (hchain.imp fun _ _ h => h.2)
    have htype : ∀ x ∈ g, x.2.type = e.type := by
      intro x hx
      obtain ⟨a, b, ha, hb, rfl⟩ := hd
      exact (hg.2 x hx a (List.mem_of_head? ha)).1
    rw [← hl]
    by_cases hlab : e.type = .label
    · -- a label is alone in its run
      obtain ⟨a, b, ha, hb, rfl⟩ := hd
      dsimp only at hlab
      cases g with
      | nil => cases ha
      | cons x g =>
        cases g with
        | cons y g =>
          rw [List.isChain_cons_cons] at hchain
          exact absurd (htype x (by simp)) (by rw [hlab]; exact hchain.1.1)
        | nil =>
          simp only [List.head?_cons, List.getLast?_singleton, Option.some.injEq] at ha hb
          subst ha; subst hb
          simp only [List.filter_cons, hlab, List.cons_append, List.nil_append]
          exact ⟨by simpa using ih1, by simpa using ih2⟩
    · have h1 : g.filter (fun x => x.2.type != .label) = g := List.filter_eq_self.2 fun x hx => by rw [htype x hx]; simp [hlab]
      have h2 : g.filter (fun x => x.2.type == .label) = [] := List.filter_eq_nil_iff.2 fun x hx => by rw [htype x hx]; simp [hlab]
      rw [List.filter_append, List.filter_append, h1, h2, List.map_append, List.filter_cons, List.filter_cons]
      simp only [bne_iff_ne, ne_eq, hlab, not_false_iff, if_true, beq_iff_eq, if_false, List.flatMap_cons, List.nil_append]
      exact ⟨by rw [ih1, hcov], ih2⟩

/-- **C42.** The entries of the debug file of an accepted program whose symbols are tidy: those that are not labels cover
exactly the bytes emitted, each once and in order; those that are labels are exactly the labels announced. -/
theorem C42_entries_partial (files : Files) (fuel : Nat) (filename : Str) (s : Asm) (h : assemble files fuel filename = some (true, s))
    (hl : ∀ x ∈ debugSymbols s.log, x.2.region.start.line ≠ 0) (ht : Tidy (debugSymbols s.log)) :
    ((Dbg.file s.log).filter (·.type != .label)).flatMap covered = (emitted s.log).reverse ∧
      ((Dbg.file s.log).filter (·.type == .label)).map (fun e => (e.addrMin, e.addrMax, e.id, e.region)) =
        (labels s.log).reverse.map (fun x => (x.1, x.1, x.2.id, x.2.region)) := by
  obtain ⟨gs, h1, h2, h3⟩ := C42_runs s.log hl
  obtain ⟨h4, h5⟩ := runs_covered ht h1 h2 h3
  rw [h4, h5, ← C42_bytes files fuel filename s h]
  have e1 : ∀ log : List Event, ((debugSymbols log).filter (·.2.type != .label)).map (·.1) = (symbolBytes log).reverse := by
    intro log
    unfold debugSymbols symbolBytes
    rw [List.filter_filterMap, List.map_filterMap, ← List.filterMap_reverse]
    apply List.filterMap_congr
    intro e _
    cases e with
    | sym a i =>
      dsimp only
      by_cases hd : debugType i.type = true <;> by_cases hi : i.type = SymType.label <;> simp [hd, hi, Option.guard]
    | rom => rfl
    | error => rfl
    | warning => rfl
    | fopen => rfl
    | fclose => rfl
    | ref => rfl
  have e2 : ∀ log : List Event, (debugSymbols log).filter (·.2.type == .label) = (labels log).reverse := by
    intro log
    unfold debugSymbols labels
    rw [List.filter_filterMap, ← List.filterMap_reverse]
    apply List.filterMap_congr
    intro e _
    cases e with
    | sym a i =>
      dsimp only
      by_cases hi : i.type = .label <;> simp [hi, debugType]
    | rom => rfl
    | error => rfl
    | warning => rfl
    | fopen => rfl
    | fclose => rfl
    | ref => rfl
  exact ⟨e1 _, by rw [e2]⟩

/-! ## Examples -/

instance (x y : Short × SymInfo) : Decidable (SamePlace x y) := by unfold SamePlace; infer_instance

theorem tidy_iff (l : List (Short × SymInfo)) :
    Tidy l ↔ l.IsChain fun x y => SamePlace x y → x.2.type ≠ .label ∧ y.1.toNat = x.1.toNat + 1 := by
  rw [List.isChain_iff_forall_rel_of_append_cons_cons]
  exact ⟨fun h a b l₁ l₂ e => h l₁ a b l₂ e, fun h a x y b e => h e⟩

/-- The log of an assembly. -/
def logOf (fs : List (String × String)) : List Event :=
  match assemble (filesOf fs) 100 (str "m") with
  | some (true, s) => s.log
  | _ => []

/-- The entries of the debug file: kind, addresses, number. -/
def entriesOf (fs : List (String × String)) : List (SymType × Short × Short × Short) := (Dbg.file (logOf fs)).map fun e => (e.type, e.addrMin, e.addrMax, e.id)

/-- A program with two opcodes, a short number and a label meets the assumptions of `C42_entries_partial`. -/
example : entriesOf [("m", "INC #1234 @x")] =
    [(.opcode, 0x100, 0x100, 1), (.opcode, 0x101, 0x101, 0xa0), (.number, 0x102, 0x103, 0x1234), (.label, 0x104, 0x104, 1)] := by decide +kernel

example : Tidy (debugSymbols (logOf [("m", "INC #1234 @x")])) := by
  rw [tidy_iff]
  decide +kernel

example : ∀ x ∈ debugSymbols (logOf [("m", "INC #1234 @x")]), x.2.region.start.line ≠ 0 := by decide +kernel

/-- **C42 is violated**: two uses of a macro in a row are merged although they are apart; the entry covers addresses at which
nothing was emitted. -/
theorem C42_gap_violated : entriesOf [("m", "%z { INC } z $2 z")] = [(.opcode, 0x100, 0x103, 1)] ∧
    emitted (logOf [("m", "%z { INC } z $2 z")]) = [0x103, 0x100] := ⟨by decide +kernel, by decide +kernel⟩

/-- **C42 is violated**: a use of a macro at a lower address is merged into an entry whose addresses are in the wrong order;
no entry covers the bytes. -/
theorem C42_order_violated : entriesOf [("m", "%z { INC } |200 z |100 z")] = [(.opcode, 0x200, 0x100, 1)] ∧
    emitted (logOf [("m", "%z { INC } |200 z |100 z")]) = [0x100, 0x200] := ⟨by decide +kernel, by decide +kernel⟩

/-- **C42 is violated**: labels in a macro are merged, although they have different numbers. -/
theorem C42_label_violated : entriesOf [("m", "%z { @@ } z z")] = [(.label, 0x100, 0x100, 1)] ∧
    (labels (logOf [("m", "%z { @@ } z z")])).map (fun x => (x.1, x.2.id)) = [(0x100, 2), (0x100, 1)] := ⟨by decide +kernel, by decide +kernel⟩

end Buxn.Asm
