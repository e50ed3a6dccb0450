import Verif.Asm.AcceptsGrow
/-!
# C80: writing succeeds
-/

namespace Buxn.Asm.Meaning
open Buxn.VM Buxn.Asm Buxn.Asm.Spec

/-- Not an error, and nothing that matters for the next words changes. -/
structure Calmly (s s' : Asm) : Prop where
  success : s'.success = s.success
  depth : s'.depth = s.depth
  symtab : s'.symtab = s.symtab
  log : ∀ e ∈ s.log, e ∈ s'.log

theorem Calmly.refl (s : Asm) : Calmly s s := ⟨rfl, rfl, rfl, fun _ h => h⟩

theorem Calmly.trans {a b c : Asm} (h : Calmly a b) (h' : Calmly b c) : Calmly a c :=
  ⟨h'.1.trans h.1, h'.2.trans h.2, h'.3.trans h.3, fun e he => h'.4 e (h.4 e he)⟩

/-- A result that is not an error. -/
def Succeeds (s : Asm) (r : Bool × Asm) : Prop := r.1 = true ∧ Calmly s r.2

theorem Succeeds.andThen {s : Asm} {r : Bool × Asm} {f : Asm → Bool × Asm} (h : Succeeds s r) (h' : Succeeds r.2 (f r.2)) : Succeeds s (andThen r f) := by
  unfold Asm.andThen
  rw [if_pos h.1]
  exact ⟨h'.1, h.2.trans h'.2⟩

theorem putSymbol_calm (a : Short) (i : SymInfo) (s : Asm) : Calmly s (putSymbol a i s) := ⟨rfl, rfl, rfl, fun _ h => List.mem_cons_of_mem _ h⟩
theorem putSymbol2_calm (a : Short) (i : SymInfo) (s : Asm) : Calmly s (putSymbol2 a i s) := ⟨rfl, rfl, rfl, fun _ h => List.mem_cons_of_mem _ (List.mem_cons_of_mem _ h)⟩
theorem markRef_calm (a : Short) (k : RefKind) (z : RefSize) (n : Option Str) (id : Short) (s : Asm) : Calmly s (markRef a k z n id s) := ⟨rfl, rfl, rfl, fun _ h => List.mem_cons_of_mem _ h⟩
theorem warning_calm (m : String) (r : Region) (s : Asm) : Calmly s (warning m r s) := ⟨rfl, rfl, rfl, fun _ h => List.mem_cons_of_mem _ h⟩

theorem emit_can (t : Token) (b : Byte) (p : Bool) (s : Asm) (h : 0x100 ≤ s.writeAddr.toNat) :
    Succeeds s (emit t b p s) ∧ (emit t b p s).2.writeAddr = s.writeAddr + 1 := by
  have : ¬ s.writeAddr < RESET_VECTOR := by
    rw [BitVec.lt_def]
    show ¬ _ < 256
    omega
  unfold emit
  dsimp only
  rw [if_neg this]
  exact ⟨⟨rfl, ⟨rfl, rfl, rfl, fun _ h => List.mem_cons_of_mem _ h⟩⟩, rfl⟩

theorem emit2_can (t : Token) (x : Short) (p : Bool) (s : Asm) (h : ∀ a ∈ cells s.writeAddr .short, 0x100 ≤ a.toNat) : Succeeds s (emit2 t x p s) := by
  obtain ⟨h1, h2⟩ := emit_can t (hi8 x) p s (h _ (by simp [cells]))
  unfold emit2
  refine h1.andThen (Succeeds.andThen (emit_can t (lo8 x) p _ ?_).1 ⟨rfl, .refl _⟩)
  rw [h2]
  exact h _ (by simp [cells])

theorem emitOpcode_can (t : Token) (op : Byte) (r : Bool) (s : Asm) (h : 0x100 ≤ s.writeAddr.toNat) : Succeeds s (emitOpcode t op r s) :=
  (emit_can t op false s h).1.andThen ⟨rfl, putSymbol_calm _ _ _⟩

theorem emitByte_can (t : Token) (b : Byte) (r : Bool) (s : Asm) (h : 0x100 ≤ s.writeAddr.toNat) : Succeeds s (emitByte t b r s) :=
  (emit_can t b false s h).1.andThen ⟨rfl, putSymbol_calm _ _ _⟩

theorem emitShort_can (t : Token) (x : Short) (r : Bool) (s : Asm) (h : ∀ a ∈ cells s.writeAddr .short, 0x100 ≤ a.toNat) : Succeeds s (emitShort t x r s) :=
  (emit2_can t x false s h).andThen ⟨rfl, putSymbol2_calm _ _ _⟩

theorem textLoop_can (t : Token) (i : SymInfo) (cs : Str) (a : Short) (s : Asm) (h : ∀ p ∈ laidOut s.writeAddr cs, 0x100 ≤ p.1.toNat) :
    Succeeds s (textLoop t i cs a s) := by
  induction cs generalizing a s with
  | nil => exact ⟨rfl, .refl _⟩
  | cons c cs ih =>
    rw [textLoop]
    obtain ⟨h1, h2⟩ := emit_can t c false s (h (s.writeAddr, c) (by simp [laidOut]))
    refine h1.andThen ?_
    obtain ⟨h3, h4⟩ := ih (a + 1) (putSymbol a i (emit t c false s).2) (fun p hp => h p (by
      have : (putSymbol a i (emit t c false s).2).writeAddr = s.writeAddr + 1 := h2
      rw [this] at hp
      rw [laidOut]
      exact List.mem_append_left _ hp))
    exact ⟨h3, (putSymbol_calm _ _ _).trans h4⟩

theorem emitPlaceholder_can (t : Token) (k : RefKind) (z : RefSize) (name : Option Str) (id : Short) (r : Bool) (s : Asm)
    (h : ∀ a ∈ cells s.writeAddr z, 0x100 ≤ a.toNat) : Succeeds s (emitPlaceholder t k z name id r s) := by
  unfold emitPlaceholder
  cases z with
  | byte => exact (emit_can t 0x01 false s (h _ (by simp [cells]))).1.andThen ⟨rfl, (markRef_calm _ _ _ _ _ _).trans (putSymbol_calm _ _ _)⟩
  | short => exact (emit2_can t 0x01 false s h).andThen ⟨rfl, (markRef_calm _ _ _ _ _ _).trans (putSymbol2_calm _ _ _)⟩

theorem calculateAddr_calm (t : Token) (k : RefKind) (a l : Short) (s : Asm) : Calmly s (calculateAddr t k a l s).2 := by
  cases k with
  | zero =>
    unfold calculateAddr
    dsimp only
    split
    · exact warning_calm _ _ _
    · exact .refl s
  | abs => exact .refl s
  | rel => exact .refl s

theorem emitAddr_can (t : Token) (k : RefKind) (z : RefSize) (v : Int) (i : Option SymInfo) (p : Bool) (s : Asm)
    (hv : k = .rel → z = .byte → -128 ≤ v ∧ v ≤ 127) (h : ∀ a ∈ cells s.writeAddr z, 0x100 ≤ a.toNat) : Succeeds s (emitAddr t k z v i p s) := by
  unfold emitAddr
  cases z with
  | byte =>
    dsimp only
    rw [if_neg (by rintro ⟨h1, h2⟩; have := hv h1 rfl; omega)]
    refine (emit_can t _ p s (h _ (by simp [cells]))).1.andThen ⟨rfl, ?_⟩
    cases i
    · exact .refl _
    · exact putSymbol_calm _ _ _
  | short =>
    dsimp only
    refine (emit2_can t _ p s h).andThen ⟨rfl, ?_⟩
    cases i
    · exact .refl _
    · exact putSymbol2_calm _ _ _

theorem emitBackwardRef_can (t : Token) (k : RefKind) (z : RefSize) (name : Option Str) (id l : Short) (w r : Bool) (s : Asm)
    (hr : InReach k z s.writeAddr l) (h : ∀ a ∈ cells s.writeAddr z, 0x100 ≤ a.toNat) : Succeeds s (emitBackwardRef t k z name id l w r s) := by
  unfold emitBackwardRef
  dsimp only
  have h0 := calculateAddr_calm t k s.writeAddr l s
  have hv := calculateAddr_value t k s.writeAddr l s
  have ha := (calculateAddr_emits t k s.writeAddr l s).addr
  generalize calculateAddr t k s.writeAddr l s = c at *
  obtain ⟨v, s1⟩ := c
  dsimp only at *
  subst hv
  have h1 := Succeeds.andThen (f := fun s => (true, if w = true then markRef s1.writeAddr k z name id s else s))
    (emitAddr_can t k z (refValue k s.writeAddr l) (if w then some { type := .labelRef, name := name, region := argRegion r t.region, id := id } else none) (!w) s1
    hr (by rw [ha]; exact h)) ⟨rfl, by
      dsimp only
      split
      · exact markRef_calm _ _ _ _ _ _
      · exact .refl _⟩
  rw [ha] at h1
  exact ⟨h1.1, h0.trans h1.2⟩

/-- All references of a list can be filled in. -/
theorem patchAll_can (name : Str) (id l : Short) (fs : List FRef) (s : Asm) (h : ∀ f ∈ fs, InReach f.kind f.size f.addr l ∧ ∀ a ∈ cells f.addr f.size, 0x100 ≤ a.toNat) :
    Calmly s (patchAll name id l fs s) := by
  induction fs generalizing s with
  | nil => exact .refl s
  | cons f fs ih =>
    rw [patchAll]
    obtain ⟨h1, h2⟩ := h f List.mem_cons_self
    have h3 := (emitBackwardRef_can f.token f.kind f.size (some name) id l false false { s with writeAddr := f.addr } h1 h2).2
    exact (Calmly.trans (a := s) (b := { s with writeAddr := f.addr }) ⟨rfl, rfl, rfl, fun _ h => h⟩ h3).trans (ih _ fun g hg => h g (List.mem_cons_of_mem _ hg))

/-! ## The state of the assembler -/

/-- A label or a macro is announced at a place of the source. -/
def Declared (log : List Event) (type : SymType) (a : Short) (name : Str) (r : Region) : Prop :=
  ∃ i, Event.sym a i ∈ log ∧ i.type = type ∧ i.name = some name ∧ i.generated = false ∧ i.region = r

/-- An entry of the symbol table between words. What has not been used was found first where it is defined. -/
def Settled (active : List Str) (log : List Event) (name : Str) (n : Node) : Entry → Prop
  | .unknown => False
  | .macro _ _ x => (x = true ↔ name ∈ active) ∧ (n.referenced = false → Declared log .macro 0 name n.token.region)
  | .label _ a => n.referenced = false → Declared log .label a name n.token.region
  | .forward _ fs => fs ≠ []

theorem Settled.more {active : List Str} {log log' : List Event} {name : Str} {n : Node} {e : Entry} (h : Settled active log name n e) (hl : ∀ x ∈ log, x ∈ log') : Settled active log' name n e := by
  cases e with
  | unknown => exact h
  | forward _ _ => exact h
  | label _ a =>
    intro hr
    obtain ⟨i, h1, h2⟩ := h hr
    exact ⟨i, hl _ h1, h2⟩
  | «macro» _ _ x =>
    refine ⟨h.1, fun hr => ?_⟩
    obtain ⟨i, h1, h2⟩ := h.2 hr
    exact ⟨i, hl _ h1, h2⟩

/-- No error, at a depth, and within some macros. -/
structure Ok (d : Nat) (active : List Str) (s : Asm) : Prop where
  success : s.success = true
  depth : s.depth = d
  settled : ∀ name n, s.symtab name = some n → Settled active s.log name n n.entry

variable {d : Nat} {active : List Str}

theorem Ok.calmly {s s' : Asm} (h : Ok d active s) (c : Calmly s s') : Ok d active s' :=
  ⟨c.success.trans h.success, c.depth.trans h.depth, by rw [c.symtab]; exact fun k n hn => (h.settled k n hn).more c.log⟩

theorem Ok.set {s : Asm} (h : Ok d active s) (name : Str) (n : Node) (hn : Settled active s.log name n n.entry) : Ok d active (setNode name n s) :=
  ⟨h.success, h.depth, fun k m hk => by
    by_cases e : k = name
    · subst e
      have : (setNode k n s).symtab k = some n := by simp [setNode]
      rw [this] at hk; cases hk; exact hn
    · have : (setNode name n s).symtab k = s.symtab k := by simp [setNode, e]
      rw [this] at hk; exact h.settled k m hk⟩

end Buxn.Asm.Meaning
