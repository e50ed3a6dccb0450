import Verif.Asm.Refs
import Verif.VM.Spec
/-!
# C35, C36: what the runes write, and where the machine jumps
-/

namespace Buxn.Asm
open Buxn.VM Spec

/-! ## Specification -/

namespace Spec

/-- The runes that refer to labels: the opcode in front of the reference, what the reference looks like. -/
def runes : List (Byte × Option Byte × RefKind × RefSize) :=
  [(ch '.', some 0x80, .zero, .byte), (ch '-', none, .zero, .byte), (ch ',', some 0x80, .rel, .byte), (ch '_', none, .rel, .byte),
   (ch ';', some 0xa0, .abs, .short), (ch '=', none, .abs, .short), (ch '!', some 0x40, .rel, .short), (ch '?', some 0x20, .rel, .short)]

/-- The full name of a label in a scope; `none` for a lambda and for `@`, which have no name. -/
def fullName (scope ref : Str) : Option Str :=
  if ref = str "{" ∨ ref = str "@" then none
  else match ref with
    | c :: rest => if c = ch '&' ∨ c = ch '/' then some (scope ++ str "/" ++ rest) else some ref
    | [] => none

/-- Code with a reference has been written at the current address: an opcode (if there is one) and then the reference. -/
def WritesRef (s s' : Asm) (opcode : Option Byte) (kind : RefKind) (size : RefSize) (target : Option Str) : Prop :=
  let addr := if opcode.isSome then s.writeAddr + 1 else s.writeAddr
  (∃ id, refs s'.log = ⟨addr, kind, size, target, id⟩ :: refs s.log) ∧
  (∃ n, written s'.log = n ++ (opcode.toList.map fun op => (s.writeAddr, op)) ++ written s.log ∧
    n.map (·.1) = match size with | .byte => [addr] | .short => [addr + 1, addr]) ∧
  labels s'.log = labels s.log

end Spec

/-! ## What the runes write -/

/-- The same, for the functions. -/
def AddsRef (s s' : Asm) (k : RefKind) (z : RefSize) (target : Option Str) : Prop :=
  ∃ n id, n.map (·.1) = cells s.writeAddr z ∧
    view s'.log = ⟨n ++ written s.log, cells s.writeAddr z ++ emitted s.log, ⟨s.writeAddr, k, z, target, id⟩ :: Spec.refs s.log, labels s.log⟩

theorem Step.addsRef {s s' : Asm} {n : List (Short × Byte)} {k : RefKind} {z : RefSize} {t : Option Str} {id : Short} (hn : n.map (·.1) = cells s.writeAddr z)
    (h : Step s s' n (cells s.writeAddr z) [⟨s.writeAddr, k, z, t, id⟩] []) : AddsRef s s' k z t := ⟨n, id, hn, h.view⟩

theorem AddsRef.congr {s s0 s' : Asm} {k : RefKind} {z : RefSize} {t : Option Str} (h : AddsRef s0 s' k z t) (hl : s0.log = s.log) (hw : s0.writeAddr = s.writeAddr) :
    AddsRef s s' k z t := by
  unfold AddsRef at *
  rw [hl, hw] at h
  exact h

theorem emitForwardRef_adds (t : Token) (k : RefKind) (z : RefSize) (name : Str) (n : Node) (r : Bool) (s : Asm)
    (h : (emitForwardRef t k z name n r s).2.success = true) : AddsRef s (emitForwardRef t k z name n r s).2 k z (some name) := by
  unfold emitForwardRef addForwardRef at *
  dsimp only at *
  generalize forwardOf n.entry (s.numLabels + 1) = fo at *
  have hwa : (numberLabel n.entry s).writeAddr = s.writeAddr := by unfold numberLabel; split <;> rfl
  have hlog : (numberLabel n.entry s).log = s.log := by unfold numberLabel; split <;> rfl
  generalize numberLabel n.entry s = s0 at *
  obtain ⟨st, he⟩ := andThen_ok (emitPlaceholder_step t k z (some name) fo.1 r (setNode name { n with entry := .forward fo.1 fo.2 } s0)) (setNode_ext _ _ _) h
  rw [he]
  have := Step.addsRef (numberAt_addrs _ _ _) st
  exact this.congr hlog hwa

theorem emitLambdaRef_adds (t : Token) (k : RefKind) (z : RefSize) (r : Bool) (s : Asm)
    (h : (emitLambdaRef t k z r s).2.success = true) : AddsRef s (emitLambdaRef t k z r s).2 k z none := by
  unfold emitLambdaRef at *
  dsimp only at *
  obtain ⟨st, he⟩ := andThen_ok (emitPlaceholder_step t k z none (s.numLabels + 1) r { s with numLabels := s.numLabels + 1 }) (.same rfl rfl) h
  rw [he]
  have := Step.addsRef (numberAt_addrs _ _ _) st
  exact this.congr rfl rfl

theorem emitBackwardRef_adds (t : Token) (k : RefKind) (z : RefSize) (name : Option Str) (id l : Short) (r : Bool) (s : Asm)
    (h : (emitBackwardRef t k z name id l true r s).2.success = true) : AddsRef s (emitBackwardRef t k z name id l true r s).2 k z name := by
  obtain ⟨_, _, st⟩ := emitBackwardRef_step t k z name id l true r s h
  exact Step.addsRef (numberAt_addrs _ _ _) st

theorem findOrCreate_some {t : Token} {name : Str} {s s' : Asm} {n : Node} (h : findOrCreate t name s = (some n, s')) :
    s'.log = s.log ∧ s'.writeAddr = s.writeAddr ∧ s'.success = s.success ∧ s'.atLabels = s.atLabels := by
  unfold findOrCreate at h
  split at h
  · cases h
  · split at h
    · cases h
    · split at h
      · cases h
      · split at h
        · cases h
        · split at h
          · cases h; exact ⟨rfl, rfl, rfl, rfl⟩
          · cases h; exact ⟨rfl, rfl, rfl, rfl⟩

theorem findOrCreate_keepsScope {t : Token} {name : Str} {s s' : Asm} {n : Node} (h : findOrCreate t name s = (some n, s')) : s'.scope = s.scope := by
  unfold findOrCreate at h
  split at h
  · cases h
  · split at h
    · cases h
    · split at h
      · cases h
      · split at h
        · cases h
        · split at h
          · cases h; rfl
          · cases h; rfl

/-- Resolving a name. -/
theorem resolveLabelRef_some {t : Token} {ref full : Str} {s s' : Asm} (h : resolveLabelRef t ref s = (some full, s')) (hb : ref ≠ [ch '{']) :
    s' = s ∧ (if full = [ch '@'] then none else some full) = fullName s.scope ref := by
  unfold resolveLabelRef at h
  split at h
  · cases h
  · rename_i c rest
    unfold fullName
    have hb' : c :: rest ≠ str "{" := hb
    by_cases hc : c = ch '&' ∨ c = ch '/'
    · rw [if_pos hc] at h
      unfold resolveLocalName at h
      split at h
      · cases h
      · cases h
        refine ⟨rfl, ?_⟩
        have h1 : c :: rest ≠ str "@" := by
          intro h; cases h
          revert hc; decide
        have h2 : s.scope ++ ch '/' :: rest ≠ [ch '@'] := by
          intro h
          have h2 := congrArg List.length h
          rw [List.length_append] at h2
          simp only [List.length_cons, List.length_nil] at h2
          have h3 : s.scope = [] := List.length_eq_zero_iff.1 (by omega)
          rw [h3, List.nil_append] at h
          simp only [List.cons.injEq] at h
          exact absurd h.1 (by decide)
        rw [if_neg h2, if_neg (by rintro (h | h); exacts [hb' h, h1 h])]
        dsimp only
        rw [if_pos hc, List.append_assoc]
        rfl
    · rw [if_neg hc] at h
      cases h
      refine ⟨rfl, ?_⟩
      dsimp only
      by_cases hat : c :: rest = [ch '@']
      · rw [if_pos hat, if_pos (.inr hat)]
      · rw [if_neg hat, if_neg (by rintro (h | h); exacts [hb' h, hat h]), if_neg hc]

theorem emitLabelRef_adds (t : Token) (k : RefKind) (z : RefSize) (name : Str) (r : Bool) (s : Asm)
    (hok : (emitLabelRef t k z name r s).1 = true) (h : (emitLabelRef t k z name r s).2.success = true) :
    AddsRef s (emitLabelRef t k z name r s).2 k z (fullName s.scope name) := by
  unfold emitLabelRef at *
  by_cases hb : name = [ch '{']
  · rw [if_pos hb] at h ⊢
    have : fullName s.scope name = none := by unfold fullName; rw [if_pos (.inl hb)]
    rw [this]
    exact emitLambdaRef_adds _ _ _ _ _ h
  · rw [if_neg hb] at hok h ⊢
    split
    · rename_i h1; rw [h1] at hok; cases hok
    · rename_i full s1 h1
      rw [h1] at hok h
      obtain ⟨rfl, h2⟩ := resolveLabelRef_some h1 hb
      rw [← h2]
      dsimp only at hok h
      by_cases hat : full = [ch '@']
      · rw [if_pos hat] at hok h ⊢
        rw [if_pos hat]
        split
        · rename_i l ls hl
          rw [hl] at hok h
          exact (emitBackwardRef_adds _ _ _ _ _ _ _ _ h).congr rfl rfl
        · rename_i hl
          rw [hl] at hok; cases hok
      · rw [if_neg hat] at hok h ⊢
        rw [if_neg hat]
        cases full with
        | nil => cases hok
        | cons c rest =>
          dsimp only at hok h ⊢
          by_cases hrn : isRunic c = true
          · rw [if_pos hrn] at hok; cases hok
          · rw [if_neg hrn] at hok h ⊢
            generalize hfc : findOrCreate t (c :: rest) s1 = fc at hok h ⊢
            obtain ⟨o, s2⟩ := fc
            cases o with
            | none => cases hok
            | some n =>
              obtain ⟨f1, f2, _⟩ := findOrCreate_some hfc
              dsimp only at hok h ⊢
              cases he : n.entry with
              | label id addr => rw [he] at hok h; exact (emitBackwardRef_adds _ _ _ _ _ _ _ _ h).congr f1 f2
              | unknown => rw [he] at hok h; exact (emitForwardRef_adds _ _ _ _ _ _ _ h).congr f1 f2
              | forward id fs => rw [he] at hok h; exact (emitForwardRef_adds _ _ _ _ _ _ _ h).congr f1 f2
              | «macro» a b c => rw [he] at hok; cases hok

theorem AddsRef.writes {s s' : Asm} {k : RefKind} {z : RefSize} {t : Option Str} (h : AddsRef s s' k z t) : WritesRef s s' none k z t := by
  obtain ⟨n, id, hn, hv⟩ := h
  simp only [Asm.view, View.mk.injEq] at hv
  refine ⟨⟨id, hv.2.2.1⟩, ⟨n, by simpa using hv.1, ?_⟩, hv.2.2.2⟩
  rw [hn]; cases z <;> rfl

/-- An opcode and a reference. -/
theorem opcode_then_ref (t : Token) (op : Byte) (k : RefKind) (z : RefSize) (target : Option Str) (b : Bool) (s : Asm) (f : Asm → Bool × Asm) (hx : ∀ s, Ext s (f s).2)
    (hf : ∀ s1, s1.scope = s.scope → s1.symtab = s.symtab → (f s1).1 = true → (f s1).2.success = true → AddsRef s1 (f s1).2 k z target)
    (hok : (andThen (emitOpcode t op b s) f).1 = true) (h : (andThen (emitOpcode t op b s) f).2.success = true) :
    WritesRef s (andThen (emitOpcode t op b s) f).2 (some op) k z target := by
  have hop : (emitOpcode t op b s).2.success = true → (emitOpcode t op b s).1 = true ∧ (emitOpcode t op b s).2.writeAddr = s.writeAddr + 1 ∧
      (emitOpcode t op b s).2.scope = s.scope ∧ (emitOpcode t op b s).2.symtab = s.symtab ∧ Step s (emitOpcode t op b s).2 [(s.writeAddr, op)] [s.writeAddr] [] [] := by
    intro h
    unfold emitOpcode at h ⊢
    dsimp only at h ⊢
    obtain ⟨⟨h1, h2⟩, he⟩ := andThen_ok (emit_step t op false s) (putSymbol_ext _ _ _) h
    have hsc : (emit t op false s).2.scope = s.scope := by unfold emit; dsimp only; split <;> rfl
    rw [he]
    exact ⟨rfl, h1, hsc, emit_symtab _ _ _ _, h2.trans (putSymbol_step _ _ _ (by simp))⟩
  obtain ⟨⟨h1, h2, h3, st⟩, he⟩ := andThen_ok hop (hx _) h
  rw [he] at hok h ⊢
  obtain ⟨n, id, hn, hv⟩ := hf _ h2 h3 hok h
  have hv0 := st.view
  simp only [Asm.view, View.mk.injEq, List.nil_append] at hv hv0
  rw [h1] at hn hv
  refine ⟨⟨id, by rw [hv.2.2.1, hv0.2.2.1]; rfl⟩, ⟨n, ?_, ?_⟩, by rw [hv.2.2.2, hv0.2.2.2]⟩
  · rw [hv.1, hv0.1]; simp
  · rw [hn]; cases z <;> rfl

theorem emitLabelRef_ext (t : Token) (k : RefKind) (z : RefSize) (name : Str) (r : Bool) (s : Asm) : Ext s (emitLabelRef t k z name r s).2 :=
  (emitLabelRef_good ext_atoms.closed t k z name r s).1.1

/-- **C35.** Every rune for references writes its opcode and a reference of its kind to the label that is meant. -/
theorem C35_runes (files : Files) (nested : Nested) (t : Token) (u u' : Unit) (s s' : Asm) (rune : Byte) (op : Option Byte) (k : RefKind) (z : RefSize) (ref : Str)
    (hr : (rune, op, k, z) ∈ runes) (ht : t.lex = rune :: ref) (h : processToken files nested t u s = some (true, u', s')) (hs : s'.success = true) :
    u' = u ∧ WritesRef s s' op k z (fullName s.scope ref) := by
  unfold processToken at h
  dsimp only at h
  rw [ht] at h
  simp only [List.headD_cons] at h
  simp only [runes, List.mem_cons, Prod.mk.injEq, List.not_mem_nil, or_false] at hr
  have plain : ∀ k z, keep u (emitLabelRef t k z ref true s) = some (true, u', s') → u' = u ∧ WritesRef s s' none k z (fullName s.scope ref) := by
    intro k z h
    simp only [keep, Option.some.injEq, Prod.mk.injEq] at h
    obtain ⟨h1, h2, rfl⟩ := h
    exact ⟨h2.symm, (emitLabelRef_adds t k z ref true s h1 hs).writes⟩
  have coded : ∀ k z (op : Byte), keep u (andThen (emitOpcode t op true s) fun s => emitLabelRef t k z ref true s) = some (true, u', s') →
      u' = u ∧ WritesRef s s' (some op) k z (fullName s.scope ref) := by
    intro k z op h
    simp only [keep, Option.some.injEq, Prod.mk.injEq] at h
    obtain ⟨h1, h2, rfl⟩ := h
    refine ⟨h2.symm, opcode_then_ref t op k z _ true s _ (fun s => emitLabelRef_ext t k z ref true s) ?_ h1 hs⟩
    intro s1 hsc _ ho hs1
    rw [← hsc]
    exact emitLabelRef_adds t k z ref true s1 ho hs1
  rcases hr with ⟨rfl, rfl, rfl, rfl⟩ | ⟨rfl, rfl, rfl, rfl⟩ | ⟨rfl, rfl, rfl, rfl⟩ | ⟨rfl, rfl, rfl, rfl⟩ | ⟨rfl, rfl, rfl, rfl⟩ | ⟨rfl, rfl, rfl, rfl⟩ |
    ⟨rfl, rfl, rfl, rfl⟩ | ⟨rfl, rfl, rfl, rfl⟩
  · exact coded _ _ _ h
  · exact plain _ _ h
  · exact coded _ _ _ h
  · exact plain _ _ h
  · exact coded _ _ _ h
  · exact plain _ _ h
  · exact coded _ _ _ h
  · exact coded _ _ _ h

theorem emitBackwardRef_ext' (t : Token) (k : RefKind) (z : RefSize) (name : Option Str) (id l : Short) (r : Bool) :
    ∀ s, Ext s (emitBackwardRef t k z name id l true r s).2 := fun _ => emitBackwardRef_ext _ _ _ _ _ _ _ _ _

theorem emitForwardRef_ext' (t : Token) (k : RefKind) (z : RefSize) (name : Str) (n : Node) (r : Bool) : ∀ s, Ext s (emitForwardRef t k z name n r s).2 := by
  intro s
  unfold emitForwardRef addForwardRef
  exact (numberLabel_ext _ _).trans (Ext.trans (setNode_ext _ _ _) (andThen_ext (emitPlaceholder_ext _ _ _ _ _ _ _) fun _ => setNode_ext _ _ _))

theorem WritesRef.congr {s s0 s' : Asm} {op : Option Byte} {k : RefKind} {z : RefSize} {t : Option Str} (h : WritesRef s0 s' op k z t) (hl : s0.log = s.log)
    (hw : s0.writeAddr = s.writeAddr) : WritesRef s s' op k z t := by
  unfold WritesRef at *
  rw [hl, hw] at h
  exact h

/-- **C35.** A lambda that is called, a local label that is called, and a word that is no macro: a `JSI` to the label. -/
theorem C35_calls (files : Files) (nested : Nested) (t : Token) (u u' : Unit) (s s' : Asm)
    (ht : t.lex = str "{" ∨ t.lex.head? = some (ch '/') ∨
      ((∀ c, t.lex.head? = some c → isRunic c = false) ∧ isNumber t.lex = false ∧ parseOpcode t.lex = none ∧ ∀ n, s.symtab t.lex = some n → ¬ isMacro n.entry))
    (h : processToken files nested t u s = some (true, u', s')) (hs : s'.success = true) :
    u' = u ∧ WritesRef s s' (some 0x60) .rel .short (fullName s.scope t.lex) := by
  have jsi : keep u (emitJsi t s) = some (true, u', s') → u' = u ∧ WritesRef s s' (some 0x60) .rel .short (fullName s.scope t.lex) := by
    intro h
    simp only [keep, Option.some.injEq, Prod.mk.injEq] at h
    obtain ⟨h1, h2, rfl⟩ := h
    refine ⟨h2.symm, opcode_then_ref t 0x60 .rel .short _ false s _ (fun s => emitLabelRef_ext t _ _ _ _ s) ?_ h1 hs⟩
    intro s1 hsc _ ho hs1
    rw [← hsc]
    exact emitLabelRef_adds t _ _ _ _ s1 ho hs1
  unfold processToken at h
  dsimp only at h
  rcases ht with ht | ht | ⟨hrun, hnum, hop, hmac⟩
  · rw [ht] at h
    exact jsi h
  · obtain ⟨rest, hl⟩ : ∃ rest, t.lex = ch '/' :: rest := by
      cases hl : t.lex with
      | nil => rw [hl] at ht; cases ht
      | cons c rest => rw [hl] at ht; simp at ht; exact ⟨rest, by rw [ht]⟩
    rw [hl] at h
    simp only [List.headD_cons] at h
    exact jsi h
  · have hc : isRunic (t.lex.headD 0) = false := by
      cases hl : t.lex with
      | nil => decide
      | cons c rest => exact hrun c (by rw [hl]; rfl)
    generalize t.lex.headD 0 = c at h hc
    simp only [isRunic, Bool.or_eq_false_iff, decide_eq_false_iff_not] at hc
    simp only [hc, if_false, hnum, Bool.false_eq_true] at h
    unfold processWord at h
    rw [hop] at h
    dsimp only at h
    generalize hfc : findOrCreate t t.lex s = fc at h
    obtain ⟨o, s1⟩ := fc
    cases o with
    | none => cases h
    | some n =>
      obtain ⟨f1, f2, f3, f4⟩ := findOrCreate_some hfc
      have fsc := findOrCreate_keepsScope hfc
      have hnode := findOrCreate_node _ _ _ _ _ hfc
      have hname : fullName s.scope t.lex = some t.lex := by
        unfold fullName
        have hb : t.lex ≠ str "{" := by intro hb; have := hrun (ch '{') (by rw [hb]; rfl); revert this; decide
        have hat : t.lex ≠ str "@" := by intro hb; have := hrun (ch '@') (by rw [hb]; rfl); revert this; decide
        rw [if_neg (by rintro (h | h); exacts [hb h, hat h])]
        cases hl : t.lex with
        | nil => unfold findOrCreate at hfc; rw [hl] at hfc; cases hfc
        | cons d rest =>
          dsimp only
          rw [if_neg]
          have := hrun d (by rw [hl]; rfl)
          rintro (rfl | rfl) <;> revert this <;> decide
      rw [hname]
      dsimp only at h
      have fwd : some ((andThen (emitOpcode t 0x60 false s1) fun s => emitForwardRef t .rel .short t.lex n false s).1, u,
          (andThen (emitOpcode t 0x60 false s1) fun s => emitForwardRef t .rel .short t.lex n false s).2) = some (true, u', s') →
          u' = u ∧ WritesRef s s' (some 0x60) .rel .short (some t.lex) := by
        intro h
        simp only [Option.some.injEq, Prod.mk.injEq] at h
        obtain ⟨h1, h2, rfl⟩ := h
        refine ⟨h2.symm, WritesRef.congr (opcode_then_ref t 0x60 .rel .short _ false s1 _ (emitForwardRef_ext' _ _ _ _ _ _) ?_ h1 hs) f1 f2⟩
        intro s2 _ _ _ hs2
        exact emitForwardRef_adds _ _ _ _ _ _ _ hs2
      cases he : n.entry with
      | unknown => rw [he] at h; exact fwd h
      | forward id fs => rw [he] at h; exact fwd h
      | «macro» a b d =>
        exfalso
        -- the table already had it
        have hold : s.symtab t.lex = some n := by
          unfold findOrCreate at hfc
          split at hfc
          · cases hfc
          · split at hfc
            · cases hfc
            · split at hfc
              · cases hfc
              · split at hfc
                · cases hfc
                · split at hfc
                  · rename_i hx; cases hfc; exact hx
                  · cases hfc; cases he
        exact hmac n hold (by rw [he]; trivial)
      | label id addr =>
        rw [he] at h
        simp only [Option.some.injEq, Prod.mk.injEq] at h
        obtain ⟨h1, h2, rfl⟩ := h
        refine ⟨h2.symm, WritesRef.congr (opcode_then_ref t 0x60 .rel .short _ false _ _ (emitBackwardRef_ext' _ _ _ _ _ _ _) ?_ h1 hs) f1 f2⟩
        intro s2 _ _ _ hs2
        exact emitBackwardRef_adds _ _ _ _ _ _ _ _ hs2

/-! ## C36: where the machine jumps -/

/-- A relative byte that is in reach is one that the machine's relative addressing undoes. -/
theorem relative_back (a l : Short) (h : InReach .rel .byte a l) :
    Buxn.VM.Spec.relative ((a.toNat + 2) % 65536) (BitVec.ofInt 8 (refValue .rel a l)).toNat = l.toNat := by
  obtain ⟨h1, h2⟩ := h rfl rfl
  have hl := l.isLt
  have ha := a.isLt
  simp only [refValue] at *
  unfold Buxn.VM.Spec.relative Buxn.VM.Spec.signed
  rw [BitVec.toNat_ofInt]
  generalize hv : (l.toNat : Int) - (a.toNat + 2) = v at *
  have e : (((v % ((2 ^ 8 : Nat) : Int)).toNat : Nat) : Int) = v % 256 := by omega
  split
  · rename_i hlt
    rw [e]; omega
  · rename_i hlt
    rw [e]; omega

/-- A relative short is one that an immediate jump undoes. -/
theorem immediate_back (a l : Short) :
    (a.toNat + 2 + ((BitVec.ofInt 8 (refValue .rel a l / 256)).toNat * 256 + (BitVec.ofInt 8 (refValue .rel a l)).toNat)) % 65536 = l.toNat := by
  have hl := l.isLt
  have ha := a.isLt
  simp only [refValue, BitVec.toNat_ofInt]
  generalize hv : (l.toNat : Int) - (a.toNat + 2) = v at *
  omega

/-- The program is in memory, at least the bytes from `a - 1` to `a + 1`. -/
def Spec.InMemory (log : List Event) (a : Short) (vm : VM) : Prop := ∀ x ∈ [a - 1, a, a + 1], vm.memory x.toNat = image log x

section
variable {σ : Type}

theorem step_imm (m : Buxn.VM.Spec.Sys σ) (a : Short) (hpc : m.pc + 1 = a.toNat) : Buxn.VM.Spec.peekMem m.vm ((m.pc + 1) % 65536) 65536 2 =
    (m.vm.memory a.toNat).toNat * 256 + (m.vm.memory (a + 1).toNat).toNat := by
  have ha := a.isLt
  unfold Buxn.VM.Spec.peekMem
  rw [if_pos rfl, hpc, BitVec.toNat_add, show (1 : Short).toNat = 1 from rfl, show (2 ^ 16 : Nat) = 65536 from rfl]
  rw [Nat.mod_eq_of_lt (show a.toNat < 65536 from ha), Nat.mod_eq_of_lt (show a.toNat < 65536 from ha)]

/-- The two bytes after an opcode. -/
def immOf (m : Buxn.VM.Spec.Sys σ) : Nat := Buxn.VM.Spec.peekMem m.vm ((m.pc + 1) % 65536) 65536 2

/-- The byte after an opcode. -/
def litOf (m : Buxn.VM.Spec.Sys σ) : Nat := Buxn.VM.Spec.peekMem m.vm ((m.pc + 1) % 65536) 65536 1

def after (m : Buxn.VM.Spec.Sys σ) : Nat := (m.pc + 1) % 65536

/-- Where `JMI` jumps. -/
theorem step_jmi (cfg : Cfg) (H : Host σ) (m : Buxn.VM.Spec.Sys σ) (h : m.vm.memory m.pc = 0x40) :
    Buxn.VM.Spec.step cfg H m = .ok (some ⟨m.vm, m.host, (after m + 2 + immOf m) % 65536⟩) := by
  unfold Buxn.VM.Spec.step; simp only [h]; rfl

theorem step_jsi (cfg : Cfg) (H : Host σ) (m : Buxn.VM.Spec.Sys σ) (h : m.vm.memory m.pc = 0x60) :
    Buxn.VM.Spec.step cfg H m = .ok (some ⟨Buxn.VM.Spec.pushValue true 2 ((after m + 2) % 65536) m.vm, m.host, (after m + 2 + immOf m) % 65536⟩) := by
  unfold Buxn.VM.Spec.step; simp only [h]; rfl

theorem step_jci (cfg : Cfg) (H : Host σ) (m : Buxn.VM.Spec.Sys σ) (h : m.vm.memory m.pc = 0x20) :
    Buxn.VM.Spec.step cfg H m = .ok (some ⟨{ m.vm with wsp := m.vm.wsp - 1 }, m.host,
      (if m.vm.ws (m.vm.wsp - 1) = 0 then after m + 2 else after m + 2 + immOf m) % 65536⟩) := by
  unfold Buxn.VM.Spec.step; simp only [h]; rfl

theorem step_lit (cfg : Cfg) (H : Host σ) (m : Buxn.VM.Spec.Sys σ) (h : m.vm.memory m.pc = 0x80) :
    Buxn.VM.Spec.step cfg H m = .ok (some ⟨Buxn.VM.Spec.pushValue false 1 (litOf m) m.vm, m.host, (after m + 1) % 65536⟩) := by
  unfold Buxn.VM.Spec.step; simp only [h]; rfl

theorem step_jmp (cfg : Cfg) (H : Host σ) (m : Buxn.VM.Spec.Sys σ) (h : m.vm.memory m.pc = 0x0c) :
    Buxn.VM.Spec.step cfg H m = .ok (some ⟨{ m.vm with wsp := m.vm.wsp - 1 }, m.host, Buxn.VM.Spec.relative (after m) (m.vm.ws (m.vm.wsp - 1)).toNat⟩) := by
  unfold Buxn.VM.Spec.step; simp only [h]; rfl

/-- **C36.** A byte-relative reference in a program that assembles is within reach: adding the byte at the reference, as the
machine does in `JMP`, `JCN`, `JSR`, `LDR` and `STR`, to the address two behind it gives the label. -/
theorem C36_relative_byte (files : Files) (fuel : Nat) (filename : Str) (s : Asm) (h : assemble files fuel filename = some (true, s))
    (hd : (emitted s.log).Nodup) (r : Ref) (hr : r ∈ Spec.refs s.log) (hk : r.kind = .rel) (hz : r.size = .byte) :
    ∃ l i, (l, i) ∈ labels s.log ∧ Names r i ∧ -128 ≤ (l.toNat : Int) - (r.addr.toNat + 2) ∧ (l.toNat : Int) - (r.addr.toNat + 2) ≤ 127 ∧
      Buxn.VM.Spec.relative ((r.addr.toNat + 2) % 65536) (image s.log r.addr).toNat = l.toNat := by
  obtain ⟨l, i, h1, h2, h3, h4⟩ := C35_references files fuel filename s h hd r hr
  rw [hk, hz] at h3
  rw [hk, hz] at h4
  refine ⟨l, i, h1, h2, (h3 rfl rfl).1, (h3 rfl rfl).2, ?_⟩
  rw [show image s.log r.addr = _ from h4]
  exact relative_back _ _ h3

/-- **C36.** `,label JMP`: when the machine arrives there, it arrives at the label after two instructions. -/
theorem C36_short_jump (files : Files) (fuel : Nat) (filename : Str) (s : Asm) (h : assemble files fuel filename = some (true, s))
    (hd : (emitted s.log).Nodup) (r : Ref) (hr : r ∈ Spec.refs s.log) (hk : r.kind = .rel) (hz : r.size = .byte)
    (hlit : image s.log (r.addr - 1) = 0x80) (hjmp : image s.log (r.addr + 1) = 0x0c) :
    ∃ l i, (l, i) ∈ labels s.log ∧ Names r i ∧ ∀ (cfg : Cfg) (H : Host σ) (m : Buxn.VM.Spec.Sys σ), InMemory s.log r.addr m.vm → m.pc + 1 = r.addr.toNat →
      ∃ m1 m2, Buxn.VM.Spec.step cfg H m = .ok (some m1) ∧ Buxn.VM.Spec.step cfg H m1 = .ok (some m2) ∧ m2.pc = l.toNat ∧ m2.vm.wsp = m.vm.wsp := by
  obtain ⟨l, i, h1, h2, _, _, h3⟩ := C36_relative_byte files fuel filename s h hd r hr hk hz
  refine ⟨l, i, h1, h2, fun cfg H m hm hpc => ?_⟩
  have ha := r.addr.isLt
  have hp1 : m.pc = (r.addr - 1).toNat := by
    rw [BitVec.toNat_sub, show (1 : Short).toNat = 1 from rfl]; omega
  have hpa : (m.pc + 1) % 65536 = r.addr.toNat := by omega
  have hpn : ((m.pc + 1) % 65536 + 1) % 65536 = (r.addr + 1).toNat := by
    rw [hpa, BitVec.toNat_add, show (1 : Short).toNat = 1 from rfl]
  have hop : m.vm.memory m.pc = 0x80 := by rw [hp1, hm _ (by simp)]; exact hlit
  have hv : Buxn.VM.Spec.peekMem m.vm ((m.pc + 1) % 65536) 65536 1 = (image s.log r.addr).toNat := by
    unfold Buxn.VM.Spec.peekMem
    rw [if_neg (by omega), hpa, Nat.mod_eq_of_lt (show r.addr.toNat < 65536 from ha), hm _ (by simp)]
  have h4 := step_lit cfg H m hop
  have e0 : litOf m = (image s.log r.addr).toNat := hv
  have e3 : (after m + 1) % 65536 = (r.addr + 1).toNat := hpn
  rw [e0, e3] at h4
  refine ⟨_, _, h4, step_jmp cfg H _ ?_, ?_, ?_⟩
  · show m.vm.memory _ = _
    rw [hm _ (by simp)]; exact hjmp
  · dsimp only
    have e1 : after (⟨Buxn.VM.Spec.pushValue false 1 (image s.log r.addr).toNat m.vm, m.host, (r.addr + 1).toNat⟩ : Buxn.VM.Spec.Sys σ) = (r.addr.toNat + 2) % 65536 := by
      unfold after
      dsimp only
      rw [BitVec.toNat_add, show (1 : Short).toNat = 1 from rfl]; omega
    rw [e1]
    have e2 : (Buxn.VM.Spec.pushValue false 1 (image s.log r.addr).toNat m.vm).ws ((Buxn.VM.Spec.pushValue false 1 (image s.log r.addr).toNat m.vm).wsp - 1) = image s.log r.addr := by
      show upd m.vm.ws m.vm.wsp (BitVec.ofNat 8 (image s.log r.addr).toNat) (m.vm.wsp + 1 - 1) = _
      rw [BitVec.add_sub_cancel, BitVec.ofNat_toNat, BitVec.setWidth_eq]
      simp [upd]
    rw [e2]
    exact h3
  · show m.vm.wsp + 1 - 1 = m.vm.wsp
    rw [BitVec.add_sub_cancel]

/-- **C36.** `!label`, `?label` and calls: when the machine arrives there it continues at the label, whatever the distance is;
`?` continues behind the instruction if the condition is zero, and a call remembers that address. -/
theorem C36_immediate_jump (files : Files) (fuel : Nat) (filename : Str) (s : Asm) (h : assemble files fuel filename = some (true, s))
    (hd : (emitted s.log).Nodup) (r : Ref) (hr : r ∈ Spec.refs s.log) (hk : r.kind = .rel) (hz : r.size = .short) :
    ∃ l i, (l, i) ∈ labels s.log ∧ Names r i ∧ ∀ (cfg : Cfg) (H : Host σ) (m : Buxn.VM.Spec.Sys σ), InMemory s.log r.addr m.vm → m.pc + 1 = r.addr.toNat →
      (image s.log (r.addr - 1) = 0x40 → Buxn.VM.Spec.step cfg H m = .ok (some { m with pc := l.toNat })) ∧
      (image s.log (r.addr - 1) = 0x20 → Buxn.VM.Spec.step cfg H m = .ok (some { m with
        vm := { m.vm with wsp := m.vm.wsp - 1 }, pc := if m.vm.ws (m.vm.wsp - 1) = 0 then (r.addr.toNat + 2) % 65536 else l.toNat })) ∧
      (image s.log (r.addr - 1) = 0x60 → Buxn.VM.Spec.step cfg H m = .ok (some { m with
        vm := Buxn.VM.Spec.pushValue true 2 ((r.addr.toNat + 2) % 65536) m.vm, pc := l.toNat })) := by
  obtain ⟨l, i, h1, h2, _, h4⟩ := C35_references files fuel filename s h hd r hr
  rw [hk, hz] at h4
  refine ⟨l, i, h1, h2, fun cfg H m hm hpc => ?_⟩
  have ha := r.addr.isLt
  have hp1 : m.pc = (r.addr - 1).toNat := by
    rw [BitVec.toNat_sub, show (1 : Short).toNat = 1 from rfl]; omega
  have hpa : (m.pc + 1) % 65536 = r.addr.toNat := by omega
  have hop : m.vm.memory m.pc = image s.log (r.addr - 1) := by rw [hp1, hm _ (by simp)]
  have haft : after m = r.addr.toNat := hpa
  have himm : (r.addr.toNat + 2 + immOf m) % 65536 = l.toNat := by
    have : immOf m = _ := step_imm m r.addr hpc
    rw [this, hm _ (by simp), hm _ (by simp), h4.1, h4.2]
    exact immediate_back _ _
  refine ⟨fun ho => ?_, fun ho => ?_, fun ho => ?_⟩
  · rw [step_jmi cfg H m (by rw [hop, ho]), haft, himm]
  · rw [step_jci cfg H m (by rw [hop, ho]), haft]
    split
    · rfl
    · rw [himm]
  · rw [step_jsi cfg H m (by rw [hop, ho]), haft, himm]

end

/-- **C36.** A reference that is in reach is not rejected: filling it in succeeds unless it lies in the zero page or at the
end of the memory. -/
theorem C36_accepted (t : Token) (k : RefKind) (z : RefSize) (name : Option Str) (id l : Short) (w r : Bool) (s : Asm)
    (hr : InReach k z s.writeAddr l) (ha : 0x100 ≤ s.writeAddr.toNat) (hb : z = .short → s.writeAddr.toNat < 0xffff) :
    (emitBackwardRef t k z name id l w r s).1 = true ∧ (emitBackwardRef t k z name id l w r s).2.success = s.success := by
  unfold emitBackwardRef
  dsimp only
  have hv := calculateAddr_value t k s.writeAddr l s
  have hc := (calculateAddr_step t k s.writeAddr l s).2
  have hcs : (calculateAddr t k s.writeAddr l s).2.success = s.success := by
    unfold calculateAddr
    cases k with
    | zero => dsimp only; split <;> rfl
    | abs => rfl
    | rel => rfl
  generalize calculateAddr t k s.writeAddr l s = p at *
  obtain ⟨v, s1⟩ := p
  dsimp only at *
  have emitOk : ∀ (b : Byte) (q : Bool) (x : Asm), 0x100 ≤ x.writeAddr.toNat → emit t b q x = (true, { x with writeAddr := x.writeAddr + 1, log := .rom x.writeAddr b q :: x.log }) := by
    intro b q x hx
    unfold emit
    dsimp only
    rw [if_neg]
    rw [BitVec.lt_def]
    simp only [RESET_VECTOR, BitVec.reduceToNat]
    omega
  have key : (emitAddr t k z v (if w = true then some { type := SymType.labelRef, name := name, region := argRegion r t.region, id := id } else none) (!w) s1).1 = true ∧
      (emitAddr t k z v (if w = true then some { type := SymType.labelRef, name := name, region := argRegion r t.region, id := id } else none) (!w) s1).2.success = s1.success := by
    unfold emitAddr
    cases z with
    | byte =>
      dsimp only
      rw [if_neg]
      · rw [emitOk _ _ _ (by rw [hc]; exact ha)]
        cases w <;> exact ⟨rfl, rfl⟩
      · rintro ⟨rfl, ho⟩
        have := hr rfl rfl
        rw [hv] at ho
        omega
    | short =>
      dsimp only
      unfold emit2
      rw [emitOk _ _ _ (by rw [hc]; exact ha)]
      simp only [andThen, if_true]
      rw [emitOk _ _ _ (by
        dsimp only
        rw [hc, BitVec.toNat_add, show (1 : Short).toNat = 1 from rfl]
        have := hb rfl
        omega)]
      cases w <;> exact ⟨rfl, rfl⟩
  unfold andThen
  rw [if_pos key.1]
  refine ⟨rfl, ?_⟩
  cases w
  · exact key.2.trans hcs
  · exact key.2.trans hcs

/-! ## Instances -/

/-- What the theorems about references are about, for examples. -/
def refOutcome (l : List (String × String)) : Option (Bool × List Short × List Ref × List Short) :=
  (assemble (filesOf l) 60 (str "m")).map fun r => (r.1, emitted r.2.log, refs r.2.log, (labels r.2.log).map (·.1))

/-- A forward reference. No byte is written twice, the reference is at 0x101 and its label at 0x106. -/
example : refOutcome [("m", "|100 ;end $2 INC @end")] =
    some (true, [0x105, 0x102, 0x101, 0x100], [⟨0x101, .abs, .short, some (str "end"), 1⟩], [0x106]) := by decide +kernel

/-- A short relative one, backwards. -/
example : refOutcome [("m", "@x INC ,x JMP")] =
    some (true, [0x103, 0x102, 0x101, 0x100], [⟨0x102, .rel, .byte, some (str "x"), 1⟩], [0x100]) := by decide +kernel

/-- One with a lambda. -/
example : refOutcome [("m", "?{ INC }")] =
    some (true, [0x103, 0x102, 0x101, 0x100], [⟨0x101, .rel, .short, none, 1⟩], [0x104]) := by decide +kernel

/-- A short relative reference that is out of reach is rejected; one that is just in reach is not. -/
example : (refOutcome [("m", "@x $7f ,x")]).map (·.1) = some false ∧ (refOutcome [("m", "@x $7d ,x")]).map (·.1) = some true ∧
    (refOutcome [("m", "@x $7e ,x")]).map (·.1) = some false := by decide +kernel

end Buxn.Asm
