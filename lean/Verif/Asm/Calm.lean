import Verif.Asm.Traverse
/-!
# Functions that leave units, files and macros alone

`Calm s s'`: the buffered character, the nesting depth, the lists of files and the macros are the same in both states. This
holds for everything that a token other than a comment, an include, a macro or the use of a macro does.
-/

namespace Buxn.Asm
open Buxn.VM Spec

/-- The body, number and state of a macro. -/
def macroEntry : Entry → Option (List Token × Short × Bool)
  | .macro b i e => some (b, i, e)
  | _ => none

def macroOf (s : Asm) (name : Str) : Option (List Token × Short × Bool) := (s.symtab name).bind fun n => macroEntry n.entry

/-- A file is opened (or should have been) or closed. -/
inductive FileEvent where
  | opened (name : Str)
  | closed (name : Str)
  deriving DecidableEq, Repr

/-- The files in a log. -/
def fileEvents : List Event → List FileEvent
  | .fopen n :: l => .opened n :: fileEvents l
  | .fclose n :: l => .closed n :: fileEvents l
  | .rom _ _ _ :: l | .sym _ _ :: l | .error _ _ :: l | .warning _ _ :: l | .ref _ _ _ _ _ :: l => fileEvents l
  | [] => []

structure Calm (s s' : Asm) : Prop where
  readBuf : s'.readBuf = s.readBuf
  depth : s'.depth = s.depth
  includes : s'.includes = s.includes
  deferred : s'.deferred = s.deferred
  files : fileEvents s'.log = fileEvents s.log
  macros : ∀ name, macroOf s' name = macroOf s name

theorem Calm.refl (s : Asm) : Calm s s := ⟨rfl, rfl, rfl, rfl, rfl, fun _ => rfl⟩

theorem Calm.trans {a b c : Asm} (h : Calm a b) (h' : Calm b c) : Calm a c :=
  ⟨h'.1.trans h.1, h'.2.trans h.2, h'.3.trans h.3, h'.4.trans h.4, h'.5.trans h.5, fun n => (h'.6 n).trans (h.6 n)⟩

theorem error_calm (m : String) (r : Region) (s : Asm) : Calm s (error m r s).2 := ⟨rfl, rfl, rfl, rfl, rfl, fun _ => rfl⟩

theorem warning_calm (m : String) (r : Region) (s : Asm) : Calm s (warning m r s) := ⟨rfl, rfl, rfl, rfl, rfl, fun _ => rfl⟩

theorem putSymbol_calm (a : Short) (i : SymInfo) (s : Asm) : Calm s (putSymbol a i s) := ⟨rfl, rfl, rfl, rfl, rfl, fun _ => rfl⟩

theorem putSymbol2_calm (a : Short) (i : SymInfo) (s : Asm) : Calm s (putSymbol2 a i s) := ⟨rfl, rfl, rfl, rfl, rfl, fun _ => rfl⟩

theorem ite_calm {c : Prop} [Decidable c] {s a b : Asm} (ha : Calm s a) (hb : Calm s b) : Calm s (if c then a else b) := by
  split
  exacts [ha, hb]

theorem ite_calm1 {c : Prop} [Decidable c] {s : Asm} {a b : Bool × Asm} (ha : Calm s a.2) (hb : Calm s b.2) : Calm s (if c then a else b).2 := by
  split
  exacts [ha, hb]

theorem andThen_calm {s : Asm} {r : Bool × Asm} {f : Asm → Bool × Asm} (h : Calm s r.2) (hf : ∀ s', Calm s' (f s').2) : Calm s (andThen r f).2 := by
  unfold andThen
  split
  · exact h.trans (hf _)
  · exact h

theorem andThen_calm' {s : Asm} {r : Bool × Asm} {f : Asm → Bool × Asm} (h : Calm s r.2) (hf : Calm s r.2 → Calm r.2 (f r.2).2) : Calm s (andThen r f).2 := by
  unfold andThen
  split
  · exact h.trans (hf h)
  · exact h

theorem setNode_calm {name : Str} {n : Node} {s : Asm} (h : macroEntry n.entry = macroOf s name) : Calm s (setNode name n s) := by
  refine ⟨rfl, rfl, rfl, rfl, rfl, fun k => ?_⟩
  unfold setNode
  rw [macroOf]
  dsimp only
  by_cases hk : k = name
  · rw [if_pos hk, hk, ← h]; rfl
  · rw [if_neg hk]; rfl

theorem macroOf_some {s : Asm} {name : Str} {n : Node} (h : s.symtab name = some n) : macroOf s name = macroEntry n.entry := by
  rw [macroOf, h]; rfl

theorem emit_calm (t : Token) (b : Byte) (p : Bool) (s : Asm) : Calm s (emit t b p s).2 := by
  unfold emit
  dsimp only
  exact ite_calm1 ⟨rfl, rfl, rfl, rfl, rfl, fun _ => rfl⟩ ⟨rfl, rfl, rfl, rfl, rfl, fun _ => rfl⟩

theorem emit2_calm (t : Token) (x : Short) (p : Bool) (s : Asm) : Calm s (emit2 t x p s).2 :=
  andThen_calm (emit_calm _ _ _ _) fun _ => andThen_calm (emit_calm _ _ _ _) fun _ => .refl _

theorem emitOpcode_calm (t : Token) (op : Byte) (r : Bool) (s : Asm) : Calm s (emitOpcode t op r s).2 :=
  andThen_calm (emit_calm _ _ _ _) fun _ => putSymbol_calm _ _ _

theorem emitByte_calm (t : Token) (op : Byte) (r : Bool) (s : Asm) : Calm s (emitByte t op r s).2 :=
  andThen_calm (emit_calm _ _ _ _) fun _ => putSymbol_calm _ _ _

theorem emitShort_calm (t : Token) (x : Short) (r : Bool) (s : Asm) : Calm s (emitShort t x r s).2 :=
  andThen_calm (emit2_calm _ _ _ _) fun _ => putSymbol2_calm _ _ _

theorem markRef_calm (a : Short) (k : RefKind) (z : RefSize) (t : Option Str) (id : Short) (s : Asm) : Calm s (markRef a k z t id s) :=
  ⟨rfl, rfl, rfl, rfl, rfl, fun _ => rfl⟩

theorem emitPlaceholder_calm (t : Token) (k : RefKind) (z : RefSize) (name : Option Str) (id : Short) (r : Bool) (s : Asm) :
    Calm s (emitPlaceholder t k z name id r s).2 := by
  unfold emitPlaceholder
  cases z with
  | byte => exact andThen_calm (emit_calm _ _ _ _) fun _ => (markRef_calm _ _ _ _ _ _).trans (putSymbol_calm _ _ _)
  | short => exact andThen_calm (emit2_calm _ _ _ _) fun _ => (markRef_calm _ _ _ _ _ _).trans (putSymbol2_calm _ _ _)

theorem emitForwardRef_calm (t : Token) (k : RefKind) (z : RefSize) (name : Str) (n : Node) (r : Bool) (s : Asm) (h : macroOf s name = none) :
    Calm s (emitForwardRef t k z name n r s).2 := by
  unfold emitForwardRef addForwardRef
  dsimp only
  generalize forwardOf n.entry (s.numLabels + 1) = f
  have h0 : Calm s (numberLabel n.entry s) := by
    unfold numberLabel
    exact ite_calm ⟨rfl, rfl, rfl, rfl, rfl, fun _ => rfl⟩ (.refl s)
  have h1 : Calm s (setNode name { n with entry := .forward f.1 f.2 } (numberLabel n.entry s)) :=
    h0.trans (setNode_calm ((h0.macros name).trans h).symm)
  refine andThen_calm' (h1.trans (emitPlaceholder_calm _ _ _ _ _ _ _)) fun h2 => ?_
  exact setNode_calm ((h2.macros name).trans h).symm

theorem emitLambdaRef_calm (t : Token) (k : RefKind) (z : RefSize) (r : Bool) (s : Asm) : Calm s (emitLambdaRef t k z r s).2 := by
  unfold emitLambdaRef
  refine andThen_calm (Calm.trans (b := { s with numLabels := s.numLabels + 1 }) ⟨rfl, rfl, rfl, rfl, rfl, fun _ => rfl⟩ (emitPlaceholder_calm _ _ _ _ _ _ _)) fun _ => ⟨rfl, rfl, rfl, rfl, rfl, fun _ => rfl⟩

theorem calculateAddr_calm (t : Token) (k : RefKind) (a b : Short) (s : Asm) : Calm s (calculateAddr t k a b s).2 := by
  cases k with
  | zero => exact ite_calm (warning_calm _ _ _) (.refl s)
  | abs => exact .refl s
  | rel => exact .refl s

theorem optSym_calm (i : Option SymInfo) (a : Short) (s : Asm) : Calm s (match i with | some i => putSymbol a i s | none => s) := by
  cases i
  exacts [.refl s, putSymbol_calm _ _ _]

theorem optSym2_calm (i : Option SymInfo) (a : Short) (s : Asm) : Calm s (match i with | some i => putSymbol2 a i s | none => s) := by
  cases i
  exacts [.refl s, putSymbol2_calm _ _ _]

theorem emitAddr_calm (t : Token) (k : RefKind) (z : RefSize) (a : Int) (i : Option SymInfo) (p : Bool) (s : Asm) : Calm s (emitAddr t k z a i p s).2 := by
  unfold emitAddr
  cases z with
  | byte => exact ite_calm1 (error_calm _ _ _) (andThen_calm (emit_calm _ _ _ _) fun _ => optSym_calm _ _ _)
  | short => exact andThen_calm (emit2_calm _ _ _ _) fun _ => optSym2_calm _ _ _

theorem emitBackwardRef_calm (t : Token) (k : RefKind) (z : RefSize) (name : Option Str) (id a : Short) (w r : Bool) (s : Asm) :
    Calm s (emitBackwardRef t k z name id a w r s).2 :=
  andThen_calm ((calculateAddr_calm _ _ _ _ _).trans (emitAddr_calm _ _ _ _ _ _ _)) fun _ => ite_calm (markRef_calm _ _ _ _ _ _) (.refl _)

theorem patchAll_calm (name : Str) (id a : Short) (rs : List FRef) (s : Asm) : Calm s (patchAll name id a rs s) := by
  induction rs generalizing s with
  | nil => exact .refl s
  | cons r rs ih =>
    rw [patchAll]
    exact Calm.trans (Calm.trans (b := { s with writeAddr := r.addr }) ⟨rfl, rfl, rfl, rfl, rfl, fun _ => rfl⟩ (emitBackwardRef_calm _ _ _ _ _ _ _ _ _)) (ih _)

theorem placeLabel_calm (t : Token) (name : Str) (n : Node) (id : Short) (rs : List FRef) (s : Asm) (h : macroOf s name = none) :
    Calm s (placeLabel t name n id rs s).2 := by
  unfold placeLabel
  dsimp only
  have h1 : Calm s (setNode name { n with entry := .label id s.writeAddr } s) := setNode_calm h.symm
  have h2 := h1.trans (patchAll_calm name id s.writeAddr rs _)
  have h3 := h2.trans (setNode_calm (name := name) (n := { n with entry := .label id s.writeAddr, referenced := !rs.isEmpty }) ((h2.macros name).trans h).symm)
  exact h3.trans ⟨rfl, rfl, rfl, rfl, rfl, fun _ => rfl⟩

theorem defineLabel_calm (t : Token) (name : Str) (n : Node) (s : Asm) (h : s.symtab name = some n) : Calm s (defineLabel t name n s).2 := by
  unfold defineLabel
  have hm := macroOf_some h
  split
  · rename_i he
    rw [he] at hm
    exact Calm.trans (b := { s with numLabels := s.numLabels + 1 }) ⟨rfl, rfl, rfl, rfl, rfl, fun _ => rfl⟩ (placeLabel_calm _ _ _ _ _ _ hm)
  · rename_i he
    rw [he] at hm
    exact placeLabel_calm _ _ _ _ _ _ hm
  · exact error_calm _ _ _
  · exact error_calm _ _ _

theorem findOrCreate_calm (t : Token) (name : Str) (s : Asm) : Calm s (findOrCreate t name s).2 := by
  unfold findOrCreate
  split
  · exact error_calm _ _ _
  · split
    · exact error_calm _ _ _
    · split
      · exact error_calm _ _ _
      · split
        · exact error_calm _ _ _
        · split
          · exact .refl s
          · rename_i h
            refine Calm.trans (setNode_calm (n := ⟨t, false, .unknown⟩) (s := s) ?_) ⟨rfl, rfl, rfl, rfl, rfl, fun _ => rfl⟩
            rw [macroOf, h]; rfl

theorem registerLabel_calm (t : Token) (name : Str) (s : Asm) : Calm s (registerLabel t name s).2 := by
  unfold registerLabel
  have h := findOrCreate_calm t name s
  split
  · rename_i heq; rw [heq] at h; exact h
  · rename_i heq
    have hn := findOrCreate_node _ _ _ _ _ heq
    rw [heq] at h
    exact h.trans (defineLabel_calm _ _ _ _ hn)

theorem resolveLocalName_calm (t : Token) (n : Str) (s : Asm) : Calm s (resolveLocalName t n s).2 := by
  unfold resolveLocalName
  split
  exacts [error_calm _ _ _, .refl s]

theorem resolveLabelRef_calm (t : Token) (n : Str) (s : Asm) : Calm s (resolveLabelRef t n s).2 := by
  unfold resolveLabelRef
  split
  · exact error_calm _ _ _
  · split
    exacts [resolveLocalName_calm _ _ _, .refl s]

theorem emitLabelRef_calm (t : Token) (k : RefKind) (z : RefSize) (name : Str) (r : Bool) (s : Asm) : Calm s (emitLabelRef t k z name r s).2 := by
  unfold emitLabelRef
  split
  · exact emitLambdaRef_calm _ _ _ _ _
  · have h1 := resolveLabelRef_calm t name s
    split
    · rename_i heq; rw [heq] at h1; exact h1
    · rename_i full s1 heq
      rw [heq] at h1
      refine h1.trans ?_
      split
      · split
        · rename_i l ls _
          exact Calm.trans (b := { s1 with atLabels := ls }) ⟨rfl, rfl, rfl, rfl, rfl, fun _ => rfl⟩ (emitBackwardRef_calm _ _ _ _ _ _ _ _ _)
        · exact error_calm _ _ _
      · split
        · exact error_calm _ _ _
        · split
          · exact error_calm _ _ _
          · rename_i c rest _ _
            have h2 := findOrCreate_calm t (c :: rest) s1
            split
            · rename_i heq2; rw [heq2] at h2; exact h2
            · rename_i n s2 heq2
              have hn := findOrCreate_node _ _ _ _ _ heq2
              have hm := macroOf_some hn
              rw [heq2] at h2
              refine h2.trans ?_
              dsimp only
              split
              · exact (setNode_calm (n := { n with referenced := true }) hm.symm).trans (emitBackwardRef_calm _ _ _ _ _ _ _ _ _)
              · rename_i he; rw [he] at hm; exact emitForwardRef_calm _ _ _ _ _ _ _ hm
              · rename_i he; rw [he] at hm; exact emitForwardRef_calm _ _ _ _ _ _ _ hm
              · exact error_calm _ _ _

theorem emitJsi_calm (t : Token) (s : Asm) : Calm s (emitJsi t s).2 :=
  andThen_calm (emitOpcode_calm _ _ _ _) fun _ => emitLabelRef_calm _ _ _ _ _ _

theorem processMark_calm (t : Token) (s : Asm) : Calm s (processMark t s) := putSymbol_calm _ _ _

theorem processGlobalLabel_calm (t : Token) (s : Asm) : Calm s (processGlobalLabel t s).2 := by
  unfold processGlobalLabel
  exact ite_calm1 ⟨rfl, rfl, rfl, rfl, rfl, fun _ => rfl⟩ (andThen_calm (registerLabel_calm _ _ _) fun _ => ⟨rfl, rfl, rfl, rfl, rfl, fun _ => rfl⟩)

theorem processLocalLabel_calm (t : Token) (s : Asm) : Calm s (processLocalLabel t s).2 := by
  unfold processLocalLabel
  have h := resolveLocalName_calm t (popFront t.lex) s
  split
  · rename_i heq; rw [heq] at h; exact h
  · rename_i heq; rw [heq] at h; exact h.trans (registerLabel_calm _ _ _)

theorem resolvePadding_calm (t : Token) (s : Asm) : Calm s (resolvePadding t s).2 := by
  unfold resolvePadding
  dsimp only
  split
  · exact error_calm _ _ _
  · split
    · split
      exacts [error_calm _ _ _, .refl s]
    · have h := resolveLabelRef_calm t (popFront t.lex) s
      split
      · rename_i heq; rw [heq] at h; exact h
      · rename_i heq; rw [heq] at h
        refine h.trans ?_
        split
        · split
          · exact error_calm _ _ _
          · exact ⟨rfl, rfl, rfl, rfl, rfl, fun _ => rfl⟩
        · split
          · exact error_calm _ _ _
          · rename_i n hn
            have hm := macroOf_some hn
            split
            · exact setNode_calm (n := { n with referenced := true }) hm.symm
            · exact error_calm _ _ _

theorem processAbsPadding_calm (t : Token) (s : Asm) : Calm s (processAbsPadding t s).2 := by
  unfold processAbsPadding
  have h := resolvePadding_calm t s
  split
  · rename_i heq; rw [heq] at h; exact h
  · rename_i heq; rw [heq] at h; exact h.trans ⟨rfl, rfl, rfl, rfl, rfl, fun _ => rfl⟩

theorem processRelPadding_calm (t : Token) (s : Asm) : Calm s (processRelPadding t s).2 := by
  unfold processRelPadding
  have h := resolvePadding_calm t s
  split
  · rename_i heq; rw [heq] at h; exact h
  · rename_i heq; rw [heq] at h
    exact h.trans (ite_calm ⟨rfl, rfl, rfl, rfl, rfl, fun _ => rfl⟩ ⟨rfl, rfl, rfl, rfl, rfl, fun _ => rfl⟩)

theorem processLitNumber_calm (t : Token) (s : Asm) : Calm s (processLitNumber t s).2 := by
  unfold processLitNumber
  split
  · exact error_calm _ _ _
  · split
    · exact andThen_calm (emitOpcode_calm _ _ _ _) fun _ => emitByte_calm _ _ _ _
    · exact andThen_calm (emitOpcode_calm _ _ _ _) fun _ => emitShort_calm _ _ _ _

theorem processRawNumber_calm (t : Token) (s : Asm) : Calm s (processRawNumber t s).2 := by
  unfold processRawNumber
  split
  · exact error_calm _ _ _
  · split
    · exact emitByte_calm _ _ _ _
    · exact emitShort_calm _ _ _ _

theorem processLambdaClose_calm (t : Token) (s : Asm) : Calm s (processLambdaClose t s).2 := by
  unfold processLambdaClose
  split
  · exact error_calm _ _ _
  · rename_i r rs _
    refine andThen_calm ((calculateAddr_calm r.token r.kind r.addr s.writeAddr s).trans (Calm.trans ?_ (emitAddr_calm _ _ _ _ _ _ _))) fun _ => ?_
    · exact ⟨rfl, rfl, rfl, rfl, rfl, fun _ => rfl⟩
    · exact ⟨rfl, rfl, rfl, rfl, rfl, fun _ => rfl⟩

theorem textLoop_calm (t : Token) (i : SymInfo) (cs : Str) (a : Short) (s : Asm) : Calm s (textLoop t i cs a s).2 := by
  induction cs generalizing a s with
  | nil => exact .refl s
  | cons c cs ih => exact andThen_calm (emit_calm _ _ _ _) fun _ => (putSymbol_calm _ _ _).trans (ih _ _)

theorem processText_calm (t : Token) (s : Asm) : Calm s (processText t s).2 := by
  unfold processText
  exact ite_calm1 (error_calm _ _ _) (textLoop_calm _ _ _ _ _)

end Buxn.Asm
