import Verif.Asm.Tokens
import Verif.Asm.Includes
/-!
# C57: the place of a symbol

Every symbol the assembler announces carries a region: a file and a range of positions in it. Debugger, tags and messages
rely on it. Here: the region is that of a word in that file, and the word says what the symbol is.
-/

namespace Buxn.Asm
open Buxn.VM Spec

namespace Spec

/-- The symbols announced, newest first. -/
def syms : List Event → List (Short × SymInfo)
  | .sym a i :: l => (a, i) :: syms l
  | .rom _ _ _ :: l | .error _ _ :: l | .warning _ _ :: l | .fopen _ :: l | .fclose _ :: l | .ref _ _ _ _ _ :: l => syms l
  | [] => []

/-- The name that a symbol defines: that of a macro, or of a label with a name of its own. -/
def defines (i : SymInfo) : Option Str :=
  match i.type with
  | .macro => i.name
  | .label => if i.generated then none else i.name
  | _ => none

/-- The names defined, newest first. -/
def defined (log : List Event) : List Str := (syms log).filterMap fun x => defines x.2

/-- A region that is all of a word, or all but its first character; the text there. -/
def Covers (t : Token) (r : Region) (w : Str) : Prop :=
  (r = t.region ∧ w = t.lex) ∨
  (r = { t.region with start := { t.region.start with col := t.region.start.col + 1, byte := t.region.start.byte + 1 } } ∧ ∃ c, t.lex = c :: w)

/-- A word that refers to the label `name`: the name itself, or `&x` or `/x` for the label `x` of the current scope. -/
def Refers (w name : Str) : Prop :=
  w = name ∨ ∃ c scope x, w = c :: x ∧ (c = ch '&' ∨ c = ch '/') ∧ name = scope ++ ch '/' :: x

/-- The opcodes that runes stand for. -/
def runeOpcodes : List (Byte × Short) :=
  [(ch '!', 0x40), (ch '?', 0x20), (ch '.', 0x80), (ch ',', 0x80), (ch ';', 0xa0), (ch '#', 0x80), (ch '#', 0xa0)]

/-- The word `t` is what the symbol `i` is about, and the region of `i` is its place. -/
def Spells (t : Token) (i : SymInfo) : Prop :=
  match i.type with
  | .macro => i.region = t.region ∧ ∃ name, i.name = some name ∧ t.lex = ch '%' :: name
  | .macroRef => i.region = t.region ∧ i.name = some t.lex
  | .include => i.region = t.region ∧ ∃ name, i.name = some name ∧ (t.lex = ch '~' :: name ∨ t.lex = ch '~' :: ch '~' :: name)
  | .comment => i.region = t.region ∧ i.name = some t.lex
  | .mark => i.region = t.region ∧ i.name = some t.lex
  | .label => i.region = t.region ∧
      if i.generated then (t.lex = str "@@" ∨ t.lex = str "}") ∧ ∃ n, i.name = some (lambdaName n)
      else ∃ name, i.name = some name ∧ (t.lex = ch '@' :: name ∨ ∃ scope x, t.lex = ch '&' :: x ∧ name = scope ++ ch '/' :: x)
  | .labelRef => ∃ w, Covers t i.region w ∧
      match i.name with
      | none => w = str "{" ∨ w = str "@"
      | some name => Refers w name
  | .opcode =>
      (i.region = t.region ∧ (i.id = 0x60 ∨ ∃ op red, i.id = BitVec.setWidth 16 op ∧ parseOpcode t.lex = some (op, red))) ∨
      (i.region = { t.region with stop := { t.region.start with col := t.region.start.col + 1, byte := t.region.start.byte + 1 } } ∧
        ∃ c x, t.lex = c :: x ∧ (c, i.id) ∈ runeOpcodes)
  | .number => ∃ w n k, Covers t i.region w ∧ parseLiteral w = .ok (n, k) ∧ i.id = if k = 1 then BitVec.setWidth 16 (BitVec.setWidth 8 n) else n
  | .text => i.region = t.region ∧ t.lex.head? = some (ch '"')

end Spec

/-- A symbol that is about a word with property `P`. -/
def Fits (P : Token → Prop) (i : SymInfo) : Prop := ∃ t, P t ∧ Spells t i

theorem syms_append (a b : List Event) : syms (a ++ b) = syms a ++ syms b := by
  induction a with
  | nil => rfl
  | cons e a ih => cases e <;> simp [syms, ih]

theorem mem_syms {log : List Event} {a : Short} {i : SymInfo} (h : .sym a i ∈ log) : (a, i) ∈ syms log := by
  obtain ⟨l1, l2, rfl⟩ := List.append_of_mem h
  rw [syms_append]
  exact List.mem_append_right _ (List.mem_cons_self ..)

def isLabel : Entry → Prop
  | .label _ _ => True
  | _ => False

/-- New symbols only, none of them a definition; labels stay. -/
structure News (P : Token → Prop) (s s' : Asm) : Prop where
  told : ∃ new, syms s'.log = new ++ syms s.log ∧ ∀ x ∈ new, Fits P x.2 ∧ defines x.2 = none
  labels : ∀ name n, s.symtab name = some n → isLabel n.entry → ∃ n', s'.symtab name = some n' ∧ isLabel n'.entry

section
variable {P : Token → Prop}

theorem News.same {s s' : Asm} (h : syms s'.log = syms s.log) (h' : s'.symtab = s.symtab) : News P s s' :=
  ⟨⟨[], h, fun _ h => by cases h⟩, fun name n hn hl => ⟨n, by rw [h']; exact hn, hl⟩⟩

theorem News.refl (s : Asm) : News P s s := .same rfl rfl

theorem News.trans {a b c : Asm} (h : News P a b) (h' : News P b c) : News P a c := by
  obtain ⟨⟨n1, e1, f1⟩, l1⟩ := h
  obtain ⟨⟨n2, e2, f2⟩, l2⟩ := h'
  refine ⟨⟨n2 ++ n1, by rw [e2, e1, List.append_assoc], fun x hx => ?_⟩, fun name n hn hl => ?_⟩
  · rcases List.mem_append.1 hx with hx | hx
    exacts [f2 x hx, f1 x hx]
  · obtain ⟨m, hm, hl⟩ := l1 name n hn hl
    exact l2 name m hm hl

theorem Hush.news {s s' : Asm} (h : Hush s s') : News P s s' := by
  induction h with
  | frame h => exact .same (by rw [h.log]) h.symtab
  | error m r s => exact .same rfl rfl
  | trans _ _ h1 h2 => exact h1.trans h2

theorem error_news (m : String) (r : Region) (s : Asm) : News P s (error m r s).2 := .same rfl rfl

theorem warning_news (m : String) (r : Region) (s : Asm) : News P s (warning m r s) := .same rfl rfl

theorem putSymbol_news {a : Short} {i : SymInfo} (s : Asm) (h : Fits P i) (hd : defines i = none) : News P s (putSymbol a i s) :=
  ⟨⟨[(a, i)], rfl, fun x hx => by rw [List.mem_singleton.1 hx]; exact ⟨h, hd⟩⟩, fun _ n hn hl => ⟨n, hn, hl⟩⟩

theorem putSymbol2_news {a : Short} {i : SymInfo} (s : Asm) (h : Fits P i) (hd : defines i = none) : News P s (putSymbol2 a i s) :=
  (putSymbol_news s h hd).trans (putSymbol_news _ h hd)

theorem ite_news {c : Prop} [Decidable c] {s a b : Asm} (ha : News P s a) (hb : News P s b) : News P s (if c then a else b) := by
  split
  exacts [ha, hb]

theorem ite_news1 {c : Prop} [Decidable c] {s : Asm} {a b : Bool × Asm} (ha : News P s a.2) (hb : News P s b.2) : News P s (if c then a else b).2 := by
  split
  exacts [ha, hb]

theorem andThen_news {s : Asm} {r : Bool × Asm} {f : Asm → Bool × Asm} (h : News P s r.2) (hf : ∀ s', News P s' (f s').2) : News P s (andThen r f).2 := by
  unfold andThen
  split
  exacts [h.trans (hf _), h]

/-- A node changes, but not from a label to something else. -/
theorem setNode_news {name : Str} {n : Node} {s : Asm} (h : ∀ m, s.symtab name = some m → isLabel m.entry → isLabel n.entry) : News P s (setNode name n s) := by
  refine ⟨⟨[], rfl, fun _ h => by cases h⟩, fun k m hm hl => ?_⟩
  simp only [setNode]
  split
  · rename_i hk
    subst hk
    exact ⟨n, rfl, h m hm hl⟩
  · exact ⟨m, hm, hl⟩

theorem emit_news (t : Token) (b : Byte) (p : Bool) (s : Asm) : News P s (emit t b p s).2 := by
  unfold emit
  dsimp only
  exact ite_news1 (.same rfl rfl) (.same rfl rfl)

theorem emit2_news (t : Token) (x : Short) (p : Bool) (s : Asm) : News P s (emit2 t x p s).2 :=
  andThen_news (emit_news _ _ _ _) fun _ => andThen_news (emit_news _ _ _ _) fun _ => .refl _

theorem emitOpcode_news {t : Token} {op : Byte} {r : Bool} (s : Asm)
    (h : Fits P { type := .opcode, region := if r then runeRegion t.region else t.region, id := op.setWidth 16 }) : News P s (emitOpcode t op r s).2 :=
  andThen_news (emit_news _ _ _ _) fun _ => putSymbol_news _ h rfl

theorem emitByte_news {t : Token} {b : Byte} {r : Bool} (s : Asm)
    (h : Fits P { type := .number, region := argRegion r t.region, id := b.setWidth 16 }) : News P s (emitByte t b r s).2 :=
  andThen_news (emit_news _ _ _ _) fun _ => putSymbol_news _ h rfl

theorem emitShort_news {t : Token} {x : Short} {r : Bool} (s : Asm)
    (h : Fits P { type := .number, region := argRegion r t.region, id := x }) : News P s (emitShort t x r s).2 :=
  andThen_news (emit2_news _ _ _ _) fun _ => putSymbol2_news _ h rfl

theorem markRef_news (a : Short) (k : RefKind) (z : RefSize) (t : Option Str) (id : Short) (s : Asm) : News P s (markRef a k z t id s) := .same rfl rfl

/-- A word, or the rest of one after its rune, that refers to a label. -/
def RefFits (P : Token → Prop) (t : Token) (r : Bool) (name : Option Str) : Prop :=
  ∀ id, Fits P { type := .labelRef, name := name, region := argRegion r t.region, id := id }

theorem emitPlaceholder_news {t : Token} (k : RefKind) (z : RefSize) {name : Option Str} (id : Short) {r : Bool} (s : Asm) (h : RefFits P t r name) :
    News P s (emitPlaceholder t k z name id r s).2 := by
  unfold emitPlaceholder
  cases z with
  | byte => exact andThen_news (emit_news _ _ _ _) fun _ => (markRef_news _ _ _ _ _ _).trans (putSymbol_news _ (h _) rfl)
  | short => exact andThen_news (emit2_news _ _ _ _) fun _ => (markRef_news _ _ _ _ _ _).trans (putSymbol2_news _ (h _) rfl)

/-- As `andThen_news`, with what is known about the state in between. -/
theorem andThen_news' {s : Asm} {r : Bool × Asm} {f : Asm → Bool × Asm} (h : News P s r.2) (hf : News P r.2 (f r.2).2) : News P s (andThen r f).2 := by
  unfold andThen
  split
  exacts [h.trans hf, h]

theorem emitForwardRef_news {t : Token} (k : RefKind) (z : RefSize) {name : Str} {n : Node} {r : Bool} (s : Asm) (h : RefFits P t r (some name))
    (hn : s.symtab name = some n) (hl : ¬ isLabel n.entry) : News P s (emitForwardRef t k z name n r s).2 := by
  unfold emitForwardRef addForwardRef
  dsimp only
  generalize forwardOf n.entry (s.numLabels + 1) = f
  have h0 : News P s (numberLabel n.entry s) := by
    unfold numberLabel
    exact ite_news (.same rfl rfl) (.refl s)
  have hs : (numberLabel n.entry s).symtab = s.symtab := by
    unfold numberLabel
    split <;> rfl
  have h1 : News P s (setNode name { n with entry := .forward f.1 f.2 } (numberLabel n.entry s)) := by
    refine h0.trans (setNode_news fun m hm hl' => ?_)
    rw [hs, hn] at hm
    cases hm
    exact absurd hl' hl
  refine andThen_news' (h1.trans (emitPlaceholder_news _ _ _ _ h)) (setNode_news fun m hm hl' => ?_)
  rw [emitPlaceholder_symtab] at hm
  simp only [setNode, if_true, Option.some.injEq] at hm
  rw [← hm] at hl'
  exact absurd hl' (fun h => h)

theorem emitLambdaRef_news {t : Token} (k : RefKind) (z : RefSize) {r : Bool} (s : Asm) (h : RefFits P t r none) : News P s (emitLambdaRef t k z r s).2 := by
  unfold emitLambdaRef
  exact andThen_news (News.trans (b := { s with numLabels := s.numLabels + 1 }) (.same rfl rfl) (emitPlaceholder_news _ _ _ _ h)) fun _ => .same rfl rfl

theorem calculateAddr_news (t : Token) (k : RefKind) (a b : Short) (s : Asm) : News P s (calculateAddr t k a b s).2 := by
  cases k with
  | zero => exact ite_news (warning_news _ _ _) (.refl s)
  | abs => exact .refl s
  | rel => exact .refl s

theorem optSym_news {i : Option SymInfo} (a : Short) (s : Asm) : (∀ j, i = some j → Fits P j ∧ defines j = none) →
    News P s (match i with | some i => putSymbol a i s | none => s) := by
  intro h
  cases i
  exacts [.refl s, putSymbol_news _ (h _ rfl).1 (h _ rfl).2]

theorem optSym2_news {i : Option SymInfo} (a : Short) (s : Asm) : (∀ j, i = some j → Fits P j ∧ defines j = none) →
    News P s (match i with | some i => putSymbol2 a i s | none => s) := by
  intro h
  cases i
  exacts [.refl s, putSymbol2_news _ (h _ rfl).1 (h _ rfl).2]

theorem emitAddr_news (t : Token) (k : RefKind) (z : RefSize) (a : Int) {i : Option SymInfo} (p : Bool) (s : Asm) (h : ∀ j, i = some j → Fits P j ∧ defines j = none) :
    News P s (emitAddr t k z a i p s).2 := by
  unfold emitAddr
  cases z with
  | byte => exact ite_news1 (error_news _ _ _) (andThen_news (emit_news _ _ _ _) fun _ => optSym_news _ _ h)
  | short => exact andThen_news (emit2_news _ _ _ _) fun _ => optSym2_news _ _ h

theorem emitBackwardRef_news {t : Token} (k : RefKind) (z : RefSize) {name : Option Str} (id a : Short) {w r : Bool} (s : Asm) (h : w = true → RefFits P t r name) :
    News P s (emitBackwardRef t k z name id a w r s).2 := by
  refine andThen_news ((calculateAddr_news _ _ _ _ _).trans (emitAddr_news _ _ _ _ _ _ ?_)) fun _ => ite_news (markRef_news _ _ _ _ _ _) (.refl _)
  intro j hj
  split at hj
  · rename_i hw
    cases hj
    exact ⟨h hw _, rfl⟩
  · cases hj

theorem patchAll_news (name : Str) (id a : Short) (rs : List FRef) (s : Asm) : News P s (patchAll name id a rs s) := by
  induction rs generalizing s with
  | nil => exact .refl s
  | cons r rs ih =>
    rw [patchAll]
    exact News.trans (News.trans (b := { s with writeAddr := r.addr }) (.same rfl rfl) (emitBackwardRef_news _ _ _ _ _ (fun h => by cases h))) (ih _)

theorem findOrCreate_news (t : Token) (name : Str) (s : Asm) : News P s (findOrCreate t name s).2 := by
  unfold findOrCreate
  split
  · exact error_news _ _ _
  · split
    · exact error_news _ _ _
    · split
      · exact error_news _ _ _
      · split
        · exact error_news _ _ _
        · split
          · exact .refl s
          · rename_i h
            exact News.trans (setNode_news (n := ⟨t, false, .unknown⟩) (s := s) (fun m hm => by rw [h] at hm; cases hm)) (.same rfl rfl)

theorem resolveLocalName_news (t : Token) (n : Str) (s : Asm) : News P s (resolveLocalName t n s).2 := by
  unfold resolveLocalName
  split
  exacts [error_news _ _ _, .refl s]

theorem resolveLabelRef_news (t : Token) (n : Str) (s : Asm) : News P s (resolveLabelRef t n s).2 := by
  unfold resolveLabelRef
  split
  · exact error_news _ _ _
  · split
    exacts [resolveLocalName_news _ _ _, .refl s]

/-- What a reference is resolved to. -/
theorem resolveLabelRef_refers {t : Token} {w full : Str} {s s' : Asm} (h : resolveLabelRef t w s = (some full, s')) : Refers w full := by
  unfold resolveLabelRef at h
  split at h
  · cases h
  · rename_i c rest
    split at h
    · rename_i hc
      unfold resolveLocalName at h
      split at h
      · cases h
      · cases h
        exact .inr ⟨c, s.scope, rest, rfl, hc, rfl⟩
    · cases h
      exact .inl rfl

/-- The word `w` is at the place of the reference. -/
def Shows (P : Token → Prop) (t : Token) (r : Bool) (w : Str) : Prop := P t ∧ Covers t (argRegion r t.region) w

theorem Shows.refFits {t : Token} {r : Bool} {w name : Str} (h : Shows P t r w) (hw : Refers w name) : RefFits P t r (some name) :=
  fun _ => ⟨t, h.1, w, h.2, hw⟩

theorem Shows.anon {t : Token} {r : Bool} {w : Str} (h : Shows P t r w) (hw : w = str "{" ∨ w = str "@") : RefFits P t r none :=
  fun _ => ⟨t, h.1, w, h.2, hw⟩

theorem refers_at {w : Str} (h : Refers w [ch '@']) : w = str "@" := by
  rcases h with h | ⟨c, sc, x, _, _, h⟩
  · exact h
  · exfalso
    cases sc with
    | nil => simp only [List.nil_append, List.cons.injEq] at h; exact absurd h.1 (by decide)
    | cons a l => simp only [List.cons_append, List.cons.injEq] at h; simp at h

theorem emitLabelRef_news {t : Token} (k : RefKind) (z : RefSize) {w : Str} {r : Bool} (s : Asm) (h : Shows P t r w) : News P s (emitLabelRef t k z w r s).2 := by
  unfold emitLabelRef
  split
  · rename_i hw
    exact emitLambdaRef_news _ _ _ (h.anon (.inl hw))
  · have h1 : News P s _ := resolveLabelRef_news t w s
    split
    · rename_i heq; rw [heq] at h1; exact h1
    · rename_i full s1 heq
      rw [heq] at h1
      have hr := resolveLabelRef_refers heq
      refine h1.trans ?_
      split
      · rename_i hf
        rw [hf] at hr
        split
        · rename_i l ls _
          exact News.trans (b := { s1 with atLabels := ls }) (.same rfl rfl) (emitBackwardRef_news _ _ _ _ _ fun _ => h.anon (.inr (refers_at hr)))
        · exact error_news _ _ _
      · split
        · exact error_news _ _ _
        · split
          · exact error_news _ _ _
          · rename_i c rest _ _
            have h2 : News P s1 _ := findOrCreate_news t (c :: rest) s1
            split
            · rename_i heq2; rw [heq2] at h2; exact h2
            · rename_i n s2 heq2
              have hn := findOrCreate_node _ _ _ _ _ heq2
              rw [heq2] at h2
              refine h2.trans ?_
              dsimp only
              split
              · rename_i id addr he
                refine (setNode_news (n := { n with referenced := true }) fun m hm hl => ?_).trans (emitBackwardRef_news _ _ _ _ _ fun _ => h.refFits hr)
                rw [he]; trivial
              · rename_i he; exact emitForwardRef_news _ _ _ (h.refFits hr) hn (by rw [he]; exact id)
              · rename_i he; exact emitForwardRef_news _ _ _ (h.refFits hr) hn (by rw [he]; exact id)
              · exact error_news _ _ _

/-! ## Definitions -/

/-- What holds of a state while the assembler works. -/
structure Placed (P : Token → Prop) (s : Asm) : Prop where
  fits : ∀ x ∈ syms s.log, Fits P x.2
  nodup : (defined s.log).Nodup
  settled : ∀ name ∈ defined s.log, (∃ n, s.symtab name = some n ∧ isLabel n.entry) ∨ macroOf s name ≠ none
  bodies : ∀ name b i x, macroOf s name = some (b, i, x) → ∀ t ∈ b, P t
  buf : s.readBuf = none

/-- What is left of it when something went wrong. -/
structure Told (P : Token → Prop) (s : Asm) : Prop where
  fits : ∀ x ∈ syms s.log, Fits P x.2
  nodup : (defined s.log).Nodup

theorem Placed.told {s : Asm} (h : Placed P s) : Told P s := ⟨h.fits, h.nodup⟩

/-- With the result: a state after a failure is only looked at. -/
def Stands (P : Token → Prop) (r : Bool × Asm) : Prop := Told P r.2 ∧ (r.1 = true → Placed P r.2)

theorem News.defined {s s' : Asm} (h : News P s s') : defined s'.log = defined s.log := by
  obtain ⟨new, e, hn⟩ := h.told
  unfold Spec.defined
  rw [e, List.filterMap_append, List.filterMap_eq_nil_iff.2 fun x hx => (hn x hx).2, List.nil_append]

theorem Told.same {s s' : Asm} (h : Told P s) (hs : syms s'.log = syms s.log) : Told P s' :=
  ⟨by rw [hs]; exact h.fits, by unfold Spec.defined; rw [hs]; exact h.nodup⟩

theorem Told.news {s s' : Asm} (h : Told P s) (hn : News P s s') : Told P s' := by
  refine ⟨fun x hx => ?_, by rw [hn.defined]; exact h.nodup⟩
  obtain ⟨new, e, hf⟩ := hn.told
  rw [e] at hx
  rcases List.mem_append.1 hx with hx | hx
  exacts [(hf x hx).1, h.fits x hx]

theorem Placed.step {s s' : Asm} (h : Placed P s) (hn : News P s s') (hm : ∀ name, macroOf s' name = macroOf s name) (hb : s'.readBuf = none) : Placed P s' := by
  have ht := h.told.news hn
  refine ⟨ht.fits, ht.nodup, fun name hd => ?_, fun name b i x he => h.bodies name b i x ((hm name).symm.trans he), hb⟩
  rw [hn.defined] at hd
  rcases h.settled name hd with ⟨n, h1, h2⟩ | h1
  · exact .inl (hn.labels name n h1 h2)
  · exact .inr (by rw [hm]; exact h1)

theorem Placed.calm {s s' : Asm} (h : Placed P s) (hn : News P s s') (hc : Calm s s') : Placed P s' := h.step hn hc.macros (hc.readBuf.trans h.buf)

theorem Placed.holds {s : Asm} {r : Bool × Asm} (h : Placed P s) (hn : News P s r.2) (hc : Calm s r.2) : Stands P r :=
  ⟨h.told.news hn, fun _ => h.calm hn hc⟩

theorem Told.fails {s : Asm} {r : Bool × Asm} (h : Told P s) (hn : News P s r.2) (hr : r.1 = false) : Stands P r :=
  ⟨h.news hn, fun ht => by rw [hr] at ht; cases ht⟩

theorem Placed.fresh {s : Asm} {name : Str} {n : Node} (h : Placed P s) (hn : s.symtab name = some n) (hl : ¬ isLabel n.entry) (hm : macroEntry n.entry = none) :
    name ∉ Spec.defined s.log := by
  intro hd
  rcases h.settled name hd with ⟨m, h1, h2⟩ | h1
  · rw [hn] at h1
    cases h1
    exact hl h2
  · rw [macroOf_some hn] at h1
    exact h1 hm

/-- A definition: a new name. -/
theorem Told.define {s : Asm} {a : Short} {i : SymInfo} {name : Str} (h : Told P s) (hf : Fits P i) (hd : defines i = some name) (hn : name ∉ Spec.defined s.log) :
    Told P (putSymbol a i s) := by
  have e : Spec.defined (putSymbol a i s).log = name :: Spec.defined s.log := by
    show List.filterMap (fun x => defines x.2) ((a, i) :: syms s.log) = _
    rw [List.filterMap_cons, hd]
    rfl
  refine ⟨fun x hx => ?_, by rw [e]; exact List.nodup_cons.2 ⟨hn, h.nodup⟩⟩
  rcases List.mem_cons.1 hx with rfl | hx
  exacts [hf, h.fits x hx]

theorem placeLabel_holds {t : Token} {name : Str} {n : Node} (id : Short) (rs : List FRef) {s0 s : Asm} (h : Placed P s0) (hs : syms s.log = syms s0.log)
    (ht : s.symtab = s0.symtab) (hb : s.readBuf = s0.readBuf) (hn : s0.symtab name = some n) (hl : ¬ isLabel n.entry) (hm : macroEntry n.entry = none)
    (hf : Fits P { type := .label, name := some name, region := t.region, id := id }) : Stands P (placeLabel t name n id rs s) := by
  have hfr := h.fresh hn hl hm
  unfold placeLabel
  dsimp only
  have h0 : News P s0 s := .same hs ht
  have h1 : News P s (setNode name { n with entry := .label id s.writeAddr } s) := setNode_news fun _ _ _ => trivial
  have h2 := h1.trans (patchAll_news name id s.writeAddr rs _)
  have h3 := h2.trans (setNode_news (name := name) (n := { n with entry := .label id s.writeAddr, referenced := !rs.isEmpty }) fun _ _ _ => trivial)
  have h4 := h0.trans h3
  have hmo : macroOf s name = none := by
    unfold macroOf
    rw [ht, hn]
    exact hm
  have hc := placeLabel_calm t name n id rs s hmo
  unfold placeLabel at hc
  dsimp only at hc
  have hsym : (setNode name { n with entry := .label id s.writeAddr, referenced := !rs.isEmpty }
      (patchAll name id s.writeAddr rs (setNode name { n with entry := .label id s.writeAddr } s))).symtab name =
      some { n with entry := .label id s.writeAddr, referenced := !rs.isEmpty } := by
    simp only [setNode, if_true]
  generalize setNode name { n with entry := .label id s.writeAddr, referenced := !rs.isEmpty }
      (patchAll name id s.writeAddr rs (setNode name { n with entry := .label id s.writeAddr } s)) = s1 at *
  have h5 : News P s0 { s1 with writeAddr := s.writeAddr } := h4.trans (.same rfl rfl)
  have hT : Told P (putSymbol s.writeAddr { type := .label, name := some name, region := t.region, id := id } { s1 with writeAddr := s.writeAddr }) :=
    (h.told.news h5).define hf rfl (by rw [h5.defined]; exact hfr)
  refine ⟨hT, fun _ => ⟨hT.fits, hT.nodup, fun nm hd => ?_, fun nm b i x he => ?_, ?_⟩⟩
  · have hd : nm ∈ name :: Spec.defined s0.log := by
      rw [← h5.defined]
      exact hd
    by_cases hnm : nm = name
    · subst hnm
      exact .inl ⟨_, hsym, trivial⟩
    · rcases h.settled nm (List.mem_of_ne_of_mem hnm hd) with ⟨m, h1, h2⟩ | h1
      · exact .inl (h5.labels nm m h1 h2)
      · right
        rw [hc.macros nm]
        unfold macroOf
        rw [ht]
        exact h1
  · rw [hc.macros nm] at he
    unfold macroOf at he
    rw [ht] at he
    exact h.bodies nm b i x he
  · exact (hc.readBuf.trans hb).trans h.buf

theorem defineLabel_holds {t : Token} {name : Str} {n : Node} {s : Asm} (h : Placed P s) (hn : s.symtab name = some n)
    (hf : ∀ id, Fits P { type := .label, name := some name, region := t.region, id := id }) : Stands P (defineLabel t name n s) := by
  unfold defineLabel
  split
  · rename_i he
    exact placeLabel_holds (s0 := s) _ _ h rfl rfl rfl hn (by rw [he]; exact id) (by rw [he]; rfl) (hf _)
  · rename_i he
    exact placeLabel_holds (s0 := s) _ _ h rfl rfl rfl hn (by rw [he]; exact id) (by rw [he]; rfl) (hf _)
  · exact h.told.fails (error_news _ _ _) rfl
  · exact h.told.fails (error_news _ _ _) rfl

theorem registerLabel_holds {t : Token} {name : Str} {s : Asm} (h : Placed P s)
    (hf : ∀ id, Fits P { type := .label, name := some name, region := t.region, id := id }) : Stands P (registerLabel t name s) := by
  unfold registerLabel
  have hc := findOrCreate_calm t name s
  have hw : News P s _ := findOrCreate_news t name s
  split
  · rename_i heq; rw [heq] at hw; exact h.told.fails hw rfl
  · rename_i heq
    have hn := findOrCreate_node _ _ _ _ _ heq
    rw [heq] at hc hw
    exact defineLabel_holds (h.calm hw hc) hn hf

/-! ## Tokens -/

theorem lex_cons {t : Token} {c : Byte} (h : t.lex.headD 0 = c) (hc : c ≠ 0) : t.lex = c :: popFront t.lex := by
  unfold popFront
  cases hl : t.lex with
  | nil => rw [hl] at h; exact absurd h.symm hc
  | cons a l => rw [hl] at h; rw [← h]; rfl

theorem processAtLabel_news {t : Token} (s : Asm) (h : P t) (hl : t.lex = str "@@") : News P s (processAtLabel t s) := by
  unfold processAtLabel
  refine News.trans (b := { s with
    atLabels := { token := t, labelId := s.numLabels + 1, lambdaId := s.numLambdas, addr := s.writeAddr } :: s.atLabels
    numLabels := s.numLabels + 1
    numLambdas := s.numLambdas + 1 }) (.same rfl rfl) (putSymbol_news _ ⟨t, h, rfl, ?_⟩ rfl)
  exact ⟨.inl hl, _, rfl⟩

theorem processGlobalLabel_holds {t : Token} {s : Asm} (h : Placed P s) (ht : P t) (hc : t.lex.headD 0 = ch '@') : Stands P (processGlobalLabel t s) := by
  have hl := lex_cons hc (by decide)
  have hcalm := processGlobalLabel_calm t s
  unfold processGlobalLabel at *
  dsimp only at *
  split
  · rename_i hn
    rw [if_pos hn] at hcalm
    exact h.holds (processAtLabel_news s ht (by rw [hl, hn]; rfl)) hcalm
  · have h1 : Stands P (registerLabel t (popFront t.lex) s) := registerLabel_holds h fun id => ⟨t, ht, rfl, popFront t.lex, rfl, .inl hl⟩
    unfold andThen
    split
    · rename_i hok
      have h2 := h1.2 hok
      have h3 := h2.calm (s' := { (registerLabel t (popFront t.lex) s).2 with scope := (popFront t.lex).takeWhile (· ≠ ch '/') }) (.same rfl rfl) ⟨rfl, rfl, rfl, rfl, rfl, fun _ => rfl⟩
      exact ⟨h3.told, fun _ => h3⟩
    · exact ⟨h1.1, fun h => by cases h⟩

theorem processLocalLabel_holds {t : Token} {s : Asm} (h : Placed P s) (ht : P t) (hc : t.lex.headD 0 = ch '&') : Stands P (processLocalLabel t s) := by
  have hl := lex_cons hc (by decide)
  unfold processLocalLabel resolveLocalName
  split
  · rename_i heq
    split at heq
    · cases heq
      exact h.told.fails (error_news _ _ _) rfl
    · cases heq
  · rename_i heq
    split at heq
    · cases heq
    · cases heq
      exact registerLabel_holds h fun id => ⟨t, ht, rfl, _, rfl, .inr ⟨s.scope, popFront t.lex, hl, rfl⟩⟩

theorem resolvePadding_news (t : Token) (s : Asm) : News P s (resolvePadding t s).2 := by
  unfold resolvePadding
  dsimp only
  split
  · exact error_news _ _ _
  · split
    · split
      exacts [error_news _ _ _, .refl s]
    · have h : News P s _ := resolveLabelRef_news t (popFront t.lex) s
      split
      · rename_i heq; rw [heq] at h; exact h
      · rename_i heq; rw [heq] at h
        refine h.trans ?_
        split
        · split
          · exact error_news _ _ _
          · exact .same rfl rfl
        · split
          · exact error_news _ _ _
          · rename_i n hn
            split
            · rename_i he
              exact setNode_news (n := { n with referenced := true }) fun m hm hl => by rw [he]; trivial
            · exact error_news _ _ _

theorem processAbsPadding_news (t : Token) (s : Asm) : News P s (processAbsPadding t s).2 := by
  unfold processAbsPadding
  have h : News P s _ := resolvePadding_news t s
  split
  · rename_i heq; rw [heq] at h; exact h
  · rename_i heq; rw [heq] at h; exact h.trans (.same rfl rfl)

theorem processRelPadding_news (t : Token) (s : Asm) : News P s (processRelPadding t s).2 := by
  unfold processRelPadding
  have h : News P s _ := resolvePadding_news t s
  split
  · rename_i heq; rw [heq] at h; exact h
  · rename_i heq; rw [heq] at h
    exact h.trans (ite_news (.same rfl rfl) (.same rfl rfl))

theorem shows_arg {t : Token} (ht : P t) {c : Byte} {w : Str} (hl : t.lex = c :: w) : Shows P t true w := ⟨ht, .inr ⟨rfl, c, hl⟩⟩

theorem shows_word {t : Token} (ht : P t) : Shows P t false t.lex := ⟨ht, .inl ⟨rfl, rfl⟩⟩

theorem rune_fits {t : Token} (ht : P t) {c : Byte} {w : Str} (hl : t.lex = c :: w) {op : Byte} (h : (c, op.setWidth 16) ∈ runeOpcodes) :
    Fits P { type := .opcode, region := if true then runeRegion t.region else t.region, id := op.setWidth 16 } := ⟨t, ht, .inr ⟨rfl, c, w, hl, h⟩⟩

theorem runeRef_news {t : Token} {c : Byte} (op : Byte) (k : RefKind) (z : RefSize) (s : Asm) (ht : P t) (hc : t.lex.headD 0 = c) (h0 : c ≠ 0)
    (h : (c, op.setWidth 16) ∈ runeOpcodes) : News P s (andThen (emitOpcode t op true s) fun s => emitLabelRef t k z (popFront t.lex) true s).2 :=
  andThen_news (emitOpcode_news _ (rune_fits ht (lex_cons hc h0) h)) fun _ => emitLabelRef_news _ _ _ (shows_arg ht (lex_cons hc h0))

theorem emitJsi_news {t : Token} (s : Asm) (ht : P t) : News P s (emitJsi t s).2 :=
  andThen_news (emitOpcode_news _ ⟨t, ht, .inl ⟨rfl, .inl rfl⟩⟩) fun _ => emitLabelRef_news _ _ _ (shows_word ht)

theorem processLitNumber_news {t : Token} (s : Asm) (ht : P t) (hc : t.lex.headD 0 = ch '#') : News P s (processLitNumber t s).2 := by
  have hl := lex_cons hc (by decide)
  unfold processLitNumber
  split
  · exact error_news _ _ _
  · rename_i n k hp
    split
    · rename_i hk
      exact andThen_news (emitOpcode_news _ (rune_fits ht hl (by decide))) fun _ => emitByte_news _ ⟨t, ht, _, n, k, .inr ⟨rfl, _, hl⟩, hp, by rw [if_pos hk]; rfl⟩
    · rename_i hk
      exact andThen_news (emitOpcode_news _ (rune_fits ht hl (by decide))) fun _ => emitShort_news _ ⟨t, ht, _, n, k, .inr ⟨rfl, _, hl⟩, hp, by rw [if_neg hk]⟩

theorem processRawNumber_news {t : Token} (s : Asm) (ht : P t) : News P s (processRawNumber t s).2 := by
  unfold processRawNumber
  split
  · exact error_news _ _ _
  · rename_i n k hp
    split
    · rename_i hk
      exact emitByte_news _ ⟨t, ht, _, n, k, .inl ⟨rfl, rfl⟩, hp, by rw [if_pos hk]; rfl⟩
    · rename_i hk
      exact emitShort_news _ ⟨t, ht, _, n, k, .inl ⟨rfl, rfl⟩, hp, by rw [if_neg hk]⟩

theorem processLambdaClose_news {t : Token} (s : Asm) (ht : P t) (hl : t.lex = str "}") : News P s (processLambdaClose t s).2 := by
  unfold processLambdaClose
  split
  · exact error_news _ _ _
  · rename_i r rs _
    dsimp only
    refine andThen_news ((calculateAddr_news r.token r.kind r.addr s.writeAddr s).trans (News.trans (b := { (calculateAddr r.token r.kind r.addr s.writeAddr s).2 with writeAddr := r.addr }) (.same rfl rfl) (emitAddr_news _ _ _ _ (i := none) _ _ (fun j hj => by cases hj)))) fun s' => ?_
    have h1 : News P s' (putSymbol s.writeAddr { type := .label, name := some (lambdaName r.lambdaId), generated := true, region := t.region, id := r.labelId } { s' with writeAddr := s.writeAddr }) :=
      News.trans (b := { s' with writeAddr := s.writeAddr }) (.same rfl rfl) (putSymbol_news _ ⟨t, ht, rfl, .inr hl, _, rfl⟩ rfl)
    exact h1.trans (.same rfl rfl)

theorem textLoop_news {t : Token} {i : SymInfo} (cs : Str) (a : Short) (s : Asm) (h : Fits P i) (hd : defines i = none) : News P s (textLoop t i cs a s).2 := by
  induction cs generalizing a s with
  | nil => exact .refl s
  | cons c cs ih => exact andThen_news (emit_news _ _ _ _) fun _ => (putSymbol_news _ h hd).trans (ih _ _)

theorem processText_news {t : Token} (s : Asm) (ht : P t) (hc : t.lex.headD 0 = ch '"') : News P s (processText t s).2 := by
  unfold processText
  refine ite_news1 (error_news _ _ _) (textLoop_news _ _ _ ⟨t, ht, rfl, ?_⟩ rfl)
  rw [lex_cons hc (by decide)]
  rfl

theorem processMark_news {t : Token} (s : Asm) (ht : P t) : News P s (processMark t s) := putSymbol_news _ ⟨t, ht, rfl, rfl⟩ rfl

/-! ## Units -/

/-- All tokens that are still to come have the property. -/
def UnitOk (P : Token → Prop) : Unit → Prop
  | .file u => ∃ ts ok, Reads u ts ok ∧ ∀ t ∈ ts, P t
  | .macro u => ∀ t ∈ u.rest, P t

/-- The property does not depend on what is substituted for `^`. -/
def Substitutes (P : Token → Prop) : Prop := ∀ t text, P t → ch '^' ∈ t.lex → P { t with lex := text }

variable (hsub : Substitutes P)

include hsub in
/-- A token, and the state is as before; or no token, and that is the end or was reported. -/
theorem nextToken_unit {u : Unit} {s : Asm} (hu : UnitOk P u) (hb : s.readBuf = none) :
    (∃ t u', nextToken u s = (some t, u', s) ∧ P t ∧ UnitOk P u') ∨
    (∃ u' s', nextToken u s = (none, u', s') ∧ Hush s s' ∧ (s'.success = true → s' = s)) := by
  cases u with
  | file u =>
    obtain ⟨ts, ok, hr, hp⟩ := hu
    cases hr with
    | stop h =>
      right
      obtain ⟨h1, h2⟩ := h s hb
      refine ⟨.file (nextInFile u s).2.1, (nextInFile u s).2.2, ?_, nextToken_hush (.file u) s, fun _ => h2⟩
      unfold nextToken
      dsimp only
      rw [h1]
    | fail h =>
      right
      obtain ⟨h1, h2⟩ := h s hb
      refine ⟨.file (nextInFile u s).2.1, (nextInFile u s).2.2, ?_, nextToken_hush (.file u) s, fun h => (by rw [h2] at h; cases h)⟩
      unfold nextToken
      dsimp only
      rw [h1]
    | @next _ u' t ts ok h hr =>
      left
      refine ⟨t, .file u', ?_, hp t (by simp), ts, ok, hr, fun t ht => hp t (by simp [ht])⟩
      unfold nextToken
      dsimp only
      rw [h s hb]
  | «macro» u =>
    have hh := nextToken_hush (.macro u) s
    unfold nextToken nextInMacro at *
    dsimp only at *
    cases hr : u.rest with
    | nil => exact .inr ⟨_, _, rfl, .refl s, fun _ => rfl⟩
    | cons t rest =>
      rw [hr] at hh
      dsimp only at *
      have ht : P t := hu t (by rw [hr]; simp)
      have hrest : ∀ x ∈ rest, P x := fun x hx => hu x (by rw [hr]; simp [hx])
      split
      · exact .inl ⟨t, _, rfl, ht, hrest⟩
      · rename_i harg
        rw [if_neg harg] at hh
        split
        · exact .inr ⟨_, _, rfl, .error _ _ _, fun h => by cases h⟩
        · rename_i rev he
          generalize (if (List.reverse rev).head? = some (ch '"') then MAX_LONG_STRING_LEN else MAX_TOKEN_LEN) = limit
          split
          · exact .inr ⟨_, _, rfl, .error _ _ _, fun h => by cases h⟩
          · left
            refine ⟨_, _, rfl, ?_, hrest⟩
            split
            · rename_i hm
              exact hsub t _ ht hm
            · exact ht

/-- Reading ahead within a comment or macro: only `P`-symbols that define nothing; if it went well, the unit goes on. -/
structure Ahead (P : Token → Prop) (s : Asm) (good : Prop) (u' : Unit) (s' : Asm) : Prop where
  news : News P s s'
  symtab : s'.symtab = s.symtab
  good : good → UnitOk P u' ∧ s'.readBuf = none

theorem Ahead.trans {s s1 s2 : Asm} {g1 g2 : Prop} {u1 u2 : Unit} (h : Ahead P s g1 u1 s1) (h' : Ahead P s1 g2 u2 s2) : Ahead P s g2 u2 s2 :=
  ⟨h.news.trans h'.news, h'.symtab.trans h.symtab, h'.good⟩

theorem Placed.ahead {s s' : Asm} {g : Prop} {u : Unit} (h : Placed P s) (ha : Ahead P s g u s') (hg : g) : Placed P s' :=
  h.step ha.news (fun name => by unfold macroOf; rw [ha.symtab]) (ha.good hg).2

include hsub in
theorem commentLoop_ahead (fuel depth : Nat) {u : Unit} {s : Asm} (hu : UnitOk P u) (hb : s.readBuf = none) :
    Ahead P s ((commentLoop fuel depth u s).1 = 0) (commentLoop fuel depth u s).2.1 (commentLoop fuel depth u s).2.2 := by
  induction fuel generalizing depth u s with
  | zero => exact ⟨.refl s, rfl, fun _ => ⟨hu, hb⟩⟩
  | succ n ih =>
    unfold commentLoop
    split
    · exact ⟨.refl s, rfl, fun _ => ⟨hu, hb⟩⟩
    · rename_i hd
      rcases nextToken_unit hsub hu hb with ⟨t, u', e, ht, hu'⟩ | ⟨u', s', e, hh, _⟩
      · rw [e]
        dsimp only
        have h1 : News P s (putSymbol s.writeAddr { type := .comment, name := some t.lex, region := t.region, id := BitVec.ofNat 16 depth } s) :=
          putSymbol_news _ ⟨t, ht, rfl, rfl⟩ rfl
        have h2 := ih (if t.lex = [ch '('] then depth + 1 else if t.lex = [ch ')'] then depth - 1 else depth) (u := u')
          (s := putSymbol s.writeAddr { type := .comment, name := some t.lex, region := t.region, id := BitVec.ofNat 16 depth } s) hu' hb
        exact ⟨h1.trans h2.news, h2.symtab, h2.good⟩
      · rw [e]
        exact ⟨hh.news, hh.symtab, fun h => absurd h hd⟩

include hsub in
theorem processComment_ahead {t : Token} {u : Unit} {s : Asm} (ht : P t) (hu : UnitOk P u) (hb : s.readBuf = none) :
    Ahead P s ((processComment t u s).1 = true) (processComment t u s).2.1 (processComment t u s).2.2 := by
  unfold processComment
  dsimp only
  have h1 : News P s (putSymbol s.writeAddr { type := .comment, name := some t.lex, region := t.region } s) := putSymbol_news _ ⟨t, ht, rfl, rfl⟩ rfl
  have h2 := commentLoop_ahead hsub (unitFuel u) 1 (u := u) (s := putSymbol s.writeAddr { type := .comment, name := some t.lex, region := t.region } s) hu hb
  generalize commentLoop (unitFuel u) 1 u (putSymbol s.writeAddr { type := .comment, name := some t.lex, region := t.region } s) = p at h2
  obtain ⟨d, u1, s1⟩ := p
  dsimp only at h2 ⊢
  split
  · exact ⟨(h1.trans h2.news).trans (error_news _ _ _), h2.symtab, fun h => by cases h⟩
  · rename_i hd
    exact ⟨h1.trans h2.news, h2.symtab, fun _ => h2.good (by simpa using hd)⟩

include hsub in
theorem macroHead_ahead (start : Token) (fuel : Nat) {u : Unit} {s : Asm} (hu : UnitOk P u) (hb : s.readBuf = none) :
    Ahead P s ((macroHead start fuel u s).1 = true) (macroHead start fuel u s).2.1 (macroHead start fuel u s).2.2 := by
  induction fuel generalizing u s with
  | zero => exact ⟨error_news _ _ _, rfl, fun h => by cases h⟩
  | succ n ih =>
    unfold macroHead
    rcases nextToken_unit hsub hu hb with ⟨t, u', e, ht, hu'⟩ | ⟨u', s', e, hh, _⟩
    · rw [e]
      dsimp only
      have hmark : Ahead P s True u' (processMark t s) := ⟨processMark_news s ht, rfl, fun _ => ⟨hu', hb⟩⟩
      have herr : ∀ m r, Ahead P s (false = true) u' (error m r s).2 := fun m r => ⟨error_news _ _ _, rfl, fun h => by cases h⟩
      split
      · have hc := processComment_ahead hsub ht hu' hb
        generalize processComment t u' s = q at hc
        obtain ⟨_ | _, u2, s2⟩ := q
        · exact hc
        · have := hc.good rfl
          exact hc.trans (ih this.1 this.2)
      · split
        · exact hmark.trans (ih hu' hb)
        · split
          · split
            · exact herr _ _
            · exact hmark.trans (ih hu' hb)
          · split
            · exact ⟨.refl s, rfl, fun _ => ⟨hu', hb⟩⟩
            · exact herr _ _
    · rw [e]
      exact ⟨hh.news.trans (error_news _ _ _), hh.symtab, fun h => by cases h⟩

include hsub in
theorem macroBody_ahead (start : Token) (fuel depth : Nat) (acc : List Token) {u : Unit} {s : Asm} (hu : UnitOk P u) (hb : s.readBuf = none) (ha : ∀ t ∈ acc, P t) :
    Ahead P s ((macroBody start fuel depth acc u s).1 ≠ none) (macroBody start fuel depth acc u s).2.1 (macroBody start fuel depth acc u s).2.2 ∧
    ∀ body, (macroBody start fuel depth acc u s).1 = some body → ∀ t ∈ body, P t := by
  induction fuel generalizing depth acc u s with
  | zero => exact ⟨⟨error_news _ _ _, rfl, fun h => absurd rfl h⟩, fun _ h => by cases h⟩
  | succ n ih =>
    unfold macroBody
    rcases nextToken_unit hsub hu hb with ⟨t, u', e, ht, hu'⟩ | ⟨u', s', e, hh, _⟩
    · rw [e]
      dsimp only
      split
      · exact ⟨⟨error_news _ _ _, rfl, fun h => absurd rfl h⟩, fun _ h => by cases h⟩
      · generalize (if t.lex = [ch '}'] then depth - 1 else if opensLambda t.lex = true then depth + 1 else depth) = d
        split
        · exact ⟨⟨.refl s, rfl, fun _ => ⟨hu', hb⟩⟩, fun body h => by cases h; exact ha⟩
        · exact ih d (t :: acc) hu' hb fun x hx => by
            rcases List.mem_cons.1 hx with rfl | hx
            exacts [ht, ha x hx]
    · rw [e]
      exact ⟨⟨hh.news.trans (error_news _ _ _), hh.symtab, fun h => absurd rfl h⟩, fun _ h => by cases h⟩

/-- A symbol becomes, or stays, a macro. -/
theorem Placed.setMacro {s : Asm} (h : Placed P s) (name : Str) (n : Node) (b : List Token) (i : Short) (x : Bool) (hn : n.entry = .macro b i x) (hb : ∀ t ∈ b, P t) :
    Placed P (setNode name n s) := by
  refine ⟨h.fits, h.nodup, fun nm hd => ?_, fun nm b' i' x' he => ?_, h.buf⟩
  · by_cases hnm : nm = name
    · right
      rw [macroOf_set, if_pos hnm, hn]
      simp [macroEntry]
    · rcases h.settled nm hd with ⟨m, h1, h2⟩ | h1
      · refine .inl ⟨m, ?_, h2⟩
        simp only [setNode, if_neg hnm]
        exact h1
      · right
        rw [macroOf_set, if_neg hnm]
        exact h1
  · rw [macroOf_set] at he
    split at he
    · rw [hn] at he
      cases he
      exact hb
    · exact h.bodies nm b' i' x' he

/-- With the unit that is read. -/
def StandsU (P : Token → Prop) (o : Option (Bool × Unit × Asm)) : Prop := ∀ r, o = some r → Stands P (r.1, r.2.2) ∧ (r.1 = true → UnitOk P r.2.1)

theorem standsU_fail {s : Asm} {u : Unit} (h : Told P s) : StandsU P (some (false, u, s)) := by
  intro r hr
  cases hr
  exact ⟨⟨h, fun h => by cases h⟩, fun h => by cases h⟩

theorem standsU_keep {u : Unit} {r : Bool × Asm} (hu : UnitOk P u) (h : Stands P r) : StandsU P (keep u r) := by
  intro q hq
  cases hq
  exact ⟨h, fun _ => hu⟩

theorem standsU_some {u : Unit} {s : Asm} {ok : Bool} (hu : UnitOk P u) (h : Stands P (ok, s)) : StandsU P (some (ok, u, s)) := by
  intro q hq
  cases hq
  exact ⟨h, fun _ => hu⟩

include hsub in
theorem createMacro_stands {start : Token} {name : Str} {n : Node} {u : Unit} {s : Asm} (h : Placed P s) (ht : P start) (hu : UnitOk P u)
    (hl : start.lex = ch '%' :: name) (hn : s.symtab name = some n) (he : n.entry = .unknown) : StandsU P (some (createMacro start name n u s)) := by
  have hfr := h.fresh hn (by rw [he]; exact id) (by rw [he]; rfl)
  unfold createMacro
  dsimp only
  have h0 : Told P (putSymbol 0 { type := .macro, name := some name, region := start.region, id := s.numMacros + 1 } { s with numMacros := s.numMacros + 1 }) :=
    (h.told.news (s' := { s with numMacros := s.numMacros + 1 }) (.same rfl rfl)).define ⟨start, ht, rfl, name, rfl, hl⟩ rfl hfr
  have hd0 : Spec.defined (putSymbol 0 { type := .macro, name := some name, region := start.region, id := s.numMacros + 1 } { s with numMacros := s.numMacros + 1 }).log = name :: Spec.defined s.log := rfl
  have ha := macroHead_ahead hsub start (unitFuel u) (u := u)
    (s := putSymbol 0 { type := .macro, name := some name, region := start.region, id := s.numMacros + 1 } { s with numMacros := s.numMacros + 1 }) hu h.buf
  have hs0 : (putSymbol 0 { type := .macro, name := some name, region := start.region, id := s.numMacros + 1 } { s with numMacros := s.numMacros + 1 }).symtab = s.symtab := rfl
  generalize putSymbol 0 { type := .macro, name := some name, region := start.region, id := s.numMacros + 1 } { s with numMacros := s.numMacros + 1 } = s0 at *
  generalize macroHead start (unitFuel u) u s0 = q at *
  obtain ⟨_ | _, u1, s1⟩ := q
  · exact standsU_fail (h0.news ha.news)
  · dsimp only at ha ⊢
    obtain ⟨hu1, hb1⟩ := ha.good rfl
    -- the definition is settled as soon as the macro is known
    have hp1 : Placed P (setNode name { n with entry := .macro [] 0 false } s1) := by
      have ht1 := h0.news ha.news
      have hm1 : ∀ nm, macroOf s1 nm = macroOf s nm := fun nm => by unfold macroOf; rw [ha.symtab, hs0]
      refine ⟨ht1.fits, ht1.nodup, fun nm hd => ?_, fun nm b i x hm => ?_, hb1⟩
      · by_cases hnm : nm = name
        · right
          rw [macroOf_set, if_pos hnm]
          simp [macroEntry]
        · have hd : nm ∈ Spec.defined s.log := by
            have : nm ∈ Spec.defined s1.log := hd
            rw [ha.news.defined, hd0] at this
            exact List.mem_of_ne_of_mem hnm this
          rcases h.settled nm hd with ⟨m, h1, h2⟩ | h1
          · refine .inl ⟨m, ?_, h2⟩
            simp only [setNode, if_neg hnm]
            rw [ha.symtab, hs0]
            exact h1
          · right
            rw [macroOf_set, if_neg hnm, hm1]
            exact h1
      · rw [macroOf_set] at hm
        split at hm
        · cases hm
          intro t ht
          cases ht
        · rw [hm1] at hm
          exact h.bodies nm b i x hm
    generalize setNode name { n with entry := .macro [] 0 false } s1 = s2 at hp1
    have hb := macroBody_ahead hsub start (unitFuel u1) 1 [] hu1 hp1.buf (fun _ h => by cases h)
    generalize macroBody start (unitFuel u1) 1 [] u1 s2 = q at *
    obtain ⟨_ | acc, u3, s3⟩ := q
    · exact standsU_fail (hp1.told.news hb.1.news)
    · dsimp only at hb ⊢
      have hp3 : Placed P s3 := hp1.ahead hb.1 (by simp)
      have hp4 := hp3.setMacro name { n with entry := .macro acc.reverse (s.numMacros + 1) false } acc.reverse (s.numMacros + 1) false rfl
        (fun t ht => hb.2 acc rfl t (List.mem_reverse.1 ht))
      exact standsU_some (hb.1.good (by simp)).1 ⟨hp4.told, fun _ => hp4⟩

include hsub in
theorem processMacro_stands {t : Token} {u : Unit} {s : Asm} (h : Placed P s) (ht : P t) (hu : UnitOk P u) (hc : t.lex.headD 0 = ch '%') :
    StandsU P (some (processMacro t u s)) := by
  unfold processMacro
  have hca := findOrCreate_calm t (popFront t.lex) s
  have hw : News P s _ := findOrCreate_news t (popFront t.lex) s
  have hn := findOrCreate_node t (popFront t.lex) s
  generalize findOrCreate t (popFront t.lex) s = r at *
  obtain ⟨_ | n, s1⟩ := r
  · exact standsU_fail (h.told.news hw)
  · dsimp only at hca hw ⊢
    have hn := hn _ _ rfl
    split
    · rename_i he
      exact createMacro_stands hsub (h.calm hw hca) ht hu (lex_cons hc (by decide)) hn he
    · exact standsU_fail ((h.told.news hw).news (error_news _ _ _))

/-! ## Macros and files -/

def StandsN (P : Token → Prop) (rec : Nested) : Prop := ∀ u s r, UnitOk P u → Placed P s → rec u s = some r → Stands P r

variable {rec : Nested} (hrec : StandsN P rec)

include hrec in
theorem runMacro_stands {t : Token} {name : Str} {n : Node} {body : List Token} (id : Short) (arg : Str) {u : Unit} {s : Asm} (h : Placed P s) (hb : ∀ t ∈ body, P t)
    (hu : UnitOk P u) : StandsU P (runMacro rec t name n body id arg u s) := by
  unfold runMacro
  dsimp only
  have h1 := h.setMacro name { n with entry := .macro body id true } body id true rfl hb
  have h2 : Placed P { setNode name { n with entry := .macro body id true } s with depth := (setNode name { n with entry := .macro body id true } s).depth + 1 } :=
    h1.step (.same rfl rfl) (fun _ => rfl) h1.buf
  generalize { setNode name { n with entry := .macro body id true } s with depth := (setNode name { n with entry := .macro body id true } s).depth + 1 } = s0 at *
  intro r hr
  split at hr
  · cases hr
  · rename_i ok s1 heq
    have h3 := hrec (.macro ⟨body, arg⟩) s0 (ok, s1) hb h2 heq
    have hs : syms (match s1.symtab name with
      | some n' => setNode name { n' with entry := .macro body id false } { s1 with depth := s1.depth - 1 }
      | none => { s1 with depth := s1.depth - 1 }).log = syms s1.log := by split <;> rfl
    cases ok with
    | false =>
      simp only [Bool.false_eq_true, if_false, Option.some.injEq] at hr
      subst hr
      refine ⟨⟨h3.1.same ?_, fun h => by cases h⟩, fun h => by cases h⟩
      exact hs
    | true =>
      simp only [if_true, Option.some.injEq] at hr
      subst hr
      have h4 : Placed P { s1 with depth := s1.depth - 1 } := (h3.2 rfl).step (.same rfl rfl) (fun _ => rfl) (h3.2 rfl).buf
      have h5 : Placed P (match s1.symtab name with
          | some n' => setNode name { n' with entry := .macro body id false } { s1 with depth := s1.depth - 1 }
          | none => { s1 with depth := s1.depth - 1 }) := by
        split
        · exact h4.setMacro name _ body id false rfl hb
        · exact h4
      exact ⟨⟨h5.told, fun _ => h5⟩, fun _ => hu⟩

include hsub hrec in
theorem expandMacro_stands {t : Token} {n : Node} {body : List Token} {id : Short} (x : Bool) {u : Unit} {s : Asm} (h : Placed P s) (ht : P t)
    (hb : ∀ t ∈ body, P t) (hu : UnitOk P u) : StandsU P (expandMacro rec t t.lex n body id x u s) := by
  unfold expandMacro
  split
  · exact standsU_fail (h.told.news (error_news _ _ _))
  · split
    · exact standsU_fail (h.told.news (error_news _ _ _))
    · dsimp only
      have h0 : Placed P (putSymbol 0 { type := .macroRef, name := some t.lex, region := t.region, id := id } s) :=
        h.step (putSymbol_news _ ⟨t, ht, rfl, rfl⟩ rfl) (fun _ => rfl) h.buf
      generalize putSymbol 0 { type := .macroRef, name := some t.lex, region := t.region, id := id } s = s0 at *
      split
      · rcases nextToken_unit hsub hu h0.buf with ⟨a, u', e, ha, hu'⟩ | ⟨u', s', e, hh, _⟩
        · rw [e]
          exact runMacro_stands hrec _ _ h0 hb hu'
        · rw [e]
          dsimp only
          refine standsU_fail ((h0.told.news hh.news).news ?_)
          exact ite_news (error_news _ _ _) (.refl _)
      · exact runMacro_stands hrec _ _ h0 hb hu

include hsub hrec in
theorem processWord_stands {t : Token} {u : Unit} {s : Asm} (h : Placed P s) (ht : P t) (hu : UnitOk P u) : StandsU P (processWord rec t u s) := by
  unfold processWord
  split
  · rename_i op red hop
    dsimp only
    have h1 : News P s (if red = true then warning "Opcode contains redundant flags" t.region s else s) := ite_news (warning_news _ _ _) (.refl s)
    have c1 : Calm s (if red = true then warning "Opcode contains redundant flags" t.region s else s) := ite_calm (warning_calm _ _ _) (.refl s)
    refine standsU_some hu (h.holds (h1.trans (emitOpcode_news _ ⟨t, ht, .inl ⟨rfl, .inr ⟨op, red, rfl, hop⟩⟩⟩)) (c1.trans (emitOpcode_calm _ _ _ _)))
  · have hca := findOrCreate_calm t t.lex s
    have hw : News P s _ := findOrCreate_news t t.lex s
    have hn := findOrCreate_node t t.lex s
    generalize findOrCreate t t.lex s = r at *
    obtain ⟨_ | n, s1⟩ := r
    · exact standsU_fail (h.told.news hw)
    · dsimp only at hca hw ⊢
      have hn := hn _ _ rfl
      have hm := macroOf_some hn
      have h1 := h.calm hw hca
      have hcall : ∀ s', News P s' (emitOpcode t 0x60 false s').2 := fun s' => emitOpcode_news _ ⟨t, ht, .inl ⟨rfl, .inl rfl⟩⟩
      split
      · rename_i body id x he
        have hb : ∀ t ∈ body, P t := h1.bodies t.lex body id x (by rw [hm, he]; rfl)
        exact expandMacro_stands hsub hrec x (h1.setMacro t.lex { n with referenced := true } body id x he hb) ht hb hu
      · rename_i id addr he
        have hc : Calm s1 (setNode t.lex { n with referenced := true } s1) := setNode_calm (n := { n with referenced := true }) hm.symm
        have h2 : News P s1 (setNode t.lex { n with referenced := true } s1) := setNode_news fun m hm' hl => by rw [he]; trivial
        exact standsU_some hu (h1.holds (h2.trans (andThen_news (hcall _) fun _ => emitBackwardRef_news _ _ _ _ _ fun _ => (shows_word ht).refFits (.inl rfl)))
          (hc.trans (andThen_calm (emitOpcode_calm _ _ _ _) fun _ => emitBackwardRef_calm _ _ _ _ _ _ _ _ _)))
      · rename_i he
        rw [he] at hm
        exact standsU_some hu (h1.holds (andThen_news' (hcall _) (emitForwardRef_news _ _ _ ((shows_word ht).refFits (.inl rfl)) (by rw [emitOpcode_symtab]; exact hn) (by rw [he]; exact id)))
          (andThen_calm' (emitOpcode_calm _ _ _ _) fun hc => emitForwardRef_calm _ _ _ _ _ _ _ ((hc.macros _).trans hm)))
      · rename_i he
        rw [he] at hm
        exact standsU_some hu (h1.holds (andThen_news' (hcall _) (emitForwardRef_news _ _ _ ((shows_word ht).refFits (.inl rfl)) (by rw [emitOpcode_symtab]; exact hn) (by rw [he]; exact id)))
          (andThen_calm' (emitOpcode_calm _ _ _ _) fun hc => emitForwardRef_calm _ _ _ _ _ _ _ ((hc.macros _).trans hm)))

variable {files : Files} (hfiles : ∀ name st, files (cstr name) = some st → UnitOk P (.file ⟨st, name, ⟨1, 1, 0⟩⟩))

include hrec hfiles in
theorem processFile_stands {path : Str} {s : Asm} (h : Placed P s) {r : Bool × Asm} (hr : processFile files rec path s = some r) : Stands P r := by
  unfold processFile at hr
  dsimp only at hr
  have h0 : Placed P { s with log := .fopen (cstr path) :: s.log } := h.step (.same rfl rfl) (fun _ => rfl) h.buf
  split at hr
  · cases hr
    exact h0.told.fails (error_news _ _ _) rfl
  · rename_i st hf
    split at hr
    · cases hr
    · rename_i ok s1 heq
      have h1 := hrec _ _ _ (hfiles path st hf) h0 heq
      cases hr
      exact ⟨h1.1.same rfl, fun hok => (h1.2 hok).step (.same rfl rfl) (fun _ => rfl) (h1.2 hok).buf⟩

include hrec hfiles in
theorem processInclude_stands {name : Str} {t : Token} {s : Asm} (h : Placed P s) {r : Bool × Asm} (hr : processInclude files rec name t s = some r) : Stands P r := by
  unfold processInclude at hr
  split at hr
  · cases hr
    exact ⟨h.told, fun _ => h⟩
  · dsimp only at hr
    split at hr
    · cases hr
    · rename_i ok s1 heq
      have h1 := processFile_stands hrec hfiles (h.step (s' := { s with includes := name :: s.includes, depth := s.depth + 1 }) (.same rfl rfl) (fun _ => rfl) h.buf) heq
      have hr := Option.some.inj hr
      rw [← hr]
      split
      · rename_i hok
        have h2 := h1.2 hok
        have h3 : Placed P { s1 with depth := s1.depth - 1 } := h2.step (.same rfl rfl) (fun _ => rfl) h2.buf
        exact ⟨h3.told, fun _ => h3⟩
      · exact ⟨h1.1.same rfl, fun h => by cases h⟩

include hrec hfiles in
theorem processTilde_stands {t : Token} {s : Asm} (h : Placed P s) (ht : P t) (hc : t.lex.headD 0 = ch '~') {r : Bool × Asm} (hr : processTilde files rec t s = some r) :
    Stands P r := by
  have hl := lex_cons hc (by decide)
  unfold processTilde at hr
  split at hr
  · cases hr
    exact h.told.fails (error_news _ _ _) rfl
  · dsimp only at hr
    have hname : t.lex = ch '~' :: (if decide ((popFront t.lex).head? = some (ch '~')) = true then popFront (popFront t.lex) else popFront t.lex) ∨
        t.lex = ch '~' :: ch '~' :: (if decide ((popFront t.lex).head? = some (ch '~')) = true then popFront (popFront t.lex) else popFront t.lex) := by
      split
      · rename_i hh
        right
        have hh := of_decide_eq_true hh
        generalize popFront t.lex = w at *
        cases w with
        | nil => cases hh
        | cons a w => cases hh; exact hl
      · exact .inl hl
    generalize (if decide ((popFront t.lex).head? = some (ch '~')) = true then popFront (popFront t.lex) else popFront t.lex) = filename at *
    have h0 : Placed P (putSymbol s.writeAddr { type := .include, name := some filename, region := t.region } s) :=
      h.step (putSymbol_news _ ⟨t, ht, rfl, filename, rfl, hname⟩ rfl) (fun _ => rfl) h.buf
    generalize putSymbol s.writeAddr { type := .include, name := some filename, region := t.region } s = s0 at *
    split at hr
    · cases hr
      have h1 : Placed P (if filename ∈ s0.includes then s0 else { s0 with deferred := s0.deferred ++ [(filename, t)] }) := by
        split
        · exact h0
        · exact h0.step (.same rfl rfl) (fun _ => rfl) h0.buf
      exact ⟨h1.told, fun _ => h1⟩
    · exact processInclude_stands hrec hfiles h0 hr

theorem ite_stands {c : Prop} [Decidable c] {a b : Option (Bool × Unit × Asm)} (ha : c → StandsU P a) (hb : StandsU P b) : StandsU P (if c then a else b) := by
  split
  · rename_i h; exact ha h
  · exact hb

include hsub hrec hfiles in
theorem processToken_stands {t : Token} {u : Unit} {s : Asm} (h : Placed P s) (ht : P t) (hu : UnitOk P u) : StandsU P (processToken files rec t u s) := by
  unfold processToken
  dsimp only
  have herr : ∀ m, Stands P (error m t.region s) := fun m => h.told.fails (error_news _ _ _) rfl
  have hmark : Stands P (true, processMark t s) := h.holds (processMark_news s ht) (processMark_calm _ _)
  have hk : ∀ r : Bool × Asm, News P s r.2 → Calm s r.2 → StandsU P (keep u r) := fun r hn hc => standsU_keep hu (h.holds hn hc)
  have hro : ∀ (op : Byte) kind sz arg, Calm s (andThen (emitOpcode t op true s) fun s => emitLabelRef t kind sz arg true s).2 :=
    fun _ _ _ _ => andThen_calm (emitOpcode_calm _ _ _ _) fun _ => emitLabelRef_calm _ _ _ _ _ _
  have one : ∀ {c : Byte}, t.lex.headD 0 = c → c ≠ 0 → ¬ t.lex.length ≠ 1 → t.lex = [c] := by
    intro c hc h0 hlen
    have hl := lex_cons hc h0
    rw [hl] at hlen ⊢
    generalize popFront t.lex = w at *
    cases w with
    | nil => rfl
    | cons a w => simp at hlen
  refine ite_stands (fun hc => ?_) <| ite_stands (fun _ => standsU_keep hu (herr _)) <|
    ite_stands (fun _ => standsU_keep hu hmark) <|
    ite_stands (fun _ => standsU_keep hu (by split; exacts [herr _, hmark])) <|
    ite_stands (fun hc => ?_) <|
    ite_stands (fun hc => processMacro_stands hsub h ht hu hc) <|
    ite_stands (fun hc => standsU_keep hu (processGlobalLabel_holds h ht hc)) <|
    ite_stands (fun hc => standsU_keep hu (processLocalLabel_holds h ht hc)) <|
    ite_stands (fun hc => hk _ (runeRef_news _ _ _ _ ht hc (by decide) (by decide)) (hro _ _ _ _)) <|
    ite_stands (fun hc => hk _ (runeRef_news _ _ _ _ ht hc (by decide) (by decide)) (hro _ _ _ _)) <|
    ite_stands (fun hc => standsU_keep hu ?_) <|
    ite_stands (fun hc => standsU_keep hu (by split; exacts [herr _, h.holds (emitJsi_news _ ht) (emitJsi_calm _ _)])) <|
    ite_stands (fun hc => hk _ (emitJsi_news _ ht) (emitJsi_calm _ _)) <|
    ite_stands (fun hc => hk _ (processAbsPadding_news _ _) (processAbsPadding_calm _ _)) <|
    ite_stands (fun hc => hk _ (processRelPadding_news _ _) (processRelPadding_calm _ _)) <|
    ite_stands (fun hc => hk _ (processLitNumber_news _ ht hc) (processLitNumber_calm _ _)) <|
    ite_stands (fun hc => hk _ (runeRef_news _ _ _ _ ht hc (by decide) (by decide)) (hro _ _ _ _)) <|
    ite_stands (fun hc => hk _ (emitLabelRef_news _ _ _ (shows_arg ht (lex_cons hc (by decide)))) (emitLabelRef_calm _ _ _ _ _ _)) <|
    ite_stands (fun hc => hk _ (runeRef_news _ _ _ _ ht hc (by decide) (by decide)) (hro _ _ _ _)) <|
    ite_stands (fun hc => hk _ (emitLabelRef_news _ _ _ (shows_arg ht (lex_cons hc (by decide)))) (emitLabelRef_calm _ _ _ _ _ _)) <|
    ite_stands (fun hc => hk _ (runeRef_news _ _ _ _ ht hc (by decide) (by decide)) (hro _ _ _ _)) <|
    ite_stands (fun hc => hk _ (emitLabelRef_news _ _ _ (shows_arg ht (lex_cons hc (by decide)))) (emitLabelRef_calm _ _ _ _ _ _)) <|
    ite_stands (fun hc => hk _ (processText_news _ ht hc) (processText_calm _ _)) <|
    ite_stands (fun hc => hk _ (processRawNumber_news _ ht) (processRawNumber_calm _ _)) <|
    processWord_stands hsub hrec h ht hu
  · have ha := processComment_ahead hsub ht hu h.buf
    intro r hr
    cases hr
    exact ⟨⟨h.told.news ha.news, fun hok => h.ahead ha hok⟩, fun hok => (ha.good hok).1⟩
  · intro r hr
    cases hp : processTilde files rec t s with
    | none => rw [hp] at hr; cases hr
    | some q =>
      rw [hp] at hr
      cases hr
      exact ⟨processTilde_stands hrec hfiles h ht hc hp, fun _ => hu⟩
  · split
    · exact herr _
    · rename_i hlen
      exact h.holds (processLambdaClose_news s ht (one hc (by decide) hlen)) (processLambdaClose_calm _ _)

include hsub hrec hfiles in
theorem unitLoop_stands (fuel : Nat) : StandsN P (unitLoop files rec fuel) := by
  induction fuel with
  | zero => intro u s r _ _ h; cases h
  | succ n ih =>
    intro u s r hu h hr
    unfold unitLoop at hr
    rcases nextToken_unit hsub hu h.buf with ⟨t, u', e, ht, hu'⟩ | ⟨u', s', e, hh, hs⟩
    · rw [e] at hr
      dsimp only at hr
      cases hp : processToken files rec t u' s with
      | none => rw [hp] at hr; cases hr
      | some q =>
        rw [hp] at hr
        have hq := processToken_stands hsub hrec hfiles h ht hu' q hp
        obtain ⟨_ | _, u2, s2⟩ := q
        · cases hr; exact hq.1
        · exact ih _ _ _ (hq.2 rfl) (hq.1.2 rfl) hr
    · rw [e] at hr
      cases hr
      exact ⟨h.told.news hh.news, fun hok => by rw [hs hok]; exact h⟩

include hrec hfiles in
theorem deferredLoop_stands (fuel i : Nat) {s : Asm} (h : Placed P s) {r : Bool × Asm} (hr : deferredLoop files rec fuel i s = some r) : Stands P r := by
  induction fuel generalizing i s with
  | zero => cases hr
  | succ n ih =>
    rw [deferredLoop.eq_def] at hr
    dsimp only at hr
    cases hp : s.deferred[i]? with
    | none => rw [hp] at hr; cases hr; exact ⟨h.told, fun _ => h⟩
    | some p =>
      rw [hp] at hr
      dsimp only at hr
      cases h1 : processInclude files rec p.1 p.2 s with
      | none => rw [h1] at hr; cases hr
      | some q =>
        rw [h1] at hr
        have hq := processInclude_stands hrec hfiles h h1
        obtain ⟨_ | _, s2⟩ := q
        · cases hr; exact ⟨hq.1, fun h => by cases h⟩
        · exact ih _ (hq.2 rfl) hr

end

section
variable {P : Token → Prop}

theorem reportRefs_news (rs : List FRef) (s : Asm) : News P s (reportRefs rs s) := by
  induction rs generalizing s with
  | nil => exact .refl s
  | cons r rs ih => exact (error_news _ _ _).trans (ih _)

theorem reportLambdas_news (rs : List FRef) (s : Asm) : News P s (reportLambdas rs s) := by
  induction rs generalizing s with
  | nil => exact .refl s
  | cons r rs ih => exact (error_news _ _ _).trans (ih _)

theorem reportAtLabels_news (rs : List FRef) (s : Asm) : News P s (reportAtLabels rs s) := by
  induction rs generalizing s with
  | nil => exact .refl s
  | cons r rs ih => exact (warning_news _ _ _).trans (ih _)

theorem reportSymbols_news (ks : List Str) (s : Asm) : News P s (reportSymbols ks s) := by
  induction ks generalizing s with
  | nil => exact .refl s
  | cons k ks ih =>
    unfold reportSymbols
    dsimp only
    refine News.trans ?_ (ih _)
    split
    · exact .refl s
    · split
      · exact reportRefs_news _ _
      · exact error_news _ _ _
      · exact ite_news (warning_news _ _ _) (.refl s)
      · exact ite_news (warning_news _ _ _) (.refl s)

theorem processUnit_stands (hsub : Substitutes P) {files : Files} (hfiles : ∀ name st, files (cstr name) = some st → UnitOk P (.file ⟨st, name, ⟨1, 1, 0⟩⟩))
    (fuel levels : Nat) : StandsN P (processUnit files fuel levels) := by
  induction levels with
  | zero => exact unitLoop_stands hsub (fun _ _ _ _ _ h => by cases h) hfiles fuel
  | succ l ih => exact unitLoop_stands hsub ih hfiles fuel

theorem initial_placed : Placed P initial :=
  ⟨(fun _ h => by cases h), List.nodup_nil, (fun _ h => by cases h), (fun _ _ _ _ h => by cases h), rfl⟩

theorem assemble_told (hsub : Substitutes P) {files : Files} (hfiles : ∀ name st, files (cstr name) = some st → UnitOk P (.file ⟨st, name, ⟨1, 1, 0⟩⟩))
    (fuel : Nat) (filename : Str) (ok : Bool) (s : Asm) (h : assemble files fuel filename = some (ok, s)) : Told P s := by
  have hrec := processUnit_stands hsub hfiles fuel MAX_DEPTH
  unfold assemble at h
  dsimp only at h
  cases hp : processFile files (processUnit files fuel MAX_DEPTH) filename initial with
  | none => rw [hp] at h; cases h
  | some q =>
    rw [hp] at h
    have h1 := processFile_stands hrec hfiles initial_placed hp
    obtain ⟨_ | _, s1⟩ := q
    · cases h
      exact h1.1
    · dsimp only at h
      unfold resolve at h
      cases hd : deferredLoop files (processUnit files fuel MAX_DEPTH) fuel 0 s1 with
      | none => rw [hd] at h; cases h
      | some q =>
        rw [hd] at h
        have h2 := deferredLoop_stands hrec hfiles fuel 0 (h1.2 rfl) hd
        obtain ⟨_ | _, s2⟩ := q
        · cases h
          exact h2.1
        · cases h
          exact h2.1.news ((reportLambdas_news _ _).trans ((reportAtLabels_news _ _).trans (reportSymbols_news _ _)))

end

/-! ## The theorems -/

namespace Spec

/-- The token `t` is a word of a file that the assembler can open, at its place there: `a`, the word `w` and `b` are the text of the file. What
comes after the quote of a long text is separated from it by a space. In a macro, a word with `^` may stand for another. -/
def Located (files : Files) (t : Token) : Prop :=
  ∃ raw a w b text, files (cstr t.region.file) = some (raw.map some) ∧ normalise raw = a ++ w ++ b ∧
    t.region.start = posAt a ∧ t.region.stop = posAt (a ++ w) ∧ w ≠ [] ∧
    (text = w ∧ (∀ c ∈ w, ¬ IsSep c) ∨ ∃ body, w = QUOTE :: SPACE :: body ∧ text = QUOTE :: body) ∧
    (t.lex = text ∨ ch '^' ∈ text)

end Spec

theorem located_substitutes (files : Files) : Substitutes (Located files) := by
  intro t text ⟨raw, a, w, b, src, h1, h2, h3, h4, h5, h6, h7⟩ hc
  refine ⟨raw, a, w, b, src, h1, h2, h3, h4, h5, h6, .inr ?_⟩
  rcases h7 with h7 | h7
  · rw [← h7]; exact hc
  · exact h7

/-- Where a token is in the text. -/
theorem tokens_place {pre text : Str} {ts : List Lexeme} {ok : Bool} (h : Tokens pre text ts ok) : ∀ l ∈ ts, ∃ a w b,
    pre ++ text = a ++ w ++ b ∧ l.start = posAt a ∧ l.stop = posAt (a ++ w) ∧ w ≠ [] ∧
    (l.text = w ∧ (∀ c ∈ w, ¬ IsSep c) ∨ ∃ body, w = QUOTE :: SPACE :: body ∧ l.text = QUOTE :: body) := by
  induction h with
  | nothing | longWord | longText | openText => intro l hl; cases hl
  | @word pre seps w rest ts ok h1 h2 h3 h4 h5 h6 h7 ih =>
    intro l hl
    rcases List.mem_cons.1 hl with rfl | hl
    · exact ⟨pre ++ seps, w, rest, by simp, rfl, rfl, h2, .inl ⟨rfl, h3⟩⟩
    · obtain ⟨a, v, b, e, r⟩ := ih l hl
      exact ⟨a, v, b, by rw [← e]; simp, r⟩
  | @text pre seps body rest ts ok h1 h2 h3 h4 ih =>
    intro l hl
    rcases List.mem_cons.1 hl with rfl | hl
    · exact ⟨pre ++ seps, QUOTE :: SPACE :: body, QUOTE :: rest, by simp, rfl, by simp, by simp, .inr ⟨body, rfl, rfl⟩⟩
    · obtain ⟨a, v, b, e, r⟩ := ih l hl
      exact ⟨a, v, b, by rw [← e]; simp, r⟩

/-- **C57.** In whatever way the assembly ends: the region of every symbol announced is that of a word of a file, and the word is what the symbol
is about: the definition of this macro or label, a reference to this label, this number, this opcode and so on. -/
theorem C57_positions (files : Files) (hfiles : ∀ name st, files name = some st → ∃ raw, st = raw.map some ∧ ProperLines raw)
    (fuel : Nat) (filename : Str) (ok : Bool) (s : Asm) (h : assemble files fuel filename = some (ok, s)) (addr : Short) (i : SymInfo)
    (hi : .sym addr i ∈ s.log) : ∃ t, Located files t ∧ Spells t i := by
  have ht : Told (Located files) s := by
    refine assemble_told (located_substitutes files) (fun name st hst => ?_) fuel filename ok s h
    obtain ⟨raw, rfl, hl⟩ := hfiles _ _ hst
    obtain ⟨ts, ok, h1, h2⟩ := C34_tokens raw name hl
    refine ⟨_, ok, h2, fun t ht => ?_⟩
    obtain ⟨l, hl, rfl⟩ := List.mem_map.1 ht
    obtain ⟨a, w, b, e, e1, e2, e3, e4⟩ := tokens_place h1 l hl
    exact ⟨raw, a, w, b, l.text, hst, e, e1, e2, e3, e4, .inl rfl⟩
  exact ht.1 (addr, i) (mem_syms hi)

/-- **C57.** In whatever way the assembly ends: no name is defined twice, as a macro or as a label. -/
theorem C57_names_once (files : Files) (hfiles : ∀ name st, files name = some st → ∃ raw, st = raw.map some ∧ ProperLines raw)
    (fuel : Nat) (filename : Str) (ok : Bool) (s : Asm) (h : assemble files fuel filename = some (ok, s)) : (defined s.log).Nodup := by
  have ht : Told (fun _ => True) s := by
    refine assemble_told (fun _ _ _ _ => trivial) (fun name st hst => ?_) fuel filename ok s h
    obtain ⟨raw, rfl, hl⟩ := hfiles _ _ hst
    obtain ⟨ts, ok, h1, h2⟩ := C34_tokens raw name hl
    exact ⟨_, ok, h2, fun _ _ => trivial⟩
  exact ht.2

/-- The bytes of a file between two offsets. -/
def Spec.between (raw : Str) (start stop : Nat) : Str := (raw.drop start).take (stop - start)

theorem normalise_self {raw : Str} (h : CR ∉ raw) : normalise raw = raw := by
  induction raw with
  | nil => rfl
  | cons c t ih =>
    simp only [List.mem_cons, not_or] at h
    rw [normalise, if_neg (fun e => h.1 e.1.symm), ih h.2]

/-- **C57.** Files without CR: the bytes of the file between the offsets of a definition are the rune and the name that is defined, or the word in
a macro body that became it. -/
theorem C57_definitions_partial (files : Files) (hfiles : ∀ name st, files name = some st → ∃ raw : Str, st = raw.map some ∧ CR ∉ raw)
    (fuel : Nat) (filename : Str) (ok : Bool) (s : Asm) (h : assemble files fuel filename = some (ok, s)) (addr : Short) (i : SymInfo) (name : Str)
    (hi : .sym addr i ∈ s.log) (hn : defines i = some name) :
    ∃ raw text, files (cstr i.region.file) = some (raw.map some) ∧ i.region.start.byte < i.region.stop.byte ∧
      text = between raw i.region.start.byte i.region.stop.byte ∧
      (ch '^' ∈ text ∨ text = ch '%' :: name ∨ text = ch '@' :: name ∨ ∃ scope x, text = ch '&' :: x ∧ name = scope ++ ch '/' :: x) := by
  have hp : ∀ name st, files name = some st → ∃ raw, st = raw.map some ∧ ProperLines raw := fun n st hs =>
    have ⟨raw, e, hc⟩ := hfiles n st hs
    ⟨raw, e, fun a b hab => absurd (by rw [hab]; simp) hc⟩
  obtain ⟨t, ⟨raw, a, w, b, text, h1, h2, h3, h4, h5, h6, h7⟩, hs⟩ := C57_positions files hp fuel filename ok s h addr i hi
  obtain ⟨raw', e', hc⟩ := hfiles _ _ h1
  have er : raw' = raw := by
    have hinj : Function.Injective (some : Byte → Option Byte) := fun _ _ h => Option.some.inj h
    exact (List.map_injective_iff.2 hinj e').symm
  subst er
  rw [normalise_self hc] at h2
  have hreg : i.region = t.region := by
    obtain ⟨ty, nm, gen, reg, id⟩ := i
    cases ty <;> first | exact hs.1 | cases hn
  have hlex : t.lex = ch '%' :: name ∨ t.lex = ch '@' :: name ∨ ∃ scope x, t.lex = ch '&' :: x ∧ name = scope ++ ch '/' :: x := by
    obtain ⟨ty, nm, gen, reg, id⟩ := i
    cases ty <;> try contradiction
    · obtain ⟨_, n, e1, e2⟩ := hs
      cases (show nm = some name from hn)
      cases e1
      exact .inl e2
    · cases gen
      · obtain ⟨_, n, e1, e2⟩ := hs
        cases (show nm = some name from hn)
        cases e1
        exact .inr e2
      · cases hn
  have hw : ch '^' ∈ w ∨ t.lex = w := by
    rcases h6 with ⟨h6, _⟩ | ⟨body, h6, h6'⟩ <;> rcases h7 with h7 | h7
    · exact .inr (h7.trans h6)
    · exact .inl (h6 ▸ h7)
    · exfalso
      rw [h7, h6'] at hlex
      rcases hlex with e | e | ⟨_, _, e, _⟩ <;> exact absurd (List.cons.inj e).1 (by decide)
    · rw [h6'] at h7
      rw [h6]
      rcases List.mem_cons.1 h7 with e | e
      · exact absurd e (by decide)
      · exact .inl (List.mem_cons_of_mem _ (List.mem_cons_of_mem _ e))
  have e1 : i.region.start.byte = a.length := by rw [hreg, h3]; rfl
  have e2 : i.region.stop.byte = a.length + w.length := by rw [hreg, h4]; simp [posAt]
  have hlen : 0 < w.length := List.length_pos_iff.2 h5
  refine ⟨raw', w, by rw [hreg]; exact h1, by omega, ?_, ?_⟩
  · rw [between, e1, e2, h2]
    simp
  · rcases hw with hw | hw
    · exact .inl hw
    · rw [← hw]; exact .inr hlex

/-- Kind, name, start and end of the symbols, oldest first. -/
def places (l : List (String × String)) : Option (List (SymType × Option Str × Nat × Nat)) :=
  (assemble (filesOf l) 60 (str "m")).map fun r => (syms r.2.log).reverse.map fun x => (x.2.type, x.2.name, x.2.region.start.byte, x.2.region.stop.byte)

/-- An opcode; in the next line a reference, which is the opcode of its rune and two bytes of address, and a label. -/
example : places [("m", "INC\n;yy @yy")] = some [(.opcode, none, 0, 3), (.opcode, none, 4, 5), (.labelRef, some (str "yy"), 5, 7),
    (.labelRef, some (str "yy"), 5, 7), (.label, some (str "yy"), 8, 11)] := by
  decide +kernel

/-- The definition of a macro. Its body is missing here, which is an error. -/
example : places [("m", "%xx {}\nxx")] = some [(.macro, some (str "xx"), 0, 3)] := by
  decide +kernel

/-- **C57 fails** for files with CR LF: the label is at offset 5 of the file, its symbol says 4. -/
theorem C57_offset_violated : places [("m", "INC\r\n@yy")] = some [(.opcode, none, 0, 3), (.label, some (str "yy"), 4, 7)] := by
  decide +kernel

end Buxn.Asm
