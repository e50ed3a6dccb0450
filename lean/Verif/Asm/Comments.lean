import Verif.Asm.AcceptsReasons
/-!
# C85: comments, brackets and layout do not change the program

Two versions of a source that differ in nothing but comments, brackets and the white space between words are both accepted or both refused, and give the same ROM. The comments are
those outside the bodies of macros (for these see `CommentsBodies.lean`), and not between a macro and its argument: there a comment is not one (see the end).
-/

namespace Buxn.Asm.Meaning
open Buxn.VM Buxn.Asm Buxn.Asm.Spec

/-! ## Specification -/

/-- A word that is neither a comment nor a bracket, and does not define a macro. -/
def Plain (w : Str) : Prop := ¬ IsComment w ∧ ¬ IsMark w ∧ w.head? ≠ some (ch '%')

/-- The same words up to comments and brackets. -/
inductive Alike : List Str → List Str → Prop
  | done : Alike [] []
  /-- a comment in the first -/
  | comment {w : Str} {ws rest ws' : List Str} : IsComment w → Meaning.comment 1 ws = some rest → Alike rest ws' → Alike (w :: ws) ws'
  | mark {w : Str} {ws ws' : List Str} : IsMark w → Alike ws ws' → Alike (w :: ws) ws'
  /-- a comment in the second -/
  | comment' {w : Str} {ws rest ws' : List Str} : IsComment w → Meaning.comment 1 ws' = some rest → Alike ws rest → Alike ws (w :: ws')
  | mark' {w : Str} {ws ws' : List Str} : IsMark w → Alike ws ws' → Alike ws (w :: ws')
  /-- The same word in both. After one that could be a macro with an argument comes the same word again. -/
  | word {w : Str} {ws ws' : List Str} : Plain w → (w.getLast? = some (ch ':') → ∃ arg t t', ws = arg :: t ∧ ws' = arg :: t' ∧ Plain arg) → Alike ws ws' →
      Alike (w :: ws) (w :: ws')
  /-- A macro with the same body in both. -/
  | define {w name : Str} {ws ws' r r' b rest rest' : List Str} : w = ch '%' :: name → Opens ws r → Opens ws' r' → body 1 r = some (b, rest) → body 1 r' = some (b, rest') →
      Alike rest rest' → Alike (w :: ws) (w :: ws')

/-- Two versions of the files of a program: the same files, with the same words up to comments and brackets. -/
def SameFiles (files files' : Files) : Prop :=
  (∀ name ws, Words files name ws → ∃ ws', Words files' name ws' ∧ Alike ws ws') ∧ ∀ name ws', Words files' name ws' → ∃ ws, Words files name ws ∧ Alike ws ws'

/-! ## Proof -/

theorem Alike.symm {a b : List Str} (h : Alike a b) : Alike b a := by
  induction h with
  | done => exact .done
  | comment h1 h2 _ ih => exact .comment' h1 h2 ih
  | mark h1 _ ih => exact .mark' h1 ih
  | comment' h1 h2 _ ih => exact .comment h1 h2 ih
  | mark' h1 _ ih => exact .mark h1 ih
  | word h1 h2 _ ih =>
    refine .word h1 (fun h => ?_) ih
    obtain ⟨a, t, t', e1, e2, hp⟩ := h2 h
    exact ⟨a, t', t, e2, e1, hp⟩
  | define h1 h2 h3 h4 h5 _ ih => exact .define h1 h3 h2 h5 h4 ih

theorem SameFiles.symm {f f' : Files} (h : SameFiles f f') : SameFiles f' f :=
  ⟨fun n ws hw => let ⟨x, h1, h2⟩ := h.2 n ws hw; ⟨x, h1, h2.symm⟩, fun n ws hw => let ⟨x, h1, h2⟩ := h.1 n ws hw; ⟨x, h1, h2.symm⟩⟩

/-- Comments and brackets at the beginning. -/
inductive Skips : List Str → List Str → Prop
  | done {ws : List Str} : Skips ws ws
  | comment {w : Str} {ws r rest : List Str} : IsComment w → Meaning.comment 1 ws = some r → Skips r rest → Skips (w :: ws) rest
  | mark {w : Str} {ws rest : List Str} : IsMark w → Skips ws rest → Skips (w :: ws) rest

theorem Skips.within {files : Files} {d : Nat} {active ws rest : List Str} {s s' : State} (h : Skips ws rest) (hw : Within files d active rest s s') :
    Within files d active ws s s' := by
  induction h with
  | done => exact hw
  | comment h1 h2 _ ih => exact .comment h1 h2 (ih hw)
  | mark h1 _ ih => exact .mark h1 (ih hw)

theorem alike_nil {l ws' : List Str} (h : Alike l ws') (hl : l = []) : Skips ws' [] := by
  induction h with
  | done => exact .done
  | comment => cases hl
  | mark => cases hl
  | comment' h1 h2 _ ih => exact .comment h1 h2 (ih hl)
  | mark' h1 _ ih => exact .mark h1 (ih hl)
  | word => cases hl
  | define => cases hl

/-- What the first word of one version is, and what the other has for it. -/
inductive First (w : Str) (ws : List Str) (ws' : List Str) : Prop
  | comment {rest : List Str} : IsComment w → Meaning.comment 1 ws = some rest → Alike rest ws' → First w ws ws'
  | mark : IsMark w → Alike ws ws' → First w ws ws'
  | word {t : List Str} : Plain w → (w.getLast? = some (ch ':') → ∃ arg u u', ws = arg :: u ∧ t = arg :: u' ∧ Plain arg) → ws' = w :: t → Alike ws t → First w ws ws'
  | define {name : Str} {t r r' b rest rest' : List Str} : w = ch '%' :: name → ws' = w :: t → Opens ws r → Opens t r' → body 1 r = some (b, rest) → body 1 r' = some (b, rest') →
      Alike rest rest' → First w ws ws'

theorem alike_cons {w : Str} {l ws ws' : List Str} (h : Alike l ws') (hl : l = w :: ws) : ∃ ws'', Skips ws' ws'' ∧ First w ws ws'' := by
  induction h generalizing w ws with
  | done => cases hl
  | comment h1 h2 h3 => cases hl; exact ⟨_, .done, .comment h1 h2 h3⟩
  | mark h1 h2 => cases hl; exact ⟨_, .done, .mark h1 h2⟩
  | comment' h1 h2 _ ih => obtain ⟨x, h3, h4⟩ := ih hl; exact ⟨x, .comment h1 h2 h3, h4⟩
  | mark' h1 _ ih => obtain ⟨x, h3, h4⟩ := ih hl; exact ⟨x, .mark h1 h3, h4⟩
  | word h1 h2 h3 => cases hl; exact ⟨_, .done, .word h1 h2 rfl h3⟩
  | define h1 h2 h3 h4 h5 h6 => cases hl; exact ⟨_, .done, .define h1 rfl h2 h3 h4 h5 h6⟩

/-- A word that is plain is the same word. -/
theorem First.plain {w : Str} {ws ws' : List Str} (h : First w ws ws') (hp : Plain w) :
    ∃ t, ws' = w :: t ∧ (w.getLast? = some (ch ':') → ∃ arg u u', ws = arg :: u ∧ t = arg :: u' ∧ Plain arg) ∧ Alike ws t := by
  cases h with
  | comment h1 => exact absurd h1 hp.1
  | mark h1 => exact absurd h1 hp.2.1
  | word _ h2 h3 h4 => exact ⟨_, h3, h2, h4⟩
  | define h1 => exact absurd (by rw [h1]; rfl) hp.2.2

/-- The word after a macro with an argument is in both. -/
theorem alike_arg {arg : Str} {t t' : List Str} (h : Alike (arg :: t) (arg :: t')) (hp : Plain arg) : Alike t t' := by
  obtain ⟨x, h1, h2⟩ := alike_cons h rfl
  obtain ⟨u, h3, -, h4⟩ := h2.plain hp
  subst h3
  generalize hl : arg :: t' = l at h1
  cases h1 with
  | done => cases hl; exact h4
  | comment h5 => cases hl; exact absurd h5 hp.1
  | mark h5 => cases hl; exact absurd h5 hp.2.1

theorem plain_of_special {w : Str} (h : ¬ Special w) : Plain w :=
  ⟨fun hc => h (special_comment hc), fun hm => h (special_mark hm), fun hh => h ⟨ch '%', .inl ⟨hh, by decide⟩⟩⟩

theorem plain_name {w : Str} (h : IsName w) : Plain w := plain_of_special fun hs => special_name hs h

theorem plain_include {w n : Str} (h : w = ch '~' :: n) : Plain w := by
  subst h
  refine ⟨fun hc => comment_cons hc (c := ch '~') (n := n) (by decide) rfl, fun hm => mark_cons hm (c := ch '~') (n := n) (by decide) (by decide) rfl, ?_⟩
  intro e
  exact absurd (Option.some.inj e) (by decide)

/-- What is read does not change, neither when the words are the same nor when they are alike. -/
theorem within_alike {files files' : Files} (hf : SameFiles files files') {d : Nat} {active ws : List Str} {s s' : State} (h : Within files d active ws s s') :
    Within files' d active ws s s' ∧ ∀ ws', Alike ws ws' → Within files' d active ws' s s' := by
  induction h with
  | done => exact ⟨.done, fun ws' ha => (alike_nil ha rfl).within .done⟩
  | comment h1 h2 _ ih =>
    refine ⟨.comment h1 h2 ih.1, fun ws' ha => ?_⟩
    obtain ⟨x, hs, hx⟩ := alike_cons ha rfl
    refine hs.within ?_
    cases hx with
    | comment _ e3 e4 => rw [h2] at e3; cases e3; exact ih.2 _ e4
    | mark e1 => exact absurd e1 (comment_mark h1)
    | word hp => exact absurd h1 hp.1
    | define e1 => exact absurd e1 (comment_cons h1 (by decide))
  | mark h1 _ ih =>
    refine ⟨.mark h1 ih.1, fun ws' ha => ?_⟩
    obtain ⟨x, hs, hx⟩ := alike_cons ha rfl
    refine hs.within ?_
    cases hx with
    | comment e1 => exact absurd h1 (comment_mark e1)
    | mark _ e2 => exact ih.2 _ e2
    | word hp => exact absurd h1 hp.2.1
    | define e1 => exact absurd e1 (mark_cons h1 (by decide) (by decide))
  | define h1 h2 h3 h4 h5 _ ih =>
    refine ⟨.define h1 h2 h3 h4 h5 ih.1, fun ws' ha => ?_⟩
    obtain ⟨x, hs, hx⟩ := alike_cons ha rfl
    refine hs.within ?_
    cases hx with
    | comment e1 => exact absurd h1 (comment_cons e1 (by decide))
    | mark e1 => exact absurd h1 (mark_cons e1 (by decide) (by decide))
    | word hp => exact absurd (by rw [h1]; rfl) hp.2.2
    | define e1 e2 e3 e4 e5 e6 e7 =>
      subst e2
      cases opens_unique h4 e3
      rw [h5] at e5
      cases e5
      exact .define h1 h2 h3 e4 e6 (ih.2 _ e7)
  | expand h1 h2 h3 h4 h5 _ _ ih1 ih2 =>
    refine ⟨.expand h1 h2 h3 h4 h5 ih1.1 ih2.1, fun ws' ha => ?_⟩
    obtain ⟨x, hs, hx⟩ := alike_cons ha rfl
    obtain ⟨t, rfl, -, ht⟩ := hx.plain (plain_name h1)
    exact hs.within (.expand h1 h2 h3 h4 h5 ih1.1 (ih2.2 _ ht))
  | apply h1 h2 h3 h4 h5 h6 _ _ ih1 ih2 =>
    refine ⟨.apply h1 h2 h3 h4 h5 h6 ih1.1 ih2.1, fun ws' ha => ?_⟩
    obtain ⟨x, hs, hx⟩ := alike_cons ha rfl
    obtain ⟨t, rfl, hn, ht⟩ := hx.plain (plain_name h1)
    obtain ⟨arg, u, u', e1, rfl, hp⟩ := hn h3
    cases e1
    exact hs.within (.apply h1 h2 h3 h4 h5 h6 ih1.1 (ih2.2 _ (alike_arg ht hp)))
  | «include» h1 h2 h3 h4 h5 _ _ ih1 ih2 =>
    obtain ⟨inner', e1, e2⟩ := hf.1 _ _ h5
    refine ⟨.include h1 h2 h3 h4 e1 (ih1.2 _ e2) ih2.1, fun ws' ha => ?_⟩
    obtain ⟨x, hs, hx⟩ := alike_cons ha rfl
    obtain ⟨t, rfl, -, ht⟩ := hx.plain (plain_include h1)
    exact hs.within (.include h1 h2 h3 h4 e1 (ih1.2 _ e2) (ih2.2 _ ht))
  | again h1 h2 h3 h4 _ ih =>
    refine ⟨.again h1 h2 h3 h4 ih.1, fun ws' ha => ?_⟩
    obtain ⟨x, hs, hx⟩ := alike_cons ha rfl
    obtain ⟨t, rfl, -, ht⟩ := hx.plain (plain_include h1)
    exact hs.within (.again h1 h2 h3 h4 (ih.2 _ ht))
  | defer h1 h2 _ ih =>
    refine ⟨.defer h1 h2 ih.1, fun ws' ha => ?_⟩
    obtain ⟨x, hs, hx⟩ := alike_cons ha rfl
    obtain ⟨t, rfl, -, ht⟩ := hx.plain (plain_include h1)
    exact hs.within (.defer h1 h2 (ih.2 _ ht))
  | word h1 h2 h3 _ ih =>
    refine ⟨.word h1 h2 h3 ih.1, fun ws' ha => ?_⟩
    obtain ⟨x, hs, hx⟩ := alike_cons ha rfl
    obtain ⟨t, rfl, -, ht⟩ := hx.plain (plain_of_special fun hs => special_word hs _ _ h3)
    exact hs.within (.word h1 h2 h3 (ih.2 _ ht))

theorem ends_alike {files files' : Files} (hf : SameFiles files files') {s s' : State} (h : EndsWithin files s s') : EndsWithin files' s s' := by
  induction h with
  | done h1 => exact .done h1
  | «include» h1 h2 h3 h4 _ ih =>
    obtain ⟨inner', e1, e2⟩ := hf.1 _ _ h3
    exact .include h1 h2 e1 ((within_alike hf h4).2 _ e2) ih
  | again h1 h2 _ ih => exact .again h1 h2 ih

/-- **C85.** The two versions have the same meaning. -/
theorem C85_same_meaning {files files' : Files} (hf : SameFiles files files') (main : Str) (S : State) : ProgramWithin files main S ↔ ProgramWithin files' main S := by
  have one : ∀ {f f' : Files}, SameFiles f f' → ProgramWithin f main S → ProgramWithin f' main S := by
    rintro f f' h ⟨ws, s1, h1, h2, h3⟩
    obtain ⟨ws', e1, e2⟩ := h.1 _ _ h1
    exact ⟨ws', s1, e1, (within_alike h h2).2 _ e2, ends_alike h h3⟩
  exact ⟨one hf, one hf.symm⟩

/-- **C85.** Comments, brackets and layout decide nothing: both versions are accepted, or both refused. -/
theorem C85_same_verdict {files files' : Files} (ht : Texts files) (ht' : Texts files') (hf : SameFiles files files') (main : Str) (fuel fuel' : Nat) (b b' : Bool) (s s' : Asm)
    (h : assemble files fuel main = some (b, s)) (h' : assemble files' fuel' main = some (b', s')) : b = b' := by
  have e : (∃ S, ProgramWithin files main S ∧ Complete S) ↔ ∃ S, ProgramWithin files' main S ∧ Complete S := by
    simp only [C85_same_meaning hf main]
  have := (C80_accepted_iff files ht main fuel b s h).trans (e.trans (C80_accepted_iff files' ht' main fuel' b' s' h').symm)
  exact Bool.eq_iff_iff.2 this

/-- The bytes of a ROM file can be told from the memory that it gives. -/
theorem rom_unique {a b : List Byte} (ha : a.getLast? ≠ some 0) (hb : b.getLast? ≠ some 0) (la : a.length ≤ 0xff00) (lb : b.length ≤ 0xff00)
    (h : ∀ x : Short, loaded a x.toNat = loaded b x.toNat) : a = b := by
  have at_ : ∀ i, i < 0xff00 → a.getD i 0 = b.getD i 0 := by
    intro i hi
    have := h (BitVec.ofNat 16 (0x100 + i))
    have e : (BitVec.ofNat 16 (0x100 + i)).toNat = 0x100 + i := by rw [BitVec.toNat_ofNat]; omega
    rw [e] at this
    unfold loaded at this
    rw [if_pos (by omega), if_pos (by omega), Nat.add_sub_cancel_left] at this
    exact this
  have len : ∀ a b : List Byte, a.length ≤ 0xff00 → b.getLast? ≠ some 0 → b.length ≤ 0xff00 → (∀ i, i < 0xff00 → a.getD i 0 = b.getD i 0) → b.length ≤ a.length := by
    intro a b la hb lb at_
    by_contra hn
    have h1 := at_ (b.length - 1) (by omega)
    rw [List.getD_eq_getElem?_getD, List.getElem?_eq_none (by omega)] at h1
    apply hb
    rw [List.getLast?_eq_getElem?, List.getElem?_eq_getElem (by omega)]
    rw [List.getD_eq_getElem?_getD, List.getElem?_eq_getElem (by omega)] at h1
    exact congrArg some h1.symm
  have hl : a.length = b.length := by
    have h1 := len a b la hb lb at_
    have h2 := len b a lb ha la fun i hi => (at_ i hi).symm
    omega
  refine List.ext_getElem hl fun i h1 h2 => ?_
  have := at_ i (by omega)
  rw [List.getD_eq_getElem?_getD, List.getElem?_eq_getElem h1, List.getD_eq_getElem?_getD, List.getElem?_eq_getElem h2] at this
  exact this

/-- **C85.** And they give the same ROM, byte for byte; what is written, and in which order, is the same too. -/
theorem C85_same_rom {files files' : Files} (ht : Texts files) (ht' : Texts files') (hf : SameFiles files files') (main : Str) (fuel fuel' : Nat) (s s' : Asm)
    (h : assemble files fuel main = some (true, s)) (h' : assemble files' fuel' main = some (true, s')) :
    written s.log = written s'.log ∧ image s.log = image s'.log ∧
      ∃ r r', putAll (written s.log).reverse emptyRom = some r ∧ putAll (written s'.log).reverse emptyRom = some r' ∧ romFile r = romFile r' := by
  obtain ⟨S, h1, -⟩ := C80_reasons files ht fuel main s h
  obtain ⟨a1, a2, -⟩ := C78_image files ht fuel main s h S h1.program
  obtain ⟨b1, b2, -⟩ := C78_image files' ht' fuel' main s' h' S ((C85_same_meaning hf main S).1 h1).program
  obtain ⟨r, c1, c2, c3, c4⟩ := C38_rom_file files fuel main true s h
  obtain ⟨r', d1, d2, d3, d4⟩ := C38_rom_file files' fuel' main true s' h'
  refine ⟨a1.trans b1.symm, a2.trans b2.symm, r, r', c1, d1, ?_⟩
  exact rom_unique c2 d2 c3 d3 fun a => by rw [c4, d4, a2, b2]

/-! ## An instance -/

namespace Sample

/-- The sample of C80 with comments and brackets. -/
def commented : Files := filesOf [("m", " ( a program ) %M ( a macro ) { INC } [ ;end M ] ( ( the end ) ) ~x"), ("x", " @end ( -> ) BRK")]

theorem plainWord {w : Str} (h : (w.head? != some (ch '(') && w.head? != some (ch '[') && w != str "]" && w.head? != some (ch '%')) = true) : Plain w := by
  simp only [Bool.and_eq_true, bne_iff_ne, ne_eq] at h
  exact ⟨h.1.1.1, fun hm => hm.elim h.1.1.2 h.1.2, h.2⟩

theorem same {w : Str} {ws ws' : List Str} (h : (w.head? != some (ch '(') && w.head? != some (ch '[') && w != str "]" && w.head? != some (ch '%')) = true)
    (hl : w.getLast? ≠ some (ch ':')) (ha : Alike ws ws') : Alike (w :: ws) (w :: ws') := .word (plainWord h) (fun e => absurd e hl) ha

theorem same_m : Alike [str "%M", str "{", str "INC", str "}", str ";end", str "M", str "~x"]
    [str "(", str "a", str "program", str ")", str "%M", str "(", str "a", str "macro", str ")", str "{", str "INC", str "}", str "[", str ";end", str "M", str "]",
      str "(", str "(", str "the", str "end", str ")", str ")", str "~x"] := by
  refine .comment' (by unfold IsComment; decide) (show _ = some _ from rfl) ?_
  refine .define (name := str "M") (b := [str "INC"]) rfl .brace (.comment (by unfold IsComment; decide) (show _ = some _ from rfl) .brace) rfl rfl ?_
  refine .mark' (.inl (by decide)) (same (by decide) (by decide) (same (by decide) (by decide) (.mark' (.inr rfl) ?_)))
  exact .comment' (by unfold IsComment; decide) (show _ = some _ from rfl) (same (by decide) (by decide) .done)

theorem same_x : Alike [str "@end", str "BRK"] [str "@end", str "(", str "->", str ")", str "BRK"] :=
  same (by decide) (by decide) (.comment' (by unfold IsComment; decide) (show _ = some _ from rfl) (same (by decide) (by decide) .done))

/-- The hypotheses of C85 are met by two versions of a program with a macro and an included file. -/
theorem sameFiles : SameFiles sample commented := by
  have find : ∀ {f : Files} {name : Str} {ws : List Str}, Words f name ws → ∃ st, f (name.takeWhile (· ≠ 0)) = some st := fun ⟨_, _, h, _⟩ => ⟨_, h⟩
  have key : ∀ name : Str, ((name.takeWhile (· ≠ 0)) = str "m" ∨ (name.takeWhile (· ≠ 0)) = str "x") ∨ sample (name.takeWhile (· ≠ 0)) = none ∧ commented (name.takeWhile (· ≠ 0)) = none := by
    intro name
    by_cases h1 : str "m" = name.takeWhile (· ≠ 0)
    · exact .inl (.inl h1.symm)
    by_cases h2 : str "x" = name.takeWhile (· ≠ 0)
    · exact .inl (.inr h2.symm)
    refine .inr ⟨?_, ?_⟩
    all_goals
      first | unfold sample filesOf | unfold commented filesOf
      rw [List.find?_cons_of_neg (by simpa using h1), List.find?_cons_of_neg (by simpa using h2)]
      rfl
  have m1 : ∀ name : Str, name.takeWhile (· ≠ 0) = str "m" → Words sample name [str "%M", str "{", str "INC", str "}", str ";end", str "M", str "~x"] := fun name h =>
    words_of (str " %M { INC } ;end M ~x") _ (by rw [h]; rfl) (by decide +kernel) (by decide +kernel)
  have m2 : ∀ name : Str, name.takeWhile (· ≠ 0) = str "m" → Words commented name [str "(", str "a", str "program", str ")", str "%M", str "(", str "a", str "macro", str ")", str "{",
      str "INC", str "}", str "[", str ";end", str "M", str "]", str "(", str "(", str "the", str "end", str ")", str ")", str "~x"] := fun name h =>
    words_of (str " ( a program ) %M ( a macro ) { INC } [ ;end M ] ( ( the end ) ) ~x") _ (by rw [h]; rfl) (by decide +kernel) (by decide +kernel)
  have x1 : ∀ name : Str, name.takeWhile (· ≠ 0) = str "x" → Words sample name [str "@end", str "BRK"] := fun name h =>
    words_of (str " @end BRK") _ (by rw [h]; rfl) (by decide +kernel) (by decide +kernel)
  have x2 : ∀ name : Str, name.takeWhile (· ≠ 0) = str "x" → Words commented name [str "@end", str "(", str "->", str ")", str "BRK"] := fun name h =>
    words_of (str " @end ( -> ) BRK") _ (by rw [h]; rfl) (by decide +kernel) (by decide +kernel)
  constructor
  · intro name ws hw
    obtain ⟨st, hst⟩ := find hw
    rcases key name with (h | h) | ⟨h, -⟩
    · cases words_unique hw (m1 name h); exact ⟨_, m2 name h, same_m⟩
    · cases words_unique hw (x1 name h); exact ⟨_, x2 name h, same_x⟩
    · rw [h] at hst; cases hst
  · intro name ws hw
    obtain ⟨st, hst⟩ := find hw
    rcases key name with (h | h) | ⟨-, h⟩
    · cases words_unique hw (m2 name h); exact ⟨_, m1 name h, same_m⟩
    · cases words_unique hw (x2 name h); exact ⟨_, x1 name h, same_x⟩
    · rw [h] at hst; cases hst

end Sample

/-! ## Comments that are not comments -/

/-- **C85 (a limit of the code).** Between a macro and its argument a comment is not a comment: its first word becomes the argument. -/
theorem C85_argument_violated :
    outcome [("m", "%M: { #^ } M: 12")] = some (true, 0, [(0x100, 0x80), (0x101, 0x12)]) ∧
    (outcome [("m", "%M: { #^ } M: ( twelve ) 12")]).map (·.1) = some false := by decide +kernel

/-- **C85 (a limit of the code).** In the body of a macro a comment ends the macro if there is a brace in it. -/
theorem C85_brace_violated :
    outcome [("m", "%M { INC } M")] = some (true, 0, [(0x100, 0x01)]) ∧
    (outcome [("m", "%M { ( } ) INC } M")]).map (·.1) = some false := by decide +kernel

end Buxn.Asm.Meaning
