import Verif.Asm.Calm
import Verif.Asm.Rom
/-!
# C34: tokens
-/

namespace Buxn.Asm
open Buxn.VM Spec

/-! ## Specification -/

namespace Spec

def IsSep (c : Byte) : Prop := c ∈ [ch ' ', ch '\n', ch '\t', ch '\r', 0x0b, 0x0c]

def QUOTE : Byte := 0x22
def SPACE : Byte := 0x20
def LF : Byte := 0x0a
def CR : Byte := 0x0d

/-- The text of a file: the line ending CR LF counts as LF. -/
def normalise : Str → Str
  | [] => []
  | c :: t => if c = CR ∧ t.head? = some LF then normalise t else c :: normalise t

/-- CR is used only in front of LF. -/
def ProperLines (raw : Str) : Prop := ∀ a b, raw = a ++ CR :: b → b.head? = some LF

/-- Line, column (both from 1) and offset of what comes after a text. -/
def posAt (text : Str) : Pos := ⟨1 + text.count LF, 1 + (text.reverse.takeWhile (· ≠ LF)).length, text.length⟩

/-- A token: its text, where it starts and ends. -/
structure Lexeme where
  text : Str
  start : Pos
  stop : Pos
  deriving DecidableEq

/-- `Tokens pre text ts ok`: after `pre`, the tokens in `text` are `ts`, up to an error if not `ok`. -/
inductive Tokens : Str → Str → List Lexeme → Bool → Prop
  /-- nothing but separators -/
  | nothing {pre seps : Str} : (∀ c ∈ seps, IsSep c) → Tokens pre seps [] true
  /-- a word: a maximal sequence of characters that are not separators, at most 47 of them -/
  | word {pre seps w rest : Str} {ts : List Lexeme} {ok : Bool} :
      (∀ c ∈ seps, IsSep c) → w ≠ [] → (∀ c ∈ w, ¬ IsSep c) → (∀ c, rest.head? = some c → IsSep c) →
      ¬ (w = [QUOTE] ∧ rest.head? = some SPACE) → w.length ≤ 47 →
      Tokens (pre ++ seps ++ w) rest ts ok →
      Tokens pre (seps ++ w ++ rest) (⟨w, posAt (pre ++ seps), posAt (pre ++ seps ++ w)⟩ :: ts) ok
  /-- a longer word is an error -/
  | longWord {pre seps w rest : Str} :
      (∀ c ∈ seps, IsSep c) → (∀ c ∈ w, ¬ IsSep c) → 47 < w.length → Tokens pre (seps ++ w ++ rest) [] false
  /-- a quote and a space: a text up to the next quote, at most 1023 characters. The token contains the first quote only. -/
  | text {pre seps body rest : Str} {ts : List Lexeme} {ok : Bool} :
      (∀ c ∈ seps, IsSep c) → (∀ c ∈ body, c ≠ QUOTE) → body.length ≤ 1023 →
      Tokens (pre ++ seps ++ [QUOTE, SPACE] ++ body ++ [QUOTE]) rest ts ok →
      Tokens pre (seps ++ [QUOTE, SPACE] ++ body ++ [QUOTE] ++ rest)
        (⟨QUOTE :: body, posAt (pre ++ seps), posAt (pre ++ seps ++ [QUOTE, SPACE] ++ body)⟩ :: ts) ok
  /-- a longer text is an error -/
  | longText {pre seps body rest : Str} :
      (∀ c ∈ seps, IsSep c) → (∀ c ∈ body, c ≠ QUOTE) → 1023 < body.length → Tokens pre (seps ++ [QUOTE, SPACE] ++ body ++ rest) [] false
  /-- a text without end is an error -/
  | openText {pre seps body : Str} :
      (∀ c ∈ seps, IsSep c) → (∀ c ∈ body, c ≠ QUOTE) → Tokens pre (seps ++ [QUOTE, SPACE] ++ body) [] false

/-- Asking for tokens until there are none, whatever state the assembler is in: only a buffered character would matter.
Tokens are found without any change to the state; `ok` tells whether the end was reached without an error. -/
inductive Reads : FileUnit → List Token → Bool → Prop
  | stop {u : FileUnit} : (∀ s : Asm, s.readBuf = none → (nextInFile u s).1 = none ∧ (nextInFile u s).2.2 = s) → Reads u [] true
  | fail {u : FileUnit} : (∀ s : Asm, s.readBuf = none → (nextInFile u s).1 = none ∧ (nextInFile u s).2.2.success = false) → Reads u [] false
  | next {u u' : FileUnit} {t : Token} {ts : List Token} {ok : Bool} :
      (∀ s : Asm, s.readBuf = none → nextInFile u s = (some t, u', s)) → Reads u' ts ok → Reads u (t :: ts) ok

end Spec

/-! ## Characters -/

theorem isSep_iff (c : Byte) : isSep c = true ↔ IsSep c := by
  revert c
  unfold IsSep
  decide +kernel

theorem posAt_append (t : Str) (c : Byte) :
    posAt (t ++ [c]) = if c = LF then ⟨(posAt t).line + 1, 1, (posAt t).byte + 1⟩ else ⟨(posAt t).line, (posAt t).col + 1, (posAt t).byte + 1⟩ := by
  unfold posAt
  by_cases h : c = LF
  · subst h
    simp [List.count_append, Nat.add_assoc]
  · rw [if_neg h, List.count_append, List.count_singleton]
    simp [h, Nat.add_assoc]

theorem ProperLines.tail {c : Byte} {t : Str} (h : ProperLines (c :: t)) : ProperLines t := fun a b hab => h (c :: a) b (by rw [hab]; rfl)

theorem ProperLines.head {t : Str} (h : ProperLines (CR :: t)) : t.head? = some LF := h [] t rfl

/-- What is left to read: the stream has the text `text`, of which `pre` was read. -/
structure At (u : FileUnit) (pre text : Str) : Prop where
  pos : u.pos = posAt pre
  raw : ∃ raw, u.stream = raw.map some ∧ ProperLines raw ∧ normalise raw = text

theorem ch_lf : ch '\n' = LF := rfl
theorem ch_cr : ch '\r' = CR := rfl

theorem norm_asm (s : Asm) (h : s.readBuf = none) : { s with readBuf := none } = s := by
  cases s; dsimp only at h; rw [h]

theorem getChar_end {u : FileUnit} (h1 : u.stream = []) :
    ∃ u', (∀ s : Asm, s.readBuf = none → getChar u s = (.eof, u', s)) ∧ u'.path = u.path ∧ u'.stream = [] := by
  refine ⟨⟨[], u.path, { u.pos with byte := u.pos.byte + 1, col := u.pos.col + 1 }⟩, ?_, rfl, rfl⟩
  intro s h2
  unfold getChar peekChar
  rw [h1, h2]
  simp only [fgetc, reduceCtorEq, if_false, or_true, if_true, consumeChar]
  refine Prod.ext rfl (Prod.ext rfl (norm_asm s h2))

/-- At the end of the text. -/
theorem getChar_eof {u : FileUnit} {pre : Str} (h : At u pre []) :
    ∃ u', (∀ s : Asm, s.readBuf = none → getChar u s = (.eof, u', s)) ∧ u'.path = u.path ∧ u'.stream = [] := by
  obtain ⟨hp, raw, hs, hl, hn⟩ := h
  cases raw with
  | nil => exact getChar_end hs
  | cons c t =>
    exfalso
    rw [normalise] at hn
    split at hn
    · rename_i hc
      cases t with
      | nil => cases hc.2
      | cons d t =>
        rw [normalise] at hn
        split at hn
        · rename_i hd
          have := hc.2
          simp only [List.head?_cons, Option.some.injEq] at this
          rw [this] at hd
          exact absurd hd.1 (by decide)
        · cases hn
    · cases hn

/-- A character is read. -/
theorem getChar_char {u : FileUnit} {pre t : Str} {c : Byte} (h : At u pre (c :: t)) :
    ∃ u', (∀ s : Asm, s.readBuf = none → getChar u s = (.char c, u', s)) ∧ u'.path = u.path ∧ At u' (pre ++ [c]) t ∧ u'.stream.length < u.stream.length := by
  obtain ⟨hp, raw, hs, hl, hn⟩ := h
  cases raw with
  | nil => cases hn
  | cons d r =>
    rw [normalise] at hn
    split at hn
    · rename_i hd
      obtain ⟨rfl, hr⟩ := hd
      cases r with
      | nil => cases hr
      | cons e r =>
        simp only [List.head?_cons, Option.some.injEq] at hr
        subst hr
        have hne : ¬ (LF = CR) := by decide
        rw [normalise, if_neg (fun h => hne h.1)] at hn
        obtain ⟨rfl, rfl⟩ := List.cons.inj hn
        refine ⟨⟨r.map some, u.path, posAt (pre ++ [LF])⟩, ?_, rfl, ⟨rfl, r, rfl, ProperLines.tail (ProperLines.tail hl), rfl⟩, ?_⟩
        · intro s hb
          unfold getChar peekChar
          rw [hb, hs]
          simp only [List.map_cons, fgetc, reduceCtorEq, if_false, false_or, consumeChar, Ch.char.injEq, ch_lf, ch_cr, hne,
            show ¬ (CR = LF) by decide, if_true]
          refine Prod.ext rfl (Prod.ext ?_ (norm_asm s hb))
          rw [posAt_append, if_pos rfl, hp]
        · rw [hs, List.length_map, List.length_map, List.length_cons, List.length_cons]; omega
    · rename_i hd
      have hcr : d ≠ CR := fun h => hd ⟨h, by subst h; exact ProperLines.head hl⟩
      obtain ⟨rfl, rfl⟩ := List.cons.inj hn
      refine ⟨⟨r.map some, u.path, posAt (pre ++ [d])⟩, ?_, rfl, ⟨rfl, r, rfl, ProperLines.tail hl, rfl⟩, ?_⟩
      · intro s hb
        unfold getChar peekChar
        rw [hb, hs]
        simp only [List.map_cons, fgetc, reduceCtorEq, if_false, false_or, consumeChar, Ch.char.injEq, ch_lf, ch_cr, hcr]
        rw [posAt_append, hp]
        by_cases hlf : d = LF
        · rw [if_pos hlf, if_pos hlf]
          exact Prod.ext rfl (Prod.ext rfl (norm_asm s hb))
        · rw [if_neg hlf, if_neg hlf]
          exact Prod.ext rfl (Prod.ext rfl (norm_asm s hb))
      · rw [hs, List.length_map, List.length_map, List.length_cons]; omega

/-- Looking ahead changes nothing for the next read. -/
theorem peek_get {u : FileUnit} {pre text : Str} (h : At u pre text) :
    ∃ c u', (∀ s : Asm, s.readBuf = none → ∃ s', peekChar u s = (c, u', s') ∧ getChar u' s' = getChar u s) ∧
      (c = .char SPACE ↔ text.head? = some SPACE) ∧ u'.path = u.path ∧ u'.pos = u.pos := by
  obtain ⟨hp, raw, hs, hl, hn⟩ := h
  cases raw with
  | nil =>
    refine ⟨.eof, { u with stream := [] }, fun s hb => ⟨{ s with readBuf := some .eof }, ?_, ?_⟩, ?_, rfl, rfl⟩
    · unfold peekChar; rw [hb, hs]; rfl
    · unfold getChar peekChar; rw [hb, hs]; rfl
    · subst hn; simp [normalise]
  | cons c t =>
    refine ⟨.char c, { u with stream := t.map some }, fun s hb => ⟨{ s with readBuf := some (.char c) }, ?_, ?_⟩, ?_, rfl, rfl⟩
    · unfold peekChar; rw [hb, hs]; rfl
    · unfold getChar
      have h1 : peekChar u s = (.char c, { u with stream := t.map some }, { s with readBuf := some (.char c) }) := by
        unfold peekChar; rw [hb, hs]; rfl
      rw [h1]
      rfl
    · subst hn
      rw [normalise]
      split
      · rename_i hc
        obtain ⟨rfl, hc⟩ := hc
        cases t with
        | nil => cases hc
        | cons d t =>
          simp only [List.head?_cons, Option.some.injEq] at hc
          subst hc
          rw [normalise, if_neg (fun h => absurd h.1 (by decide))]
          simp only [Ch.char.injEq, List.head?_cons, Option.some.injEq]
          decide
      · simp

/-! ## Tokens -/

/-- The end of the file was seen. -/
def AtEnd (u : FileUnit) (text : Str) : Prop := text = [] ∧ u.stream = []

/-- A function on states finds nothing and reports an error. -/
def Fails (f : Asm → Option Token × FileUnit × Asm) : Prop := ∀ s : Asm, s.readBuf = none → (f s).1 = none ∧ (f s).2.2.success = false

/-- The outcome of looking for a token. -/
def Outcome (u : FileUnit) (pre text : Str) (f : Asm → Option Token × FileUnit × Asm) : Prop :=
  ((∀ s : Asm, s.readBuf = none → (f s).1 = none ∧ (f s).2.2 = s) ∧ Tokens pre text [] true) ∨
  (Fails f ∧ Tokens pre text [] false) ∨
  ∃ l u' pre' rest, (∀ s : Asm, s.readBuf = none → f s = (some ⟨l.text, ⟨u.path, l.start, l.stop⟩⟩, u', s)) ∧ u'.path = u.path ∧
    (At u' pre' rest ∨ AtEnd u' rest) ∧ u'.stream.length < u.stream.length ∧ ∀ ts ok, Tokens pre' rest ts ok → Tokens pre text (l :: ts) ok

theorem Spec.Tokens.skip {pre rest : Str} {c : Byte} {ts : List Lexeme} {ok : Bool} (h : Tokens (pre ++ [c]) rest ts ok) (hc : IsSep c) :
    Tokens pre (c :: rest) ts ok := by
  have hs : ∀ seps : Str, (∀ c ∈ seps, IsSep c) → ∀ x ∈ c :: seps, IsSep x := by
    intro seps hseps x hx
    rcases List.mem_cons.1 hx with rfl | hx
    exacts [hc, hseps _ hx]
  have ha : ∀ seps : Str, pre ++ [c] ++ seps = pre ++ c :: seps := fun seps => by rw [List.append_assoc]; rfl
  cases h with
  | nothing h => exact .nothing (hs _ h)
  | word h1 h2 h3 h4 h5 h6 h7 =>
    rw [ha] at h7 ⊢
    exact Tokens.word (seps := c :: _) (hs _ h1) h2 h3 h4 h5 h6 h7
  | longWord h1 h2 h3 => exact Tokens.longWord (seps := c :: _) (hs _ h1) h2 h3
  | text h1 h2 h3 h4 =>
    rw [ha] at h4 ⊢
    exact Tokens.text (seps := c :: _) (hs _ h1) h2 h3 h4
  | longText h1 h2 h3 => exact Tokens.longText (seps := c :: _) (hs _ h1) h2 h3
  | openText h1 h2 => exact Tokens.openText (seps := c :: _) (hs _ h1) h2

/-- The rest of a word. -/
theorem scanRegular_spec (start : Pos) (left : Nat) (w : Str) (c : Byte) (stop : Pos) (u : FileUnit) (base text : Str)
    (h : At u (base ++ w ++ [c]) text) :
    (∃ v rest u', (∀ s : Asm, s.readBuf = none → scanRegular start left w.reverse c stop u s = (some ⟨w ++ c :: v, ⟨u.path, start, posAt (base ++ w ++ c :: v)⟩⟩, u', s)) ∧
      u'.path = u.path ∧ text = v ++ rest ∧ (∀ x ∈ v, ¬ IsSep x) ∧ (∀ x, rest.head? = some x → IsSep x) ∧ v.length < left ∧
      u'.stream.length ≤ u.stream.length ∧ (AtEnd u' rest ∨ ∃ x rest', rest = x :: rest' ∧ At u' (base ++ w ++ c :: v ++ [x]) rest')) ∨
    (∃ v rest, Fails (scanRegular start left w.reverse c stop u) ∧ text = v ++ rest ∧ (∀ x ∈ v, ¬ IsSep x) ∧ v.length = left) := by
  induction left generalizing w c stop u text with
  | zero => exact .inr ⟨[], text, fun s _ => ⟨rfl, rfl⟩, rfl, fun x hx => (List.not_mem_nil hx).elim, rfl⟩
  | succ left ih =>
    cases text with
    | nil =>
      obtain ⟨u', hg, hp, hs⟩ := getChar_eof h
      refine .inl ⟨[], [], u', fun s hb => ?_, hp, rfl, fun x hx => (List.not_mem_nil hx).elim, fun x hx => (by cases hx), by simp, by rw [hs]; simp, .inl ⟨rfl, hs⟩⟩
      rw [scanRegular]
      dsimp only
      rw [hg s hb]
      dsimp only
      rw [hp, h.pos, List.reverse_cons, List.reverse_reverse, List.append_assoc]
    | cons x t =>
      obtain ⟨u', hg, hp, ha, hlt⟩ := getChar_char h
      by_cases hx : isSep x = true
      · refine .inl ⟨[], x :: t, u', fun s hb => ?_, hp, rfl, fun x hx => (List.not_mem_nil hx).elim, ?_, by simp, by omega, .inr ⟨x, t, rfl, ?_⟩⟩
        · rw [scanRegular]
          dsimp only
          rw [hg s hb]
          dsimp only
          rw [if_pos hx, hp, h.pos, List.reverse_cons, List.reverse_reverse, List.append_assoc]
        · intro y hy
          cases hy
          exact (isSep_iff x).1 hx
        · exact ha
      · have hr : ∀ s : Asm, s.readBuf = none → scanRegular start (left + 1) w.reverse c stop u s = scanRegular start left (w ++ [c]).reverse x u.pos u' s := by
          intro s hb
          rw [scanRegular]
          dsimp only
          rw [hg s hb]
          dsimp only
          rw [if_neg hx, show c :: w.reverse = (w ++ [c]).reverse by simp]
        have hns : ¬ IsSep x := fun h => hx ((isSep_iff x).2 h)
        have hv : ∀ v : Str, (∀ y ∈ v, ¬ IsSep y) → ∀ y ∈ x :: v, ¬ IsSep y := by
          intro v hv y hy
          rcases List.mem_cons.1 hy with rfl | hy
          exacts [hns, hv y hy]
        have e1 : ∀ v : Str, w ++ [c] ++ x :: v = w ++ c :: x :: v := fun v => by simp
        have e2 : ∀ v : Str, base ++ (w ++ [c]) ++ x :: v = base ++ w ++ c :: x :: v := fun v => by simp
        rcases ih (w ++ [c]) x u.pos u' t (by rw [← List.append_assoc]; exact ha) with ⟨v, rest, u2, h1, h2, h3, h4, h5, h6, h7, h8⟩ | ⟨v, rest, h1, h4, h5, h6⟩
        · refine .inl ⟨x :: v, rest, u2, fun s hb => ?_, h2.trans hp, by rw [h3]; rfl, hv v h4, h5, by simp only [List.length_cons]; omega, by omega, ?_⟩
          · rw [hr s hb, h1 s hb, e1, e2, hp]
          · rcases h8 with h8 | ⟨y, r, h8, h9⟩
            · exact .inl h8
            · refine .inr ⟨y, r, h8, ?_⟩
              rw [e2] at h9
              exact h9
        · exact .inr ⟨x :: v, rest, fun s hb => by rw [hr s hb]; exact h1 s hb, by rw [h4]; rfl, hv v h5, by simp [h6]⟩

/-- The rest of a text. -/
theorem scanLong_spec (start : Pos) (left : Nat) (w : Str) (u : FileUnit) (base text : Str) (h : At u (base ++ w) text) :
    (∃ v rest u', (∀ s : Asm, s.readBuf = none → scanLong start left (w.reverse ++ [QUOTE]) u s = (some ⟨QUOTE :: (w ++ v), ⟨u.path, start, posAt (base ++ w ++ v)⟩⟩, u', s)) ∧
      u'.path = u.path ∧ text = v ++ QUOTE :: rest ∧ (∀ x ∈ v, x ≠ QUOTE) ∧ v.length ≤ left ∧
      u'.stream.length ≤ u.stream.length ∧ At u' (base ++ w ++ v ++ [QUOTE]) rest) ∨
    (Fails (scanLong start left (w.reverse ++ [QUOTE]) u) ∧
      ((∀ x ∈ text, x ≠ QUOTE) ∨ ∃ v rest, text = v ++ rest ∧ (∀ x ∈ v, x ≠ QUOTE) ∧ v.length = left + 1)) := by
  induction text generalizing left w u with
  | nil =>
    obtain ⟨u', hg, hp, hs⟩ := getChar_eof h
    refine .inr ⟨fun s hb => ?_, .inl fun x hx => (List.not_mem_nil hx).elim⟩
    rw [scanLong.eq_def]
    dsimp only
    rw [hg s hb]
    exact ⟨rfl, rfl⟩
  | cons x t ih =>
    obtain ⟨u', hg, hp, ha, hlt⟩ := getChar_char h
    by_cases hx : x = ch '"'
    · have hx' : x = QUOTE := hx
      refine .inl ⟨[], t, u', fun s hb => ?_, hp, by rw [hx']; rfl, fun x hx => (List.not_mem_nil hx).elim, by simp, by omega, by rw [List.append_nil, ← hx']; exact ha⟩
      rw [scanLong.eq_def]
      dsimp only
      rw [hg s hb]
      dsimp only
      rw [if_pos hx, hp, h.pos]
      simp
    · have hx' : x ≠ QUOTE := hx
      have hv : ∀ v : Str, (∀ y ∈ v, y ≠ QUOTE) → ∀ y ∈ x :: v, y ≠ QUOTE := by
        intro v hv y hy
        rcases List.mem_cons.1 hy with rfl | hy
        exacts [hx', hv y hy]
      cases left with
      | zero =>
        refine .inr ⟨fun s hb => ?_, .inr ⟨[x], t, rfl, hv [] (fun x hx => (List.not_mem_nil hx).elim), rfl⟩⟩
        rw [scanLong.eq_def]
        dsimp only
        rw [hg s hb]
        dsimp only
        rw [if_neg hx]
        exact ⟨rfl, rfl⟩
      | succ left =>
        have hr : ∀ s : Asm, s.readBuf = none → scanLong start (left + 1) (w.reverse ++ [QUOTE]) u s = scanLong start left ((w ++ [x]).reverse ++ [QUOTE]) u' s := by
          intro s hb
          rw [scanLong.eq_def]
          dsimp only
          rw [hg s hb]
          dsimp only
          rw [if_neg hx, show x :: (w.reverse ++ [QUOTE]) = (w ++ [x]).reverse ++ [QUOTE] by simp]
        rcases ih left (w ++ [x]) u' (by rw [← List.append_assoc]; exact ha) with ⟨v, rest, u2, h1, h2, h3, h4, h5, h6, h7⟩ | ⟨h1, h4⟩
        · refine .inl ⟨x :: v, rest, u2, fun s hb => ?_, h2.trans hp, by rw [h3]; rfl, hv v h4, by simp only [List.length_cons]; omega, by omega, ?_⟩
          · rw [hr s hb, h1 s hb, hp]; simp
          · have : base ++ (w ++ [x]) ++ v = base ++ w ++ x :: v := by simp
            rw [this] at h7
            exact h7
        · refine .inr ⟨fun s hb => by rw [hr s hb]; exact h1 s hb, ?_⟩
          rcases h4 with h4 | ⟨v, rest, h4, h5, h6⟩
          · exact .inl (hv _ h4)
          · exact .inr ⟨x :: v, rest, by rw [h4]; rfl, hv v h5, by simp [h6]⟩

theorem scanRegular_get (start : Pos) (left : Nat) (acc : Str) (c : Byte) (stop : Pos) (u u0 : FileUnit) (s s0 : Asm)
    (hg : getChar u0 s0 = getChar u s) (hpos : u0.pos = u.pos) : scanRegular start (left + 1) acc c stop u0 s0 = scanRegular start (left + 1) acc c stop u s := by
  rw [scanRegular, scanRegular]
  dsimp only
  rw [hg, hpos]

theorem Outcome.congr {u : FileUnit} {pre text : Str} {f g : Asm → Option Token × FileUnit × Asm} (h : Outcome u pre text g)
    (hfg : ∀ s : Asm, s.readBuf = none → f s = g s) : Outcome u pre text f := by
  rcases h with ⟨h1, h2⟩ | ⟨h1, h2⟩ | ⟨l, u', pre', rest, h1, h2⟩
  · exact .inl ⟨fun s hb => by rw [hfg s hb]; exact h1 s hb, h2⟩
  · exact .inr (.inl ⟨fun s hb => by rw [hfg s hb]; exact h1 s hb, h2⟩)
  · exact .inr (.inr ⟨l, u', pre', rest, fun s hb => by rw [hfg s hb]; exact h1 s hb, h2⟩)

theorem nextInFileLoop_spec (fuel : Nat) (u : FileUnit) (pre text : Str) (h : At u pre text) (hf : u.stream.length < fuel) :
    Outcome u pre text (nextInFileLoop fuel u) := by
  induction fuel generalizing u pre text with
  | zero => omega
  | succ fuel ih =>
    cases text with
    | nil =>
      obtain ⟨u', hg, hp, hs⟩ := getChar_eof h
      refine .inl ⟨fun s hb => ?_, .nothing fun x hx => (List.not_mem_nil hx).elim⟩
      rw [nextInFileLoop]
      dsimp only
      rw [hg s hb]
      exact ⟨rfl, rfl⟩
    | cons x t =>
      obtain ⟨u', hg, hp, ha, hlt⟩ := getChar_char h
      by_cases hx : isSep x = true
      · refine Outcome.congr (g := nextInFileLoop fuel u') ?_ (fun s hb => by
          rw [nextInFileLoop]
          dsimp only
          rw [hg s hb]
          dsimp only
          rw [if_pos hx])
        have hsep := (isSep_iff x).1 hx
        rcases ih u' _ _ ha (by omega) with ⟨h1, h3⟩ | ⟨h1, h3⟩ | ⟨l, u2, pre', rest, h1, h3, h4, h5, h6⟩
        · exact .inl ⟨h1, h3.skip hsep⟩
        · exact .inr (.inl ⟨h1, h3.skip hsep⟩)
        · exact .inr (.inr ⟨l, u2, pre', rest, by rw [← hp]; exact h1, h3.trans hp, h4, by omega, fun ts ok hts => (h6 ts ok hts).skip hsep⟩)
      · have hns : ¬ IsSep x := fun h => hx ((isSep_iff x).2 h)
        have reg : ¬ (x = QUOTE ∧ t.head? = some SPACE) → Outcome u pre (x :: t) (scanRegular u.pos MAX_TOKEN_LEN [] x u.pos u') := by
          intro hq
          have hr := scanRegular_spec u.pos MAX_TOKEN_LEN [] x u.pos u' pre t (by rw [List.append_nil]; exact ha)
          rcases hr with ⟨v, rest, u2, h1, h2, h3, h4, h5, h6, h7, h8⟩ | ⟨v, rest, h1, h4, h5, h6⟩
          · have hv : ∀ y ∈ x :: v, ¬ IsSep y := by
              intro y hy
              rcases List.mem_cons.1 hy with rfl | hy
              exacts [hns, h4 y hy]
            have hw : ∀ ts ok, Tokens (pre ++ x :: v) rest ts ok → Tokens pre (x :: t) (⟨x :: v, posAt pre, posAt (pre ++ x :: v)⟩ :: ts) ok := by
              intro ts ok hts
              have := Tokens.word (pre := pre) (seps := []) (w := x :: v) (rest := rest) (ts := ts) (ok := ok) (fun x hx => (List.not_mem_nil hx).elim)
                (List.cons_ne_nil _ _) hv h5 (by
                  rintro ⟨he, hsp⟩
                  obtain ⟨rfl, rfl⟩ := List.cons.inj he
                  exact hq ⟨rfl, by rw [h3]; exact hsp⟩) (by simp only [MAX_TOKEN_LEN] at h6; simp only [List.length_cons]; omega)
                (by rw [List.append_nil]; exact hts)
              rw [h3]
              simpa using this
            rw [List.append_nil] at h1 h8
            rw [show ([] : Str).reverse = [] from rfl] at h1
            rcases h8 with h8 | ⟨y, r, h8, h9⟩
            · refine .inr (.inr ⟨⟨x :: v, posAt pre, posAt (pre ++ x :: v)⟩, u2, pre ++ x :: v, rest, fun s hb => ?_, h2.trans hp, .inr h8, by omega, hw⟩)
              rw [h1 s hb, hp, h.pos]
              rfl
            · refine .inr (.inr ⟨⟨x :: v, posAt pre, posAt (pre ++ x :: v)⟩, u2, pre ++ x :: v ++ [y], r, fun s hb => ?_, h2.trans hp, .inl h9, by omega, ?_⟩)
              · rw [h1 s hb, hp, h.pos]
                rfl
              · intro ts ok hts
                refine hw ts ok ?_
                rw [h8]
                exact hts.skip (h5 y (by rw [h8]; rfl))
          · refine .inr (.inl ⟨h1, ?_⟩)
            have := Tokens.longWord (pre := pre) (seps := []) (w := x :: v) (rest := rest) (fun x hx => (List.not_mem_nil hx).elim) (by
              intro y hy
              rcases List.mem_cons.1 hy with rfl | hy
              exacts [hns, h5 y hy]) (by simp only [List.length_cons, h6, MAX_TOKEN_LEN]; omega)
            rw [h4]
            exact this
        by_cases hq : x = ch '"'
        · obtain ⟨c, u2, hpk, hsp, hpa, hpo⟩ := peek_get ha
          by_cases hc : c = .char (ch ' ')
          · have hhd := hsp.1 hc
            cases t with
            | nil => cases hhd
            | cons y t =>
              simp only [List.head?_cons, Option.some.injEq] at hhd
              subst hhd
              obtain ⟨u3, hg3, hp3, ha3, hlt3⟩ := getChar_char ha
              have hx' : x = QUOTE := hq
              subst hx'
              refine Outcome.congr (g := scanLong u.pos 1023 [QUOTE] u3) ?_ (fun s hb => by
                obtain ⟨s2, hk, hget⟩ := hpk s hb
                rw [nextInFileLoop]
                dsimp only
                rw [hg s hb]
                dsimp only
                rw [if_neg hx, if_pos hq, hk]
                dsimp only
                rw [if_pos hc, hget, hg3 s hb]
                rfl)
              rcases scanLong_spec u.pos 1023 [] u3 _ t (by rw [List.append_nil]; exact ha3) with ⟨v, rest, u4, h1, h2, h3, h4, h5, h6, h7⟩ | ⟨h1, h4⟩
              · refine .inr (.inr ⟨⟨QUOTE :: v, posAt pre, posAt (pre ++ [] ++ [QUOTE, SPACE] ++ v)⟩, u4, pre ++ [] ++ [QUOTE, SPACE] ++ v ++ [QUOTE], rest, fun s hb => ?_, ?_, .inl ?_, by omega, ?_⟩)
                · rw [show scanLong u.pos 1023 [QUOTE] u3 s = _ from h1 s hb, hp3, hp, h.pos]; simp
                · exact h2.trans (hp3.trans hp)
                · simpa using h7
                · intro ts ok hts
                  have := Tokens.text (pre := pre) (seps := []) (body := v) (rest := rest) (fun x hx => (List.not_mem_nil hx).elim) h4 h5 hts
                  rw [h3]
                  simpa using this
              · refine .inr (.inl ⟨h1, ?_⟩)
                rcases h4 with h4 | ⟨v, rest, h4, h5, h6⟩
                · exact Tokens.openText (seps := []) (fun x hx => (List.not_mem_nil hx).elim) h4
                · rw [h4]
                  exact Tokens.longText (seps := []) (rest := rest) (fun x hx => (List.not_mem_nil hx).elim) h5 (by omega)
          · refine (reg fun h => hc (hsp.2 h.2)).congr fun s hb => ?_
            obtain ⟨s2, hk, hget⟩ := hpk s hb
            rw [nextInFileLoop]
            dsimp only
            rw [hg s hb]
            dsimp only
            rw [if_neg hx, if_pos hq, hk]
            dsimp only
            rw [if_neg hc, show MAX_TOKEN_LEN = 46 + 1 from rfl, scanRegular_get _ _ _ _ _ _ _ _ _ hget hpo]
        · refine (reg fun h => hq h.1).congr fun s hb => ?_
          rw [nextInFileLoop]
          dsimp only
          rw [hg s hb]
          dsimp only
          rw [if_neg hx, if_neg hq]

theorem nextInFile_spec (u : FileUnit) (pre text : Str) (h : At u pre text) : Outcome u pre text (nextInFile u) :=
  nextInFileLoop_spec _ u pre text h (by omega)

theorem nextInFile_end (u : FileUnit) (text : Str) (h : AtEnd u text) : ∀ s : Asm, s.readBuf = none → (nextInFile u s).1 = none ∧ (nextInFile u s).2.2 = s := by
  intro s hb
  unfold nextInFile
  obtain ⟨u', hg, hp, hs⟩ := getChar_end h.2
  rw [nextInFileLoop]
  dsimp only
  rw [hg s hb]
  exact ⟨rfl, rfl⟩

/-! ## The specification determines the tokens -/

/-- A function for `Tokens`. -/
def lexAll : Nat → Str → Str → List Lexeme × Bool
  | 0, _, _ => ([], true)
  | fuel + 1, pre, text =>
    let seps := text.takeWhile isSep
    let r := text.dropWhile isSep
    let pre := pre ++ seps
    if r = [] then ([], true)
    else if r.take 2 = [QUOTE, SPACE] then
      let body := (r.drop 2).takeWhile (· ≠ QUOTE)
      let after := (r.drop 2).dropWhile (· ≠ QUOTE)
      if 1023 < body.length ∨ after = [] then ([], false)
      else
        let x := lexAll fuel (pre ++ [QUOTE, SPACE] ++ body ++ [QUOTE]) after.tail
        (⟨QUOTE :: body, posAt pre, posAt (pre ++ [QUOTE, SPACE] ++ body)⟩ :: x.1, x.2)
    else
      let w := r.takeWhile (fun c => !isSep c)
      if 47 < w.length then ([], false)
      else
        let x := lexAll fuel (pre ++ w) (r.dropWhile (fun c => !isSep c))
        (⟨w, posAt pre, posAt (pre ++ w)⟩ :: x.1, x.2)

theorem span_eq (p : Byte → Bool) (l r : Str) (hl : ∀ c ∈ l, p c = true) (hr : ∀ c, r.head? = some c → p c = false) :
    (l ++ r).takeWhile p = l ∧ (l ++ r).dropWhile p = r := by
  induction l with
  | nil =>
    cases r with
    | nil => exact ⟨rfl, rfl⟩
    | cons c r => simp [hr c rfl]
  | cons c l ih =>
    have := ih fun c hc => hl c (List.mem_cons_of_mem _ hc)
    rw [List.cons_append, List.takeWhile_cons, List.dropWhile_cons, hl c List.mem_cons_self]
    simp [this.1, this.2]

theorem takeWhile_long (p : Byte → Bool) (l r : Str) (hl : ∀ c ∈ l, p c = true) : l.length ≤ ((l ++ r).takeWhile p).length := by
  induction l with
  | nil => exact Nat.zero_le _
  | cons c l ih =>
    have := ih fun c hc => hl c (List.mem_cons_of_mem _ hc)
    rw [List.cons_append, List.takeWhile_cons, hl c List.mem_cons_self]
    simpa using this

theorem sep_bool {l : Str} (h : ∀ c ∈ l, IsSep c) : ∀ c ∈ l, isSep c = true := fun c hc => (isSep_iff c).2 (h c hc)

theorem nosep_bool {c : Byte} (h : ¬ IsSep c) : isSep c = false := by
  cases hc : isSep c with
  | false => rfl
  | true => exact absurd ((isSep_iff c).1 hc) h

theorem quote_sep : isSep QUOTE = false := by decide

theorem lexAll_eq {pre text : Str} {ts : List Lexeme} {ok : Bool} (h : Tokens pre text ts ok) (fuel : Nat) (hf : text.length < fuel) :
    lexAll fuel pre text = (ts, ok) := by
  induction h generalizing fuel with
  | nothing h =>
    rename_i pre seps
    cases fuel with
    | zero => omega
    | succ fuel =>
      have h1 := span_eq isSep seps [] (sep_bool h) (fun c hc => by cases hc)
      rw [List.append_nil] at h1
      rw [lexAll]
      dsimp only
      rw [h1.2, if_pos rfl]
  | word h1 h2 h3 h4 h5 h6 h7 ih =>
    rename_i pre seps w rest ts ok
    cases fuel with
    | zero => omega
    | succ fuel =>
      have e := span_eq isSep seps (w ++ rest) (sep_bool h1) (by
        intro c hc
        cases w with
        | nil => exact absurd rfl h2
        | cons d w =>
          cases hc
          exact nosep_bool (h3 _ List.mem_cons_self))
      rw [← List.append_assoc] at e
      have e2 := span_eq (fun c => !isSep c) w rest (fun c hc => by simp [nosep_bool (h3 c hc)]) (fun c hc => by simp [(isSep_iff c).2 (h4 c hc)])
      rw [lexAll]
      dsimp only
      rw [e.1, e.2, e2.1, e2.2, if_neg (by simp [h2]), if_neg, if_neg (by omega), ih fuel (by
        simp only [List.length_append] at hf
        have : 0 < w.length := List.length_pos_iff.2 h2
        omega)]
      intro ht
      cases w with
      | nil => exact absurd rfl h2
      | cons d w =>
        cases w with
        | nil =>
          cases rest with
          | nil => simp at ht
          | cons y rest =>
            simp only [List.cons_append, List.nil_append, List.take_succ_cons, List.take_zero, List.cons.injEq, and_true] at ht
            exact h5 ⟨by rw [ht.1], by rw [ht.2]; rfl⟩
        | cons y w =>
          simp only [List.cons_append, List.take_succ_cons, List.take_zero, List.cons.injEq, and_true] at ht
          exact h3 y (by simp) (by rw [ht.2]; unfold IsSep; decide)
  | longWord h1 h3 h6 =>
    rename_i pre seps w rest
    cases fuel with
    | zero => omega
    | succ fuel =>
      have hne : w ≠ [] := fun h => by rw [h] at h6; simp at h6
      have e := span_eq isSep seps (w ++ rest) (sep_bool h1) (by
        intro c hc
        cases w with
        | nil => exact absurd rfl hne
        | cons d w =>
          cases hc
          exact nosep_bool (h3 _ List.mem_cons_self))
      rw [← List.append_assoc] at e
      have e2 := takeWhile_long (fun c => !isSep c) w rest (fun c hc => by simp [nosep_bool (h3 c hc)])
      rw [lexAll]
      dsimp only
      rw [e.2, if_neg (by simp [hne]), if_neg, if_pos (by omega)]
      intro ht
      cases w with
      | nil => exact absurd rfl hne
      | cons d w =>
        cases w with
        | nil => simp at h6
        | cons y w =>
          simp only [List.cons_append, List.take_succ_cons, List.take_zero, List.cons.injEq, and_true] at ht
          exact h3 y (by simp) (by rw [ht.2]; unfold IsSep; decide)
  | text h1 h2 h3 h7 ih =>
    rename_i pre seps body rest ts ok
    cases fuel with
    | zero => omega
    | succ fuel =>
      have e := span_eq isSep seps (QUOTE :: SPACE :: (body ++ QUOTE :: rest)) (sep_bool h1) (by
        intro c hc
        cases hc
        exact quote_sep)
      have e2 := span_eq (fun c => decide (c ≠ QUOTE)) body (QUOTE :: rest) (fun c hc => by simp [h2 c hc]) (fun c hc => by cases hc; simp)
      have ht : seps ++ [QUOTE, SPACE] ++ body ++ [QUOTE] ++ rest = seps ++ QUOTE :: SPACE :: (body ++ QUOTE :: rest) := by simp
      rw [lexAll]
      dsimp only
      rw [ht, e.1, e.2, if_neg (List.cons_ne_nil _ _), if_pos (show List.take 2 (QUOTE :: SPACE :: _) = [QUOTE, SPACE] from rfl)]
      simp only [List.drop_succ_cons, List.drop_zero]
      rw [e2.1, e2.2, if_neg (by simp; omega), List.tail_cons, ih fuel (by
        rw [ht] at hf
        simp only [List.length_append, List.length_cons] at hf
        omega)]
  | longText h1 h2 h3 =>
    rename_i pre seps body rest
    cases fuel with
    | zero => omega
    | succ fuel =>
      have e := span_eq isSep seps (QUOTE :: SPACE :: (body ++ rest)) (sep_bool h1) (by
        intro c hc
        cases hc
        exact quote_sep)
      have e2 := takeWhile_long (fun c => decide (c ≠ QUOTE)) body rest (fun c hc => by simp [h2 c hc])
      have ht : seps ++ [QUOTE, SPACE] ++ body ++ rest = seps ++ QUOTE :: SPACE :: (body ++ rest) := by simp
      rw [lexAll]
      dsimp only
      rw [ht, e.2, if_neg (List.cons_ne_nil _ _), if_pos (show List.take 2 (QUOTE :: SPACE :: _) = [QUOTE, SPACE] from rfl)]
      simp only [List.drop_succ_cons, List.drop_zero]
      rw [if_pos (.inl (by omega))]
  | openText h1 h2 =>
    rename_i pre seps body
    cases fuel with
    | zero => omega
    | succ fuel =>
      have e := span_eq isSep seps (QUOTE :: SPACE :: body) (sep_bool h1) (by
        intro c hc
        cases hc
        exact quote_sep)
      have e2 := span_eq (fun c => decide (c ≠ QUOTE)) body [] (fun c hc => by simp [h2 c hc]) (fun c hc => by cases hc)
      rw [List.append_nil] at e2
      have ht : seps ++ [QUOTE, SPACE] ++ body = seps ++ QUOTE :: SPACE :: body := by simp
      rw [lexAll]
      dsimp only
      rw [ht, e.2, if_neg (List.cons_ne_nil _ _), if_pos (show List.take 2 (QUOTE :: SPACE :: _) = [QUOTE, SPACE] from rfl)]
      simp only [List.drop_succ_cons, List.drop_zero]
      rw [if_pos (.inr e2.2)]

/-- The tokens of a text are determined. -/
theorem C34_unique {pre text : Str} {ts ts' : List Lexeme} {ok ok' : Bool} (h : Tokens pre text ts ok) (h' : Tokens pre text ts' ok') :
    ts = ts' ∧ ok = ok' := by
  have := (lexAll_eq h _ (Nat.lt_succ_self _)).symm.trans (lexAll_eq h' _ (Nat.lt_succ_self _))
  cases this
  exact ⟨rfl, rfl⟩

/-! ## The theorem -/

/-- As a token. -/
def Spec.Lexeme.token (path : Str) (l : Lexeme) : Token := ⟨l.text, ⟨path, l.start, l.stop⟩⟩

/-- `Reads` without errors, and with a bound. -/
inductive Lists : FileUnit → List Token → Prop
  | stop {u : FileUnit} : (∀ s : Asm, s.readBuf = none → (nextInFile u s).1 = none ∧ (nextInFile u s).2.2 = s) → Lists u []
  | next {u u' : FileUnit} {t : Token} {ts : List Token} :
      (∀ s : Asm, s.readBuf = none → nextInFile u s = (some t, u', s)) → u'.stream.length < u.stream.length → Lists u' ts → Lists u (t :: ts)

theorem Lists.length {u : FileUnit} {ts : List Token} (h : Lists u ts) : ts.length ≤ u.stream.length := by
  induction h with
  | stop => exact Nat.zero_le _
  | next _ h1 _ ih => rw [List.length_cons]; omega

theorem reads_spec (n : Nat) (u : FileUnit) (pre text : Str) (h : At u pre text) (hn : u.stream.length < n) :
    ∃ ts ok, Tokens pre text ts ok ∧ Reads u (ts.map (·.token u.path)) ok ∧ (ok = true → Lists u (ts.map (·.token u.path))) := by
  induction n generalizing u pre text with
  | zero => omega
  | succ n ih =>
    rcases nextInFile_spec u pre text h with ⟨h1, h3⟩ | ⟨h1, h3⟩ | ⟨l, u2, pre', rest, h1, h3, h4, h5, h6⟩
    · exact ⟨[], true, h3, .stop h1, fun _ => .stop h1⟩
    · exact ⟨[], false, h3, .fail h1, fun h => by cases h⟩
    · rcases h4 with h4 | h4
      · obtain ⟨ts, ok, ht, he, hl⟩ := ih u2 pre' rest h4 (by omega)
        rw [h3] at he hl
        exact ⟨l :: ts, ok, h6 _ _ ht, .next h1 he, fun hok => .next h1 h5 (hl hok)⟩
      · refine ⟨[l], true, h6 _ _ ?_, .next h1 (.stop (nextInFile_end u2 rest h4)), fun _ => .next h1 h5 (.stop (nextInFile_end u2 rest h4))⟩
        rw [h4.1]
        exact .nothing fun x hx => (List.not_mem_nil hx).elim

/-- **C34.** Whatever the assembler does in between, it gets exactly the tokens of the text of a file, with their
positions, and an error if and only if a token is malformed. Line endings CR LF and LF are interchangeable. -/
theorem C34_tokens (raw path : Str) (hl : ProperLines raw) :
    ∃ ts ok, Tokens [] (normalise raw) ts ok ∧ Reads ⟨raw.map some, path, ⟨1, 1, 0⟩⟩ (ts.map (·.token path)) ok :=
  have ⟨ts, ok, h1, h2, _⟩ := reads_spec _ ⟨raw.map some, path, ⟨1, 1, 0⟩⟩ [] _ ⟨rfl, raw, rfl, hl, rfl⟩ (Nat.lt_succ_self _)
  ⟨ts, ok, h1, h2⟩

end Buxn.Asm
