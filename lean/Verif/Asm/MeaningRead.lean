import Verif.Asm.MeaningSim
import Verif.Asm.Accepts
/-!
# C78: reading words
-/

namespace Buxn.Asm.Meaning
open Buxn.VM Buxn.Asm Buxn.Asm.Spec

/-- The words that a unit gives; `ok` tells whether its end is reached without an error. -/
inductive Src : Unit → List Str → Bool → Prop
  | file {u : FileUnit} {ts : List Token} {ok : Bool} : Spec.Reads u ts ok → (∀ t ∈ ts, t.lex ≠ []) → Src (.file u) (ts.map (·.lex)) ok
  | body {rest : List Token} {arg : Str} {ok : Bool} : (∀ t ∈ rest, t.lex ≠ []) → (ok = true ↔ (arg ≠ [] → ∀ t ∈ rest, Short? (replace arg t.lex))) →
      Src (.macro ⟨rest, arg⟩) (rest.map fun t => if arg = [] then t.lex else replace arg t.lex) ok

/-- The text of an expanded token. -/
theorem expandText_eq (arg w acc rev : Str) (h : expandText arg w acc = some rev) : rev.reverse = acc.reverse ++ replace arg w := by
  induction w generalizing acc with
  | nil => cases h; simp [replace]
  | cons c cs ih =>
    rw [expandText] at h
    have hc : replace arg (c :: cs) = (if c = ch '^' then arg else [c]) ++ replace arg cs := rfl
    rw [hc]
    by_cases e : c = ch '^'
    · rw [if_pos e] at h ⊢
      split at h
      · cases h
      · rw [ih _ h]; simp
    · rw [if_neg e] at h ⊢
      split at h
      · cases h
      · rw [ih _ h]; simp

theorem replace_none (arg w : Str) (h : ch '^' ∉ w) : replace arg w = w := by
  induction w with
  | nil => rfl
  | cons c cs ih =>
    have hc : replace arg (c :: cs) = (if c = ch '^' then arg else [c]) ++ replace arg cs := rfl
    rw [hc, if_neg (fun e => h (by rw [e]; exact List.mem_cons_self)), ih fun h' => h (List.mem_cons_of_mem _ h')]
    rfl

theorem replace_ne (arg w : Str) (ha : arg ≠ []) (hw : w ≠ []) : replace arg w ≠ [] := by
  cases w with
  | nil => exact absurd rfl hw
  | cons c cs =>
    have hc : replace arg (c :: cs) = (if c = ch '^' then arg else [c]) ++ replace arg cs := rfl
    rw [hc]
    split
    · intro h; exact ha (List.append_eq_nil_iff.1 h).1
    · simp

/-- What asking for a token may give. -/
theorem Src.next {u : Unit} {ws : List Str} {ok : Bool} (h : Src u ws ok) (s : Asm) (hr : s.readBuf = none) :
    (∃ t u' rest, nextToken u s = (some t, u', s) ∧ t.lex ≠ [] ∧ ws = t.lex :: rest ∧ Src u' rest ok) ∨
    (∃ u', nextToken u s = (none, u', s) ∧ ws = [] ∧ ok = true) ∨
    (∃ u' s', nextToken u s = (none, u', s') ∧ s'.success = false) := by
  cases h with
  | @file u ts _ h hne =>
    cases h with
    | stop h =>
      obtain ⟨h1, h2⟩ := h s hr
      refine .inr (.inl ⟨.file (nextInFile u s).2.1, ?_, rfl, rfl⟩)
      unfold nextToken
      show ((nextInFile u s).1, Unit.file (nextInFile u s).2.1, (nextInFile u s).2.2) = _
      rw [h1, h2]
    | fail h =>
      obtain ⟨h1, h2⟩ := h s hr
      refine .inr (.inr ⟨.file (nextInFile u s).2.1, (nextInFile u s).2.2, ?_, h2⟩)
      show ((nextInFile u s).1, Unit.file (nextInFile u s).2.1, (nextInFile u s).2.2) = _
      rw [h1]
    | @next _ u' t ts _ h1 h2 =>
      refine .inl ⟨t, .file u', ts.map (·.lex), ?_, hne t List.mem_cons_self, rfl, .file h2 fun t ht => hne t (List.mem_cons_of_mem _ ht)⟩
      show ((nextInFile u s).1, Unit.file (nextInFile u s).2.1, (nextInFile u s).2.2) = _
      rw [h1 s hr]
  | @body rest arg _ hne hok =>
    cases rest with
    | nil => exact .inr (.inl ⟨_, rfl, rfl, hok.2 fun _ _ h => by cases h⟩)
    | cons t rest =>
      have hne' : ∀ t ∈ rest, t.lex ≠ [] := fun t ht => hne t (List.mem_cons_of_mem _ ht)
      have ht := hne t List.mem_cons_self
      by_cases ha : arg = []
      · subst ha
        exact .inl ⟨t, .macro ⟨rest, []⟩, _, rfl, ht, rfl, .body hne' ⟨fun _ h => absurd rfl h, fun _ => hok.2 fun h => absurd rfl h⟩⟩
      · have ha' : ¬ arg.length = 0 := fun h => ha (List.length_eq_zero_iff.1 h)
        have e : nextToken (.macro ⟨t :: rest, arg⟩) s = ((nextInMacro ⟨t :: rest, arg⟩ s).1, Unit.macro (nextInMacro ⟨t :: rest, arg⟩ s).2.1, (nextInMacro ⟨t :: rest, arg⟩ s).2.2) := rfl
        rw [e]
        unfold nextInMacro
        dsimp only
        rw [if_neg ha']
        cases hx : expandText arg t.lex [] with
        | none => exact .inr (.inr ⟨_, _, rfl, rfl⟩)
        | some rev =>
          have hrev := expandText_eq arg t.lex [] rev hx
          rw [List.reverse_nil, List.nil_append] at hrev
          dsimp only
          by_cases hl : (if rev.reverse.head? = some (ch '"') then MAX_LONG_STRING_LEN else MAX_TOKEN_LEN) < rev.reverse.length
          · rw [if_pos hl]; exact .inr (.inr ⟨_, _, rfl, rfl⟩)
          · rw [if_neg hl]
            have hlex : (if ch '^' ∈ t.lex then { t with lex := rev.reverse } else t).lex = replace arg t.lex := by
              split
              · exact hrev
              · rename_i h; rw [replace_none _ _ h]
            have hshort : Short? (replace arg t.lex) := by
              rw [hrev] at hl
              exact Nat.not_lt.1 hl
            refine .inl ⟨_, .macro ⟨rest, arg⟩, _, rfl, ?_, ?_, .body hne' (hok.trans ?_)⟩
            rotate_left 2
            · constructor
              · exact fun h ha v hv => h ha v (List.mem_cons_of_mem _ hv)
              · intro h ha v hv
                rcases List.mem_cons.1 hv with rfl | hv
                exacts [hshort, h ha v hv]
            · rw [hlex]; exact replace_ne _ _ ha ht
            · rw [List.map_cons, if_neg ha, hlex]

/-! ## Comments -/

theorem quiet_emits {s s' : Asm} {w : Short} (h : Emits s s' [] [] w) (hw : w = s.writeAddr) : Emits s s' [] [] s.writeAddr := hw ▸ h

theorem commentLoop_src (fuel d : Nat) {u u' : Unit} {ws : List Str} {ok : Bool} {s s' : Asm} (h : Src u ws ok) (hr : s.readBuf = none)
    (he : commentLoop fuel d u s = (0, u', s')) : ∃ rest, comment d ws = some rest ∧ Src u' rest ok ∧ Emits s s' [] [] s.writeAddr := by
  induction fuel generalizing d u ws s with
  | zero =>
    rw [commentLoop] at he
    cases he
    exact ⟨ws, by rw [comment], h, .refl _⟩
  | succ fuel ih =>
    rw [commentLoop] at he
    cases d with
    | zero => rw [if_pos rfl] at he; cases he; exact ⟨ws, by rw [comment], h, .refl _⟩
    | succ d =>
      rw [if_neg (Nat.succ_ne_zero d)] at he
      rcases h.next s hr with ⟨t, u1, rest, e, -, rfl, h1⟩ | ⟨u1, e, -, -⟩ | ⟨u1, s1, e, -⟩
      · rw [e] at he
        dsimp only at he
        have e1 := putSymbol_emits s.writeAddr { type := .comment, name := some t.lex, region := t.region, id := BitVec.ofNat 16 (d + 1) } s
        obtain ⟨r, h2, h3, h4⟩ := ih _ h1 (e1.same.readBuf.trans hr) he
        refine ⟨r, ?_, h3, e1.after h4⟩
        rw [comment]
        exact h2
      · rw [e] at he; cases he
      · rw [e] at he; cases he

theorem processComment_src {t : Token} {u u' : Unit} {ws : List Str} {ok : Bool} {s s' : Asm} (h : Src u ws ok) (hr : s.readBuf = none)
    (he : processComment t u s = (true, u', s')) : ∃ rest, comment 1 ws = some rest ∧ Src u' rest ok ∧ Emits s s' [] [] s.writeAddr := by
  unfold processComment at he
  dsimp only at he
  have e1 := putSymbol_emits s.writeAddr { type := .comment, name := some t.lex, region := t.region } s
  generalize hc : commentLoop (unitFuel u) 1 u (putSymbol s.writeAddr { type := .comment, name := some t.lex, region := t.region } s) = c at he
  obtain ⟨d, u1, s1⟩ := c
  dsimp only at he
  by_cases hd : d = 0
  · subst hd
    rw [if_neg (by simp)] at he
    cases he
    obtain ⟨r, h2, h3, h4⟩ := commentLoop_src _ _ h (e1.same.readBuf.trans hr) hc
    exact ⟨r, h2, h3, e1.after h4⟩
  · rw [if_pos hd] at he; cases he

theorem processMark_emits (t : Token) (s : Asm) : Emits s (processMark t s) [] [] s.writeAddr := putSymbol_emits _ _ s

theorem head_eq {w : Str} {c : Byte} (hw : w ≠ []) (h : w.headD 0 = c) : w.head? = some c := by
  cases w with
  | nil => exact absurd rfl hw
  | cons d ds => rw [← h]; rfl

theorem single {w : Str} {c : Byte} (h : w.headD 0 = c) (hl : w.length = 1) : w = [c] := by
  match w with
  | [d] => rw [← h]; rfl

/-- What makes a word a mark. -/
theorem isMark_of {w : Str} (hw : w ≠ []) (h : w.headD 0 = ch '[' ∨ w.headD 0 = ch ']' ∧ w.length = 1) : IsMark w := by
  rcases h with h | ⟨h, hl⟩
  · exact .inl (head_eq hw h)
  · exact .inr (single h hl)

/-! ## Macros -/

theorem macroHead_src (start : Token) (fuel : Nat) {u u' : Unit} {ws : List Str} {ok : Bool} {s s' : Asm} (h : Src u ws ok) (hr : s.readBuf = none)
    (he : macroHead start fuel u s = (true, u', s')) : ∃ rest, Opens ws rest ∧ Src u' rest ok ∧ Emits s s' [] [] s.writeAddr := by
  induction fuel generalizing u ws s with
  | zero => rw [macroHead] at he; cases he
  | succ fuel ih =>
    rw [macroHead] at he
    rcases h.next s hr with ⟨t, u1, rest, e, hne, rfl, h1⟩ | ⟨u1, e, -, -⟩ | ⟨u1, s1, e, -⟩
    · rw [e] at he
      dsimp only at he
      by_cases hc : t.lex.headD 0 = ch '('
      · rw [if_pos hc] at he
        generalize hp : processComment t u1 s = p at he
        obtain ⟨b, u2, s2⟩ := p
        cases b with
        | false => cases he
        | true =>
          obtain ⟨r, h2, h3, h4⟩ := processComment_src h1 hr hp
          obtain ⟨r', h5, h6, h7⟩ := ih h3 (h4.same.readBuf.trans hr) he
          exact ⟨r', .comment (head_eq hne hc) h2 h5, h6, h4.after h7⟩
      rw [if_neg hc] at he
      by_cases hb : t.lex.headD 0 = ch '['
      · rw [if_pos hb] at he
        have e1 := processMark_emits t s
        obtain ⟨r', h5, h6, h7⟩ := ih h1 (e1.same.readBuf.trans hr) he
        exact ⟨r', .mark (isMark_of hne (.inl hb)) h5, h6, e1.after h7⟩
      rw [if_neg hb] at he
      by_cases hd : t.lex.headD 0 = ch ']'
      · rw [if_pos hd] at he
        by_cases hl : t.lex.length = 1
        · rw [if_neg (by simpa using hl)] at he
          have e1 := processMark_emits t s
          obtain ⟨r', h5, h6, h7⟩ := ih h1 (e1.same.readBuf.trans hr) he
          exact ⟨r', .mark (isMark_of hne (.inr ⟨hd, hl⟩)) h5, h6, e1.after h7⟩
        · rw [if_pos hl] at he; cases he
      rw [if_neg hd] at he
      by_cases ho : t.lex.headD 0 = ch '{' ∧ t.lex.length = 1
      · rw [if_pos ho] at he
        cases he
        refine ⟨rest, ?_, h1, .refl _⟩
        rw [single ho.1 ho.2]
        exact .brace
      · rw [if_neg ho] at he; cases he
    · rw [e] at he; cases he
    · rw [e] at he; cases he

theorem opensLambda_iff (w : Str) : opensLambda w = true ↔ w ∈ LAMBDAS := by
  unfold LAMBDAS
  match w with
  | [] => simp [opensLambda, str]
  | [a] => simp [opensLambda, str]
  | a :: b :: c :: d => simp [opensLambda, str]
  | [c, b] =>
    show (b = ch '{' && _) = true ↔ [c, b] ∈ [[ch ',', ch '{'], [ch '_', ch '{'], [ch '.', ch '{'], [ch '-', ch '{'], [ch ';', ch '{'], [ch '=', ch '{'], [ch '!', ch '{'], [ch '?', ch '{']]
    simp only [List.mem_cons, List.cons.injEq, Bool.and_eq_true, Bool.or_eq_true, decide_eq_true_eq, List.not_mem_nil, and_true, or_false]
    tauto

theorem macroBody_src (start : Token) (fuel d : Nat) (hd0 : d ≠ 0) (acc acc' : List Token) {u u' : Unit} {ws : List Str} {ok : Bool} {s s' : Asm} (h : Src u ws ok) (hr : s.readBuf = none)
    (he : macroBody start fuel d acc u s = (some acc', u', s')) :
    ∃ (b : List Token) (rest : List Str), body d ws = some (b.map (·.lex), rest) ∧ acc' = b.reverse ++ acc ∧ (∀ t ∈ b, t.lex ≠ []) ∧ Src u' rest ok ∧ s' = s := by
  induction fuel generalizing d u ws s acc with
  | zero => rw [macroBody] at he; cases he
  | succ fuel ih =>
    rw [macroBody] at he
    rcases h.next s hr with ⟨t, u1, rest, e, hne, rfl, h1⟩ | ⟨u1, e, -, -⟩ | ⟨u1, s1, e, -⟩
    · rw [e] at he
      dsimp only at he
      rw [body]
      by_cases hp : t.lex.headD 0 = ch '%'
      · rw [if_pos hp] at he; cases he
      rw [if_neg hp] at he
      rw [if_neg (by intro h; exact hp (by cases hl : t.lex with | nil => exact absurd hl hne | cons a l => rw [hl] at h; exact Option.some.inj h))]
      by_cases hc : t.lex = [ch '}']
      · rw [if_pos (show t.lex = str "}" from hc)]
        rw [if_pos hc] at he
        by_cases hd : d ≤ 1
        · rw [if_pos (by omega)] at he
          rw [if_pos hd]
          cases he
          exact ⟨[], rest, rfl, rfl, by simp, h1, rfl⟩
        · rw [if_neg (by omega)] at he
          rw [if_neg hd]
          obtain ⟨b, r, h2, h3, h4, h5, h6⟩ := ih (d - 1) (by omega) (t :: acc) h1 hr he
          refine ⟨t :: b, r, by rw [h2]; rfl, by rw [h3]; simp, ?_, h5, h6⟩
          intro x hx
          rcases List.mem_cons.1 hx with rfl | hx
          exacts [hne, h4 x hx]
      · rw [if_neg (show t.lex ≠ str "}" from hc)]
        rw [if_neg hc] at he
        have hdd : (if opensLambda t.lex = true then d + 1 else d) = (if t.lex ∈ LAMBDAS then d + 1 else d) := by
          by_cases hm : t.lex ∈ LAMBDAS
          · rw [if_pos hm, if_pos ((opensLambda_iff _).2 hm)]
          · rw [if_neg hm, if_neg (fun h => hm ((opensLambda_iff _).1 h))]
        rw [hdd] at he
        have h0 : (if t.lex ∈ LAMBDAS then d + 1 else d) ≠ 0 := by split <;> omega
        rw [if_neg h0] at he
        obtain ⟨b, r, h2, h3, h4, h5, h6⟩ := ih _ h0 (t :: acc) h1 hr he
        refine ⟨t :: b, r, by rw [h2]; rfl, by rw [h3]; simp, ?_, h5, h6⟩
        intro x hx
        rcases List.mem_cons.1 hx with rfl | hx
        exacts [hne, h4 x hx]
    · rw [e] at he; cases he
    · rw [e] at he; cases he

end Buxn.Asm.Meaning
