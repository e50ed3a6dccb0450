import Verif.Asm.Meaning
/-!
# C78: a source has one meaning
-/

namespace Buxn.Asm.Meaning
open Buxn.VM Buxn.Asm Buxn.Asm.Spec

/-! ## Numbers and mnemonics -/

theorem literal_unique {w : Str} {v v' k k' : Nat} (h : Literal w v k) (h' : Literal w v' k') : v = v' ∧ k = k' := by
  have e := (C32_literal_value w _ k).2 ⟨v, h, rfl⟩
  have e' := (C32_literal_value w _ k').2 ⟨v', h', rfl⟩
  rw [e] at e'
  simp only [Except.ok.injEq, Prod.mk.injEq] at e'
  obtain ⟨e1, rfl⟩ := e'
  have hb := h.bound
  have hb' := h'.bound
  have e1 := congrArg BitVec.toNat e1
  rw [BitVec.toNat_ofNat, BitVec.toNat_ofNat] at e1
  have : 256 ^ k ≤ 65536 := by rcases hb.2 with rfl | rfl <;> decide
  exact ⟨by omega, rfl⟩

theorem mnemonic_unique {w : Str} {i i' : Instr} {op op' : Byte} (h : Mnemonic w i) (h' : Mnemonic w i') (e : dispatch op = some i) (e' : dispatch op' = some i') : op = op' := by
  obtain ⟨r, h1⟩ := (C33_mnemonics w op).2 ⟨i, h, e⟩
  obtain ⟨r', h2⟩ := (C33_mnemonics w op').2 ⟨i', h', e'⟩
  rw [h1] at h2
  simp only [Option.some.injEq, Prod.mk.injEq] at h2
  exact h2.1

theorem parse_plus {w : Str} (h : w.head? = some (ch '+')) : parseLiteral w = parseNumber w := by
  cases w with
  | nil => cases h
  | cons c w =>
    have : c = ch '+' := by simpa using h
    subst this
    rw [parseLiteral, if_neg (fun h => h.1 rfl)]

theorem hex_no_plus {w : Str} (h : HexDigits w) : w.head? ≠ some (ch '+') := by
  intro e
  cases w with
  | nil => cases e
  | cons c w =>
    have : c = ch '+' := by simpa using e
    subst this
    exact plus_not_hex (h _ (by simp))

theorem parse_hex {w : Str} (hne : w ≠ []) (hl : w.length ≤ 4) (hd : HexDigits w) : ∃ k, parseNumber w = .ok (BitVec.ofNat 16 (numeral 16 w), k) := by
  refine ⟨if w.length ≤ 2 then 1 else 2, ?_⟩
  · unfold parseNumber
    rw [if_neg (by simpa using hne), if_pos (plusCount_hex hd), if_neg (by omega), hexLoop_ok _ hd hl]

/-- The numbers of paddings. -/
theorem amount_parse {p : Str} {v : Nat} (h : Amount p v) : v < 65536 ∧ ∃ k, parseNumber p = .ok (BitVec.ofNat 16 v, k) := by
  cases h with
  | hex hne hl hd =>
    refine ⟨?_, parse_hex hne hl hd⟩
    have := numeral_hex_lt p hd
    have : 16 ^ p.length ≤ 16 ^ 4 := Nat.pow_le_pow_right (by omega) hl
    omega
  | literal h =>
    rename_i k
    have hb := h.bound
    refine ⟨by have : 256 ^ k ≤ 65536 := by rcases hb.2 with rfl | rfl <;> decide
               omega, ?_⟩
    have e := (C32_literal_value p _ k).2 ⟨v, h, rfl⟩
    by_cases hp : p.head? = some (ch '+')
    · rw [parse_plus hp] at e; exact ⟨k, e⟩
    · obtain ⟨hd, rfl, hk⟩ := h.hexOf hp
      exact parse_hex h.nonempty (by omega) hd

theorem amount_unique {p : Str} {v v' : Nat} (h : Amount p v) (h' : Amount p v') : v = v' := by
  obtain ⟨b, k, e⟩ := amount_parse h
  obtain ⟨b', k', e'⟩ := amount_parse h'
  rw [e] at e'
  simp only [Except.ok.injEq, Prod.mk.injEq] at e'
  have e1 := congrArg BitVec.toNat e'.1
  rw [BitVec.toNat_ofNat, BitVec.toNat_ofNat] at e1
  omega

theorem parse_amount {p : Str} {n : Short} {k : Nat} (h : parseNumber p = .ok (n, k)) : ∃ v, Amount p v ∧ n = BitVec.ofNat 16 v := by
  by_cases hp : p.head? = some (ch '+')
  · rw [← parse_plus hp] at h
    obtain ⟨v, hv, e⟩ := (C32_literal_value p n k).1 h
    exact ⟨v, .literal hv, e⟩
  · unfold parseNumber at h
    split at h
    · cases h
    · rename_i h0
      have hne : p ≠ [] := by simpa using h0
      have hp0 : plusCount p = 0 := by
        match p, hp with
        | [], _ => rfl
        | [a], hp => rw [plusCount, if_neg (by simpa using hp)]
        | a :: b :: p, hp => rw [plusCount, if_neg (by simpa using hp)]
      rw [if_pos hp0] at h
      split at h
      · cases h
      · rename_i hl
        by_cases hd : HexDigits p
        · rw [hexLoop_ok _ hd (by omega)] at h
          simp only [Except.ok.injEq, Prod.mk.injEq] at h
          exact ⟨_, .hex p hne (by omega) hd, h.1.symm⟩
        · rw [hexLoop_bad _ _ _ (fun h => hd (fun c hc => h c (List.mem_reverse.2 hc)))] at h
          cases h

theorem at_amount : ¬ ∃ v, Amount (str "@") v := by
  rintro ⟨v, h⟩
  obtain ⟨_, k, e⟩ := amount_parse h
  exact absurd e (by rw [show parseNumber (str "@") = .error "Invalid number: Unexpected character found" from rfl]; exact fun h => by cases h)

/-! ## Words -/

theorem refers_unique {ref : Str} {k : RefKind} {z : RefSize} {s a b : State} (h : Refers ref k z s a) (h' : Refers ref k z s b) : a = b := by
  obtain ⟨t, s1, e, rfl⟩ := h
  obtain ⟨t', s1', e', rfl⟩ := h'
  rw [e] at e'; cases e'; rfl

theorem defines_unique {n : Str} {s a b : State} (h : Defines n s a) (h' : Defines n s b) : a = b := h.2.trans h'.2.symm

theorem pads_unique {p : Str} {s s1 s2 : State} {a b : Short} (h : Pads p s a s1) (h' : Pads p s b s2) : a = b ∧ s1 = s2 := by
  cases h with
  | number h =>
    rename_i v
    cases h' with
    | number h' => rw [amount_unique h h']; exact ⟨rfl, rfl⟩
    | anonymous => exact absurd ⟨v, h⟩ at_amount
    | label hn => exact absurd ⟨v, h⟩ hn
  | anonymous h =>
    generalize hw : str "@" = p at h'
    cases h' with
    | number h' => subst hw; exact absurd ⟨_, h'⟩ at_amount
    | anonymous h' => rw [h] at h'; cases h'; exact ⟨rfl, rfl⟩
    | label hn hf => subst hw; cases hf
  | label hn hf hl =>
    rename_i n
    cases h' with
    | number h' => exact absurd ⟨_, h'⟩ hn
    | anonymous => cases hf
    | label _ hf' hl' =>
      rw [hf] at hf'; cases hf'
      rw [hl] at hl'; cases hl'
      exact ⟨rfl, rfl⟩

theorem bare_unique {w : Str} {s a b : State} (h : Bare w s a) (h' : Bare w s b) : a = b := by
  rcases h with ⟨v, k, h, rfl⟩ | ⟨hn, i, op, h, e, rfl⟩ | ⟨hn, h⟩
  · rcases h' with ⟨v', k', h', rfl⟩ | ⟨hn', _⟩ | ⟨hn', _⟩
    · obtain ⟨rfl, rfl⟩ := literal_unique h h'; rfl
    · exact absurd ⟨v, k, h⟩ hn'
    · exact absurd ⟨v, k, h⟩ hn'.2.1
  · rcases h' with ⟨v', k', h', rfl⟩ | ⟨hn', i', op', h', e', rfl⟩ | ⟨hn', _⟩
    · exact absurd ⟨v', k', h'⟩ hn
    · rw [mnemonic_unique h h' e e']
    · exact absurd ⟨i, h⟩ hn'.2.2
  · rcases h' with ⟨v', k', h', rfl⟩ | ⟨hn', i', op', h', e', rfl⟩ | ⟨hn', h'⟩
    · exact absurd ⟨v', k', h'⟩ hn.2.1
    · exact absurd ⟨i', h'⟩ hn.2.2
    · exact refers_unique h h'

theorem word_unique {w : Str} {s a b : State} (h : Word w s a) (h' : Word w s b) : a = b := by
  cases w with
  | nil => exact h.elim
  | cons rune rest =>
    unfold Word at h h'
    dsimp only at h h'
    split at h
    · rename_i op k z e
      rw [e] at h'
      exact refers_unique h h'
    · rename_i e
      rw [e] at h'
      dsimp only at h'
      split at h
      · rename_i c; rw [if_pos c] at h'
        obtain ⟨v, k, h, rfl⟩ := h
        obtain ⟨v', k', h', rfl⟩ := h'
        obtain ⟨rfl, rfl⟩ := literal_unique h h'; rfl
      · rename_i c; rw [if_neg c] at h'; clear c
        split at h
        · rename_i c; rw [if_pos c] at h'; exact h.2.trans h'.2.symm
        · rename_i c; rw [if_neg c] at h'; clear c
          split at h
          · rename_i c; rw [if_pos c] at h'
            obtain ⟨x, s1, h, rfl⟩ := h
            obtain ⟨x', s1', h', rfl⟩ := h'
            obtain ⟨rfl, rfl⟩ := pads_unique h h'; rfl
          · rename_i c; rw [if_neg c] at h'; clear c
            split at h
            · rename_i c; rw [if_pos c] at h'
              obtain ⟨x, s1, h, rfl⟩ := h
              obtain ⟨x', s1', h', rfl⟩ := h'
              obtain ⟨rfl, rfl⟩ := pads_unique h h'; rfl
            · rename_i c; rw [if_neg c] at h'; clear c
              split at h
              · rename_i c; rw [if_pos c] at h'; exact h.trans h'.symm
              · rename_i c; rw [if_neg c] at h'; clear c
                split at h
                · rename_i c; rw [if_pos c] at h'
                  obtain ⟨s1, h, rfl⟩ := h
                  obtain ⟨s1', h', rfl⟩ := h'
                  rw [defines_unique h h']
                · rename_i c; rw [if_neg c] at h'; clear c
                  split at h
                  · rename_i c; rw [if_pos c] at h'; exact defines_unique h h'
                  · rename_i c; rw [if_neg c] at h'; clear c
                    split at h
                    · rename_i c; rw [if_pos c] at h'
                      obtain ⟨x, xs, h, rfl⟩ := h
                      obtain ⟨x', xs', h', rfl⟩ := h'
                      rw [h] at h'; cases h'; rfl
                    · rename_i c; rw [if_neg c] at h'; clear c
                      split at h
                      · rename_i c; rw [if_pos c] at h'; exact refers_unique h h'
                      · rename_i c; rw [if_neg c] at h'
                        exact bare_unique h h'

/-! ## Reading -/

/-- The words that are treated before all others: comments, marks, macros and includes. -/
def Special (w : Str) : Prop := ∃ c, w.head? = some c ∧ c ∈ str "([%~" ∨ w = str "]"

theorem special_name {w : Str} (h : Special w) : ¬ IsName w := by
  intro hn
  rcases h with ⟨c, ⟨h, hc⟩ | rfl⟩
  · apply hn.1 c h
    revert hc; clear h; revert c; decide +kernel
  · exact hn.1 (ch ']') rfl (by decide)

theorem special_word {w : Str} (h : Special w) (s s' : State) : ¬ Word w s s' := by
  intro hw
  cases w with
  | nil => exact hw.elim
  | cons rune rest =>
    have hn := special_name h
    have key : (rune ∈ str "([%~") ∨ (rune = ch ']' ∧ rest = []) := by
      rcases h with ⟨c, ⟨h, hc⟩ | h⟩
      · left; simpa [show c = rune by simpa using h.symm] using hc
      · right; cases h; exact ⟨rfl, rfl⟩
    have bare : Bare (rune :: rest) s s' → False := by
      rintro (⟨v, k, hl, -⟩ | ⟨-, i, op, hm, -, -⟩ | ⟨hn', -⟩)
      · have := (numberHead rune ?_)
        · rcases key with hk | ⟨rfl, -⟩
          · revert this hk; clear * -; revert rune; decide +kernel
          · exact absurd this (by decide)
        · cases hl with
          | hexByte _ _ hd => left; exact (isHex_iff rune).2 (hd rune (by simp))
          | hexShort _ _ hd => left; exact (isHex_iff rune).2 (hd rune (by simp))
          | decByte ds _ _ => right; rfl
          | decShort ds _ _ => right; rfl
      · have up : ∃ c r, rune :: rest = c :: r ∧ isUppercased c = true := by
          generalize rune :: rest = w at hm
          cases hm with
          | brk => exact ⟨_, _, rfl, rfl⟩
          | lit fl => exact ⟨_, _, rfl, rfl⟩
          | op o fl => cases o <;> exact ⟨_, _, rfl, rfl⟩
        obtain ⟨c, r, e, hu⟩ := up
        cases e
        rcases key with hk | ⟨rfl, -⟩
        · revert hu hk; clear * -; revert rune; decide +kernel
        · cases hu
      · exact hn hn'
    unfold Word at hw
    dsimp only at hw
    rcases key with hk | ⟨rfl, rfl⟩
    · have : rune = ch '(' ∨ rune = ch '[' ∨ rune = ch '%' ∨ rune = ch '~' := by
        revert hk; clear * -; revert rune; decide +kernel
      rcases this with rfl | rfl | rfl | rfl
      all_goals
        rw [if_neg (by decide), if_neg (by decide), if_neg (by decide), if_neg (by decide), if_neg (by simp [str, ch]), if_neg (by decide), if_neg (by decide),
          if_neg (by simp [str, ch]), if_neg (by simp [str, ch])] at hw
        exact bare hw
    · rw [if_neg (by decide), if_neg (by decide), if_neg (by decide), if_neg (by decide), if_neg (by decide), if_neg (by decide), if_neg (by decide),
          if_neg (by decide), if_neg (by decide)] at hw
      exact bare hw

theorem special_comment {w : Str} (h : IsComment w) : Special w := ⟨_, .inl ⟨h, by decide⟩⟩
theorem special_mark {w : Str} (h : IsMark w) : Special w := by
  rcases h with h | h
  · exact ⟨_, .inl ⟨h, by decide⟩⟩
  · exact ⟨0, .inr h⟩
theorem special_macro {w n : Str} (h : w = ch '%' :: n) : Special w := ⟨ch '%', .inl ⟨by rw [h]; rfl, by decide⟩⟩
theorem special_include {w n : Str} (h : w = ch '~' :: n) : Special w := ⟨ch '~', .inl ⟨by rw [h]; rfl, by decide⟩⟩

theorem comment_mark {w : Str} (h : IsComment w) : ¬ IsMark w := by
  rintro (h' | rfl)
  · rw [h] at h'; exact absurd h' (by decide)
  · exact absurd h (by unfold IsComment; decide)

theorem comment_cons {w n : Str} {c : Byte} (h : IsComment w) (hc : c ≠ ch '(') : w ≠ c :: n := by
  rintro rfl
  exact hc (by simpa [IsComment] using h)

theorem mark_cons {w n : Str} {c : Byte} (h : IsMark w) (hc : c ≠ ch '[') (hc' : c ≠ ch ']') : w ≠ c :: n := by
  rintro rfl
  rcases h with h | h
  · exact hc (by simpa using h)
  · exact hc' (by cases h; rfl)

theorem opens_unique {ws a b : List Str} (h : Opens ws a) (h' : Opens ws b) : a = b := by
  induction h with
  | brace =>
    generalize hw : str "{" = w at h'
    cases h' with
    | brace => rfl
    | mark hm => subst hw; exact absurd rfl (mark_cons hm (c := ch '{') (n := []) (by decide) (by decide))
    | comment hm => subst hw; exact absurd rfl (comment_cons hm (c := ch '{') (n := []) (by decide))
  | mark hm _ ih =>
    cases h' with
    | brace => exact absurd rfl (mark_cons hm (c := ch '{') (n := []) (by decide) (by decide))
    | mark _ h' => exact ih h'
    | comment hm' => exact absurd hm (comment_mark hm')
  | comment hm hc _ ih =>
    cases h' with
    | brace => exact absurd rfl (comment_cons hm (c := ch '{') (n := []) (by decide))
    | mark hm' => exact absurd hm' (comment_mark hm)
    | comment _ hc' h' => rw [hc] at hc'; cases hc'; exact ih h'

theorem words_unique {files : Files} {name : Str} {a b : List Str} (h : Words files name a) (h' : Words files name b) : a = b := by
  obtain ⟨r, l, e, t, rfl⟩ := h
  obtain ⟨r', l', e', t', rfl⟩ := h'
  rw [e] at e'
  have : r = r' := by
    have := Option.some.inj e'
    exact (List.map_injective_iff.2 (fun _ _ h => Option.some.inj h)) this
  subst this
  rw [(C34_unique t t').1]

theorem reads_unique {files : Files} {ws : List Str} {s a b : State} (h : Reads files ws s a) (h' : Reads files ws s b) : a = b := by
  induction h generalizing b with
  | done => cases h'; rfl
  | comment hm hc _ ih =>
    cases h' with
    | comment _ hc' h' => rw [hc] at hc'; cases hc'; exact ih h'
    | mark hm' => exact absurd hm' (comment_mark hm)
    | define e => exact absurd e (comment_cons hm (by decide))
    | expand hn => exact absurd hn (special_name (special_comment hm))
    | apply hn => exact absurd hn (special_name (special_comment hm))
    | «include» e => exact absurd e (comment_cons hm (by decide))
    | again e => exact absurd e (comment_cons hm (by decide))
    | defer e => exact absurd e (comment_cons hm (by decide))
    | word _ hw => exact absurd hw (special_word (special_comment hm) _ _)
  | mark hm _ ih =>
    cases h' with
    | comment hm' => exact absurd hm (comment_mark hm')
    | mark _ h' => exact ih h'
    | define e => exact absurd e (mark_cons hm (by decide) (by decide))
    | expand hn => exact absurd hn (special_name (special_mark hm))
    | apply hn => exact absurd hn (special_name (special_mark hm))
    | «include» e => exact absurd e (mark_cons hm (by decide) (by decide))
    | again e => exact absurd e (mark_cons hm (by decide) (by decide))
    | defer e => exact absurd e (mark_cons hm (by decide) (by decide))
    | word _ hw => exact absurd hw (special_word (special_mark hm) _ _)
  | define e _ _ ho hb _ ih =>
    cases h' with
    | comment hm' => exact absurd e (comment_cons hm' (by decide))
    | mark hm' => exact absurd e (mark_cons hm' (by decide) (by decide))
    | define e' _ _ ho' hb' h' =>
      rw [e] at e'; cases e'
      cases opens_unique ho ho'
      rw [hb] at hb'; cases hb'
      exact ih h'
    | expand hn => exact absurd hn (special_name (special_macro e))
    | apply hn => exact absurd hn (special_name (special_macro e))
    | «include» e' => rw [e] at e'; exact absurd (List.cons.inj e').1 (by decide)
    | again e' => rw [e] at e'; exact absurd (List.cons.inj e').1 (by decide)
    | defer e' => rw [e] at e'; exact absurd (List.cons.inj e').1 (by decide)
    | word _ hw => exact absurd hw (special_word (special_macro e) _ _)
  | expand hn hl hc _ _ ih1 ih2 =>
    cases h' with
    | comment hm' => exact absurd hn (special_name (special_comment hm'))
    | mark hm' => exact absurd hn (special_name (special_mark hm'))
    | define e' => exact absurd hn (special_name (special_macro e'))
    | expand _ hl' _ h1 h2 => rw [hl] at hl'; cases hl'; cases ih1 h1; exact ih2 h2
    | apply _ _ hc' => exact absurd hc' hc
    | «include» e' => exact absurd hn (special_name (special_include e'))
    | again e' => exact absurd hn (special_name (special_include e'))
    | defer e' => exact absurd hn (special_name (special_include e'))
    | word hl' => rw [hl' hn] at hl; cases hl
  | apply hn hl hc _ _ ih1 ih2 =>
    cases h' with
    | comment hm' => exact absurd hn (special_name (special_comment hm'))
    | mark hm' => exact absurd hn (special_name (special_mark hm'))
    | define e' => exact absurd hn (special_name (special_macro e'))
    | expand _ _ hc' => exact absurd hc hc'
    | apply _ hl' _ h1 h2 => rw [hl] at hl'; cases hl'; cases ih1 h1; exact ih2 h2
    | «include» e' => exact absurd hn (special_name (special_include e'))
    | again e' => exact absurd hn (special_name (special_include e'))
    | defer e' => exact absurd hn (special_name (special_include e'))
    | word hl' => rw [hl' hn] at hl; cases hl
  | «include» e ht hi hw _ _ ih1 ih2 =>
    cases h' with
    | comment hm' => exact absurd e (comment_cons hm' (by decide))
    | mark hm' => exact absurd e (mark_cons hm' (by decide) (by decide))
    | define e' => rw [e] at e'; exact absurd (List.cons.inj e').1 (by decide)
    | expand hn => exact absurd hn (special_name (special_include e))
    | apply hn => exact absurd hn (special_name (special_include e))
    | «include» e' _ _ hw' h1 h2 =>
      rw [e] at e'; cases e'
      cases words_unique hw hw'
      cases ih1 h1
      exact ih2 h2
    | again e' _ hi' => rw [e] at e'; cases e'; exact absurd hi' hi
    | defer e' => rw [e] at e'; cases e'; exact absurd rfl ht
    | word _ hw => exact absurd hw (special_word (special_include e) _ _)
  | again e ht hi _ ih =>
    cases h' with
    | comment hm' => exact absurd e (comment_cons hm' (by decide))
    | mark hm' => exact absurd e (mark_cons hm' (by decide) (by decide))
    | define e' => rw [e] at e'; exact absurd (List.cons.inj e').1 (by decide)
    | expand hn => exact absurd hn (special_name (special_include e))
    | apply hn => exact absurd hn (special_name (special_include e))
    | «include» e' _ hi' => rw [e] at e'; cases e'; exact absurd hi hi'
    | again e' _ _ h' => exact ih h'
    | defer e' => rw [e] at e'; cases e'; exact absurd rfl ht
    | word _ hw => exact absurd hw (special_word (special_include e) _ _)
  | defer e _ ih =>
    cases h' with
    | comment hm' => exact absurd e (comment_cons hm' (by decide))
    | mark hm' => exact absurd e (mark_cons hm' (by decide) (by decide))
    | define e' => rw [e] at e'; exact absurd (List.cons.inj e').1 (by decide)
    | expand hn => exact absurd hn (special_name (special_include e))
    | apply hn => exact absurd hn (special_name (special_include e))
    | «include» e' ht => rw [e] at e'; cases e'; exact absurd rfl ht
    | again e' ht => rw [e] at e'; cases e'; exact absurd rfl ht
    | defer e' h' => rw [e] at e'; cases e'; exact ih h'
    | word _ hw => exact absurd hw (special_word (special_include e) _ _)
  | word hl hw _ ih =>
    cases h' with
    | comment hm' => exact absurd hw (special_word (special_comment hm') _ _)
    | mark hm' => exact absurd hw (special_word (special_mark hm') _ _)
    | define e' => exact absurd hw (special_word (special_macro e') _ _)
    | expand hn hl' => rw [hl hn] at hl'; cases hl'
    | apply hn hl' => rw [hl hn] at hl'; cases hl'
    | «include» e' => exact absurd hw (special_word (special_include e') _ _)
    | again e' => exact absurd hw (special_word (special_include e') _ _)
    | defer e' => exact absurd hw (special_word (special_include e') _ _)
    | word _ hw' h' => cases word_unique hw hw'; exact ih h'

theorem ends_unique {files : Files} {s a b : State} (h : Ends files s a) (h' : Ends files s b) : a = b := by
  induction h with
  | done e =>
    cases h' with
    | done => rfl
    | «include» e' => rw [e] at e'; cases e'
    | again e' => rw [e] at e'; cases e'
  | «include» e hi hw h1 _ ih =>
    cases h' with
    | done e' => rw [e] at e'; cases e'
    | «include» e' _ hw' h1' h2' =>
      rw [e] at e'; cases e'
      cases words_unique hw hw'
      cases reads_unique h1 h1'
      exact ih h2'
    | again e' hi' => rw [e] at e'; cases e'; exact absurd hi' hi
  | again e hi _ ih =>
    cases h' with
    | done e' => rw [e] at e'; cases e'
    | «include» e' hi' => rw [e] at e'; cases e'; exact absurd hi hi'
    | again e' _ h' => rw [e] at e'; cases e'; exact ih h'

/-- **C78.** A source has at most one meaning. -/
theorem C78_one_meaning {files : Files} {main : Str} {s s' : State} (h : Program files main s) (h' : Program files main s') : s = s' := by
  obtain ⟨ws, s1, hw, hr, he⟩ := h
  obtain ⟨ws', s1', hw', hr', he'⟩ := h'
  cases words_unique hw hw'
  cases reads_unique hr hr'
  exact ends_unique he he'

/-- **C78.** and with it at most one memory image. -/
theorem C78_one_image {s : State} {m m' : Short → Byte} (h : Holds s m) (h' : Holds s m') : m = m' := by
  funext a
  by_cases ha : a ∈ s.places
  · rcases List.mem_append.1 ha with ha | ha
    · obtain ⟨p, hp, rfl⟩ := List.mem_map.1 ha
      rw [h.bytes p hp, h'.bytes p hp]
    · obtain ⟨r, hr, hc⟩ := List.mem_flatMap.1 ha
      obtain ⟨l, e, -, hh⟩ := h.refs r hr
      obtain ⟨l', e', -, hh'⟩ := h'.refs r hr
      rw [e] at e'; cases e'
      unfold Reference.cells at hc
      unfold HoldsNumber at hh hh'
      cases hz : r.size with
      | byte =>
        rw [hz] at hc hh hh'
        rw [List.mem_singleton] at hc
        subst hc
        exact hh.trans hh'.symm
      | short =>
        rw [hz] at hc hh hh'
        simp only [List.mem_cons, List.not_mem_nil, or_false] at hc
        rcases hc with rfl | rfl
        · exact hh.2.trans hh'.2.symm
        · exact hh.1.trans hh'.1.symm
  · rw [h.rest a ha, h'.rest a ha]

end Buxn.Asm.Meaning
