import Verif.Asm.LineEndings
/-!
# C39: reading makes progress
-/

namespace Buxn.Asm
open Buxn.VM Spec

/-- A character waits in the buffer. -/
def waiting (s : Asm) : Nat :=
  match s.readBuf with
  | some (.char _) | some .ioError => 1
  | _ => 0

/-- What a file can still give. -/
def left (u : FileUnit) (s : Asm) : Nat := 2 * u.stream.length + waiting s

theorem Calm.waiting {s s' : Asm} (h : Calm s s') : waiting s' = waiting s := by unfold Asm.waiting; rw [h.readBuf]

theorem fgetc_left (st : Stream) : (fgetc st).2.length ≤ st.length ∧ ((fgetc st).1 ≠ .eof → (fgetc st).2.length + 1 ≤ st.length) := by
  rcases st with _ | ⟨_ | b, st⟩
  · exact ⟨Nat.le_refl _, fun h => absurd rfl h⟩
  · exact ⟨Nat.le_succ _, fun _ => Nat.le_refl _⟩
  · exact ⟨Nat.le_succ _, fun _ => Nat.le_refl _⟩

/-- Everything but reports and the buffer is the same. -/
structure ReadOnly (s s' : Asm) : Prop where
  depth : s'.depth = s.depth
  includes : s'.includes = s.includes
  deferred : s'.deferred = s.deferred
  symtab : s'.symtab = s.symtab
  files : fileEvents s'.log = fileEvents s.log

theorem ReadOnly.refl (s : Asm) : ReadOnly s s := ⟨rfl, rfl, rfl, rfl, rfl⟩

theorem ReadOnly.trans {a b c : Asm} (h : ReadOnly a b) (h' : ReadOnly b c) : ReadOnly a c :=
  ⟨h'.1.trans h.1, h'.2.trans h.2, h'.3.trans h.3, h'.4.trans h.4, h'.5.trans h.5⟩

theorem peekChar_left (u : FileUnit) (s : Asm) :
    left (peekChar u s).2.1 (peekChar u s).2.2 ≤ left u s ∧ ReadOnly s (peekChar u s).2.2 ∧
    (peekChar u s).2.1.stream.length ≤ u.stream.length ∧
    ((peekChar u s).1 ≠ .eof → waiting (peekChar u s).2.2 = 1) ∧
    ((peekChar u s).1 = .eof → waiting (peekChar u s).2.2 = 0) ∧
    ((peekChar u s).1 ≠ .eof → s.readBuf = none → (peekChar u s).2.1.stream.length + 1 ≤ u.stream.length) ∧
    (s.readBuf = none → (peekChar u s).1 ≠ .ioError) := by
  unfold peekChar
  cases hb : s.readBuf with
  | some c =>
    dsimp only
    refine ⟨Nat.le_refl _, .refl s, Nat.le_refl _, ?_, ?_, (fun _ h => by cases h), (fun h => by cases h)⟩
    · intro h
      unfold waiting
      rw [hb]
      cases c with
      | eof => exact absurd rfl h
      | _ => rfl
    · intro h
      unfold waiting
      rw [hb, h]
  | none =>
    dsimp only
    have hf := fgetc_left u.stream
    generalize fgetc u.stream = p at hf
    obtain ⟨c, st⟩ := p
    dsimp only at hf ⊢
    have hw : waiting s = 0 := by unfold waiting; rw [hb]
    cases c with
    | eof =>
      rw [if_neg (by simp)]
      refine ⟨?_, ⟨rfl, rfl, rfl, rfl, rfl⟩, hf.1, fun h => absurd rfl h, fun _ => rfl, fun h _ => absurd rfl h, (fun _ h => by cases h)⟩
      unfold left waiting
      dsimp only
      omega
    | ioError =>
      rw [if_pos rfl]
      refine ⟨?_, ⟨rfl, rfl, rfl, rfl, rfl⟩, hf.1, fun _ => rfl, (fun h => by cases h), fun _ _ => hf.2 (by simp), (fun _ h => by cases h)⟩
      have := hf.2 (by simp)
      show 2 * st.length + 1 ≤ left u s
      unfold left
      omega
    | char b =>
      rw [if_neg (by simp)]
      refine ⟨?_, ⟨rfl, rfl, rfl, rfl, rfl⟩, hf.1, fun _ => rfl, (fun h => by cases h), fun _ _ => hf.2 (by simp), (fun _ h => by cases h)⟩
      have := hf.2 (by simp)
      show 2 * st.length + 1 ≤ left u s
      unfold left
      omega

/-- Reading a character. -/
theorem getChar_left (u : FileUnit) (s : Asm) :
    left (getChar u s).2.1 (getChar u s).2.2 ≤ left u s ∧ ReadOnly s (getChar u s).2.2 ∧
    ((getChar u s).1 ≠ .eof → left (getChar u s).2.1 (getChar u s).2.2 < left u s) ∧
    ((getChar u s).1 = .eof → waiting (getChar u s).2.2 = 0) ∧
    ((getChar u s).1 = .ioError → waiting (getChar u s).2.2 = 0) := by
  unfold getChar
  obtain ⟨h1, h2, h3, h4, h5, h6, -⟩ := peekChar_left u s
  generalize peekChar u s = p at *
  obtain ⟨c, u1, s1⟩ := p
  dsimp only at h1 h2 h3 h4 h5 h6 ⊢
  have hw : waiting (consumeChar s1) = 0 := rfl
  have hro : ReadOnly s (consumeChar s1) := ⟨h2.1, h2.2, h2.3, h2.4, h2.5⟩
  have hl : 2 * u1.stream.length ≤ left u s := by unfold left at h1 ⊢; omega
  have hl' : c ≠ .eof → 2 * u1.stream.length < left u s := fun h => by have := h4 h; unfold left at h1 ⊢; omega
  split
  · rename_i hc
    refine ⟨?_, hro, fun hne => ?_, fun _ => rfl, fun _ => rfl⟩
    · unfold left; dsimp only; rw [hw]; exact hl
    · unfold left; dsimp only; rw [hw]; exact hl' hne
  · rename_i hc
    have hne : c ≠ .eof := fun h => hc (.inr h)
    have hnio : c ≠ .ioError := fun h => hc (.inl h)
    split
    · refine ⟨?_, hro, fun _ => ?_, fun h => absurd h hne, fun h => absurd h hnio⟩
      · unfold left; dsimp only; rw [hw]; exact hl
      · unfold left; dsimp only; rw [hw]; exact hl' hne
    · split
      · obtain ⟨g1, g2, g3, g4, g5, g6, g7⟩ := peekChar_left { u1 with pos := { u1.pos with byte := u1.pos.byte + 1, col := u1.pos.col + 1 } } (consumeChar s1)
        generalize peekChar { u1 with pos := { u1.pos with byte := u1.pos.byte + 1, col := u1.pos.col + 1 } } (consumeChar s1) = q at *
        obtain ⟨c2, u2, s2⟩ := q
        dsimp only at g1 g2 g3 g4 g5 g6 g7 ⊢
        have hlt := hl' hne
        by_cases hlf : c2 = .char (ch '\n')
        · rw [if_pos hlf]
          have hk : waiting (consumeChar s2) = 0 := rfl
          refine ⟨?_, hro.trans ⟨g2.1, g2.2, g2.3, g2.4, g2.5⟩, fun _ => ?_, fun _ => rfl, fun _ => rfl⟩
          · show 2 * u2.stream.length + waiting (consumeChar s2) ≤ left u s
            omega
          · show 2 * u2.stream.length + waiting (consumeChar s2) < left u s
            omega
        · rw [if_neg hlf]
          have hlen : 2 * u2.stream.length + waiting s2 < left u s := by
            by_cases he : c2 = .eof
            · rw [g5 he]; omega
            · rw [g4 he]
              have := g6 he rfl
              omega
          refine ⟨?_, hro.trans g2, fun _ => ?_, g5, ?_⟩
          · exact Nat.le_of_lt hlen
          · exact hlen
          · intro he
            exact absurd he (g7 rfl)
      · refine ⟨?_, hro, fun _ => ?_, fun h => absurd h hne, fun h => absurd h hnio⟩
        · unfold left; dsimp only; rw [hw]; exact hl
        · unfold left; dsimp only; rw [hw]; exact hl' hne

/-- The effect of reading a token. -/
structure Read (u : FileUnit) (s : Asm) (r : Option Token × FileUnit × Asm) : Prop where
  le : left r.2.1 r.2.2 ≤ left u s
  ro : ReadOnly s r.2.2
  stop : r.1 = none → waiting r.2.2 = 0 ∨ r.2.2.success = false
  len : ∀ t, r.1 = some t → t.lex.length ≤ MAX_LONG_STRING_LEN

theorem Read.after {u u1 : FileUnit} {s s1 : Asm} {r : Option Token × FileUnit × Asm} (h : Read u1 s1 r) (hl : left u1 s1 ≤ left u s) (hro : ReadOnly s s1) :
    Read u s r := ⟨h.le.trans hl, hro.trans h.ro, h.stop, h.len⟩

theorem error_read (m : String) (g : Region) (u : FileUnit) (s : Asm) : Read u s (none, u, (error m g s).2) :=
  ⟨Nat.le_refl _, ⟨rfl, rfl, rfl, rfl, rfl⟩, fun _ => .inr rfl, fun _ h => by cases h⟩

theorem scanRegular_read (start : Pos) (n : Nat) (acc : Str) (c : Byte) (stop : Pos) (u : FileUnit) (s : Asm) (hn : acc.length + n ≤ MAX_LONG_STRING_LEN) :
    Read u s (scanRegular start n acc c stop u s) := by
  induction n generalizing acc c stop u s with
  | zero => exact error_read _ _ _ _
  | succ n ih =>
    unfold scanRegular
    obtain ⟨h1, h2, h3, h4, h5⟩ := getChar_left u s
    dsimp only
    generalize getChar u s = p at *
    obtain ⟨d, u1, s1⟩ := p
    dsimp only at h1 h2 h3 h4 h5 ⊢
    have hlen : ∀ g, ∀ t, some (⟨(c :: acc).reverse, g⟩ : Token) = some t → t.lex.length ≤ MAX_LONG_STRING_LEN := by
      intro g t ht
      rw [← Option.some.inj ht, List.length_reverse, List.length_cons]
      omega
    cases d with
    | ioError => exact ⟨h1, h2, fun _ => .inl (h5 rfl), fun _ h => by cases h⟩
    | eof => exact ⟨h1, h2, (fun h => by cases h), hlen _⟩
    | char b =>
      dsimp only
      by_cases hb : isSep b = true
      · rw [if_pos hb]
        exact ⟨h1, h2, (fun h => by cases h), hlen _⟩
      · rw [if_neg hb]
        refine (ih (c :: acc) b u.pos u1 s1 ?_).after h1 h2
        rw [List.length_cons]
        omega

theorem scanLong_read (start : Pos) (n : Nat) (acc : Str) (u : FileUnit) (s : Asm) (hn : acc.length + n ≤ MAX_LONG_STRING_LEN) :
    Read u s (scanLong start n acc u s) := by
  induction n generalizing acc u s with
  | zero =>
    unfold scanLong
    obtain ⟨h1, h2, h3, h4, h5⟩ := getChar_left u s
    dsimp only
    generalize getChar u s = p at *
    obtain ⟨d, u1, s1⟩ := p
    dsimp only at h1 h2 h3 h4 h5 ⊢
    cases d with
    | ioError => exact ⟨h1, h2, fun _ => .inl (h5 rfl), fun _ h => by cases h⟩
    | eof => exact (error_read _ _ _ _).after h1 h2
    | char b =>
      dsimp only
      split
      · refine ⟨h1, h2, (fun h => by cases h), fun t ht => ?_⟩
        rw [← Option.some.inj ht]
        dsimp only
        rw [List.length_reverse]
        omega
      · exact (error_read _ _ _ _).after h1 h2
  | succ n ih =>
    unfold scanLong
    obtain ⟨h1, h2, h3, h4, h5⟩ := getChar_left u s
    dsimp only
    generalize getChar u s = p at *
    obtain ⟨d, u1, s1⟩ := p
    dsimp only at h1 h2 h3 h4 h5 ⊢
    cases d with
    | ioError => exact ⟨h1, h2, fun _ => .inl (h5 rfl), fun _ h => by cases h⟩
    | eof => exact (error_read _ _ _ _).after h1 h2
    | char b =>
      dsimp only
      split
      · refine ⟨h1, h2, (fun h => by cases h), fun t ht => ?_⟩
        rw [← Option.some.inj ht]
        dsimp only
        rw [List.length_reverse]
        omega
      · refine (ih (b :: acc) u1 s1 ?_).after h1 h2
        rw [List.length_cons]
        omega

theorem nextInFileLoop_read (n : Nat) (u : FileUnit) (s : Asm) (hn : left u s < n) :
    Read u s (nextInFileLoop n u s) ∧ ((nextInFileLoop n u s).1 ≠ none → left (nextInFileLoop n u s).2.1 (nextInFileLoop n u s).2.2 < left u s) := by
  induction n generalizing u s with
  | zero => exact absurd hn (Nat.not_lt_zero _)
  | succ n ih =>
    unfold nextInFileLoop
    obtain ⟨h1, h2, h3, h4, h5⟩ := getChar_left u s
    dsimp only
    generalize hp : getChar u s = p at *
    obtain ⟨d, u1, s1⟩ := p
    dsimp only at h1 h2 h3 h4 h5 ⊢
    cases d with
    | ioError => exact ⟨⟨h1, h2, fun _ => .inl (h5 rfl), fun _ h => by cases h⟩, fun h => absurd rfl h⟩
    | eof => exact ⟨⟨h1, h2, fun _ => .inl (h4 rfl), fun _ h => by cases h⟩, fun h => absurd rfl h⟩
    | char b =>
      dsimp only
      have hlt : left u1 s1 < left u s := h3 (by simp)
      split
      · obtain ⟨g1, g2⟩ := ih u1 s1 (by omega)
        exact ⟨g1.after h1 h2, fun h => Nat.lt_trans (g2 h) hlt⟩
      · have hreg : ∀ u2 s2, left u2 s2 ≤ left u1 s1 → ReadOnly s1 s2 →
            Read u s (scanRegular u.pos MAX_TOKEN_LEN [] b u.pos u2 s2) ∧
            ((scanRegular u.pos MAX_TOKEN_LEN [] b u.pos u2 s2).1 ≠ none →
              left (scanRegular u.pos MAX_TOKEN_LEN [] b u.pos u2 s2).2.1 (scanRegular u.pos MAX_TOKEN_LEN [] b u.pos u2 s2).2.2 < left u s) := by
          intro u2 s2 hl hro
          have hr := scanRegular_read u.pos MAX_TOKEN_LEN [] b u.pos u2 s2 (by decide)
          exact ⟨hr.after (hl.trans h1) (h2.trans hro), fun _ => Nat.lt_of_le_of_lt (hr.le.trans hl) hlt⟩
        split
        · obtain ⟨k1, k2, -⟩ := peekChar_left u1 s1
          generalize peekChar u1 s1 = q at *
          obtain ⟨e, u2, s2⟩ := q
          dsimp only at k1 k2 ⊢
          split
          · obtain ⟨l1, l2, -⟩ := getChar_left u2 s2
            generalize getChar u2 s2 = r at *
            obtain ⟨f, u3, s3⟩ := r
            dsimp only at l1 l2 ⊢
            have hr := scanLong_read u.pos (MAX_LONG_STRING_LEN - 1) [ch '"'] u3 s3 (by decide)
            exact ⟨hr.after (l1.trans (k1.trans h1)) (h2.trans (k2.trans l2)), fun _ => Nat.lt_of_le_of_lt (hr.le.trans (l1.trans k1)) hlt⟩
          · exact hreg u2 s2 k1 k2
        · exact hreg u1 s1 (Nat.le_refl _) (.refl s1)

theorem left_fuel (u : FileUnit) (s : Asm) : left u s < 2 * u.stream.length + 2 := by
  have : waiting s ≤ 1 := by
    unfold waiting
    split <;> omega
  unfold left
  omega

theorem nextInFile_read (u : FileUnit) (s : Asm) :
    Read u s (nextInFile u s) ∧ ((nextInFile u s).1 ≠ none → left (nextInFile u s).2.1 (nextInFile u s).2.2 < left u s) :=
  nextInFileLoop_read _ _ _ (left_fuel u s)

/-- The loop over separators is never cut short: more fuel changes nothing. -/
theorem nextInFileLoop_fuel (n m : Nat) (u : FileUnit) (s : Asm) (hn : left u s < n) (hm : left u s < m) : nextInFileLoop n u s = nextInFileLoop m u s := by
  induction n generalizing u s m with
  | zero => exact absurd hn (Nat.not_lt_zero _)
  | succ n ih =>
    obtain _ | m := m
    · exact absurd hm (Nat.not_lt_zero _)
    unfold nextInFileLoop
    obtain ⟨-, -, h3, -⟩ := getChar_left u s
    dsimp only
    generalize getChar u s = p at *
    obtain ⟨d, u1, s1⟩ := p
    dsimp only at h3 ⊢
    cases d with
    | ioError => rfl
    | eof => rfl
    | char b =>
      dsimp only
      have hlt : left u1 s1 < left u s := h3 (by simp)
      rw [ih m u1 s1 (by omega) (by omega)]

end Buxn.Asm
