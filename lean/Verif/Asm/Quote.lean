import Verif.Asm.Places
/-!
# C60: the line that a message quotes

`buxn-asm` prints, below a message, the line of the source that the message is about, and marks the words in it.
-/

namespace Buxn.Asm
open Buxn.VM Spec

namespace Quote

/-- The loop of `src/asm.c:181-193`: the offset from which the line is read. Reading at the end of the file leaves `ch` zero. -/
def seek (raw : Str) : Nat → Nat
  | 0 => 0
  | i + 1 => if raw[i + 1]? = some CR ∨ raw[i + 1]? = some LF then i + 2 else seek raw i

/-- The line that is printed, `src/asm.c:198-206`. -/
def readLine (raw : Str) (start : Nat) : Str := (raw.drop (seek raw start)).takeWhile fun c => c ≠ CR ∧ c ≠ LF

/-- `utf8proc`: the length of the first character (negative if there is none) and the character, and the width of a character. -/
structure Utf8 where
  iterate : Str → Int × Nat
  width : Nat → Nat

variable (lib : Utf8)

/-- The loop of `src/asm.c:213-229`: what is printed, and the offset at which it ends. The first argument bounds the steps. -/
def pad (line : Str) (col : Nat) : Nat → Nat → Str × Nat
  | 0, offset => ([], offset)
  | fuel + 1, offset =>
    let (n, cp) := lib.iterate (line.drop offset)
    if n < 0 then ([], offset)
    else if (offset : Int) + n ≥ col then ([], offset)
    else
      let offset := offset + n.toNat
      if offset ≥ line.length then ([], offset)
      else
        let r := pad line col fuel offset
        ((if cp = 9 then [ch '\t'] else List.replicate (lib.width cp) (ch ' ')) ++ r.1, r.2)

/-- The loop of `src/asm.c:244-255`. -/
def tildes (line : Str) (stop : Nat) : Nat → Int → Str
  | 0, _ => []
  | fuel + 1, offset =>
    if offset < stop ∧ offset < line.length then
      let (n, cp) := lib.iterate (line.drop offset.toNat)
      let offset := offset + n
      if n < 0 then []
      else if offset ≥ stop then []
      else List.replicate (lib.width cp) (ch '~') ++ tildes line stop fuel offset
    else []

/-- `src/asm.c:208-257`: the second line. -/
def marks (line : Str) (col stop : Nat) : Str :=
  let p := pad lib line col (line.length + 1) 0
  let (n, cp) := lib.iterate (line.drop p.2)
  p.1 ++ [ch '^'] ++ List.replicate (lib.width cp - 1) (ch '~') ++ tildes lib line stop (line.length + 1) (p.2 + n)

end Quote

namespace Spec

/-- `line` is line number `n` of the text. -/
def IsLine (raw : Str) (n : Nat) (line : Str) : Prop :=
  ∃ u v, raw = u ++ line ++ v ∧ LF ∉ line ∧ (u = [] ∨ u.getLast? = some LF) ∧ (v = [] ∨ v.head? = some LF) ∧ n = 1 + u.count LF

/-- A text as characters, which the library recognises in front of anything. -/
def Chars (lib : Quote.Utf8) (cs : List (Str × Nat)) : Prop :=
  ∀ c ∈ cs, c.1 ≠ [] ∧ ∀ rest, lib.iterate (c.1 ++ rest) = ((c.1.length : Int), c.2)

/-- The text of characters. -/
def textOf (cs : List (Str × Nat)) : Str := (cs.map (·.1)).flatten

/-- What stands above or below a character, to be as wide: a tab, or spaces. -/
def blank (lib : Quote.Utf8) (c : Str × Nat) : Str := if c.2 = 9 then [ch '\t'] else List.replicate (lib.width c.2) (ch ' ')

/-- How wide characters are. -/
def widthOf (lib : Quote.Utf8) (cs : List (Str × Nat)) : Nat := (cs.map fun c => lib.width c.2).sum

end Spec

namespace Quote

theorem seek_end (raw : Str) (i : Nat) (h : ∀ j, 0 < j → j ≤ i → raw[j]? ≠ some CR ∧ raw[j]? ≠ some LF) : seek raw i = 0 := by
  induction i with
  | zero => rfl
  | succ i ih =>
    have := h (i + 1) (by omega) (Nat.le_refl _)
    rw [seek, if_neg (by simp [this.1, this.2])]
    exact ih fun j h1 h2 => h j h1 (by omega)

theorem seek_stop (raw : Str) (k i : Nat) (hk : k ≤ i) (h0 : 0 < k) (hl : raw[k]? = some LF) (h : ∀ j, k < j → j ≤ i → raw[j]? ≠ some CR ∧ raw[j]? ≠ some LF) :
    seek raw i = k + 1 := by
  induction i with
  | zero => omega
  | succ i ih =>
    rcases Nat.lt_or_ge i k with hlt | hge
    · have : k = i + 1 := by omega
      subst this
      rw [seek, if_pos (.inr hl)]
    · have := h (i + 1) (by omega) (Nat.le_refl _)
      rw [seek, if_neg (by simp [this.1, this.2])]
      exact ih hge fun j h1 h2 => h j h1 (by omega)

theorem mem_takeWhile {p : Byte → Bool} {c : Byte} {l : Str} (h : c ∈ l.takeWhile p) : p c = true := by
  induction l with
  | nil => cases h
  | cons d t ih =>
    rw [List.takeWhile_cons] at h
    split at h
    · rename_i hd
      rcases List.mem_cons.1 h with rfl | h
      · exact hd
      · exact ih h
    · cases h

theorem head_dropWhile {p : Byte → Bool} {c : Byte} {l r : Str} (h : l.dropWhile p = c :: r) : p c = false := by
  induction l with
  | nil => cases h
  | cons d t ih =>
    rw [List.dropWhile_cons] at h
    split at h
    · exact ih h
    · rename_i hd
      cases h
      exact Bool.eq_false_iff.2 hd

theorem last_of_mem {c : Byte} {l : Str} (h : c ∈ l) : ∃ a t, l = a ++ c :: t ∧ c ∉ t := by
  induction l with
  | nil => cases h
  | cons d l ih =>
    by_cases hl : c ∈ l
    · obtain ⟨a, t, e, ht⟩ := ih hl
      exact ⟨d :: a, t, by rw [e]; rfl, ht⟩
    · rcases List.mem_cons.1 h with rfl | h
      · exact ⟨[], l, rfl, hl⟩
      · exact absurd h hl

variable {lib : Utf8}

theorem textOf_cons (c : Str × Nat) (cs : List (Str × Nat)) : textOf (c :: cs) = c.1 ++ textOf cs := rfl

theorem textOf_append (cs ds : List (Str × Nat)) : textOf (cs ++ ds) = textOf cs ++ textOf ds := by
  simp [textOf]

theorem pos_length {c : Str × Nat} (h : c.1 ≠ []) : 0 < c.1.length := List.length_pos_iff.2 h

theorem pad_chars (pre : Str) (cs word after : List (Str × Nat)) (hch : Chars lib (cs ++ word ++ after)) (hw : word ≠ []) (fuel : Nat)
    (hf : (textOf cs).length < fuel) :
    pad lib (pre ++ textOf (cs ++ word ++ after)) (1 + (pre.length + (textOf cs).length)) fuel pre.length =
      ((cs.map (blank lib)).flatten, pre.length + (textOf cs).length) := by
  obtain ⟨d, ds, rfl⟩ := List.exists_cons_of_ne_nil hw
  induction cs generalizing pre fuel with
  | nil =>
    match fuel with
    | fuel + 1 =>
      have hd := hch d (by simp)
      have := pos_length hd.1
      rw [List.nil_append, List.cons_append, textOf_cons]
      unfold pad
      simp only [List.drop_left, hd.2]
      rw [if_neg (by omega), if_pos (by simp [textOf]; omega)]
      simp [textOf]
  | cons c cs ih =>
    rw [textOf_cons, List.length_append] at hf
    match fuel with
    | fuel + 1 =>
      have hc := hch c (by simp)
      have hd := hch d (by simp)
      have hcl := pos_length hc.1
      have hdl := pos_length hd.1
      have ih := ih (pre ++ c.1) fuel (by omega) (fun x hx => hch x (List.mem_cons_of_mem _ hx))
      rw [List.cons_append, List.cons_append, textOf_cons, textOf_cons]
      unfold pad
      simp only [List.drop_left, hc.2, List.length_append]
      rw [if_neg (by omega), if_neg (by omega), Int.toNat_natCast, if_neg]
      · simp only [List.length_append, List.append_assoc] at ih
        rw [show 1 + (pre.length + (c.1.length + (textOf cs).length)) = 1 + (pre.length + c.1.length + (textOf cs).length) by omega]
        simp only [List.append_assoc]
        rw [ih]
        simp [blank, Nat.add_assoc]
      · simp only [textOf_append, List.length_append, textOf_cons]
        omega

theorem tildes_chars (pre : Str) (ds after : List (Str × Nat)) (hch : Chars lib (ds ++ after)) (fuel : Nat) (hf : (textOf ds).length < fuel) :
    tildes lib (pre ++ textOf (ds ++ after)) (1 + (pre.length + (textOf ds).length)) fuel pre.length = List.replicate (widthOf lib ds) (ch '~') := by
  induction ds generalizing pre fuel with
  | nil =>
    match fuel with
    | fuel + 1 =>
      unfold tildes
      cases after with
      | nil =>
        rw [if_neg]
        · rfl
        · simp [textOf]
      | cons e after =>
        have he := hch e (by simp)
        have := pos_length he.1
        rw [List.nil_append, textOf_cons]
        simp only [Int.toNat_natCast, List.drop_left, he.2, List.length_append]
        rw [if_pos (by simp [textOf]; omega), if_neg (by omega), if_pos (by simp [textOf]; omega)]
        rfl
  | cons d ds ih =>
    rw [textOf_cons, List.length_append] at hf
    match fuel with
    | fuel + 1 =>
      have hd := hch d (by simp)
      have := pos_length hd.1
      have ih := ih (pre ++ d.1) (fun x hx => hch x (List.mem_cons_of_mem _ hx)) fuel (by omega)
      rw [List.cons_append, textOf_cons, textOf_cons]
      unfold tildes
      simp only [Int.toNat_natCast, List.drop_left, hd.2, List.length_append]
      rw [if_pos (by omega), if_neg (by omega), if_neg (by omega)]
      simp only [List.length_append, List.append_assoc, Int.natCast_add] at ih
      rw [show 1 + (pre.length + (d.1.length + (textOf ds).length)) = 1 + (pre.length + d.1.length + (textOf ds).length) by omega, ih]
      simp [widthOf, List.replicate_append_replicate]

end Quote

open Quote

/-- **C60.** In a file without CR, what is printed for a word is the line in which it is, whatever the word and the line. The exception is a word in the second
line of a file in which the first is empty. -/
theorem C60_quoted_line_partial (raw a w b : Str) (hc : CR ∉ raw) (hr : raw = a ++ w ++ b) (hw : w ≠ []) (hl : w.head? ≠ some LF)
    (hx : ¬ (raw.head? = some LF ∧ a.count LF = 1)) : IsLine raw (posAt a).line (readLine raw (posAt a).byte) := by
  have hcr : ∀ j, raw[j]? ≠ some CR := fun j h => hc (List.mem_of_getElem? h)
  have hword : raw[a.length]? ≠ some LF := by
    intro h
    apply hl
    obtain ⟨c, w', rfl⟩ := List.exists_cons_of_ne_nil hw
    rw [hr, List.append_assoc, List.getElem?_append_right (Nat.le_refl _)] at h
    simpa using h
  have hnext : ∀ t : Str, LF ∉ t → ∀ pre, a = pre ++ t → ∀ j, pre.length ≤ j → j ≤ a.length → raw[j]? ≠ some LF := by
    intro t ht pre ha j h1 h2 h
    rcases Nat.lt_or_ge j a.length with hj | hj
    · apply ht
      rw [hr, List.append_assoc, List.getElem?_append_left hj, ha, List.getElem?_append_right h1] at h
      exact List.mem_of_getElem? h
    · have : j = a.length := by omega
      subst this
      exact hword h
  have hline : ∀ u t : Str, a = u ++ t → LF ∉ t → (u = [] ∨ u.getLast? = some LF) → seek raw a.length = u.length →
      IsLine raw (posAt a).line (readLine raw (posAt a).byte) := by
    intro u t ha ht hu hs
    have hb : (posAt a).byte = a.length := rfl
    have hd : raw.drop u.length = t ++ w ++ b := by rw [hr, ha]; simp
    have hp : (fun c : Byte => decide (c ≠ CR ∧ c ≠ LF)) = fun c => decide (c ≠ CR) && decide (c ≠ LF) := by funext c; simp
    refine ⟨u, (t ++ w ++ b).dropWhile fun c => c ≠ CR ∧ c ≠ LF, ?_, ?_, hu, ?_, ?_⟩
    · rw [readLine, hb, hs, hd, List.append_assoc, List.takeWhile_append_dropWhile, hr, ha]
      simp
    · rw [readLine]
      intro h
      exact absurd (mem_takeWhile h) (by simp)
    · cases hdw : (t ++ w ++ b).dropWhile fun c => c ≠ CR ∧ c ≠ LF with
      | nil => exact .inl rfl
      | cons c r =>
        right
        have h1 := head_dropWhile hdw
        have h2 : c ≠ CR := by
          intro e
          apply hc
          have h3 : c ∈ (t ++ w ++ b).dropWhile fun c => decide (c ≠ CR ∧ c ≠ LF) := by rw [hdw]; exact List.mem_cons_self ..
          have : c ∈ t ++ w ++ b := (List.dropWhile_sublist _).subset h3
          rw [← e, hr, ha]
          simp only [List.append_assoc, List.mem_append] at this ⊢
          exact .inr this
        simp only [List.head?_cons, Option.some.injEq]
        by_contra h3
        simp [h2, h3] at h1
    · show 1 + a.count LF = 1 + u.count LF
      rw [ha, List.count_append, List.count_eq_zero.2 ht, Nat.add_zero]
  by_cases h : LF ∈ a
  · obtain ⟨a0, t, ha, ht⟩ := last_of_mem h
    have hk : raw[a0.length]? = some LF := by rw [hr, ha]; simp
    have ha' : a = (a0 ++ [LF]) ++ t := by rw [ha]; simp
    refine hline (a0 ++ [LF]) t ha' ht (.inr (by simp)) ?_
    rw [List.length_append, List.length_singleton]
    refine seek_stop raw a0.length a.length (by rw [ha]; simp) ?_ hk fun j h1 h2 => ⟨hcr j, hnext t ht _ ha' j (by simp; omega) h2⟩
    rcases a0 with _ | ⟨c, a0⟩
    · exfalso
      apply hx
      refine ⟨by rw [hr, ha]; rfl, ?_⟩
      rw [ha]
      simp [List.count_eq_zero.2 ht]
    · simp
  · refine hline [] a rfl h (.inl rfl) ?_
    exact seek_end raw a.length fun j _ h2 => ⟨hcr j, hnext a h [] rfl j (Nat.zero_le _) h2⟩

/-- **C60 fails** for a word in the second line if the first is empty: the empty line is printed. -/
theorem C60_second_line_violated : readLine (str "\nBRKK") (posAt (str "\n")).byte = [] := by decide

/-- **C60 fails** for files with CR LF, where offsets are too small: here the word `foo` of line 4, of which the message says that it is at offset 4, as in
`C57_offset_violated`. What is printed is the empty line 3. -/
theorem C60_crlf_violated : normalise (str "x\r\n\r\n\r\nfoo") = str "x\n\n\n" ++ str "foo" ∧ (posAt (str "x\n\n\n")).line = 4 ∧
    readLine (str "x\r\n\r\n\r\nfoo") (posAt (str "x\n\n\n")).byte = [] := by decide

/-- **C60.** The marks below a line: in front of the word, every character is replaced by something as wide; below the word are marks as wide as the word. -/
theorem C60_marks (lib : Utf8) (before word after : List (Str × Nat)) (hch : Chars lib (before ++ word ++ after)) (first : Str × Nat)
    (hw : word.head? = some first) (hf : 0 < lib.width first.2) :
    marks lib (textOf (before ++ word ++ after)) (1 + (textOf before).length) (1 + (textOf (before ++ word)).length) =
      (before.map (blank lib)).flatten ++ [ch '^'] ++ List.replicate (widthOf lib word - 1) (ch '~') := by
  obtain ⟨ds, rfl⟩ : ∃ ds, word = first :: ds := by
    cases word with
    | nil => cases hw
    | cons d ds => cases hw; exact ⟨ds, rfl⟩
  have hp := pad_chars (lib := lib) [] before (first :: ds) after hch (by simp) ((textOf (before ++ first :: ds ++ after)).length + 1)
    (by simp only [textOf_append, List.length_append]; omega)
  simp only [List.nil_append, List.length_nil, Nat.zero_add] at hp
  have hd := hch first (by simp)
  unfold marks
  rw [hp]
  have hdrop : (textOf (before ++ first :: ds ++ after)).drop (textOf before).length = first.1 ++ textOf (ds ++ after) := by
    simp only [List.append_assoc, List.cons_append, textOf_append, textOf_cons, List.drop_left]
  have htext : textOf (before ++ first :: ds ++ after) = (textOf before ++ first.1) ++ textOf (ds ++ after) := by
    simp only [List.append_assoc, List.cons_append, textOf_append, textOf_cons]
  simp only [hdrop, hd.2]
  have ht := tildes_chars (lib := lib) (textOf before ++ first.1) ds after (fun x hx => hch x (by simp at hx ⊢; tauto))
    ((textOf (before ++ first :: ds ++ after)).length + 1) (by simp only [textOf_append, List.length_append, textOf_cons]; omega)
  rw [← htext] at ht
  have hstop : 1 + (textOf (before ++ first :: ds)).length = 1 + ((textOf before ++ first.1).length + (textOf ds).length) := by
    simp only [textOf_append, List.length_append, textOf_cons]
    omega
  rw [hstop, show ((textOf before).length : Int) + (first.1.length : Int) = ((textOf before ++ first.1).length : Int) by simp, ht, List.append_assoc,
    List.replicate_append_replicate]
  congr 2
  simp only [widthOf, List.map_cons, List.sum_cons]
  omega

/-- A library that knows characters of one byte, all of width one. -/
def ascii : Utf8 := ⟨fun s => match s with | [] => (0, 0) | c :: _ => (1, c.toNat), fun _ => 1⟩

example : Chars ascii [(str "x", 0x78), (str "\t", 9), (str "y", 0x79)] := by
  intro c hc
  simp only [List.mem_cons, List.not_mem_nil, or_false] at hc
  rcases hc with rfl | rfl | rfl <;> exact ⟨by decide, fun _ => rfl⟩

example : marks ascii (str "a\tBRKK d") 3 7 = str " \t^~~~" := by decide +kernel

/-- The line of a word in the third line. -/
example : readLine (str "a\n\n b BRKK\nc") (posAt (str "a\n\n b ")).byte = str " b BRKK" := by decide +kernel

end Buxn.Asm
