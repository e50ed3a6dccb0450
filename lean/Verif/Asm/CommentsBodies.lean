import Verif.Asm.Comments
/-!
# C85, comments in the bodies of macros

`Verif/Asm/Comments.lean` is about comments outside the bodies of macros. Inside a body a comment is recorded with the body, and skipped each time the macro is expanded, after its
argument has been filled in. It does not change the program either, where it leaves the argument alone.
-/

namespace Buxn.Asm.Meaning
open Buxn.VM Buxn.Asm Buxn.Asm.Spec

/-! ## Specification -/

/-- A word that is neither a comment nor a bracket, and does not define a macro; with an argument in it, it is still none of that. -/
def Steady (w : Str) : Prop := ∃ c rest, w = c :: rest ∧ c ∉ str "()[]%"

/-- What is given to a macro as its argument: not a macro that needs an argument itself. -/
def Argument (w : Str) : Prop := Steady w ∧ w.getLast? ≠ some (ch ':')

/-- An argument is not filled in here, and the word is not too long. -/
def Untouched (w : Str) : Prop := ch '^' ∉ w ∧ Short? w

/-- The bodies of a macro with the same words up to comments and brackets. -/
inductive Inner : List Str → List Str → Prop
  | done : Inner [] []
  /-- a comment in the first -/
  | comment {w : Str} {c ws ws' : List Str} : IsComment w → Meaning.comment 1 c = some [] → (∀ v ∈ w :: c, Untouched v) → Inner ws ws' → Inner (w :: (c ++ ws)) ws'
  | mark {w : Str} {ws ws' : List Str} : IsMark w → Untouched w → Inner ws ws' → Inner (w :: ws) ws'
  /-- a comment in the second -/
  | comment' {w : Str} {c ws ws' : List Str} : IsComment w → Meaning.comment 1 c = some [] → (∀ v ∈ w :: c, Untouched v) → Inner ws ws' → Inner ws (w :: (c ++ ws'))
  | mark' {w : Str} {ws ws' : List Str} : IsMark w → Untouched w → Inner ws ws' → Inner ws (w :: ws')
  /-- The same word in both. After one that could be a macro with an argument comes the same word again. -/
  | word {w : Str} {ws ws' : List Str} : Steady w → (w.getLast? = some (ch ':') → ∃ arg t t', ws = arg :: t ∧ ws' = arg :: t' ∧ Argument arg) → Inner ws ws' →
      Inner (w :: ws) (w :: ws')

/-- The same words up to comments and brackets, also in the bodies of macros. -/
inductive Kin : List Str → List Str → Prop
  | done : Kin [] []
  | comment {w : Str} {ws rest ws' : List Str} : IsComment w → Meaning.comment 1 ws = some rest → Kin rest ws' → Kin (w :: ws) ws'
  | mark {w : Str} {ws ws' : List Str} : IsMark w → Kin ws ws' → Kin (w :: ws) ws'
  | comment' {w : Str} {ws rest ws' : List Str} : IsComment w → Meaning.comment 1 ws' = some rest → Kin ws rest → Kin ws (w :: ws')
  | mark' {w : Str} {ws ws' : List Str} : IsMark w → Kin ws ws' → Kin ws (w :: ws')
  | word {w : Str} {ws ws' : List Str} : Steady w → (w.getLast? = some (ch ':') → ∃ arg t t', ws = arg :: t ∧ ws' = arg :: t' ∧ Argument arg) → Kin ws ws' →
      Kin (w :: ws) (w :: ws')
  | define {w name : Str} {ws ws' r r' b b' rest rest' : List Str} : w = ch '%' :: name → Opens ws r → Opens ws' r' → body 1 r = some (b, rest) → body 1 r' = some (b', rest') →
      Inner b b' → Kin rest rest' → Kin (w :: ws) (w :: ws')

/-- Two versions of the files of a program. -/
def KinFiles (files files' : Files) : Prop :=
  (∀ name ws, Words files name ws → ∃ ws', Words files' name ws' ∧ Kin ws ws') ∧ ∀ name ws', Words files' name ws' → ∃ ws, Words files name ws ∧ Kin ws ws'

/-- The same meaning but for the comments in the bodies of macros. -/
structure SameBut (s s' : State) : Prop where
  rest : s' = { s with macros := s'.macros }
  macros : List.Forall₂ (fun p q => p.1 = q.1 ∧ Inner p.2 q.2) s.macros s'.macros

/-! ## The two versions are interchangeable -/

theorem Inner.symm {a b : List Str} (h : Inner a b) : Inner b a := by
  induction h with
  | done => exact .done
  | comment h1 h2 h3 _ ih => exact .comment' h1 h2 h3 ih
  | mark h1 h2 _ ih => exact .mark' h1 h2 ih
  | comment' h1 h2 h3 _ ih => exact .comment h1 h2 h3 ih
  | mark' h1 h2 _ ih => exact .mark h1 h2 ih
  | word h1 h2 _ ih =>
    refine .word h1 (fun h => ?_) ih
    obtain ⟨a, t, t', e1, e2, hp⟩ := h2 h
    exact ⟨a, t', t, e2, e1, hp⟩

theorem Kin.symm {a b : List Str} (h : Kin a b) : Kin b a := by
  induction h with
  | done => exact .done
  | comment h1 h2 _ ih => exact .comment' h1 h2 ih
  | mark h1 _ ih => exact .mark' h1 ih
  | comment' h1 h2 _ ih => exact .comment h1 h2 ih
  | mark' h1 _ ih => exact .mark h1 ih
  | word h1 h2 _ ih =>
    refine .word h1 (fun h => ?_) ih
    obtain ⟨a, t, t', e1, e2, hp⟩ := h2 h
    exact ⟨a, t', t, e2, e1, hp⟩
  | define h1 h2 h3 h4 h5 h6 _ ih => exact .define h1 h3 h2 h5 h4 h6.symm ih

theorem KinFiles.symm {f f' : Files} (h : KinFiles f f') : KinFiles f' f :=
  ⟨fun n ws hw => let ⟨x, h1, h2⟩ := h.2 n ws hw; ⟨x, h1, h2.symm⟩, fun n ws hw => let ⟨x, h1, h2⟩ := h.1 n ws hw; ⟨x, h1, h2.symm⟩⟩

/-! ## Words -/

theorem Steady.plain {w : Str} (h : Steady w) : Plain w := by
  obtain ⟨c, rest, rfl, hc⟩ := h
  have hc' : c ≠ ch '(' ∧ c ≠ ch '[' ∧ c ≠ ch ']' ∧ c ≠ ch '%' := by
    refine ⟨?_, ?_, ?_, ?_⟩ <;> (rintro rfl; exact hc (by decide))
  refine ⟨fun h => hc'.1 (Option.some.inj h), ?_, fun h => hc'.2.2.2 (Option.some.inj h)⟩
  rintro (h | h)
  · exact hc'.2.1 (Option.some.inj h)
  · exact hc'.2.2.1 (List.cons.inj h).1

theorem replace_cons (arg : Str) (c : Byte) (w : Str) : replace arg (c :: w) = (if c = ch '^' then arg else [c]) ++ replace arg w := rfl

theorem replace_untouched {arg w : Str} (h : ch '^' ∉ w) : replace arg w = w := by
  induction w with
  | nil => rfl
  | cons c w ih =>
    rw [List.mem_cons, not_or] at h
    rw [replace_cons, if_neg (fun e => h.1 e.symm), ih h.2]
    rfl

theorem Steady.replace {w arg : Str} (h : Steady w) (ha : Steady arg) : Steady (replace arg w) := by
  obtain ⟨c, rest, rfl, hc⟩ := h
  rw [replace_cons]
  split
  · obtain ⟨d, r, rfl, hd⟩ := ha
    exact ⟨d, _, rfl, hd⟩
  · exact ⟨c, _, rfl, hc⟩

theorem replace_last {w arg : Str} (hw : w ≠ []) (ha : Argument arg) : (replace arg w).getLast? = some (ch ':') ↔ w.getLast? = some (ch ':') := by
  obtain ⟨l, c, rfl⟩ : ∃ l c, w = l ++ [c] := ⟨w.dropLast, w.getLast hw, (List.dropLast_append_getLast hw).symm⟩
  have e : replace arg (l ++ [c]) = replace arg l ++ if c = ch '^' then arg else [c] := by
    unfold Meaning.replace
    rw [List.flatMap_append]
    simp
  rw [e, List.getLast?_append, List.getLast?_append]
  by_cases hc : c = ch '^'
  · subst hc
    rw [if_pos rfl]
    obtain ⟨⟨d, r, rfl, -⟩, h2⟩ := ha
    rw [List.getLast?_cons] at h2 ⊢
    simp only [Option.some_or, List.getLast?_singleton]
    constructor
    · intro h; exact absurd h h2
    · intro h; exact absurd (Option.some.inj h) (by decide)
  · rw [if_neg hc]
    simp only [List.getLast?_singleton, Option.some_or]

theorem Argument.replace {w arg : Str} (h : Argument w) (ha : Argument arg) : Argument (replace arg w) := by
  refine ⟨h.1.replace ha.1, fun e => h.2 ((replace_last ?_ ha).1 e)⟩
  obtain ⟨c, rest, rfl, -⟩ := h.1
  simp

theorem comment_append {d : Nat} {c ws : List Str} (h : comment d c = some []) : comment d (c ++ ws) = some ws := by
  induction c generalizing d with
  | nil =>
    cases d with
    | zero => rw [List.nil_append]; cases ws <;> rfl
    | succ d => cases h
  | cons w c ih =>
    cases d with
    | zero => cases h
    | succ d => exact ih h

theorem map_untouched {arg : Str} {l : List Str} (h : ∀ v ∈ l, Untouched v) : l.map (replace arg) = l := by
  induction l with
  | nil => rfl
  | cons v l ih => rw [List.map_cons, replace_untouched (h v (by simp)).1, ih fun v hv => h v (by simp [hv])]

/-- An argument is filled in alike. -/
theorem Inner.replace {arg : Str} (ha : Argument arg) {b b' : List Str} (h : Inner b b') : Inner (b.map (replace arg)) (b'.map (replace arg)) := by
  induction h with
  | done => exact .done
  | comment h1 h2 h3 _ ih =>
    have e := map_untouched (arg := arg) h3
    rw [List.map_cons] at e
    rw [List.map_cons, List.map_append, (List.cons.inj e).1, (List.cons.inj e).2]
    exact .comment h1 h2 h3 ih
  | mark h1 h2 _ ih => rw [List.map_cons, replace_untouched h2.1]; exact .mark h1 h2 ih
  | comment' h1 h2 h3 _ ih =>
    have e := map_untouched (arg := arg) h3
    rw [List.map_cons] at e
    rw [List.map_cons, List.map_append, (List.cons.inj e).1, (List.cons.inj e).2]
    exact .comment' h1 h2 h3 ih
  | mark' h1 h2 _ ih => rw [List.map_cons, replace_untouched h2.1]; exact .mark' h1 h2 ih
  | word h1 h2 _ ih =>
    rw [List.map_cons, List.map_cons]
    refine .word (h1.replace ha.1) (fun h => ?_) ih
    obtain ⟨c, rest, rfl, -⟩ := id h1
    obtain ⟨a, t, t', rfl, rfl, h3⟩ := h2 ((replace_last (by simp) ha).1 h)
    exact ⟨_, _, _, rfl, rfl, h3.replace ha⟩

theorem Inner.kin {b b' : List Str} (h : Inner b b') : Kin b b' := by
  induction h with
  | done => exact .done
  | comment h1 h2 _ _ ih => exact .comment h1 (comment_append h2) ih
  | mark h1 _ _ ih => exact .mark h1 ih
  | comment' h1 h2 _ _ ih => exact .comment' h1 (comment_append h2) ih
  | mark' h1 _ _ ih => exact .mark' h1 ih
  | word h1 h2 _ ih => exact .word h1 h2 ih

/-- The words of one are those of the other, or untouched. -/
theorem Inner.words {b b' : List Str} (h : Inner b b') : ∀ v ∈ b', v ∈ b ∨ Untouched v := by
  induction h with
  | done => intro v hv; cases hv
  | comment _ _ _ _ ih => exact fun v hv => (ih v hv).imp_left fun h => by simp [h]
  | mark _ _ _ ih => exact fun v hv => (ih v hv).imp_left fun h => by simp [h]
  | comment' _ _ h3 _ ih =>
    intro v hv
    rw [← List.cons_append, List.mem_append] at hv
    exact hv.elim (fun h => .inr (h3 v h)) (ih v)
  | mark' _ h2 _ ih =>
    intro v hv
    rcases List.mem_cons.1 hv with rfl | h
    · exact .inr h2
    · exact ih v h
  | word _ _ _ ih =>
    intro v hv
    rcases List.mem_cons.1 hv with rfl | h
    · exact .inl (by simp)
    · exact (ih v h).imp_left fun h => by simp [h]

/-! ## What the first word is -/

theorem kin_nil {l ws' : List Str} (h : Kin l ws') (hl : l = []) : Skips ws' [] := by
  induction h with
  | done => exact .done
  | comment => cases hl
  | mark => cases hl
  | comment' h1 h2 _ ih => exact .comment h1 h2 (ih hl)
  | mark' h1 _ ih => exact .mark h1 (ih hl)
  | word => cases hl
  | define => cases hl

inductive Start (w : Str) (ws : List Str) (ws' : List Str) : Prop
  | comment {rest : List Str} : IsComment w → Meaning.comment 1 ws = some rest → Kin rest ws' → Start w ws ws'
  | mark : IsMark w → Kin ws ws' → Start w ws ws'
  | word {t : List Str} : Steady w → (w.getLast? = some (ch ':') → ∃ arg u u', ws = arg :: u ∧ t = arg :: u' ∧ Argument arg) → ws' = w :: t → Kin ws t → Start w ws ws'
  | define {name : Str} {t r r' b b' rest rest' : List Str} : w = ch '%' :: name → ws' = w :: t → Opens ws r → Opens t r' → body 1 r = some (b, rest) → body 1 r' = some (b', rest') →
      Inner b b' → Kin rest rest' → Start w ws ws'

theorem kin_cons {w : Str} {l ws ws' : List Str} (h : Kin l ws') (hl : l = w :: ws) : ∃ ws'', Skips ws' ws'' ∧ Start w ws ws'' := by
  induction h generalizing w ws with
  | done => cases hl
  | comment h1 h2 h3 => cases hl; exact ⟨_, .done, .comment h1 h2 h3⟩
  | mark h1 h2 => cases hl; exact ⟨_, .done, .mark h1 h2⟩
  | comment' h1 h2 _ ih => obtain ⟨x, h3, h4⟩ := ih hl; exact ⟨x, .comment h1 h2 h3, h4⟩
  | mark' h1 _ ih => obtain ⟨x, h3, h4⟩ := ih hl; exact ⟨x, .mark h1 h3, h4⟩
  | word h1 h2 h3 => cases hl; exact ⟨_, .done, .word h1 h2 rfl h3⟩
  | define h1 h2 h3 h4 h5 h6 h7 => cases hl; exact ⟨_, .done, .define h1 rfl h2 h3 h4 h5 h6 h7⟩

theorem Start.plain {w : Str} {ws ws' : List Str} (h : Start w ws ws') (hp : Plain w) :
    ∃ t, ws' = w :: t ∧ (w.getLast? = some (ch ':') → ∃ arg u u', ws = arg :: u ∧ t = arg :: u' ∧ Argument arg) ∧ Kin ws t := by
  cases h with
  | comment h1 => exact absurd h1 hp.1
  | mark h1 => exact absurd h1 hp.2.1
  | word _ h2 h3 h4 => exact ⟨_, h3, h2, h4⟩
  | define h1 => exact absurd (by rw [h1]; rfl) hp.2.2

theorem kin_arg {arg : Str} {t t' : List Str} (h : Kin (arg :: t) (arg :: t')) (hp : Plain arg) : Kin t t' := by
  obtain ⟨x, h1, h2⟩ := kin_cons h rfl
  obtain ⟨u, h3, -, h4⟩ := h2.plain hp
  subst h3
  generalize hl : arg :: t' = l at h1
  cases h1 with
  | done => cases hl; exact h4
  | comment h5 => cases hl; exact absurd h5 hp.1
  | mark h5 => cases hl; exact absurd h5 hp.2.1

/-! ## Words do not depend on the bodies of macros -/

abbrev State.mac (m : List (Str × List Str)) (s : State) : State := { s with macros := m }

theorem put_mac (m : List (Str × List Str)) (bs : List Byte) (s : State) : (s.mac m).put bs = (s.put bs).mac m := by rw [put_eq, put_eq]

theorem target_mac {m : List (Str × List Str)} {ref : Str} {s s1 : State} {t : Target} (h : s.target ref = some (t, s1)) : (s.mac m).target ref = some (t, s1.mac m) := by
  unfold State.target at h ⊢
  split at h
  · rename_i h1
    rw [if_pos h1]
    cases h; rfl
  · rename_i h1
    rw [if_neg h1]
    split at h
    · rename_i h2
      rw [if_pos h2]
      change (match s.anonymous with | [] => none | a :: rest => some (Target.place a, { s.mac m with anonymous := rest })) = _
      cases ha : s.anonymous with
      | nil => rw [ha] at h; cases h
      | cons a rest => rw [ha] at h; cases h; rfl
    · rename_i h2
      rw [if_neg h2]
      rw [Option.map_eq_some_iff] at h ⊢
      obtain ⟨n, h3, h4⟩ := h
      cases h4
      exact ⟨n, h3, rfl⟩

theorem refers_mac (m : List (Str × List Str)) {ref : Str} {k : RefKind} {z : RefSize} {s s' : State} (h : Refers ref k z s s') : Refers ref k z (s.mac m) (s'.mac m) := by
  obtain ⟨t, s1, h1, rfl⟩ := h
  refine ⟨t, _, target_mac h1, ?_⟩
  cases t <;> rfl

theorem defines_mac (m : List (Str × List Str)) {name : Str} {s s' : State} (h : Defines name s s') : Defines name (s.mac m) (s'.mac m) := by
  obtain ⟨h1, rfl⟩ := h
  exact ⟨h1, rfl⟩

theorem pads_mac (m : List (Str × List Str)) {p : Str} {a : Short} {s s' : State} (h : Pads p s a s') : Pads p (s.mac m) a (s'.mac m) := by
  cases h with
  | number h => exact .number h
  | anonymous h => exact .anonymous (s := s.mac m) h
  | label h1 h2 h3 => exact .label (s := s.mac m) h1 h2 h3

theorem word_mac (m : List (Str × List Str)) {w : Str} {s s' : State} (h : Word w s s') : Word w (s.mac m) (s'.mac m) := by
  cases w with
  | nil => exact h.elim
  | cons rune rest =>
    unfold Word at h ⊢
    cases hr : runes.lookup rune with
    | some r =>
      obtain ⟨op, k, z⟩ := r
      dsimp only at h ⊢
      rw [hr] at h ⊢
      dsimp only at h ⊢
      rw [put_mac]
      exact refers_mac m h
    | none =>
      dsimp only at h ⊢
      rw [hr] at h ⊢
      dsimp only at h ⊢
      split at h
      · rename_i c; rw [if_pos c]
        obtain ⟨v, k, h1, rfl⟩ := h
        exact ⟨v, k, h1, (put_mac ..).symm⟩
      rename_i c; rw [if_neg c]
      split at h
      · rename_i c; rw [if_pos c]
        obtain ⟨h1, rfl⟩ := h
        exact ⟨h1, (put_mac ..).symm⟩
      rename_i c; rw [if_neg c]
      split at h
      · rename_i c; rw [if_pos c]
        obtain ⟨a, s1, h1, rfl⟩ := h
        exact ⟨a, _, pads_mac m h1, rfl⟩
      rename_i c; rw [if_neg c]
      split at h
      · rename_i c; rw [if_pos c]
        obtain ⟨a, s1, h1, rfl⟩ := h
        exact ⟨a, _, pads_mac m h1, rfl⟩
      rename_i c; rw [if_neg c]
      split at h
      · rename_i c; rw [if_pos c]
        subst h; rfl
      rename_i c; rw [if_neg c]
      split at h
      · rename_i c; rw [if_pos c]
        obtain ⟨s1, h1, rfl⟩ := h
        exact ⟨_, defines_mac m h1, rfl⟩
      rename_i c; rw [if_neg c]
      split at h
      · rename_i c; rw [if_pos c]
        exact defines_mac m h
      rename_i c; rw [if_neg c]
      split at h
      · rename_i c; rw [if_pos c]
        obtain ⟨k, ks, h1, rfl⟩ := h
        exact ⟨k, ks, h1, rfl⟩
      rename_i c; rw [if_neg c]
      split at h
      · rename_i c; rw [if_pos c, put_mac]
        exact refers_mac m h
      rename_i c; rw [if_neg c]
      rcases h with ⟨v, k, h1, rfl⟩ | ⟨h0, i, op, h1, h2, rfl⟩ | ⟨h1, h2⟩
      · exact .inl ⟨v, k, h1, (put_mac ..).symm⟩
      · exact .inr (.inl ⟨h0, i, op, h1, h2, (put_mac ..).symm⟩)
      · exact .inr (.inr ⟨h1, by rw [put_mac]; exact refers_mac m h2⟩)

/-! ## Proof -/

abbrev Macros := List.Forall₂ fun (p q : Str × List Str) => p.1 = q.1 ∧ Inner p.2 q.2

theorem macros_some {m m' : List (Str × List Str)} (h : Macros m m') {name : Str} {b : List Str} (hb : m.lookup name = some b) : ∃ b', m'.lookup name = some b' ∧ Inner b b' := by
  induction h with
  | nil => cases hb
  | cons h1 _ ih =>
    rename_i p q l l' _
    obtain ⟨n, x⟩ := p
    obtain ⟨n', x'⟩ := q
    obtain ⟨rfl, hi⟩ := h1
    dsimp only at hi
    rw [List.lookup_cons] at hb ⊢
    cases he : name == n with
    | true => rw [he] at hb; cases hb; exact ⟨_, rfl, hi⟩
    | false => rw [he] at hb; exact ih hb

theorem macros_none {m m' : List (Str × List Str)} (h : Macros m m') {name : Str} (hb : m.lookup name = none) : m'.lookup name = none := by
  induction h with
  | nil => rfl
  | cons h1 _ ih =>
    rename_i p q l l' _
    obtain ⟨n, x⟩ := p
    obtain ⟨n', x'⟩ := q
    obtain ⟨rfl, hi⟩ := h1
    rw [List.lookup_cons] at hb ⊢
    cases he : name == n with
    | true => rw [he] at hb; cases hb
    | false => rw [he] at hb; exact ih hb

/-- What is read does not change but for the bodies of macros. -/
theorem within_kin {files files' : Files} (hf : KinFiles files files') {d : Nat} {active ws : List Str} {s s' : State} (h : Within files d active ws s s') :
    ∀ ws' m, Kin ws ws' → Macros s.macros m → ∃ m', Macros s'.macros m' ∧ Within files' d active ws' (s.mac m) (s'.mac m') := by
  induction h with
  | done => exact fun ws' m ha hm => ⟨m, hm, (kin_nil ha rfl).within .done⟩
  | comment h1 h2 _ ih =>
    intro ws' m ha hm
    obtain ⟨x, hs, hx⟩ := kin_cons ha rfl
    cases hx with
    | comment _ e3 e4 =>
      rw [h2] at e3; cases e3
      obtain ⟨m', a, b⟩ := ih _ m e4 hm
      exact ⟨m', a, hs.within b⟩
    | mark e1 => exact absurd e1 (comment_mark h1)
    | word hp => exact absurd h1 hp.plain.1
    | define e1 => exact absurd e1 (comment_cons h1 (by decide))
  | mark h1 _ ih =>
    intro ws' m ha hm
    obtain ⟨x, hs, hx⟩ := kin_cons ha rfl
    cases hx with
    | comment e1 => exact absurd h1 (comment_mark e1)
    | mark _ e2 =>
      obtain ⟨m', a, b⟩ := ih _ m e2 hm
      exact ⟨m', a, hs.within b⟩
    | word hp => exact absurd h1 hp.plain.2.1
    | define e1 => exact absurd e1 (mark_cons h1 (by decide) (by decide))
  | define h1 h2 h3 h4 h5 _ ih =>
    intro ws' m ha hm
    obtain ⟨x, hs, hx⟩ := kin_cons ha rfl
    cases hx with
    | comment e1 => exact absurd h1 (comment_cons e1 (by decide))
    | mark e1 => exact absurd h1 (mark_cons e1 (by decide) (by decide))
    | word hp => exact absurd (by rw [h1]; rfl) hp.plain.2.2
    | @define _ _ _ _ _ b' _ _ e1 e2 e3 e4 e5 e6 e7 e8 =>
      subst e2
      cases opens_unique h4 e3
      rw [h5] at e5
      cases e5
      obtain ⟨m', a, b⟩ := ih _ ((_, b') :: m) e8 (.cons ⟨rfl, e7⟩ hm)
      exact ⟨m', a, hs.within (.define h1 h2 (macros_none hm h3) e4 e6 b)⟩
  | expand h1 h2 h3 h4 h5 _ _ ih1 ih2 =>
    intro ws' m ha hm
    obtain ⟨x, hs, hx⟩ := kin_cons ha rfl
    obtain ⟨t, rfl, -, ht⟩ := hx.plain (plain_name h1)
    obtain ⟨b', hb, hi⟩ := macros_some hm h2
    obtain ⟨m1, a1, w1⟩ := ih1 _ m hi.kin hm
    obtain ⟨m2, a2, w2⟩ := ih2 _ m1 ht a1
    exact ⟨m2, a2, hs.within (.expand h1 hb h3 h4 h5 w1 w2)⟩
  | apply h1 h2 h3 h4 h5 h6 _ _ ih1 ih2 =>
    intro ws' m ha hm
    obtain ⟨x, hs, hx⟩ := kin_cons ha rfl
    obtain ⟨t, rfl, hn, ht⟩ := hx.plain (plain_name h1)
    obtain ⟨arg, u, u', e1, rfl, hp⟩ := hn h3
    cases e1
    obtain ⟨b', hb, hi⟩ := macros_some hm h2
    obtain ⟨m1, a1, w1⟩ := ih1 _ m (hi.replace hp).kin hm
    obtain ⟨m2, a2, w2⟩ := ih2 _ m1 (kin_arg ht hp.1.plain) a1
    refine ⟨m2, a2, hs.within (.apply h1 hb h3 h4 h5 (fun v hv => ?_) w1 w2)⟩
    rcases hi.words v hv with h | h
    · exact h6 v h
    · rw [replace_untouched h.1]; exact h.2
  | «include» h1 h2 h3 h4 h5 _ _ ih1 ih2 =>
    intro ws' m ha hm
    obtain ⟨inner', e1, e2⟩ := hf.1 _ _ h5
    obtain ⟨x, hs, hx⟩ := kin_cons ha rfl
    obtain ⟨t, rfl, -, ht⟩ := hx.plain (plain_include h1)
    obtain ⟨m1, a1, w1⟩ := ih1 _ m e2 hm
    obtain ⟨m2, a2, w2⟩ := ih2 _ m1 ht a1
    exact ⟨m2, a2, hs.within (.include h1 h2 h3 h4 e1 w1 w2)⟩
  | again h1 h2 h3 h4 _ ih =>
    intro ws' m ha hm
    obtain ⟨x, hs, hx⟩ := kin_cons ha rfl
    obtain ⟨t, rfl, -, ht⟩ := hx.plain (plain_include h1)
    obtain ⟨m1, a1, w1⟩ := ih _ m ht hm
    exact ⟨m1, a1, hs.within (.again h1 h2 h3 h4 w1)⟩
  | @defer d active w name ws s s' h1 h2 _ ih =>
    intro ws' m ha hm
    obtain ⟨x, hs, hx⟩ := kin_cons ha rfl
    obtain ⟨t, rfl, -, ht⟩ := hx.plain (plain_include h1)
    obtain ⟨m1, a1, w1⟩ := ih _ m ht (by split <;> exact hm)
    refine ⟨m1, a1, hs.within (.defer h1 h2 ?_)⟩
    change Within _ _ _ _ (if name ∈ s.included then s.mac m else { s.mac m with deferred := s.deferred ++ [name] }) _
    split <;> rename_i hin
    · rw [if_pos hin] at w1; exact w1
    · rw [if_neg hin] at w1; exact w1
  | word h1 h2 h3 _ ih =>
    intro ws' m ha hm
    obtain ⟨x, hs, hx⟩ := kin_cons ha rfl
    obtain ⟨t, rfl, -, ht⟩ := hx.plain (plain_of_special fun hs => special_word hs _ _ h3)
    obtain ⟨m1, a1, w1⟩ := ih _ m ht (by rw [word_macros h3]; exact hm)
    exact ⟨m1, a1, hs.within (.word (fun hn => macros_none hm (h1 hn)) h2 (word_mac m h3) w1)⟩

theorem ends_kin {files files' : Files} (hf : KinFiles files files') {s s' : State} (h : EndsWithin files s s') :
    ∀ m, Macros s.macros m → ∃ m', Macros s'.macros m' ∧ EndsWithin files' (s.mac m) (s'.mac m') := by
  induction h with
  | done h1 => exact fun m hm => ⟨m, hm, .done h1⟩
  | «include» h1 h2 h3 h4 _ ih =>
    intro m hm
    obtain ⟨inner', e1, e2⟩ := hf.1 _ _ h3
    obtain ⟨m1, a1, w1⟩ := within_kin hf h4 _ m e2 hm
    obtain ⟨m2, a2, w2⟩ := ih m1 a1
    exact ⟨m2, a2, .include h1 h2 e1 w1 w2⟩
  | again h1 h2 _ ih =>
    intro m hm
    obtain ⟨m2, a2, w2⟩ := ih m hm
    exact ⟨m2, a2, .again h1 h2 w2⟩

/-- **C85.** The two versions have the same meaning, but for the comments in the bodies of macros. -/
theorem C85_bodies_meaning {files files' : Files} (hf : KinFiles files files') (main : Str) (S : State) (h : ProgramWithin files main S) :
    ∃ S', ProgramWithin files' main S' ∧ SameBut S S' := by
  obtain ⟨ws, s1, h1, h2, h3⟩ := h
  obtain ⟨ws', e1, e2⟩ := hf.1 _ _ h1
  obtain ⟨m1, a1, w1⟩ := within_kin hf h2 _ [] e2 .nil
  obtain ⟨m2, a2, w2⟩ := ends_kin hf h3 m1 a1
  exact ⟨S.mac m2, ⟨ws', _, e1, w1, w2⟩, rfl, a2⟩

theorem macros_symm {m m' : List (Str × List Str)} (h : Macros m m') : Macros m' m := by
  induction h with
  | nil => exact .nil
  | cons h1 _ ih => exact .cons ⟨h1.1.symm, h1.2.symm⟩ ih

/-- Being complete does not depend on the comments. -/
theorem SameBut.complete {s s' : State} (h : SameBut s s') (hc : Complete s) : Complete s' := by
  obtain ⟨h1, h2⟩ := h
  generalize s'.macros = m at h1 h2
  subst h1
  refine ⟨hc.places, hc.opened, fun r hr => ?_, hc.labels, fun n b hb => ?_⟩
  · obtain ⟨l, a, b⟩ := hc.refs r hr
    refine ⟨l, ?_, b⟩
    rw [← a]
    unfold State.find
    rfl
  · obtain ⟨b', e, -⟩ := macros_some (macros_symm h2) hb
    exact hc.macros n b' e

/-- **C85.** Comments in the bodies of macros decide nothing either. -/
theorem C85_bodies_verdict {files files' : Files} (ht : Texts files) (ht' : Texts files') (hf : KinFiles files files') (main : Str) (fuel fuel' : Nat) (b b' : Bool) (s s' : Asm)
    (h : assemble files fuel main = some (b, s)) (h' : assemble files' fuel' main = some (b', s')) : b = b' := by
  have one : ∀ {f f' : Files}, KinFiles f f' → (∃ S, ProgramWithin f main S ∧ Complete S) → ∃ S, ProgramWithin f' main S ∧ Complete S := by
    rintro f f' hk ⟨S, h1, h2⟩
    obtain ⟨S', h3, h4⟩ := C85_bodies_meaning hk main S h1
    exact ⟨S', h3, h4.complete h2⟩
  have := (C80_accepted_iff files ht main fuel b s h).trans ((Iff.intro (one hf) (one hf.symm)).trans (C80_accepted_iff files' ht' main fuel' b' s' h').symm)
  exact Bool.eq_iff_iff.2 this

/-- **C85.** And the ROM is the same, byte for byte, as is all that is written on the way. -/
theorem C85_bodies_rom {files files' : Files} (ht : Texts files) (ht' : Texts files') (hf : KinFiles files files') (main : Str) (fuel fuel' : Nat) (s s' : Asm)
    (h : assemble files fuel main = some (true, s)) (h' : assemble files' fuel' main = some (true, s')) :
    written s.log = written s'.log ∧ image s.log = image s'.log ∧
      ∃ r r', putAll (written s.log).reverse emptyRom = some r ∧ putAll (written s'.log).reverse emptyRom = some r' ∧ romFile r = romFile r' := by
  obtain ⟨S, h1, -⟩ := C80_reasons files ht fuel main s h
  obtain ⟨S', h2, h3⟩ := C85_bodies_meaning hf main S h1
  obtain ⟨a1, a2, -⟩ := C78_image files ht fuel main s h S h1.program
  obtain ⟨b1, b2, -⟩ := C78_image files' ht' fuel' main s' h' S' h2.program
  have hw : S'.writes = S.writes := by rw [h3.rest]
  have hi : S'.image = S.image := by funext a; unfold State.image; rw [hw]
  rw [hw] at b1
  rw [hi] at b2
  obtain ⟨r, c1, c2, c3, c4⟩ := C38_rom_file files fuel main true s h
  obtain ⟨r', d1, d2, d3, d4⟩ := C38_rom_file files' fuel' main true s' h'
  refine ⟨a1.trans b1.symm, a2.trans b2.symm, r, r', c1, d1, ?_⟩
  exact rom_unique c2 d2 c3 d3 fun a => by rw [c4, d4, a2, b2]

/-! ## Two versions of a program -/

namespace Bodies

/-- A macro with an argument, which uses another one. -/
def bare : Files := filesOf [("m", " %N: { #^ } %M: { N: ^ INC } M: 12")]

/-- The same with comments and brackets in the bodies. -/
def noted : Files := filesOf [("m", " %N: { ( a number ) #^ } %M: { [ N: ^ ( ( nested ) ) INC ] } M: 12")]

abbrev w1 : List Str := [str "%N:", str "{", str "#^", str "}", str "%M:", str "{", str "N:", str "^", str "INC", str "}", str "M:", str "12"]
abbrev w2 : List Str := [str "%N:", str "{", str "(", str "a", str "number", str ")", str "#^", str "}", str "%M:", str "{", str "[", str "N:", str "^", str "(", str "(", str "nested", str ")",
  str ")", str "INC", str "]", str "}", str "M:", str "12"]

theorem steady {c : Byte} {rest : Str} (h : c ∉ str "()[]%") : Steady (c :: rest) := ⟨c, rest, rfl, h⟩

theorem kin : Kin w1 w2 := by
  refine .define (name := str "N:") (b := [str "#^"]) (b' := [str "(", str "a", str "number", str ")", str "#^"]) rfl .brace .brace rfl rfl ?_ ?_
  · refine .comment' (c := [str "a", str "number", str ")"]) (by unfold IsComment; decide) rfl (by unfold Untouched Short?; decide) ?_
    exact .word (steady (by decide)) (fun h => absurd h (by decide)) .done
  refine .define (name := str "M:") (b := [str "N:", str "^", str "INC"])
    (b' := [str "[", str "N:", str "^", str "(", str "(", str "nested", str ")", str ")", str "INC", str "]"]) rfl .brace .brace rfl rfl ?_ ?_
  · refine .mark' (.inl (by decide)) (by unfold Untouched Short?; decide) ?_
    refine .word (steady (by decide)) (fun _ => ⟨_, _, _, rfl, rfl, steady (by decide), by decide⟩) ?_
    refine .word (steady (by decide)) (fun h => absurd h (by decide)) ?_
    refine .comment' (c := [str "(", str "nested", str ")", str ")"]) (by unfold IsComment; decide) rfl (by unfold Untouched Short?; decide) ?_
    refine .word (steady (by decide)) (fun h => absurd h (by decide)) ?_
    exact .mark' (.inr rfl) (by unfold Untouched Short?; decide) .done
  refine .word (steady (by decide)) (fun _ => ⟨_, _, _, rfl, rfl, steady (by decide), by decide⟩) ?_
  exact .word (steady (by decide)) (fun h => absurd h (by decide)) .done

/-- The hypotheses of C85 are met by two versions of a program with macros that have arguments. -/
theorem kinFiles : KinFiles bare noted := by
  have key : ∀ name : Str, (name.takeWhile (· ≠ 0)) = str "m" ∨ bare (name.takeWhile (· ≠ 0)) = none ∧ noted (name.takeWhile (· ≠ 0)) = none := by
    intro name
    by_cases h1 : str "m" = name.takeWhile (· ≠ 0)
    · exact .inl h1.symm
    refine .inr ⟨?_, ?_⟩
    all_goals
      first | unfold bare filesOf | unfold noted filesOf
      rw [List.find?_cons_of_neg (by simpa using h1)]
      rfl
  have m1 : ∀ name : Str, name.takeWhile (· ≠ 0) = str "m" → Words bare name w1 := fun name h =>
    words_of (str " %N: { #^ } %M: { N: ^ INC } M: 12") _ (by rw [h]; rfl) (by decide +kernel) (by decide +kernel)
  have m2 : ∀ name : Str, name.takeWhile (· ≠ 0) = str "m" → Words noted name w2 := fun name h =>
    words_of (str " %N: { ( a number ) #^ } %M: { [ N: ^ ( ( nested ) ) INC ] } M: 12") _ (by rw [h]; rfl) (by decide +kernel) (by decide +kernel)
  have find : ∀ {f : Files} {name : Str} {ws : List Str}, Words f name ws → ∃ st, f (name.takeWhile (· ≠ 0)) = some st := fun ⟨_, _, h, _⟩ => ⟨_, h⟩
  constructor
  · intro name ws hw
    obtain ⟨st, hst⟩ := find hw
    rcases key name with h | ⟨h, -⟩
    · cases words_unique hw (m1 name h); exact ⟨_, m2 name h, kin⟩
    · rw [h] at hst; cases hst
  · intro name ws hw
    obtain ⟨st, hst⟩ := find hw
    rcases key name with h | ⟨-, h⟩
    · cases words_unique hw (m2 name h); exact ⟨_, m1 name h, kin⟩
    · rw [h] at hst; cases hst

/-- Both are assembled, to the same ROM. -/
theorem both : outcome [("m", " %N: { #^ } %M: { N: ^ INC } M: 12")] = some (true, 0, [(0x100, 0x80), (0x101, 0x12), (0x102, 0x01)]) ∧
    outcome [("m", " %N: { ( a number ) #^ } %M: { [ N: ^ ( ( nested ) ) INC ] } M: 12")] = some (true, 0, [(0x100, 0x80), (0x101, 0x12), (0x102, 0x01)]) := by decide +kernel

end Bodies

/-- **C85 (a limit of the code).** A comment in the body of a macro into which the argument is filled is not just a comment: it can become too long. -/
theorem C85_touched_violated :
    outcome [("m", "%M: { INC } M: a-very-long-argument-name")] = some (true, 0, [(0x100, 0x01)]) ∧
    (outcome [("m", "%M: { ( ^^^ ) INC } M: a-very-long-argument-name")]).map (·.1) = some false := by decide +kernel

end Buxn.Asm.Meaning
