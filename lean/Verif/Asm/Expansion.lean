import Verif.Asm.Comments
/-!
# C87: macros and includes are abbreviations

Write out every macro where it is used, with its argument filled in, and every file where it is included, and leave out the comments, the brackets and the definitions of macros: the words
that are left, read as one file, are the same program.
-/

namespace Buxn.Asm.Meaning
open Buxn.VM Buxn.Asm Buxn.Asm.Spec

/-! ## Specification -/

/-- The macros that are defined, the files that were included and those to be included at the end. -/
structure Env where
  macros : List (Str × List Str) := []
  included : List Str := []
  deferred : List Str := []

/-- Not a comment, a bracket, the definition of a macro or an include. -/
def Ordinary (w : Str) : Prop := ¬ IsComment w ∧ ¬ IsMark w ∧ (∀ n, w ≠ ch '%' :: n) ∧ ∀ n, w ≠ ch '~' :: n

/-- Words are written out. Nothing is said here about what they mean: no addresses, labels or bytes. -/
inductive Expands (files : Files) : Nat → List Str → List Str → Env → List Str → Env → Prop
  | done {d : Nat} {active : List Str} {e : Env} : Expands files d active [] e [] e
  | comment {d : Nat} {active : List Str} {w : Str} {ws rest out : List Str} {e e' : Env} : IsComment w → comment 1 ws = some rest →
      Expands files d active rest e out e' → Expands files d active (w :: ws) e out e'
  | mark {d : Nat} {active : List Str} {w : Str} {ws out : List Str} {e e' : Env} : IsMark w → Expands files d active ws e out e' → Expands files d active (w :: ws) e out e'
  | define {d : Nat} {active : List Str} {w name : Str} {ws ws' b rest out : List Str} {e e' : Env} : w = ch '%' :: name → IsName name →
      e.macros.lookup name = none → Opens ws ws' → body 1 ws' = some (b, rest) →
      Expands files d active rest { e with macros := (name, b) :: e.macros } out e' → Expands files d active (w :: ws) e out e'
  /-- a macro: its body takes its place -/
  | expand {d : Nat} {active : List Str} {w : Str} {b ws o1 o2 : List Str} {e e1 e' : Env} : IsName w → e.macros.lookup w = some b → w.getLast? ≠ some (ch ':') →
      d < DEPTH → w ∉ active → Expands files (d + 1) (w :: active) b e o1 e1 → Expands files d active ws e1 o2 e' → Expands files d active (w :: ws) e (o1 ++ o2) e'
  /-- with an argument, which is filled in -/
  | apply {d : Nat} {active : List Str} {w arg : Str} {b ws o1 o2 : List Str} {e e1 e' : Env} : IsName w → e.macros.lookup w = some b → w.getLast? = some (ch ':') →
      d < DEPTH → w ∉ active → (∀ v ∈ b, Short? (replace arg v)) → Expands files (d + 1) (w :: active) (b.map (replace arg)) e o1 e1 →
      Expands files d active ws e1 o2 e' → Expands files d active (w :: arg :: ws) e (o1 ++ o2) e'
  /-- a file: its words take its place, once -/
  | include {d : Nat} {active : List Str} {w name : Str} {inner ws o1 o2 : List Str} {e e1 e' : Env} : w = ch '~' :: name → name.head? ≠ some (ch '~') →
      d < DEPTH → name ∉ e.included → Words files name inner → Expands files (d + 1) active inner { e with included := name :: e.included } o1 e1 →
      Expands files d active ws e1 o2 e' → Expands files d active (w :: ws) e (o1 ++ o2) e'
  | again {d : Nat} {active : List Str} {w name : Str} {ws out : List Str} {e e' : Env} : w = ch '~' :: name → name.head? ≠ some (ch '~') →
      d < DEPTH → name ∈ e.included → Expands files d active ws e out e' → Expands files d active (w :: ws) e out e'
  | defer {d : Nat} {active : List Str} {w name : Str} {ws out : List Str} {e e' : Env} : w = ch '~' :: ch '~' :: name → d < DEPTH →
      Expands files d active ws (if name ∈ e.included then e else { e with deferred := e.deferred ++ [name] }) out e' → Expands files d active (w :: ws) e out e'
  /-- anything else stays -/
  | word {d : Nat} {active : List Str} {w : Str} {ws out : List Str} {e e' : Env} : Ordinary w → (IsName w → e.macros.lookup w = none) →
      Expands files d active ws e out e' → Expands files d active (w :: ws) e (w :: out) e'

/-- The files that are included at the end. -/
inductive ExpandsEnd (files : Files) : Env → List Str → Env → Prop
  | done {e : Env} : e.deferred = [] → ExpandsEnd files e [] e
  | include {e e1 e' : Env} {name : Str} {rest inner o1 o2 : List Str} : e.deferred = name :: rest → name ∉ e.included → Words files name inner →
      Expands files 1 [] inner { e with deferred := rest, included := name :: e.included } o1 e1 → ExpandsEnd files e1 o2 e' → ExpandsEnd files e (o1 ++ o2) e'
  | again {e e' : Env} {name : Str} {rest out : List Str} : e.deferred = name :: rest → name ∈ e.included → ExpandsEnd files { e with deferred := rest } out e' →
      ExpandsEnd files e out e'

/-- The words of a whole program, written out, and the macros that it defines. -/
def Expansion (files : Files) (main : Str) (out : List Str) (macros : List (Str × List Str)) : Prop :=
  ∃ ws o1 o2 e e', Words files main ws ∧ Expands files 0 [] ws {} o1 e ∧ ExpandsEnd files e o2 e' ∧ out = o1 ++ o2 ∧ macros = e'.macros

/-- Two states of reading that agree in all but macros, files, and which names were mentioned. -/
def SameCode (s s' : State) : Prop := s' = { s with macros := s'.macros, included := s'.included, deferred := s'.deferred, used := s'.used }

/-! ## What a word does not depend on -/

/-- The state with other macros and files. -/
abbrev State.over (e : Env) (u : List Str) (s : State) : State := { s with macros := e.macros, included := e.included, deferred := e.deferred, used := u }

abbrev State.env (s : State) : Env := ⟨s.macros, s.included, s.deferred⟩

theorem put_over (e : Env) (u : List Str) (bs : List Byte) (s : State) : (s.over e u).put bs = (s.put bs).over e u := by rw [put_eq, put_eq]

theorem put_env (bs : List Byte) (s : State) : (s.put bs).env = s.env := by rw [put_eq]

theorem target_over {e : Env} {u : List Str} {ref : Str} {s s1 : State} {t : Target} (h : s.target ref = some (t, s1)) :
    s1.env = s.env ∧ ∃ u', (s.over e u).target ref = some (t, s1.over e u') := by
  unfold State.target at h ⊢
  split at h
  · rename_i h1
    rw [if_pos h1]
    cases h; exact ⟨rfl, u, rfl⟩
  · rename_i h1
    rw [if_neg h1]
    split at h
    · rename_i h2
      rw [if_pos h2]
      change _ ∧ ∃ u', (match s.anonymous with | [] => none | a :: rest => some (Target.place a, { s.over e u with anonymous := rest })) = _
      cases ha : s.anonymous with
      | nil => rw [ha] at h; cases h
      | cons a rest => rw [ha] at h; cases h; exact ⟨rfl, u, rfl⟩
    · rename_i h2
      rw [if_neg h2]
      rw [Option.map_eq_some_iff] at h
      obtain ⟨n, h3, h4⟩ := h
      cases h4
      refine ⟨rfl, n :: u, ?_⟩
      rw [Option.map_eq_some_iff]
      exact ⟨n, h3, rfl⟩

theorem refers_over (e : Env) (u : List Str) {ref : Str} {k : RefKind} {z : RefSize} {s s' : State} (h : Refers ref k z s s') :
    s'.env = s.env ∧ ∃ u', Refers ref k z (s.over e u) (s'.over e u') := by
  obtain ⟨t, s1, h1, rfl⟩ := h
  obtain ⟨h2, u', h3⟩ := target_over (e := e) (u := u) h1
  refine ⟨h2, u', t, _, h3, ?_⟩
  cases t <;> rfl

theorem defines_over (e : Env) (u : List Str) {name : Str} {s s' : State} (h : Defines name s s') : s'.env = s.env ∧ Defines name (s.over e u) (s'.over e u) := by
  obtain ⟨h1, rfl⟩ := h
  exact ⟨rfl, h1, rfl⟩

theorem pads_over (e : Env) (u : List Str) {p : Str} {a : Short} {s s' : State} (h : Pads p s a s') : s'.env = s.env ∧ ∃ u', Pads p (s.over e u) a (s'.over e u') := by
  cases h with
  | number h => exact ⟨rfl, u, .number h⟩
  | anonymous h => exact ⟨rfl, u, .anonymous (s := s.over e u) h⟩
  | label h1 h2 h3 => exact ⟨rfl, _, .label (s := s.over e u) h1 h2 h3⟩

theorem word_over (e : Env) (u : List Str) {w : Str} {s s' : State} (h : Word w s s') : s'.env = s.env ∧ ∃ u', Word w (s.over e u) (s'.over e u') := by
  cases w with
  | nil => exact h.elim
  | cons rune rest =>
    have key : ∀ {ref : Str} {k : RefKind} {z : RefSize} (bs : List Byte), Refers ref k z (s.put bs) s' → s'.env = s.env ∧ ∃ u', Refers ref k z ((s.over e u).put bs) (s'.over e u') := by
      intro ref k z bs h
      rw [put_over]
      obtain ⟨h1, h2⟩ := refers_over e u h
      exact ⟨h1.trans (put_env _ _), h2⟩
    unfold Word at h ⊢
    cases hr : runes.lookup rune with
    | some r =>
      obtain ⟨op, k, z⟩ := r
      dsimp only at h ⊢
      rw [hr] at h ⊢
      exact key _ h
    | none =>
      dsimp only at h ⊢
      rw [hr] at h ⊢
      dsimp only at h ⊢
      split at h
      · rename_i c; simp only [if_pos c]
        obtain ⟨v, k, h1, rfl⟩ := h
        exact ⟨put_env _ _, u, v, k, h1, (put_over ..).symm⟩
      rename_i c; simp only [if_neg c]
      split at h
      · rename_i c; simp only [if_pos c]
        obtain ⟨h1, rfl⟩ := h
        exact ⟨put_env _ _, u, h1, (put_over ..).symm⟩
      rename_i c; simp only [if_neg c]
      split at h
      · rename_i c; simp only [if_pos c]
        obtain ⟨a, s1, h1, rfl⟩ := h
        obtain ⟨h2, u', h3⟩ := pads_over e u h1
        exact ⟨h2, u', a, _, h3, rfl⟩
      rename_i c; simp only [if_neg c]
      split at h
      · rename_i c; simp only [if_pos c]
        obtain ⟨a, s1, h1, rfl⟩ := h
        obtain ⟨h2, u', h3⟩ := pads_over e u h1
        exact ⟨h2, u', a, _, h3, rfl⟩
      rename_i c; simp only [if_neg c]
      split at h
      · rename_i c; simp only [if_pos c]
        subst h; exact ⟨rfl, u, rfl⟩
      rename_i c; simp only [if_neg c]
      split at h
      · rename_i c; simp only [if_pos c]
        obtain ⟨s1, h1, rfl⟩ := h
        obtain ⟨h2, h3⟩ := defines_over e u h1
        exact ⟨h2, u, _, h3, rfl⟩
      rename_i c; simp only [if_neg c]
      split at h
      · rename_i c; simp only [if_pos c]
        obtain ⟨h2, h3⟩ := defines_over e u h
        exact ⟨h2, u, h3⟩
      rename_i c; simp only [if_neg c]
      split at h
      · rename_i c; simp only [if_pos c]
        obtain ⟨k, ks, h1, rfl⟩ := h
        exact ⟨rfl, u, k, ks, h1, rfl⟩
      rename_i c; simp only [if_neg c]
      split at h
      · rename_i c; simp only [if_pos c]
        exact key _ h
      rename_i c; simp only [if_neg c]
      rcases h with ⟨v, k, h1, rfl⟩ | ⟨h0, i, op, h1, h2, rfl⟩ | ⟨h1, h2⟩
      · exact ⟨put_env _ _, u, .inl ⟨v, k, h1, (put_over ..).symm⟩⟩
      · exact ⟨put_env _ _, u, .inr (.inl ⟨h0, i, op, h1, h2, (put_over ..).symm⟩)⟩
      · obtain ⟨h3, u', h4⟩ := key _ h2
        exact ⟨h3, u', .inr (.inr ⟨h1, h4⟩)⟩

/-! ## Words one after the other -/

inductive Runs : List Str → State → State → Prop
  | nil {s : State} : Runs [] s s
  | cons {w : Str} {ws : List Str} {s s1 s' : State} : Fits w s → Word w s s1 → Runs ws s1 s' → Runs (w :: ws) s s'

theorem Runs.append {a b : List Str} {s t r : State} (h : Runs a s t) (h' : Runs b t r) : Runs (a ++ b) s r := by
  induction h with
  | nil => exact h'
  | cons h1 h2 _ ih => exact .cons h1 h2 (ih h')

theorem Runs.unique {a : List Str} {s t r : State} (h : Runs a s t) (h' : Runs a s r) : t = r := by
  induction h with
  | nil => cases h'; rfl
  | cons _ a _ ih => cases h' with | cons _ b c => cases word_unique a b; exact ih c

theorem Runs.split {a b : List Str} {s r : State} (h : Runs (a ++ b) s r) : ∃ t, Runs a s t ∧ Runs b t r := by
  induction a generalizing s with
  | nil => exact ⟨s, .nil, h⟩
  | cons w a ih =>
    cases h with
    | cons h1 h2 h3 =>
      obtain ⟨t, h4, h5⟩ := ih h3
      exact ⟨t, .cons h1 h2 h4, h5⟩

theorem Runs.env {a : List Str} {s t : State} (h : Runs a s t) : t.env = s.env := by
  induction h with
  | nil => rfl
  | cons _ h2 _ ih => exact ih.trans (word_over {} [] h2).1

theorem Runs.over (e : Env) {a : List Str} {s t : State} (h : Runs a s t) : ∀ u, ∃ u', Runs a (s.over e u) (t.over e u') := by
  induction h with
  | nil => exact fun u => ⟨u, .nil⟩
  | cons h1 h2 _ ih =>
    intro u
    obtain ⟨-, u1, h3⟩ := word_over e u h2
    obtain ⟨u2, h4⟩ := ih u1
    exact ⟨u2, .cons h1 h3 h4⟩

theorem ordinary_word {w : Str} {s s' : State} (h : Word w s s') : Ordinary w :=
  ⟨fun hm => special_word (special_comment hm) _ _ h, fun hm => special_word (special_mark hm) _ _ h, fun _ e => special_word (special_macro e) _ _ h,
    fun _ e => special_word (special_include e) _ _ h⟩

/-- What is read is what is written out. -/
theorem within_expands {files : Files} {d : Nat} {active ws : List Str} {s s' : State} (h : Within files d active ws s s') :
    ∃ out, Expands files d active ws s.env out s'.env ∧ ∀ e u, ∃ u', Runs out (s.over e u) (s'.over e u') := by
  induction h with
  | done => exact ⟨[], .done, fun e u => ⟨u, .nil⟩⟩
  | comment h1 h2 _ ih => obtain ⟨o, a, b⟩ := ih; exact ⟨o, .comment h1 h2 a, b⟩
  | mark h1 _ ih => obtain ⟨o, a, b⟩ := ih; exact ⟨o, .mark h1 a, b⟩
  | define h1 h2 h3 h4 h5 _ ih => obtain ⟨o, a, b⟩ := ih; exact ⟨o, .define h1 h2 h3 h4 h5 a, b⟩
  | expand h1 h2 h3 h4 h5 _ _ ih1 ih2 =>
    obtain ⟨o, a, b⟩ := ih1
    obtain ⟨o', a', b'⟩ := ih2
    refine ⟨o ++ o', .expand h1 h2 h3 h4 h5 a a', fun e u => ?_⟩
    obtain ⟨u1, b1⟩ := b e u
    obtain ⟨u2, b2⟩ := b' e u1
    exact ⟨u2, b1.append b2⟩
  | apply h1 h2 h3 h4 h5 h6 _ _ ih1 ih2 =>
    obtain ⟨o, a, b⟩ := ih1
    obtain ⟨o', a', b'⟩ := ih2
    refine ⟨o ++ o', .apply h1 h2 h3 h4 h5 h6 a a', fun e u => ?_⟩
    obtain ⟨u1, b1⟩ := b e u
    obtain ⟨u2, b2⟩ := b' e u1
    exact ⟨u2, b1.append b2⟩
  | «include» h1 h2 h3 h4 h5 _ _ ih1 ih2 =>
    obtain ⟨o, a, b⟩ := ih1
    obtain ⟨o', a', b'⟩ := ih2
    refine ⟨o ++ o', .include h1 h2 h3 h4 h5 a a', fun e u => ?_⟩
    obtain ⟨u1, b1⟩ := b e u
    obtain ⟨u2, b2⟩ := b' e u1
    exact ⟨u2, b1.append b2⟩
  | again h1 h2 h3 h4 _ ih => obtain ⟨o, a, b⟩ := ih; exact ⟨o, .again h1 h2 h3 h4 a, b⟩
  | @defer d active w name ws s s' h1 h2 _ ih =>
    obtain ⟨o, a, b⟩ := ih
    refine ⟨o, .defer h1 h2 ?_, fun e u => ?_⟩
    · by_cases hin : name ∈ s.included
      · rw [if_pos hin] at a ⊢; exact a
      · rw [if_neg hin] at a ⊢; exact a
    · by_cases hin : name ∈ s.included
      · rw [if_pos hin] at b; exact b e u
      · rw [if_neg hin] at b; exact b e u
  | word h1 h2 h3 _ ih =>
    obtain ⟨o, a, b⟩ := ih
    rw [(word_over {} [] h3).1] at a
    refine ⟨_ :: o, .word (ordinary_word h3) h1 a, fun e u => ?_⟩
    obtain ⟨-, u1, h4⟩ := word_over e u h3
    obtain ⟨u2, h5⟩ := b e u1
    exact ⟨u2, .cons h2 h4 h5⟩

/-- and the other way round. -/
theorem expands_within {files : Files} {d : Nat} {active ws out : List Str} {e e' : Env} (h : Expands files d active ws e out e') :
    ∀ s t u, Runs out s t → ∃ u', Within files d active ws (s.over e u) (t.over e' u') := by
  induction h with
  | done => intro s t u h; cases h; exact ⟨u, .done⟩
  | comment h1 h2 _ ih => intro s t u h; obtain ⟨u', a⟩ := ih s t u h; exact ⟨u', .comment h1 h2 a⟩
  | mark h1 _ ih => intro s t u h; obtain ⟨u', a⟩ := ih s t u h; exact ⟨u', .mark h1 a⟩
  | define h1 h2 h3 h4 h5 _ ih => intro s t u h; obtain ⟨u', a⟩ := ih s t u h; exact ⟨u', .define h1 h2 h3 h4 h5 a⟩
  | expand h1 h2 h3 h4 h5 _ _ ih1 ih2 =>
    intro s t u h
    obtain ⟨m, a, b⟩ := h.split
    obtain ⟨u1, c⟩ := ih1 s m (_ :: u) a
    obtain ⟨u2, e⟩ := ih2 m t u1 b
    exact ⟨u2, .expand h1 h2 h3 h4 h5 c e⟩
  | apply h1 h2 h3 h4 h5 h6 _ _ ih1 ih2 =>
    intro s t u h
    obtain ⟨m, a, b⟩ := h.split
    obtain ⟨u1, c⟩ := ih1 s m (_ :: u) a
    obtain ⟨u2, e⟩ := ih2 m t u1 b
    exact ⟨u2, .apply h1 h2 h3 h4 h5 h6 c e⟩
  | «include» h1 h2 h3 h4 h5 _ _ ih1 ih2 =>
    intro s t u h
    obtain ⟨m, a, b⟩ := h.split
    obtain ⟨u1, c⟩ := ih1 s m u a
    obtain ⟨u2, e⟩ := ih2 m t u1 b
    exact ⟨u2, .include h1 h2 h3 h4 h5 c e⟩
  | again h1 h2 h3 h4 _ ih => intro s t u h; obtain ⟨u', a⟩ := ih s t u h; exact ⟨u', .again h1 h2 h3 h4 a⟩
  | @defer d active w name ws out e e' h1 h2 _ ih =>
    intro s t u h
    obtain ⟨u', a⟩ := ih s t u h
    refine ⟨u', .defer h1 h2 ?_⟩
    by_cases hin : name ∈ e.included
    · rw [if_pos hin] at a; rw [if_pos (show name ∈ (s.over e u).included from hin)]; exact a
    · rw [if_neg hin] at a; rw [if_neg (show name ∉ (s.over e u).included from hin)]; exact a
  | @word d active w ws out e e' h1 h2 _ ih =>
    intro s t u h
    cases h with
    | cons h3 h4 h5 =>
      obtain ⟨-, u1, h6⟩ := word_over e u h4
      obtain ⟨u2, h7⟩ := ih _ _ u1 h5
      exact ⟨u2, .word h2 h3 h6 h7⟩

theorem ends_expands {files : Files} {s s' : State} (h : EndsWithin files s s') : ∃ out, ExpandsEnd files s.env out s'.env ∧ ∀ e u, ∃ u', Runs out (s.over e u) (s'.over e u') := by
  induction h with
  | done h => exact ⟨[], .done h, fun e u => ⟨u, .nil⟩⟩
  | «include» h1 h2 h3 h4 _ ih =>
    obtain ⟨o, a, b⟩ := within_expands h4
    obtain ⟨o', a', b'⟩ := ih
    refine ⟨o ++ o', .include h1 h2 h3 a a', fun e u => ?_⟩
    obtain ⟨u1, b1⟩ := b e u
    obtain ⟨u2, b2⟩ := b' e u1
    exact ⟨u2, b1.append b2⟩
  | again h1 h2 _ ih => obtain ⟨o, a, b⟩ := ih; exact ⟨o, .again h1 h2 a, b⟩

theorem expands_ends {files : Files} {out : List Str} {e e' : Env} (h : ExpandsEnd files e out e') : ∀ s t u, Runs out s t → ∃ u', EndsWithin files (s.over e u) (t.over e' u') := by
  induction h with
  | done h1 => intro s t u h; cases h; exact ⟨u, .done h1⟩
  | «include» h1 h2 h3 h4 _ ih =>
    intro s t u h
    obtain ⟨m, a, b⟩ := h.split
    obtain ⟨u1, c⟩ := expands_within h4 s m u a
    obtain ⟨u2, e⟩ := ih m t u1 b
    exact ⟨u2, .include h1 h2 h3 c e⟩
  | again h1 h2 _ ih => intro s t u h; obtain ⟨u', a⟩ := ih s t u h; exact ⟨u', .again h1 h2 a⟩

/-! ## One expansion -/

theorem expands_unique {files : Files} {d : Nat} {active ws out out' : List Str} {e a b : Env} (h : Expands files d active ws e out a) (h' : Expands files d active ws e out' b) :
    out = out' ∧ a = b := by
  induction h generalizing out' b with
  | done => cases h'; exact ⟨rfl, rfl⟩
  | comment hm hc _ ih =>
    cases h' with
    | comment _ hc' h' => rw [hc] at hc'; cases hc'; exact ih h'
    | mark hm' => exact absurd hm' (comment_mark hm)
    | define e => exact absurd e (comment_cons hm (by decide))
    | expand hn => exact absurd hn (special_name (special_comment hm))
    | apply hn => exact absurd hn (special_name (special_comment hm))
    | «include» e => exact absurd e (comment_cons hm (by decide))
    | again e => exact absurd e (comment_cons hm (by decide))
    | defer e => exact absurd e (comment_cons hm (by decide))
    | word ho => exact absurd hm ho.1
  | mark hm _ ih =>
    cases h' with
    | comment hm' => exact absurd hm (comment_mark hm')
    | mark _ h' => exact ih h'
    | define e => exact absurd e (mark_cons hm (by decide) (by decide))
    | expand hn => exact absurd hn (special_name (special_mark hm))
    | apply hn => exact absurd hn (special_name (special_mark hm))
    | «include» e => exact absurd e (mark_cons hm (by decide) (by decide))
    | again e => exact absurd e (mark_cons hm (by decide) (by decide))
    | defer e => exact absurd e (mark_cons hm (by decide) (by decide))
    | word ho => exact absurd hm ho.2.1
  | define e _ _ ho hb _ ih =>
    cases h' with
    | comment hm' => exact absurd e (comment_cons hm' (by decide))
    | mark hm' => exact absurd e (mark_cons hm' (by decide) (by decide))
    | define e' _ _ ho' hb' h' =>
      rw [e] at e'; cases e'
      cases opens_unique ho ho'
      rw [hb] at hb'; cases hb'
      exact ih h'
    | expand hn => exact absurd hn (special_name (special_macro e))
    | apply hn => exact absurd hn (special_name (special_macro e))
    | «include» e' => rw [e] at e'; exact absurd (List.cons.inj e').1 (by decide)
    | again e' => rw [e] at e'; exact absurd (List.cons.inj e').1 (by decide)
    | defer e' => rw [e] at e'; exact absurd (List.cons.inj e').1 (by decide)
    | word ho => exact absurd e (ho.2.2.1 _)
  | expand hn hl hc _ _ _ _ ih1 ih2 =>
    cases h' with
    | comment hm' => exact absurd hn (special_name (special_comment hm'))
    | mark hm' => exact absurd hn (special_name (special_mark hm'))
    | define e' => exact absurd hn (special_name (special_macro e'))
    | expand _ hl' _ _ _ h1 h2 =>
      rw [hl] at hl'; cases hl'
      obtain ⟨rfl, rfl⟩ := ih1 h1
      obtain ⟨rfl, rfl⟩ := ih2 h2
      exact ⟨rfl, rfl⟩
    | apply _ _ hc' => exact absurd hc' hc
    | «include» e' => exact absurd hn (special_name (special_include e'))
    | again e' => exact absurd hn (special_name (special_include e'))
    | defer e' => exact absurd hn (special_name (special_include e'))
    | word _ hl' => rw [hl' hn] at hl; cases hl
  | apply hn hl hc _ _ _ _ _ ih1 ih2 =>
    cases h' with
    | comment hm' => exact absurd hn (special_name (special_comment hm'))
    | mark hm' => exact absurd hn (special_name (special_mark hm'))
    | define e' => exact absurd hn (special_name (special_macro e'))
    | expand _ _ hc' => exact absurd hc hc'
    | apply _ hl' _ _ _ _ h1 h2 =>
      rw [hl] at hl'; cases hl'
      obtain ⟨rfl, rfl⟩ := ih1 h1
      obtain ⟨rfl, rfl⟩ := ih2 h2
      exact ⟨rfl, rfl⟩
    | «include» e' => exact absurd hn (special_name (special_include e'))
    | again e' => exact absurd hn (special_name (special_include e'))
    | defer e' => exact absurd hn (special_name (special_include e'))
    | word _ hl' => rw [hl' hn] at hl; cases hl
  | «include» e ht _ hi hw _ _ ih1 ih2 =>
    cases h' with
    | comment hm' => exact absurd e (comment_cons hm' (by decide))
    | mark hm' => exact absurd e (mark_cons hm' (by decide) (by decide))
    | define e' => rw [e] at e'; exact absurd (List.cons.inj e').1 (by decide)
    | expand hn => exact absurd hn (special_name (special_include e))
    | apply hn => exact absurd hn (special_name (special_include e))
    | «include» e' _ _ _ hw' h1 h2 =>
      rw [e] at e'; cases e'
      cases words_unique hw hw'
      obtain ⟨rfl, rfl⟩ := ih1 h1
      obtain ⟨rfl, rfl⟩ := ih2 h2
      exact ⟨rfl, rfl⟩
    | again e' _ _ hi' => rw [e] at e'; cases e'; exact absurd hi' hi
    | defer e' => rw [e] at e'; cases e'; exact absurd rfl ht
    | word ho => exact absurd e (ho.2.2.2 _)
  | again e ht _ hi _ ih =>
    cases h' with
    | comment hm' => exact absurd e (comment_cons hm' (by decide))
    | mark hm' => exact absurd e (mark_cons hm' (by decide) (by decide))
    | define e' => rw [e] at e'; exact absurd (List.cons.inj e').1 (by decide)
    | expand hn => exact absurd hn (special_name (special_include e))
    | apply hn => exact absurd hn (special_name (special_include e))
    | «include» e' _ _ hi' => rw [e] at e'; cases e'; exact absurd hi hi'
    | again e' _ _ _ h' => exact ih h'
    | defer e' => rw [e] at e'; cases e'; exact absurd rfl ht
    | word ho => exact absurd e (ho.2.2.2 _)
  | defer e _ _ ih =>
    cases h' with
    | comment hm' => exact absurd e (comment_cons hm' (by decide))
    | mark hm' => exact absurd e (mark_cons hm' (by decide) (by decide))
    | define e' => rw [e] at e'; exact absurd (List.cons.inj e').1 (by decide)
    | expand hn => exact absurd hn (special_name (special_include e))
    | apply hn => exact absurd hn (special_name (special_include e))
    | «include» e' ht => rw [e] at e'; cases e'; exact absurd rfl ht
    | again e' ht => rw [e] at e'; cases e'; exact absurd rfl ht
    | defer e' _ h' => rw [e] at e'; cases e'; exact ih h'
    | word ho => exact absurd e (ho.2.2.2 _)
  | word ho hl _ ih =>
    cases h' with
    | comment hm' => exact absurd hm' ho.1
    | mark hm' => exact absurd hm' ho.2.1
    | define e' => exact absurd e' (ho.2.2.1 _)
    | expand hn hl' => rw [hl hn] at hl'; cases hl'
    | apply hn hl' => rw [hl hn] at hl'; cases hl'
    | «include» e' => exact absurd e' (ho.2.2.2 _)
    | again e' => exact absurd e' (ho.2.2.2 _)
    | defer e' => exact absurd e' (ho.2.2.2 _)
    | word _ _ h' => obtain ⟨rfl, rfl⟩ := ih h'; exact ⟨rfl, rfl⟩

theorem expandsEnd_unique {files : Files} {out out' : List Str} {e a b : Env} (h : ExpandsEnd files e out a) (h' : ExpandsEnd files e out' b) : out = out' ∧ a = b := by
  induction h generalizing out' b with
  | done e =>
    cases h' with
    | done => exact ⟨rfl, rfl⟩
    | «include» e' => rw [e] at e'; cases e'
    | again e' => rw [e] at e'; cases e'
  | «include» e hi hw h1 _ ih =>
    cases h' with
    | done e' => rw [e] at e'; cases e'
    | «include» e' _ hw' h1' h2' =>
      rw [e] at e'; cases e'
      cases words_unique hw hw'
      obtain ⟨rfl, rfl⟩ := expands_unique h1 h1'
      obtain ⟨rfl, rfl⟩ := ih h2'
      exact ⟨rfl, rfl⟩
    | again e' hi' => rw [e] at e'; cases e'; exact absurd hi' hi
  | again e hi _ ih =>
    cases h' with
    | done e' => rw [e] at e'; cases e'
    | «include» e' hi' => rw [e] at e'; cases e'; exact absurd hi hi'
    | again e' _ h' => rw [e] at e'; cases e'; exact ih h'

/-- **C87.** A program can be written out in one way at most. -/
theorem C87_one_expansion {files : Files} {main : Str} {out out' : List Str} {m m' : List (Str × List Str)} (h : Expansion files main out m) (h' : Expansion files main out' m') :
    out = out' ∧ m = m' := by
  obtain ⟨ws, o1, o2, e, e', h1, h2, h3, rfl, rfl⟩ := h
  obtain ⟨ws', p1, p2, f, f', g1, g2, g3, rfl, rfl⟩ := h'
  cases words_unique h1 g1
  obtain ⟨rfl, rfl⟩ := expands_unique h2 g2
  obtain ⟨rfl, rfl⟩ := expandsEnd_unique h3 g3
  exact ⟨rfl, rfl⟩

/-! ## A file that needs no writing out -/

theorem steps_within {files : Files} {ws : List Str} {s s' : State} (h : Runs ws s s') (hm : s.macros = []) (d : Nat) (active : List Str) : Within files d active ws s s' := by
  induction h with
  | nil => exact .done
  | cons h1 h2 _ ih => exact .word (fun _ => by rw [hm]; rfl) h1 h2 (ih (by rw [word_macros h2, hm]))

theorem within_steps {files : Files} {d : Nat} {active ws : List Str} {s s' : State} (h : Within files d active ws s s') (hm : s.macros = []) (ho : ∀ w ∈ ws, Ordinary w) : Runs ws s s' := by
  induction h with
  | done => exact .nil
  | comment h1 => exact absurd h1 (ho _ (by simp)).1
  | mark h1 => exact absurd h1 (ho _ (by simp)).2.1
  | define h1 => exact absurd h1 ((ho _ (by simp)).2.2.1 _)
  | expand _ h2 => rw [hm] at h2; cases h2
  | apply _ h2 => rw [hm] at h2; cases h2
  | «include» h1 => exact absurd h1 ((ho _ (by simp)).2.2.2 _)
  | again h1 => exact absurd h1 ((ho _ (by simp)).2.2.2 _)
  | defer h1 => exact absurd h1 ((ho _ (by simp)).2.2.2 _)
  | word _ h2 h3 _ ih => exact .cons h2 h3 (ih (by rw [word_macros h3, hm]) fun w hw => ho w (by simp [hw]))

theorem expands_ordinary {files : Files} {d : Nat} {active ws out : List Str} {e e' : Env} (h : Expands files d active ws e out e') : ∀ w ∈ out, Ordinary w := by
  induction h with
  | done => intro w h; cases h
  | comment _ _ _ ih => exact ih
  | mark _ _ ih => exact ih
  | define _ _ _ _ _ _ ih => exact ih
  | expand _ _ _ _ _ _ _ ih1 ih2 => exact fun w h => (List.mem_append.1 h).elim (ih1 w) (ih2 w)
  | apply _ _ _ _ _ _ _ _ ih1 ih2 => exact fun w h => (List.mem_append.1 h).elim (ih1 w) (ih2 w)
  | «include» _ _ _ _ _ _ _ ih1 ih2 => exact fun w h => (List.mem_append.1 h).elim (ih1 w) (ih2 w)
  | again _ _ _ _ _ ih => exact ih
  | defer _ _ _ ih => exact ih
  | word h1 _ _ ih =>
    intro w h
    rcases List.mem_cons.1 h with rfl | h
    · exact h1
    · exact ih w h

/-- Nothing is left to write out. -/
theorem C87_ordinary {files : Files} {main : Str} {out : List Str} {m : List (Str × List Str)} (h : Expansion files main out m) : ∀ w ∈ out, Ordinary w := by
  obtain ⟨ws, o1, o2, e, e', -, h2, h3, rfl, -⟩ := h
  have ends : ∀ {e o e'}, ExpandsEnd files e o e' → ∀ w ∈ o, Ordinary w := by
    intro e o e' h
    induction h with
    | done => intro w h; cases h
    | «include» _ _ _ h4 _ ih => exact fun w h => (List.mem_append.1 h).elim (expands_ordinary h4 w) (ih w)
    | again _ _ _ ih => exact ih
  exact fun w h => (List.mem_append.1 h).elim (expands_ordinary h2 w) (ends h3 w)

/-- The meaning of such a file. -/
theorem ordinary_program {files : Files} {main : Str} {out : List Str} (hw : Words files main out) (ho : ∀ w ∈ out, Ordinary w) (S : State) : ProgramWithin files main S ↔ Runs out {} S := by
  constructor
  · rintro ⟨ws, s1, h1, h2, h3⟩
    cases words_unique h1 hw
    have h4 := within_steps h2 rfl ho
    have he := h4.env
    have : s1.deferred = [] := congrArg Env.deferred he
    cases h3 with
    | done => exact h4
    | «include» e => rw [this] at e; cases e
    | again e => rw [this] at e; cases e
  · intro h
    refine ⟨out, S, hw, steps_within h rfl 0 [], .done (congrArg Env.deferred h.env)⟩

/-! ## C87 -/

/-- **C87.** A program that can be read can be written out, and what is written out, as one file, has the same meaning. -/
theorem C87_meaning {files : Files} {main : Str} {S : State} (h : ProgramWithin files main S) :
    ∃ out, Expansion files main out S.macros ∧ ∀ files' main', Words files' main' out → ∃ S', ProgramWithin files' main' S' ∧ SameCode S S' := by
  obtain ⟨ws, s1, h1, h2, h3⟩ := h
  obtain ⟨o1, a, b⟩ := within_expands h2
  obtain ⟨o2, a', b'⟩ := ends_expands h3
  have hx : Expansion files main (o1 ++ o2) S.macros := ⟨ws, o1, o2, _, _, h1, a, a', rfl, rfl⟩
  refine ⟨_, hx, fun files' main' hw => ?_⟩
  obtain ⟨u1, b1⟩ := b {} []
  obtain ⟨u2, b2⟩ := b' {} u1
  exact ⟨_, (ordinary_program hw (C87_ordinary hx) _).2 (b1.append b2), rfl⟩

/-- **C87.** And back: if a program can be written out and what is written out can be read, so can the program. -/
theorem C87_back {files files' : Files} {main main' : Str} {out : List Str} {m : List (Str × List Str)} (hx : Expansion files main out m) (hw : Words files' main' out) {S' : State}
    (h : ProgramWithin files' main' S') : ∃ S, ProgramWithin files main S ∧ SameCode S' S ∧ S.macros = m := by
  have hs := (ordinary_program hw (C87_ordinary hx) _).1 h
  obtain ⟨ws, o1, o2, e, e', h1, h2, h3, rfl, rfl⟩ := hx
  obtain ⟨t, a, b⟩ := hs.split
  obtain ⟨u1, c⟩ := expands_within h2 {} t [] a
  obtain ⟨u2, c'⟩ := expands_ends h3 t S' u1 b
  exact ⟨_, ⟨ws, _, h1, c, c'⟩, rfl, rfl⟩

theorem SameCode.symm {s s' : State} (h : SameCode s s') : SameCode s' s := by
  unfold SameCode at h ⊢
  rw [h]

theorem SameCode.writes {s s' : State} (h : SameCode s s') : s'.writes = s.writes := by rw [h]
theorem SameCode.labels {s s' : State} (h : SameCode s s') : s'.labels = s.labels := by rw [h]

/-- Being complete does not depend on the macros, but for their names. -/
theorem SameCode.complete {s s' : State} (h : SameCode s s') (hm : ∀ n b, s'.macros.lookup n = some b → ValidName n ∧ s'.labels.lookup n = none) (hc : Complete s) : Complete s' := by
  have hf : s'.find = s.find := by rw [h]; rfl
  refine ⟨?_, ?_, fun r hr => ?_, ?_, hm⟩
  · have : s'.places = s.places := by rw [h]; rfl
    rw [this]; exact hc.places
  · rw [h]; exact hc.opened
  · rw [hf]; exact hc.refs r (by rw [h] at hr; exact hr)
  · rw [h.labels]; exact hc.labels

/-- **C87.** A program is accepted if and only if it can be written out, what is written out is accepted, and the names of its macros are valid and no labels. -/
theorem C87_accepted {files files' : Files} (ht : Texts files) (ht' : Texts files') {main main' : Str} {out : List Str} {m : List (Str × List Str)} (hx : Expansion files main out m)
    (hw : Words files' main' out) (fuel fuel' : Nat) (b b' : Bool) (s s' : Asm) (h : assemble files fuel main = some (b, s)) (h' : assemble files' fuel' main' = some (b', s')) :
    b = true ↔ b' = true ∧ ∀ S', ProgramWithin files' main' S' → ∀ n x, m.lookup n = some x → ValidName n ∧ S'.labels.lookup n = none := by
  rw [C80_accepted_iff files ht main fuel b s h, C80_accepted_iff files' ht' main' fuel' b' s' h']
  constructor
  · rintro ⟨S, h1, h2⟩
    obtain ⟨out', hx', hall⟩ := C87_meaning h1
    obtain ⟨rfl, rfl⟩ := C87_one_expansion hx hx'
    obtain ⟨S', h3, h4⟩ := hall files' main' hw
    have h0 : S'.macros = [] := congrArg Env.macros ((ordinary_program hw (C87_ordinary hx) _).1 h3).env
    refine ⟨⟨S', h3, h4.complete (fun n b hb => by rw [h0] at hb; cases hb) h2⟩, fun T hT n x hn => ?_⟩
    cases C78_one_meaning h3.program hT.program
    rw [h4.labels]
    exact h2.macros n x hn
  · rintro ⟨⟨S', h1, h2⟩, h3⟩
    obtain ⟨S, h4, h5, rfl⟩ := C87_back hx hw h1
    exact ⟨S, h4, h5.complete (fun n x hn => by rw [h5.labels]; exact h3 S' h1 n x hn) h2⟩

/-- **C87.** If a program is accepted, it can be written out; any one file with just the words that are written out is accepted too, and its ROM is the same, byte for byte. -/
theorem C87_same_rom {files : Files} (ht : Texts files) (main : Str) (fuel : Nat) (s : Asm) (h : assemble files fuel main = some (true, s)) :
    ∃ out m, Expansion files main out m ∧ ∀ files' main' fuel' b' s', Texts files' → Words files' main' out → assemble files' fuel' main' = some (b', s') →
      b' = true ∧ written s.log = written s'.log ∧ image s.log = image s'.log ∧
        ∃ r r', putAll (written s.log).reverse emptyRom = some r ∧ putAll (written s'.log).reverse emptyRom = some r' ∧ romFile r = romFile r' := by
  obtain ⟨S, h1, -⟩ := C80_reasons files ht fuel main s h
  obtain ⟨out, hx, hall⟩ := C87_meaning h1
  refine ⟨out, _, hx, fun files' main' fuel' b' s' ht' hw h' => ?_⟩
  have hb := ((C87_accepted ht ht' hx hw fuel fuel' true b' s s' h h').1 rfl).1
  subst hb
  obtain ⟨S', h2, h3⟩ := hall files' main' hw
  obtain ⟨a1, a2, -⟩ := C78_image files ht fuel main s h S h1.program
  obtain ⟨b1, b2, -⟩ := C78_image files' ht' fuel' main' s' h' S' h2.program
  have hi : S'.image = S.image := by funext a; unfold State.image; rw [h3.writes]
  rw [h3.writes] at b1
  rw [hi] at b2
  obtain ⟨r, c1, c2, c3, c4⟩ := C38_rom_file files fuel main true s h
  obtain ⟨r', d1, d2, d3, d4⟩ := C38_rom_file files' fuel' main' true s' h'
  refine ⟨rfl, a1.trans b1.symm, a2.trans b2.symm, r, r', c1, d1, ?_⟩
  exact rom_unique c2 d2 c3 d3 fun a => by rw [c4, d4, a2, b2]

/-- **C87.** Programs that are written out alike have the same ROM, whatever their macros and files are. -/
theorem C87_same_expansion {files files' : Files} (ht : Texts files) (ht' : Texts files') {main main' : Str} {out : List Str} {m m' : List (Str × List Str)} (hx : Expansion files main out m)
    (hx' : Expansion files' main' out m') (fuel fuel' : Nat) (s s' : Asm) (h : assemble files fuel main = some (true, s)) (h' : assemble files' fuel' main' = some (true, s')) :
    written s.log = written s'.log ∧ image s.log = image s'.log ∧
      ∃ r r', putAll (written s.log).reverse emptyRom = some r ∧ putAll (written s'.log).reverse emptyRom = some r' ∧ romFile r = romFile r' := by
  obtain ⟨S, h1, -⟩ := C80_reasons files ht fuel main s h
  obtain ⟨S', h2, -⟩ := C80_reasons files' ht' fuel' main' s' h'
  have steps : ∀ {f : Files} {n : Str} {o : List Str} {k : List (Str × List Str)} {T : State}, Expansion f n o k → ProgramWithin f n T → ∃ T', Runs o {} T' ∧ SameCode T T' := by
    intro f n o k T hx hp
    obtain ⟨ws, s1, g1, g2, g3⟩ := id hp
    obtain ⟨o1, a, b⟩ := within_expands g2
    obtain ⟨o2, a', b'⟩ := ends_expands g3
    obtain ⟨u1, b1⟩ := b {} []
    obtain ⟨u2, b2⟩ := b' {} u1
    have hy : Expansion f n (o1 ++ o2) T.macros := ⟨ws, o1, o2, _, _, g1, a, a', rfl, rfl⟩
    obtain ⟨rfl, -⟩ := C87_one_expansion hx hy
    exact ⟨_, b1.append b2, rfl⟩
  obtain ⟨T, t1, t2⟩ := steps hx h1
  obtain ⟨T', t3, t4⟩ := steps hx' h2
  cases t1.unique t3
  have hw : S'.writes = S.writes := t4.writes.symm.trans t2.writes
  have hi : S'.image = S.image := by funext a; unfold State.image; rw [hw]
  obtain ⟨a1, a2, -⟩ := C78_image files ht fuel main s h S h1.program
  obtain ⟨b1, b2, -⟩ := C78_image files' ht' fuel' main' s' h' S' h2.program
  rw [hw] at b1
  rw [hi] at b2
  obtain ⟨r, c1, c2, c3, c4⟩ := C38_rom_file files fuel main true s h
  obtain ⟨r', d1, d2, d3, d4⟩ := C38_rom_file files' fuel' main' true s' h'
  refine ⟨a1.trans b1.symm, a2.trans b2.symm, r, r', c1, d1, ?_⟩
  exact rom_unique c2 d2 c3 d3 fun a => by rw [c4, d4, a2, b2]

/-! ## A program and what is written out -/

namespace Written

/-- A program with macros, one of which has an argument, with a file that is included and one that is included at the end. -/
def short : Files := filesOf [("m", " %N: { #^ } %M: { N: ^ ( twice ) INC } ~~z ~x M: 12 [ ?{ BRK } ] ~x"), ("x", " @go"), ("z", " ;go JMP2")]

/-- The same written out. -/
def long : Files := filesOf [("m", " @go #12 INC ?{ BRK } ;go JMP2")]

abbrev out : List Str := [str "@go", str "#12", str "INC", str "?{", str "BRK", str "}", str ";go", str "JMP2"]

abbrev ms : List (Str × List Str) := [(str "M:", [str "N:", str "^", str "(", str "twice", str ")", str "INC"]), (str "N:", [str "#^"])]

theorem ordinary {c : Byte} {r : Str} (h : c ∉ str "([]%~") : Ordinary (c :: r) := by
  have : c ≠ ch '(' ∧ c ≠ ch '[' ∧ c ≠ ch ']' ∧ c ≠ ch '%' ∧ c ≠ ch '~' := by
    refine ⟨?_, ?_, ?_, ?_, ?_⟩ <;> (rintro rfl; exact h (by decide))
  refine ⟨fun h => this.1 (Option.some.inj h), ?_, fun n e => this.2.2.2.1 (List.cons.inj e).1, fun n e => this.2.2.2.2 (List.cons.inj e).1⟩
  rintro (h | h)
  · exact this.2.1 (Option.some.inj h)
  · exact this.2.2.1 (List.cons.inj h).1

theorem nameN : IsName (str "N:") := isName_of (by intro c hc; cases hc; rfl) (by decide +kernel) (by decide +kernel)
theorem nameM : IsName (str "M:") := isName_of (by intro c hc; cases hc; rfl) (by decide +kernel) (by decide +kernel)

theorem expansion : Expansion short (str "m") out ms := by
  refine ⟨[str "%N:", str "{", str "#^", str "}", str "%M:", str "{", str "N:", str "^", str "(", str "twice", str ")", str "INC", str "}", str "~~z", str "~x", str "M:", str "12", str "[", str "?{",
    str "BRK", str "}", str "]", str "~x"], [str "@go"] ++ (([str "#12"] ++ [str "INC"]) ++ [str "?{", str "BRK", str "}"]), [str ";go", str "JMP2"] ++ [],
    { macros := ms, included := [str "x"], deferred := [str "z"] }, { macros := ms, included := [str "z", str "x"] }, ?_, ?_, ?_, rfl, rfl⟩
  · exact words_of (str " %N: { #^ } %M: { N: ^ ( twice ) INC } ~~z ~x M: 12 [ ?{ BRK } ] ~x") _ rfl (by decide +kernel) (by decide +kernel)
  · refine .define (name := str "N:") rfl nameN rfl .brace rfl ?_
    refine .define (name := str "M:") rfl nameM rfl .brace rfl ?_
    refine .defer (name := str "z") rfl (by decide) ?_
    refine .include (name := str "x") (inner := [str "@go"]) rfl (by decide) (by decide) (by decide) ?_ (.word (ordinary (by decide)) (fun _ => rfl) .done) ?_
    · exact words_of (str " @go") _ rfl (by decide +kernel) (by decide +kernel)
    refine .apply (e1 := { macros := ms, included := [str "x"], deferred := [str "z"] }) nameM rfl (by decide) (by decide) (by decide) (by unfold Short?; decide) ?_ ?_
    · refine .apply (arg := str "12") nameN rfl (by decide) (by decide) (by decide) (by unfold Short?; decide) (.word (ordinary (by decide)) (fun _ => rfl) .done) ?_
      refine .comment (by unfold IsComment; decide) (show _ = some _ from rfl) ?_
      exact .word (ordinary (by decide)) (fun _ => rfl) .done
    · refine .mark (.inl (by decide)) ?_
      refine .word (ordinary (by decide)) (fun _ => rfl) (.word (ordinary (by decide)) (fun _ => rfl) (.word (ordinary (by decide)) (fun _ => rfl) ?_))
      exact .mark (.inr rfl) (.again (name := str "x") rfl (by decide) (by decide) (by decide) .done)
  · refine .include (name := str "z") (inner := [str ";go", str "JMP2"]) rfl (by decide) ?_ ?_ (.done rfl)
    · exact words_of (str " ;go JMP2") _ rfl (by decide +kernel) (by decide +kernel)
    · exact .word (ordinary (by decide)) (fun _ => rfl) (.word (ordinary (by decide)) (fun _ => rfl) .done)

theorem words : Words long (str "m") out := words_of (str " @go #12 INC ?{ BRK } ;go JMP2") _ rfl (by decide +kernel) (by decide +kernel)

/-- Both are accepted, and their ROM is the same. -/
theorem both : outcome [("m", " %N: { #^ } %M: { N: ^ ( twice ) INC } ~~z ~x M: 12 [ ?{ BRK } ] ~x"), ("x", " @go"), ("z", " ;go JMP2")] =
    outcome [("m", " @go #12 INC ?{ BRK } ;go JMP2")] ∧ (outcome [("m", " @go #12 INC ?{ BRK } ;go JMP2")]).map (·.1) = some true := by decide +kernel

end Written

end Buxn.Asm.Meaning
