import Verif.Asm.Meaning
/-!
# C80: which sources are accepted

What a source has to be, beyond having a meaning (C78), so that the assembler turns it into a ROM: the limits on the depth of
includes and macros and on the length of what is expanded, and conditions on the finished program.
-/

namespace Buxn.Asm.Meaning
open Buxn.VM Buxn.Asm Buxn.Asm.Spec

/-- Includes and macros may be nested this deep. -/
def DEPTH : Nat := 32

/-- The length of a word, and of a text. -/
def WORD : Nat := 47
def TEXT : Nat := 1024

/-- A word that is the result of an expansion is not too long. -/
def Short? (w : Str) : Prop := w.length ≤ if w.head? = some (ch '"') then TEXT else WORD

/-- A word that looks like a number, whether or not it is one. -/
def Numeric (w : Str) : Prop := w ≠ [] ∧ (HexDigits w ∨ ∃ ds, DecDigits ds ∧ (w = str "+" ++ ds ∨ w = str "++" ++ ds))

/-- What may be the name of a label or of a macro. -/
def ValidName (w : Str) : Prop := w ≠ [] ∧ IsName w ∧ ¬ Numeric w

/-- The full name of a local label is not too long. -/
def Fits (w : Str) (s : State) : Prop := ∀ rest, w = ch '&' :: rest → (s.scope ++ str "/" ++ rest).length ≤ WORD

/-- The meaning of words (`Reads`) within the limits: `d` is the depth at which they are read, and `active` are the macros that are being
expanded there. -/
inductive Within (files : Files) : Nat → List Str → List Str → State → State → Prop
  | done {d : Nat} {active : List Str} {s : State} : Within files d active [] s s
  | comment {d : Nat} {active : List Str} {w : Str} {ws rest : List Str} {s s' : State} : IsComment w → comment 1 ws = some rest →
      Within files d active rest s s' → Within files d active (w :: ws) s s'
  | mark {d : Nat} {active : List Str} {w : Str} {ws : List Str} {s s' : State} : IsMark w → Within files d active ws s s' → Within files d active (w :: ws) s s'
  | define {d : Nat} {active : List Str} {w name : Str} {ws ws' b rest : List Str} {s s' : State} : w = ch '%' :: name → IsName name →
      s.macros.lookup name = none → Opens ws ws' → body 1 ws' = some (b, rest) →
      Within files d active rest { s with macros := (name, b) :: s.macros } s' → Within files d active (w :: ws) s s'
  /-- not too deep, and not within itself -/
  | expand {d : Nat} {active : List Str} {w : Str} {b ws : List Str} {s s1 s' : State} : IsName w → s.macros.lookup w = some b → w.getLast? ≠ some (ch ':') →
      d < DEPTH → w ∉ active → Within files (d + 1) (w :: active) b { s with used := w :: s.used } s1 → Within files d active ws s1 s' → Within files d active (w :: ws) s s'
  | apply {d : Nat} {active : List Str} {w arg : Str} {b ws : List Str} {s s1 s' : State} : IsName w → s.macros.lookup w = some b → w.getLast? = some (ch ':') →
      d < DEPTH → w ∉ active → (∀ v ∈ b, Short? (replace arg v)) → Within files (d + 1) (w :: active) (b.map (replace arg)) { s with used := w :: s.used } s1 →
      Within files d active ws s1 s' → Within files d active (w :: arg :: ws) s s'
  /-- not too deep -/
  | include {d : Nat} {active : List Str} {w name : Str} {inner ws : List Str} {s s1 s' : State} : w = ch '~' :: name → name.head? ≠ some (ch '~') →
      d < DEPTH → name ∉ s.included → Words files name inner → Within files (d + 1) active inner { s with included := name :: s.included } s1 →
      Within files d active ws s1 s' → Within files d active (w :: ws) s s'
  | again {d : Nat} {active : List Str} {w name : Str} {ws : List Str} {s s' : State} : w = ch '~' :: name → name.head? ≠ some (ch '~') →
      d < DEPTH → name ∈ s.included → Within files d active ws s s' → Within files d active (w :: ws) s s'
  | defer {d : Nat} {active : List Str} {w name : Str} {ws : List Str} {s s' : State} : w = ch '~' :: ch '~' :: name → d < DEPTH →
      Within files d active ws (if name ∈ s.included then s else { s with deferred := s.deferred ++ [name] }) s' → Within files d active (w :: ws) s s'
  | word {d : Nat} {active : List Str} {w : Str} {ws : List Str} {s s1 s' : State} : (IsName w → s.macros.lookup w = none) → Fits w s → Word w s s1 →
      Within files d active ws s1 s' → Within files d active (w :: ws) s s'

/-- The files that are included at the end (`Ends`), within the limits. -/
inductive EndsWithin (files : Files) : State → State → Prop
  | done {s : State} : s.deferred = [] → EndsWithin files s s
  | include {s s1 s' : State} {name : Str} {rest inner : List Str} : s.deferred = name :: rest → name ∉ s.included → Words files name inner →
      Within files 1 [] inner { s with deferred := rest, included := name :: s.included } s1 → EndsWithin files s1 s' → EndsWithin files s s'
  | again {s s' : State} {name : Str} {rest : List Str} : s.deferred = name :: rest → name ∈ s.included → EndsWithin files { s with deferred := rest } s' →
      EndsWithin files s s'

/-- The meaning of a program (`Program`), within the limits. -/
def ProgramWithin (files : Files) (main : Str) (s : State) : Prop :=
  ∃ ws s1, Words files main ws ∧ Within files 0 [] ws {} s1 ∧ EndsWithin files s1 s

/-- A finished program is complete: nothing is put into the zero page, every lambda is closed, every reference has a target that it
reaches, names are valid, and no label has the name of a macro. -/
structure Complete (s : State) : Prop where
  places : ∀ a ∈ s.places, 0x100 ≤ a.toNat
  opened : s.opened = []
  refs : ∀ r ∈ s.refs, ∃ l, s.find r.target = some l ∧ InReach r.kind r.size r.addr l
  labels : ∀ n a, s.labels.lookup n = some a → ValidName n
  macros : ∀ n b, s.macros.lookup n = some b → ValidName n ∧ s.labels.lookup n = none

/-- The words mean what they mean. -/
theorem Within.reads {files : Files} {d : Nat} {active ws : List Str} {s s' : State} (h : Within files d active ws s s') : Reads files ws s s' := by
  induction h with
  | done => exact .done
  | comment a b _ ih => exact .comment a b ih
  | mark a _ ih => exact .mark a ih
  | define a b c e f _ ih => exact .define a b c e f ih
  | expand a b c _ _ _ _ ih1 ih2 => exact .expand a b c ih1 ih2
  | apply a b c _ _ _ _ _ ih1 ih2 => exact .apply a b c ih1 ih2
  | «include» a b _ c e _ _ ih1 ih2 => exact .include a b c e ih1 ih2
  | again a b _ c _ ih => exact .again a b c ih
  | defer a _ _ ih => exact .defer a ih
  | word a _ b _ ih => exact .word a b ih

theorem EndsWithin.ends {files : Files} {s s' : State} (h : EndsWithin files s s') : Ends files s s' := by
  induction h with
  | done a => exact .done a
  | «include» a b c e _ ih => exact .include a b c e.reads ih
  | again a b _ ih => exact .again a b ih

theorem ProgramWithin.program {files : Files} {main : Str} {s : State} (h : ProgramWithin files main s) : Program files main s := by
  obtain ⟨ws, s1, h1, h2, h3⟩ := h
  exact ⟨ws, s1, h1, h2.reads, h3.ends⟩

/-! ## The state grows -/

/-- Lambdas that are open are not closed, and numbers are not used twice. -/
structure Fresh (s : State) : Prop where
  nodup : s.opened.Nodup
  opened : ∀ k ∈ s.opened, k < s.count ∧ s.closed.lookup k = none
  closed : ∀ k a, s.closed.lookup k = some a → k < s.count

/-- What has been put and defined stays. -/
structure Grows (s s' : State) : Prop where
  bytes : ∀ p ∈ s.bytes, p ∈ s'.bytes
  refs : ∀ r ∈ s.refs, r ∈ s'.refs
  labels : ∀ n a, s.labels.lookup n = some a → s'.labels.lookup n = some a
  macros : ∀ n b, s.macros.lookup n = some b → s'.macros.lookup n = some b
  closed : ∀ k a, s.closed.lookup k = some a → s'.closed.lookup k = some a

theorem Grows.refl (s : State) : Grows s s := ⟨fun _ h => h, fun _ h => h, fun _ _ h => h, fun _ _ h => h, fun _ _ h => h⟩

theorem Grows.trans {a b c : State} (h : Grows a b) (h' : Grows b c) : Grows a c :=
  ⟨fun p x => h'.bytes p (h.bytes p x), fun p x => h'.refs p (h.refs p x), fun p q x => h'.labels p q (h.labels p q x), fun p q x => h'.macros p q (h.macros p q x),
    fun p q x => h'.closed p q (h.closed p q x)⟩

end Buxn.Asm.Meaning
