import Verif.Asm.Expansion
/-!
# C88: the names of labels do not matter

Labels can be renamed, as long as different labels keep different names, and labels without a name can be given one. The ROM stays the same.

This is about programs that are written out (C87), so that there are no macros between the labels.
-/

namespace Buxn.Asm.Meaning
open Buxn.VM Buxn.Asm Buxn.Asm.Spec

/-! ## Specification -/

/-- How labels are renamed: `R n n'` if `n` is now called `n'`. -/
structure Renaming (R : Str → Str → Prop) : Prop where
  one : ∀ a b b', R a b → R a b' → b = b'
  different : ∀ a a' b, R a b → R a' b → a = a'

/-- A word that does not mention a label: it does not define one, it is not a name, it is not a reference except to a lambda, and padding is by a number. -/
def NoLabel (w : Str) : Prop :=
  (∀ c, w.head? = some c → c ∉ str "@&/") ∧ ¬ IsName w ∧ (∀ r rest, w = r :: rest → r ∈ str ".-,_;=!?" → rest = str "{") ∧
  ∀ rest, w = ch '|' :: rest ∨ w = ch '$' :: rest → ∃ v, Amount rest v

/-- The texts of two references in two scopes are about a label under its two names. -/
def Called (R : Str → Str → Prop) (sc sc' a b : Str) : Prop := ∃ n n', fullName sc a = some n ∧ fullName sc' b = some n' ∧ R n n'

/-- A new name: not that of another label of the second program. -/
def New (R : Str → Str → Prop) (F : List Str) (m : Str) : Prop := (∀ n, ¬ R n m) ∧ m ∉ F ∧ ValidName m

/-- The words of two programs that differ in the names of labels. `sc` and `sc'` are the scopes, `st` are the anonymous labels that are not used yet: with the name that each of them has in the second
program, if any. `F` are all these names. Anonymous labels get names only if `x`. -/
inductive Renamed (R : Str → Str → Prop) (x : Bool) : Str → Str → List (Option Str) → List Str → List Str → List Str → Prop
  | done {sc sc' : Str} {st : List (Option Str)} {F : List Str} : Renamed R x sc sc' st F [] []
  | same {sc sc' w : Str} {st : List (Option Str)} {F ws ws' : List Str} : NoLabel w → Renamed R x sc sc' st F ws ws' → Renamed R x sc sc' st F (w :: ws) (w :: ws')
  /-- a reference with a rune -/
  | ref {sc sc' a b : Str} {r : Byte} {st : List (Option Str)} {F ws ws' : List Str} : r ∈ str ".-,_;=!?" → Called R sc sc' a b → Renamed R x sc sc' st F ws ws' →
      Renamed R x sc sc' st F ((r :: a) :: ws) ((r :: b) :: ws')
  /-- a call -/
  | call {sc sc' a b : Str} {st : List (Option Str)} {F ws ws' : List Str} : (IsName a ∨ a.head? = some (ch '/')) → (IsName b ∨ b.head? = some (ch '/')) → Called R sc sc' a b →
      Renamed R x sc sc' st F ws ws' → Renamed R x sc sc' st F (a :: ws) (b :: ws')
  /-- padding up to a label, or by its address -/
  | pad {sc sc' a b : Str} {r : Byte} {st : List (Option Str)} {F ws ws' : List Str} : r ∈ str "|$" → (¬ ∃ v, Amount a v) → (¬ ∃ v, Amount b v) → Called R sc sc' a b →
      Renamed R x sc sc' st F ws ws' → Renamed R x sc sc' st F ((r :: a) :: ws) ((r :: b) :: ws')
  | label {sc sc' a b : Str} {st : List (Option Str)} {F ws ws' : List Str} : a ≠ str "@" → b ≠ str "@" → R a b → ValidName b →
      Renamed R x (a.takeWhile (· ≠ ch '/')) (b.takeWhile (· ≠ ch '/')) st F ws ws' → Renamed R x sc sc' st F ((ch '@' :: a) :: ws) ((ch '@' :: b) :: ws')
  | sublabel {sc sc' a b : Str} {st : List (Option Str)} {F ws ws' : List Str} : R (sc ++ str "/" ++ a) (sc' ++ str "/" ++ b) → ValidName (sc' ++ str "/" ++ b) →
      (sc' ++ str "/" ++ b).length ≤ WORD → Renamed R x sc sc' st F ws ws' → Renamed R x sc sc' st F ((ch '&' :: a) :: ws) ((ch '&' :: b) :: ws')
  /-- an anonymous label -/
  | anonymous {sc sc' : Str} {st : List (Option Str)} {F ws ws' : List Str} : Renamed R x sc sc' (none :: st) F ws ws' → Renamed R x sc sc' st F (str "@@" :: ws) (str "@@" :: ws')
  | anonymousRef {sc sc' : Str} {r : Byte} {st : List (Option Str)} {F ws ws' : List Str} : r ∈ str ".-,_;=!?|$" → Renamed R x sc sc' st F ws ws' →
      Renamed R x sc sc' (none :: st) F ((r :: str "@") :: ws) ((r :: str "@") :: ws')
  /-- an anonymous label that gets a name -/
  | named {sc sc' b : Str} {st : List (Option Str)} {F ws ws' : List Str} : x = true → New R F (sc' ++ str "/" ++ b) → (sc' ++ str "/" ++ b).length ≤ WORD →
      Renamed R x sc sc' (some (sc' ++ str "/" ++ b) :: st) ((sc' ++ str "/" ++ b) :: F) ws ws' → Renamed R x sc sc' st F (str "@@" :: ws) ((ch '&' :: b) :: ws')
  | namedRef {sc sc' b m : Str} {r : Byte} {st : List (Option Str)} {F ws ws' : List Str} : x = true → r ∈ str ".-,_;=!?" → fullName sc' b = some m → Renamed R x sc sc' st F ws ws' →
      Renamed R x sc sc' (some m :: st) F ((r :: str "@") :: ws) ((r :: b) :: ws')
  | namedPad {sc sc' b m : Str} {r : Byte} {st : List (Option Str)} {F ws ws' : List Str} : x = true → r ∈ str "|$" → (¬ ∃ v, Amount b v) → fullName sc' b = some m →
      Renamed R x sc sc' st F ws ws' → Renamed R x sc sc' (some m :: st) F ((r :: str "@") :: ws) ((r :: b) :: ws')

/-- Two programs that are written out, from the start. -/
abbrev RenamedProgram (R : Str → Str → Prop) (x : Bool) : List Str → List Str → Prop := Renamed R x (str "RESET") (str "RESET") [] []

/-! ## Two states -/

inductive TargetLike (R : Str → Str → Prop) (F : List Str) (L : List (Str × Short)) : Target → Target → Prop
  | name {n n' : Str} : R n n' → TargetLike R F L (.name n) (.name n')
  | place {a : Short} : TargetLike R F L (.place a) (.place a)
  | lambda {k : Nat} : TargetLike R F L (.lambda k) (.lambda k)
  | named {a : Short} {m : Str} : m ∈ F → L.lookup m = some a → TargetLike R F L (.place a) (.name m)

def RefLike (R : Str → Str → Prop) (F : List Str) (L : List (Str × Short)) (r r' : Reference) : Prop :=
  r'.addr = r.addr ∧ r'.kind = r.kind ∧ r'.size = r.size ∧ TargetLike R F L r.target r'.target

inductive Stack (F : List Str) (L : List (Str × Short)) : List Short → List (Option Str) → List Short → Prop
  | nil : Stack F L [] [] []
  | plain {a : Short} {A A' : List Short} {st : List (Option Str)} : Stack F L A st A' → Stack F L (a :: A) (none :: st) (a :: A')
  | given {a : Short} {m : Str} {A A' : List Short} {st : List (Option Str)} : m ∈ F → L.lookup m = some a → Stack F L A st A' → Stack F L (a :: A) (some m :: st) A'

structure Like (R : Str → Str → Prop) (st : List (Option Str)) (F : List Str) (s s' : State) : Prop where
  addr : s'.addr = s.addr
  bytes : s'.bytes = s.bytes
  writes : s'.writes = s.writes
  opened : s'.opened = s.opened
  count : s'.count = s.count
  closed : s'.closed = s.closed
  labels : ∀ n n', R n n' → s'.labels.lookup n' = s.labels.lookup n
  known' : ∀ m a, s'.labels.lookup m = some a → ((∃ n, R n m) ∨ m ∈ F) ∧ ValidName m
  refs : List.Forall₂ (RefLike R F s'.labels) s.refs s'.refs
  stack : Stack F s'.labels s.anonymous st s'.anonymous
  fresh : ∀ m ∈ F, ∀ n, ¬ R n m

variable {R : Str → Str → Prop} {x : Bool} {st : List (Option Str)} {F : List Str} {s s' s1 : State}

theorem Like.put (h : Like R st F s s') (bs : List Byte) : Like R st F (s.put bs) (s'.put bs) := by
  rw [put_eq, put_eq]
  exact ⟨by rw [h.addr], by rw [h.addr, h.bytes], by rw [h.addr, h.writes], h.opened, h.count, h.closed, h.labels, h.known', h.refs, h.stack, h.fresh⟩

theorem Like.at (h : Like R st F s s') (a : Short) : Like R st F { s with addr := a } { s' with addr := a } :=
  ⟨rfl, h.bytes, h.writes, h.opened, h.count, h.closed, h.labels, h.known', h.refs, h.stack, h.fresh⟩

theorem Like.scoped (h : Like R st F s s') (a b : Str) : Like R st F { s with scope := a } { s' with scope := b } :=
  ⟨h.addr, h.bytes, h.writes, h.opened, h.count, h.closed, h.labels, h.known', h.refs, h.stack, h.fresh⟩

theorem Like.mention (h : Like R st F s s') (u u' : List Str) : Like R st F { s with used := u } { s' with used := u' } :=
  ⟨h.addr, h.bytes, h.writes, h.opened, h.count, h.closed, h.labels, h.known', h.refs, h.stack, h.fresh⟩

theorem Like.find (h : Like R st F s s') {t t' : Target} (ht : TargetLike R F s'.labels t t') : s'.find t' = s.find t := by
  cases ht with
  | name hr => exact h.labels _ _ hr
  | place => rfl
  | lambda => show s'.closed.lookup _ = _; rw [h.closed]; rfl
  | named _ hl => exact hl

/-- A reference is put. -/
theorem Like.refer (h : Like R st F s s') {t t' : Target} (ht : TargetLike R F s'.labels t t') (k : RefKind) (z : RefSize) : Like R st F (s.refer k z t) (s'.refer k z t') := by
  have hs : Reference.spell ⟨s'.addr, k, z, t'⟩ (s'.find t') = Reference.spell ⟨s.addr, k, z, t⟩ (s.find t) := by
    rw [h.find ht, h.addr]
    cases s.find t <;> rfl
  refine ⟨?_, h.bytes, ?_, h.opened, h.count, h.closed, h.labels, h.known', ?_, h.stack, h.fresh⟩
  · show s'.addr + _ = s.addr + _; rw [h.addr]
  · show Reference.spell _ _ ++ s'.writes = Reference.spell _ _ ++ s.writes
    rw [hs, h.writes]
  · exact .cons ⟨h.addr, rfl, rfl, ht⟩ h.refs

/-- What is filled in. -/
theorem fill_like {refs refs' : List Reference} {L : List (Str × Short)} (h : List.Forall₂ (RefLike R F L) refs refs') {t t' : Target} (a : Short)
    (ht : ∀ u u', TargetLike R F L u u' → (u = t ↔ u' = t')) :
    ((refs'.filter fun r => r.target = t').reverse.flatMap fun r => r.spell (some a)) = (refs.filter fun r => r.target = t).reverse.flatMap fun r => r.spell (some a) := by
  have : List.Forall₂ (RefLike R F L) (refs.filter fun r => r.target = t) (refs'.filter fun r => r.target = t') := by
    induction h with
    | nil => exact .nil
    | cons h1 _ ih =>
      rename_i r r' l l' _
      have hi := ht _ _ h1.2.2.2
      by_cases hr : r.target = t
      · rw [List.filter_cons_of_pos (by simpa using hr), List.filter_cons_of_pos (by simpa using hi.1 hr)]
        exact .cons h1 ih
      · rw [List.filter_cons_of_neg (by simpa using hr), List.filter_cons_of_neg (by simpa using fun e => hr (hi.2 e))]
        exact ih
  have this := List.rel_reverse this
  generalize (refs.filter fun r => r.target = t).reverse = l at this
  generalize (refs'.filter fun r => r.target = t').reverse = l' at this
  induction this with
  | nil => rfl
  | cons h1 _ ih =>
    rw [List.flatMap_cons, List.flatMap_cons, ih]
    congr 1
    obtain ⟨e1, e2, e3, -⟩ := h1
    unfold Reference.spell
    rw [e1, e2, e3]

theorem lookup_grow {L : List (Str × Short)} {n m : Str} {a b : Short} (hn : L.lookup n = none) (hm : L.lookup m = some b) : List.lookup m ((n, a) :: L) = some b := by
  rw [lookup_cons, if_neg]
  · exact hm
  · rintro rfl; rw [hn] at hm; cases hm

theorem TargetLike.grow {L : List (Str × Short)} {F F' : List Str} {n : Str} {a : Short} (hn : L.lookup n = none) (hF : ∀ m ∈ F, m ∈ F') {t t' : Target} (h : TargetLike R F L t t') :
    TargetLike R F' ((n, a) :: L) t t' := by
  cases h with
  | name h => exact .name h
  | place => exact .place
  | lambda => exact .lambda
  | named h1 h2 => exact .named (hF _ h1) (lookup_grow hn h2)

theorem refs_grow {L : List (Str × Short)} {F F' : List Str} {n : Str} {a : Short} (hn : L.lookup n = none) (hF : ∀ m ∈ F, m ∈ F') {l l' : List Reference} (h : List.Forall₂ (RefLike R F L) l l') :
    List.Forall₂ (RefLike R F' ((n, a) :: L)) l l' := h.imp fun _ _ ⟨a, b, c, d⟩ => ⟨a, b, c, d.grow hn hF⟩

theorem Stack.grow {L : List (Str × Short)} {F F' : List Str} {n : Str} {a : Short} (hn : L.lookup n = none) (hF : ∀ m ∈ F, m ∈ F') {A A' : List Short} {st : List (Option Str)} (h : Stack F L A st A') :
    Stack F' ((n, a) :: L) A st A' := by
  induction h with
  | nil => exact .nil
  | plain _ ih => exact .plain ih
  | given h1 h2 _ ih => exact .given (hF _ h1) (lookup_grow hn h2) ih

/-- A label is defined under its two names. -/
theorem Like.define (hR : Renaming R) (h : Like R st F s s') {n n' : Str} (hr : R n n') (hv : ValidName n') (hd : Defines n s s1) : ∃ s1', Defines n' s' s1' ∧ Like R st F s1 s1' := by
  obtain ⟨hn, rfl⟩ := hd
  have hn' : s'.labels.lookup n' = none := by rw [h.labels _ _ hr, hn]
  refine ⟨_, ⟨hn', rfl⟩, h.addr, h.bytes, ?_, h.opened, h.count, h.closed, ?_, ?_, refs_grow hn' (fun _ h => h) h.refs, h.stack.grow hn' (fun _ h => h), h.fresh⟩
  · show s'.fill _ ++ s'.writes = s.fill _ ++ s.writes
    rw [h.writes]
    congr 1
    unfold State.fill
    rw [h.addr]
    refine fill_like h.refs _ fun u u' hu => ?_
    cases hu with
    | name hr' =>
      constructor
      · intro e; cases e; rw [hR.one _ _ _ hr hr']
      · intro e; cases e; rw [hR.different _ _ _ hr hr']
    | place => exact ⟨nofun, nofun⟩
    | lambda => exact ⟨nofun, nofun⟩
    | named hm _ => exact ⟨nofun, fun e => by cases e; exact absurd hr (h.fresh _ hm _)⟩
  · intro p p' hp
    show List.lookup p' ((n', s'.addr) :: s'.labels) = List.lookup p ((n, s.addr) :: s.labels)
    rw [lookup_cons, lookup_cons]
    by_cases e : p = n
    · subst e
      rw [if_pos rfl, if_pos (hR.one _ _ _ hp hr), h.addr]
    · rw [if_neg e, if_neg (show ¬ p' = n' from fun e' => e (hR.different _ _ _ hp (e' ▸ hr))), h.labels _ _ hp]
  · intro m a hm
    replace hm : List.lookup m ((n', s'.addr) :: s'.labels) = some a := hm
    rw [lookup_cons] at hm
    by_cases e : m = n'
    · exact ⟨.inl ⟨n, e ▸ hr⟩, e ▸ hv⟩
    · rw [if_neg e] at hm; exact h.known' m a hm

/-- An anonymous label gets a name. -/
theorem Like.name (h : Like R st F s s') {m : Str} (hm : New R F m) :
    ∃ s1', Defines m s' s1' ∧ s1'.scope = s'.scope ∧ Like R (some m :: st) (m :: F) { s with anonymous := s.addr :: s.anonymous } s1' := by
  obtain ⟨h1, h2, h3⟩ := hm
  have hn' : s'.labels.lookup m = none := by
    cases hl : s'.labels.lookup m with
    | none => rfl
    | some a =>
      rcases (h.known' m a hl).1 with ⟨n, hn⟩ | hf
      · exact absurd hn (h1 n)
      · exact absurd hf h2
  refine ⟨_, ⟨hn', rfl⟩, rfl, h.addr, h.bytes, ?_, h.opened, h.count, h.closed, ?_, ?_, refs_grow hn' (fun _ h => by simp [h]) h.refs, ?_, ?_⟩
  · show s'.fill _ ++ s'.writes = s.writes
    have : s'.fill (.name m) = [] := by
      unfold State.fill
      rw [List.filter_eq_nil_iff.2]
      · rfl
      · intro r hr
        have key : ∀ {l l' : List Reference}, List.Forall₂ (RefLike R F s'.labels) l l' → ∀ r ∈ l', r.target ≠ .name m := by
          intro l l' hl
          induction hl with
          | nil => intro r hr; cases hr
          | cons hh _ ih =>
            intro r hr
            rcases List.mem_cons.1 hr with rfl | hr
            · intro e
              have hx := hh.2.2.2
              rw [e] at hx
              generalize Reference.target _ = u at hx
              cases hx with
              | name hr => exact h1 _ hr
              | named hf _ => exact h2 hf
            · exact ih r hr
        simpa using key h.refs r hr
    rw [this, h.writes]; rfl
  · intro p p' hp
    show List.lookup p' ((m, s'.addr) :: s'.labels) = _
    rw [lookup_cons, if_neg (show ¬ p' = m from fun e => h1 p (e ▸ hp)), h.labels _ _ hp]
  · intro p a hp
    replace hp : List.lookup p ((m, s'.addr) :: s'.labels) = some a := hp
    rw [lookup_cons] at hp
    by_cases e : p = m
    · subst e; exact ⟨.inr (by simp), h3⟩
    · rw [if_neg e] at hp
      obtain ⟨a1, a2⟩ := h.known' p a hp
      exact ⟨a1.imp_right fun h => by simp [h], a2⟩
  · refine .given (by simp) ?_ (h.stack.grow hn' fun _ h => by simp [h])
    rw [lookup_cons, if_pos rfl, h.addr]
  · intro p hp
    rcases List.mem_cons.1 hp with rfl | hp
    · exact h1
    · exact h.fresh p hp

/-! ## Words -/

theorem ref_rune {r : Byte} (h : r ∈ str ".-,_;=!?") : ∃ op k z, runes.lookup r = some (op, k, z) := by
  have : (runes.lookup r).isSome = true := by
    revert h; revert r; decide +kernel
  obtain ⟨⟨op, k, z⟩, e⟩ := Option.isSome_iff_exists.1 this
  exact ⟨op, k, z, e⟩

theorem rune_ref {r : Byte} {y : Option Byte × RefKind × RefSize} (h : runes.lookup r = some y) : r ∈ str ".-,_;=!?" := by
  have : (runes.lookup r).isSome = true := by rw [h]; rfl
  clear h; revert this; revert r; decide +kernel

theorem word_ref {r : Byte} {op : Option Byte} {k : RefKind} {z : RefSize} (h : runes.lookup r = some (op, k, z)) (a : Str) (s s' : State) :
    Word (r :: a) s s' ↔ Refers a k z (s.put op.toList) s' := by
  unfold Word
  dsimp only
  rw [h]

theorem word_call {w : Str} (h : IsName w ∨ w.head? = some (ch '/')) (s s' : State) (hw : Word w s s') : Refers w .rel .short (s.put [0x60]) s' := by
  cases w with
  | nil => exact hw.elim
  | cons c rest =>
    unfold Word at hw
    dsimp only at hw
    rcases h with h | h
    · have hc := h.1 c rfl
      have : runes.lookup c = none ∧ c ≠ ch '#' ∧ c ≠ ch '"' ∧ c ≠ ch '|' ∧ c ≠ ch '$' ∧ c ≠ ch '@' ∧ c ≠ ch '&' ∧ c ≠ ch '}' ∧ c ≠ ch '{' ∧ c ≠ ch '/' := by
        clear * - hc; revert hc; revert c; decide +kernel
      obtain ⟨a0, a1, a2, a3, a4, a5, a6, a7, a8, a9⟩ := this
      rw [a0] at hw
      dsimp only at hw
      rw [if_neg a1, if_neg a2, if_neg a3, if_neg a4, if_neg (show ¬ (c :: rest = str "@@") from fun e => a5 (List.cons.inj e).1), if_neg a5, if_neg a6, if_neg (show ¬ (c :: rest = str "}") from fun e => a7 (List.cons.inj e).1),
        if_neg (by rintro (e | e); exact a8 (List.cons.inj e).1; exact a9 e)] at hw
      rcases hw with ⟨v, k, hl, -⟩ | ⟨-, i, op, hm, -⟩ | ⟨-, hr⟩
      · exact absurd ⟨v, k, hl⟩ h.2.1
      · exact absurd ⟨i, hm⟩ h.2.2
      · exact hr
    · cases h
      rw [show runes.lookup (ch '/') = none from rfl] at hw
      dsimp only at hw
      rw [if_neg (by decide), if_neg (by decide), if_neg (by decide), if_neg (by decide), if_neg (show ¬ (ch '/' :: rest = str "@@") from fun e => absurd (List.cons.inj e).1 (by decide)), if_neg (by decide),
        if_neg (by decide), if_neg (show ¬ (ch '/' :: rest = str "}") from fun e => absurd (List.cons.inj e).1 (by decide)), if_pos (.inr rfl)] at hw
      exact hw

theorem call_word {w : Str} (h : IsName w ∨ w.head? = some (ch '/')) (s s' : State) (hr : Refers w .rel .short (s.put [0x60]) s') : Word w s s' := by
  cases w with
  | nil =>
    obtain ⟨t, s1, h1, -⟩ := hr
    cases h1
  | cons c rest =>
    unfold Word
    dsimp only
    rcases h with h | h
    · have hc := h.1 c rfl
      have : runes.lookup c = none ∧ c ≠ ch '#' ∧ c ≠ ch '"' ∧ c ≠ ch '|' ∧ c ≠ ch '$' ∧ c ≠ ch '@' ∧ c ≠ ch '&' ∧ c ≠ ch '}' ∧ c ≠ ch '{' ∧ c ≠ ch '/' := by
        clear * - hc; revert hc; revert c; decide +kernel
      obtain ⟨a0, a1, a2, a3, a4, a5, a6, a7, a8, a9⟩ := this
      rw [a0]
      dsimp only
      rw [if_neg a1, if_neg a2, if_neg a3, if_neg a4, if_neg (show ¬ (c :: rest = str "@@") from fun e => a5 (List.cons.inj e).1), if_neg a5, if_neg a6, if_neg (show ¬ (c :: rest = str "}") from fun e => a7 (List.cons.inj e).1),
        if_neg (by rintro (e | e); exact a8 (List.cons.inj e).1; exact a9 e)]
      exact .inr (.inr ⟨h, hr⟩)
    · cases h
      rw [show runes.lookup (ch '/') = none from rfl]
      dsimp only
      rw [if_neg (by decide), if_neg (by decide), if_neg (by decide), if_neg (by decide), if_neg (show ¬ (ch '/' :: rest = str "@@") from fun e => absurd (List.cons.inj e).1 (by decide)), if_neg (by decide),
        if_neg (by decide), if_neg (show ¬ (ch '/' :: rest = str "}") from fun e => absurd (List.cons.inj e).1 (by decide)), if_pos (.inr rfl)]
      exact hr

theorem word_label {a : Str} (h : a ≠ str "@") (s s' : State) : Word (ch '@' :: a) s s' ↔ ∃ s1, Defines a s s1 ∧ s' = { s1 with scope := a.takeWhile (· ≠ ch '/') } := by
  unfold Word
  dsimp only
  rw [show runes.lookup (ch '@') = none from rfl]
  dsimp only
  rw [if_neg (by decide), if_neg (by decide), if_neg (by decide), if_neg (by decide), if_neg (show ¬ (ch '@' :: a = str "@@") from fun e => h (List.cons.inj e).2), if_pos rfl]

theorem word_sublabel (a : Str) (s s' : State) : Word (ch '&' :: a) s s' ↔ Defines (s.scope ++ str "/" ++ a) s s' := by
  unfold Word
  dsimp only
  rw [show runes.lookup (ch '&') = none from rfl]
  dsimp only
  rw [if_neg (by decide), if_neg (by decide), if_neg (by decide), if_neg (by decide), if_neg (show ¬ (ch '&' :: a = str "@@") from fun e => absurd (List.cons.inj e).1 (by decide)), if_neg (by decide), if_pos rfl]

theorem word_anonymous (s s' : State) : Word (str "@@") s s' ↔ s' = { s with anonymous := s.addr :: s.anonymous } := Iff.rfl

theorem word_pad {r : Byte} (h : r ∈ str "|$") (a : Str) (s s' : State) :
    Word (r :: a) s s' ↔ ∃ v s1, Pads a s v s1 ∧ s' = { s1 with addr := if r = ch '|' then v else s.addr + v } := by
  have : r = ch '|' ∨ r = ch '$' := by revert h; revert r; decide +kernel
  rcases this with rfl | rfl
  · exact Iff.rfl
  · exact Iff.rfl

theorem fits_of {r : Byte} (h : r ≠ ch '&') (a : Str) (s : State) : Fits (r :: a) s := fun _ e => absurd (List.cons.inj e).1 h

/-- The target of a reference. -/
theorem Like.target (h : Like R st F s s') {a b : Str} (hc : Called R s.scope s'.scope a b) {t : Target} (ht : s.target a = some (t, s1)) :
    ∃ t' s1', s'.target b = some (t', s1') ∧ TargetLike R F s1'.labels t t' ∧ Like R st F s1 s1' ∧ s1.scope = s.scope ∧ s1'.scope = s'.scope := by
  obtain ⟨n, n', h1, h2, h3⟩ := hc
  have nb : ∀ {sc y m : Str}, fullName sc y = some m → ¬ (y = str "{") ∧ ¬ (y = str "@") := by
    intro sc y m hm
    constructor <;> (rintro rfl; cases hm)
  unfold State.target at ht ⊢
  rw [if_neg (nb h1).1, if_neg (nb h1).2, h1] at ht
  rw [if_neg (nb h2).1, if_neg (nb h2).2, h2]
  cases ht
  exact ⟨_, _, rfl, .name h3, h.mention _ _, rfl, rfl⟩

theorem refer_scope (k : RefKind) (z : RefSize) (t : Target) (s : State) : (s.refer k z t).scope = s.scope := rfl

theorem put_scope (bs : List Byte) (s : State) : (s.put bs).scope = s.scope := by rw [put_eq]

theorem Like.refers (h : Like R st F s s') {a b : Str} (hc : Called R s.scope s'.scope a b) {k : RefKind} {z : RefSize} (hr : Refers a k z s s1) :
    ∃ s1', Refers b k z s' s1' ∧ Like R st F s1 s1' ∧ s1.scope = s.scope ∧ s1'.scope = s'.scope := by
  obtain ⟨t, s2, h1, rfl⟩ := hr
  obtain ⟨t', s2', h2, h3, h4, h5, h6⟩ := h.target hc h1
  exact ⟨_, ⟨t', s2', h2, rfl⟩, h4.refer h3 k z, h5, h6⟩

/-- A word that does not mention a label. -/
theorem Like.word (h : Like R st F s s') {w : Str} (hn : NoLabel w) (hw : Word w s s1) : ∃ s1', Word w s' s1' ∧ Like R st F s1 s1' ∧ s1.scope = s.scope ∧ s1'.scope = s'.scope := by
  cases w with
  | nil => exact hw.elim
  | cons rune rest =>
    have hc : rune ≠ ch '@' ∧ rune ≠ ch '&' ∧ rune ≠ ch '/' := by
      have := hn.1 rune rfl
      refine ⟨?_, ?_, ?_⟩ <;> (rintro rfl; exact this (by decide))
    have pads : ∀ {v : Short} {s2 : State}, rune = ch '|' ∨ rune = ch '$' → Pads rest s v s2 → s2 = s ∧ Pads rest s' v s' := by
      intro v s2 hr hp
      obtain ⟨y, hy⟩ := hn.2.2.2 rest (hr.imp (fun e => by rw [e]) fun e => by rw [e])
      cases hp with
      | number h => exact ⟨rfl, .number h⟩
      | anonymous => exact absurd ⟨y, hy⟩ at_amount
      | label h1 => exact absurd ⟨y, hy⟩ h1
    have lam : ∀ {k : RefKind} {z : RefSize} (bs : List Byte), Refers (str "{") k z (s.put bs) s1 → ∃ s1', Refers (str "{") k z (s'.put bs) s1' ∧ Like R st F s1 s1' ∧
        s1.scope = s.scope ∧ s1'.scope = s'.scope := by
      rintro k z bs ⟨t, s2, h1, rfl⟩
      have hb := h.put bs
      rw [← put_scope bs s, ← put_scope bs s']
      generalize s.put bs = u at *
      generalize s'.put bs = u' at *
      cases h1
      refine ⟨_, ⟨.lambda u'.count, { u' with opened := u'.count :: u'.opened, count := u'.count + 1 }, rfl, rfl⟩, ?_, rfl, rfl⟩
      have hl : Like R st F { u with opened := u.count :: u.opened, count := u.count + 1 } { u' with opened := u'.count :: u'.opened, count := u'.count + 1 } :=
        ⟨hb.addr, hb.bytes, hb.writes, by rw [hb.count, hb.opened], by rw [hb.count], hb.closed, hb.labels, hb.known', hb.refs, hb.stack, hb.fresh⟩
      rw [hb.count]
      rw [hb.count] at hl
      exact hl.refer .lambda k z
    unfold Word at hw ⊢
    dsimp only at hw ⊢
    cases hr : runes.lookup rune with
    | some r =>
      obtain ⟨op, k, z⟩ := r
      rw [hr] at hw
      dsimp only at hw ⊢
      have := hn.2.2.1 rune rest rfl (rune_ref hr)
      subst this
      exact lam _ hw
    | none =>
      rw [hr] at hw
      dsimp only at hw ⊢
      split at hw
      · rename_i c; simp only [if_pos c]
        obtain ⟨v, k, h1, rfl⟩ := hw
        exact ⟨_, ⟨v, k, h1, rfl⟩, h.put _, put_scope _ _, put_scope _ _⟩
      rename_i c; simp only [if_neg c]
      split at hw
      · rename_i c; simp only [if_pos c]
        obtain ⟨h1, rfl⟩ := hw
        exact ⟨_, ⟨h1, rfl⟩, h.put _, put_scope _ _, put_scope _ _⟩
      rename_i c; simp only [if_neg c]
      split at hw
      · rename_i c; simp only [if_pos c]
        obtain ⟨a, s2, h1, rfl⟩ := hw
        obtain ⟨rfl, h2⟩ := pads (.inl c) h1
        exact ⟨_, ⟨a, _, h2, rfl⟩, h.at a, rfl, rfl⟩
      rename_i c; simp only [if_neg c]
      split at hw
      · rename_i c; simp only [if_pos c]
        obtain ⟨a, s2, h1, rfl⟩ := hw
        obtain ⟨rfl, h2⟩ := pads (.inr c) h1
        refine ⟨_, ⟨a, _, h2, rfl⟩, ?_, rfl, rfl⟩
        rw [h.addr]
        exact h.at _
      rename_i c; simp only [if_neg c]
      split at hw
      · rename_i c; exact absurd (List.cons.inj c).1 hc.1
      rename_i c; simp only [if_neg c]
      split at hw
      · rename_i c; exact absurd c hc.1
      rename_i c; simp only [if_neg c]
      split at hw
      · rename_i c; exact absurd c hc.2.1
      rename_i c; simp only [if_neg c]
      split at hw
      · rename_i c; simp only [if_pos c]
        obtain ⟨k, ks, h1, rfl⟩ := hw
        refine ⟨_, ⟨k, ks, by rw [h.opened, h1], rfl⟩, ⟨h.addr, h.bytes, ?_, rfl, h.count, by rw [h.closed, h.addr], h.labels, h.known', h.refs, h.stack, h.fresh⟩, rfl, rfl⟩
        show s'.fill _ ++ s'.writes = s.fill _ ++ s.writes
        rw [h.writes]
        congr 1
        unfold State.fill
        rw [h.addr]
        refine fill_like h.refs _ fun u u' hu => ?_
        cases hu with
        | name => exact ⟨nofun, nofun⟩
        | place => exact ⟨nofun, nofun⟩
        | lambda => exact ⟨fun e => (by cases e; rfl), fun e => (by cases e; rfl)⟩
        | named => exact ⟨nofun, nofun⟩
      rename_i c; simp only [if_neg c]
      split at hw
      · rename_i c; simp only [if_pos c]
        have : rune :: rest = str "{" := c.resolve_right hc.2.2
        rw [this] at hw ⊢
        exact lam _ hw
      rename_i c; simp only [if_neg c]
      rcases hw with ⟨v, k, h1, rfl⟩ | ⟨h0, i, op, h1, h2, rfl⟩ | ⟨h1, -⟩
      · exact ⟨_, .inl ⟨v, k, h1, rfl⟩, h.put _, put_scope _ _, put_scope _ _⟩
      · exact ⟨_, .inr (.inl ⟨h0, i, op, h1, h2, rfl⟩), h.put _, put_scope _ _, put_scope _ _⟩
      · exact absurd h1 hn.2.1

/-- An anonymous label is referred to. -/
theorem Like.pop {o : Option Str} (h : Like R (o :: st) F s s') : ∃ a A, s.anonymous = a :: A ∧
    ((o = none ∧ ∃ A', s'.anonymous = a :: A' ∧ Like R st F { s with anonymous := A } { s' with anonymous := A' }) ∨
      ∃ m, o = some m ∧ m ∈ F ∧ s'.labels.lookup m = some a ∧ ∀ u, Like R st F { s with anonymous := A } { s' with used := u }) := by
  have hs := h.stack
  generalize hX : s.anonymous = X at hs
  generalize hY : s'.anonymous = Y at hs
  cases hs with
  | plain hs => exact ⟨_, _, rfl, .inl ⟨rfl, _, rfl, h.addr, h.bytes, h.writes, h.opened, h.count, h.closed, h.labels, h.known', h.refs, hs, h.fresh⟩⟩
  | given h1 h2 hs => exact ⟨_, _, rfl, .inr ⟨_, rfl, h1, h2, fun u => ⟨h.addr, h.bytes, h.writes, h.opened, h.count, h.closed, h.labels, h.known', h.refs, hY ▸ hs, h.fresh⟩⟩⟩

theorem target_at {s1 : State} {t : Target} (h : s.target (str "@") = some (t, s1)) {a : Short} {A : List Short} (ha : s.anonymous = a :: A) : t = .place a ∧ s1 = { s with anonymous := A } := by
  unfold State.target at h
  rw [if_neg (by decide), if_pos rfl, ha] at h
  cases h
  exact ⟨rfl, rfl⟩

theorem target_of_at {a : Short} {A : List Short} (ha : s.anonymous = a :: A) : s.target (str "@") = some (.place a, { s with anonymous := A }) := by
  unfold State.target
  rw [if_neg (by decide), if_pos rfl, ha]

theorem target_of_name {b m : Str} (h : fullName s.scope b = some m) : s.target b = some (.name m, { s with used := m :: s.used }) := by
  unfold State.target
  rw [if_neg (by rintro rfl; cases h), if_neg (by rintro rfl; cases h), h]
  rfl

theorem put_anonymous (bs : List Byte) (s : State) : (s.put bs).anonymous = s.anonymous := by rw [put_eq]

/-- The words of the renamed program do the same. -/
theorem runs_renamed (hR : Renaming R) {sc sc' : Str} {ws ws' : List Str} (hw : Renamed R x sc sc' st F ws ws') :
    ∀ s s' t, Runs ws s t → s.scope = sc → s'.scope = sc' → Like R st F s s' → ∃ t' st' F', Runs ws' s' t' ∧ Like R st' F' t t' := by
  induction hw with
  | done => intro s s' t h _ _ hl; cases h; exact ⟨s', _, _, .nil, hl⟩
  | same hn _ ih =>
    intro s s' t h e1 e2 hl
    cases h with
    | cons hf hw hr =>
      obtain ⟨s1', a, b, c, d⟩ := hl.word hn hw
      obtain ⟨t', st', F', a', b'⟩ := ih _ s1' t hr (c.trans e1) (d.trans e2) b
      refine ⟨t', st', F', .cons ?_ a a', b'⟩
      intro rest e
      have := hn.1 (ch '&') (by rw [e]; rfl)
      exact absurd (by decide) this
  | @ref sc sc' a b r st F ws ws' hr hc _ ih =>
    intro s s' t h e1 e2 hl
    subst e1 e2
    cases h with
    | cons hf hw hrs =>
      obtain ⟨op, k, z, hop⟩ := ref_rune hr
      rw [word_ref hop] at hw
      obtain ⟨s1', p, q, c, d⟩ := (hl.put op.toList).refers (by rw [put_scope, put_scope]; exact hc) hw
      rw [put_scope] at c d
      obtain ⟨t', st', F', a', b'⟩ := ih _ s1' t hrs c d q
      exact ⟨t', st', F', .cons (fits_of (by rintro rfl; revert hr; decide) _ _) ((word_ref hop _ _ _).2 p) a', b'⟩
  | call ha hb hc _ ih =>
    intro s s' t h e1 e2 hl
    subst e1 e2
    cases h with
    | cons hf hw hrs =>
      obtain ⟨s1', p, q, c, d⟩ := (hl.put [0x60]).refers (by rw [put_scope, put_scope]; exact hc) (word_call ha _ _ hw)
      rw [put_scope] at c d
      obtain ⟨t', st', F', a', b'⟩ := ih _ s1' t hrs c d q
      refine ⟨t', st', F', .cons ?_ (call_word hb _ _ p) a', b'⟩
      rintro rest rfl
      rcases hb with hb | hb
      · exact absurd (by decide) (hb.1 (ch '&') rfl)
      · cases hb
  | @pad sc sc' a b r st F ws ws' hr ha hb hc _ ih =>
    intro s s' t h e1 e2 hl
    subst e1 e2
    cases h with
    | cons hf hw hrs =>
      rw [word_pad hr] at hw
      obtain ⟨v, s2, hp, rfl⟩ := hw
      obtain ⟨n, n', c1, c2, c3⟩ := hc
      cases hp with
      | number hv => exact absurd ⟨_, hv⟩ ha
      | anonymous => cases c1
      | label p1 p2 p3 =>
        rw [c1] at p2; cases p2
        have hl' : Like R st F { s with used := n :: s.used } { s' with used := n' :: s'.used } := hl.mention _ _
        obtain ⟨t', st', F', a', b'⟩ := ih _ { s' with used := n' :: s'.used, addr := if r = ch '|' then v else s'.addr + v } t hrs rfl rfl (by rw [hl.addr]; exact hl'.at _)
        refine ⟨t', st', F', .cons (fits_of (by rintro rfl; revert hr; decide) _ _) ((word_pad hr _ _ _).2 ⟨v, _, .label hb c2 ?_, rfl⟩) a', b'⟩
        rw [hl.labels _ _ c3, p3]
  | @label sc sc' a b st F ws ws' ha hb hr hv _ ih =>
    intro s s' t h e1 e2 hl
    cases h with
    | cons hf hw hrs =>
      rw [word_label ha] at hw
      obtain ⟨s1, hd, rfl⟩ := hw
      obtain ⟨s1', hd', hl'⟩ := hl.define hR hr hv hd
      obtain ⟨t', st', F', a', b'⟩ := ih _ { s1' with scope := b.takeWhile (· ≠ ch '/') } t hrs rfl rfl (hl'.scoped _ _)
      exact ⟨t', st', F', .cons (fits_of (by decide) _ _) ((word_label hb _ _).2 ⟨_, hd', rfl⟩) a', b'⟩
  | @sublabel sc sc' a b st F ws ws' hr hv hlen _ ih =>
    intro s s' t h e1 e2 hl
    subst e1 e2
    cases h with
    | cons hf hw hrs =>
      rw [word_sublabel] at hw
      obtain ⟨s1', hd', hl'⟩ := hl.define hR hr hv hw
      obtain ⟨t', st', F', a', b'⟩ := ih _ s1' t hrs (by rw [hw.2]) (by rw [hd'.2]) hl'
      exact ⟨t', st', F', .cons (fun _ e => by cases e; exact hlen) ((word_sublabel _ _ _).2 hd') a', b'⟩
  | anonymous _ ih =>
    intro s s' t h e1 e2 hl
    cases h with
    | cons hf hw hrs =>
      rw [word_anonymous] at hw
      subst hw
      obtain ⟨t', st', F', a', b'⟩ := ih _ { s' with anonymous := s'.addr :: s'.anonymous } t hrs e1 e2
        ⟨hl.addr, hl.bytes, hl.writes, hl.opened, hl.count, hl.closed, hl.labels, hl.known', hl.refs, by rw [hl.addr]; exact .plain hl.stack, hl.fresh⟩
      exact ⟨t', st', F', .cons (fits_of (by decide) _ _) ((word_anonymous _ _).2 rfl) a', b'⟩
  | @anonymousRef sc sc' r st F ws ws' hr _ ih =>
    intro s s' t h e1 e2 hl
    have hr' : r ∈ str ".-,_;=!?" ∨ r ∈ str "|$" := by clear * - hr; revert hr; revert r; decide +kernel
    cases h with
    | cons hf hw hrs =>
      rcases hr' with hr' | hr'
      · obtain ⟨op, k, z, hop⟩ := ref_rune hr'
        rw [word_ref hop] at hw
        obtain ⟨tt, s2, ht, rfl⟩ := hw
        obtain ⟨a, A, hA, ⟨-, A', hA', hl'⟩ | ⟨m, hm, -⟩⟩ := (hl.put op.toList).pop
        · obtain ⟨rfl, rfl⟩ := target_at ht hA
          obtain ⟨t', st', F', a', b'⟩ := ih _ _ t hrs (by rw [refer_scope]; exact (put_scope _ _).trans e1) (by rw [refer_scope]; exact (put_scope _ _).trans e2) (hl'.refer .place k z)
          exact ⟨t', st', F', .cons (fits_of (by rintro rfl; revert hr; decide) _ _) ((word_ref hop _ _ _).2 ⟨_, _, target_of_at hA', rfl⟩) a', b'⟩
        · cases hm
      · rw [word_pad hr'] at hw
        obtain ⟨v, s2, hp, rfl⟩ := hw
        obtain ⟨a, A, hA, ⟨-, A', hA', hl'⟩ | ⟨m, hm, -⟩⟩ := hl.pop
        · generalize hat : str "@" = y at hp
          cases hp with
          | number hv => subst hat; exact absurd ⟨_, hv⟩ at_amount
          | anonymous he =>
            rw [hA] at he; cases he
            obtain ⟨t', st', F', a', b'⟩ := ih _ { s' with anonymous := A', addr := if r = ch '|' then v else s'.addr + v } t hrs e1 e2 (by rw [hl.addr]; exact hl'.at _)
            exact ⟨t', st', F', .cons (fits_of (by rintro rfl; revert hr; decide) _ _) ((word_pad hr' _ _ _).2 ⟨_, _, .anonymous hA', rfl⟩) a', b'⟩
          | label _ h2 => subst hat; cases h2
        · cases hm
  | @named sc sc' b st F ws ws' _ hm hlen _ ih =>
    intro s s' t h e1 e2 hl
    subst e2
    cases h with
    | cons hf hw hrs =>
      rw [word_anonymous] at hw
      subst hw
      obtain ⟨s1', hd, hsc, hl'⟩ := hl.name hm
      obtain ⟨t', st', F', a', b'⟩ := ih _ s1' t hrs e1 hsc hl'
      exact ⟨t', st', F', .cons (fun _ e => by cases e; exact hlen) ((word_sublabel _ _ _).2 hd) a', b'⟩
  | @namedRef sc sc' b m r st F ws ws' _ hr hb _ ih =>
    intro s s' t h e1 e2 hl
    subst e2
    cases h with
    | cons hf hw hrs =>
      obtain ⟨op, k, z, hop⟩ := ref_rune hr
      rw [word_ref hop] at hw
      obtain ⟨tt, s2, ht, rfl⟩ := hw
      obtain ⟨a, A, hA, ⟨h0, -⟩ | ⟨m', hm, hF, hlk, hl'⟩⟩ := (hl.put op.toList).pop
      · cases h0
      · cases hm
        obtain ⟨rfl, rfl⟩ := target_at ht hA
        obtain ⟨t', st', F', a', b'⟩ := ih _ _ t hrs (by rw [refer_scope]; exact (put_scope _ _).trans e1) (by rw [refer_scope]; exact put_scope _ _)
          ((hl' (m :: (s'.put op.toList).used)).refer (.named hF hlk) k z)
        exact ⟨t', st', F', .cons (fits_of (by rintro rfl; revert hr; decide) _ _) ((word_ref hop _ _ _).2 ⟨_, _, target_of_name (by rw [put_scope]; exact hb), rfl⟩) a', b'⟩
  | @namedPad sc sc' b m r st F ws ws' _ hr ha hb _ ih =>
    intro s s' t h e1 e2 hl
    subst e2
    cases h with
    | cons hf hw hrs =>
      rw [word_pad hr] at hw
      obtain ⟨v, s2, hp, rfl⟩ := hw
      obtain ⟨a, A, hA, ⟨h0, -⟩ | ⟨m', hm, hF, hlk, hl'⟩⟩ := hl.pop
      · cases h0
      · cases hm
        generalize hat : str "@" = y at hp
        cases hp with
        | number hv => subst hat; exact absurd ⟨_, hv⟩ at_amount
        | anonymous he =>
          rw [hA] at he; cases he
          obtain ⟨t', st', F', a', b'⟩ := ih _ { s' with used := m :: s'.used, addr := if r = ch '|' then v else s'.addr + v } t hrs e1 rfl (by rw [hl.addr]; exact (hl' (m :: s'.used)).at _)
          exact ⟨t', st', F', .cons (fits_of (by rintro rfl; revert hr; decide) _ _) ((word_pad hr _ _ _).2 ⟨_, _, .label ha hb hlk, rfl⟩) a', b'⟩
        | label _ h2 => subst hat; cases h2

theorem like_start : Like R [] [] {} {} :=
  ⟨rfl, rfl, rfl, rfl, rfl, rfl, fun _ _ _ => rfl, fun _ _ h => (by cases h), .nil, .nil, fun _ h => (by cases h)⟩

/-- Being complete is kept. -/
theorem Like.complete (h : Like R st F s s') (hc : Complete s) (hm : ∀ n b, s'.macros.lookup n = some b → ValidName n ∧ s'.labels.lookup n = none) : Complete s' := by
  refine ⟨?_, h.opened.trans hc.opened, ?_, fun n a hn => (h.known' n a hn).2, hm⟩
  · have : s'.places = s.places := by
      unfold State.places
      rw [h.bytes]
      congr 1
      have hr := h.refs
      generalize s.refs = l at hr
      generalize s'.refs = l' at hr
      induction hr with
      | nil => rfl
      | cons h1 _ ih =>
        rw [List.flatMap_cons, List.flatMap_cons, ih]
        congr 1
        unfold Reference.cells
        rw [h1.1, h1.2.2.1]
    rw [this]; exact hc.places
  · intro r' hr'
    have key : ∀ {l l' : List Reference}, List.Forall₂ (RefLike R F s'.labels) l l' → ∀ r' ∈ l', ∃ r ∈ l, RefLike R F s'.labels r r' := by
      intro l l' hl
      induction hl with
      | nil => intro r hr; cases hr
      | cons hh _ ih =>
        intro r hr
        rcases List.mem_cons.1 hr with rfl | hr
        · exact ⟨_, by simp, hh⟩
        · obtain ⟨p, p1, p2⟩ := ih r hr; exact ⟨p, by simp [p1], p2⟩
    obtain ⟨r, h1, h2, h3, h4, h5⟩ := key h.refs r' hr'
    obtain ⟨l, h6, h7⟩ := hc.refs r h1
    exact ⟨l, by rw [h.find h5, h6], by rw [h2, h3, h4]; exact h7⟩

/-! ## C88 -/

/-- The words that are written out and their meaning. -/
theorem expansion_runs {files : Files} {main : Str} {out : List Str} {m : List (Str × List Str)} {S : State} (hx : Expansion files main out m) (hp : ProgramWithin files main S) :
    S.macros = m ∧ ∃ S', Runs out {} S' ∧ SameCode S S' := by
  obtain ⟨ws, s1, g1, g2, g3⟩ := id hp
  obtain ⟨o1, a, b⟩ := within_expands g2
  obtain ⟨o2, a', b'⟩ := ends_expands g3
  obtain ⟨u1, b1⟩ := b {} []
  obtain ⟨u2, b2⟩ := b' {} u1
  have hy : Expansion files main (o1 ++ o2) S.macros := ⟨ws, o1, o2, _, _, g1, a, a', rfl, rfl⟩
  obtain ⟨rfl, rfl⟩ := C87_one_expansion hx hy
  exact ⟨rfl, _, b1.append b2, rfl⟩

theorem runs_program {files : Files} {main : Str} {out : List Str} {m : List (Str × List Str)} {S' : State} (hx : Expansion files main out m) (h : Runs out {} S') :
    ∃ S, ProgramWithin files main S ∧ SameCode S' S ∧ S.macros = m := by
  obtain ⟨ws, o1, o2, e, e', h1, h2, h3, rfl, rfl⟩ := hx
  obtain ⟨t, a, b⟩ := h.split
  obtain ⟨u1, c⟩ := expands_within h2 {} t [] a
  obtain ⟨u2, c'⟩ := expands_ends h3 t S' u1 b
  exact ⟨_, ⟨ws, _, h1, c, c'⟩, rfl, rfl⟩

/-- **C88.** If a program is accepted, so is the renamed program, unless one of its macros has the name of a label or an invalid one; and its ROM is the same, byte for byte. -/
theorem C88_same_rom (hR : Renaming R) {files files' : Files} (ht : Texts files) (ht' : Texts files') {main main' : Str} {out out' : List Str} {m m' : List (Str × List Str)}
    (hx : Expansion files main out m) (hx' : Expansion files' main' out' m') (hr : RenamedProgram R x out out') (fuel fuel' : Nat) (b' : Bool) (s s' : Asm)
    (h : assemble files fuel main = some (true, s)) (h' : assemble files' fuel' main' = some (b', s'))
    (hm : ∀ S', ProgramWithin files' main' S' → ∀ n y, m'.lookup n = some y → ValidName n ∧ S'.labels.lookup n = none) :
    b' = true ∧ written s.log = written s'.log ∧ image s.log = image s'.log ∧
      ∃ r r', putAll (written s.log).reverse emptyRom = some r ∧ putAll (written s'.log).reverse emptyRom = some r' ∧ romFile r = romFile r' := by
  obtain ⟨S, h1, h2⟩ := C80_reasons files ht fuel main s h
  obtain ⟨-, T, t1, t2⟩ := expansion_runs hx h1
  obtain ⟨T', st', F', t3, t4⟩ := runs_renamed hR hr {} {} T t1 rfl rfl like_start
  obtain ⟨S', h3, h4, h5⟩ := runs_program hx' t3
  have e0 : ∀ {o : List Str} {U : State}, Runs o {} U → U.macros = [] := fun hu => congrArg Env.macros hu.env
  have hcT : Complete T := t2.complete (fun n y hn => by rw [e0 t1] at hn; cases hn) h2
  have hcT' : Complete T' := t4.complete hcT (fun n y hn => by rw [e0 t3] at hn; cases hn)
  have hcS' : Complete S' := h4.complete (fun n y hn => hm S' h3 n y (h5 ▸ hn)) hcT'
  have hb := C80_accepts files' ht' main' S' h3 hcS' fuel' b' s' h'
  subst hb
  have hw : S'.writes = S.writes := by rw [h4.writes, t4.writes, t2.writes]
  have hi : S'.image = S.image := by funext a; unfold State.image; rw [hw]
  obtain ⟨a1, a2, -⟩ := C78_image files ht fuel main s h S h1.program
  obtain ⟨b1, b2, -⟩ := C78_image files' ht' fuel' main' s' h' S' h3.program
  rw [hw] at b1
  rw [hi] at b2
  obtain ⟨r, c1, c2, c3, c4⟩ := C38_rom_file files fuel main true s h
  obtain ⟨r', d1, d2, d3, d4⟩ := C38_rom_file files' fuel' main' true s' h'
  refine ⟨rfl, a1.trans b1.symm, a2.trans b2.symm, r, r', c1, d1, ?_⟩
  exact rom_unique c2 d2 c3 d3 fun a => by rw [c4, d4, a2, b2]

/-- Renaming can be undone. -/
theorem Renamed.symm {sc sc' : Str} {ws ws' : List Str} (h : Renamed R false sc sc' st F ws ws') (hv : ∀ n n', R n n' → ValidName n ∧ n.length ≤ WORD) :
    Renamed (fun a b => R b a) false sc' sc st F ws' ws := by
  have called : ∀ {sc sc' a b : Str}, Called R sc sc' a b → Called (fun a b => R b a) sc' sc b a := fun ⟨n, n', h1, h2, h3⟩ => ⟨n', n, h2, h1, h3⟩
  induction h with
  | done => exact .done
  | same h1 _ ih => exact .same h1 ih
  | ref h1 h2 _ ih => exact .ref h1 (called h2) ih
  | call h1 h2 h3 _ ih => exact .call h2 h1 (called h3) ih
  | pad h1 h2 h3 h4 _ ih => exact .pad h1 h3 h2 (called h4) ih
  | label h1 h2 h3 _ _ ih => exact .label h2 h1 h3 (hv _ _ h3).1 ih
  | sublabel h1 _ _ _ ih => exact .sublabel h1 (hv _ _ h1).1 (hv _ _ h1).2 ih
  | anonymous _ ih => exact .anonymous ih
  | anonymousRef h1 _ ih => exact .anonymousRef h1 ih
  | named h => cases h
  | namedRef h => cases h
  | namedPad h => cases h

/-- **C88.** Names decide nothing: if labels are only renamed, and to names that are valid, both programs are accepted or both refused. -/
theorem C88_same_verdict (hR : Renaming R) (hv : ∀ n n', R n n' → ValidName n ∧ n.length ≤ WORD) {files files' : Files} (ht : Texts files) (ht' : Texts files') {main main' : Str}
    {out out' : List Str} {m m' : List (Str × List Str)} (hx : Expansion files main out m) (hx' : Expansion files' main' out' m') (hr : RenamedProgram R false out out') (fuel fuel' : Nat)
    (b b' : Bool) (s s' : Asm) (h : assemble files fuel main = some (b, s)) (h' : assemble files' fuel' main' = some (b', s'))
    (hm : ∀ S, ProgramWithin files main S → ∀ n y, m.lookup n = some y → ValidName n ∧ S.labels.lookup n = none)
    (hm' : ∀ S', ProgramWithin files' main' S' → ∀ n y, m'.lookup n = some y → ValidName n ∧ S'.labels.lookup n = none) : b = b' := by
  have hR' : Renaming fun a b => R b a := ⟨fun a b b' h1 h2 => hR.different _ _ _ h1 h2, fun a a' b h1 h2 => hR.one _ _ _ h1 h2⟩
  cases b with
  | true => exact (C88_same_rom hR ht ht' hx hx' hr fuel fuel' b' s s' h h' hm').1.symm
  | false =>
    cases b' with
    | false => rfl
    | true => exact (C88_same_rom hR' ht' ht hx' hx (hr.symm hv) fuel' fuel false s' s h' h hm).1

/-! ## A program and a renamed one -/

namespace Other

/-- A program with a label, a local label and a loop without a name. -/
def first : Files := filesOf [("m", " @go #12 @@ INC ?@ ;go JMP2 &x ,&x LDR go")]

/-- With other names, also for the loop. -/
def second : Files := filesOf [("m", " @start #12 &loop INC ?start/loop ;start JMP2 &y ,start/y LDR start")]

abbrev out : List Str := [str "@go", str "#12", str "@@", str "INC", str "?@", str ";go", str "JMP2", str "&x", str ",&x", str "LDR", str "go"]
abbrev out' : List Str := [str "@start", str "#12", str "&loop", str "INC", str "?start/loop", str ";start", str "JMP2", str "&y", str ",start/y", str "LDR", str "start"]

def NewNames (a b : Str) : Prop := (a, b) ∈ [(str "go", str "start"), (str "go/x", str "start/y")]

theorem aRenaming : Renaming NewNames := by
  constructor
  · intro a b b' h h'
    simp only [NewNames, List.mem_cons, Prod.mk.injEq, List.not_mem_nil, or_false] at h h'
    rcases h with ⟨rfl, rfl⟩ | ⟨rfl, rfl⟩ <;> rcases h' with ⟨h, rfl⟩ | ⟨h, rfl⟩ <;> first | rfl | exact absurd h (by decide)
  · intro a b b' h h'
    simp only [NewNames, List.mem_cons, Prod.mk.injEq, List.not_mem_nil, or_false] at h h'
    rcases h with ⟨rfl, rfl⟩ | ⟨rfl, rfl⟩ <;> rcases h' with ⟨rfl, h⟩ | ⟨rfl, h⟩ <;> first | rfl | exact absurd h (by decide)

theorem written {files : Files} {main : Str} {o : List Str} (h : Words files main o) (ho : ∀ w ∈ o, Ordinary w) : Expansion files main o [] := by
  refine ⟨o, o, [], {}, {}, h, ?_, .done rfl, by simp, rfl⟩
  clear h
  induction o with
  | nil => exact .done
  | cons w ws ih => exact .word (ho w List.mem_cons_self) (fun _ => rfl) (ih fun w hw => ho w (List.mem_cons_of_mem _ hw))

theorem ordinaries {o : List Str} (h : (o.all fun w => match w with | c :: _ => !(str "([]%~").contains c | [] => false) = true) : ∀ w ∈ o, Ordinary w := by
  intro w hw
  have := List.all_eq_true.1 h w hw
  cases w with
  | nil => cases this
  | cons c r => exact Written.ordinary (by simpa using this)

theorem expansion : Expansion first (str "m") out [] :=
  written (words_of (str " @go #12 @@ INC ?@ ;go JMP2 &x ,&x LDR go") _ rfl (by decide +kernel) (by decide +kernel)) (ordinaries (by decide +kernel))

theorem expansion' : Expansion second (str "m") out' [] :=
  written (words_of (str " @start #12 &loop INC ?start/loop ;start JMP2 &y ,start/y LDR start") _ rfl (by decide +kernel) (by decide +kernel)) (ordinaries (by decide +kernel))

theorem opcode {w : Str} {op : Byte} {red : Bool} (h : parseOpcode w = some (op, red)) : ¬ IsName w := by
  obtain ⟨i, hi, -⟩ := (C33_mnemonics w op).1 ⟨red, h⟩
  exact fun hn => hn.2.2 ⟨i, hi⟩

theorem plain {c : Byte} {r : Str} (h : c ∉ str "@&/.-,_;=!?|$") (hn : ¬ IsName (c :: r)) : NoLabel (c :: r) := by
  refine ⟨?_, hn, ?_, ?_⟩
  · intro d hd hm
    cases hd
    exact h (List.mem_append_left (str ".-,_;=!?|$") hm)
  · intro d rest e hm
    cases e
    exact absurd (List.mem_append_right (str "@&/") (List.mem_append_left (str "|$") hm)) h
  · rintro rest (e | e) <;> cases e <;> exact absurd (by decide) h

theorem goStart : NewNames (str "go") (str "start") := List.mem_cons_self
theorem xy : NewNames (str "go/x") (str "start/y") := List.mem_cons_of_mem _ List.mem_cons_self

theorem start : ValidName (str "start") := Sample.valid _ (by decide) (by intro c hc; cases hc; rfl) (by decide +kernel) (by decide +kernel)
theorem startY : ValidName (str "start/y") := Sample.valid _ (by decide) (by intro c hc; cases hc; rfl) (by decide +kernel) (by decide +kernel)
theorem startLoop : ValidName (str "start/loop") := Sample.valid _ (by decide) (by intro c hc; cases hc; rfl) (by decide +kernel) (by decide +kernel)

theorem isNew : New NewNames [] (str "start/loop") := by
  refine ⟨?_, nofun, startLoop⟩
  intro n h
  simp only [NewNames, List.mem_cons, Prod.mk.injEq, List.not_mem_nil, or_false] at h
  rcases h with ⟨_, h⟩ | ⟨_, h⟩ <;> exact absurd h (by decide)

/-- The programs differ in names only: this meets the hypotheses of the theorem. -/
theorem renamed : RenamedProgram NewNames true out out' := by
  refine .label (a := str "go") (b := str "start") (by decide) (by decide) goStart start ?_
  refine .same (plain (by decide) (rune_name (by decide))) ?_
  refine .named (b := str "loop") rfl isNew (by decide) ?_
  refine .same (plain (by decide) (opcode (op := 0x01) (red := false) (by decide +kernel))) ?_
  refine .namedRef (b := str "start/loop") rfl (by decide) rfl ?_
  refine .ref (a := str "go") (b := str "start") (by decide) ⟨_, _, rfl, rfl, goStart⟩ ?_
  refine .same (plain (by decide) (opcode (op := 0x2c) (red := false) (by decide +kernel))) ?_
  refine .sublabel (a := str "x") (b := str "y") xy startY (by decide) ?_
  refine .ref (a := str "&x") (b := str "start/y") (by decide) ⟨_, _, rfl, rfl, xy⟩ ?_
  refine .same (plain (by decide) (opcode (op := 0x12) (red := false) (by decide +kernel))) ?_
  refine .call (.inl (isName_of (by intro c hc; cases hc; rfl) (by decide +kernel) (by decide +kernel))) (.inl start.2.1) ⟨_, _, rfl, rfl, goStart⟩ ?_
  exact .done

/-- Both are accepted, with the same ROM. -/
theorem both : outcome [("m", " @go #12 @@ INC ?@ ;go JMP2 &x ,&x LDR go")] = outcome [("m", " @start #12 &loop INC ?start/loop ;start JMP2 &y ,start/y LDR start")] ∧
    (outcome [("m", " @go #12 @@ INC ?@ ;go JMP2 &x ,&x LDR go")]).map (·.1) = some true := by decide +kernel

end Other

end Buxn.Asm.Meaning
