import Verif.Asm.Renaming
/-!
# C95: a label that nothing refers to adds nothing

Such a label can be written anywhere in a program, or taken out of it: the verdict and the ROM stay the same. This is about programs that are written out (C87), so that there are no macros
between the labels.
-/

namespace Buxn.Asm.Meaning
open Buxn.VM Buxn.Asm Buxn.Asm.Spec

/-! ## Specification -/

/-- A word that defines a label with a name of its own, and so begins a scope. -/
def IsLabel (w : Str) : Prop := w.head? = some (ch '@') ∧ w ≠ str "@@"

instance (w : Str) : Decidable (IsLabel w) := by unfold IsLabel; infer_instance

/-- The scope after a word. -/
def scopeAfter (sc w : Str) : Str := if IsLabel w then w.tail.takeWhile (· ≠ ch '/') else sc

/-- A word may be about the label with the name `n`: it defines it, is its name, or is a rune and a text that stands for it. -/
def Mentions (sc w n : Str) : Prop := w.tail = n ∨ fullName sc w = some n ∨ ¬ IsLabel w ∧ fullName sc w.tail = some n

instance (sc w n : Str) : Decidable (Mentions sc w n) := by unfold Mentions; infer_instance

/-- None of the words is about the label `n`. -/
def Unmentioned (n : Str) : Str → List Str → Prop
  | _, [] => True
  | sc, w :: ws => ¬ Mentions sc w n ∧ Unmentioned n (scopeAfter sc w) ws

instance (n sc : Str) (ws : List Str) : Decidable (Unmentioned n sc ws) := by
  induction ws generalizing sc with
  | nil => exact isTrue trivial
  | cons w ws ih => unfold Unmentioned; exact @instDecidableAnd _ _ _ (ih _)

/-- A word about a local label. -/
def Local (w : Str) : Prop := ∃ c, (w.head? = some c ∨ w.tail.head? = some c) ∧ (c = ch '&' ∨ c = ch '/')

/-- The words do not care for the scope: none of them is about a local label, up to the next label that begins a scope. -/
def NoLocals : List Str → Prop
  | [] => True
  | w :: ws => IsLabel w ∨ ¬ Local w ∧ NoLocals ws

/-- The second program is the first one with the label `n` put somewhere: as a local label of the scope there, or as a label that begins a scope, where none is needed. -/
inductive Inserted (n : Str) : Str → List Str → List Str → Prop
  | sublabel {sc b : Str} {ws : List Str} : n = sc ++ str "/" ++ b → n.length ≤ WORD → Inserted n sc ws ((ch '&' :: b) :: ws)
  | label {sc : Str} {ws : List Str} : n ≠ str "@" → NoLocals ws → Inserted n sc ws ((ch '@' :: n) :: ws)
  | later {sc w : Str} {ws ws' : List Str} : Inserted n (scopeAfter sc w) ws ws' → Inserted n sc (w :: ws) (w :: ws')

/-! ## The other labels keep their names -/

/-- All labels but one. -/
def But (n a b : Str) : Prop := a = b ∧ a ≠ n

theorem but_renaming (n : Str) : Renaming (But n) := ⟨fun _ _ _ h h' => h.1.symm.trans h'.1, fun _ _ _ h h' => h.1.trans h'.1.symm⟩

variable {n : Str} {F : List Str} {s s' s1 : State}

/-- Two states that agree but for the label `n`. -/
def Akin (n : Str) (F : List Str) (s s' : State) : Prop := ∃ k, Like (But n) (List.replicate k none) F s s'

theorem fullName_scope {sc sc' a : Str} (h : ∀ c, a.head? = some c → c ≠ ch '&' ∧ c ≠ ch '/') : fullName sc' a = fullName sc a := by
  unfold fullName
  split
  · rfl
  · cases a with
    | nil => rfl
    | cons c r =>
      have := h c rfl
      dsimp only
      rw [if_neg (by simp [this.1, this.2]), if_neg (by simp [this.1, this.2])]

theorem fullName_word {sc sc' w : Str} (hl : ¬ Local w) : fullName sc' w = fullName sc w :=
  fullName_scope fun c hc => ⟨fun e => hl ⟨c, .inl hc, .inl e⟩, fun e => hl ⟨c, .inl hc, .inr e⟩⟩

theorem fullName_tail {sc sc' w : Str} (hl : ¬ Local w) : fullName sc' w.tail = fullName sc w.tail :=
  fullName_scope fun c hc => ⟨fun e => hl ⟨c, .inr hc, .inl e⟩, fun e => hl ⟨c, .inr hc, .inr e⟩⟩

/-- A reference, other than to a lambda. -/
theorem Akin.refers (h : Akin n F s s') {a : Str} (ha : a ≠ str "{") (hm : fullName s.scope a ≠ some n) (hsc : fullName s'.scope a = fullName s.scope a) {k : RefKind} {z : RefSize}
    (hr : Refers a k z s s1) : ∃ s1', Refers a k z s' s1' ∧ Akin n F s1 s1' ∧ s1.scope = s.scope ∧ s1'.scope = s'.scope := by
  obtain ⟨j, h⟩ := h
  by_cases he : a = str "@"
  · subst he
    obtain ⟨tt, s2, ht, rfl⟩ := hr
    cases j with
    | zero =>
      have hs := h.stack
      generalize hX : s.anonymous = X at hs
      generalize hY : s'.anonymous = Y at hs
      cases hs
      unfold State.target at ht
      rw [if_neg (by decide), if_pos rfl, hX] at ht
      cases ht
    | succ j =>
      obtain ⟨a, A, hA, ⟨-, A', hA', hl'⟩ | ⟨m, hm, -⟩⟩ := Like.pop (o := none) (st := List.replicate j none) h
      · obtain ⟨rfl, rfl⟩ := target_at ht hA
        exact ⟨_, ⟨_, _, target_of_at hA', rfl⟩, ⟨j, hl'.refer .place k z⟩, rfl, rfl⟩
      · cases hm
  · have hx : ∃ y, fullName s.scope a = some y := by
      obtain ⟨tt, s2, ht, -⟩ := hr
      unfold State.target at ht
      rw [if_neg ha, if_neg he] at ht
      cases hf : fullName s.scope a with
      | none => rw [hf] at ht; cases ht
      | some y => exact ⟨y, rfl⟩
    obtain ⟨y, hy⟩ := hx
    obtain ⟨s1', p, q, c, d⟩ := h.refers (b := a) ⟨y, y, hy, hsc.trans hy, rfl, fun e => hm (by rw [hy, e])⟩ hr
    exact ⟨s1', p, ⟨j, q⟩, c, d⟩

/-- A word that is not about the label. -/
theorem Akin.word (h : Akin n F s s') {w : Str} (hf : Fits w s) (hw : Word w s s1) (hm : ¬ Mentions s.scope w n) (hsc : s'.scope = s.scope ∨ ¬ Local w ∨ IsLabel w)
    (hv : ∀ m a, s1.labels.lookup m = some a → ValidName m) :
    ∃ s1', Fits w s' ∧ Word w s' s1' ∧ Akin n F s1 s1' ∧ s1.scope = scopeAfter s.scope w ∧ s1'.scope = scopeAfter s'.scope w := by
  have hsc1 : ¬ IsLabel w → fullName s'.scope w = fullName s.scope w := fun hl => by
    rcases hsc with e | e | e
    · rw [e]
    · exact fullName_word e
    · exact absurd e hl
  have hsc2 : ¬ IsLabel w → fullName s'.scope w.tail = fullName s.scope w.tail := fun hl => by
    rcases hsc with e | e | e
    · rw [e]
    · exact fullName_tail e
    · exact absurd e hl
  have hm1 : fullName s.scope w ≠ some n := fun e => hm (.inr (.inl e))
  have hm2 : ¬ IsLabel w → fullName s.scope w.tail ≠ some n := fun hl e => hm (.inr (.inr ⟨hl, e⟩))
  cases w with
  | nil => exact hw.elim
  | cons r a =>
    have other : r ≠ ch '@' → ∀ sc, scopeAfter sc (r :: a) = sc := fun hr sc => if_neg fun h => hr (Option.some.inj h.1)
    have noLabel : r ≠ ch '@' → ¬ IsLabel (r :: a) := fun hr h => hr (Option.some.inj h.1)
    -- words without labels
    have simple : NoLabel (r :: a) → ∃ s1', Fits (r :: a) s' ∧ Word (r :: a) s' s1' ∧ Akin n F s1 s1' ∧ s1.scope = scopeAfter s.scope (r :: a) ∧ s1'.scope = scopeAfter s'.scope (r :: a) := by
      intro hn
      have hr : r ≠ ch '@' ∧ r ≠ ch '&' := by
        have := hn.1 r rfl
        constructor <;> (rintro rfl; exact this (by decide))
      obtain ⟨j, h⟩ := h
      obtain ⟨s1', p, q, c, d⟩ := h.word hn hw
      exact ⟨s1', fits_of hr.2 _ _, p, ⟨j, q⟩, by rw [other hr.1]; exact c, by rw [other hr.1]; exact d⟩
    -- calls
    by_cases hcall : IsName (r :: a) ∨ r = ch '/'
    · have hr : r ≠ ch '@' ∧ r ≠ ch '&' := by
        rcases hcall with hn | rfl
        · have := hn.1 r rfl
          constructor <;> (rintro rfl; exact this (by decide))
        · decide
      have hc : IsName (r :: a) ∨ (r :: a).head? = some (ch '/') := hcall.imp_right fun e => by rw [e]; rfl
      have hb : r :: a ≠ str "{" := by
        intro e
        rcases hcall with hn | rfl
        · have := hn.1 r rfl
          cases e
          exact this (by decide)
        · cases e
      have h0 : Akin n F (s.put [0x60]) (s'.put [0x60]) := h.imp fun _ h => h.put _
      obtain ⟨s1', p, q, c, d⟩ := h0.refers hb (by rw [put_scope]; exact hm1) (by rw [put_scope, put_scope]; exact hsc1 (noLabel hr.1)) (word_call hc _ _ hw)
      rw [put_scope] at c d
      exact ⟨s1', fits_of hr.2 _ _, call_word hc _ _ p, q, by rw [other hr.1]; exact c, by rw [other hr.1]; exact d⟩
    -- references with a rune
    by_cases href : r ∈ str ".-,_;=!?"
    · by_cases hb : a = str "{"
      · subst hb
        refine simple ⟨?_, fun h => hcall (.inl h), ?_, ?_⟩
        · intro c hc
          cases hc
          clear * - href
          revert href; revert r; decide +kernel
        · intro r' rest e _
          cases e; rfl
        · intro rest e
          exfalso
          rcases e with e | e <;> (cases e; exact absurd href (by decide))
      · have hr : r ≠ ch '@' ∧ r ≠ ch '&' := by constructor <;> (rintro rfl; exact absurd href (by decide))
        obtain ⟨op, k, z, hop⟩ := ref_rune href
        rw [word_ref hop] at hw
        have h0 : Akin n F (s.put op.toList) (s'.put op.toList) := h.imp fun _ h => h.put _
        obtain ⟨s1', p, q, c, d⟩ := h0.refers hb (by rw [put_scope]; exact hm2 (noLabel hr.1)) (by rw [put_scope, put_scope]; exact hsc2 (noLabel hr.1)) hw
        rw [put_scope] at c d
        exact ⟨s1', fits_of hr.2 _ _, (word_ref hop _ _ _).2 p, q, by rw [other hr.1]; exact c, by rw [other hr.1]; exact d⟩
    -- padding
    by_cases hpad : r ∈ str "|$"
    · have hr : r ≠ ch '@' ∧ r ≠ ch '&' := by constructor <;> (rintro rfl; exact absurd hpad (by decide))
      rw [word_pad hpad] at hw
      obtain ⟨v, s2, hp, rfl⟩ := hw
      obtain ⟨j, h⟩ := h
      have done : ∀ {s2 s2' : State}, Pads a s' v s2' → Akin n F s2 s2' → s2.scope = s.scope → s2'.scope = s'.scope →
          ∃ s1', Fits (r :: a) s' ∧ Word (r :: a) s' s1' ∧ Akin n F { s2 with addr := if r = ch '|' then v else s.addr + v } s1' ∧ s2.scope = scopeAfter s.scope (r :: a) ∧
            s1'.scope = scopeAfter s'.scope (r :: a) := by
        intro s2 s2' hp' hl e1 e2
        refine ⟨{ s2' with addr := if r = ch '|' then v else s'.addr + v }, fits_of hr.2 _ _, (word_pad hpad _ _ _).2 ⟨v, s2', hp', rfl⟩, ?_, by rw [other hr.1]; exact e1, by rw [other hr.1]; exact e2⟩
        rw [h.addr]
        exact hl.imp fun _ hl => hl.at _
      cases hp with
      | number ham => exact done (.number ham) ⟨j, h⟩ rfl rfl
      | anonymous he =>
        cases j with
        | zero =>
          have hs := h.stack
          rw [he] at hs
          cases hs
        | succ j =>
          obtain ⟨a, A, hA, ⟨-, A', hA', hl'⟩ | ⟨m, hm, -⟩⟩ := Like.pop (o := none) (st := List.replicate j none) h
          · rw [hA] at he; cases he
            exact done (.anonymous hA') ⟨j, hl'⟩ rfl rfl
          · cases hm
      | @label _ y _ _ p1 p2 p3 =>
        have hy : y ≠ n := fun e => hm2 (noLabel hr.1) (by rw [← e]; exact p2)
        exact done (.label p1 ((hsc2 (noLabel hr.1)).trans p2) (by rw [h.labels y y ⟨rfl, hy⟩]; exact p3)) ⟨j, h.mention _ _⟩ rfl rfl
    -- labels
    by_cases hat : r = ch '@'
    · subst hat
      by_cases ha : a = str "@"
      · subst ha
        have hno : ∀ sc, scopeAfter sc (str "@@") = sc := fun sc => if_neg fun h => h.2 rfl
        replace hw : Word (str "@@") s s1 := hw
        rw [word_anonymous] at hw
        subst hw
        obtain ⟨j, h⟩ := h
        refine ⟨{ s' with anonymous := s'.addr :: s'.anonymous }, fits_of (by decide) _ _, (word_anonymous _ _).2 rfl, ⟨j + 1, ?_⟩, (hno _).symm, (hno _).symm⟩
        exact ⟨h.addr, h.bytes, h.writes, h.opened, h.count, h.closed, h.labels, h.known', h.refs, by rw [h.addr]; exact .plain h.stack, h.fresh⟩
      · have hyes : ∀ sc, scopeAfter sc (ch '@' :: a) = a.takeWhile (· ≠ ch '/') := fun sc => if_pos ⟨rfl, fun e => ha (List.cons.inj e).2⟩
        rw [word_label ha] at hw
        obtain ⟨s2, hd, rfl⟩ := hw
        obtain ⟨j, h⟩ := h
        have hva : ValidName a := hv a s.addr (by rw [hd.2]; exact (lookup_cons _ _ _ _).trans (if_pos rfl))
        obtain ⟨s2', hd', hl'⟩ := h.define (but_renaming n) (n := a) (n' := a) ⟨rfl, fun e => hm (.inl e)⟩ hva hd
        exact ⟨_, fits_of (by decide) _ _, (word_label ha _ _).2 ⟨_, hd', rfl⟩, ⟨j, hl'.scoped _ _⟩, (hyes _).symm, (hyes _).symm⟩
    by_cases hamp : r = ch '&'
    · subst hamp
      have he : s'.scope = s.scope := by
        rcases hsc with e | e | e
        · exact e
        · exact absurd ⟨ch '&', .inl rfl, .inl rfl⟩ e
        · exact absurd e (noLabel hat)
      rw [word_sublabel] at hw
      obtain ⟨j, h⟩ := h
      have hva := hv (s.scope ++ str "/" ++ a) s.addr (by rw [hw.2]; exact (lookup_cons _ _ _ _).trans (if_pos rfl))
      have hname : fullName s.scope (ch '&' :: a) = some (s.scope ++ str "/" ++ a) := by
        unfold fullName
        rw [if_neg (by intro h; rcases h with h | h <;> cases h)]
        exact if_pos (.inl rfl)
      obtain ⟨s1', hd', hl'⟩ := h.define (but_renaming n) (n := s.scope ++ str "/" ++ a) (n' := s.scope ++ str "/" ++ a) ⟨rfl, fun e => hm1 (by rw [hname, e])⟩ hva hw
      exact ⟨s1', fun rest e => by rw [he]; exact hf rest e, (word_sublabel _ _ _).2 (by rw [he]; exact hd'), ⟨j, hl'⟩, by rw [other hat, hw.2], by rw [other hat, hd'.2]⟩
    · refine simple ⟨?_, fun h => hcall (.inl h), ?_, ?_⟩
      · intro c hc
        cases hc
        have h3 : r ≠ ch '/' := fun e => hcall (.inr e)
        clear * - hat hamp h3
        revert hat hamp h3; revert r; decide +kernel
      · intro r' rest e hr'
        cases e
        exact absurd hr' href
      · intro rest e
        exfalso
        rcases e with e | e <;> (cases e; exact hpad (by decide))

/-- Up to the next label that begins a scope, it does not matter in which scope words without local labels are. -/
theorem unmentioned_scope {ws : List Str} {sc sc' : Str} (h : Unmentioned n sc ws) (hno : NoLocals ws) : Unmentioned n sc' ws := by
  induction ws with
  | nil => trivial
  | cons w ws ih =>
    rcases hno with hl | ⟨hl, hno⟩
    · refine ⟨?_, ?_⟩
      · rintro (e | e | e)
        · exact h.1 (.inl e)
        · refine h.1 (.inr (.inl ?_))
          rw [← e]
          refine fullName_scope fun c hc => ?_
          have : c = ch '@' := Option.some.inj (hc.symm.trans hl.1)
          subst this
          decide
        · exact e.1 hl
      · have := h.2
        unfold scopeAfter at this ⊢
        rw [if_pos hl] at this ⊢
        exact this
    · by_cases hlab : IsLabel w
      · have h2 := h.2
        unfold scopeAfter at h2
        rw [if_pos hlab] at h2
        refine ⟨?_, ?_⟩
        · rintro (e | e | e)
          · exact h.1 (.inl e)
          · exact h.1 (.inr (.inl ((fullName_word hl).trans e)))
          · exact e.1 hlab
        · unfold scopeAfter; rw [if_pos hlab]; exact h2
      · have h2 := h.2
        unfold scopeAfter at h2
        rw [if_neg hlab] at h2
        refine ⟨?_, ?_⟩
        · rintro (e | e | e)
          · exact h.1 (.inl e)
          · exact h.1 (.inr (.inl ((fullName_word hl).trans e)))
          · exact h.1 (.inr (.inr ⟨hlab, (fullName_tail hl).trans e.2⟩))
        · unfold scopeAfter; rw [if_neg hlab]; exact ih h2 hno

/-- Labels stay. -/
theorem runs_onward {ws : List Str} {s t : State} (h : Runs ws s t) : Onward s t := by
  induction h with
  | nil => exact .refl _
  | cons _ h _ ih => exact (word_onward h).trans ih

/-- Words that are not about the label. -/
theorem runs_akin {ws : List Str} {t : State} (hr : Runs ws s t) : ∀ s', Fresh s → Akin n F s s' → Unmentioned n s.scope ws → (s'.scope = s.scope ∨ NoLocals ws) →
    (∀ m a, t.labels.lookup m = some a → ValidName m) → ∃ t', Runs ws s' t' ∧ Akin n F t t' := by
  induction hr with
  | nil => intro s' _ h _ _ _; exact ⟨s', .nil, h⟩
  | @cons w ws s s1 t hf hw hrs ih =>
    intro s' hfr h hu hsc hv
    obtain ⟨hfr1, hg⟩ := word_onward hw hfr
    obtain ⟨-, hg1⟩ := runs_onward hrs hfr1
    obtain ⟨s1', f, p, q, c, d⟩ := h.word hf hw hu.1 (hsc.imp_right fun h => h.elim .inr fun h => .inl h.1) fun m a hm => hv m a (hg1.labels m a hm)
    obtain ⟨t', a', b'⟩ := ih s1' hfr1 q (by rw [c]; exact hu.2) (by
      rw [c, d]
      rcases hsc with e | e | e
      · exact .inl (by rw [e])
      · left; unfold scopeAfter; rw [if_pos e, if_pos e]
      · exact .inr e.2) hv
    exact ⟨t', .cons f p a', b'⟩

/-! ## The label -/

/-- The second program has the label, the first has not. -/
theorem Akin.extra (h : Akin n [] s s') (hv : ValidName n) : ∃ s1', Defines n s' s1' ∧ s1'.scope = s'.scope ∧ Akin n [n] s s1' := by
  obtain ⟨j, h⟩ := h
  have h1 : ∀ p, ¬ But n p n := fun p hp => hp.2 hp.1
  obtain ⟨s1', hd, hs, hl⟩ := h.name (m := n) ⟨h1, by simp, hv⟩
  refine ⟨s1', hd, hs, j, hl.addr, hl.bytes, hl.writes, hl.opened, hl.count, hl.closed, hl.labels, hl.known', hl.refs, ?_, hl.fresh⟩
  have hs := hl.stack
  generalize hX : ({ s with anonymous := s.addr :: s.anonymous } : State).anonymous = X at hs
  cases hs with
  | given _ _ hs =>
    cases hX
    exact hs

/-- The first program has it, the second has not. -/
theorem Akin.missing (h : Akin n F s s') (hd : Defines n s s1) : Akin n F s1 s' := by
  obtain ⟨j, h⟩ := h
  obtain ⟨hn, rfl⟩ := hd
  refine ⟨j, h.addr, h.bytes, ?_, h.opened, h.count, h.closed, ?_, h.known', h.refs, h.stack, h.fresh⟩
  · show s'.writes = s.fill _ ++ s.writes
    have : s.fill (.name n) = [] := by
      unfold State.fill
      rw [List.filter_eq_nil_iff.2]
      · rfl
      · intro r hr
        have key : ∀ {l l' : List Reference}, List.Forall₂ (RefLike (But n) F s'.labels) l l' → ∀ r ∈ l, r.target ≠ .name n := by
          intro l l' hl
          induction hl with
          | nil => intro r hr; cases hr
          | cons hh _ ih =>
            intro r hr
            rcases List.mem_cons.1 hr with rfl | hr
            · intro e
              have hx := hh.2.2.2
              rw [e] at hx
              generalize Reference.target _ = u at hx
              cases hx with
              | name hr => exact hr.2 rfl
            · exact ih r hr
        simpa using key h.refs r hr
    rw [this, h.writes]; rfl
  · intro p p' hp
    show _ = List.lookup p ((n, s.addr) :: s.labels)
    rw [lookup_cons, if_neg hp.2, h.labels _ _ hp]

/-- The label is put in. -/
theorem inserted_runs {ws ws' : List Str} {sc : Str} (hi : Inserted n sc ws ws') : ∀ {s s' t : State}, Runs ws s t → Fresh s → s.scope = sc → s'.scope = sc → Akin n [] s s' → Unmentioned n sc ws →
    ValidName n → (∀ m a, t.labels.lookup m = some a → ValidName m) → ∃ t', Runs ws' s' t' ∧ Akin n [n] t t' := by
  induction hi with
  | @sublabel sc b ws hn hlen =>
    intro s s' t hr hfr e1 e2 h hu hvn hv
    obtain ⟨s1', hd, hs, hl⟩ := h.extra hvn
    obtain ⟨t', a, b'⟩ := runs_akin hr s1' hfr hl (by rw [e1]; exact hu) (.inl (by rw [hs, e1, e2])) hv
    refine ⟨t', .cons (fun rest e => ?_) ((word_sublabel _ _ _).2 ?_) a, b'⟩
    · cases e; rw [e2, ← hn]; exact hlen
    · rw [e2, ← hn]; exact hd
  | @label sc ws hne hno =>
    intro s s' t hr hfr e1 e2 h hu hvn hv
    obtain ⟨s1', hd, hs, hl⟩ := h.extra hvn
    obtain ⟨t', a, b'⟩ := runs_akin hr { s1' with scope := n.takeWhile (· ≠ ch '/') } hfr (hl.imp fun _ hl => hl.scoped s.scope _) (by rw [e1]; exact hu) (.inr hno) hv
    exact ⟨t', .cons (fits_of (by decide) _ _) ((word_label hne _ _).2 ⟨_, hd, rfl⟩) a, b'⟩
  | @later sc w ws ws' hi ih =>
    intro s s' t hr hfr e1 e2 h hu hvn hv
    cases hr with
    | cons hf hw hrs =>
      obtain ⟨hfr1, hg⟩ := word_onward hw hfr
      obtain ⟨-, hg1⟩ := runs_onward hrs hfr1
      obtain ⟨s1', f, p, q, c, d⟩ := h.word hf hw (by rw [e1]; exact hu.1) (.inl (e2.trans e1.symm)) fun m a hm => hv m a (hg1.labels m a hm)
      obtain ⟨t', a', b'⟩ := ih hrs hfr1 (by rw [c, e1]) (by rw [d, e2]) q hu.2 hvn hv
      exact ⟨t', .cons f p a', b'⟩

/-- The label is taken out. -/
theorem removed_runs {ws ws' : List Str} {sc : Str} (hi : Inserted n sc ws ws') : ∀ {s s' t : State}, Runs ws' s t → Fresh s → s.scope = sc → s'.scope = sc → Akin n [] s s' → Unmentioned n sc ws →
    (∀ m a, t.labels.lookup m = some a → ValidName m) → ∃ t', Runs ws s' t' ∧ Akin n [] t t' := by
  induction hi with
  | @sublabel sc b ws hn hlen =>
    intro s s' t hr hfr e1 e2 h hu hv
    cases hr with
    | @cons _ _ _ s1 _ hf hw hrs =>
      obtain ⟨hfr1, -⟩ := word_onward hw hfr
      rw [word_sublabel, e1, ← hn] at hw
      have hs : s1.scope = s.scope := by rw [hw.2]
      exact runs_akin hrs s' hfr1 (h.missing hw) (by rw [hs, e1]; exact hu) (.inl (by rw [hs, e1, e2])) hv
  | @label sc ws hne hno =>
    intro s s' t hr hfr e1 e2 h hu hv
    cases hr with
    | cons hf hw hrs =>
      obtain ⟨hfr1, -⟩ := word_onward hw hfr
      rw [word_label hne] at hw
      obtain ⟨s2, hd, rfl⟩ := hw
      have hl := (h.missing hd).imp fun _ hl => hl.scoped (n.takeWhile (· ≠ ch '/')) s'.scope
      exact runs_akin hrs s' hfr1 hl (unmentioned_scope hu hno) (.inr hno) hv
  | @later sc w ws ws' hi ih =>
    intro s s' t hr hfr e1 e2 h hu hv
    cases hr with
    | cons hf hw hrs =>
      obtain ⟨hfr1, hg⟩ := word_onward hw hfr
      obtain ⟨-, hg1⟩ := runs_onward hrs hfr1
      obtain ⟨s1', f, p, q, c, d⟩ := h.word hf hw (by rw [e1]; exact hu.1) (.inl (e2.trans e1.symm)) fun m a hm => hv m a (hg1.labels m a hm)
      obtain ⟨t', a', b'⟩ := ih hrs hfr1 (by rw [c, e1]) (by rw [d, e2]) q hu.2 hv
      exact ⟨t', .cons f p a', b'⟩

theorem akin_start : Akin n [] {} {} := ⟨0, like_start⟩

/-- What follows from two states that agree but for the label: the verdict and the ROM. -/
theorem akin_rom {files files' : Files} (ht : Texts files) (ht' : Texts files') {main main' : Str} {out out' : List Str} {m : List (Str × List Str)}
    (hx : Expansion files main out m) (hx' : Expansion files' main' out' m) (hmac : m.lookup n = none) (fuel fuel' : Nat) (b' : Bool) (s s' : Asm)
    (h : assemble files fuel main = some (true, s)) (h' : assemble files' fuel' main' = some (b', s'))
    (hrun : ∀ T, Runs out {} T → Complete T → ∃ T', Runs out' {} T' ∧ Akin n F T T') :
    b' = true ∧ written s'.log = written s.log ∧ image s'.log = image s.log ∧
      ∃ r r', putAll (written s.log).reverse emptyRom = some r ∧ putAll (written s'.log).reverse emptyRom = some r' ∧ romFile r' = romFile r := by
  obtain ⟨S, h1, h2⟩ := C80_reasons files ht fuel main s h
  obtain ⟨hSm, T, t1, t2⟩ := expansion_runs hx h1
  have e0 : ∀ {o : List Str} {U : State}, Runs o {} U → U.macros = [] := fun hu => congrArg Env.macros hu.env
  have hcT : Complete T := t2.complete (fun n y hn => by rw [e0 t1] at hn; cases hn) h2
  obtain ⟨T', t3, j, t4⟩ := hrun T t1 hcT
  obtain ⟨S', h3, h4, h5⟩ := runs_program hx' t3
  have hcT' : Complete T' := t4.complete hcT (fun n y hn => by rw [e0 t3] at hn; cases hn)
  have hcS' : Complete S' := h4.complete (fun p y hp => by
    rw [h5] at hp
    have hne : p ≠ n := by rintro rfl; rw [hmac] at hp; cases hp
    obtain ⟨v1, v2⟩ := h2.macros p y (by rw [hSm]; exact hp)
    refine ⟨v1, ?_⟩
    rw [h4.labels, t4.labels p p ⟨rfl, hne⟩, t2.labels, v2]) hcT'
  have hb := C80_accepts files' ht' main' S' h3 hcS' fuel' b' s' h'
  subst hb
  have hw : S'.writes = S.writes := by rw [h4.writes, t4.writes, t2.writes]
  have hi : S'.image = S.image := by funext a; unfold State.image; rw [hw]
  obtain ⟨a1, a2, -⟩ := C78_image files ht fuel main s h S h1.program
  obtain ⟨b1, b2, -⟩ := C78_image files' ht' fuel' main' s' h' S' h3.program
  rw [hw] at b1
  rw [hi] at b2
  obtain ⟨r, c1, c2, c3, c4⟩ := C38_rom_file files fuel main true s h
  obtain ⟨r', d1, d2, d3, d4⟩ := C38_rom_file files' fuel' main' true s' h'
  refine ⟨rfl, b1.trans a1.symm, b2.trans a2.symm, r, r', c1, d1, ?_⟩
  exact rom_unique d2 c2 d3 c3 fun a => by rw [c4, d4, a2, b2]

/-- **C95.** A label with a valid name that no word of a program is about, nor a macro, can be put anywhere: as a local label of the scope there, or as a label that begins a scope where no local
labels follow. Both programs are accepted or both are refused, and if they are accepted, the same bytes are written in the same order and the ROM is the same, byte for byte. -/
theorem C95_unused_label {files files' : Files} (ht : Texts files) (ht' : Texts files') {main main' : Str} {out out' : List Str} {m : List (Str × List Str)}
    (hx : Expansion files main out m) (hx' : Expansion files' main' out' m) (hi : Inserted n (str "RESET") out out') (hu : Unmentioned n (str "RESET") out) (hn : ValidName n)
    (hmac : m.lookup n = none) (fuel fuel' : Nat) (b b' : Bool) (s s' : Asm) (h : assemble files fuel main = some (b, s)) (h' : assemble files' fuel' main' = some (b', s')) :
    b' = b ∧ (b = true → written s'.log = written s.log ∧ image s'.log = image s.log ∧
      ∃ r r', putAll (written s.log).reverse emptyRom = some r ∧ putAll (written s'.log).reverse emptyRom = some r' ∧ romFile r' = romFile r) := by
  cases b with
  | true =>
    obtain ⟨h1, h2⟩ := akin_rom (F := [n]) ht ht' hx hx' hmac fuel fuel' b' s s' h h'
      fun T hT hc => inserted_runs hi hT start_fresh rfl rfl akin_start hu hn hc.labels
    exact ⟨h1, fun _ => h2⟩
  | false =>
    refine ⟨?_, nofun⟩
    cases b' with
    | false => rfl
    | true =>
      have := (akin_rom (F := []) ht' ht hx' hx hmac fuel' fuel false s' s h' h
        fun T hT hc => removed_runs hi hT start_fresh rfl rfl akin_start hu hc.labels).1
      exact this.symm

/-! ## A program with an unused label -/

namespace Unused

/-- A program with a loop, and the same with two labels that nothing refers to. -/
def plain : Files := filesOf [("m", " @go #12 &x INC ?&x BRK @end #00")]
def local' : Files := filesOf [("m", " @go #12 &x INC ?&x &y BRK @end #00")]
def global : Files := filesOf [("m", " @go #12 &x INC ?&x @unused BRK @end #00")]

abbrev out : List Str := [str "@go", str "#12", str "&x", str "INC", str "?&x", str "BRK", str "@end", str "#00"]
abbrev outLocal : List Str := [str "@go", str "#12", str "&x", str "INC", str "?&x", str "&y", str "BRK", str "@end", str "#00"]
abbrev outGlobal : List Str := [str "@go", str "#12", str "&x", str "INC", str "?&x", str "@unused", str "BRK", str "@end", str "#00"]

theorem expansion : Expansion plain (str "m") out [] :=
  Other.written (words_of (str " @go #12 &x INC ?&x BRK @end #00") _ rfl (by decide +kernel) (by decide +kernel)) (Other.ordinaries (by decide +kernel))

theorem expansionLocal : Expansion local' (str "m") outLocal [] :=
  Other.written (words_of (str " @go #12 &x INC ?&x &y BRK @end #00") _ rfl (by decide +kernel) (by decide +kernel)) (Other.ordinaries (by decide +kernel))

theorem expansionGlobal : Expansion global (str "m") outGlobal [] :=
  Other.written (words_of (str " @go #12 &x INC ?&x @unused BRK @end #00") _ rfl (by decide +kernel) (by decide +kernel)) (Other.ordinaries (by decide +kernel))

theorem insertedLocal : Inserted (str "go/y") (str "RESET") out outLocal :=
  .later (.later (.later (.later (.later (.sublabel (by decide +kernel) (by decide +kernel))))))

theorem insertedGlobal : Inserted (str "unused") (str "RESET") out outGlobal :=
  .later (.later (.later (.later (.later (.label (by decide +kernel) (.inr ⟨by
    rintro ⟨c, h | h, e⟩ <;> (cases h; rcases e with e | e <;> revert e <;> decide), .inl (by decide)⟩))))))

theorem unmentionedLocal : Unmentioned (str "go/y") (str "RESET") out := by decide +kernel
theorem unmentionedGlobal : Unmentioned (str "unused") (str "RESET") out := by decide +kernel

theorem validLocal : ValidName (str "go/y") := Sample.valid _ (by decide) (by intro c hc; cases hc; rfl) (by decide +kernel) (by decide +kernel)
theorem validGlobal : ValidName (str "unused") := Sample.valid _ (by decide) (by intro c hc; cases hc; rfl) (by decide +kernel) (by decide +kernel)

/-- The three are accepted, with the same ROM. -/
theorem all : outcome [("m", " @go #12 &x INC ?&x BRK @end #00")] = outcome [("m", " @go #12 &x INC ?&x &y BRK @end #00")] ∧
    outcome [("m", " @go #12 &x INC ?&x BRK @end #00")] = outcome [("m", " @go #12 &x INC ?&x @unused BRK @end #00")] ∧
    (outcome [("m", " @go #12 &x INC ?&x BRK @end #00")]).map (·.1) = some true := by decide +kernel

/-- A label that begins a scope is not nothing if local labels follow: the same label two words earlier makes the program wrong. -/
theorem C95_scope_matters : (outcome [("m", " @go #12 &x INC @unused ?&x BRK @end #00")]).map (·.1) = some false := by decide +kernel

end Unused

end Buxn.Asm.Meaning
