import Verif.Asm.CommentsBodies
import Verif.Asm.Renaming
/-!
# C96: a macro that nothing uses adds nothing

Put the definition of a macro into one of the files of a program. If its name is not left anywhere when the program is written out (C87), the program stays what it is.
-/

namespace Buxn.Asm.Meaning
open Buxn.VM Buxn.Asm Buxn.Asm.Spec
variable {files files' : Files} {n f : Str}

/-! ## Specification -/

/-- The words of a file without and with the definition of the macro `n`, which is put between any two words, but not into a comment or into the body of another macro, nor between a word that
may be a macro with an argument and the next word. -/
inductive Defining (n : Str) : List Str → List Str → Prop
  | here {ws r r' b : List Str} : Opens r r' → body 1 r' = some (b, ws) → Defining n ws ((ch '%' :: n) :: r)
  | comment {w : Str} {c ws ws' : List Str} : IsComment w → Meaning.comment 1 c = some [] → Defining n ws ws' → Defining n (w :: (c ++ ws)) (w :: (c ++ ws'))
  | mark {w : Str} {ws ws' : List Str} : IsMark w → Defining n ws ws' → Defining n (w :: ws) (w :: ws')
  | define {w name : Str} {ws ws' r r' b rest rest' : List Str} : w = ch '%' :: name → Opens ws r → Opens ws' r' → body 1 r = some (b, rest) → body 1 r' = some (b, rest') →
      Defining n rest rest' → Defining n (w :: ws) (w :: ws')
  | word {w : Str} {ws ws' : List Str} : Plain w → w.getLast? ≠ some (ch ':') → Defining n ws ws' → Defining n (w :: ws) (w :: ws')
  /-- a word that may be a macro with an argument, and the next one -/
  | two {w arg : Str} {ws ws' : List Str} : Plain w → Plain arg → arg.getLast? ≠ some (ch ':') → Defining n ws ws' → Defining n (w :: arg :: ws) (w :: arg :: ws')

/-- The same files, but for the definition in the file `f`. (The name of a file ends at a zero byte.) -/
structure Extended (n f : Str) (files files' : Files) : Prop where
  other : ∀ name ws, 0 ∉ name → name ≠ f → Words files name ws → Words files' name ws
  file : ∀ ws, Words files f ws → ∃ ws', Words files' f ws' ∧ Defining n ws ws'

/-- A file is included when the program is read. -/
def Includes (files : Files) (main name : Str) : Prop :=
  ∃ ws o1 o2 e e', Words files main ws ∧ Expands files 0 [] ws {} o1 e ∧ ExpandsEnd files e o2 e' ∧ name ∈ e'.included

/-! ## What is kept while words are written out -/

theorem lookup_cons_self {k : Str} {b : List Str} {l : List (Str × List Str)} : ((k, b) :: l).lookup k = some b := by
  rw [List.lookup_cons, beq_self_eq_true]

theorem lookup_cons_ne {k p : Str} {b : List Str} {l : List (Str × List Str)} (h : p ≠ k) : ((k, b) :: l).lookup p = l.lookup p := by
  rw [List.lookup_cons, beq_false_of_ne h]

/-- Macros stay defined and files included. -/
def Longer (e e' : Env) : Prop := (∀ p, e'.macros.lookup p = none → e.macros.lookup p = none) ∧ ∀ p, p ∈ e.included → p ∈ e'.included

theorem Longer.refl (e : Env) : Longer e e := ⟨fun _ h => h, fun _ h => h⟩
theorem Longer.trans {a b c : Env} (h : Longer a b) (h' : Longer b c) : Longer a c := ⟨fun p hp => h.1 p (h'.1 p hp), fun p hp => h'.2 p (h.2 p hp)⟩

theorem grows_define {e : Env} {name : Str} {b : List Str} : Longer e { e with macros := (name, b) :: e.macros } := by
  refine ⟨fun p hp => ?_, fun _ h => h⟩
  by_cases h : p = name
  · subst h
    rw [lookup_cons_self] at hp
    cases hp
  · rwa [lookup_cons_ne h] at hp

theorem grows_include {e : Env} {name : Str} {d : List Str} : Longer e { e with deferred := d, included := name :: e.included } := ⟨fun _ h => h, fun _ h => List.mem_cons_of_mem _ h⟩

theorem expands_grows {d : Nat} {active ws out : List Str} {e e' : Env} (h : Expands files d active ws e out e') : Longer e e' := by
  induction h with
  | done => exact .refl _
  | comment _ _ _ ih => exact ih
  | mark _ _ ih => exact ih
  | define _ _ _ _ _ _ ih => exact grows_define.trans ih
  | expand _ _ _ _ _ _ _ ih1 ih2 => exact ih1.trans ih2
  | apply _ _ _ _ _ _ _ _ ih1 ih2 => exact ih1.trans ih2
  | «include» _ _ _ _ _ _ _ ih1 ih2 => exact (grows_include.trans ih1).trans ih2
  | again _ _ _ _ _ ih => exact ih
  | defer _ _ _ ih =>
    refine Longer.trans ?_ ih
    split
    · exact .refl _
    · exact ⟨fun _ h => h, fun _ h => h⟩
  | word _ _ _ ih => exact ih

theorem ends_grows {out : List Str} {e e' : Env} (h : ExpandsEnd files e out e') : Longer e e' := by
  induction h with
  | done => exact .refl _
  | «include» _ _ _ h4 _ ih => exact (grows_include.trans (expands_grows h4)).trans ih
  | again _ _ _ ih => exact Longer.trans ⟨fun _ h => h, fun _ h => h⟩ ih

/-! ## With one more macro -/

/-- The same, but for the macro `n`. -/
structure Adds (n : Str) (e e' : Env) : Prop where
  included : e'.included = e.included
  deferred : e'.deferred = e.deferred
  others : ∀ p, p ≠ n → e'.macros.lookup p = e.macros.lookup p

/-- The file `f` has been included, or never will be; and names have no zero bytes. -/
structure Past (f : Str) (e e' : Env) : Prop where
  past : f ∈ e.included ∨ f ∉ e'.included
  names : ∀ p ∈ e'.included, 0 ∉ p

theorem Past.sub {a b c d : Env} (h : Past f a d) (h1 : Longer a b) (h2 : Longer c d) : Past f b c :=
  ⟨h.past.imp (h1.2 _) fun h hc => h (h2.2 _ hc), fun p hp => h.names p (h2.2 _ hp)⟩

theorem Adds.define {e e' : Env} (h : Adds n e e') {name : Str} {b : List Str} : Adds n { e with macros := (name, b) :: e.macros } { e' with macros := (name, b) :: e'.macros } := by
  refine ⟨h.included, h.deferred, fun p hp => ?_⟩
  by_cases hk : p = name
  · subst hk
    rw [lookup_cons_self, lookup_cons_self]
  · rw [lookup_cons_ne hk, lookup_cons_ne hk]
    exact h.others p hp

/-- The words stay what they are, if the file with the definition is not read any more. -/
theorem expands_adds (hx : Extended n f files files') {d : Nat} {active ws out : List Str} {e e1 : Env} (h : Expands files d active ws e out e1) :
    n ∉ out → e1.macros.lookup n = none → Past f e e1 → ∀ e', Adds n e e' → ∃ e1', Expands files' d active ws e' out e1' ∧ Adds n e1 e1' := by
  induction h with
  | done => exact fun _ _ _ e' ha => ⟨e', .done, ha⟩
  | comment h1 h2 _ ih =>
    intro hn hm hp e' ha
    obtain ⟨e1', h3, h4⟩ := ih hn hm hp e' ha
    exact ⟨e1', .comment h1 h2 h3, h4⟩
  | mark h1 _ ih =>
    intro hn hm hp e' ha
    obtain ⟨e1', h3, h4⟩ := ih hn hm hp e' ha
    exact ⟨e1', .mark h1 h3, h4⟩
  | define h1 h2 h3 h4 h5 h6 ih =>
    rename_i name ws0 ws' b rest out e e1
    intro hn hm hp e' ha
    have hne : name ≠ n := by
      rintro rfl
      have := (expands_grows h6).1 _ hm
      rw [lookup_cons_self] at this
      cases this
    obtain ⟨e1', h7, h8⟩ := ih hn hm (hp.sub grows_define (.refl _)) _ ha.define
    exact ⟨e1', .define h1 h2 ((ha.others _ hne).trans h3) h4 h5 h7, h8⟩
  | expand h1 h2 h3 h4 h5 h6 h7 ih1 ih2 =>
    rename_i w b ws0 o1 o2 e e1 e2
    intro hn hm hp e' ha
    have g1 := expands_grows h6
    have g2 := expands_grows h7
    have hne : w ≠ n := by rintro rfl; rw [(g1.trans g2).1 _ hm] at h2; cases h2
    obtain ⟨e1', a1, a2⟩ := ih1 (fun h => hn (List.mem_append_left _ h)) (g2.1 _ hm) (hp.sub (.refl _) g2) e' ha
    obtain ⟨e2', b1, b2⟩ := ih2 (fun h => hn (List.mem_append_right _ h)) hm (hp.sub g1 (.refl _)) e1' a2
    exact ⟨e2', .expand h1 ((ha.others _ hne).trans h2) h3 h4 h5 a1 b1, b2⟩
  | apply h1 h2 h3 h4 h5 h5' h6 h7 ih1 ih2 =>
    rename_i w arg b ws0 o1 o2 e e1 e2
    intro hn hm hp e' ha
    have g1 := expands_grows h6
    have g2 := expands_grows h7
    have hne : w ≠ n := by rintro rfl; rw [(g1.trans g2).1 _ hm] at h2; cases h2
    obtain ⟨e1', a1, a2⟩ := ih1 (fun h => hn (List.mem_append_left _ h)) (g2.1 _ hm) (hp.sub (.refl _) g2) e' ha
    obtain ⟨e2', b1, b2⟩ := ih2 (fun h => hn (List.mem_append_right _ h)) hm (hp.sub g1 (.refl _)) e1' a2
    exact ⟨e2', .apply h1 ((ha.others _ hne).trans h2) h3 h4 h5 h5' a1 b1, b2⟩
  | «include» h1 h2 h3 h4 h5 h6 h7 ih1 ih2 =>
    rename_i w name inner ws0 o1 o2 e e1 e2
    intro hn hm hp e' ha
    have g0 : Longer e { e with included := name :: e.included } := grows_include (d := e.deferred)
    have g1 := expands_grows h6
    have g2 := expands_grows h7
    have hin : name ∈ e2.included := g2.2 _ (g1.2 _ List.mem_cons_self)
    have hne : name ≠ f := by
      rintro rfl
      exact hp.past.elim h4 fun h => h hin
    obtain ⟨e1', a1, a2⟩ := ih1 (fun h => hn (List.mem_append_left _ h)) (g2.1 _ hm) (hp.sub g0 g2) { e' with included := name :: e'.included }
      ⟨by rw [ha.included], ha.deferred, ha.others⟩
    obtain ⟨e2', b1, b2⟩ := ih2 (fun h => hn (List.mem_append_right _ h)) hm (hp.sub (g0.trans g1) (.refl _)) e1' a2
    exact ⟨e2', .include h1 h2 h3 (by rw [ha.included]; exact h4) (hx.other _ _ (hp.names _ hin) hne h5) a1 b1, b2⟩
  | again h1 h2 h3 h4 _ ih =>
    intro hn hm hp e' ha
    obtain ⟨e1', h5, h6⟩ := ih hn hm hp e' ha
    exact ⟨e1', .again h1 h2 h3 (by rw [ha.included]; exact h4) h5, h6⟩
  | defer h1 h2 _ ih =>
    rename_i w name ws0 out e e1 h3
    intro hn hm hp e' ha
    by_cases hi : name ∈ e.included
    · rw [if_pos hi] at ih
      obtain ⟨e1', h5, h6⟩ := ih hn hm hp e' ha
      exact ⟨e1', .defer h1 h2 (by rw [if_pos (by rw [ha.included]; exact hi)]; exact h5), h6⟩
    · rw [if_neg hi] at ih
      obtain ⟨e1', h5, h6⟩ := ih hn hm (hp.sub ⟨fun _ h => h, fun _ h => h⟩ (.refl _)) { e' with deferred := e'.deferred ++ [name] } ⟨ha.included, by rw [ha.deferred], ha.others⟩
      exact ⟨e1', .defer h1 h2 (by rw [if_neg (by rw [ha.included]; exact hi)]; exact h5), h6⟩
  | word h1 h2 _ ih =>
    rename_i w ws0 out e e1 h3
    intro hn hm hp e' ha
    rw [List.mem_cons, not_or] at hn
    obtain ⟨e1', h5, h6⟩ := ih hn.2 hm hp e' ha
    exact ⟨e1', .word h1 (fun hi => (ha.others _ (fun h => hn.1 h.symm)).trans (h2 hi)) h5, h6⟩

/-- The words stay what they are before the definition is met, in files other than `f`. -/
theorem expands_before (hx : Extended n f files files') {d : Nat} {active ws out : List Str} {e e1 : Env} (h : Expands files d active ws e out e1) :
    Past f e e1 → Expands files' d active ws e out e1 := by
  induction h with
  | done => exact fun _ => .done
  | comment h1 h2 _ ih => exact fun hp => .comment h1 h2 (ih hp)
  | mark h1 _ ih => exact fun hp => .mark h1 (ih hp)
  | define h1 h2 h3 h4 h5 h6 ih => exact fun hp => .define h1 h2 h3 h4 h5 (ih (hp.sub grows_define (.refl _)))
  | expand h1 h2 h3 h4 h5 h6 h7 ih1 ih2 =>
    exact fun hp => .expand h1 h2 h3 h4 h5 (ih1 (hp.sub (.refl _) (expands_grows h7))) (ih2 (hp.sub (expands_grows h6) (.refl _)))
  | apply h1 h2 h3 h4 h5 h5' h6 h7 ih1 ih2 =>
    exact fun hp => .apply h1 h2 h3 h4 h5 h5' (ih1 (hp.sub (.refl _) (expands_grows h7))) (ih2 (hp.sub (expands_grows h6) (.refl _)))
  | «include» h1 h2 h3 h4 h5 h6 h7 ih1 ih2 =>
    rename_i w name inner ws0 o1 o2 e e1 e2
    intro hp
    have g0 : Longer e { e with included := name :: e.included } := grows_include (d := e.deferred)
    have g1 := expands_grows h6
    have g2 := expands_grows h7
    have hin : name ∈ e2.included := g2.2 _ (g1.2 _ List.mem_cons_self)
    have hne : name ≠ f := by
      rintro rfl
      exact hp.past.elim h4 fun h => h hin
    exact .include h1 h2 h3 h4 (hx.other _ _ (hp.names _ hin) hne h5) (ih1 (hp.sub g0 g2)) (ih2 (hp.sub (g0.trans g1) (.refl _)))
  | again h1 h2 h3 h4 _ ih => exact fun hp => .again h1 h2 h3 h4 (ih hp)
  | defer h1 h2 h3 ih =>
    intro hp
    refine .defer h1 h2 (ih (hp.sub ?_ (.refl _)))
    split
    · exact .refl _
    · exact ⟨fun _ h => h, fun _ h => h⟩
  | word h1 h2 _ ih => exact fun hp => .word h1 h2 (ih hp)

/-- Two versions of the words that follow: what is written out is the same, and the second defines the macro. -/
def Carries (n f : Str) (files files' : Files) (t t' : List Str) : Prop :=
  ∀ {d : Nat} {active out : List Str} {e e1 : Env}, Expands files d active t e out e1 → n ∉ out → e1.macros.lookup n = none → Past f e e1 →
    ∃ e1', Expands files' d active t' e out e1' ∧ Adds n e1 e1'

theorem Carries.word (hx : Extended n f files files') {w : Str} {t t' : List Str} (ht : Carries n f files files' t t') (hw : Plain w)
    (ha : w.getLast? = some (ch ':') → ∀ arg u, t = arg :: u → ∃ u', t' = arg :: u' ∧ Carries n f files files' u u') : Carries n f files files' (w :: t) (w :: t') := by
  intro d active out e e1 h hn hm hp
  cases h with
  | comment h1 => exact absurd h1 hw.1
  | mark h1 => exact absurd h1 hw.2.1
  | define h1 => exact absurd (by rw [h1]; rfl) hw.2.2
  | expand h1 h2 h3 h4 h5 h6 h7 =>
    have g1 := expands_grows h6
    have g2 := expands_grows h7
    obtain ⟨e2, b1, b2⟩ := ht h7 (fun h => hn (List.mem_append_right _ h)) hm (hp.sub g1 (.refl _))
    exact ⟨e2, .expand h1 h2 h3 h4 h5 (expands_before hx h6 (hp.sub (.refl _) g2)) b1, b2⟩
  | apply h1 h2 h3 h4 h5 h5' h6 h7 =>
    have g1 := expands_grows h6
    have g2 := expands_grows h7
    obtain ⟨u', rfl, hu⟩ := ha h3 _ _ rfl
    obtain ⟨e2, b1, b2⟩ := hu h7 (fun h => hn (List.mem_append_right _ h)) hm (hp.sub g1 (.refl _))
    exact ⟨e2, .apply h1 h2 h3 h4 h5 h5' (expands_before hx h6 (hp.sub (.refl _) g2)) b1, b2⟩
  | «include» h1 h2 h3 h4 h5 h6 h7 =>
    rename_i name inner o1 o2 e0
    have g0 : Longer e { e with included := name :: e.included } := grows_include (d := e.deferred)
    have g1 := expands_grows h6
    have g2 := expands_grows h7
    have hin : name ∈ e1.included := g2.2 _ (g1.2 _ List.mem_cons_self)
    have hne : name ≠ f := by
      rintro rfl
      exact hp.past.elim h4 fun h => h hin
    obtain ⟨e2, b1, b2⟩ := ht h7 (fun h => hn (List.mem_append_right _ h)) hm (hp.sub (g0.trans g1) (.refl _))
    exact ⟨e2, .include h1 h2 h3 h4 (hx.other _ _ (hp.names _ hin) hne h5) (expands_before hx h6 (hp.sub g0 g2)) b1, b2⟩
  | again h1 h2 h3 h4 h5 =>
    obtain ⟨e2, b1, b2⟩ := ht h5 hn hm hp
    exact ⟨e2, .again h1 h2 h3 h4 b1, b2⟩
  | defer h1 h2 h3 =>
    obtain ⟨e2, b1, b2⟩ := ht h3 hn hm (hp.sub (by split; exact .refl _; exact ⟨fun _ h => h, fun _ h => h⟩) (.refl _))
    exact ⟨e2, .defer h1 h2 b1, b2⟩
  | word h1 h2 h3 =>
    rw [List.mem_cons, not_or] at hn
    obtain ⟨e2, b1, b2⟩ := ht h3 hn.2 hm hp
    exact ⟨e2, .word h1 h2 b1, b2⟩

theorem adds_define {e : Env} {b : List Str} : Adds n e { e with macros := (n, b) :: e.macros } := ⟨rfl, rfl, fun _ hp => lookup_cons_ne hp⟩

/-- The file with the definition. -/
theorem Defining.carries (hx : Extended n f files files') (hv : IsName n) {ws ws' : List Str} (h : Defining n ws ws') : Carries n f files files' ws ws' := by
  induction h with
  | here ho hb =>
    intro d active out e e1 h hn hm hp
    obtain ⟨e2, b1, b2⟩ := expands_adds hx h hn hm hp _ (adds_define (b := _))
    exact ⟨e2, .define rfl hv ((expands_grows h).1 _ hm) ho hb b1, b2⟩
  | comment hc h1 _ ih =>
    rename_i w c ws ws' _
    intro d active out e e1 h hn hm hp
    generalize hcw : c ++ ws = v at h
    cases h with
    | comment _ h2 h3 =>
      rw [← hcw, comment_append h1] at h2
      cases h2
      obtain ⟨e2, b1, b2⟩ := ih h3 hn hm hp
      exact ⟨e2, .comment hc (comment_append h1) b1, b2⟩
    | mark hm' => exact absurd hm' (comment_mark hc)
    | define e => exact absurd e (comment_cons hc (by decide))
    | expand hq => exact absurd hq (special_name (special_comment hc))
    | apply hq => exact absurd hq (special_name (special_comment hc))
    | «include» e => exact absurd e (comment_cons hc (by decide))
    | again e => exact absurd e (comment_cons hc (by decide))
    | defer e => exact absurd e (comment_cons hc (by decide))
    | word ho => exact absurd hc ho.1
  | mark hk _ ih =>
    intro d active out e e1 h hn hm hp
    cases h with
    | comment hm' => exact absurd hk (comment_mark hm')
    | mark _ h3 =>
      obtain ⟨e2, b1, b2⟩ := ih h3 hn hm hp
      exact ⟨e2, .mark hk b1, b2⟩
    | define e => exact absurd e (mark_cons hk (by decide) (by decide))
    | expand hq => exact absurd hq (special_name (special_mark hk))
    | apply hq => exact absurd hq (special_name (special_mark hk))
    | «include» e => exact absurd e (mark_cons hk (by decide) (by decide))
    | again e => exact absurd e (mark_cons hk (by decide) (by decide))
    | defer e => exact absurd e (mark_cons hk (by decide) (by decide))
    | word ho => exact absurd hk ho.2.1
  | define ew ho ho' hb hb' _ ih =>
    intro d active out e e1 h hn hm hp
    cases h with
    | comment hm' => exact absurd ew (comment_cons hm' (by decide))
    | mark hm' => exact absurd ew (mark_cons hm' (by decide) (by decide))
    | define e' h1 h2 h3 h4 h5 =>
      rw [ew] at e'; cases e'
      cases opens_unique ho h3
      rw [hb] at h4; cases h4
      obtain ⟨e2, b1, b2⟩ := ih h5 hn hm (hp.sub grows_define (.refl _))
      exact ⟨e2, .define ew h1 h2 ho' hb' b1, b2⟩
    | expand hq => exact absurd hq (special_name (special_macro ew))
    | apply hq => exact absurd hq (special_name (special_macro ew))
    | «include» e' => rw [ew] at e'; exact absurd (List.cons.inj e').1 (by decide)
    | again e' => rw [ew] at e'; exact absurd (List.cons.inj e').1 (by decide)
    | defer e' => rw [ew] at e'; exact absurd (List.cons.inj e').1 (by decide)
    | word ho => exact absurd ew (ho.2.2.1 _)
  | word hw hl _ ih => exact ih.word hx hw fun h => absurd h hl
  | two hw hw' hl _ ih =>
    refine Carries.word hx (ih.word hx hw' fun h => absurd h hl) hw fun _ arg u e => ?_
    cases e
    exact ⟨_, rfl, ih⟩

/-- Where the file with the definition has perhaps not been read yet. -/
theorem expands_extended (hx : Extended n f files files') (hv : IsName n) {d : Nat} {active ws out : List Str} {e e1 : Env} (h : Expands files d active ws e out e1) :
    n ∉ out → e1.macros.lookup n = none → (∀ p ∈ e1.included, 0 ∉ p) → ∃ e1', Expands files' d active ws e out e1' ∧ (e1' = e1 ∨ Adds n e1 e1' ∧ f ∈ e1.included) := by
  /- what comes after words that may have defined the macro -/
  have next : ∀ {d : Nat} {active ws out : List Str} {e e' e1 : Env}, Expands files d active ws e out e1 → n ∉ out → e1.macros.lookup n = none → (∀ p ∈ e1.included, 0 ∉ p) →
      (e' = e ∨ Adds n e e' ∧ f ∈ e.included) → (∃ e1', Expands files' d active ws e out e1' ∧ (e1' = e1 ∨ Adds n e1 e1' ∧ f ∈ e1.included)) →
      ∃ e1', Expands files' d active ws e' out e1' ∧ (e1' = e1 ∨ Adds n e1 e1' ∧ f ∈ e1.included) := by
    intro d active ws out e e' e1 h hn hm hz he hih
    rcases he with rfl | ⟨ha, hf⟩
    · exact hih
    · obtain ⟨e1', a1, a2⟩ := expands_adds hx h hn hm ⟨.inl hf, hz⟩ e' ha
      exact ⟨e1', a1, .inr ⟨a2, (expands_grows h).2 _ hf⟩⟩
  induction h with
  | done => exact fun _ _ _ => ⟨_, .done, .inl rfl⟩
  | comment h1 h2 _ ih =>
    intro hn hm hz
    obtain ⟨e1', h3, h4⟩ := ih hn hm hz
    exact ⟨e1', .comment h1 h2 h3, h4⟩
  | mark h1 _ ih =>
    intro hn hm hz
    obtain ⟨e1', h3, h4⟩ := ih hn hm hz
    exact ⟨e1', .mark h1 h3, h4⟩
  | define h1 h2 h3 h4 h5 h6 ih =>
    intro hn hm hz
    obtain ⟨e1', h7, h8⟩ := ih hn hm hz
    exact ⟨e1', .define h1 h2 h3 h4 h5 h7, h8⟩
  | expand h1 h2 h3 h4 h5 h6 h7 ih1 ih2 =>
    intro hn hm hz
    have g2 := expands_grows h7
    have hn2 : n ∉ _ := fun h => hn (List.mem_append_right _ h)
    obtain ⟨e1', a1, a2⟩ := ih1 (fun h => hn (List.mem_append_left _ h)) (g2.1 _ hm) fun p hp => hz p (g2.2 _ hp)
    obtain ⟨e2', b1, b2⟩ := next h7 hn2 hm hz a2 (ih2 hn2 hm hz)
    exact ⟨e2', .expand h1 h2 h3 h4 h5 a1 b1, b2⟩
  | apply h1 h2 h3 h4 h5 h5' h6 h7 ih1 ih2 =>
    intro hn hm hz
    have g2 := expands_grows h7
    have hn2 : n ∉ _ := fun h => hn (List.mem_append_right _ h)
    obtain ⟨e1', a1, a2⟩ := ih1 (fun h => hn (List.mem_append_left _ h)) (g2.1 _ hm) fun p hp => hz p (g2.2 _ hp)
    obtain ⟨e2', b1, b2⟩ := next h7 hn2 hm hz a2 (ih2 hn2 hm hz)
    exact ⟨e2', .apply h1 h2 h3 h4 h5 h5' a1 b1, b2⟩
  | «include» h1 h2 h3 h4 h5 h6 h7 ih1 ih2 =>
    rename_i w name inner ws0 o1 o2 e e1 e2
    intro hn hm hz
    have g1 := expands_grows h6
    have g2 := expands_grows h7
    have hin : name ∈ e1.included := g1.2 _ List.mem_cons_self
    have hn1 : n ∉ o1 := fun h => hn (List.mem_append_left _ h)
    have hn2 : n ∉ o2 := fun h => hn (List.mem_append_right _ h)
    have hz1 : ∀ p ∈ e1.included, 0 ∉ p := fun p hp => hz p (g2.2 _ hp)
    by_cases hne : name = f
    · subst hne
      obtain ⟨ws', c1, c2⟩ := hx.file _ h5
      obtain ⟨e1', a1, a2⟩ := c2.carries hx hv h6 hn1 (g2.1 _ hm) ⟨.inl List.mem_cons_self, hz1⟩
      obtain ⟨e2', b1, b2⟩ := next h7 hn2 hm hz (.inr ⟨a2, hin⟩) (ih2 hn2 hm hz)
      exact ⟨e2', .include h1 h2 h3 h4 c1 a1 b1, b2⟩
    · obtain ⟨e1', a1, a2⟩ := ih1 hn1 (g2.1 _ hm) hz1
      obtain ⟨e2', b1, b2⟩ := next h7 hn2 hm hz a2 (ih2 hn2 hm hz)
      exact ⟨e2', .include h1 h2 h3 h4 (hx.other _ _ (hz _ (g2.2 _ hin)) hne h5) a1 b1, b2⟩
  | again h1 h2 h3 h4 _ ih =>
    intro hn hm hz
    obtain ⟨e1', h5, h6⟩ := ih hn hm hz
    exact ⟨e1', .again h1 h2 h3 h4 h5, h6⟩
  | defer h1 h2 _ ih =>
    intro hn hm hz
    obtain ⟨e1', h5, h6⟩ := ih hn hm hz
    exact ⟨e1', .defer h1 h2 h5, h6⟩
  | word h1 h2 _ ih =>
    intro hn hm hz
    obtain ⟨e1', h5, h6⟩ := ih (fun h => hn (List.mem_cons_of_mem _ h)) hm hz
    exact ⟨e1', .word h1 h2 h5, h6⟩

/-! ## The files that are included at the end -/

theorem ends_adds (hx : Extended n f files files') {out : List Str} {e e1 : Env} (h : ExpandsEnd files e out e1) :
    n ∉ out → e1.macros.lookup n = none → Past f e e1 → ∀ e', Adds n e e' → ∃ e1', ExpandsEnd files' e' out e1' ∧ Adds n e1 e1' := by
  induction h with
  | done h1 => exact fun _ _ _ e' ha => ⟨e', .done (ha.deferred.trans h1), ha⟩
  | «include» h1 h2 h3 h4 h5 ih =>
    rename_i e e1 e2 name rest inner o1 o2
    intro hn hm hp e' ha
    have g0 : Longer e { e with deferred := rest, included := name :: e.included } := grows_include
    have g1 := expands_grows h4
    have g2 := ends_grows h5
    have hin : name ∈ e2.included := g2.2 _ (g1.2 _ List.mem_cons_self)
    have hne : name ≠ f := by
      rintro rfl
      exact hp.past.elim h2 fun h => h hin
    obtain ⟨e1', a1, a2⟩ := expands_adds hx h4 (fun h => hn (List.mem_append_left _ h)) (g2.1 _ hm) (hp.sub g0 g2) { e' with deferred := rest, included := name :: e'.included }
      ⟨by rw [ha.included], rfl, ha.others⟩
    obtain ⟨e2', b1, b2⟩ := ih (fun h => hn (List.mem_append_right _ h)) hm (hp.sub (g0.trans g1) (.refl _)) e1' a2
    exact ⟨e2', .include (ha.deferred.trans h1) (by rw [ha.included]; exact h2) (hx.other _ _ (hp.names _ hin) hne h3) a1 b1, b2⟩
  | again h1 h2 _ ih =>
    rename_i e e1 name rest out h3
    intro hn hm hp e' ha
    obtain ⟨e1', a1, a2⟩ := ih hn hm ⟨hp.past, hp.names⟩ { e' with deferred := rest } ⟨ha.included, rfl, ha.others⟩
    exact ⟨e1', .again (ha.deferred.trans h1) (by rw [ha.included]; exact h2) a1, a2⟩

theorem ends_extended (hx : Extended n f files files') (hv : IsName n) {out : List Str} {e e1 : Env} (h : ExpandsEnd files e out e1) :
    n ∉ out → e1.macros.lookup n = none → (∀ p ∈ e1.included, 0 ∉ p) → ∃ e1', ExpandsEnd files' e out e1' ∧ (e1' = e1 ∨ Adds n e1 e1') := by
  induction h with
  | done h1 => exact fun _ _ _ => ⟨_, .done h1, .inl rfl⟩
  | «include» h1 h2 h3 h4 h5 ih =>
    rename_i e e1 e2 name rest inner o1 o2
    intro hn hm hz
    have g1 := expands_grows h4
    have g2 := ends_grows h5
    have hin : name ∈ e1.included := g1.2 _ List.mem_cons_self
    have hn1 : n ∉ o1 := fun h => hn (List.mem_append_left _ h)
    have hn2 : n ∉ o2 := fun h => hn (List.mem_append_right _ h)
    have hz1 : ∀ p ∈ e1.included, 0 ∉ p := fun p hp => hz p (g2.2 _ hp)
    by_cases hne : name = f
    · subst hne
      obtain ⟨ws', c1, c2⟩ := hx.file _ h3
      obtain ⟨e1', a1, a2⟩ := c2.carries hx hv h4 hn1 (g2.1 _ hm) ⟨.inl List.mem_cons_self, hz1⟩
      obtain ⟨e2', b1, b2⟩ := ends_adds hx h5 hn2 hm ⟨.inl hin, hz⟩ e1' a2
      exact ⟨e2', .include h1 h2 c1 a1 b1, .inr b2⟩
    · obtain ⟨e1', a1, a2⟩ := expands_extended hx hv h4 hn1 (g2.1 _ hm) hz1
      have hw := hx.other _ _ (hz _ (g2.2 _ hin)) hne h3
      rcases a2 with rfl | ⟨a2, hf⟩
      · obtain ⟨e2', b1, b2⟩ := ih hn2 hm hz
        exact ⟨e2', .include h1 h2 hw a1 b1, b2⟩
      · obtain ⟨e2', b1, b2⟩ := ends_adds hx h5 hn2 hm ⟨.inl hf, hz⟩ e1' a2
        exact ⟨e2', .include h1 h2 hw a1 b1, .inr b2⟩
  | again h1 h2 _ ih =>
    intro hn hm hz
    obtain ⟨e1', a1, a2⟩ := ih hn hm hz
    exact ⟨e1', .again h1 h2 a1, a2⟩

/-! ## The theorems -/

/-- **C96.** What is written out is the same. -/
theorem C96_same_expansion (hx : Extended n f files files') (hv : IsName n) {main : Str} {out : List Str} {m : List (Str × List Str)} (h : Expansion files main out m) (hn : n ∉ out)
    (hm : m.lookup n = none) (h0 : 0 ∉ main) (hz : ∀ p, Includes files main p → 0 ∉ p) (hf : ¬ (f = main ∧ Includes files main main)) :
    ∃ m', Expansion files' main out m' ∧ ∀ p, p ≠ n → m'.lookup p = m.lookup p := by
  obtain ⟨ws, o1, o2, e, e', h1, h2, h3, rfl, rfl⟩ := h
  have hinc : ∀ p ∈ e'.included, Includes files main p := fun p hp => ⟨ws, o1, o2, e, e', h1, h2, h3, hp⟩
  have g := ends_grows h3
  have hn1 : n ∉ o1 := fun h => hn (List.mem_append_left _ h)
  have hn2 : n ∉ o2 := fun h => hn (List.mem_append_right _ h)
  have hz' : ∀ p ∈ e'.included, 0 ∉ p := fun p hp => hz p (hinc p hp)
  by_cases hm' : f = main
  · subst hm'
    have hp : ∀ {a b : Env}, Longer b e' → Past f a b := fun hb => ⟨.inr fun hi => hf ⟨rfl, hinc _ (hb.2 _ hi)⟩, fun p hp => hz' p (hb.2 _ hp)⟩
    obtain ⟨ws', c1, c2⟩ := hx.file _ h1
    obtain ⟨e1, a1, a2⟩ := c2.carries hx hv h2 hn1 (g.1 _ hm) (hp g)
    obtain ⟨e2, b1, b2⟩ := ends_adds hx h3 hn2 hm (hp (.refl _)) e1 a2
    exact ⟨e2.macros, ⟨ws', o1, o2, e1, e2, c1, a1, b1, rfl, rfl⟩, b2.others⟩
  · have hw := hx.other _ _ h0 (fun h => hm' h.symm) h1
    obtain ⟨e1, a1, a2⟩ := expands_extended hx hv h2 hn1 (g.1 _ hm) fun p hp => hz' p (g.2 _ hp)
    rcases a2 with rfl | ⟨a2, hi⟩
    · obtain ⟨e2, b1, b2⟩ := ends_extended hx hv h3 hn2 hm hz'
      refine ⟨e2.macros, ⟨ws, o1, o2, _, e2, hw, a1, b1, rfl, rfl⟩, fun p hp => ?_⟩
      rcases b2 with rfl | b2
      · rfl
      · exact b2.others p hp
    · obtain ⟨e2, b1, b2⟩ := ends_adds hx h3 hn2 hm ⟨.inl hi, hz'⟩ e1 a2
      exact ⟨e2.macros, ⟨ws, o1, o2, e1, e2, hw, a1, b1, rfl, rfl⟩, b2.others⟩

/-- What follows from the same expansion: the verdict and the ROM, if the names of the macros of the second program are in order. -/
theorem same_verdict (ht : Texts files) (ht' : Texts files') {main main' : Str} {out : List Str} {m m' : List (Str × List Str)} (hx : Expansion files main out m)
    (hx' : Expansion files' main' out m') (hm : ∀ S, ProgramWithin files main S → (∀ p y, m.lookup p = some y → ValidName p ∧ S.labels.lookup p = none) →
      ∀ p y, m'.lookup p = some y → ValidName p ∧ S.labels.lookup p = none) (fuel fuel' : Nat) (b' : Bool) (s s' : Asm)
    (h : assemble files fuel main = some (true, s)) (h' : assemble files' fuel' main' = some (b', s')) : b' = true := by
  obtain ⟨S, h1, h2⟩ := C80_reasons files ht fuel main s h
  obtain ⟨hSm, T, t1, t2⟩ := expansion_runs hx h1
  obtain ⟨S', h3, h4, h5⟩ := runs_program hx' t1
  have e0 : T.macros = [] := congrArg Env.macros t1.env
  have hcT : Complete T := t2.complete (fun n y hn => by rw [e0] at hn; cases hn) h2
  have hcS' : Complete S' := h4.complete (fun p y hp => by
    rw [h5] at hp
    rw [h4.labels, t2.labels]
    exact hm S h1 (fun p y hp => h2.macros p y (by rw [hSm]; exact hp)) p y hp) hcT
  exact C80_accepts files' ht' main' S' h3 hcS' fuel' b' s' h'

/-- **C96.** The definition of a macro with a valid name that is not the one of a label or of another macro, and that is left nowhere when the program is written out, can be put into any file of the
program: both programs are accepted or both are refused, and if they are accepted, the same bytes are written in the same order and the ROM is the same, byte for byte. (A program that starts
with the file must not include it again: the macro would be defined twice.) -/
theorem C96_unused_macro (ht : Texts files) (ht' : Texts files') (hx : Extended n f files files') (hv : ValidName n) {main : Str} {out : List Str} {m : List (Str × List Str)}
    (h : Expansion files main out m) (hn : n ∉ out) (hm : m.lookup n = none) (hl : ∀ S, Program files main S → S.labels.lookup n = none) (h0 : 0 ∉ main)
    (hz : ∀ p, Includes files main p → 0 ∉ p) (hf : ¬ (f = main ∧ Includes files main main)) (fuel fuel' : Nat) (b b' : Bool) (s s' : Asm)
    (ha : assemble files fuel main = some (b, s)) (ha' : assemble files' fuel' main = some (b', s')) :
    b' = b ∧ (b = true → written s'.log = written s.log ∧ image s'.log = image s.log ∧
      ∃ r r', putAll (written s.log).reverse emptyRom = some r ∧ putAll (written s'.log).reverse emptyRom = some r' ∧ romFile r' = romFile r) := by
  obtain ⟨m', h', hm'⟩ := C96_same_expansion hx hv.2.1 h hn hm h0 hz hf
  have hb : b' = b := by
    cases b with
    | true =>
      refine same_verdict ht ht' h h' (fun S hS hall p y hp => ?_) fuel fuel' b' s s' ha ha'
      by_cases hpn : p = n
      · subst hpn
        exact ⟨hv, hl S hS.program⟩
      · exact hall p y (by rw [← hm' p hpn]; exact hp)
    | false =>
      cases b' with
      | false => rfl
      | true =>
        have := same_verdict ht' ht h' h (fun S hS hall p y hp => by
          have hpn : p ≠ n := by rintro rfl; rw [hm] at hp; cases hp
          exact hall p y (by rw [hm' p hpn]; exact hp)) fuel' fuel false s' s ha' ha
        exact this.symm
  subst hb
  refine ⟨rfl, ?_⟩
  rintro rfl
  obtain ⟨h1, h2, r, r', h3, h4, h5⟩ := C87_same_expansion ht ht' h h' fuel fuel' s s' ha ha'
  exact ⟨h1.symm, h2.symm, r, r', h3, h4, h5.symm⟩

/-! ## A program with an unused macro -/

namespace UnusedMacro

/-- The program of `Sample`, with a macro in the file that it includes. -/
def more : Files := filesOf [("m", " %M { INC } ;end M ~x"), ("x", " @end %N: { #^ ?{ BRK } } BRK")]

abbrev out : List Str := [str ";end", str "INC", str "@end", str "BRK"]
abbrev ms : List (Str × List Str) := [(str "M", [str "INC"])]

theorem inner : Words sample (str "x") [str "@end", str "BRK"] := words_of (str " @end BRK") _ rfl (by decide +kernel) (by decide +kernel)

theorem expands : Expands sample 0 [] [str "%M", str "{", str "INC", str "}", str ";end", str "M", str "~x"] {} (str ";end" :: ([str "INC"] ++ ([str "@end", str "BRK"] ++ [])))
    { macros := ms, included := [str "x"] } := by
  refine .define (name := str "M") rfl Sample.name rfl .brace rfl ?_
  refine .word (Written.ordinary (by decide)) (fun h => absurd h (rune_name (by decide))) ?_
  refine .expand (b := [str "INC"]) (e1 := { macros := ms }) Sample.name rfl (by decide) (by decide) (by decide) (.word (Written.ordinary (by decide)) (fun _ => rfl) .done) ?_
  exact .include (name := str "x") (inner := [str "@end", str "BRK"]) (e1 := { macros := ms, included := [str "x"] }) rfl (by decide) (by decide) (by decide) inner
    (.word (Written.ordinary (by decide)) (fun h => absurd h (rune_name (by decide))) (.word (Written.ordinary (by decide)) (fun _ => rfl) .done)) .done

theorem expansion : Expansion sample (str "m") out ms := ⟨_, _, [], _, _, Sample.words, expands, .done rfl, rfl, rfl⟩

theorem included (p : Str) (h : Includes sample (str "m") p) : p = str "x" := by
  obtain ⟨ws, o1, o2, e, e', h1, h2, h3, h4⟩ := h
  cases words_unique h1 Sample.words
  obtain ⟨-, rfl⟩ := expands_unique h2 expands
  obtain ⟨-, rfl⟩ := expandsEnd_unique h3 (.done rfl)
  exact List.mem_singleton.1 h4

theorem plain {c : Byte} {r : Str} (h : c ∉ str "([]%") : Plain (c :: r) := by
  have : c ≠ ch '(' ∧ c ≠ ch '[' ∧ c ≠ ch ']' ∧ c ≠ ch '%' := by
    refine ⟨?_, ?_, ?_, ?_⟩ <;> (rintro rfl; exact h (by decide))
  refine ⟨fun h => this.1 (Option.some.inj h), ?_, fun h => this.2.2.2 (Option.some.inj h)⟩
  rintro (h | h)
  · exact this.2.1 (Option.some.inj h)
  · exact this.2.2.1 (List.cons.inj h).1

theorem defining : Defining (str "N:") [str "@end", str "BRK"] [str "@end", str "%N:", str "{", str "#^", str "?{", str "BRK", str "}", str "}", str "BRK"] :=
  .word (plain (by decide)) (by decide) (.here (b := [str "#^", str "?{", str "BRK", str "}"]) .brace rfl)

theorem takeWhile_all {w : Str} (h : 0 ∉ w) : w.takeWhile (· ≠ 0) = w := by
  induction w with
  | nil => rfl
  | cons c w ih =>
    rw [List.mem_cons, not_or] at h
    have hc : c ≠ 0 := fun e => h.1 e.symm
    rw [List.takeWhile_cons, if_pos (decide_eq_true hc), ih h.2]

theorem extended : Extended (str "N:") (str "x") sample more where
  other := by
    rintro name ws h0 hne ⟨raw, ls, h1, h2, h3⟩
    refine ⟨raw, ls, ?_, h2, h3⟩
    rw [takeWhile_all h0] at h1 ⊢
    rw [← h1]
    unfold more sample filesOf
    have hx : ¬ str "x" = name := fun h => hne h.symm
    by_cases hm : str "m" = name
    · simp [List.find?, hm]
    · simp [List.find?, hm, hx]
  file := by
    intro ws h
    cases words_unique h inner
    exact ⟨_, words_of (str " @end %N: { #^ ?{ BRK } } BRK") _ rfl (by decide +kernel) (by decide +kernel), defining⟩

theorem valid : ValidName (str "N:") := Sample.valid _ (by decide) (by intro c hc; cases hc; rfl) (by decide +kernel) (by decide +kernel)

/-- The theorem applies to the two programs. -/
theorem applies (fuel fuel' : Nat) (b b' : Bool) (s s' : Asm) (ha : assemble sample fuel (str "m") = some (b, s)) (ha' : assemble more fuel' (str "m") = some (b', s')) :
    b' = b ∧ (b = true → written s'.log = written s.log ∧ image s'.log = image s.log ∧
      ∃ r r', putAll (written s.log).reverse emptyRom = some r ∧ putAll (written s'.log).reverse emptyRom = some r' ∧ romFile r' = romFile r) := by
  refine C96_unused_macro (texts_of _ (by decide +kernel)) (texts_of _ (by decide +kernel)) extended valid expansion (by decide +kernel) (by decide +kernel) (fun S hS => ?_) (by decide)
    (fun p hp => ?_) (fun h => absurd h.1 (by decide)) fuel fuel' b b' s s' ha ha'
  · cases C78_one_meaning Sample.within.program hS
    decide +kernel
  · rw [included p hp]
    decide

/-- Both are accepted, with the same ROM. -/
theorem both : outcome [("m", " %M { INC } ;end M ~x"), ("x", " @end BRK")] = outcome [("m", " %M { INC } ;end M ~x"), ("x", " @end %N: { #^ ?{ BRK } } BRK")] ∧
    (outcome [("m", " %M { INC } ;end M ~x"), ("x", " @end BRK")]).map (·.1) = some true := by decide +kernel

/-- The conditions are needed: a macro with the name of a label makes the program wrong, also if nothing uses it, and so does one in a file that includes itself. -/
theorem C96_conditions_matter : (outcome [("m", " %M { INC } ;end M ~x"), ("x", " @end %end { DUP } BRK")]).map (·.1) = some false ∧
    (outcome [("m", " INC ~m BRK")]).map (·.1) = some true ∧ (outcome [("m", " INC %N { DUP } ~m BRK")]).map (·.1) = some false := by decide +kernel

end UnusedMacro

end Buxn.Asm.Meaning
