import Verif.Asm.AcceptsGrow
/-!
# C80: words are short, and so are the names of labels
-/

namespace Buxn.Asm.Meaning
open Buxn.VM Buxn.Asm Buxn.Asm.Spec

theorem put_labels (bs : List Byte) (s : State) : (s.put bs).labels = s.labels := by rw [put_eq]

theorem refers_labels {ref : Str} {k : RefKind} {z : RefSize} {s s' : State} (h : Refers ref k z s s') : s'.labels = s.labels := by
  obtain ⟨t, s1, h, rfl⟩ := h
  show s1.labels = _
  unfold State.target at h
  split at h
  · cases h; rfl
  · split at h
    · split at h
      · cases h
      · cases h; rfl
    · rw [Option.map_eq_some_iff] at h
      obtain ⟨n, -, h⟩ := h
      cases h; rfl

theorem pads_labels {p : Str} {s s' : State} {a : Short} (h : Pads p s a s') : s'.labels = s.labels := by cases h <;> rfl

theorem bare_labels {w : Str} {s s' : State} (h : Bare w s s') : s'.labels = s.labels := by
  rcases h with ⟨v, k, -, rfl⟩ | ⟨-, i, op, -, -, rfl⟩ | ⟨-, h⟩
  · exact put_labels _ _
  · exact put_labels _ _
  · exact (refers_labels h).trans (put_labels _ _)

/-- The labels that a word defines. -/
theorem word_labels {w : Str} {s s' : State} (h : Word w s s') :
    s'.labels = s.labels ∨ ∃ n, s'.labels = (n, s.addr) :: s.labels ∧ (w = ch '@' :: n ∨ ∃ rest, w = ch '&' :: rest ∧ n = s.scope ++ str "/" ++ rest) := by
  cases w with
  | nil => exact h.elim
  | cons rune rest =>
    unfold Word at h
    dsimp only at h
    split at h
    · exact .inl ((refers_labels h).trans (put_labels _ _))
    · split at h
      · obtain ⟨v, k, -, rfl⟩ := h; exact .inl (put_labels _ _)
      · split at h
        · rw [h.2]; exact .inl (put_labels _ _)
        · split at h
          · obtain ⟨a, s1, h, rfl⟩ := h; exact .inl (show s1.labels = _ from pads_labels h)
          · split at h
            · obtain ⟨a, s1, h, rfl⟩ := h; exact .inl (show s1.labels = _ from pads_labels h)
            · split at h
              · rw [h]; exact .inl rfl
              · split at h
                · rename_i e
                  obtain ⟨s1, h, rfl⟩ := h
                  refine .inr ⟨rest, ?_, .inl (by rw [e])⟩
                  show s1.labels = _
                  rw [h.2]
                · split at h
                  · rename_i e
                    exact .inr ⟨_, by rw [h.2], .inr ⟨rest, by rw [e], rfl⟩⟩
                  · split at h
                    · obtain ⟨k, ks, -, rfl⟩ := h; exact .inl rfl
                    · split at h
                      · exact .inl ((refers_labels h).trans (put_labels _ _))
                      · exact .inl (bare_labels h)

theorem comment_mem (d : Nat) (ws rest : List Str) (h : comment d ws = some rest) : ∀ w ∈ rest, w ∈ ws := by
  induction ws generalizing d with
  | nil => cases d with
    | zero => rw [comment] at h; cases h; exact fun _ h => h
    | succ d => rw [comment] at h; cases h
  | cons w ws ih => cases d with
    | zero => rw [comment] at h; cases h; exact fun _ h => h
    | succ d => rw [comment] at h; exact fun v hv => List.mem_cons_of_mem _ (ih _ h v hv)

theorem opens_mem {ws rest : List Str} (h : Opens ws rest) : ∀ w ∈ rest, w ∈ ws := by
  induction h with
  | brace => exact fun _ h => List.mem_cons_of_mem _ h
  | mark _ _ ih => exact fun w hw => List.mem_cons_of_mem _ (ih w hw)
  | comment _ hc _ ih => exact fun w hw => List.mem_cons_of_mem _ (comment_mem _ _ _ hc w (ih w hw))

theorem body_mem (d : Nat) (ws b rest : List Str) (h : body d ws = some (b, rest)) : (∀ w ∈ b, w ∈ ws) ∧ ∀ w ∈ rest, w ∈ ws := by
  have add : ∀ (d' : Nat) (w : Str) (ws : List Str), (∀ b rest, body d' ws = some (b, rest) → (∀ w ∈ b, w ∈ ws) ∧ ∀ w ∈ rest, w ∈ ws) →
      ∀ b rest, ((body d' ws).map fun r => (w :: r.1, r.2)) = some (b, rest) → (∀ v ∈ b, v ∈ w :: ws) ∧ ∀ v ∈ rest, v ∈ w :: ws := by
    intro d' w ws ih b rest hm
    rw [Option.map_eq_some_iff] at hm
    obtain ⟨⟨b1, r1⟩, h1, h2⟩ := hm
    obtain ⟨h3, h4⟩ := ih _ _ h1
    simp only [Prod.mk.injEq] at h2
    obtain ⟨rfl, rfl⟩ := h2
    refine ⟨fun v hv => ?_, fun v hv => List.mem_cons_of_mem _ (h4 v hv)⟩
    rcases List.mem_cons.1 hv with rfl | hv
    · exact List.mem_cons_self
    · exact List.mem_cons_of_mem _ (h3 v hv)
  induction ws generalizing d b rest with
  | nil => rw [body] at h; cases h
  | cons w ws ih =>
    rw [body] at h
    split at h
    · cases h
    · split at h
      · split at h
        · cases h
          exact ⟨(fun _ h => by cases h), fun _ h => List.mem_cons_of_mem _ h⟩
        · exact add _ _ _ (fun b rest hb => ih _ b rest hb) _ _ h
      · exact add _ _ _ (fun b rest hb => ih _ b rest hb) _ _ h

/-- Labels have short names, and macros consist of short words. -/
structure AllShort (s : State) : Prop where
  labels : ∀ n a, s.labels.lookup n = some a → n.length ≤ WORD
  macros : ∀ n b, s.macros.lookup n = some b → ∀ v ∈ b, Short? v

theorem tokens_short {pre text : Str} {ls : List Lexeme} {ok : Bool} (h : Tokens pre text ls ok) : ∀ l ∈ ls, Short? l.text := by
  induction h with
  | nothing _ => exact fun _ h => by cases h
  | @word _ _ w _ _ _ _ _ _ _ _ hl _ ih =>
    intro l hm
    rcases List.mem_cons.1 hm with rfl | hm
    · show w.length ≤ _
      have : WORD = 47 := rfl
      have : TEXT = 1024 := rfl
      split <;> omega
    · exact ih l hm
  | longWord _ _ _ => exact fun _ h => by cases h
  | @text _ _ body _ _ _ _ _ hl _ ih =>
    intro l hm
    rcases List.mem_cons.1 hm with rfl | hm
    · show (QUOTE :: body).length ≤ TEXT
      rw [List.length_cons]
      have : TEXT = 1024 := rfl
      omega
    · exact ih l hm
  | longText _ _ _ => exact fun _ h => by cases h
  | openText _ _ => exact fun _ h => by cases h

theorem words_short {files : Files} {name : Str} {ws : List Str} (h : Words files name ws) : ∀ w ∈ ws, Short? w := by
  obtain ⟨raw, ls, -, ht, rfl⟩ := h
  intro w hw
  obtain ⟨l, hl, rfl⟩ := List.mem_map.1 hw
  exact tokens_short ht l hl

theorem within_short {files : Files} {d : Nat} {active ws : List Str} {s s' : State} (h : Within files d active ws s s') :
    (∀ w ∈ ws, Short? w) → AllShort s → AllShort s' := by
  induction h with
  | done => exact fun _ h => h
  | comment _ hc _ ih => exact fun hw => ih fun w hm => hw w (List.mem_cons_of_mem _ (comment_mem _ _ _ hc w hm))
  | mark _ _ ih => exact fun hw => ih fun w hm => hw w (List.mem_cons_of_mem _ hm)
  | define _ _ hn ho hb _ ih =>
    intro hw hs
    have h1 := body_mem _ _ _ _ hb
    refine ih (fun w hm => hw w (List.mem_cons_of_mem _ (opens_mem ho w (h1.2 w hm)))) ⟨hs.labels, fun n b hl v hv => ?_⟩
    rw [lookup_cons] at hl
    split at hl
    · cases hl
      exact hw v (List.mem_cons_of_mem _ (opens_mem ho v (h1.1 v hv)))
    · exact hs.macros n b hl v hv
  | expand _ hb _ _ _ _ _ ih1 ih2 => exact fun hw hs => ih2 (fun w hm => hw w (List.mem_cons_of_mem _ hm)) (ih1 (hs.macros _ _ hb) ⟨hs.labels, hs.macros⟩)
  | apply _ _ _ _ _ hx _ _ ih1 ih2 =>
    intro hw hs
    refine ih2 (fun w hm => hw w (List.mem_cons_of_mem _ (List.mem_cons_of_mem _ hm))) (ih1 (fun w hm => ?_) ⟨hs.labels, hs.macros⟩)
    obtain ⟨v, hv, rfl⟩ := List.mem_map.1 hm
    exact hx v hv
  | «include» _ _ _ _ hwords _ _ ih1 ih2 => exact fun hw hs => ih2 (fun w hm => hw w (List.mem_cons_of_mem _ hm)) (ih1 (words_short hwords) ⟨hs.labels, hs.macros⟩)
  | again _ _ _ _ _ ih => exact fun hw => ih fun w hm => hw w (List.mem_cons_of_mem _ hm)
  | defer _ _ _ ih =>
    intro hw hs
    refine ih (fun w hm => hw w (List.mem_cons_of_mem _ hm)) ?_
    split
    · exact hs
    · exact ⟨hs.labels, hs.macros⟩
  | @word _ _ w _ s s1 _ _ hfit hwd _ ih =>
    intro hw hs
    refine ih (fun w hm => hw w (List.mem_cons_of_mem _ hm)) ⟨?_, by rw [word_macros hwd]; exact hs.macros⟩
    rcases word_labels hwd with e | ⟨n, e, hn⟩
    · rw [e]; exact hs.labels
    · intro m a hm
      rw [e, lookup_cons] at hm
      split at hm
      · rename_i em
        subst em
        rcases hn with hn | ⟨rest, hn, rfl⟩
        · have h1 := hw _ List.mem_cons_self
          rw [hn] at h1
          have h1 : (ch '@' :: m).length ≤ WORD := h1
          rw [List.length_cons] at h1
          omega
        · exact hfit rest hn
      · exact hs.labels m a hm

theorem ends_short {files : Files} {s s' : State} (h : EndsWithin files s s') : AllShort s → AllShort s' := by
  induction h with
  | done _ => exact fun h => h
  | «include» _ _ hwords hw _ ih => exact fun hs => ih (within_short hw (words_short hwords) ⟨hs.labels, hs.macros⟩)
  | again _ _ _ ih => exact fun hs => ih ⟨hs.labels, hs.macros⟩

/-- The names of the labels of a program are short. -/
theorem program_short {files : Files} {main : Str} {s : State} (h : ProgramWithin files main s) : AllShort s := by
  obtain ⟨ws, s1, h1, h2, h3⟩ := h
  exact ends_short h3 (within_short h2 (words_short h1) ⟨(fun _ _ h => by cases h), (fun _ _ h => by cases h)⟩)

theorem Complete.finished {files : Files} {main : Str} {s : State} (h : ProgramWithin files main s) (hc : Complete s) : Finished s := ⟨hc, (program_short h).labels⟩

end Buxn.Asm.Meaning
