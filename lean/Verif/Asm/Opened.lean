import Verif.Asm.Places
import Verif.Asm.Reports
/-!
# An assembly depends only on the files that it opens
-/

namespace Buxn.Asm
open Buxn.VM Spec

namespace Spec

/-- The names under which files were asked for, newest first. -/
def opened (log : List Event) : List Str :=
  log.filterMap fun
    | .fopen n => some n
    | _ => none

/-- Only the files with these names. -/
def only (files : Files) (names : List Str) : Files := fun n => if n ∈ names then files n else none

end Spec

theorem mem_opened {n : Str} {log : List Event} : n ∈ opened log ↔ Event.fopen n ∈ log := by
  unfold opened
  rw [List.mem_filterMap]
  constructor
  · rintro ⟨e, he, h⟩
    cases e <;> cases h
    exact he
  · intro h
    exact ⟨_, h, rfl⟩

theorem Ext.opened {s s' : Asm} (h : Ext s s') : Spec.opened s.log ⊆ Spec.opened s'.log := by
  obtain ⟨new, hl, _⟩ := h
  intro n hn
  rw [mem_opened] at hn ⊢
  rw [hl]
  exact List.mem_append_right _ hn

/-- What `rec` does with these files, `rec'` does too. -/
def Follows (O : List Str) (rec rec' : Nested) : Prop := ∀ u s r, rec u s = some r → opened r.2.log ⊆ O → rec' u s = some r

theorem ite_only {α : Type} {c : Prop} [Decidable c] {a b a' b' r : α} (h : (if c then a else b) = r) (h1 : a = r → a' = r) (h2 : b = r → b' = r) :
    (if c then a' else b') = r := by
  split
  · rename_i hc; rw [if_pos hc] at h; exact h1 h
  · rename_i hc; rw [if_neg hc] at h; exact h2 h

section
variable {files files' : Files} {O : List Str} {rec rec' : Nested} (hrec : Follows O rec rec') (hg : GoodN (fun s s' => Ext s s' ∧ KeepsMacros s s') rec)
  (hag : ∀ n ∈ O, files' n = files n)

theorem error_log (m : String) (r : Region) (s : Asm) : (error m r s).2.log = .error m r :: s.log := rfl

theorem opened_error (m : String) (r : Region) (s : Asm) : opened (error m r s).2.log = opened s.log := rfl

include hrec

theorem runMacro_only (t : Token) (name : Str) (n : Node) (body : List Token) (id : Short) (arg : Str) (u : Unit) (s : Asm) (r : Bool × Unit × Asm)
    (h : runMacro rec t name n body id arg u s = some r) (ho : opened r.2.2.log ⊆ O) : runMacro rec' t name n body id arg u s = some r := by
  unfold runMacro at h ⊢
  dsimp only at h ⊢
  split at h
  · cases h
  · rename_i ok s2 heq
    have : opened s2.log ⊆ O := by
      cases h
      refine fun x hx => ho ?_
      dsimp only
      cases ok
      · rw [if_neg (by simp), opened_error]
        split <;> exact hx
      · rw [if_pos rfl]
        split <;> exact hx
    rw [hrec _ _ _ heq this]
    exact h

theorem expandMacro_only (t : Token) (name : Str) (n : Node) (body : List Token) (id : Short) (x : Bool) (u : Unit) (s : Asm) (r : Bool × Unit × Asm)
    (h : expandMacro rec t name n body id x u s = some r) (ho : opened r.2.2.log ⊆ O) : expandMacro rec' t name n body id x u s = some r := by
  unfold expandMacro at h ⊢
  refine ite_only h (fun h => h) fun h => ite_only h (fun h => h) fun h => ?_
  dsimp only at h ⊢
  refine ite_only h (fun h => ?_) fun h => runMacro_only hrec _ _ _ _ _ _ _ _ _ h ho
  split at h
  · exact h
  · exact runMacro_only hrec _ _ _ _ _ _ _ _ _ h ho

theorem processWord_only (t : Token) (u : Unit) (s : Asm) (r : Bool × Unit × Asm)
    (h : processWord rec t u s = some r) (ho : opened r.2.2.log ⊆ O) : processWord rec' t u s = some r := by
  unfold processWord at h ⊢
  split at h
  · exact h
  · split at h
    · exact h
    · split at h
      · exact expandMacro_only hrec _ _ _ _ _ _ _ _ _ h ho
      · exact h
      · exact h
      · exact h

include hg hag

theorem processFile_only (path : Str) (s : Asm) (r : Bool × Asm)
    (h : processFile files rec path s = some r) (ho : opened r.2.log ⊆ O) : processFile files' rec' path s = some r := by
  have hp : cstr path ∈ O := by
    refine ho ?_
    unfold processFile at h
    dsimp only at h
    split at h
    · cases h
      exact List.mem_cons_self
    · split at h
      · cases h
      · rename_i ok s2 heq
        have := (hg _ _ _ heq).1.1.opened
        cases h
        refine this ?_
        exact List.mem_cons_self
  unfold processFile at h ⊢
  rw [hag _ hp]
  dsimp only at h ⊢
  split at h
  · exact h
  · split at h
    · cases h
    · rename_i ok s2 heq
      rw [hrec _ _ _ heq (by cases h; exact ho)]
      exact h

theorem processInclude_only (name : Str) (t : Token) (s : Asm) (r : Bool × Asm)
    (h : processInclude files rec name t s = some r) (ho : opened r.2.log ⊆ O) : processInclude files' rec' name t s = some r := by
  unfold processInclude at h ⊢
  split at h
  · rename_i hm
    rw [if_pos hm]
    exact h
  · rename_i hm
    rw [if_neg hm]
    dsimp only at h ⊢
    split at h
    · cases h
    · rename_i ok s2 heq
      rw [processFile_only hrec hg hag _ _ _ heq (by
        cases h
        refine fun x hx => ho ?_
        cases ok
        · exact hx
        · exact hx)]
      exact h

theorem processTilde_only (t : Token) (s : Asm) (r : Bool × Asm)
    (h : processTilde files rec t s = some r) (ho : opened r.2.log ⊆ O) : processTilde files' rec' t s = some r := by
  unfold processTilde at h ⊢
  refine ite_only h (fun h => h) fun h => ?_
  dsimp only at h ⊢
  exact ite_only h (fun h => h) fun h => processInclude_only hrec hg hag _ _ _ _ h ho

theorem processToken_only (t : Token) (u : Unit) (s : Asm) (r : Bool × Unit × Asm)
    (h : processToken files rec t u s = some r) (ho : opened r.2.2.log ⊆ O) : processToken files' rec' t u s = some r := by
  unfold processToken at h ⊢
  dsimp only at h ⊢
  generalize t.lex.headD 0 = c at h ⊢
  iterate 4 refine ite_only h (fun h => h) fun h => ?_
  refine ite_only h (fun h => ?_) fun h => ?_
  · obtain ⟨r', e, rfl⟩ := Option.map_eq_some_iff.1 h
    rw [processTilde_only hrec hg hag _ _ _ e ho]
    rfl
  · iterate 19 refine ite_only h (fun h => h) fun h => ?_
    exact processWord_only hrec _ _ _ _ h ho

theorem unitLoop_only (fuel : Nat) (u : Unit) (s : Asm) (r : Bool × Asm)
    (h : unitLoop files rec fuel u s = some r) (ho : opened r.2.log ⊆ O) : unitLoop files' rec' fuel u s = some r := by
  induction fuel generalizing u s with
  | zero => cases h
  | succ fuel ih =>
    unfold unitLoop at h ⊢
    split at h
    · exact h
    · split at h
      · cases h
      · rename_i heq
        rw [processToken_only hrec hg hag _ _ _ _ heq (by cases h; exact ho)]
        exact h
      · rename_i heq
        have := (unitLoop_good (ext_atoms.closed) files rec hg _ _ _ _ h).1.1.opened
        rw [processToken_only hrec hg hag _ _ _ _ heq (List.Subset.trans this ho)]
        exact ih _ _ h

theorem deferredLoop_only (fuel i : Nat) (s : Asm) (r : Bool × Asm)
    (h : deferredLoop files rec fuel i s = some r) (ho : opened r.2.log ⊆ O) : deferredLoop files' rec' fuel i s = some r := by
  induction fuel generalizing i s with
  | zero => cases h
  | succ fuel ih =>
    unfold deferredLoop at h ⊢
    split at h
    · exact h
    · split at h
      · cases h
      · rename_i heq
        rw [processInclude_only hrec hg hag _ _ _ _ heq (by cases h; exact ho)]
        exact h
      · rename_i heq
        have := (deferredLoop_good (ext_atoms.closed) files rec hg _ _ _ _ h).1.1.opened
        rw [processInclude_only hrec hg hag _ _ _ _ heq (List.Subset.trans this ho)]
        exact ih _ _ h

theorem resolve_only (fuel : Nat) (s : Asm) (r : Bool × Asm)
    (h : resolve files rec fuel s = some r) (ho : opened r.2.log ⊆ O) : resolve files' rec' fuel s = some r := by
  unfold resolve at h ⊢
  split at h
  · cases h
  · rename_i heq
    rw [deferredLoop_only hrec hg hag _ _ _ _ heq (by cases h; exact ho)]
    exact h
  · rename_i s1 heq
    have q : Closing s1 (reportSymbols (reportAtLabels (reportLambdas s1.lambdas s1).atLabels (reportLambdas s1.lambdas s1)).names.reverse
        (reportAtLabels (reportLambdas s1.lambdas s1).atLabels (reportLambdas s1.lambdas s1))) :=
      (Closing.quiet (reportLambdas_quiet _ _)).trans ((reportAtLabels_quiet _ _).trans (reportSymbols_quiet _ _))
    have := (ext_atoms.closed.closing (reported warning_ext) q).1.opened
    rw [deferredLoop_only hrec hg hag _ _ _ _ heq (by cases h; exact List.Subset.trans this ho)]
    exact h

end

theorem processUnit_only {files files' : Files} {O : List Str} (hag : ∀ n ∈ O, files' n = files n) (fuel levels : Nat) : Follows O (processUnit files fuel levels) (processUnit files' fuel levels) := by
  induction levels with
  | zero => exact fun u s r h ho => unitLoop_only (rec := fun _ _ => none) (fun _ _ _ h _ => h) (fun _ _ _ h => by cases h) hag fuel u s r h ho
  | succ levels ih => exact fun u s r h ho => unitLoop_only ih (processUnit_good ext_atoms.closed files fuel levels) hag fuel u s r h ho

/-- An assembly is the same, with all that it reports, if the files that it opens are the same. -/
theorem C97_opened_files {files files' : Files} (fuel : Nat) (filename : Str) (r : Bool × Asm) (h : assemble files fuel filename = some r)
    (hag : ∀ n ∈ opened r.2.log, files' n = files n) : assemble files' fuel filename = some r := by
  have hrec := processUnit_only hag fuel MAX_DEPTH
  have hg := processUnit_good ext_atoms.closed files fuel MAX_DEPTH
  unfold assemble at h ⊢
  dsimp only at h ⊢
  split at h
  · cases h
  · rename_i heq
    rw [processFile_only hrec hg hag _ _ _ heq (by cases h; exact fun _ h => h)]
    exact h
  · rename_i heq
    split at h
    · cases h
    · rename_i heq2
      have := (resolve_good ext_atoms.closed (reported warning_ext) files _ hg _ _ _ heq2).1.1.opened
      rw [processFile_only hrec hg hag _ _ _ heq (by cases h; exact this)]
      dsimp only
      rw [resolve_only hrec hg hag _ _ _ heq2 (by cases h; exact fun _ h => h)]
      exact h

/-- An assembly is the same if only the files that it opens exist. -/
theorem assemble_only (files : Files) (fuel : Nat) (filename : Str) (r : Bool × Asm) (h : assemble files fuel filename = some r) :
    assemble (only files (opened r.2.log)) fuel filename = some r :=
  C97_opened_files fuel filename r h fun _ hn => if_pos hn

theorem spells_file {t : Token} {i : SymInfo} (h : Spells t i) : i.region.file = t.region.file := by
  have hc : ∀ r w, Covers t r w → r.file = t.region.file := by
    rintro r w (⟨rfl, _⟩ | ⟨rfl, _⟩) <;> rfl
  unfold Spells at h
  split at h
  · rw [h.1]
  · rw [h.1]
  · rw [h.1]
  · rw [h.1]
  · rw [h.1]
  · rw [h.1]
  · obtain ⟨w, h, _⟩ := h
    exact hc _ _ h
  · rcases h with ⟨h, _⟩ | ⟨h, _⟩ <;> rw [h]
  · obtain ⟨w, n, k, h, _⟩ := h
    exact hc _ _ h
  · rw [h.1]

/-- Every symbol is about a word of a file that was opened. -/
theorem symbol_opened (files : Files) (hfiles : ∀ name st, files name = some st → ∃ raw, st = raw.map some ∧ ProperLines raw)
    (fuel : Nat) (filename : Str) (ok : Bool) (s : Asm) (h : assemble files fuel filename = some (ok, s)) (addr : Short) (i : SymInfo)
    (hi : .sym addr i ∈ s.log) : cstr i.region.file ∈ opened s.log ∧ ∃ t, Located files t ∧ Spells t i := by
  refine ⟨?_, C57_positions files hfiles fuel filename ok s h addr i hi⟩
  obtain ⟨t, ⟨raw, a, w, b, text, h1, _⟩, hs⟩ := C57_positions (only files (opened s.log)) (fun name st hst => by
    unfold only at hst
    split at hst
    · exact hfiles _ _ hst
    · cases hst) fuel filename ok s (assemble_only files fuel filename _ h) addr i hi
  have hf : i.region.file = t.region.file := spells_file hs
  rw [hf]
  unfold only at h1
  split at h1
  · assumption
  · cases h1

end Buxn.Asm
