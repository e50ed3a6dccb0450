import Verif.Asm.AcceptsProps
/-!
# C80: what is accepted is within the limits and complete
-/

namespace Buxn.Asm.Meaning
open Buxn.VM Buxn.Asm Buxn.Asm.Spec

/-- New names are valid. -/
def NewValid (a b : Asm) : Prop := ∀ k n, b.symtab k = some n → (∃ m, a.symtab k = some m) ∨ ValidName k

theorem NewValid.same {s s' : Asm} (h : s'.symtab = s.symtab) : NewValid s s' := fun k n hn => .inl ⟨n, by rw [← h]; exact hn⟩

/-- One entry that was there changes. -/
theorem NewValid.but {s s' : Asm} {name : Str} {n : Node} (hn : s.symtab name = some n) (h : ∀ k, k ≠ name → s'.symtab k = s.symtab k) : NewValid s s' := fun k m hm => by
  by_cases hk : k = name
  · subst hk; exact .inl ⟨n, hn⟩
  · rw [h k hk] at hm; exact .inl ⟨m, hm⟩

theorem newValid_atoms : Atoms NewValid where
  trans h h' k n hn := by
    rcases h' k n hn with ⟨m, hm⟩ | hv
    · exact h k m hm
    · exact .inr hv
  frame h := .same h.symtab
  error _ _ _ := .same rfl
  event _ _ _ := .same rfl
  opcode _ _ _ _ := .same (emitOpcode_symtab _ _ _ _)
  byte _ _ _ _ := .same ((andThen_symtab fun _ => rfl).trans (emit_symtab _ _ _ _))
  short _ _ _ _ := .same ((andThen_symtab fun _ => rfl).trans (emit2_symtab _ _ _ _))
  text _ _ _ _ _ := .same ((andThen_symtab fun _ => rfl).trans (emit_symtab _ _ _ _))
  findOrCreate t name s := by
    unfold findOrCreate
    cases name with
    | nil => exact .same rfl
    | cons c rest =>
      dsimp only
      by_cases h1 : isRunic c = true
      · rw [if_pos h1]; exact .same rfl
      rw [if_neg h1]
      by_cases h2 : (parseOpcode (c :: rest)).isSome = true
      · rw [if_pos h2]; exact .same rfl
      rw [if_neg h2]
      by_cases h3 : isNumber (c :: rest) = true
      · rw [if_pos h3]; exact .same rfl
      rw [if_neg h3]
      cases hs : s.symtab (c :: rest) with
      | some n => exact .same rfl
      | none =>
        intro k n hk
        by_cases e : k = c :: rest
        · subst e
          refine .inr ⟨by simp, isName_of (fun d hd => ?_) (by cases hp : parseOpcode (c :: rest) with
            | none => rfl
            | some x => rw [hp] at h2; exact absurd rfl h2) (by simpa using h3), fun hx => h3 ((isNumber_iff _).2 hx)⟩
          cases hd
          simpa using h1
        · refine .inl ⟨n, ?_⟩
          have hk : (if k = c :: rest then _ else s.symtab k) = some n := hk
          rw [if_neg e] at hk
          exact hk
  referenced name n s hn := .but hn fun k hk => by simp [setNode, hk]
  setMacro name n body id x s hn _ := .but hn fun k hk => by simp [setNode, hk]
  forward t k z name n r s hn _ := .but hn fun x hx => emitForwardRef_symtab _ _ _ _ _ _ _ _ hx
  lambda _ _ _ _ _ := .same (emitLambdaRef_symtab _ _ _ _ _)
  backward _ _ _ _ _ _ _ _ _ _ _ := .same (emitBackwardRef_symtab _ _ _ _ _ _ _ _ _)
  atRef _ _ _ _ _ _ _ _ := .same (by rw [emitBackwardRef_symtab])
  atLabel _ _ := .same rfl
  define t name n s hn := by
    refine .but hn fun k hk => ?_
    unfold defineLabel
    split
    · exact placeLabel_symtab _ _ _ _ _ _ _ hk
    · exact placeLabel_symtab _ _ _ _ _ _ _ hk
    · rfl
    · rfl
  close _ _ := .same (processLambdaClose_symtab _ _)

/-- All names in the symbol table are valid. -/
theorem symtab_valid (files : Files) (fuel : Nat) (main : Str) (s : Asm) (h : assemble files fuel main = some (true, s)) (k : Str) (n : Node) (hn : s.symtab k = some n) : ValidName k := by
  obtain ⟨s0, h1, h2, -⟩ := assemble_end newValid_atoms.closed files fuel main s h
  have q1 := reportLambdas_quiet s0.lambdas s0
  have q2 := reportAtLabels_quiet s0.atLabels (reportLambdas s0.lambdas s0)
  have q3 := reportSymbols_quiet s0.names.reverse (reportAtLabels s0.atLabels (reportLambdas s0.lambdas s0))
  rw [h2, q3.symtab, q2.symtab, q1.symtab] at hn
  rcases h1.1 k n hn with ⟨m, hm⟩ | hv
  · cases hm
  · exact hv

/-- **C80 (nothing is accepted without a meaning).** If the assembler succeeds, the source has a meaning within the limits, and it is complete. -/
theorem C80_reasons (files : Files) (hf : Texts files) (fuel : Nat) (main : Str) (s : Asm) (h : assemble files fuel main = some (true, s)) :
    ∃ S, ProgramWithin files main S ∧ Complete S := by
  obtain ⟨S, j, s0, h1, h2, h3, h4, h5, h6, h7⟩ := assemble_sim files hf fuel main s h
  have hv := symtab_valid files fuel main s h
  rw [h7] at hv
  refine ⟨S, h1, ⟨fun a ha => C78_no_zero_page files hf fuel main s h S h1.program a ha, ?_, fun r hr => ?_, fun n a hl => ?_, fun n b hb => ?_⟩⟩
  · have ho := h2.lams.opened
    rw [h3] at ho
    generalize S.opened = op at ho
    cases ho
    rfl
  · obtain ⟨l, hl⟩ := found_end h2 h3 h4 r hr
    exact ⟨l, hl, h2.memory.reach r hr l (by unfold findIn; unfold State.find at hl; exact hl)⟩
  · rw [h2.tables.labels] at hl
    obtain ⟨m, hm, -⟩ := Option.bind_eq_some_iff.1 hl
    exact hv n m hm
  · rw [h2.tables.macros] at hb
    obtain ⟨m, hm, he⟩ := Option.bind_eq_some_iff.1 hb
    refine ⟨hv n m hm, ?_⟩
    rw [h2.tables.labels, hm, Option.bind_some]
    cases hen : m.entry with
    | «macro» ts id x => rfl
    | label id a => rw [hen] at he; cases he
    | unknown => rfl
    | forward id fs => rfl

/-- **C80.** A source is accepted if and only if it has a meaning within the limits and is complete. -/
theorem C80_accepted_iff (files : Files) (hf : Texts files) (main : Str) (fuel : Nat) (b : Bool) (s : Asm) (h : assemble files fuel main = some (b, s)) :
    b = true ↔ ∃ S, ProgramWithin files main S ∧ Complete S := by
  constructor
  · rintro rfl
    exact C80_reasons files hf fuel main s h
  · rintro ⟨S, h1, h2⟩
    exact C80_accepts files hf main S h1 h2 fuel b s h

/-- **C80.** The assembler always comes to an end, and then it has accepted exactly the sources with a complete meaning within the limits. -/
theorem C80_decides (files : Files) (hf : Texts files) (main : Str) :
    ∃ fuel b s, (∀ fuel', fuel ≤ fuel' → assemble files fuel' main = some (b, s)) ∧ (b = true ↔ ∃ S, ProgramWithin files main S ∧ Complete S) := by
  obtain ⟨fuel, ⟨b, s⟩, h⟩ := C39_terminates files main
  exact ⟨fuel, b, s, h, C80_accepted_iff files hf main fuel b s (h fuel (Nat.le_refl _))⟩

/-- **C80 (instances).** Sources that are refused do not have a complete meaning within the limits: a name without a label, a label that is not in
reach, a lambda that is not closed, a macro within itself, a word that becomes too long, a local label with a name that is too long. -/
theorem C80_refused (files : Files) (hf : Texts files) (main : Str) (fuel : Nat) (s : Asm) (h : assemble files fuel main = some (false, s)) :
    ¬ ∃ S, ProgramWithin files main S ∧ Complete S := fun hx => by
  have := (C80_accepted_iff files hf main fuel false s h).2 hx
  cases this

example : (let fs := filesOf [("m", ";nowhere")]; ¬ ∃ S, ProgramWithin fs (str "m") S ∧ Complete S) ∧
    (let fs := filesOf [("m", "@top $100 ,top")]; ¬ ∃ S, ProgramWithin fs (str "m") S ∧ Complete S) ∧
    (let fs := filesOf [("m", "?{ INC")]; ¬ ∃ S, ProgramWithin fs (str "m") S ∧ Complete S) ∧
    (let fs := filesOf [("m", "%M { M } M")]; ¬ ∃ S, ProgramWithin fs (str "m") S ∧ Complete S) ∧
    (let fs := filesOf [("m", "@outer-name-that-is-long &inner-name-that-is-also-long")]; ¬ ∃ S, ProgramWithin fs (str "m") S ∧ Complete S) := by
  have key : ∀ text : String, CR ∉ str text → ((assemble (filesOf [("m", text)]) 40 (str "m")).map (·.1)) = some false →
      ¬ ∃ S, ProgramWithin (filesOf [("m", text)]) (str "m") S ∧ Complete S := by
    intro text hcr h
    rw [Option.map_eq_some_iff] at h
    obtain ⟨⟨b, s⟩, h1, h2⟩ := h
    have h2 : b = false := h2
    subst h2
    exact C80_refused _ (texts_of _ fun p hp => by rw [List.mem_singleton.1 hp]; exact hcr) _ _ _ h1
  exact ⟨key _ (by decide +kernel) (by decide +kernel), key _ (by decide +kernel) (by decide +kernel), key _ (by decide +kernel) (by decide +kernel),
    key _ (by decide +kernel) (by decide +kernel), key _ (by decide +kernel) (by decide +kernel)⟩

end Buxn.Asm.Meaning
