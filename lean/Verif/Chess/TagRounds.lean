import Verif.Chess.TagCalls
/-!
# C84: one instruction and one round
-/

namespace Buxn.Chess.Types

open Buxn.Asm (Str SymType)
open Buxn.VM (Instr Op dispatch)
open Buxn.VM.Spec (operandSizes)

/-- Where the instruction of the trace jumps to: the address is what the checker has found on the stack or in the program. None when it
does not jump, or returns. -/
def target (P : Program) (c : Run) : Option Short :=
  let f := fetched P c
  match dispatch (P.rom c.pc) with
  | some (.poly .JMP _ r b) | some (.poly .JSR _ r b) => aim f.pc ((popList r [b] f).1.headD {})
  | some (.poly .JCN _ r b) =>
    if skips ((popList r [b, false] f).1.getD 1 {}) then none else aim f.pc ((popList r [b, false] f).1.headD {})
  | some .JMI | some .JSI => aim f.pc (immediate P f).1
  | some .JCI => if skips (popEx false false (immediate P f).2).1 then none else aim f.pc (immediate P f).1
  | _ => none

/-- The first byte of a literal has a label if the second one has. (The checker gives the second byte no label of its own otherwise,
`chess.c:1743-1768`.) -/
def Spelt (P : Program) (pc : Short) : Prop :=
  ∀ r, dispatch (P.rom pc) = some (.LIT r true) → (P.label (pc + 2)).isSome = true → (P.label (pc + 1)).isSome = true

/-! ## Small facts -/

theorem without_width (T : Tags) (k r b : Bool) : without T k r (widths [b]) = without T k r (width b) := by
  rw [show widths [b] = width b from by simp [widths]]

theorem operate_JMP (b k r : Bool) (T : Tags) : operate (width b) .JMP k r T = without T k r (widths [b]) := by
  rw [operate_eq]
  have e : (operandSizes (width b) .JMP).sum = widths [b] := by cases b <;> rfl
  rw [e]
  exact put_self _ _

theorem operate_JCN (b k r : Bool) (T : Tags) : operate (width b) .JCN k r T = without T k r (widths [b, false]) := by
  rw [operate_eq]
  have e : (operandSizes (width b) .JCN).sum = widths [b, false] := by cases b <;> rfl
  rw [e]
  exact put_self _ _

theorem operate_JSR (b k r : Bool) (T : Tags) : operate (width b) .JSR k r T =
    put (!r) (mark 2 none true ++ without T k r (widths [b]) (!r)) (without T k r (widths [b])) := by
  rw [operate_eq]
  have e : (operandSizes (width b) .JSR).sum = widths [b] := by cases b <;> rfl
  rw [e]
  rfl

theorem TookT.proceeds {T : Tags} {r : Bool} {bs : List Bool} {c c2 : Run} {vs : List Value} {gs : List (List Tag)}
    (h : TookT T r bs c c2 vs gs) (ht : c.terminated = false) : Proceeds (without T c.keep r (widths bs)) c2 :=
  ⟨h.running ht, h.ok, h.typed⟩

theorem aim_short {a : Value} (h : a.short = true) (p q : Short) : aim p a = aim q a := by
  unfold aim
  rw [if_pos h, if_pos h]

/-! ## The operations that jump -/

theorem opJMP_tells {P : Program} (hP : P.Ok) (c : Run) {T : Tags} (h : Proceeds T c) (hp : popStack (flagR c) c = realStack (flagR c) c) :
    (opJMP P c).wrapped = true ∨ Reports c (opJMP P c) ∨
      Jumps P (aim c.pc ((popList (flagR c) [flag2 c] c).1.headD {})) (operate (width (flag2 c)) .JMP c.keep (flagR c) T) (opJMP P c) ∧
      (opJMP P c).queue = c.queue := by
  have e0 : opJMP P c = jump P ((popList (flagR c) [flag2 c] c).1.headD {}) (popList (flagR c) [flag2 c] c).2 := rfl
  rw [e0, operate_JMP]
  by_cases hneed : widths [flag2 c] ≤ (realStack (flagR c) c).size.toNat
  swap
  · obtain ⟨h1, h2⟩ := popList_short (bs := [flag2 c]) h.running h.ok hp (by omega)
    rw [jump_stopped _ _ h2]
    exact .inr (.inl h1)
  obtain ⟨gs, tk⟩ := take_tells (bs := [flag2 c]) h.typed h.ok h.running hp hneed
  have hon := (popList_plainly (flagR c) [flag2 c] c).on
  have hst := popList_stays (flagR c) [flag2 c] c
  have pr := tk.proceeds h.running
  rcases jump_tells hP ((popList (flagR c) [flag2 c] c).1.headD {}) _ pr with k | k | k
  · exact .inl k
  · exact .inr (.inl (k.after hon))
  · rw [hst.pc] at k
    exact .inr (.inr ⟨k, (jumped_queue (jump_jumped P _ _)).trans hst.queue⟩)

theorem opJSR_tells {P : Program} (hP : P.Ok) (c : Run) {T : Tags} (h : Proceeds T c) (hp : popStack (flagR c) c = realStack (flagR c) c) :
    (opJSR P c).wrapped = true ∨ Reports c (opJSR P c) ∨
      Jumps P (aim c.pc ((popList (flagR c) [flag2 c] c).1.headD {})) (operate (width (flag2 c)) .JSR c.keep (flagR c) T) (opJSR P c) ∧
      (opJSR P c).queue = c.queue := by
  have e0 : opJSR P c = jumpStash P ((popList (flagR c) [flag2 c] c).1.headD {}) (flagR (popList (flagR c) [flag2 c] c).2)
    (popList (flagR c) [flag2 c] c).2 := rfl
  rw [e0, operate_JSR]
  by_cases hneed : widths [flag2 c] ≤ (realStack (flagR c) c).size.toNat
  swap
  · obtain ⟨h1, h2⟩ := popList_short (bs := [flag2 c]) h.running h.ok hp (by omega)
    exact .inr (.inl (h1.then (jumpStash_onward P _ _ _)))
  obtain ⟨gs, tk⟩ := take_tells (bs := [flag2 c]) h.typed h.ok h.running hp hneed
  have hon := (popList_plainly (flagR c) [flag2 c] c).on
  have hst := popList_stays (flagR c) [flag2 c] c
  have pr := tk.proceeds h.running
  have hfl : flagR (popList (flagR c) [flag2 c] c).2 = flagR c := by
    obtain ⟨s, m, e⟩ := tk.form
    rw [e]; exact flagR_setPop _ _ _
  rcases jumpStash_tells hP ((popList (flagR c) [flag2 c] c).1.headD {}) (flagR (popList (flagR c) [flag2 c] c).2) _ pr with k | k | k
  · exact .inl k
  · exact .inr (.inl (k.after hon))
  · rw [hst.pc] at k
    refine .inr (.inr ⟨?_, (jumped_queue (jumpStash_jumped P _ _ _)).trans hst.queue⟩)
    rw [hfl] at k ⊢
    exact k

theorem opJCN_tells {P : Program} (hP : P.Ok) (c : Run) {T : Tags} (h : Proceeds T c) (hp : popStack (flagR c) c = realStack (flagR c) c) :
    (opJCN P c).wrapped = true ∨ Reports c (opJCN P c) ∨
      Jumps P (if skips ((popList (flagR c) [flag2 c, false] c).1.getD 1 {}) then none
        else aim c.pc ((popList (flagR c) [flag2 c, false] c).1.headD {})) (operate (width (flag2 c)) .JCN c.keep (flagR c) T) (opJCN P c) ∧
      Adds (operate (width (flag2 c)) .JCN c.keep (flagR c) T) c (opJCN P c) := by
  have e0 : opJCN P c = jumpConditional P ((popList (flagR c) [flag2 c, false] c).1.getD 1 {})
      ((popList (flagR c) [flag2 c, false] c).1.headD {}) (popList (flagR c) [flag2 c, false] c).2 := by
    unfold opJCN pop
    dsimp only
    rw [flagR_popEx]
    rfl
  rw [e0, operate_JCN]
  by_cases hneed : widths [flag2 c, false] ≤ (realStack (flagR c) c).size.toNat
  swap
  · obtain ⟨h1, h2⟩ := popList_short (bs := [flag2 c, false]) h.running h.ok hp (by omega)
    exact .inr (.inl (h1.then (jumpConditional_onward P _ _ _)))
  obtain ⟨gs, tk⟩ := take_tells (bs := [flag2 c, false]) h.typed h.ok h.running hp hneed
  have hon := (popList_plainly (flagR c) [flag2 c, false] c).on
  have hst := popList_stays (flagR c) [flag2 c, false] c
  have pr := tk.proceeds h.running
  rcases jumpConditional_tells hP ((popList (flagR c) [flag2 c, false] c).1.getD 1 {})
      ((popList (flagR c) [flag2 c, false] c).1.headD {}) _ pr with k | k | ⟨k, a⟩
  · exact .inl k
  · exact .inr (.inl (k.after hon))
  · rw [hst.pc] at k
    refine .inr (.inr ⟨k, fun e he => ?_⟩)
    rcases a e he with a | a
    · rw [hst.queue] at a; exact .inl a
    · exact .inr a

/-! ## The operation of an instruction -/

/-- What is true after the operation. -/
structure Done (P : Program) (to_ : Option Short) (T1 : Tags) (c c' : Run) : Prop where
  jumps : Jumps P to_ T1 c'
  adds : Adds T1 c c'

theorem Done.quiet {P : Program} {T1 : Tags} {c c' : Run} (h : c'.terminated = false → Proceeds T1 c') (hq : c'.queue = c.queue) :
    Done P none T1 c c' := ⟨⟨fun b hb => (by cases hb), h⟩, .same hq⟩

theorem opLIT_queue (P : Program) (c : Run) : (opLIT P c).queue = c.queue := by
  have h1 : ∀ r v (c : Run), (pushEx r v c).queue = c.queue := fun r v c => (pushEx_stays r v c).queue
  have h2 : ∀ a s (c : Run), (litByte P a s c).2.queue = c.queue := fun a s c => (litByte_stays P a s c).queue
  have h3 : ∀ v (c : Run), (push v c).queue = c.queue := fun v c => h1 _ v c
  unfold opLIT
  split
  · unfold lit2
    dsimp only
    repeat' split
    all_goals simp only [h3, h2, warning]
  · dsimp only
    repeat' split
    all_goals simp only [h3, h2, warning]

theorem fetched_proceeds {T : Tags} {c : Run} (P : Program) (h : Proceeds T c) : Proceeds T (fetched P c) := h.congr rfl rfl rfl rfl

theorem instr_poly {P : Program} {pc : Short} {op : Op} {k r b : Bool} (h : dispatch (P.rom pc) = some (.poly op k r b)) (T : Tags) :
    instr P pc T = operate (width b) op k r T := by
  unfold instr; rw [h]; rfl

theorem perform_tells {P : Program} (hP : P.Ok) (c : Run) {T : Tags} (h : Proceeds T c) (hsp : Spelt P c.pc) :
    (perform P (fetched P c)).wrapped = true ∨ Reports (fetched P c) (perform P (fetched P c)) ∨
      Done P (target P c) (instr P c.pc T) (fetched P c) (perform P (fetched P c)) := by
  have hF := fetched_proceeds P h
  have hpop : ∀ r, popStack r (fetched P c) = realStack r (fetched P c) := by
    intro r; rw [fetched_popStack]; cases r <;> rfl
  have hperf : perform P (fetched P c) = match dispatch (P.rom c.pc) with
      | some .BRK => opBRK P (fetched P c)
      | some .JCI => opJCI P (fetched P c)
      | some .JMI => opJMI P (fetched P c)
      | some .JSI => opJSI P (fetched P c)
      | some (.LIT _ _) => opLIT P (fetched P c)
      | some (.poly op _ _ _) => opPoly P op (fetched P c)
      | none => fetched P c := rfl
  have hon := (immediate_plainly P (fetched P c)).on
  have him : (immediate P (fetched P c)).2 = error .invalidJump { fetched P c with pc := (fetched P c).pc + 2 } ∨
      (immediate P (fetched P c)).2 = { fetched P c with pc := (fetched P c).pc + 2 } ∧ (immediate P (fetched P c)).1.short = true := by
    unfold immediate
    dsimp only
    split
    · split
      · exact .inr ⟨rfl, rfl⟩
      · exact .inl rfl
    · exact .inl rfl
  have bad : (immediate P (fetched P c)).2 = error .invalidJump { fetched P c with pc := (fetched P c).pc + 2 } →
      Reports (fetched P c) (immediate P (fetched P c)).2 := by
    intro hb
    rw [hb]; exact (error_reports _ { fetched P c with pc := (fetched P c).pc + 2 }).after (pc_plainly _ (fetched P c)).on
  rw [hperf]
  cases hi : dispatch (P.rom c.pc) with
  | none =>
    have key : ∀ b : Byte, (dispatch b).isSome = true := by decide +kernel
    have := key (P.rom c.pc)
    rw [hi] at this; cases this
  | some i =>
    cases i with
    | BRK =>
      have e : target P c = none := by unfold target; rw [hi]
      rw [e]
      have ht : (opBRK P (fetched P c)).terminated = true := rfl
      refine .inr (.inr (.quiet (fun hx => (by rw [ht] at hx; cases hx)) ?_))
      show (opBRK P (fetched P c)).queue = _
      unfold opBRK
      dsimp only
      have h1 : Stays (fetched P c) (if (sigAt P (fetched P c).key).kind = .subroutine then error .brkInSubroutine (fetched P c) else fetched P c) :=
        .ite (error_stays _ _) (.refl _)
      generalize (if (sigAt P (fetched P c).key).kind = .subroutine then error .brkInSubroutine (fetched P c) else fetched P c) = c1 at *
      exact (((h1.trans (setTerminatedAt_stays true c1)).trans (checkReturn_stays P _)).trans (terminate_stays _)).queue
    | LIT r b =>
      obtain ⟨l6, l5⟩ := lit_bits hi
      have f6 : flagR (fetched P c) = r := l6
      have f5 : flag2 (fetched P c) = b := l5
      have e : target P c = none := by unfold target; rw [hi]
      rw [e]
      dsimp only
      have hl := opLIT_tells P (fetched P c) hF.typed hF.ok hF.running (by
        intro h2 h3
        rw [f5] at h2
        subst h2
        exact hsp r hi (by rw [show c.pc + 2 = (fetched P c).pc + 1 from (succ_succ c.pc).symm]; exact h3))
      rw [f6, f5] at hl
      have eI : instr P c.pc T = put r ((if b = true then literalShort P (fetched P c).pc ((fetched P c).pc + 1) else
          literalByte P (fetched P c).pc) ++ T r) T := by
        unfold instr
        rw [hi]
        dsimp only
        rw [show (fetched P c).pc = c.pc + 1 from rfl, succ_succ]
        funext r'
        unfold put
        split
        · rename_i hx; rw [hx]
        · rfl
      rw [eI]
      rcases hl with hl | hl | hl
      · exact .inl hl
      · exact .inr (.inl ((opLIT_plainly P (fetched P c)).reports hF.running hl))
      · exact .inr (.inr (.quiet (fun _ => hl) (opLIT_queue P _)))
    | poly op k r b =>
      obtain ⟨b7, b6, b5⟩ := poly_bits hi
      have f7 : (fetched P c).keep = k := b7
      have f6 : flagR (fetched P c) = r := b6
      have f5 : flag2 (fetched P c) = b := b5
      rw [instr_poly hi]
      dsimp only
      by_cases hj : isJump op = true
      · have : op = .JMP ∨ op = .JCN ∨ op = .JSR := by revert hj; cases op <;> simp [isJump]
        rcases this with rfl | rfl | rfl
        · have e : target P c = aim (fetched P c).pc ((popList r [b] (fetched P c)).1.headD {}) := by unfold target; rw [hi]
          have hx := opJMP_tells hP (fetched P c) hF (hpop _)
          rw [f7, f6, f5] at hx
          rw [e]
          rcases hx with hx | hx | ⟨hx, hq⟩
          · exact .inl hx
          · exact .inr (.inl hx)
          · exact .inr (.inr ⟨hx, .same hq⟩)
        · have e : target P c = if skips ((popList r [b, false] (fetched P c)).1.getD 1 {}) then none else
              aim (fetched P c).pc ((popList r [b, false] (fetched P c)).1.headD {}) := by unfold target; rw [hi]
          have hx := opJCN_tells hP (fetched P c) hF (hpop _)
          rw [f7, f6, f5] at hx
          rw [e]
          rcases hx with hx | hx | ⟨hx, hq⟩
          · exact .inl hx
          · exact .inr (.inl hx)
          · exact .inr (.inr ⟨hx, hq⟩)
        · have e : target P c = aim (fetched P c).pc ((popList r [b] (fetched P c)).1.headD {}) := by unfold target; rw [hi]
          have hx := opJSR_tells hP (fetched P c) hF (hpop _)
          rw [f7, f6, f5] at hx
          rw [e]
          rcases hx with hx | hx | ⟨hx, hq⟩
          · exact .inl hx
          · exact .inr (.inl hx)
          · exact .inr (.inr ⟨hx, .same hq⟩)
      · have hj : isJump op = false := by simpa using hj
        have e : target P c = none := by
          unfold target; rw [hi]
          cases op <;> first | rfl | cases hj
        rw [e]
        have hx := opPoly_tells P op hj (fetched P c) hF.typed hF.ok hF.running (hpop _)
        rw [f7, f6, f5] at hx
        rcases hx with hx | hx | ⟨hx, hq⟩
        · exact .inl hx
        · exact .inr (.inl ((opPoly_plainly P op (fetched P c) hj).reports hF.running hx))
        · exact .inr (.inr ⟨⟨fun b hb => (by cases hb), fun _ => hx⟩, hq⟩)
    | JCI =>
      have eT : instr P c.pc T = without T false false (widths [false]) := by
        unfold instr without; rw [hi]; funext r; cases r <;> rfl
      have e : target P c = if skips (popEx false false (immediate P (fetched P c)).2).1 then none
          else aim (fetched P c).pc (immediate P (fetched P c)).1 := by unfold target; rw [hi]
      have eJCI : opJCI P (fetched P c) = jumpConditional P (popEx false false (immediate P (fetched P c)).2).1 (immediate P (fetched P c)).1
        (popEx false false (immediate P (fetched P c)).2).2 := rfl
      have hkeep : (fetched P c).keep = false := jci_bits hi
      dsimp only
      rw [eT, e, eJCI]
      rcases him with him | ⟨him, hs⟩
      · exact .inr (.inl ((bad him).then ((popEx_plainly _ _ _).on.trans (jumpConditional_onward P _ _ _))))
      have h1 : Proceeds T (immediate P (fetched P c)).2 := by rw [him]; exact hF.congr rfl rfl rfl rfl
      have hk1 : (immediate P (fetched P c)).2.keep = false := by rw [him]; exact hkeep
      have hq1 : (immediate P (fetched P c)).2.queue = (fetched P c).queue := by rw [him]
      clear him bad
      generalize (immediate P (fetched P c)).2 = c1 at *
      generalize (immediate P (fetched P c)).1 = a at *
      have hp : popStack false c1 = realStack false c1 := by unfold popStack; rw [hk1]; rfl
      have e : popEx false false c1 = ((popList false [false] c1).1.headD {}, (popList false [false] c1).2) := rfl
      rw [e]
      dsimp only
      by_cases hneed : widths [false] ≤ (realStack false c1).size.toNat
      swap
      · obtain ⟨g1, g2⟩ := popList_short (bs := [false]) h1.running h1.ok hp (by omega)
        exact .inr (.inl ((g1.after hon).then (jumpConditional_onward P _ _ _)))
      obtain ⟨gs, tk⟩ := take_tells (bs := [false]) h1.typed h1.ok h1.running hp hneed
      have hon2 := (popList_plainly false [false] c1).on
      have hst := popList_stays false [false] c1
      have pr := tk.proceeds h1.running
      rw [hk1] at pr
      rcases jumpConditional_tells hP ((popList false [false] c1).1.headD {}) a _ pr with k | k | ⟨k, ad⟩
      · exact .inl k
      · exact .inr (.inl ((k.after hon2).after hon))
      · rw [aim_short hs _ (fetched P c).pc] at k
        refine .inr (.inr ⟨k, fun e he => ?_⟩)
        rcases ad e he with x | x
        · rw [hst.queue, hq1] at x; exact .inl x
        · exact .inr x
    | JMI =>
      have eT : instr P c.pc T = T := by unfold instr; rw [hi]
      have e : target P c = aim (fetched P c).pc (immediate P (fetched P c)).1 := by unfold target; rw [hi]
      have eJMI : opJMI P (fetched P c) = jump P (immediate P (fetched P c)).1 (immediate P (fetched P c)).2 := rfl
      dsimp only
      rw [eT, e, eJMI]
      rcases him with him | ⟨him, hs⟩
      · exact .inr (.inl ((bad him).then (jump_onward P _ _)))
      have h1 : Proceeds T (immediate P (fetched P c)).2 := by rw [him]; exact hF.congr rfl rfl rfl rfl
      have hq1 : (immediate P (fetched P c)).2.queue = (fetched P c).queue := by rw [him]
      clear him bad
      rcases jump_tells hP (immediate P (fetched P c)).1 _ h1 with k | k | k
      · exact .inl k
      · exact .inr (.inl (k.after hon))
      · rw [aim_short hs _ (fetched P c).pc] at k
        exact .inr (.inr ⟨k, .same ((jumped_queue (jump_jumped P _ _)).trans hq1)⟩)
    | JSI =>
      have eT : instr P c.pc T = put true (mark 2 none true ++ T true) T := by
        unfold instr; rw [hi]; dsimp only; funext r; cases r <;> rfl
      have e : target P c = aim (fetched P c).pc (immediate P (fetched P c)).1 := by unfold target; rw [hi]
      have eJSI : opJSI P (fetched P c) = jumpStash P (immediate P (fetched P c)).1 false (immediate P (fetched P c)).2 := rfl
      dsimp only
      rw [eT, e, eJSI]
      rcases him with him | ⟨him, hs⟩
      · exact .inr (.inl ((bad him).then (jumpStash_onward P _ _ _)))
      have h1 : Proceeds T (immediate P (fetched P c)).2 := by rw [him]; exact hF.congr rfl rfl rfl rfl
      have hq1 : (immediate P (fetched P c)).2.queue = (fetched P c).queue := by rw [him]
      clear him bad
      rcases jumpStash_tells hP (immediate P (fetched P c)).1 false _ h1 with k | k | k
      · exact .inl k
      · exact .inr (.inl (k.after hon))
      · rw [aim_short hs _ (fetched P c).pc] at k
        exact .inr (.inr ⟨k, .same ((jumped_queue (jumpStash_jumped P _ _ _)).trans hq1)⟩)

end Buxn.Chess.Types
