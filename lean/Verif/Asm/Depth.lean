import Verif.Asm.Includes
/-!
# The depth of includes and macros

Whatever is read, the depth is the same afterwards.
-/

namespace Buxn.Asm
open Buxn.VM Spec

def DepthN (rec : Nested) : Prop := ∀ u s r, rec u s = some r → r.2.depth = s.depth

def DepthU (s : Asm) (o : Option (Bool × Unit × Asm)) : Prop := ∀ r, o = some r → r.2.2.depth = s.depth

theorem depthU_some {s s' : Asm} {ok : Bool} {u : Unit} (h : s'.depth = s.depth) : DepthU s (some (ok, u, s')) := by
  intro r hr; cases hr; exact h

theorem depthU_calm {s : Asm} {u : Unit} {r : Bool × Asm} (h : Calm s r.2) : DepthU s (keep u r) := depthU_some h.depth

theorem depthU_after {s s1 : Asm} {o : Option (Bool × Unit × Asm)} (h : s1.depth = s.depth) (ho : DepthU s1 o) : DepthU s o := fun r hr => (ho r hr).trans h

theorem createMacro_depth (start : Token) (name : Str) (n : Node) (u : Unit) (s : Asm) : (createMacro start name n u s).2.2.depth = s.depth := by
  unfold createMacro
  dsimp only
  have hc : (putSymbol 0 { type := .macro, name := some name, region := start.region, id := s.numMacros + 1 } { s with numMacros := s.numMacros + 1 }).depth = s.depth := rfl
  generalize putSymbol 0 { type := .macro, name := some name, region := start.region, id := s.numMacros + 1 } { s with numMacros := s.numMacros + 1 } = s0 at *
  have h1 := (macroHead_mild start (unitFuel u) u s0).depth.trans hc
  generalize macroHead start (unitFuel u) u s0 = r at *
  obtain ⟨_ | _, u1, s1⟩ := r
  · exact h1
  · dsimp only at h1 ⊢
    have h2 : (setNode name { n with entry := .macro [] 0 false } s1).depth = s.depth := h1
    generalize setNode name { n with entry := .macro [] 0 false } s1 = s2 at *
    have h3 := (macroBody_mild start (unitFuel u1) 1 [] u1 s2).depth.trans h2
    generalize macroBody start (unitFuel u1) 1 [] u1 s2 = q at *
    obtain ⟨_ | b, u3, s3⟩ := q
    · exact h3
    · exact h3

theorem processMacro_depth (start : Token) (u : Unit) (s : Asm) : (processMacro start u s).2.2.depth = s.depth := by
  unfold processMacro
  have h := (findOrCreate_calm start (popFront start.lex) s).depth
  generalize findOrCreate start (popFront start.lex) s = r at *
  obtain ⟨_ | n, s1⟩ := r
  · exact h
  · dsimp only at h ⊢
    split
    · exact (createMacro_depth start _ n u s1).trans h
    · exact h

section
variable {files : Files} {rec : Nested} (hrec : DepthN rec)
include hrec

theorem runMacro_depth (t : Token) (name : Str) (n : Node) (body : List Token) (id : Short) (arg : Str) (u : Unit) (s : Asm) : DepthU s (runMacro rec t name n body id arg u s) := by
  unfold runMacro
  dsimp only
  intro r hr
  have h0 : ({ setNode name { n with entry := .macro body id true } s with depth := (setNode name { n with entry := .macro body id true } s).depth + 1 } : Asm).depth = s.depth + 1 := rfl
  generalize ({ setNode name { n with entry := .macro body id true } s with depth := (setNode name { n with entry := .macro body id true } s).depth + 1 } : Asm) = s0 at *
  split at hr
  · cases hr
  · rename_i ok s1 heq
    have h1 : s1.depth = s.depth + 1 := (hrec _ _ _ heq).trans h0
    have h2 : (match s1.symtab name with
      | some n' => setNode name { n' with entry := .macro body id false } { s1 with depth := s1.depth - 1 }
      | none => { s1 with depth := s1.depth - 1 } : Asm).depth = s.depth := by
      cases hm : s1.symtab name with
      | none => show s1.depth - 1 = s.depth; omega
      | some n' => show s1.depth - 1 = s.depth; omega
    have hr := Option.some.inj hr
    rw [← hr]
    dsimp only
    split
    · exact h2
    · exact h2

theorem expandMacro_depth (t : Token) (name : Str) (n : Node) (body : List Token) (id : Short) (x : Bool) (u : Unit) (s : Asm) : DepthU s (expandMacro rec t name n body id x u s) := by
  unfold expandMacro
  split
  · exact depthU_some rfl
  · split
    · exact depthU_some rfl
    · dsimp only
      have hc : (putSymbol 0 { type := .macroRef, name := some name, region := t.region, id := id } s).depth = s.depth := rfl
      generalize putSymbol 0 { type := .macroRef, name := some name, region := t.region, id := id } s = s0 at *
      refine depthU_after hc ?_
      split
      · have hp := (nextToken_mild u s0).depth
        generalize nextToken u s0 = q at hp
        obtain ⟨_ | a, u1, s1⟩ := q
        · dsimp only at hp ⊢
          refine depthU_some ?_
          split
          · exact hp
          · exact hp
        · exact depthU_after hp (runMacro_depth hrec _ _ _ _ _ _ _ _)
      · exact runMacro_depth hrec _ _ _ _ _ _ _ _

theorem processWord_depth (t : Token) (u : Unit) (s : Asm) : DepthU s (processWord rec t u s) := by
  unfold processWord
  split
  · dsimp only
    rename_i op red _
    have h : Calm s (if red = true then warning "Opcode contains redundant flags" t.region s else s) := ite_calm (warning_calm _ _ _) (.refl s)
    exact depthU_some (h.trans (emitOpcode_calm _ _ _ _)).depth
  · have h := findOrCreate_calm t t.lex s
    have hn := findOrCreate_node t t.lex s
    generalize findOrCreate t t.lex s = r at *
    obtain ⟨_ | n, s1⟩ := r
    · exact depthU_some h.depth
    · dsimp only at h ⊢
      have hn := hn _ _ rfl
      have hm := macroOf_some hn
      refine depthU_after h.depth ?_
      split
      · rename_i body id x he
        have hc : (setNode t.lex { n with referenced := true } s1).depth = s1.depth := rfl
        exact depthU_after hc (expandMacro_depth hrec t _ _ body id x u _)
      · rename_i id a he
        have hc : Calm s1 (setNode t.lex { n with referenced := true } s1) := setNode_calm (n := { n with referenced := true }) hm.symm
        exact depthU_some (hc.trans (andThen_calm (emitOpcode_calm _ _ _ _) fun _ => emitBackwardRef_calm _ _ _ _ _ _ _ _ _)).depth
      · rename_i he
        rw [he] at hm
        exact depthU_some (andThen_calm' (emitOpcode_calm _ _ _ _) fun hc => emitForwardRef_calm _ _ _ _ _ _ _ ((hc.macros _).trans hm)).depth
      · rename_i he
        rw [he] at hm
        exact depthU_some (andThen_calm' (emitOpcode_calm _ _ _ _) fun hc => emitForwardRef_calm _ _ _ _ _ _ _ ((hc.macros _).trans hm)).depth

theorem processFile_depth (path : Str) (s : Asm) (r : Bool × Asm) (h : processFile files rec path s = some r) : r.2.depth = s.depth := by
  unfold processFile at h
  dsimp only at h
  split at h
  · cases h; rfl
  · split at h
    · cases h
    · rename_i ok s1 heq
      have := hrec _ _ _ heq
      cases h
      exact this

theorem processInclude_depth (name : Str) (t : Token) (s : Asm) (r : Bool × Asm) (h : processInclude files rec name t s = some r) : r.2.depth = s.depth := by
  unfold processInclude at h
  split at h
  · cases h; rfl
  · dsimp only at h
    split at h
    · cases h
    · rename_i ok s1 heq
      have h1 : s1.depth = s.depth + 1 := processFile_depth hrec _ _ _ heq
      have hw : ({ s1 with depth := s1.depth - 1 } : Asm).depth = s.depth := by
        show s1.depth - 1 = s.depth
        omega
      have h := Option.some.inj h
      rw [← h]
      split
      · exact hw
      · exact hw

theorem processTilde_depth (t : Token) (u : Unit) (s : Asm) : DepthU s ((processTilde files rec t s).map fun r => (r.1, u, r.2)) := by
  intro r hr
  cases ht : processTilde files rec t s with
  | none => rw [ht] at hr; cases hr
  | some q =>
    rw [ht] at hr
    cases hr
    dsimp only
    unfold processTilde at ht
    split at ht
    · cases ht; rfl
    · dsimp only at ht
      generalize (if decide ((popFront t.lex).head? = some (ch '~')) = true then popFront (popFront t.lex) else popFront t.lex) = filename at *
      have hc : (putSymbol s.writeAddr { type := .include, name := some filename, region := t.region } s).depth = s.depth := rfl
      generalize putSymbol s.writeAddr { type := .include, name := some filename, region := t.region } s = s0 at *
      split at ht
      · cases ht
        dsimp only
        split
        · exact hc
        · exact hc
      · exact (processInclude_depth hrec _ _ _ _ ht).trans hc

omit hrec in
theorem ite_depth {s : Asm} {c : Prop} [Decidable c] {a b : Option (Bool × Unit × Asm)} (ha : DepthU s a) (hb : DepthU s b) : DepthU s (if c then a else b) := by
  split
  exacts [ha, hb]

theorem processToken_depth (t : Token) (u : Unit) (s : Asm) : DepthU s (processToken files rec t u s) := by
  unfold processToken
  dsimp only
  have hro : ∀ op kind sz arg, Calm s (andThen (emitOpcode t op true s) fun s => emitLabelRef t kind sz arg true s).2 :=
    fun _ _ _ _ => andThen_calm (emitOpcode_calm _ _ _ _) fun _ => emitLabelRef_calm _ _ _ _ _ _
  exact ite_depth (depthU_some (processComment_mild t u s).depth) <|
    ite_depth (depthU_calm (error_calm _ _ _)) <|
    ite_depth (depthU_calm (processMark_calm _ _)) <|
    ite_depth (depthU_calm (ite_calm1 (error_calm _ _ _) (processMark_calm _ _))) <|
    ite_depth (processTilde_depth hrec t u s) <|
    ite_depth (depthU_some (processMacro_depth t u s)) <|
    ite_depth (depthU_calm (processGlobalLabel_calm _ _)) <|
    ite_depth (depthU_calm (processLocalLabel_calm _ _)) <|
    ite_depth (depthU_calm (hro _ _ _ _)) <|
    ite_depth (depthU_calm (hro _ _ _ _)) <|
    ite_depth (depthU_calm (ite_calm1 (error_calm _ _ _) (processLambdaClose_calm _ _))) <|
    ite_depth (depthU_calm (ite_calm1 (error_calm _ _ _) (emitJsi_calm _ _))) <|
    ite_depth (depthU_calm (emitJsi_calm _ _)) <|
    ite_depth (depthU_calm (processAbsPadding_calm _ _)) <|
    ite_depth (depthU_calm (processRelPadding_calm _ _)) <|
    ite_depth (depthU_calm (processLitNumber_calm _ _)) <|
    ite_depth (depthU_calm (hro _ _ _ _)) <|
    ite_depth (depthU_calm (emitLabelRef_calm _ _ _ _ _ _)) <|
    ite_depth (depthU_calm (hro _ _ _ _)) <|
    ite_depth (depthU_calm (emitLabelRef_calm _ _ _ _ _ _)) <|
    ite_depth (depthU_calm (hro _ _ _ _)) <|
    ite_depth (depthU_calm (emitLabelRef_calm _ _ _ _ _ _)) <|
    ite_depth (depthU_calm (processText_calm _ _)) <|
    ite_depth (depthU_calm (processRawNumber_calm _ _)) <|
    processWord_depth hrec t u s

theorem unitLoop_depth (fuel : Nat) : DepthN (unitLoop files rec fuel) := by
  induction fuel with
  | zero => intro u s r h; cases h
  | succ n ih =>
    intro u s r h
    unfold unitLoop at h
    have ht := (nextToken_mild u s).depth
    generalize nextToken u s = p at *
    obtain ⟨_ | t, u1, s1⟩ := p
    · cases h; exact ht
    · dsimp only at h ht
      refine Eq.trans ?_ ht
      cases hp : processToken files rec t u1 s1 with
      | none => rw [hp] at h; cases h
      | some q =>
        rw [hp] at h
        have hq := processToken_depth hrec t u1 s1 q hp
        obtain ⟨_ | _, u2, s2⟩ := q
        · cases h; exact hq
        · exact (ih _ _ _ h).trans hq

end

theorem processUnit_depth (files : Files) (fuel levels : Nat) : DepthN (processUnit files fuel levels) := by
  induction levels with
  | zero => exact unitLoop_depth (fun _ _ _ h => by cases h) fuel
  | succ l ih => exact unitLoop_depth ih fuel

end Buxn.Asm
