import Verif.Asm.Terminates
import Verif.Asm.Rom
/-!
# C39: which files are opened, and which macros may be used

Every result is about any run of the assembler, also one that fails.
-/

namespace Buxn.Asm
open Buxn.VM

namespace Spec

/-- Files are closed in the reverse order of opening; one that cannot be opened is not closed. -/
inductive Brackets (files : Files) : List FileEvent → Prop
  | nil : Brackets files []
  | failed {n : Str} {es : List FileEvent} : files n = none → Brackets files es → Brackets files (.opened n :: es)
  | file {n : Str} {es es' : List FileEvent} : files n ≠ none → Brackets files es → Brackets files es' → Brackets files (.opened n :: es ++ .closed n :: es')

/-- The outcome depends on what happens in the nested unit `v`, started in state `sv`: the unit is processed. -/
def Asks {α : Type} (f : Nested → α) (v : Unit) (sv : Asm) : Prop :=
  ∃ rec rec' : Nested, (∀ w sw, ¬ (w = v ∧ sw = sv) → rec w sw = rec' w sw) ∧ f rec ≠ f rec'

/-- While unit `u` is processed, starting in state `s`, its own next token or that of a unit within is taken: from `v`, in
state `sv`. -/
inductive Within (files : Files) (u : Unit) (s : Asm) : Unit → Asm → Prop
  | here : Within files u s u s
  | next {v v1 v2 : Unit} {sv s1 s2 : Asm} {t : Token} {fuel levels : Nat} : Within files u s v sv → nextToken v sv = (some t, v1, s1) →
      processToken files (processUnit files fuel levels) t v1 s1 = some (true, v2, s2) → Within files u s v2 s2
  | nested {v v1 w : Unit} {sv s1 sw : Asm} {t : Token} : Within files u s v sv → nextToken v sv = (some t, v1, s1) →
      Asks (fun rec => processToken files rec t v1 s1) w sw → Within files u s w sw

/-- The names of the files that are opened. -/
def openings : List FileEvent → List Str
  | .opened n :: es => n :: openings es
  | .closed _ :: es => openings es
  | [] => []

end Spec

open Spec

theorem openings_append (a b : List FileEvent) : openings (a ++ b) = openings a ++ openings b := by
  induction a with
  | nil => rfl
  | cons e a ih => cases e <;> simp [openings, ih]

theorem openings_reverse (a : List FileEvent) : openings a.reverse = (openings a).reverse := by
  induction a with
  | nil => rfl
  | cons e a ih => cases e <;> simp [openings, openings_append, ih]

theorem Spec.Brackets.append {files : Files} {a b : List FileEvent} (ha : Brackets files a) (hb : Brackets files b) : Brackets files (a ++ b) := by
  induction ha with
  | nil => exact hb
  | failed h _ ih => exact .failed h ih
  | @file n es es' h h1 _ _ ih =>
    rw [List.append_assoc, List.cons_append]
    exact .file h h1 ih

/-- What happened between two states. -/
structure Way (files : Files) (s s' : Asm) : Prop where
  trace : ∃ L E, s'.includes = L ++ s.includes ∧ fileEvents s'.log = E ++ fileEvents s.log ∧ Brackets files E.reverse ∧ openings E = L.map cstr
  nodup : s.includes.Nodup → s'.includes.Nodup
  busy : ∀ name b i, macroOf s name = some (b, i, true) → macroOf s' name = some (b, i, true)

theorem Way.trans {files : Files} {a b c : Asm} (h : Way files a b) (h' : Way files b c) : Way files a c := by
  obtain ⟨L, E, h1, h2, h3, h4⟩ := h.trace
  obtain ⟨L', E', h1', h2', h3', h4'⟩ := h'.trace
  refine ⟨⟨L' ++ L, E' ++ E, ?_, ?_, ?_, ?_⟩, fun hn => h'.nodup (h.nodup hn), fun n b i hm => h'.busy n b i (h.busy n b i hm)⟩
  · rw [h1', h1, List.append_assoc]
  · rw [h2', h2, List.append_assoc]
  · rw [List.reverse_append]; exact h3.append h3'
  · rw [openings_append, h4, h4', List.map_append]

theorem way_same {files : Files} {s s' : Asm} (hi : s'.includes = s.includes) (hf : fileEvents s'.log = fileEvents s.log)
    (hm : ∀ name b i, macroOf s name = some (b, i, true) → macroOf s' name = some (b, i, true)) : Way files s s' :=
  ⟨⟨[], [], hi, hf, .nil, rfl⟩, fun h => by rw [hi]; exact h, hm⟩

theorem Way.refl (files : Files) (s : Asm) : Way files s s := way_same rfl rfl fun _ _ _ h => h

theorem Calm.way {files : Files} {s s' : Asm} (h : Calm s s') : Way files s s' := way_same h.includes h.files fun name _ _ hm => (h.macros name).trans hm

/-- Nothing happened that matters here, also not to macros. -/
structure Mild (s s' : Asm) : Prop where
  includes : s'.includes = s.includes
  files : fileEvents s'.log = fileEvents s.log
  macros : ∀ name, macroOf s' name = macroOf s name
  depth : s'.depth = s.depth

theorem Calm.mild {s s' : Asm} (h : Calm s s') : Mild s s' := ⟨h.includes, h.files, h.macros, h.depth⟩

theorem Mild.trans {a b c : Asm} (h : Mild a b) (h' : Mild b c) : Mild a c := ⟨h'.1.trans h.1, h'.2.trans h.2, fun n => (h'.3 n).trans (h.3 n), h'.4.trans h.4⟩

theorem Mild.way {files : Files} {s s' : Asm} (h : Mild s s') : Way files s s' := way_same h.includes h.files fun name _ _ hm => (h.macros name).trans hm

theorem nextToken_mild (u : Unit) (s : Asm) : Mild s (nextToken u s).2.2 := by
  cases u with
  | «macro» m => exact (nextInMacro_calm m s).mild
  | file f =>
    have h := (nextInFile_read f s).1.ro
    exact ⟨h.includes, h.files, fun name => by rw [macroOf, macroOf]; exact congrArg (fun t => (t name).bind fun n => macroEntry n.entry) h.symtab, h.depth⟩

theorem commentLoop_mild (fuel depth : Nat) (u : Unit) (s : Asm) : Mild s (commentLoop fuel depth u s).2.2 := by
  induction fuel generalizing depth u s with
  | zero => exact (Calm.refl s).mild
  | succ n ih =>
    unfold commentLoop
    split
    · exact (Calm.refl s).mild
    · have ht := nextToken_mild u s
      generalize nextToken u s = r at ht
      obtain ⟨t | t, u1, s1⟩ := r
      · exact ht
      · exact (ht.trans (putSymbol_calm _ _ _).mild).trans (ih _ _ _)

theorem processComment_mild (t : Token) (u : Unit) (s : Asm) : Mild s (processComment t u s).2.2 := by
  unfold processComment
  dsimp only
  have hc := putSymbol_calm s.writeAddr { type := .comment, name := some t.lex, region := t.region } s
  generalize putSymbol s.writeAddr { type := .comment, name := some t.lex, region := t.region } s = s0 at *
  have h1 := commentLoop_mild (unitFuel u) 1 u s0
  generalize commentLoop (unitFuel u) 1 u s0 = r at *
  obtain ⟨d, u1, s1⟩ := r
  dsimp only at h1 ⊢
  split
  · exact (hc.mild.trans h1).trans (error_calm _ _ _).mild
  · exact hc.mild.trans h1

theorem macroHead_mild (start : Token) (fuel : Nat) (u : Unit) (s : Asm) : Mild s (macroHead start fuel u s).2.2 := by
  induction fuel generalizing u s with
  | zero => exact (error_calm _ _ _).mild
  | succ n ih =>
    unfold macroHead
    have ht := nextToken_mild u s
    generalize nextToken u s = r at ht
    obtain ⟨t | t, u1, s1⟩ := r
    · exact ht.trans (error_calm _ _ _).mild
    · dsimp only at ht ⊢
      refine ht.trans ?_
      clear ht
      split
      · have hp := processComment_mild t u1 s1
        generalize processComment t u1 s1 = q at hp
        obtain ⟨_ | _, u2, s2⟩ := q
        · exact hp
        · exact hp.trans (ih u2 s2)
      · split
        · exact (processMark_calm t s1).mild.trans (ih _ _)
        · split
          · split
            · exact (error_calm _ _ _).mild
            · exact (processMark_calm t s1).mild.trans (ih _ _)
          · split
            · exact (Calm.refl _).mild
            · exact (error_calm _ _ _).mild

theorem macroBody_mild (start : Token) (fuel depth : Nat) (acc : List Token) (u : Unit) (s : Asm) : Mild s (macroBody start fuel depth acc u s).2.2 := by
  induction fuel generalizing depth acc u s with
  | zero => exact (error_calm _ _ _).mild
  | succ n ih =>
    unfold macroBody
    have ht := nextToken_mild u s
    generalize nextToken u s = r at ht
    obtain ⟨t | t, u1, s1⟩ := r
    · exact ht.trans (error_calm _ _ _).mild
    · dsimp only at ht ⊢
      refine ht.trans ?_
      clear ht
      split
      · exact (error_calm _ _ _).mild
      · generalize (if t.lex = [ch '}'] then depth - 1 else if opensLambda t.lex then depth + 1 else depth) = d
        split
        · exact (Calm.refl _).mild
        · exact ih _ _ _ _

theorem macroOf_set (name : Str) (n : Node) (s : Asm) (k : Str) : macroOf (setNode name n s) k = if k = name then macroEntry n.entry else macroOf s k := by
  unfold setNode
  rw [macroOf]
  dsimp only
  split
  · rfl
  · rfl

/-- Giving a symbol a new entry, if it is not a macro under expansion. -/
theorem setNode_way {files : Files} {name : Str} {n : Node} {s : Asm} (h : ∀ b i, macroOf s name ≠ some (b, i, true)) : Way files s (setNode name n s) := by
  refine way_same rfl rfl fun k b i hk => ?_
  rw [macroOf_set]
  split
  · rename_i e; rw [e] at hk; exact absurd hk (h b i)
  · exact hk

theorem createMacro_way {files : Files} (start : Token) (name : Str) (n : Node) (u : Unit) (s : Asm) (h : macroOf s name = none) : Way files s (createMacro start name n u s).2.2 := by
  unfold createMacro
  dsimp only
  have hc : Calm s (putSymbol 0 { type := .macro, name := some name, region := start.region, id := s.numMacros + 1 } { s with numMacros := s.numMacros + 1 }) :=
    ⟨rfl, rfl, rfl, rfl, rfl, fun _ => rfl⟩
  generalize putSymbol 0 { type := .macro, name := some name, region := start.region, id := s.numMacros + 1 } { s with numMacros := s.numMacros + 1 } = s0 at *
  have h1 := hc.mild.trans (macroHead_mild start (unitFuel u) u s0)
  generalize macroHead start (unitFuel u) u s0 = r at *
  obtain ⟨_ | _, u1, s1⟩ := r
  · exact h1.way
  · dsimp only at h1 ⊢
    have h2 : Way files s (setNode name { n with entry := .macro [] 0 false } s1) := by
      refine h1.way.trans (setNode_way fun b i hh => ?_)
      rw [h1.macros, h] at hh
      cases hh
    have hm : macroOf (setNode name { n with entry := .macro [] 0 false } s1) name = some ([], 0, false) := by rw [macroOf_set, if_pos rfl]; rfl
    generalize setNode name { n with entry := .macro [] 0 false } s1 = s2 at *
    have h3 := macroBody_mild start (unitFuel u1) 1 [] u1 s2
    generalize macroBody start (unitFuel u1) 1 [] u1 s2 = q at *
    obtain ⟨_ | b, u3, s3⟩ := q
    · exact h2.trans h3.way
    · refine (h2.trans h3.way).trans (setNode_way fun b i hh => ?_)
      have := (h3.macros name).trans hm
      dsimp only at this
      rw [this] at hh
      cases hh

theorem processMacro_way {files : Files} (start : Token) (u : Unit) (s : Asm) : Way files s (processMacro start u s).2.2 := by
  unfold processMacro
  have h := findOrCreate_calm start (popFront start.lex) s
  have hn := findOrCreate_node start (popFront start.lex) s
  generalize findOrCreate start (popFront start.lex) s = r at *
  obtain ⟨_ | n, s1⟩ := r
  · exact h.way
  · dsimp only at h ⊢
    have hn := hn _ _ rfl
    split
    · rename_i he
      exact h.way.trans (createMacro_way start _ n u s1 (by rw [macroOf_some hn, he]; rfl))
    · exact h.way.trans (error_calm _ _ _).way

def WayN (files : Files) (rec : Nested) : Prop := ∀ u s r, rec u s = some r → Way files s r.2

def WayU (files : Files) (s : Asm) (o : Option (Bool × Unit × Asm)) : Prop := ∀ r, o = some r → Way files s r.2.2

theorem wayU_some {files : Files} {s s' : Asm} {ok : Bool} {u : Unit} (h : Way files s s') : WayU files s (some (ok, u, s')) := by
  intro r hr; cases hr; exact h

theorem wayU_calm {files : Files} {s : Asm} {u : Unit} {r : Bool × Asm} (h : Calm s r.2) : WayU files s (keep u r) := wayU_some h.way

theorem wayU_after {files : Files} {s s1 : Asm} {o : Option (Bool × Unit × Asm)} (h : Way files s s1) (ho : WayU files s1 o) : WayU files s o :=
  fun r hr => h.trans (ho r hr)

section
variable {files : Files} {rec : Nested} (hrec : WayN files rec)
include hrec

theorem runMacro_way (t : Token) (name : Str) (n : Node) (body : List Token) (id : Short) (arg : Str) (u : Unit) (s : Asm)
    (h : ∀ b i, macroOf s name ≠ some (b, i, true)) : WayU files s (runMacro rec t name n body id arg u s) := by
  unfold runMacro
  dsimp only
  intro r hr
  have h0 : Way files s { setNode name { n with entry := .macro body id true } s with depth := (setNode name { n with entry := .macro body id true } s).depth + 1 } :=
    (setNode_way h).trans (way_same rfl rfl fun _ _ _ h => h)
  generalize { setNode name { n with entry := .macro body id true } s with depth := (setNode name { n with entry := .macro body id true } s).depth + 1 } = s0 at *
  split at hr
  · cases hr
  · rename_i ok s1 heq
    have h1 := h0.trans (hrec _ _ _ heq)
    have h2 : Way files s (match s1.symtab name with
      | some n' => setNode name { n' with entry := .macro body id false } { s1 with depth := s1.depth - 1 }
      | none => { s1 with depth := s1.depth - 1 }) := by
      obtain ⟨⟨L, E, k1, k2, k3, k4⟩, h12, h13⟩ := h1
      cases hm : s1.symtab name with
      | none => exact ⟨⟨L, E, k1, k2, k3, k4⟩, h12, h13⟩
      | some n' =>
        refine ⟨⟨L, E, k1, k2, k3, k4⟩, h12, fun k b i hk => ?_⟩
        rw [macroOf_set]
        split
        · rename_i e; rw [e] at hk; exact absurd hk (h b i)
        · exact h13 k b i hk
    have hr := Option.some.inj hr
    rw [← hr]
    dsimp only
    split
    · exact h2
    · exact h2.trans (error_calm _ _ _).way

theorem expandMacro_way (t : Token) (name : Str) (n : Node) (body : List Token) (id : Short) (x : Bool) (u : Unit) (s : Asm)
    (h : macroOf s name = some (body, id, x)) : WayU files s (expandMacro rec t name n body id x u s) := by
  unfold expandMacro
  split
  · exact wayU_some (error_calm _ _ _).way
  · split
    · exact wayU_some (error_calm _ _ _).way
    · rename_i hx
      have hx : x = false := by simpa using hx
      dsimp only
      have hc := (putSymbol_calm 0 { type := .macroRef, name := some name, region := t.region, id := id } s).mild
      generalize putSymbol 0 { type := .macroRef, name := some name, region := t.region, id := id } s = s0 at *
      refine wayU_after hc.way ?_
      have hno : ∀ s', Mild s0 s' → ∀ b i, macroOf s' name ≠ some (b, i, true) := by
        intro s' hm b i hh
        rw [hm.macros, hc.macros, h, hx] at hh
        cases hh
      split
      · have hp := nextToken_mild u s0
        generalize nextToken u s0 = q at hp
        obtain ⟨_ | a, u1, s1⟩ := q
        · dsimp only at hp ⊢
          refine wayU_some (hp.way.trans ?_)
          split
          · exact (error_calm _ _ _).way
          · exact .refl _ _
        · exact wayU_after hp.way (runMacro_way hrec _ _ _ _ _ _ _ _ (hno _ hp))
      · exact runMacro_way hrec _ _ _ _ _ _ _ _ (hno _ (Calm.refl _).mild)

theorem processWord_way (t : Token) (u : Unit) (s : Asm) : WayU files s (processWord rec t u s) := by
  unfold processWord
  split
  · dsimp only
    rename_i op red _
    have h : Calm s (if red = true then warning "Opcode contains redundant flags" t.region s else s) := ite_calm (warning_calm _ _ _) (.refl s)
    exact wayU_some (h.trans (emitOpcode_calm _ _ _ _)).way
  · have h := findOrCreate_calm t t.lex s
    have hn := findOrCreate_node t t.lex s
    generalize findOrCreate t t.lex s = r at *
    obtain ⟨_ | n, s1⟩ := r
    · exact wayU_some h.way
    · dsimp only at h ⊢
      have hn := hn _ _ rfl
      have hm := macroOf_some hn
      refine wayU_after h.way ?_
      split
      · rename_i body id x he
        rw [he] at hm
        have hc : Calm s1 (setNode t.lex { n with referenced := true } s1) := setNode_calm (n := { n with referenced := true }) (by rw [hm]; dsimp only; rw [he])
        exact wayU_after hc.way (expandMacro_way hrec t _ _ body id x u _ ((hc.macros _).trans hm))
      · rename_i id a he
        have hc : Calm s1 (setNode t.lex { n with referenced := true } s1) := setNode_calm (n := { n with referenced := true }) hm.symm
        exact wayU_some (hc.trans (andThen_calm (emitOpcode_calm _ _ _ _) fun _ => emitBackwardRef_calm _ _ _ _ _ _ _ _ _)).way
      · rename_i he
        rw [he] at hm
        exact wayU_some (andThen_calm' (emitOpcode_calm _ _ _ _) fun hc => emitForwardRef_calm _ _ _ _ _ _ _ ((hc.macros _).trans hm)).way
      · rename_i he
        rw [he] at hm
        exact wayU_some (andThen_calm' (emitOpcode_calm _ _ _ _) fun hc => emitForwardRef_calm _ _ _ _ _ _ _ ((hc.macros _).trans hm)).way

/-- A file: it is opened first. -/
theorem processFile_way (path : Str) (s : Asm) (r : Bool × Asm) (h : processFile files rec path s = some r) :
    (∃ L E, r.2.includes = L ++ s.includes ∧ fileEvents r.2.log = E ++ .opened (cstr path) :: fileEvents s.log ∧ Brackets files (.opened (cstr path) :: E.reverse) ∧
      openings E = L.map cstr) ∧ (s.includes.Nodup → r.2.includes.Nodup) ∧ (∀ name b i, macroOf s name = some (b, i, true) → macroOf r.2 name = some (b, i, true)) := by
  unfold processFile at h
  dsimp only at h
  split at h
  · rename_i hf
    cases h
    exact ⟨⟨[], [], rfl, rfl, .failed hf .nil, rfl⟩, id, fun _ _ _ h => h⟩
  · rename_i st hf
    split at h
    · cases h
    · rename_i ok s1 heq
      obtain ⟨⟨L, E, h1, h2, h3, h4⟩, h5, h6⟩ := hrec _ _ _ heq
      cases h
      refine ⟨⟨L, .closed (cstr path) :: E, h1, ?_, ?_, h4⟩, h5, h6⟩
      · show .closed (cstr path) :: fileEvents s1.log = _
        have h2' : fileEvents s1.log = E ++ .opened (cstr path) :: fileEvents s.log := h2
        rw [h2']; rfl
      · rw [List.reverse_cons, ← List.cons_append]
        exact .file (by rw [hf]; simp) h3 .nil

theorem processInclude_way (name : Str) (t : Token) (s : Asm) (r : Bool × Asm) (h : processInclude files rec name t s = some r) : Way files s r.2 := by
  unfold processInclude at h
  split at h
  · cases h; exact .refl _ _
  · rename_i hn
    dsimp only at h
    split at h
    · cases h
    · rename_i ok s1 heq
      obtain ⟨⟨L, E, h1, h2, h3, h4⟩, h5, h6⟩ := processFile_way hrec _ _ _ heq
      have hw : Way files s { s1 with depth := s1.depth - 1 } := by
        refine ⟨⟨L ++ [name], E ++ [.opened (cstr name)], ?_, ?_, ?_, ?_⟩, fun hs => h5 (List.nodup_cons.2 ⟨hn, hs⟩), h6⟩
        · show s1.includes = _
          have h1' : s1.includes = L ++ name :: s.includes := h1
          rw [h1', List.append_assoc]; rfl
        · show fileEvents s1.log = _
          have h2' : fileEvents s1.log = E ++ .opened (cstr name) :: fileEvents s.log := h2
          rw [h2', List.append_assoc]; rfl
        · rw [List.reverse_append]; exact h3
        · rw [openings_append, h4, List.map_append]; rfl
      have h := Option.some.inj h
      rw [← h]
      split
      · exact hw
      · exact hw.trans (error_calm _ _ _).way

theorem processTilde_way (t : Token) (u : Unit) (s : Asm) : WayU files s ((processTilde files rec t s).map fun r => (r.1, u, r.2)) := by
  intro r hr
  cases ht : processTilde files rec t s with
  | none => rw [ht] at hr; cases hr
  | some q =>
    rw [ht] at hr
    cases hr
    dsimp only
    unfold processTilde at ht
    split at ht
    · cases ht; exact (error_calm _ _ _).way
    · dsimp only at ht
      generalize (if decide ((popFront t.lex).head? = some (ch '~')) = true then popFront (popFront t.lex) else popFront t.lex) = filename at *
      have hc := putSymbol_calm s.writeAddr { type := .include, name := some filename, region := t.region } s
      generalize putSymbol s.writeAddr { type := .include, name := some filename, region := t.region } s = s0 at *
      refine hc.way.trans ?_
      split at ht
      · cases ht
        dsimp only
        split
        · exact .refl _ _
        · exact way_same rfl rfl fun _ _ _ h => h
      · exact processInclude_way hrec _ _ _ _ ht

omit hrec in
theorem ite_way {s : Asm} {c : Prop} [Decidable c] {a b : Option (Bool × Unit × Asm)} (ha : WayU files s a) (hb : WayU files s b) : WayU files s (if c then a else b) := by
  split
  exacts [ha, hb]

theorem processToken_way (t : Token) (u : Unit) (s : Asm) : WayU files s (processToken files rec t u s) := by
  unfold processToken
  dsimp only
  have hro : ∀ op kind sz arg, Calm s (andThen (emitOpcode t op true s) fun s => emitLabelRef t kind sz arg true s).2 :=
    fun _ _ _ _ => andThen_calm (emitOpcode_calm _ _ _ _) fun _ => emitLabelRef_calm _ _ _ _ _ _
  exact ite_way (wayU_some (processComment_mild t u s).way) <|
    ite_way (wayU_calm (error_calm _ _ _)) <|
    ite_way (wayU_calm (processMark_calm _ _)) <|
    ite_way (wayU_calm (ite_calm1 (error_calm _ _ _) (processMark_calm _ _))) <|
    ite_way (processTilde_way hrec t u s) <|
    ite_way (wayU_some (processMacro_way t u s)) <|
    ite_way (wayU_calm (processGlobalLabel_calm _ _)) <|
    ite_way (wayU_calm (processLocalLabel_calm _ _)) <|
    ite_way (wayU_calm (hro _ _ _ _)) <|
    ite_way (wayU_calm (hro _ _ _ _)) <|
    ite_way (wayU_calm (ite_calm1 (error_calm _ _ _) (processLambdaClose_calm _ _))) <|
    ite_way (wayU_calm (ite_calm1 (error_calm _ _ _) (emitJsi_calm _ _))) <|
    ite_way (wayU_calm (emitJsi_calm _ _)) <|
    ite_way (wayU_calm (processAbsPadding_calm _ _)) <|
    ite_way (wayU_calm (processRelPadding_calm _ _)) <|
    ite_way (wayU_calm (processLitNumber_calm _ _)) <|
    ite_way (wayU_calm (hro _ _ _ _)) <|
    ite_way (wayU_calm (emitLabelRef_calm _ _ _ _ _ _)) <|
    ite_way (wayU_calm (hro _ _ _ _)) <|
    ite_way (wayU_calm (emitLabelRef_calm _ _ _ _ _ _)) <|
    ite_way (wayU_calm (hro _ _ _ _)) <|
    ite_way (wayU_calm (emitLabelRef_calm _ _ _ _ _ _)) <|
    ite_way (wayU_calm (processText_calm _ _)) <|
    ite_way (wayU_calm (processRawNumber_calm _ _)) <|
    processWord_way hrec t u s

theorem unitLoop_way (fuel : Nat) : WayN files (unitLoop files rec fuel) := by
  induction fuel with
  | zero => intro u s r h; cases h
  | succ n ih =>
    intro u s r h
    unfold unitLoop at h
    have ht := nextToken_mild u s
    generalize nextToken u s = p at *
    obtain ⟨_ | t, u1, s1⟩ := p
    · cases h; exact ht.way
    · dsimp only at h ht
      refine ht.way.trans ?_
      cases hp : processToken files rec t u1 s1 with
      | none => rw [hp] at h; cases h
      | some q =>
        rw [hp] at h
        have hq := processToken_way hrec t u1 s1 q hp
        obtain ⟨_ | _, u2, s2⟩ := q
        · cases h; exact hq
        · exact hq.trans (ih _ _ _ h)

theorem deferredLoop_way (fuel i : Nat) (s : Asm) (r : Bool × Asm) (h : deferredLoop files rec fuel i s = some r) : Way files s r.2 := by
  induction fuel generalizing i s with
  | zero => cases h
  | succ n ih =>
    rw [deferredLoop.eq_def] at h
    dsimp only at h
    cases hp : s.deferred[i]? with
    | none => rw [hp] at h; cases h; exact .refl _ _
    | some p =>
      rw [hp] at h
      dsimp only at h
      cases h1 : processInclude files rec p.1 p.2 s with
      | none => rw [h1] at h; cases h
      | some q =>
        rw [h1] at h
        have hq := processInclude_way hrec _ _ _ _ h1
        obtain ⟨_ | _, s2⟩ := q
        · cases h; exact hq
        · exact hq.trans (ih _ _ h)

end

theorem processUnit_way (files : Files) (fuel levels : Nat) : WayN files (processUnit files fuel levels) := by
  induction levels with
  | zero => exact unitLoop_way (fun _ _ _ h => by cases h) fuel
  | succ l ih => exact unitLoop_way ih fuel

theorem reportRefs_calm (rs : List FRef) (s : Asm) : Calm s (reportRefs rs s) := by
  induction rs generalizing s with
  | nil => exact .refl s
  | cons r rs ih => exact (error_calm _ _ _).trans (ih _)

theorem reportLambdas_calm (rs : List FRef) (s : Asm) : Calm s (reportLambdas rs s) := by
  induction rs generalizing s with
  | nil => exact .refl s
  | cons r rs ih => exact (error_calm _ _ _).trans (ih _)

theorem reportAtLabels_calm (rs : List FRef) (s : Asm) : Calm s (reportAtLabels rs s) := by
  induction rs generalizing s with
  | nil => exact .refl s
  | cons r rs ih => exact (warning_calm _ _ _).trans (ih _)

theorem reportSymbols_calm (ks : List Str) (s : Asm) : Calm s (reportSymbols ks s) := by
  induction ks generalizing s with
  | nil => exact .refl s
  | cons k ks ih =>
    unfold reportSymbols
    dsimp only
    refine Calm.trans ?_ (ih _)
    split
    · exact .refl s
    · split
      · exact reportRefs_calm _ _
      · exact error_calm _ _ _
      · exact ite_calm (warning_calm _ _ _) (.refl s)
      · exact ite_calm (warning_calm _ _ _) (.refl s)

theorem resolve_way {files : Files} {rec : Nested} (hrec : WayN files rec) (fuel : Nat) (s : Asm) (r : Bool × Asm) (h : resolve files rec fuel s = some r) : Way files s r.2 := by
  unfold resolve at h
  cases hd : deferredLoop files rec fuel 0 s with
  | none => rw [hd] at h; cases h
  | some q =>
    rw [hd] at h
    have hq := deferredLoop_way hrec _ _ _ _ hd
    obtain ⟨_ | _, s2⟩ := q
    · cases h; exact hq
    · cases h
      exact hq.trans ((reportLambdas_calm _ _).trans ((reportAtLabels_calm _ _).trans (reportSymbols_calm _ _))).way

/-- **C39**: the files that were opened during assembly, in order: the main file, then different names, each once. Every
opened file is closed again, in the reverse order, also when assembly fails. -/
theorem C39_files (files : Files) (fuel : Nat) (filename : Str) (ok : Bool) (s : Asm) (h : assemble files fuel filename = some (ok, s)) :
    Brackets files (fileEvents s.log).reverse ∧
    ∃ names : List Str, names.Nodup ∧ openings (fileEvents s.log).reverse = cstr filename :: names.map cstr := by
  have hrec := processUnit_way files fuel MAX_DEPTH
  unfold assemble at h
  dsimp only at h
  cases hp : processFile files (processUnit files fuel MAX_DEPTH) filename initial with
  | none => rw [hp] at h; cases h
  | some q =>
    rw [hp] at h
    obtain ⟨⟨L, E, h1, h2, h3, h4⟩, h5, -⟩ := processFile_way hrec _ _ _ hp
    suffices hw : Way files q.2 s by
      obtain ⟨⟨L', E', k1, k2, k3, k4⟩, k5, -⟩ := hw
      have hs : fileEvents s.log = E' ++ (E ++ [.opened (cstr filename)]) := by rw [k2, h2]; rfl
      constructor
      · rw [hs, List.reverse_append, List.reverse_append]
        exact h3.append k3
      · have hi : s.includes = L' ++ L := by rw [k1, h1]; simp [initial]
        refine ⟨(L' ++ L).reverse, ?_, ?_⟩
        · rw [← hi]; exact List.nodup_reverse.2 (k5 (h5 List.nodup_nil))
        · rw [hs, openings_reverse, openings_append, openings_append, k4, h4, List.map_reverse, List.map_append]
          simp [openings]
    obtain ⟨_ | _, s1⟩ := q
    · cases h; exact .refl _ _
    · dsimp only at h ⊢
      cases hr : resolve files (processUnit files fuel MAX_DEPTH) fuel s1 with
      | none => rw [hr] at h; cases h
      | some q2 =>
        rw [hr] at h
        have := resolve_way hrec _ _ _ hr
        cases h
        exact this

/-! ## Macros do not use themselves -/

theorem asks_const {α : Type} {x : α} {w : Unit} {sw : Asm} (h : Asks (fun _ => x) w sw) : False := by
  obtain ⟨_, _, _, h⟩ := h
  exact h rfl

theorem asks_ite {α : Type} {c : Prop} [Decidable c] {a b : Nested → α} {w : Unit} {sw : Asm} (h : Asks (fun r => if c then a r else b r) w sw) :
    (c ∧ Asks a w sw) ∨ (¬ c ∧ Asks b w sw) := by
  by_cases hc : c
  · simp only [if_pos hc] at h; exact .inl ⟨hc, h⟩
  · simp only [if_neg hc] at h; exact .inr ⟨hc, h⟩

theorem asks_rec {α : Type} {g : Option (Bool × Asm) → α} {v w : Unit} {sv sw : Asm} (h : Asks (fun r => g (r v sv)) w sw) : w = v ∧ sw = sv := by
  obtain ⟨r, r', h1, h2⟩ := h
  by_contra hc
  refine h2 (congrArg g (h1 v sv ?_))
  rintro ⟨rfl, rfl⟩
  exact hc ⟨rfl, rfl⟩

theorem asks_map {α β : Type} {f : Nested → α} {g : α → β} {w : Unit} {sw : Asm} (h : Asks (fun r => g (f r)) w sw) : Asks f w sw := by
  obtain ⟨r, r', h1, h2⟩ := h
  exact ⟨r, r', h1, fun hh => h2 (congrArg g hh)⟩

/-- The macro is under expansion. -/
def Busy (s : Asm) (name : Str) : Prop := ∃ b i, macroOf s name = some (b, i, true)

theorem runMacro_asks {t : Token} {name : Str} {n : Node} {body : List Token} {id : Short} {arg : Str} {u w : Unit} {s sw : Asm}
    (h : Asks (fun rec => runMacro rec t name n body id arg u s) w sw) : IsMacro w ∧ Busy sw name ∧ ∀ k, Busy s k → Busy sw k := by
  have h' := asks_rec (g := fun o => match o with
    | none => none
    | some (ok, s) =>
      let s := { s with depth := s.depth - 1 }
      let s := match s.symtab name with
        | some n' => setNode name { n' with entry := .macro body id false } s
        | none => s
      some (ok, u, if ok then s else (error "Error while expanding macro" t.region s).2))
    (v := .macro ⟨body, arg⟩) (sv := { setNode name { n with entry := .macro body id true } s with depth := s.depth + 1 }) h
  obtain ⟨rfl, rfl⟩ := h'
  have hk : ∀ k, macroOf { setNode name { n with entry := .macro body id true } s with depth := s.depth + 1 } k = if k = name then some (body, id, true) else macroOf s k :=
    fun k => macroOf_set name { n with entry := .macro body id true } s k
  refine ⟨⟨_, rfl⟩, ⟨body, id, by rw [hk, if_pos rfl]⟩, fun k hb => ?_⟩
  obtain ⟨b, i, hb⟩ := hb
  by_cases hkn : k = name
  · exact ⟨body, id, by rw [hk, if_pos hkn]⟩
  · exact ⟨b, i, by rw [hk, if_neg hkn]; exact hb⟩

theorem Mild.busy {s s' : Asm} (h : Mild s s') {k : Str} (hb : Busy s k) : Busy s' k := by
  obtain ⟨b, i, hb⟩ := hb
  exact ⟨b, i, (h.macros k).trans hb⟩

theorem Way.keepsBusy {files : Files} {s s' : Asm} (h : Way files s s') {k : Str} (hb : Busy s k) : Busy s' k := by
  obtain ⟨b, i, hb⟩ := hb
  exact ⟨b, i, h.busy k b i hb⟩

theorem expandMacro_asks {t : Token} {name : Str} {n : Node} {body : List Token} {id : Short} {x : Bool} {u w : Unit} {s sw : Asm}
    (h : Asks (fun rec => expandMacro rec t name n body id x u s) w sw) : IsMacro w ∧ Busy sw name ∧ ∀ k, Busy s k → Busy sw k := by
  unfold expandMacro at h
  rcases asks_ite h with ⟨-, h⟩ | ⟨-, h⟩
  · exact (asks_const h).elim
  · rcases asks_ite h with ⟨-, h⟩ | ⟨-, h⟩
    · exact (asks_const h).elim
    · dsimp only at h
      have hc := (putSymbol_calm 0 { type := .macroRef, name := some name, region := t.region, id := id } s).mild
      generalize putSymbol 0 { type := .macroRef, name := some name, region := t.region, id := id } s = s0 at *
      rcases asks_ite h with ⟨-, h⟩ | ⟨-, h⟩
      · have hp := nextToken_mild u s0
        generalize nextToken u s0 = q at *
        obtain ⟨_ | a, u1, s1⟩ := q
        · exact (asks_const h).elim
        · obtain ⟨h1, h2, h3⟩ := runMacro_asks h
          exact ⟨h1, h2, fun k hk => h3 k (hp.busy (hc.busy hk))⟩
      · obtain ⟨h1, h2, h3⟩ := runMacro_asks h
        exact ⟨h1, h2, fun k hk => h3 k (hc.busy hk)⟩

/-- A name that was accepted is accepted again. -/
theorem findOrCreate_again {t : Token} {name : Str} {s s1 : Asm} {n : Node} (h : findOrCreate t name s = (some n, s1)) (t' : Token) (s' : Asm) (n' : Node)
    (hn : s'.symtab name = some n') : findOrCreate t' name s' = (some n', s') := by
  unfold findOrCreate at h ⊢
  cases name with
  | nil => cases h
  | cons c rest =>
    dsimp only at h ⊢
    split at h
    · cases h
    · rename_i h1
      rw [if_neg h1]
      split at h
      · cases h
      · rename_i h2
        rw [if_neg h2]
        split at h
        · cases h
        · rename_i h3
          rw [if_neg h3, hn]

theorem processWord_asks {t : Token} {u w : Unit} {s sw : Asm} (h : Asks (fun rec => processWord rec t u s) w sw) :
    IsMacro w ∧ Busy sw t.lex ∧ (∀ k, Busy s k → Busy sw k) ∧ parseOpcode t.lex = none ∧ ∃ n s1, findOrCreate t t.lex s = (some n, s1) := by
  unfold processWord at h
  cases hop : parseOpcode t.lex with
  | some o => rw [hop] at h; exact (asks_const h).elim
  | none =>
    rw [hop] at h
    dsimp only at h
    have hc := findOrCreate_calm t t.lex s
    have hn := findOrCreate_node t t.lex s
    generalize findOrCreate t t.lex s = r at *
    obtain ⟨_ | n, s1⟩ := r
    · exact (asks_const h).elim
    · dsimp only at h hc
      have hm := macroOf_some (hn _ _ rfl)
      cases he : n.entry with
      | «macro» body id x =>
        rw [he] at h hm
        have hr : Calm s1 (setNode t.lex { n with referenced := true, entry := .macro body id x } s1) :=
          setNode_calm (n := { n with referenced := true, entry := .macro body id x }) (by rw [hm])
        obtain ⟨h1, h2, h3⟩ := expandMacro_asks h
        exact ⟨h1, h2, fun k hk => h3 k (hr.mild.busy (hc.mild.busy hk)), rfl, n, s1, rfl⟩
      | unknown => rw [he] at h; exact (asks_const h).elim
      | label _ _ => rw [he] at h; exact (asks_const h).elim
      | forward _ _ => rw [he] at h; exact (asks_const h).elim

theorem processFile_asks {files : Files} {path : Str} {w : Unit} {s sw : Asm} (h : Asks (fun rec => processFile files rec path s) w sw) :
    ¬ IsMacro w ∧ ∀ k, Busy s k → Busy sw k := by
  unfold processFile at h
  dsimp only at h
  cases hf : files (cstr path) with
  | none => rw [hf] at h; exact (asks_const h).elim
  | some st =>
    rw [hf] at h
    dsimp only at h
    have h' := asks_rec (g := fun o => match o with
      | none => none
      | some (ok, s) => some (ok, { s with log := Event.fclose (cstr path) :: s.log }))
      (v := .file ⟨st, path, ⟨1, 1, 0⟩⟩) (sv := { s with log := .fopen (cstr path) :: s.log }) h
    obtain ⟨rfl, rfl⟩ := h'
    refine ⟨?_, fun k hk => hk⟩
    rintro ⟨m, hm⟩
    cases hm

theorem processInclude_asks {files : Files} {name : Str} {t : Token} {w : Unit} {s sw : Asm} (h : Asks (fun rec => processInclude files rec name t s) w sw) :
    ¬ IsMacro w ∧ ∀ k, Busy s k → Busy sw k := by
  unfold processInclude at h
  rcases asks_ite h with ⟨-, h⟩ | ⟨-, h⟩
  · exact (asks_const h).elim
  · dsimp only at h
    have h' := asks_map (g := fun o => match o with
      | none => none
      | some (ok, s) =>
        let s := { s with depth := s.depth - 1 }
        some (if ok then (true, s) else error "Error while processing include" t.region s))
      (f := fun rec => processFile files rec name { s with includes := name :: s.includes, depth := s.depth + 1 }) h
    exact processFile_asks (s := { s with includes := name :: s.includes, depth := s.depth + 1 }) h'

theorem processTilde_asks {files : Files} {t : Token} {u w : Unit} {s sw : Asm}
    (h : Asks (fun rec => (processTilde files rec t s).map fun r => (r.1, u, r.2)) w sw) : ¬ IsMacro w ∧ ∀ k, Busy s k → Busy sw k := by
  have h := asks_map (g := fun o : Option (Bool × Asm) => o.map fun r => (r.1, u, r.2)) (f := fun rec => processTilde files rec t s) h
  unfold processTilde at h
  rcases asks_ite h with ⟨-, h⟩ | ⟨-, h⟩
  · exact (asks_const h).elim
  · dsimp only at h
    generalize (if decide ((popFront t.lex).head? = some (ch '~')) = true then popFront (popFront t.lex) else popFront t.lex) = filename at *
    have hc := putSymbol_calm s.writeAddr { type := .include, name := some filename, region := t.region } s
    generalize putSymbol s.writeAddr { type := .include, name := some filename, region := t.region } s = s0 at *
    rcases asks_ite h with ⟨-, h⟩ | ⟨-, h⟩
    · exact (asks_const h).elim
    · obtain ⟨h1, h2⟩ := processInclude_asks h
      exact ⟨h1, fun k hk => h2 k (hc.mild.busy hk)⟩

/-- A token that starts a nested unit includes a file or uses a macro. In the second case it is a word, and so is every token
with the same text. -/
theorem processToken_asks {files : Files} {t : Token} {u w : Unit} {s sw : Asm} (h : Asks (fun rec => processToken files rec t u s) w sw) :
    (∀ k, Busy s k → Busy sw k) ∧ (IsMacro w → Busy sw t.lex ∧ parseOpcode t.lex = none ∧ (∃ n s1, findOrCreate t t.lex s = (some n, s1)) ∧
      ∀ rec t' u' s', t'.lex = t.lex → processToken files rec t' u' s' = processWord rec t' u' s') := by
  unfold processToken at h
  dsimp only at h
  rcases asks_ite h with ⟨-, h⟩ | ⟨n1, h⟩; · exact (asks_const h).elim
  rcases asks_ite h with ⟨-, h⟩ | ⟨n2, h⟩; · exact (asks_const h).elim
  rcases asks_ite h with ⟨-, h⟩ | ⟨n3, h⟩; · exact (asks_const h).elim
  rcases asks_ite h with ⟨-, h⟩ | ⟨n4, h⟩; · exact (asks_const h).elim
  rcases asks_ite h with ⟨-, h⟩ | ⟨n5, h⟩
  · obtain ⟨h1, h2⟩ := processTilde_asks h
    exact ⟨h2, fun hm => absurd hm h1⟩
  rcases asks_ite h with ⟨-, h⟩ | ⟨n6, h⟩; · exact (asks_const h).elim
  rcases asks_ite h with ⟨-, h⟩ | ⟨n7, h⟩; · exact (asks_const h).elim
  rcases asks_ite h with ⟨-, h⟩ | ⟨n8, h⟩; · exact (asks_const h).elim
  rcases asks_ite h with ⟨-, h⟩ | ⟨n9, h⟩; · exact (asks_const h).elim
  rcases asks_ite h with ⟨-, h⟩ | ⟨n10, h⟩; · exact (asks_const h).elim
  rcases asks_ite h with ⟨-, h⟩ | ⟨n11, h⟩; · exact (asks_const h).elim
  rcases asks_ite h with ⟨-, h⟩ | ⟨n12, h⟩; · exact (asks_const h).elim
  rcases asks_ite h with ⟨-, h⟩ | ⟨n13, h⟩; · exact (asks_const h).elim
  rcases asks_ite h with ⟨-, h⟩ | ⟨n14, h⟩; · exact (asks_const h).elim
  rcases asks_ite h with ⟨-, h⟩ | ⟨n15, h⟩; · exact (asks_const h).elim
  rcases asks_ite h with ⟨-, h⟩ | ⟨n16, h⟩; · exact (asks_const h).elim
  rcases asks_ite h with ⟨-, h⟩ | ⟨n17, h⟩; · exact (asks_const h).elim
  rcases asks_ite h with ⟨-, h⟩ | ⟨n18, h⟩; · exact (asks_const h).elim
  rcases asks_ite h with ⟨-, h⟩ | ⟨n19, h⟩; · exact (asks_const h).elim
  rcases asks_ite h with ⟨-, h⟩ | ⟨n20, h⟩; · exact (asks_const h).elim
  rcases asks_ite h with ⟨-, h⟩ | ⟨n21, h⟩; · exact (asks_const h).elim
  rcases asks_ite h with ⟨-, h⟩ | ⟨n22, h⟩; · exact (asks_const h).elim
  rcases asks_ite h with ⟨-, h⟩ | ⟨n23, h⟩; · exact (asks_const h).elim
  rcases asks_ite h with ⟨-, h⟩ | ⟨n24, h⟩; · exact (asks_const h).elim
  obtain ⟨h1, h2, h3, h4, h5⟩ := processWord_asks h
  refine ⟨h3, fun _ => ⟨h2, h4, h5, fun rec t' u' s' hlex => ?_⟩⟩
  unfold processToken
  dsimp only
  rw [hlex, if_neg n1, if_neg n2, if_neg n3, if_neg n4, if_neg n5, if_neg n6, if_neg n7, if_neg n8, if_neg n9, if_neg n10, if_neg n11, if_neg n12, if_neg n13,
    if_neg n14, if_neg n15, if_neg n16, if_neg n17, if_neg n18, if_neg n19, if_neg n20, if_neg n21, if_neg n22, if_neg n23, if_neg n24]

theorem within_busy {files : Files} {u v : Unit} {s sv : Asm} (h : Within files u s v sv) {k : Str} (hk : Busy s k) : Busy sv k := by
  induction h with
  | here => exact hk
  | @next v v1 v2 sv s1 s2 t fuel levels _ h1 h2 ih =>
    have hm := nextToken_mild v sv
    rw [h1] at hm
    exact (processToken_way (processUnit_way files fuel levels) t v1 s1 _ h2).keepsBusy (hm.busy ih)
  | @nested v v1 w sv s1 sw t _ h1 h2 ih =>
    have hm := nextToken_mild v sv
    rw [h1] at hm
    exact (processToken_asks h2).1 k (hm.busy ih)

/-- **C39**: the use of a macro starts the expansion `m`. Whatever is processed meanwhile - the body, the bodies of other
macros, included files - a token with the same text is rejected: assembly fails with an error at that token. -/
theorem C39_no_recursion (files : Files) (t : Token) (u0 : Unit) (s0 : Asm) (m : MacroUnit) (sm : Asm)
    (h : Asks (fun rec => processToken files rec t u0 s0) (.macro m) sm) (v v1 : Unit) (sv s1 : Asm) (hw : Within files (.macro m) sm v sv)
    (t' : Token) (ht : nextToken v sv = (some t', v1, s1)) (hlex : t'.lex = t.lex) (rec : Nested) :
    ∃ msg s', processToken files rec t' v1 s1 = some (false, v1, s') ∧ s'.log = .error msg t'.region :: s1.log ∧
      (msg = "Macro recursion detected" ∨ msg = "Max preprocessor depth depth reached") := by
  obtain ⟨-, h1⟩ := processToken_asks h
  obtain ⟨h2, h3, ⟨n, sn, h4⟩, h5⟩ := h1 ⟨m, rfl⟩
  have hm := nextToken_mild v sv
  rw [ht] at hm
  obtain ⟨b, i, hb⟩ := hm.busy (within_busy hw h2)
  rw [h5 rec t' v1 s1 hlex]
  unfold processWord
  rw [hlex, h3]
  dsimp only
  rw [macroOf] at hb
  cases hs : s1.symtab t.lex with
  | none => rw [hs] at hb; cases hb
  | some n' =>
    rw [hs] at hb
    rw [findOrCreate_again h4 t' s1 n' hs]
    dsimp only
    cases he : n'.entry with
    | «macro» b' i' x =>
      have hx : x = true := by
        have hb' : macroEntry n'.entry = some (b, i, true) := hb
        rw [he] at hb'
        cases hb'
        rfl
      subst hx
      dsimp only
      unfold expandMacro
      split
      · exact ⟨_, _, rfl, rfl, .inr rfl⟩
      · rw [if_pos rfl]
        exact ⟨_, _, rfl, rfl, .inl rfl⟩
    | unknown => have hb' : macroEntry n'.entry = some (b, i, true) := hb; rw [he] at hb'; cases hb'
    | label _ _ => have hb' : macroEntry n'.entry = some (b, i, true) := hb; rw [he] at hb'; cases hb'
    | forward _ _ => have hb' : macroEntry n'.entry = some (b, i, true) := hb; rw [he] at hb'; cases hb'

/-! ## Loops inside the model are never cut short -/

theorem size_fuel (u : Unit) (s : Asm) : size u s < unitFuel u := by
  cases u with
  | file f =>
    have := left_fuel f s
    show left f s < 2 * f.stream.length + 3
    omega
  | «macro» m => show m.rest.length < m.rest.length + 2; omega

theorem commentLoop_fuel (n m depth : Nat) (u : Unit) (s : Asm) (hn : size u s < n) (hm : size u s < m) : commentLoop n depth u s = commentLoop m depth u s := by
  induction n generalizing m depth u s with
  | zero => exact absurd hn (Nat.not_lt_zero _)
  | succ n ih =>
    obtain _ | m := m
    · exact absurd hm (Nat.not_lt_zero _)
    unfold commentLoop
    have ht := nextToken_took 0 u s
    generalize nextToken u s = r at ht
    obtain ⟨t | t, u1, s1⟩ := r
    · rfl
    · have hlt := ht.lt (by simp)
      dsimp only at hlt ⊢
      have hs : size u1 (putSymbol s1.writeAddr { type := .comment, name := some t.lex, region := t.region, id := BitVec.ofNat 16 depth } s1) = size u1 s1 :=
        (putSymbol_calm _ _ _).size u1
      rw [ih m _ u1 _ (by rw [hs]; omega) (by rw [hs]; omega)]

theorem macroHead_fuel (start : Token) (n m : Nat) (u : Unit) (s : Asm) (hn : size u s < n) (hm : size u s < m) : macroHead start n u s = macroHead start m u s := by
  induction n generalizing m u s with
  | zero => exact absurd hn (Nat.not_lt_zero _)
  | succ n ih =>
    obtain _ | m := m
    · exact absurd hm (Nat.not_lt_zero _)
    unfold macroHead
    have ht := nextToken_took 0 u s
    generalize nextToken u s = r at ht
    obtain ⟨t | t, u1, s1⟩ := r
    · rfl
    · have hlt := ht.lt (by simp)
      dsimp only at hlt ⊢
      have hs : size u1 (processMark t s1) = size u1 s1 := (processMark_calm _ _).size u1
      rw [ih m u1 (processMark t s1) (by rw [hs]; omega) (by rw [hs]; omega)]
      have hc := (processComment_post 0 t u1 s1).1.size
      generalize processComment t u1 s1 = q at hc
      obtain ⟨_ | _, u2, s2⟩ := q
      · rfl
      · dsimp only at hc ⊢
        rw [ih m u2 s2 (by omega) (by omega)]

theorem macroBody_fuel (start : Token) (n m depth : Nat) (acc : List Token) (u : Unit) (s : Asm) (hn : size u s < n) (hm : size u s < m) :
    macroBody start n depth acc u s = macroBody start m depth acc u s := by
  induction n generalizing m depth acc u s with
  | zero => exact absurd hn (Nat.not_lt_zero _)
  | succ n ih =>
    obtain _ | m := m
    · exact absurd hm (Nat.not_lt_zero _)
    unfold macroBody
    have ht := nextToken_took 0 u s
    generalize nextToken u s = r at ht
    obtain ⟨t | t, u1, s1⟩ := r
    · rfl
    · have hlt := ht.lt (by simp)
      dsimp only at hlt ⊢
      generalize (if t.lex = [ch '}'] then depth - 1 else if opensLambda t.lex then depth + 1 else depth) = d
      rw [ih m d (t :: acc) u1 s1 (by omega) (by omega)]

/-- **C39**: the loops over tokens of one unit - separators, comments, heads and bodies of macros - have fuel in the model.
It is always enough: with any larger amount they do the same. -/
theorem C39_loops_complete (u : Unit) (s : Asm) (extra : Nat) :
    (∀ f, u = .file f → nextInFile f s = nextInFileLoop (2 * f.stream.length + 2 + extra) f s) ∧
    (∀ depth, commentLoop (unitFuel u) depth u s = commentLoop (unitFuel u + extra) depth u s) ∧
    (∀ start, macroHead start (unitFuel u) u s = macroHead start (unitFuel u + extra) u s) ∧
    (∀ start depth acc, macroBody start (unitFuel u) depth acc u s = macroBody start (unitFuel u + extra) depth acc u s) := by
  have h := size_fuel u s
  refine ⟨fun f _ => ?_, fun d => ?_, fun t => ?_, fun t d a => ?_⟩
  · have := left_fuel f s
    exact nextInFileLoop_fuel _ _ _ _ this (by omega)
  · exact commentLoop_fuel _ _ _ _ _ h (by omega)
  · exact macroHead_fuel _ _ _ _ _ h (by omega)
  · exact macroBody_fuel _ _ _ _ _ _ _ h (by omega)

/-! ## Instances -/

/-- The result and the files that were opened and closed. -/
def traffic (l : List (String × String)) : Option (Bool × List FileEvent) :=
  (assemble (filesOf l) 60 (str "m")).map fun r => (r.1, (fileEvents r.2.log).reverse)

/-- Files that include each other: each is read once (and the main file a second time). -/
example : traffic [("m", "~x ~y"), ("x", "~y ~m INC"), ("y", "~x")] =
    some (true, [.opened (str "m"), .opened (str "x"), .opened (str "y"), .closed (str "y"), .opened (str "m"), .closed (str "m"), .closed (str "x"), .closed (str "m")]) := by
  decide +kernel

/-- A missing file: the open ones are closed. -/
example : traffic [("m", "~x"), ("x", "~z")] = some (false, [.opened (str "m"), .opened (str "x"), .opened (str "z"), .closed (str "x"), .closed (str "m")]) := by
  decide +kernel

/-- The main file is not on the list of includes: a file that includes itself is read twice. -/
theorem C39_main_twice : traffic [("m", "INC ~m")] = some (true, [.opened (str "m"), .opened (str "m"), .closed (str "m"), .closed (str "m")]) ∧
    outcome [("m", "INC ~m")] = some (true, 0, [(0x100, 1), (0x101, 1)]) := by
  decide +kernel

/-- Macros that use themselves or each other are rejected. -/
example : (outcome [("m", "%xx { xx } xx")]).map (·.1) = some false ∧ (outcome [("m", "%xx { yy } %yy { xx } xx")]).map (·.1) = some false ∧
    (outcome [("m", "%xx { ~x } xx"), ("x", "xx")]).map (·.1) = some false := by
  decide +kernel

/-- The word `xx` in a state where it is a macro. -/
def xxTok : Token := ⟨str "xx", ⟨str "m", noPos, noPos⟩⟩

def xxState : Asm := { setNode (str "xx") ⟨xxTok, true, .macro [xxTok] 1 false⟩ initial with names := [str "xx"] }

def xxUsed : Asm :=
  putSymbol 0 { type := .macroRef, name := some (str "xx"), region := xxTok.region, id := 1 } (setNode (str "xx") ⟨xxTok, true, .macro [xxTok] 1 false⟩ xxState)

def xxInside : Asm := { setNode (str "xx") ⟨xxTok, true, .macro [xxTok] 1 true⟩ xxUsed with depth := xxUsed.depth + 1 }

/-- Using it starts the expansion of its body, where the next token is `xx` again: the hypotheses of `C39_no_recursion` hold. -/
example (files : Files) (u : Unit) : Asks (fun rec => processToken files rec xxTok u xxState) (.macro ⟨[xxTok], []⟩) xxInside ∧
    Within files (.macro ⟨[xxTok], []⟩) xxInside (.macro ⟨[xxTok], []⟩) xxInside ∧
    nextToken (.macro ⟨[xxTok], []⟩) xxInside = (some xxTok, .macro ⟨[], []⟩, xxInside) := by
  refine ⟨?_, .here, rfl⟩
  have h : (fun rec => processToken files rec xxTok u xxState) =
      fun rec => runMacro rec xxTok (str "xx") ⟨xxTok, true, .macro [xxTok] 1 false⟩ [xxTok] 1 [] u xxUsed := by
    funext rec
    rfl
  rw [h]
  classical
  refine ⟨fun _ _ => none, fun w sw => if w = .macro ⟨[xxTok], []⟩ ∧ sw = xxInside then some (true, sw) else none, fun w sw hw => (if_neg hw).symm, ?_⟩
  unfold runMacro
  dsimp only
  rw [if_pos ⟨rfl, rfl⟩]
  simp

end Buxn.Asm
