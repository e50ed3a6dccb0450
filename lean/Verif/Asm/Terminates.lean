import Verif.Asm.Measure
import Mathlib.Data.Set.Finite.List
/-!
# C39: assembly terminates
-/

namespace Buxn.Asm
open Buxn.VM Spec

/-- What a unit can still give. -/
def size (u : Unit) (s : Asm) : Nat :=
  match u with
  | .file f => left f s
  | .macro m => m.rest.length

/-- The tokens of a body are short enough. -/
def ShortBody (b : List Token) : Prop := ∀ t ∈ b, t.lex.length ≤ MAX_LONG_STRING_LEN

def ShortUnit (u : Unit) : Prop := ∀ m, u = .macro m → ShortBody m.rest

/-- The invariant of the state. -/
structure Bounded (M : Nat) (s : Asm) : Prop where
  bodies : ∀ name b i e, macroOf s name = some (b, i, e) → b.length ≤ M ∧ ShortBody b
  deferred : ∀ p ∈ s.deferred, p.1.length ≤ MAX_LONG_STRING_LEN
  includes : ∀ n ∈ s.includes, n.length ≤ MAX_LONG_STRING_LEN
  nodup : s.includes.Nodup

/-- The effect of a step that succeeds. -/
structure Post (M : Nat) (u : Unit) (s : Asm) (u' : Unit) (s' : Asm) : Prop where
  size : size u' s' ≤ size u s
  wait : IsMacro u → waiting s' ≤ waiting s
  kind : IsMacro u ↔ IsMacro u'
  short : ShortUnit u → ShortUnit u'
  depth : s'.depth = s.depth
  incl : s.includes.length ≤ s'.includes.length
  bounded : Asm.size u s ≤ M → ShortUnit u → Bounded M s → Bounded M s'

theorem Post.refl (M : Nat) (u : Unit) (s : Asm) : Post M u s u s := ⟨Nat.le_refl _, fun _ => Nat.le_refl _, .rfl, id, rfl, Nat.le_refl _, fun _ _ h => h⟩

theorem Post.trans {M : Nat} {u u' u'' : Unit} {s s' s'' : Asm} (h : Post M u s u' s') (h' : Post M u' s' u'' s'') : Post M u s u'' s'' :=
  ⟨h'.size.trans h.size, fun k => (h'.wait (h.kind.1 k)).trans (h.wait k), h.kind.trans h'.kind, fun k => h'.short (h.short k), h'.depth.trans h.depth,
    h.incl.trans h'.incl, fun a b c => h'.bounded (h.size.trans a) (h.short b) (h.bounded a b c)⟩

theorem Calm.bounded {M : Nat} {s s' : Asm} (h : Calm s s') (hb : Bounded M s) : Bounded M s' := by
  refine ⟨fun name b i e hm => hb.bodies name b i e ((h.macros name).symm.trans hm), ?_, ?_, ?_⟩
  · rw [h.deferred]; exact hb.deferred
  · rw [h.includes]; exact hb.includes
  · rw [h.includes]; exact hb.nodup

theorem Calm.size {s s' : Asm} (h : Calm s s') (u : Unit) : size u s' = size u s := by
  cases u with
  | file f => exact congrArg (2 * f.stream.length + ·) h.waiting
  | «macro» m => rfl

theorem Calm.post {M : Nat} {u : Unit} {s s' : Asm} (h : Calm s s') : Post M u s u s' :=
  ⟨(h.size u).le, fun _ => h.waiting.le, .rfl, id, h.depth, by rw [h.includes], fun _ _ hb => h.bounded hb⟩

theorem ReadOnly.bounded {M : Nat} {s s' : Asm} (h : ReadOnly s s') (hb : Bounded M s) : Bounded M s' := by
  refine ⟨fun name b i e hm => hb.bodies name b i e ?_, ?_, ?_, ?_⟩
  · rw [macroOf, h.symtab] at hm; exact hm
  · rw [h.deferred]; exact hb.deferred
  · rw [h.includes]; exact hb.includes
  · rw [h.includes]; exact hb.nodup

/-! ## Reading -/

theorem expandText_len (arg : Str) (cs acc r : Str) (h : expandText arg cs acc = some r) : acc.length ≤ MAX_LONG_STRING_LEN → r.length ≤ MAX_LONG_STRING_LEN := by
  induction cs generalizing acc with
  | nil => rw [expandText] at h; cases h; exact id
  | cons c cs ih =>
    intro ha
    rw [expandText] at h
    split at h
    · split at h
      · cases h
      · refine ih _ h ?_
        rw [List.length_append, List.length_reverse]
        omega
    · split at h
      · cases h
      · refine ih _ h ?_
        rw [List.length_cons]
        omega

/-- Taking a token. -/
structure Took (M : Nat) (u : Unit) (s : Asm) (r : Option Token × Unit × Asm) : Prop where
  post : Post M u s r.2.1 r.2.2
  lt : r.1 ≠ none → size r.2.1 r.2.2 < size u s
  len : ShortUnit u → ∀ t, r.1 = some t → t.lex.length ≤ MAX_LONG_STRING_LEN
  stop : r.1 = none → ¬ IsMacro u → waiting r.2.2 = 0 ∨ r.2.2.success = false
  macros : ∀ name, macroOf r.2.2 name = macroOf s name

theorem nextInMacro_took (M : Nat) (m : MacroUnit) (s : Asm) : Took M (.macro m) s (nextToken (.macro m) s) := by
  have hc := nextInMacro_calm m s
  show Took M (.macro m) s ((nextInMacro m s).1, .macro (nextInMacro m s).2.1, (nextInMacro m s).2.2)
  suffices h : (∀ t ∈ (nextInMacro m s).2.1.rest, t ∈ m.rest) ∧ (nextInMacro m s).2.1.rest.length ≤ m.rest.length ∧
      ((nextInMacro m s).1 ≠ none → (nextInMacro m s).2.1.rest.length < m.rest.length) ∧
      (ShortBody m.rest → ∀ t, (nextInMacro m s).1 = some t → t.lex.length ≤ MAX_LONG_STRING_LEN) by
    obtain ⟨h1, h2, h3, h4⟩ := h
    refine ⟨⟨h2, fun _ => hc.waiting.le, ⟨fun _ => ⟨_, rfl⟩, fun _ => ⟨_, rfl⟩⟩, ?_, hc.depth, by rw [hc.includes], fun _ _ hb => hc.bounded hb⟩, h3, fun hs => h4 (hs m rfl),
      fun _ h => absurd ⟨m, rfl⟩ h, hc.macros⟩
    intro hs m' hm' t ht
    cases hm'
    exact hs m rfl t (h1 t ht)
  clear hc
  unfold nextInMacro
  obtain ⟨rest, arg⟩ := m
  cases rest with
  | nil => exact ⟨fun t ht => ht, Nat.le_refl _, fun h => absurd rfl h, fun _ _ h => by cases h⟩
  | cons t rest =>
    dsimp only
    split
    · exact ⟨fun t ht => .tail _ ht, Nat.le_succ _, fun _ => Nat.lt_succ_self _, fun hs t' ht' => by cases ht'; exact hs t (.head _)⟩
    · split
      · exact ⟨fun t ht => ht, Nat.le_refl _, fun h => absurd rfl h, fun _ _ h => by cases h⟩
      · rename_i rev hrev
        generalize (if rev.reverse.head? = some (ch '"') then MAX_LONG_STRING_LEN else MAX_TOKEN_LEN) = limit
        split
        · exact ⟨fun t ht => ht, Nat.le_refl _, fun h => absurd rfl h, fun _ _ h => by cases h⟩
        · refine ⟨fun t ht => .tail _ ht, Nat.le_succ _, fun _ => Nat.lt_succ_self _, fun hs t' ht' => ?_⟩
          have := expandText_len _ _ _ _ hrev (Nat.zero_le _)
          rw [← Option.some.inj ht']
          split
          · rw [List.length_reverse]; exact this
          · exact hs t (.head _)

theorem nextToken_took (M : Nat) (u : Unit) (s : Asm) : Took M u s (nextToken u s) := by
  cases u with
  | «macro» m => exact nextInMacro_took M m s
  | file f =>
    obtain ⟨h, hlt⟩ := nextInFile_read f s
    show Took M (.file f) s ((nextInFile f s).1, .file (nextInFile f s).2.1, (nextInFile f s).2.2)
    refine ⟨⟨h.le, ?_, ?_, ?_, h.ro.depth, by rw [h.ro.includes], fun _ _ hb => h.ro.bounded hb⟩, hlt, fun _ => h.len, fun hn _ => h.stop hn, fun name => by rw [macroOf, h.ro.symtab]; rfl⟩
    · rintro ⟨m, hm⟩; cases hm
    · constructor <;> (rintro ⟨m, hm⟩; cases hm)
    · intro _ m hm; cases hm

/-! ## Comments and macro definitions -/

theorem commentLoop_post (M fuel depth : Nat) (u : Unit) (s : Asm) :
    Post M u s (commentLoop fuel depth u s).2.1 (commentLoop fuel depth u s).2.2 ∧ ∀ name, macroOf (commentLoop fuel depth u s).2.2 name = macroOf s name := by
  induction fuel generalizing depth u s with
  | zero => exact ⟨.refl M u s, fun _ => rfl⟩
  | succ n ih =>
    unfold commentLoop
    split
    · exact ⟨.refl M u s, fun _ => rfl⟩
    · have ht := nextToken_took M u s
      generalize nextToken u s = r at ht
      obtain ⟨t | t, u1, s1⟩ := r
      · exact ⟨ht.post, ht.macros⟩
      · dsimp only at ht ⊢
        have hc := putSymbol_calm s1.writeAddr { type := .comment, name := some t.lex, region := t.region, id := BitVec.ofNat 16 depth } s1
        exact ⟨(ht.post.trans hc.post).trans (ih _ _ _).1, fun name => ((ih _ _ _).2 name).trans ((hc.macros name).trans (ht.macros name))⟩

theorem processComment_post (M : Nat) (t : Token) (u : Unit) (s : Asm) :
    Post M u s (processComment t u s).2.1 (processComment t u s).2.2 ∧ ∀ name, macroOf (processComment t u s).2.2 name = macroOf s name := by
  unfold processComment
  dsimp only
  have hc := putSymbol_calm s.writeAddr { type := .comment, name := some t.lex, region := t.region } s
  generalize putSymbol s.writeAddr { type := .comment, name := some t.lex, region := t.region } s = s0 at *
  obtain ⟨h1, h2⟩ := commentLoop_post M (unitFuel u) 1 u s0
  generalize commentLoop (unitFuel u) 1 u s0 = r at *
  obtain ⟨d, u1, s1⟩ := r
  dsimp only at h1 h2 ⊢
  have h3 := hc.post.trans h1
  split
  · exact ⟨h3.trans (error_calm _ _ _).post, fun name => ((error_calm _ _ _).macros name).trans ((h2 name).trans (hc.macros name))⟩
  · exact ⟨h3, fun name => (h2 name).trans (hc.macros name)⟩

theorem macroHead_post (M : Nat) (start : Token) (fuel : Nat) (u : Unit) (s : Asm) :
    Post M u s (macroHead start fuel u s).2.1 (macroHead start fuel u s).2.2 := by
  induction fuel generalizing u s with
  | zero => exact (error_calm _ _ _).post
  | succ n ih =>
    unfold macroHead
    have ht := (nextToken_took M u s).post
    generalize nextToken u s = r at ht
    obtain ⟨t | t, u1, s1⟩ := r
    · exact ht.trans (error_calm _ _ _).post
    · dsimp only at ht ⊢
      refine ht.trans ?_
      clear ht
      split
      · have hp := (processComment_post M t u1 s1).1
        generalize processComment t u1 s1 = q at hp
        obtain ⟨_ | _, u2, s2⟩ := q
        · exact hp
        · exact hp.trans (ih u2 s2)
      · split
        · exact (processMark_calm t s1).post.trans (ih _ _)
        · split
          · split
            · exact (error_calm _ _ _).post
            · exact (processMark_calm t s1).post.trans (ih _ _)
          · split
            · exact .refl _ _ _
            · exact (error_calm _ _ _).post

theorem macroBody_post (M : Nat) (start : Token) (fuel depth : Nat) (acc : List Token) (u : Unit) (s : Asm) :
    Post M u s (macroBody start fuel depth acc u s).2.1 (macroBody start fuel depth acc u s).2.2 ∧
    ∀ b, (macroBody start fuel depth acc u s).1 = some b → b.length ≤ acc.length + size u s ∧ (ShortUnit u → ShortBody acc → ShortBody b) := by
  induction fuel generalizing depth acc u s with
  | zero => exact ⟨(error_calm _ _ _).post, fun _ h => by cases h⟩
  | succ n ih =>
    unfold macroBody
    have ht := nextToken_took M u s
    generalize nextToken u s = r at ht
    obtain ⟨t | t, u1, s1⟩ := r
    · exact ⟨ht.post.trans (error_calm _ _ _).post, fun _ h => by cases h⟩
    · obtain ⟨hp, hlt, hlen, -, -⟩ := ht
      dsimp only at hp hlt hlen ⊢
      have hlt := hlt (by simp)
      split
      · exact ⟨hp.trans (error_calm _ _ _).post, fun _ h => by cases h⟩
      · generalize (if t.lex = [ch '}'] then depth - 1 else if opensLambda t.lex then depth + 1 else depth) = d
        split
        · exact ⟨hp, fun b hb => by cases hb; exact ⟨Nat.le_add_right _ _, fun _ h => h⟩⟩
        · obtain ⟨h1, h2⟩ := ih d (t :: acc) u1 s1
          refine ⟨hp.trans h1, fun b hb => ?_⟩
          obtain ⟨h3, h4⟩ := h2 b hb
          rw [List.length_cons] at h3
          refine ⟨by omega, fun hs ha => h4 (hp.short hs) ?_⟩
          intro t' ht'
          rcases List.mem_cons.1 ht' with rfl | h'
          · exact hlen hs _ rfl
          · exact ha t' h'

/-- Setting a macro. -/
theorem setMacro_bounded {M : Nat} {s : Asm} {name : Str} {n : Node} {b : List Token} {i : Short} {e : Bool} (hb : Bounded M s) (hl : b.length ≤ M) (hs : ShortBody b) :
    Bounded M (setNode name { n with entry := .macro b i e } s) := by
  refine ⟨fun k b' i' e' hm => ?_, hb.deferred, hb.includes, hb.nodup⟩
  unfold setNode at hm
  rw [macroOf] at hm
  dsimp only at hm
  by_cases hk : k = name
  · rw [if_pos hk] at hm
    cases hm
    exact ⟨hl, hs⟩
  · rw [if_neg hk] at hm
    exact hb.bodies k b' i' e' hm

theorem setMacro_post {M : Nat} {u : Unit} {s : Asm} {name : Str} {n : Node} {b : List Token} {i : Short} {e : Bool} (hl : b.length ≤ M) (hs : ShortBody b) :
    Post M u s u (setNode name { n with entry := .macro b i e } s) := by
  refine ⟨?_, fun _ => Nat.le_refl _, .rfl, id, rfl, Nat.le_refl _, fun _ _ hb => setMacro_bounded hb hl hs⟩
  cases u <;> exact Nat.le_refl _

theorem createMacro_post (M : Nat) (start : Token) (name : Str) (n : Node) (u : Unit) (s : Asm) (hM : size u s ≤ M) (hs : ShortUnit u) :
    Post M u s (createMacro start name n u s).2.1 (createMacro start name n u s).2.2 := by
  unfold createMacro
  dsimp only
  have hc : Calm s (putSymbol 0 { type := .macro, name := some name, region := start.region, id := s.numMacros + 1 } { s with numMacros := s.numMacros + 1 }) :=
    ⟨rfl, rfl, rfl, rfl, rfl, fun _ => rfl⟩
  generalize putSymbol 0 { type := .macro, name := some name, region := start.region, id := s.numMacros + 1 } { s with numMacros := s.numMacros + 1 } = s0 at *
  have h1 := hc.post.trans (macroHead_post M start (unitFuel u) u s0)
  generalize macroHead start (unitFuel u) u s0 = r at *
  obtain ⟨_ | _, u1, s1⟩ := r
  · exact h1
  · dsimp only at h1 ⊢
    have h2 : Post M u s u1 (setNode name { n with entry := .macro [] 0 false } s1) := h1.trans (setMacro_post (Nat.zero_le _) (fun _ h => by cases h))
    generalize setNode name { n with entry := .macro [] 0 false } s1 = s2 at *
    obtain ⟨h3, h4⟩ := macroBody_post M start (unitFuel u1) 1 [] u1 s2
    generalize macroBody start (unitFuel u1) 1 [] u1 s2 = q at *
    obtain ⟨_ | b, u3, s3⟩ := q
    · exact h2.trans h3
    · dsimp only at h3 h4 ⊢
      obtain ⟨h5, h6⟩ := h4 b rfl
      refine (h2.trans h3).trans (setMacro_post ?_ ?_)
      · have := h2.size
        rw [List.length_nil] at h5
        rw [List.length_reverse]
        omega
      · intro t ht
        exact h6 (h2.short hs) (fun _ h => by cases h) t (List.mem_reverse.1 ht)

theorem processMacro_post (M : Nat) (start : Token) (u : Unit) (s : Asm) (hM : size u s ≤ M) (hs : ShortUnit u) :
    Post M u s (processMacro start u s).2.1 (processMacro start u s).2.2 := by
  unfold processMacro
  have h := findOrCreate_calm start (popFront start.lex) s
  generalize findOrCreate start (popFront start.lex) s = r at *
  obtain ⟨_ | n, s1⟩ := r
  · exact h.post
  · dsimp only at h ⊢
    split
    · exact h.post.trans (createMacro_post M start _ n u s1 (by rw [h.size]; exact hM) hs)
    · exact h.post.trans (error_calm _ _ _).post

/-! ## Nested units -/

/-- What holds before a unit is processed. -/
structure Ready (M : Nat) (u : Unit) (s : Asm) : Prop where
  size : size u s ≤ M
  short : ShortUnit u
  bounded : Bounded M s

/-- What holds after a unit was processed successfully. -/
structure Done (M : Nat) (s s' : Asm) : Prop where
  wait : waiting s' ≤ waiting s
  depth : s'.depth = s.depth
  incl : s.includes.length ≤ s'.includes.length
  bounded : Bounded M s'

/-- Nested units that start at a given depth end. -/
def Ends (M depth : Nat) (rec : Nested) : Prop :=
  ∀ u s, Ready M u s → s.depth = depth → ∃ ok s', rec u s = some (ok, s') ∧ (ok = true → Done M s s')

/-- A step ends, and if it succeeds the state is as it should be. -/
def Ends3 (M : Nat) (u : Unit) (s : Asm) (r : Option (Bool × Unit × Asm)) : Prop := ∃ ok u' s', r = some (ok, u', s') ∧ (ok = true → Post M u s u' s')

theorem ends3_some {M : Nat} {u u' : Unit} {s s' : Asm} {ok : Bool} (h : Post M u s u' s') : Ends3 M u s (some (ok, u', s')) := ⟨_, _, _, rfl, fun _ => h⟩

theorem ends3_calm {M : Nat} {u : Unit} {s : Asm} {r : Bool × Asm} (h : Calm s r.2) : Ends3 M u s (keep u r) := ends3_some h.post

theorem ends3_after {M : Nat} {u u1 : Unit} {s s1 : Asm} {r : Option (Bool × Unit × Asm)} (h : Post M u s u1 s1) (hr : Ends3 M u1 s1 r) : Ends3 M u s r := by
  obtain ⟨ok, u', s', h1, h2⟩ := hr
  exact ⟨ok, u', s', h1, fun h3 => h.trans (h2 h3)⟩

theorem Post.ready {M : Nat} {u u' : Unit} {s s' : Asm} (h : Post M u s u' s') (hr : Ready M u s) : Ready M u' s' :=
  ⟨h.size.trans hr.size, h.short hr.short, h.bounded hr.size hr.short hr.bounded⟩

/-- What a nested unit did, seen from the unit around it. -/
theorem done_post {M : Nat} {u : Unit} {s s0 s1 s' : Asm} (h : Done M s0 s1) (h0 : waiting s0 = waiting s) (hi : s.includes.length ≤ s0.includes.length) (hw : waiting s' = waiting s1) (hd : s'.depth = s.depth)
    (hi' : s'.includes = s1.includes) (hb : Bounded M s1 → Bounded M s') : Post M u s u s' := by
  have h1 : waiting s' ≤ waiting s := by rw [hw, ← h0]; exact h.wait
  refine ⟨?_, fun _ => h1, .rfl, id, hd, ?_, fun _ _ _ => hb h.bounded⟩
  · cases u with
    | file f => exact Nat.add_le_add_left h1 _
    | «macro» m => exact Nat.le_refl _
  · rw [hi']; exact hi.trans h.incl

theorem runMacro_ends {M : Nat} {rec : Nested} (t : Token) (name : Str) (n : Node) (body : List Token) (id : Short) (arg : Str) {u : Unit} {s : Asm}
    (hr : Ready M u s) (hrec : Ends M (s.depth + 1) rec) (hl : body.length ≤ M) (hs : ShortBody body) : Ends3 M u s (runMacro rec t name n body id arg u s) := by
  unfold runMacro
  dsimp only
  have hb : Bounded M { setNode name { n with entry := .macro body id true } s with depth := s.depth + 1 } := by
    have := setMacro_bounded (name := name) (n := n) (i := id) (e := true) hr.bounded hl hs
    exact ⟨this.bodies, this.deferred, this.includes, this.nodup⟩
  obtain ⟨ok, s1, h1, h2⟩ := hrec (.macro ⟨body, arg⟩) { setNode name { n with entry := .macro body id true } s with depth := s.depth + 1 }
    ⟨hl, (fun m hm => by cases hm; exact hs), hb⟩ rfl
  have h1' : rec (.macro ⟨body, arg⟩) { setNode name { n with entry := .macro body id true } s with depth := (setNode name { n with entry := .macro body id true } s).depth + 1 } = some (ok, s1) := h1
  rw [h1']
  dsimp only
  cases ok with
  | false => exact ⟨_, _, _, rfl, fun h => by cases h⟩
  | true =>
    have h3 := h2 rfl
    have hd : s1.depth - 1 = s.depth := by rw [h3.depth]; rfl
    have hb1 : Bounded M s1 → Bounded M { s1 with depth := s1.depth - 1 } := fun h => ⟨h.bodies, h.deferred, h.includes, h.nodup⟩
    refine ⟨true, _, _, rfl, fun _ => ?_⟩
    rw [if_pos rfl]
    cases hm : s1.symtab name with
    | none => exact done_post (s := s) h3 rfl (Nat.le_refl _) rfl hd rfl hb1
    | some n' => exact done_post (s := s) h3 rfl (Nat.le_refl _) rfl hd rfl fun h => setMacro_bounded (n := n') (hb1 h) hl hs

theorem expandMacro_ends {M : Nat} {rec : Nested} (t : Token) (name : Str) (n : Node) (body : List Token) (id : Short) (x : Bool) {u : Unit} {s : Asm}
    (hr : Ready M u s) (hrec : s.depth < MAX_DEPTH → Ends M (s.depth + 1) rec) (hl : body.length ≤ M) (hs : ShortBody body) :
    Ends3 M u s (expandMacro rec t name n body id x u s) := by
  unfold expandMacro
  split
  · exact ends3_some (error_calm _ _ _).post
  · rename_i hd
    have hrec := hrec (by omega)
    split
    · exact ends3_some (error_calm _ _ _).post
    · dsimp only
      have hc := putSymbol_calm 0 { type := .macroRef, name := some name, region := t.region, id := id } s
      generalize putSymbol 0 { type := .macroRef, name := some name, region := t.region, id := id } s = s0 at *
      refine ends3_after hc.post ?_
      have hr0 := (hc.post (u := u)).ready hr
      have hrec0 : Ends M (s0.depth + 1) rec := by rw [hc.depth]; exact hrec
      split
      · have hp := (nextToken_took M u s0).post
        generalize nextToken u s0 = q at hp
        obtain ⟨_ | a, u1, s1⟩ := q
        · dsimp only at hp ⊢
          split
          · exact ends3_some (hp.trans (error_calm _ _ _).post)
          · exact ends3_some hp
        · dsimp only at hp ⊢
          exact ends3_after hp (runMacro_ends t name n body id _ (hp.ready hr0) (by rw [hp.depth]; exact hrec0) hl hs)
      · exact runMacro_ends t name n body id _ hr0 hrec0 hl hs

theorem processWord_ends {M : Nat} {rec : Nested} (t : Token) {u : Unit} {s : Asm} (hr : Ready M u s) (hrec : s.depth < MAX_DEPTH → Ends M (s.depth + 1) rec) :
    Ends3 M u s (processWord rec t u s) := by
  unfold processWord
  split
  · dsimp only
    rename_i op red _
    have h : Calm s (if red = true then warning "Opcode contains redundant flags" t.region s else s) := ite_calm (warning_calm _ _ _) (.refl s)
    exact ends3_some (h.trans (emitOpcode_calm _ _ _ _)).post
  · have h := findOrCreate_calm t t.lex s
    have hn := findOrCreate_node t t.lex s
    generalize findOrCreate t t.lex s = r at *
    obtain ⟨_ | n, s1⟩ := r
    · exact ends3_some h.post
    · dsimp only at h ⊢
      have hn := hn _ _ rfl
      have hm := macroOf_some hn
      refine ends3_after h.post ?_
      have hr1 := (h.post (u := u)).ready hr
      split
      · rename_i body id x he
        rw [he] at hm
        obtain ⟨hl, hs⟩ := hr1.bounded.bodies _ _ _ _ hm
        have hc : Calm s1 (setNode t.lex { n with referenced := true } s1) := setNode_calm (n := { n with referenced := true }) (by rw [hm]; dsimp only; rw [he])
        refine ends3_after hc.post (expandMacro_ends t _ _ body id x (hc.post.ready hr1) ?_ hl hs)
        rw [hc.depth, h.depth]
        exact hrec
      · rename_i id a he
        have hc : Calm s1 (setNode t.lex { n with referenced := true } s1) := setNode_calm (n := { n with referenced := true }) hm.symm
        exact ends3_some (hc.trans (andThen_calm (emitOpcode_calm _ _ _ _) fun _ => emitBackwardRef_calm _ _ _ _ _ _ _ _ _)).post
      · rename_i he
        rw [he] at hm
        exact ends3_some (andThen_calm' (emitOpcode_calm _ _ _ _) fun hc => emitForwardRef_calm _ _ _ _ _ _ _ ((hc.macros _).trans hm)).post
      · rename_i he
        rw [he] at hm
        exact ends3_some (andThen_calm' (emitOpcode_calm _ _ _ _) fun hc => emitForwardRef_calm _ _ _ _ _ _ _ ((hc.macros _).trans hm)).post

/-- Files with names that can occur are not longer than the bound. -/
def FilesBound (M : Nat) (files : Files) : Prop := ∀ name st, name.length ≤ MAX_LONG_STRING_LEN → files (cstr name) = some st → 2 * st.length + 1 ≤ M

theorem processFile_ends {M : Nat} {files : Files} {rec : Nested} (path : Str) {s : Asm} (hb : Bounded M s) (hrec : Ends M s.depth rec)
    (hf : ∀ st, files (cstr path) = some st → 2 * st.length + 1 ≤ M) :
    ∃ ok s', processFile files rec path s = some (ok, s') ∧ (ok = true → Done M s s') := by
  unfold processFile
  dsimp only
  cases hfs : files (cstr path) with
  | none => exact ⟨_, _, rfl, fun h => by cases h⟩
  | some st =>
    dsimp only
    have hM := hf st hfs
    obtain ⟨ok, s1, h1, h2⟩ := hrec (.file ⟨st, path, ⟨1, 1, 0⟩⟩) { s with log := .fopen (cstr path) :: s.log }
      ⟨by
        have := left_fuel ⟨st, path, ⟨1, 1, 0⟩⟩ { s with log := .fopen (cstr path) :: s.log }
        dsimp only at this
        show left _ _ ≤ M
        omega, (fun m hm => by cases hm), ⟨hb.bodies, hb.deferred, hb.includes, hb.nodup⟩⟩ rfl
    rw [h1]
    refine ⟨ok, _, rfl, fun hok => ?_⟩
    have := h2 hok
    exact ⟨this.wait, this.depth, this.incl, ⟨this.bounded.bodies, this.bounded.deferred, this.bounded.includes, this.bounded.nodup⟩⟩

/-- An include. If the file was not yet included, the list of included files gets longer. -/
theorem processInclude_ends {M : Nat} {files : Files} {rec : Nested} (name : Str) (t : Token) {s : Asm} (hb : Bounded M s) (hrec : Ends M (s.depth + 1) rec)
    (hf : FilesBound M files) (hname : name.length ≤ MAX_LONG_STRING_LEN) :
    ∃ ok s', processInclude files rec name t s = some (ok, s') ∧ (ok = true → Done M s s' ∧ (s' = s ∨ s.includes.length < s'.includes.length)) := by
  unfold processInclude
  split
  · exact ⟨_, _, rfl, fun _ => ⟨⟨Nat.le_refl _, rfl, Nat.le_refl _, hb⟩, .inl rfl⟩⟩
  · rename_i hni
    dsimp only
    have hb1 : Bounded M { s with includes := name :: s.includes, depth := s.depth + 1 } := by
      refine ⟨hb.bodies, hb.deferred, fun n hn => ?_, List.nodup_cons.2 ⟨hni, hb.nodup⟩⟩
      rcases List.mem_cons.1 hn with rfl | hn
      · exact hname
      · exact hb.includes n hn
    obtain ⟨ok, s1, h1, h2⟩ := processFile_ends (files := files) name hb1 hrec (fun st => hf name st hname)
    rw [h1]
    dsimp only
    cases ok with
    | false => exact ⟨_, _, rfl, fun h => by cases h⟩
    | true =>
      refine ⟨_, _, rfl, fun _ => ?_⟩
      have h3 := h2 rfl
      have hi : s.includes.length < s1.includes.length := Nat.lt_of_lt_of_le (Nat.lt_succ_self _) h3.incl
      refine ⟨⟨h3.wait, ?_, Nat.le_of_lt hi, ⟨h3.bounded.bodies, h3.bounded.deferred, h3.bounded.includes, h3.bounded.nodup⟩⟩, .inr hi⟩
      show s1.depth - 1 = s.depth
      rw [h3.depth]; rfl

theorem processTilde_ends {M : Nat} {files : Files} {rec : Nested} (t : Token) {u : Unit} {s : Asm} (hb : Bounded M s) (ht : t.lex.length ≤ MAX_LONG_STRING_LEN)
    (hf : FilesBound M files) (hrec : s.depth < MAX_DEPTH → Ends M (s.depth + 1) rec) :
    Ends3 M u s ((processTilde files rec t s).map fun r => (r.1, u, r.2)) := by
  unfold processTilde
  split
  · exact ends3_some (error_calm _ _ _).post
  · rename_i hd
    have hrec := hrec (by omega)
    dsimp only
    have hlen : (if (popFront t.lex).head? = some (ch '~') then popFront (popFront t.lex) else popFront t.lex).length ≤ MAX_LONG_STRING_LEN := by
      unfold popFront
      split
      · rw [List.length_tail, List.length_tail]; omega
      · rw [List.length_tail]; omega
    simp only [decide_eq_true_eq]
    generalize (if (popFront t.lex).head? = some (ch '~') then popFront (popFront t.lex) else popFront t.lex) = filename at *
    have hc := putSymbol_calm s.writeAddr { type := .include, name := some filename, region := t.region } s
    generalize putSymbol s.writeAddr { type := .include, name := some filename, region := t.region } s = s0 at *
    split
    · refine ends3_after hc.post ?_
      show Ends3 M u s0 (some (true, u, _))
      split
      · exact ends3_some (.refl _ _ _)
      · refine ends3_some ⟨?_, fun _ => Nat.le_refl _, .rfl, id, rfl, Nat.le_refl _, fun _ _ hb => ⟨hb.bodies, fun p hp => ?_, hb.includes, hb.nodup⟩⟩
        · cases u <;> exact Nat.le_refl _
        · rcases List.mem_append.1 hp with hp | hp
          · exact hb.deferred p hp
          · rw [List.mem_singleton.1 hp]; exact hlen
    · obtain ⟨ok, s1, h1, h2⟩ := processInclude_ends (files := files) (rec := rec) filename t (hc.bounded hb) (by rw [hc.depth]; exact hrec) hf hlen
      rw [h1]
      refine ⟨ok, u, s1, rfl, fun hok => ?_⟩
      have h3 := (h2 hok).1
      exact done_post (s := s) h3 hc.waiting (by rw [hc.includes]) rfl (by rw [h3.depth, hc.depth]) rfl id

theorem ite_ends3 {M : Nat} {u : Unit} {s : Asm} {c : Prop} [Decidable c] {a b : Option (Bool × Unit × Asm)} (ha : Ends3 M u s a) (hb : Ends3 M u s b) :
    Ends3 M u s (if c then a else b) := by
  split
  exacts [ha, hb]

theorem processToken_ends {M : Nat} {files : Files} {rec : Nested} (t : Token) {u : Unit} {s : Asm} (hr : Ready M u s) (ht : t.lex.length ≤ MAX_LONG_STRING_LEN)
    (hf : FilesBound M files) (hrec : s.depth < MAX_DEPTH → Ends M (s.depth + 1) rec) : Ends3 M u s (processToken files rec t u s) := by
  unfold processToken
  dsimp only
  have hro : ∀ op kind sz arg, Calm s (andThen (emitOpcode t op true s) fun s => emitLabelRef t kind sz arg true s).2 :=
    fun _ _ _ _ => andThen_calm (emitOpcode_calm _ _ _ _) fun _ => emitLabelRef_calm _ _ _ _ _ _
  exact ite_ends3 (ends3_some (processComment_post M t u s).1) <|
    ite_ends3 (ends3_calm (error_calm _ _ _)) <|
    ite_ends3 (ends3_calm (processMark_calm _ _)) <|
    ite_ends3 (ends3_calm (ite_calm1 (error_calm _ _ _) (processMark_calm _ _))) <|
    ite_ends3 (processTilde_ends t hr.bounded ht hf hrec) <|
    ite_ends3 (ends3_some (processMacro_post M t u s hr.size hr.short)) <|
    ite_ends3 (ends3_calm (processGlobalLabel_calm _ _)) <|
    ite_ends3 (ends3_calm (processLocalLabel_calm _ _)) <|
    ite_ends3 (ends3_calm (hro _ _ _ _)) <|
    ite_ends3 (ends3_calm (hro _ _ _ _)) <|
    ite_ends3 (ends3_calm (ite_calm1 (error_calm _ _ _) (processLambdaClose_calm _ _))) <|
    ite_ends3 (ends3_calm (ite_calm1 (error_calm _ _ _) (emitJsi_calm _ _))) <|
    ite_ends3 (ends3_calm (emitJsi_calm _ _)) <|
    ite_ends3 (ends3_calm (processAbsPadding_calm _ _)) <|
    ite_ends3 (ends3_calm (processRelPadding_calm _ _)) <|
    ite_ends3 (ends3_calm (processLitNumber_calm _ _)) <|
    ite_ends3 (ends3_calm (hro _ _ _ _)) <|
    ite_ends3 (ends3_calm (emitLabelRef_calm _ _ _ _ _ _)) <|
    ite_ends3 (ends3_calm (hro _ _ _ _)) <|
    ite_ends3 (ends3_calm (emitLabelRef_calm _ _ _ _ _ _)) <|
    ite_ends3 (ends3_calm (hro _ _ _ _)) <|
    ite_ends3 (ends3_calm (emitLabelRef_calm _ _ _ _ _ _)) <|
    ite_ends3 (ends3_calm (processText_calm _ _)) <|
    ite_ends3 (ends3_calm (processRawNumber_calm _ _)) <|
    processWord_ends t hr hrec

theorem unitLoop_ends {M : Nat} {files : Files} {rec : Nested} (fuel : Nat) {u : Unit} {s : Asm} (hr : Ready M u s) (hfuel : size u s < fuel)
    (hf : FilesBound M files) (hrec : s.depth < MAX_DEPTH → Ends M (s.depth + 1) rec) :
    ∃ ok s', unitLoop files rec fuel u s = some (ok, s') ∧ (ok = true → (IsMacro u → waiting s' ≤ waiting s) ∧ (¬ IsMacro u → waiting s' = 0) ∧
      s'.depth = s.depth ∧ s.includes.length ≤ s'.includes.length ∧ Bounded M s') := by
  induction fuel generalizing u s with
  | zero => exact absurd hfuel (Nat.not_lt_zero _)
  | succ n ih =>
    unfold unitLoop
    have ht := nextToken_took M u s
    generalize nextToken u s = r at ht
    obtain ⟨t | t, u1, s1⟩ := r
    · obtain ⟨hp, -, -, hstop, -⟩ := ht
      dsimp only at hp hstop ⊢
      refine ⟨_, _, rfl, fun hok => ⟨hp.wait, fun hk => ?_, hp.depth, hp.incl, (hp.ready hr).bounded⟩⟩
      rcases hstop rfl hk with h | h
      · exact h
      · rw [h] at hok; cases hok
    · obtain ⟨hp, hlt, hlen, -, -⟩ := ht
      dsimp only at hp hlt hlen ⊢
      have hlt := hlt (by simp)
      obtain ⟨ok, u2, s2, h1, h2⟩ := processToken_ends (files := files) (rec := rec) t (hp.ready hr) (hlen hr.short t rfl) hf (by rw [hp.depth]; exact hrec)
      rw [h1]
      cases ok with
      | false => exact ⟨_, _, rfl, fun h => by cases h⟩
      | true =>
        dsimp only
        have h3 := hp.trans (h2 rfl)
        obtain ⟨ok, s3, h4, h5⟩ := ih (h3.ready hr) (by have := (h2 rfl).size; omega) (by rw [h3.depth]; exact hrec)
        refine ⟨ok, s3, h4, fun hok => ?_⟩
        obtain ⟨k1, k2, k3, k4, k5⟩ := h5 hok
        exact ⟨fun hk => (k1 (h3.kind.1 hk)).trans (h3.wait hk), fun hk => k2 (fun h => hk (h3.kind.2 h)), k3.trans h3.depth, h3.incl.trans k4, k5⟩

theorem unitLoop_ends' {M : Nat} {files : Files} (hf : FilesBound M files) {fuel : Nat} (hfuel : M < fuel) {depth : Nat} {rec : Nested}
    (hrec : depth < MAX_DEPTH → Ends M (depth + 1) rec) : Ends M depth (fun u s => unitLoop files rec fuel u s) := by
  intro u s hr hs
  obtain ⟨ok, s', h1, h2⟩ := unitLoop_ends fuel hr (Nat.lt_of_le_of_lt hr.size hfuel) hf (by rw [hs]; exact hrec)
  refine ⟨ok, s', h1, fun hok => ?_⟩
  obtain ⟨k1, k2, k3, k4, k5⟩ := h2 hok
  refine ⟨?_, k3, k4, k5⟩
  by_cases hk : IsMacro u
  · exact k1 hk
  · rw [k2 hk]; exact Nat.zero_le _

/-- With enough fuel and levels, units end. -/
theorem processUnit_ends {M : Nat} {files : Files} (hf : FilesBound M files) {fuel : Nat} (hfuel : M < fuel) (levels depth : Nat) (hd : MAX_DEPTH ≤ depth + levels) :
    Ends M depth (processUnit files fuel levels) := by
  induction levels generalizing depth with
  | zero => exact unitLoop_ends' hf hfuel fun h => by omega
  | succ n ih => exact unitLoop_ends' hf hfuel fun h => ih (depth + 1) (by omega)

/-! ## Finitely many names -/

instance : Finite Byte := Finite.of_injective (fun b : Byte => b.toFin) fun a b h => by
  cases a; cases b; exact congrArg _ h

theorem names_finite : {n : Str | n.length ≤ MAX_LONG_STRING_LEN}.Finite := List.finite_length_le Byte MAX_LONG_STRING_LEN

/-- Whatever the files are, those with names that can occur have bounded sizes. -/
theorem files_bounded (files : Files) (filename : Str) :
    ∃ M, FilesBound M files ∧ ∀ st, files (cstr filename) = some st → 2 * st.length + 1 ≤ M := by
  have h : ((fun n : Str => 2 * ((files (cstr n)).getD []).length + 1) '' ({n : Str | n.length ≤ MAX_LONG_STRING_LEN} ∪ {filename})).Finite :=
    (names_finite.union (Set.finite_singleton _)).image _
  obtain ⟨M, hM⟩ := h.bddAbove
  refine ⟨M, fun name st hn hs => ?_, fun st hs => ?_⟩
  · have := hM ⟨name, .inl hn, rfl⟩
    dsimp only at this
    rwa [hs] at this
  · have := hM ⟨filename, .inr rfl, rfl⟩
    dsimp only at this
    rwa [hs] at this

/-- The number of names. -/
theorem includes_bounded : ∃ N, ∀ l : List Str, l.Nodup → (∀ n ∈ l, n.length ≤ MAX_LONG_STRING_LEN) → l.length ≤ N := by
  refine ⟨names_finite.toFinset.card, fun l hl hn => ?_⟩
  classical
  rw [← List.toFinset_card_of_nodup hl]
  exact Finset.card_le_card fun x hx => names_finite.mem_toFinset.2 (hn x (List.mem_toFinset.1 hx))

/-! ## Deferred includes -/

theorem deferredLoop_ends {M N : Nat} {files : Files} {rec : Nested} (hf : FilesBound M files) (hrec : Ends M 1 rec)
    (hN : ∀ l : List Str, l.Nodup → (∀ n ∈ l, n.length ≤ MAX_LONG_STRING_LEN) → l.length ≤ N) (a b : Nat) (i : Nat) (s : Asm)
    (hb : Bounded M s) (hd : s.depth = 0) (ha : N ≤ s.includes.length + a) (hi : s.deferred.length ≤ i + b) :
    ∃ fuel r, deferredLoop files rec fuel i s = some r := by
  induction a using Nat.strong_induction_on generalizing b i s with
  | _ a iha =>
    induction b generalizing i with
    | zero =>
      refine ⟨1, (true, s), ?_⟩
      unfold deferredLoop
      rw [List.getElem?_eq_none (by omega)]
    | succ b ihb =>
      cases hp : s.deferred[i]? with
      | none =>
        refine ⟨1, (true, s), ?_⟩
        unfold deferredLoop
        rw [hp]
      | some p =>
        obtain ⟨name, t⟩ := p
        have hname := hb.deferred _ (List.mem_of_getElem? hp)
        obtain ⟨ok, s1, h1, h2⟩ := processInclude_ends (files := files) (rec := rec) name t hb (by rw [hd]; exact hrec) hf hname
        have hstep : ∀ fuel, deferredLoop files rec (fuel + 1) i s = if ok = true then deferredLoop files rec fuel (i + 1) s1 else some (false, s1) := by
          intro fuel
          rw [deferredLoop.eq_def]
          dsimp only
          rw [hp]
          dsimp only
          rw [h1]
          cases ok <;> rfl
        cases ok with
        | false => exact ⟨1, _, hstep 0⟩
        | true =>
          obtain ⟨h3, h4⟩ := h2 rfl
          suffices h : ∃ fuel r, deferredLoop files rec fuel (i + 1) s1 = some r by
            obtain ⟨fuel, r, h⟩ := h
            exact ⟨fuel + 1, r, by rw [hstep, if_pos rfl, h]⟩
          rcases h4 with rfl | h4
          · exact ihb (i + 1) (by omega)
          · have hlen := hN s1.includes h3.bounded.nodup h3.bounded.includes
            exact iha (N - s1.includes.length) (by omega) s1.deferred.length (i + 1) s1 h3.bounded (by rw [h3.depth, hd]) (by omega) (by omega)

/-! ## More fuel does not change a result -/

/-- `b` knows every result that `a` knows. -/
def Extends {α : Type} (a b : Option α) : Prop := ∀ r, a = some r → b = some r

def ExtendsN (a b : Nested) : Prop := ∀ u s, Extends (a u s) (b u s)

theorem Extends.refl {α : Type} (a : Option α) : Extends a a := fun _ h => h

section More
variable {files : Files} {rec rec' : Nested} (hx : ExtendsN rec rec')
include hx

theorem runMacro_more (t : Token) (name : Str) (n : Node) (body : List Token) (id : Short) (arg : Str) (u : Unit) (s : Asm) :
    Extends (runMacro rec t name n body id arg u s) (runMacro rec' t name n body id arg u s) := by
  unfold runMacro
  dsimp only
  intro r hr
  split at hr
  · cases hr
  · rename_i ok s1 h
    rw [hx _ _ _ h]
    exact hr

theorem expandMacro_more (t : Token) (name : Str) (n : Node) (body : List Token) (id : Short) (x : Bool) (u : Unit) (s : Asm) :
    Extends (expandMacro rec t name n body id x u s) (expandMacro rec' t name n body id x u s) := by
  unfold expandMacro
  split
  · exact .refl _
  · split
    · exact .refl _
    · dsimp only
      split
      · split
        · exact .refl _
        · exact runMacro_more hx _ _ _ _ _ _ _ _
      · exact runMacro_more hx _ _ _ _ _ _ _ _

theorem processWord_more (t : Token) (u : Unit) (s : Asm) : Extends (processWord rec t u s) (processWord rec' t u s) := by
  unfold processWord
  split
  · exact .refl _
  · split
    · exact .refl _
    · split
      · exact expandMacro_more hx _ _ _ _ _ _ _ _
      · exact .refl _
      · exact .refl _
      · exact .refl _

theorem processFile_more (path : Str) (s : Asm) : Extends (processFile files rec path s) (processFile files rec' path s) := by
  unfold processFile
  dsimp only
  split
  · exact .refl _
  · intro r hr
    split at hr
    · cases hr
    · rename_i ok s1 h
      rw [hx _ _ _ h]
      exact hr

theorem processInclude_more (name : Str) (t : Token) (s : Asm) : Extends (processInclude files rec name t s) (processInclude files rec' name t s) := by
  unfold processInclude
  split
  · exact .refl _
  · dsimp only
    intro r hr
    split at hr
    · cases hr
    · rename_i ok s1 h
      rw [processFile_more hx _ _ _ h]
      exact hr

theorem processTilde_more (t : Token) (s : Asm) : Extends (processTilde files rec t s) (processTilde files rec' t s) := by
  unfold processTilde
  dsimp only
  split
  · exact .refl _
  · split
    · exact .refl _
    · exact processInclude_more hx _ _ _

omit hx in
theorem ite_extends {α : Type} {c : Prop} [Decidable c] {a b a' b' : Option α} (ha : Extends a a') (hb : Extends b b') : Extends (if c then a else b) (if c then a' else b') := by
  split
  exacts [ha, hb]

theorem processToken_more (t : Token) (u : Unit) (s : Asm) : Extends (processToken files rec t u s) (processToken files rec' t u s) := by
  unfold processToken
  dsimp only
  refine ite_extends (.refl _) <| ite_extends (.refl _) <| ite_extends (.refl _) <| ite_extends (.refl _) <| ite_extends ?_ <|
    ite_extends (.refl _) <| ite_extends (.refl _) <| ite_extends (.refl _) <| ite_extends (.refl _) <| ite_extends (.refl _) <| ite_extends (.refl _) <|
    ite_extends (.refl _) <| ite_extends (.refl _) <| ite_extends (.refl _) <| ite_extends (.refl _) <| ite_extends (.refl _) <| ite_extends (.refl _) <|
    ite_extends (.refl _) <| ite_extends (.refl _) <| ite_extends (.refl _) <| ite_extends (.refl _) <| ite_extends (.refl _) <| ite_extends (.refl _) <|
    ite_extends (.refl _) <| processWord_more hx _ _ _
  intro r hr
  cases h : processTilde files rec t s with
  | none => rw [h] at hr; cases hr
  | some q =>
    rw [h] at hr
    rw [processTilde_more hx t s q h]
    exact hr

theorem unitLoop_more {n m : Nat} (hnm : n ≤ m) (u : Unit) (s : Asm) : Extends (unitLoop files rec n u s) (unitLoop files rec' m u s) := by
  induction n generalizing m u s with
  | zero => intro r hr; cases hr
  | succ n ih =>
    obtain _ | m := m
    · omega
    intro r hr
    unfold unitLoop at hr ⊢
    generalize nextToken u s = p at *
    obtain ⟨_ | t, u1, s1⟩ := p
    · exact hr
    · dsimp only at hr ⊢
      cases h : processToken files rec t u1 s1 with
      | none => rw [h] at hr; cases hr
      | some q =>
        rw [h] at hr
        rw [processToken_more hx t u1 s1 q h]
        obtain ⟨_ | _, u2, s2⟩ := q
        · exact hr
        · exact ih (by omega) u2 s2 r hr

theorem deferredLoop_more {n m : Nat} (hnm : n ≤ m) (i : Nat) (s : Asm) : Extends (deferredLoop files rec n i s) (deferredLoop files rec' m i s) := by
  induction n generalizing m i s with
  | zero => intro r hr; cases hr
  | succ n ih =>
    obtain _ | m := m
    · omega
    intro r hr
    rw [deferredLoop.eq_def] at hr ⊢
    dsimp only at hr ⊢
    cases hp : s.deferred[i]? with
    | none => rw [hp] at hr; exact hr
    | some p =>
      rw [hp] at hr
      dsimp only at hr ⊢
      cases h : processInclude files rec p.1 p.2 s with
      | none => rw [h] at hr; cases hr
      | some q =>
        rw [h] at hr
        rw [processInclude_more hx p.1 p.2 s q h]
        obtain ⟨_ | _, s2⟩ := q
        · exact hr
        · exact ih (by omega) (i + 1) s2 r hr

theorem resolve_more {n m : Nat} (hnm : n ≤ m) (s : Asm) : Extends (resolve files rec n s) (resolve files rec' m s) := by
  unfold resolve
  intro r hr
  cases h : deferredLoop files rec n 0 s with
  | none => rw [h] at hr; cases hr
  | some q =>
    rw [h] at hr
    rw [deferredLoop_more hx hnm 0 s q h]
    exact hr

end More

theorem processUnit_more {files : Files} {n m : Nat} (hnm : n ≤ m) (levels : Nat) : ExtendsN (processUnit files n levels) (processUnit files m levels) := by
  induction levels with
  | zero => exact fun u s => unitLoop_more (fun _ _ => .refl _) hnm u s
  | succ l ih => exact fun u s => unitLoop_more ih hnm u s

/-- Once there is enough fuel for an answer, more fuel gives the same answer. -/
theorem assemble_more {files : Files} {n m : Nat} (hnm : n ≤ m) (filename : Str) : Extends (assemble files n filename) (assemble files m filename) := by
  unfold assemble
  dsimp only
  intro r hr
  have hx := processUnit_more (files := files) hnm MAX_DEPTH
  cases h : processFile files (processUnit files n MAX_DEPTH) filename initial with
  | none => rw [h] at hr; cases hr
  | some q =>
    rw [h] at hr
    rw [processFile_more hx _ _ q h]
    obtain ⟨_ | _, s1⟩ := q
    · exact hr
    · dsimp only at hr ⊢
      cases h2 : resolve files (processUnit files n MAX_DEPTH) n s1 with
      | none => rw [h2] at hr; cases hr
      | some q2 =>
        rw [h2] at hr
        rw [resolve_more hx hnm _ q2 h2]
        exact hr

theorem initial_bounded (M : Nat) : Bounded M initial := by
  refine ⟨fun name b i e h => ?_, fun p h => ?_, fun n h => ?_, List.nodup_nil⟩
  · cases h
  · cases h
  · cases h

/-- **C39**: whatever files there are - files that include each other or themselves, macros that use each other or themselves,
files that end with I/O errors - the assembler ends: from some number of steps on, the result of `assemble` is the same. -/
theorem C39_terminates (files : Files) (filename : Str) : ∃ fuel r, ∀ fuel', fuel ≤ fuel' → assemble files fuel' filename = some r := by
  suffices h : ∃ fuel r, assemble files fuel filename = some r by
    obtain ⟨fuel, r, h⟩ := h
    exact ⟨fuel, r, fun fuel' hle => assemble_more hle filename r h⟩
  obtain ⟨M, hM, hM'⟩ := files_bounded files filename
  obtain ⟨N, hN⟩ := includes_bounded
  have h0 : Ends M 0 (processUnit files (M + 1) MAX_DEPTH) := processUnit_ends hM (Nat.lt_succ_self M) _ _ (by omega)
  have h1 : Ends M 1 (processUnit files (M + 1) MAX_DEPTH) := processUnit_ends hM (Nat.lt_succ_self M) _ _ (by omega)
  obtain ⟨ok, s1, h2, h3⟩ := processFile_ends (files := files) filename (initial_bounded M) h0 hM'
  cases ok with
  | false =>
    refine ⟨M + 1, (s1.success, s1), ?_⟩
    unfold assemble
    dsimp only
    rw [h2]
  | true =>
    have h4 := h3 rfl
    obtain ⟨fuel, r, h5⟩ := deferredLoop_ends hM h1 hN N s1.deferred.length 0 s1 h4.bounded h4.depth (by omega) (by omega)
    have hle1 : M + 1 ≤ M + 1 + fuel := by omega
    have hle2 : fuel ≤ M + 1 + fuel := by omega
    have hx := processUnit_more (files := files) hle1 MAX_DEPTH
    have h6 := deferredLoop_more (files := files) hx hle2 0 s1 r h5
    have h7 := processFile_more (files := files) hx filename initial _ h2
    unfold assemble
    refine ⟨M + 1 + fuel, ?_⟩
    dsimp only
    rw [h7]
    dsimp only
    unfold resolve
    rw [h6]
    obtain ⟨_ | _, s2⟩ := r
    · exact ⟨_, rfl⟩
    · exact ⟨_, rfl⟩

end Buxn.Asm
