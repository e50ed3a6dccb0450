import Verif.Asm.MeaningWord
import Verif.Asm.Depth
/-!
# C78: macros, includes and units
-/

namespace Buxn.Asm.Meaning
open Buxn.VM Buxn.Asm Buxn.Asm.Spec

/-! ## Macros stay -/

theorem put_macros (bs : List Byte) (S : State) : (S.put bs).macros = S.macros := by rw [put_eq]

theorem refers_macros {ref : Str} {k : RefKind} {z : RefSize} {S S' : State} (h : Refers ref k z S S') : S'.macros = S.macros := by
  obtain ⟨t, s1, h, rfl⟩ := h
  show s1.macros = _
  unfold State.target at h
  split at h
  · cases h; rfl
  · split at h
    · split at h
      · cases h
      · cases h; rfl
    · rw [Option.map_eq_some_iff] at h
      obtain ⟨n, -, h⟩ := h
      cases h; rfl

theorem pads_macros {p : Str} {S S' : State} {a : Short} (h : Pads p S a S') : S'.macros = S.macros := by
  cases h <;> rfl

theorem defines_macros {n : Str} {S S' : State} (h : Defines n S S') : S'.macros = S.macros := by rw [h.2]

theorem bare_macros {w : Str} {S S' : State} (h : Bare w S S') : S'.macros = S.macros := by
  rcases h with ⟨v, k, -, rfl⟩ | ⟨-, i, op, -, -, rfl⟩ | ⟨-, h⟩
  · exact put_macros _ _
  · exact put_macros _ _
  · exact (refers_macros h).trans (put_macros _ _)

theorem word_macros {w : Str} {S S' : State} (h : Word w S S') : S'.macros = S.macros := by
  cases w with
  | nil => exact h.elim
  | cons rune rest =>
    unfold Word at h
    dsimp only at h
    split at h
    · exact (refers_macros h).trans (put_macros _ _)
    · split at h
      · obtain ⟨v, k, -, rfl⟩ := h; exact put_macros _ _
      · split at h
        · rw [h.2]; exact put_macros _ _
        · split at h
          · obtain ⟨a, s1, h, rfl⟩ := h; show s1.macros = S.macros; exact pads_macros h
          · split at h
            · obtain ⟨a, s1, h, rfl⟩ := h; show s1.macros = S.macros; exact pads_macros h
            · split at h
              · rw [h]
              · split at h
                · obtain ⟨s1, h, rfl⟩ := h; show s1.macros = S.macros; exact defines_macros h
                · split at h
                  · exact defines_macros h
                  · split at h
                    · obtain ⟨k, ks, -, rfl⟩ := h; rfl
                    · split at h
                      · exact (refers_macros h).trans (put_macros _ _)
                      · exact bare_macros h

/-- Macros are never changed. -/
theorem reads_macros {files : Files} {ws : List Str} {S S' : State} (h : Reads files ws S S') (name : Str) (b : List Str) (hb : S.macros.lookup name = some b) : S'.macros.lookup name = some b := by
  induction h with
  | done => exact hb
  | comment _ _ _ ih => exact ih hb
  | mark _ _ ih => exact ih hb
  | define _ _ hn _ _ _ ih =>
    refine ih ?_
    rw [lookup_cons, if_neg]
    · exact hb
    · rintro rfl; rw [hn] at hb; cases hb
  | expand _ _ _ _ _ ih1 ih2 => exact ih2 (ih1 hb)
  | apply _ _ _ _ _ ih1 ih2 => exact ih2 (ih1 hb)
  | «include» _ _ _ _ _ _ ih1 ih2 => exact ih2 (ih1 hb)
  | again _ _ _ _ ih => exact ih hb
  | defer _ _ ih => refine ih ?_; split <;> exact hb
  | word _ hw _ ih => refine ih ?_; rw [word_macros hw]; exact hb

/-! ## Definitions of macros -/

theorem Sim.depth {i : Nat} {s : Asm} {S : State} (h : Sim i s S) (d : Nat) : Sim i { s with depth := d } S :=
  ⟨h.readBuf, h.addr, h.scope, h.anonymous, h.included, h.deferred, h.index, h.tables, h.lams, h.memory, h.history⟩

/-- The entry of a symbol that is new becomes a macro. -/
theorem Sim.define {i : Nat} {s s' : Asm} {S : State} (h : Sim i s S) (name : Str) (n n' : Node) (hn : s.symtab name = some n) (hu : n.entry = .unknown) (ts : List Token) (id : Short) (x : Bool)
    (he : n'.entry = .macro ts id x) (hrf : n'.referenced = n.referenced) (hne : ∀ t ∈ ts, t.lex ≠ []) (e : s' = setNode name n' s) : Sim i s' { S with macros := (name, ts.map (·.lex)) :: S.macros } := by
  subst e
  have hl : S.labels.lookup name = none := by rw [h.tables.labels, hn, Option.bind_some, hu]; rfl
  refine ⟨h.readBuf, h.addr, h.scope, h.anonymous, h.included, h.deferred, h.index, ?_, h.lams, h.memory,
    h.history.set name n' (by simp [setNode]) (fun k hk => by simp [setNode, hk]) (fun _ _ h => by rw [he] at h; cases h)⟩
  refine h.tables.set name n' (fun e => by rw [e, h.tables.brace] at hn; cases hn) (by simp [setNode]) (fun k hk => by simp [setNode, hk]) (h.tables.names _ _ hn) (fun _ h => h)
    (by rw [he]; exact hl) (fun _ _ => rfl) ?_ ?_ ?_ (fun _ h => h) (fun _ _ h => by rw [he] at h; cases h) ?_ (fun r hr _ _ _ => .inl hr)
    ?_ (fun _ _ => Iff.rfl) ⟨(fun _ _ h => by rw [he] at h; cases h), (fun h => by rw [he] at h; cases h)⟩
  · rw [he, lookup_cons, if_pos rfl]; rfl
  · intro k hk; rw [lookup_cons, if_neg hk]
  · intro ts' id' x' h'
    rw [he] at h'; cases h'; exact hne
  · intro r hr ht _
    obtain ⟨m, id, fs, a1, a2, -⟩ := h.tables.wait r hr name ht hl
    rw [hn] at a1; cases a1; rw [hu] at a2; cases a2
  · have hfr := (h.tables.marked name n hn).2 hu
    rw [h.tables.used name]
    constructor
    · rintro ⟨m, h1, h2⟩
      rw [hn] at h1; cases h1
      rcases h2 with h2 | ⟨_, _, h2⟩
      · rw [hfr] at h2; cases h2
      · rw [hu] at h2; cases h2
    · rintro (h2 | ⟨_, _, h2⟩)
      · rw [hrf, hfr] at h2; cases h2
      · rw [he] at h2; cases h2

/-- The entry of a macro becomes another one with the same words. -/
theorem Sim.redefine {i : Nat} {s s' : Asm} {S : State} (h : Sim i s S) (name : Str) (n n' : Node) (hn : s.symtab name = some n) (ts : List Token) (id : Short) (x : Bool)
    (hb : S.macros.lookup name = some (ts.map (·.lex))) (he : n'.entry = .macro ts id x) (hrf : n'.referenced = n.referenced) (hne : ∀ t ∈ ts, t.lex ≠ []) (e : s' = setNode name n' s) : Sim i s' S := by
  subst e
  have hbody : bodyOf n.entry = some (ts.map (·.lex)) := by rw [← hb, h.tables.macros, hn]; rfl
  obtain ⟨ts', id', x', hm⟩ : ∃ ts' id' x', n.entry = .macro ts' id' x' := by
    cases hen : n.entry with
    | «macro» a b c => exact ⟨a, b, c, rfl⟩
    | unknown => rw [hen] at hbody; cases hbody
    | label _ _ => rw [hen] at hbody; cases hbody
    | forward _ _ => rw [hen] at hbody; cases hbody
  have hl : S.labels.lookup name = none := by rw [h.tables.labels, hn, Option.bind_some, hm]; rfl
  refine ⟨h.readBuf, h.addr, h.scope, h.anonymous, h.included, h.deferred, h.index, ?_, h.lams, h.memory,
    h.history.set name n' (by simp [setNode]) (fun k hk => by simp [setNode, hk]) (fun _ _ h => by rw [he] at h; cases h)⟩
  refine h.tables.set name n' (fun e => by rw [e, h.tables.brace] at hn; cases hn) (by simp [setNode]) (fun k hk => by simp [setNode, hk]) (h.tables.names _ _ hn) (fun _ h => h)
    (by rw [he]; exact hl) (fun _ _ => rfl) (by rw [he]; exact hb) (fun _ _ => rfl) ?_ (fun _ h => h) (fun _ _ h => by rw [he] at h; cases h) ?_ (fun r hr _ _ _ => .inl hr)
    ?_ (fun _ _ => Iff.rfl) ⟨(fun _ _ h => by rw [he] at h; cases h), (fun h => by rw [he] at h; cases h)⟩
  · intro ts' id' x' h'
    rw [he] at h'; cases h'; exact hne
  · intro r hr ht _
    obtain ⟨m, id, fs, a1, a2, -⟩ := h.tables.wait r hr name ht hl
    rw [hn] at a1; cases a1; rw [hm] at a2; cases a2
  · rw [h.tables.used name]
    constructor
    · rintro ⟨m, h1, h2⟩
      rw [hn] at h1; cases h1
      rcases h2 with h2 | ⟨_, _, h2⟩
      · exact .inl (hrf.trans h2)
      · rw [hm] at h2; cases h2
    · rintro (h2 | ⟨_, _, h2⟩)
      · exact ⟨n, hn, .inl (hrf.symm.trans h2)⟩
      · rw [he] at h2; cases h2

theorem setNode_twice (name : Str) (a b : Node) (s : Asm) : setNode name b (setNode name a s) = setNode name b s := by
  unfold setNode
  congr 1
  funext k
  by_cases hk : k = name <;> simp [hk]

theorem processMacro_sim {i : Nat} {s s' : Asm} {S : State} {u u' : Unit} {ws : List Str} {ok : Bool} (t : Token) (h : Sim i s S) (hsrc : Src u ws ok)
    (he : processMacro t u s = (true, u', s')) :
    ∃ (ws1 b rest : List Str), IsName (popFront t.lex) ∧ S.macros.lookup (popFront t.lex) = none ∧ Opens ws ws1 ∧ body 1 ws1 = some (b, rest) ∧ Src u' rest ok ∧
      Sim i s' { S with macros := (popFront t.lex, b) :: S.macros } := by
  unfold processMacro at he
  generalize popFront t.lex = name at *
  generalize hfc : findOrCreate t name s = fc at he
  obtain ⟨o, s1⟩ := fc
  cases o with
  | none => cases he
  | some n =>
    obtain ⟨h1, hsym, -, hr, hp, hn, hne⟩ := findOrCreate_sim h hfc
    dsimp only at he
    cases hen : n.entry with
    | unknown =>
      rw [hen] at he
      dsimp only at he
      unfold createMacro at he
      dsimp only at he
      generalize hid : s1.numMacros + 1 = id at he
      have e1 : Emits s1 (putSymbol 0 { type := .macro, name := some name, region := t.region, id := id } { s1 with numMacros := id }) [] [] s1.writeAddr :=
        ⟨⟨rfl, rfl, rfl, rfl, rfl, rfl, rfl, rfl⟩, rfl, rfl, rfl⟩
      generalize putSymbol 0 { type := .macro, name := some name, region := t.region, id := id } { s1 with numMacros := id } = s2 at he e1
      have hr2 : s2.readBuf = none := e1.same.readBuf.trans h1.readBuf
      generalize hh : macroHead t (unitFuel u) u s2 = mh at he
      obtain ⟨b1, u3, s3⟩ := mh
      cases b1 with
      | false => cases he
      | true =>
        obtain ⟨ws1, ho, hs3, e3⟩ := macroHead_src t _ hsrc hr2 hh
        dsimp only at he
        have h3 := (h1.same e1).same e3
        generalize hb : macroBody t (unitFuel u3) 1 [] u3 (setNode name { n with entry := .macro [] 0 false } s3) = mb at he
        obtain ⟨o, u4, s4⟩ := mb
        cases o with
        | none => cases he
        | some acc =>
          have hr4 : (setNode name { n with entry := .macro [] 0 false } s3).readBuf = none := h3.readBuf
          obtain ⟨b, rest, hbody, hacc, hbne, hs4, rfl⟩ := macroBody_src t _ 1 (by omega) [] acc hs3 hr4 hb
          dsimp only at he
          simp only [Prod.mk.injEq, true_and] at he
          obtain ⟨rfl, rfl⟩ := he
          refine ⟨ws1, b.map (·.lex), rest, isName_of hr hp hn, ?_, ho, hbody, hs4, ?_⟩
          · rw [h1.tables.macros, hsym, Option.bind_some, hen]; rfl
          · rw [hacc, List.append_nil, List.reverse_reverse, setNode_twice]
            refine h3.define name n { n with entry := .macro b id false } ?_ hen b id false rfl rfl hbne rfl
            rw [e3.same.symtab, e1.same.symtab]; exact hsym
    | label _ _ => rw [hen] at he; cases he
    | forward _ _ => rw [hen] at he; cases he
    | «macro» _ _ _ => rw [hen] at he; cases he

/-! ## Nested units -/

/-- Units within units agree with the specification. -/
def RecSim (files : Files) (rec : Nested) : Prop :=
  ∀ i u ws ok s S b s', Src u ws ok → Sim i s S → rec u s = some (b, s') → s'.success = true → ok = true ∧ ∃ S', (∀ active, (∀ n ∈ active, Busy s n) → Within files s.depth active ws S S') ∧ Sim i s' S'

theorem runMacro_sim {files : Files} {rec : Nested} (hrec : RecSim files rec) {i : Nat} {s s' : Asm} {S : State} (t : Token) (name : Str) (n : Node) (ts : List Token) (id : Short) (arg : Str)
    (u u' : Unit) (h : Sim i s S) (hn : s.symtab name = some n) (hb : S.macros.lookup name = some (ts.map (·.lex))) (hne : ∀ t ∈ ts, t.lex ≠ [])
    (he : runMacro rec t name n ts id arg u s = some (true, u', s')) (hs : s'.success = true) :
    u' = u ∧ (arg ≠ [] → ∀ t ∈ ts, Short? (replace arg t.lex)) ∧
      ∃ S', (∀ active, (∀ n ∈ active, Busy s n) → Within files (s.depth + 1) (name :: active) (ts.map fun t => if arg = [] then t.lex else replace arg t.lex) S S') ∧ Sim i s' S' := by
  unfold runMacro at he
  dsimp only at he
  have h1 : Sim i { setNode name { n with entry := .macro ts id true } s with depth := (setNode name { n with entry := .macro ts id true } s).depth + 1 } S :=
    (h.redefine name n { n with entry := .macro ts id true } hn ts id true hb rfl rfl hne rfl).depth _
  have h0 : ({ setNode name { n with entry := .macro ts id true } s with depth := (setNode name { n with entry := .macro ts id true } s).depth + 1 } : Asm).depth = s.depth + 1 := rfl
  have hbusy : ∀ active : List Str, (∀ k ∈ active, Busy s k) → ∀ k ∈ name :: active,
      Busy { setNode name { n with entry := .macro ts id true } s with depth := (setNode name { n with entry := .macro ts id true } s).depth + 1 } k := by
    intro active ha k hk
    by_cases e : k = name
    · subst e
      exact ⟨ts, id, (macroOf_set k _ s k).trans (if_pos rfl)⟩
    · obtain ⟨b, i, hb⟩ := ha k ((List.mem_cons.1 hk).resolve_left e)
      exact ⟨b, i, ((macroOf_set name _ s k).trans (if_neg e)).trans hb⟩
  generalize ({ setNode name { n with entry := .macro ts id true } s with depth := (setNode name { n with entry := .macro ts id true } s).depth + 1 } : Asm) = s1 at he h1 h0 hbusy
  cases hr : rec (.macro ⟨ts, arg⟩) s1 with
  | none => rw [hr] at he; cases he
  | some r =>
    obtain ⟨b, s2⟩ := r
    rw [hr] at he
    dsimp only at he
    simp only [Option.some.injEq, Prod.mk.injEq] at he
    obtain ⟨rfl, rfl, he⟩ := he
    rw [if_pos rfl] at he
    have hs2 : s2.success = true := by
      subst he
      cases hx : s2.symtab name with
      | none => rw [hx] at hs; exact hs
      | some m => rw [hx] at hs; exact hs
    obtain ⟨ok, hok⟩ : ∃ ok : Bool, ok = true ↔ (arg ≠ [] → ∀ t ∈ ts, Short? (replace arg t.lex)) := by
      classical
      exact ⟨decide (arg ≠ [] → ∀ t ∈ ts, Short? (replace arg t.lex)), decide_eq_true_iff⟩
    obtain ⟨h5, S', hreads, h2⟩ := hrec i _ _ _ s1 S _ s2 (.body (arg := arg) hne hok) h1 hr hs2
    refine ⟨rfl, hok.1 h5, S', fun active ha => ?_, ?_⟩
    · rw [← h0]; exact hreads _ (hbusy active ha)
    have hb' := reads_macros (hreads [] (fun _ h => by cases h)).reads name _ hb
    have h3 := h2.depth (s2.depth - 1)
    have hsome : ∃ m, s2.symtab name = some m := by
      rw [h2.tables.macros] at hb'
      cases hx : s2.symtab name with
      | none => rw [hx] at hb'; cases hb'
      | some m => exact ⟨m, rfl⟩
    obtain ⟨m, hm⟩ := hsome
    subst he
    rw [hm]
    exact h3.redefine name m { m with entry := .macro ts id false } hm ts id false hb' rfl rfl hne rfl

/-- The files are texts. -/
def Texts (files : Files) : Prop := ∀ name st, files name = some st → ∃ raw, st = raw.map some ∧ ProperLines raw

theorem tokens_ne {pre text : Str} {ls : List Lexeme} {ok : Bool} (h : Tokens pre text ls ok) : ∀ l ∈ ls, l.text ≠ [] := by
  induction h with
  | nothing => intro l hl; cases hl
  | word _ hw _ _ _ _ _ ih =>
    intro l hl
    rcases List.mem_cons.1 hl with rfl | hl
    exacts [hw, ih l hl]
  | longWord => intro l hl; cases hl
  | text _ _ _ _ ih =>
    intro l hl
    rcases List.mem_cons.1 hl with rfl | hl
    exacts [by simp, ih l hl]
  | longText => intro l hl; cases hl
  | openText => intro l hl; cases hl

theorem processFile_sim {files : Files} {rec : Nested} (hf : Texts files) (hrec : RecSim files rec) {i : Nat} {s s' : Asm} {S : State} {b : Bool} (path : Str) (h : Sim i s S)
    (he : processFile files rec path s = some (b, s')) (hs : s'.success = true) :
    ∃ ws S', Words files path ws ∧ (∀ active, (∀ n ∈ active, Busy s n) → Within files s.depth active ws S S') ∧ Sim i s' S' := by
  unfold processFile at he
  dsimp only at he
  have h1 : Sim i { s with log := .fopen (cstr path) :: s.log } S := h.same ⟨⟨rfl, rfl, rfl, rfl, rfl, rfl, rfl, rfl⟩, rfl, rfl, rfl⟩
  cases hfile : files (cstr path) with
  | none => rw [hfile] at he; cases he; cases hs
  | some st =>
    rw [hfile] at he
    dsimp only at he
    obtain ⟨raw, rfl, hl⟩ := hf _ _ hfile
    obtain ⟨ls, ok, ht, hr⟩ := C34_tokens raw path hl
    cases hx : rec (.file ⟨raw.map some, path, ⟨1, 1, 0⟩⟩) { s with log := .fopen (cstr path) :: s.log } with
    | none => rw [hx] at he; cases he
    | some r =>
      obtain ⟨c, s2⟩ := r
      rw [hx] at he
      cases he
      have hne : ∀ t ∈ ls.map (·.token path), t.lex ≠ [] := by
        intro t hm
        obtain ⟨l, hl, rfl⟩ := List.mem_map.1 hm
        exact tokens_ne ht l hl
      obtain ⟨rfl, S', hreads, h2⟩ := hrec i _ _ _ _ S _ s2 (.file hr hne) h1 hx hs
      refine ⟨_, S', ⟨raw, ls, hfile, ht, rfl⟩, ?_, h2.same ⟨⟨rfl, rfl, rfl, rfl, rfl, rfl, rfl, rfl⟩, rfl, rfl, rfl⟩⟩
      intro active ha
      have hreads := hreads active ha
      rw [List.map_map] at hreads
      exact hreads

theorem processInclude_sim {files : Files} {rec : Nested} (hf : Texts files) (hrec : RecSim files rec) {i : Nat} {s s' : Asm} {S : State} {b : Bool} (name : Str) (t : Token) (h : Sim i s S)
    (he : processInclude files rec name t s = some (b, s')) (hs : s'.success = true) :
    (name ∈ S.included ∧ Sim i s' S) ∨
    (name ∉ S.included ∧ ∃ ws S', Words files name ws ∧ (∀ active, (∀ n ∈ active, Busy s n) → Within files (s.depth + 1) active ws { S with included := name :: S.included } S') ∧ Sim i s' S') := by
  unfold processInclude at he
  by_cases hi : name ∈ s.includes
  · rw [if_pos hi] at he
    cases he
    exact .inl ⟨by rw [h.included]; exact hi, h⟩
  · rw [if_neg hi] at he
    dsimp only at he
    refine .inr ⟨by rw [h.included]; exact hi, ?_⟩
    have h1 : Sim i { s with includes := name :: s.includes, depth := s.depth + 1 } { S with included := name :: S.included } :=
      ⟨h.readBuf, h.addr, h.scope, h.anonymous, by rw [h.included], h.deferred, h.index, h.tables, h.lams, h.memory, h.history⟩
    cases hx : processFile files rec name { s with includes := name :: s.includes, depth := s.depth + 1 } with
    | none => rw [hx] at he; cases he
    | some r =>
      obtain ⟨c, s2⟩ := r
      rw [hx] at he
      dsimp only at he
      cases c with
      | false => rw [if_neg (by simp)] at he; cases he; cases hs
      | true =>
        rw [if_pos rfl] at he
        cases he
        obtain ⟨ws, S', h2, h3, h4⟩ := processFile_sim hf hrec name h1 hx hs
        exact ⟨ws, S', h2, h3, h4.depth _⟩

/-- A word, if it can be followed by more words. -/
def Steps (files : Files) (i : Nat) (w : Str) (ws : List Str) (ok : Bool) (S : State) (s : Asm) (u' : Unit) (s' : Asm) : Prop :=
  ∃ ws' S1, Src u' ws' ok ∧ Sim i s' S1 ∧ ∀ active, (∀ n ∈ active, Busy s n) → ∀ S', Within files s.depth active ws' S1 S' → Within files s.depth active (w :: ws) S S'

theorem Steps.before {files : Files} {i : Nat} {w : Str} {ws : List Str} {ok : Bool} {S : State} {s s1 s' : Asm} {u' : Unit} (hd : s1.depth = s.depth) (hb : ∀ k, Busy s k → Busy s1 k)
    (h : Steps files i w ws ok S s1 u' s') : Steps files i w ws ok S s u' s' := by
  obtain ⟨ws', S1, h1, h2, h3⟩ := h
  rw [hd] at h3
  exact ⟨ws', S1, h1, h2, fun active ha => h3 active fun n hn => hb n (ha n hn)⟩

theorem tilde_sim {files : Files} {rec : Nested} (hf : Texts files) (hrec : RecSim files rec) {i : Nat} {s s' : Asm} {S : State} {b ok : Bool} {u : Unit} {ws : List Str} (t : Token) (rest : Str)
    (ht : t.lex = ch '~' :: rest) (h : Sim i s S) (hsrc : Src u ws ok) (he : processTilde files rec t s = some (b, s')) (hs : s'.success = true) : Steps files i t.lex ws ok S s u s' := by
  unfold processTilde at he
  have hpop : popFront t.lex = rest := by rw [ht]; rfl
  rw [hpop] at he
  rw [ht]
  by_cases hd : MAX_DEPTH ≤ s.depth
  · rw [if_pos hd] at he; cases he; cases hs
  rw [if_neg hd] at he
  have hdepth : s.depth < DEPTH := Nat.not_le.1 hd
  dsimp only at he
  by_cases hdef : rest.head? = some (ch '~')
  · have e : decide (rest.head? = some (ch '~')) = true := decide_eq_true hdef
    rw [e, if_pos rfl, if_pos rfl] at he
    obtain ⟨name, rfl⟩ : ∃ name, rest = ch '~' :: name := by
      cases rest with
      | nil => cases hdef
      | cons c cs => exact ⟨cs, by cases hdef; rfl⟩
    have h1 := h.same (putSymbol_emits s.writeAddr { type := .include, name := some name, region := t.region } s)
    change some (true, if name ∈ s.includes then putSymbol s.writeAddr { type := .include, name := some name, region := t.region } s
      else { putSymbol s.writeAddr { type := .include, name := some name, region := t.region } s with deferred := s.deferred ++ [(name, t)] }) = _ at he
    cases he
    refine ⟨ws, if name ∈ S.included then S else { S with deferred := S.deferred ++ [name] }, hsrc, ?_, fun active ha S' hr => .defer rfl hdepth hr⟩
    by_cases hin : name ∈ s.includes
    · rw [if_pos hin, if_pos (by rw [h.included]; exact hin)]
      exact h1
    · rw [if_neg hin, if_neg (by rw [h.included]; exact hin)]
      refine ⟨h1.readBuf, h1.addr, h1.scope, h1.anonymous, h1.included, ?_, ?_, h1.tables, h1.lams, h1.memory, h1.history⟩
      · show _ = ((s.deferred ++ [(name, t)]).drop i).map _
        rw [List.drop_append_of_le_length h.index, List.map_append, h.deferred]; rfl
      · show i ≤ (s.deferred ++ [(name, t)]).length
        have := h.index
        rw [List.length_append]; omega
  · have e : decide (rest.head? = some (ch '~')) = false := decide_eq_false hdef
    rw [e, if_neg (by simp), if_neg (by simp)] at he
    have h1 := h.same (putSymbol_emits s.writeAddr { type := .include, name := some rest, region := t.region } s)
    rcases processInclude_sim hf hrec rest t h1 he hs with ⟨h2, h3⟩ | ⟨h2, inner, S', h3, h4, h5⟩
    · exact ⟨ws, S, hsrc, h3, fun active ha S' hr => .again rfl hdef hdepth h2 hr⟩
    · exact ⟨ws, S', hsrc, h5, fun active ha S'' hr => .include rfl hdef hdepth h2 h3 (h4 active ha) hr⟩

theorem expandMacro_sim {files : Files} {rec : Nested} (hrec : RecSim files rec) {i : Nat} {s s' : Asm} {S : State} {ok : Bool} {u u' : Unit} {ws : List Str} (t : Token) (n : Node) (ts : List Token) (id : Short) (x : Bool)
    (h : Sim i s { S with used := t.lex :: S.used }) (hsrc : Src u ws ok) (hnm : IsName t.lex) (hn : s.symtab t.lex = some n) (hen : n.entry = .macro ts id x)
    (he : expandMacro rec t t.lex n ts id x u s = some (true, u', s')) (hs : s'.success = true) : Steps files i t.lex ws ok S s u' s' := by
  have hb : S.macros.lookup t.lex = some (ts.map (·.lex)) := by rw [h.tables.macros, hn, Option.bind_some, hen]; rfl
  have hne := h.tables.bodies _ _ _ _ _ hn hen
  unfold expandMacro at he
  by_cases hd : MAX_DEPTH ≤ s.depth
  · rw [if_pos hd] at he; cases he
  rw [if_neg hd] at he
  have hdepth : s.depth < DEPTH := Nat.not_le.1 hd
  by_cases hx : x = true
  · rw [if_pos hx] at he; cases he
  rw [if_neg hx] at he
  have hfree : ∀ active : List Str, (∀ k ∈ active, Busy s k) → t.lex ∉ active := by
    intro active ha hin
    obtain ⟨b, j, hm⟩ := ha _ hin
    rw [macroOf_some hn, hen] at hm
    have hm : some (ts, id, x) = some (b, j, true) := hm
    cases hm
    exact hx rfl
  dsimp only at he
  have h1 := h.same (s' := putSymbol 0 { type := .macroRef, name := some t.lex, region := t.region, id := id } s) (putSymbol_emits _ _ s)
  have hn1 : (putSymbol 0 { type := .macroRef, name := some t.lex, region := t.region, id := id } s).symtab t.lex = some n := hn
  have hd1 : (putSymbol 0 { type := .macroRef, name := some t.lex, region := t.region, id := id } s).depth = s.depth := rfl
  have hb1 : ∀ k, Busy s k → Busy (putSymbol 0 { type := .macroRef, name := some t.lex, region := t.region, id := id } s) k := fun _ h => h
  generalize putSymbol 0 { type := .macroRef, name := some t.lex, region := t.region, id := id } s = s1 at he h1 hn1 hd1 hb1
  by_cases hc : t.lex.getLast? = some (ch ':')
  · rw [if_pos hc] at he
    rcases hsrc.next s1 h1.readBuf with ⟨a, u1, rest, e, hane, rfl, hsrc1⟩ | ⟨u1, e, -, -⟩ | ⟨u1, s2, e, -⟩
    · rw [e] at he
      dsimp only at he
      obtain ⟨rfl, hsh, S', h2, h3⟩ := runMacro_sim hrec t t.lex n ts id a.lex u1 u' h1 hn1 hb hne he hs
      refine ⟨rest, S', hsrc1, h3, fun active ha S'' hr => .apply hnm hb hc hdepth (hfree active ha) ?_ ?_ hr⟩
      · intro v hv
        obtain ⟨w, hw, rfl⟩ := List.mem_map.1 hv
        exact hsh hane w hw
      have h2 := h2 active fun k hk => hb1 k (ha k hk)
      rw [hd1] at h2
      rw [List.map_map]
      have : (ts.map fun t => if a.lex = [] then t.lex else replace a.lex t.lex) = ts.map (replace a.lex ∘ (·.lex)) :=
        List.map_congr_left fun t _ => if_neg hane
      rw [← this]; exact h2
    · rw [e] at he; cases he
    · rw [e] at he; cases he
  · rw [if_neg hc] at he
    obtain ⟨rfl, -, S', h2, h3⟩ := runMacro_sim hrec t t.lex n ts id [] u u' h1 hn1 hb hne he hs
    refine ⟨ws, S', hsrc, h3, fun active ha S'' hr => .expand hnm hb hc hdepth (hfree active ha) ?_ hr⟩
    have h2 := h2 active fun k hk => hb1 k (ha k hk)
    rw [hd1] at h2
    have : (ts.map fun t => if ([] : Str) = [] then t.lex else replace [] t.lex) = ts.map (·.lex) := List.map_congr_left fun t _ => if_pos rfl
    rw [← this]; exact h2

end Buxn.Asm.Meaning
