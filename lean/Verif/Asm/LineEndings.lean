import Verif.Asm.Tokens
/-!
# C34: only the tokens matter

Two sets of files with the same tokens are assembled in the same way.
-/

namespace Buxn.Asm
open Buxn.VM Spec

/-! ## Macro units -/

theorem nextInMacro_calm (u : MacroUnit) (s : Asm) : Calm s (nextInMacro u s).2.2 := by
  unfold nextInMacro
  split
  · exact .refl s
  · split
    · exact .refl s
    · split
      · exact error_calm _ _ _
      · dsimp only
        rename_i rev _
        generalize (if rev.reverse.head? = some (ch '"') then MAX_LONG_STRING_LEN else MAX_TOKEN_LEN) = lim
        split
        · exact error_calm _ _ _
        · exact .refl s

/-- The unit is the expansion of a macro. -/
def IsMacro (u : Unit) : Prop := ∃ m, u = .macro m

theorem nextToken_macro {u : Unit} (h : IsMacro u) (s : Asm) : IsMacro (nextToken u s).2.1 ∧ Calm s (nextToken u s).2.2 := by
  obtain ⟨m, rfl⟩ := h
  exact ⟨⟨_, rfl⟩, nextInMacro_calm m s⟩

theorem commentLoop_macro (fuel depth : Nat) {u : Unit} (h : IsMacro u) (s : Asm) :
    IsMacro (commentLoop fuel depth u s).2.1 ∧ Calm s (commentLoop fuel depth u s).2.2 := by
  induction fuel generalizing depth u s with
  | zero => exact ⟨h, .refl s⟩
  | succ fuel ih =>
    rw [commentLoop]
    split
    · exact ⟨h, .refl s⟩
    · have hn := nextToken_macro h s
      split
      · rename_i heq; rw [heq] at hn; exact hn
      · rename_i t u1 s1 heq; rw [heq] at hn
        dsimp only
        generalize (if t.lex = [ch '('] then depth + 1 else if t.lex = [ch ')'] then depth - 1 else depth) = d
        have := ih d hn.1 (putSymbol s1.writeAddr { type := .comment, name := some t.lex, region := t.region, id := BitVec.ofNat 16 depth } s1)
        exact ⟨this.1, hn.2.trans ((putSymbol_calm _ _ _).trans this.2)⟩

theorem processComment_macro (t : Token) {u : Unit} (h : IsMacro u) (s : Asm) :
    IsMacro (processComment t u s).2.1 ∧ Calm s (processComment t u s).2.2 := by
  unfold processComment
  dsimp only
  have h1 := commentLoop_macro (unitFuel u) 1 h (putSymbol s.writeAddr { type := .comment, name := some t.lex, region := t.region } s)
  generalize commentLoop (unitFuel u) 1 u (putSymbol s.writeAddr { type := .comment, name := some t.lex, region := t.region } s) = p at h1
  obtain ⟨d, u1, s1⟩ := p
  have h2 := (putSymbol_calm s.writeAddr { type := .comment, name := some t.lex, region := t.region } s).trans h1.2
  dsimp only at h1 h2 ⊢
  split
  · exact ⟨h1.1, h2.trans (error_calm _ _ _)⟩
  · exact ⟨h1.1, h2⟩

theorem macroHead_macro (start : Token) (fuel : Nat) {u : Unit} (h : IsMacro u) (s : Asm) :
    IsMacro (macroHead start fuel u s).2.1 ∧ Calm s (macroHead start fuel u s).2.2 := by
  induction fuel generalizing u s with
  | zero => exact ⟨h, error_calm _ _ _⟩
  | succ fuel ih =>
    rw [macroHead]
    have h1 := nextToken_macro h s
    split
    · rename_i heq; rw [heq] at h1
      exact ⟨h1.1, h1.2.trans (error_calm _ _ _)⟩
    · rename_i t u1 s1 heq; rw [heq] at h1
      dsimp only at h1 ⊢
      split
      · have hc := processComment_macro t h1.1 s1
        split
        · rename_i heq2; rw [heq2] at hc
          exact ⟨hc.1, h1.2.trans hc.2⟩
        · rename_i u2 s2 heq2; rw [heq2] at hc
          have := ih hc.1 s2
          exact ⟨this.1, h1.2.trans (hc.2.trans this.2)⟩
      · split
        · have := ih h1.1 (processMark t s1)
          exact ⟨this.1, h1.2.trans ((processMark_calm t s1).trans this.2)⟩
        · split
          · split
            · exact ⟨h1.1, h1.2.trans (error_calm _ _ _)⟩
            · have := ih h1.1 (processMark t s1)
              exact ⟨this.1, h1.2.trans ((processMark_calm t s1).trans this.2)⟩
          · split
            · exact h1
            · exact ⟨h1.1, h1.2.trans (error_calm _ _ _)⟩

theorem macroBody_macro (start : Token) (fuel depth : Nat) (acc : List Token) {u : Unit} (h : IsMacro u) (s : Asm) :
    IsMacro (macroBody start fuel depth acc u s).2.1 ∧ Calm s (macroBody start fuel depth acc u s).2.2 := by
  induction fuel generalizing depth acc u s with
  | zero => exact ⟨h, error_calm _ _ _⟩
  | succ fuel ih =>
    rw [macroBody]
    have h1 := nextToken_macro h s
    split
    · rename_i heq; rw [heq] at h1
      exact ⟨h1.1, h1.2.trans (error_calm _ _ _)⟩
    · rename_i t u1 s1 heq; rw [heq] at h1
      dsimp only at h1 ⊢
      split
      · exact ⟨h1.1, h1.2.trans (error_calm _ _ _)⟩
      · generalize (if t.lex = [ch '}'] then depth - 1 else if opensLambda t.lex = true then depth + 1 else depth) = d
        split
        · exact h1
        · have := ih d (t :: acc) h1.1 s1
          exact ⟨this.1, h1.2.trans this.2⟩

/-! ## Units with the same tokens -/

/-- Files that give the same tokens, at most `k`. -/
def SimF (k : Nat) (u u' : Unit) : Prop := ∃ f f' ts, u = .file f ∧ u' = .file f' ∧ Lists f ts ∧ Lists f' ts ∧ ts.length ≤ k

theorem nextToken_sim {k : Nat} {f f' : FileUnit} {ts : List Token} (h : Lists f ts) (h' : Lists f' ts) (hk : ts.length ≤ k) {s : Asm} (hb : s.readBuf = none) :
    (∃ v v', nextToken (.file f) s = (none, v, s) ∧ nextToken (.file f') s = (none, v', s)) ∨
    ∃ t v v' ts' j, k = j + 1 ∧ nextToken (.file f) s = (some t, .file v, s) ∧ nextToken (.file f') s = (some t, .file v', s) ∧
      Lists v ts' ∧ Lists v' ts' ∧ ts'.length ≤ j := by
  cases h with
  | stop h =>
    cases h' with
    | stop h' =>
      left
      have h := h s hb
      have h' := h' s hb
      unfold nextToken
      dsimp only
      generalize nextInFile f s = p at h
      generalize nextInFile f' s = p' at h'
      obtain ⟨a, b, c⟩ := p
      obtain ⟨a', b', c'⟩ := p'
      obtain ⟨rfl, rfl⟩ := h
      obtain ⟨rfl, h'⟩ := h'
      dsimp only at h'
      exact ⟨_, _, rfl, by rw [h']⟩
  | next h h1 h2 =>
    cases h' with
    | next h' h1' h2' =>
      right
      rename_i v t ts v'
      cases k with
      | zero => simp at hk
      | succ k =>
        refine ⟨t, v, v', ts, k, rfl, ?_, ?_, h2, h2', by simpa using hk⟩
        · unfold nextToken; dsimp only; rw [h s hb]
        · unfold nextToken; dsimp only; rw [h' s hb]

/-- Results that agree. -/
def SimR (P : Unit → Unit → Prop) (r r' : Bool × Unit × Asm) : Prop :=
  r.1 = r'.1 ∧ r.2.2 = r'.2.2 ∧ (r.1 = true → r.2.2.readBuf = none ∧ P r.2.1 r'.2.1)

theorem commentLoop_sim (k depth n n' : Nat) {f f' : FileUnit} {ts : List Token} (h : Lists f ts) (h' : Lists f' ts) (hk : ts.length ≤ k) {s : Asm} (hb : s.readBuf = none)
    (hn : k < n) (hn' : k < n') :
    (commentLoop n depth (.file f) s).1 = (commentLoop n' depth (.file f') s).1 ∧
    (commentLoop n depth (.file f) s).2.2 = (commentLoop n' depth (.file f') s).2.2 ∧
    ((commentLoop n depth (.file f) s).1 = 0 → (commentLoop n depth (.file f) s).2.2.readBuf = none ∧
      SimF k (commentLoop n depth (.file f) s).2.1 (commentLoop n' depth (.file f') s).2.1) := by
  induction k generalizing depth n n' f f' ts s with
  | zero =>
    obtain ⟨n, rfl⟩ : ∃ m, n = m + 1 := ⟨n - 1, by omega⟩
    obtain ⟨n', rfl⟩ : ∃ m, n' = m + 1 := ⟨n' - 1, by omega⟩
    rw [commentLoop, commentLoop]
    by_cases hd : depth = 0
    · rw [if_pos hd, if_pos hd]
      exact ⟨rfl, rfl, fun _ => ⟨hb, ⟨f, f', ts, rfl, rfl, h, h', hk⟩⟩⟩
    · rw [if_neg hd, if_neg hd]
      rcases nextToken_sim h h' hk hb with ⟨v, v', h1, h2⟩ | ⟨t, v, v', ts', j, hj, _⟩
      · rw [h1, h2]
        exact ⟨rfl, rfl, fun h => absurd h hd⟩
      · omega
  | succ k ih =>
    obtain ⟨n, rfl⟩ : ∃ m, n = m + 1 := ⟨n - 1, by omega⟩
    obtain ⟨n', rfl⟩ : ∃ m, n' = m + 1 := ⟨n' - 1, by omega⟩
    rw [commentLoop, commentLoop]
    by_cases hd : depth = 0
    · rw [if_pos hd, if_pos hd]
      exact ⟨rfl, rfl, fun _ => ⟨hb, ⟨f, f', ts, rfl, rfl, h, h', hk⟩⟩⟩
    · rw [if_neg hd, if_neg hd]
      rcases nextToken_sim h h' hk hb with ⟨v, v', h1, h2⟩ | ⟨t, v, v', ts', j, hj, h1, h2, h3, h4, h5⟩
      · rw [h1, h2]
        exact ⟨rfl, rfl, fun h => absurd h hd⟩
      · rw [h1, h2]
        dsimp only
        generalize (if t.lex = [ch '('] then depth + 1 else if t.lex = [ch ')'] then depth - 1 else depth) = d
        have := ih d n n' h3 h4 (by omega) (s := putSymbol s.writeAddr { type := .comment, name := some t.lex, region := t.region, id := BitVec.ofNat 16 depth } s) hb (by omega) (by omega)
        refine ⟨this.1, this.2.1, fun hz => ⟨(this.2.2 hz).1, ?_⟩⟩
        obtain ⟨g, g', us, e1, e2, e3, e4, e5⟩ := (this.2.2 hz).2
        exact ⟨g, g', us, e1, e2, e3, e4, by omega⟩

theorem SimF.mono {j k : Nat} {u u' : Unit} (h : SimF j u u') (hjk : j ≤ k) : SimF k u u' := by
  obtain ⟨f, f', ts, e1, e2, e3, e4, e5⟩ := h
  exact ⟨f, f', ts, e1, e2, e3, e4, by omega⟩

theorem SimR.mono {P Q : Unit → Unit → Prop} {r r' : Bool × Unit × Asm} (h : SimR P r r') (hPQ : ∀ u u', P u u' → Q u u') : SimR Q r r' :=
  ⟨h.1, h.2.1, fun ht => ⟨(h.2.2 ht).1, hPQ _ _ (h.2.2 ht).2⟩⟩

theorem processComment_simF {k : Nat} (t : Token) {u u' : Unit} (h : SimF k u u') {s : Asm} (hb : s.readBuf = none) :
    SimR (SimF k) (processComment t u s) (processComment t u' s) := by
  obtain ⟨f, f', ts, rfl, rfl, h, h', hk⟩ := h
  have h1 := h.length
  have h2 := h'.length
  unfold processComment
  dsimp only
  have := commentLoop_sim ts.length 1 (unitFuel (.file f)) (unitFuel (.file f')) h h' (Nat.le_refl _)
    (s := putSymbol s.writeAddr { type := .comment, name := some t.lex, region := t.region } s) hb (by unfold unitFuel; dsimp only; omega) (by unfold unitFuel; dsimp only; omega)
  generalize commentLoop (unitFuel (.file f)) 1 (.file f) (putSymbol s.writeAddr { type := .comment, name := some t.lex, region := t.region } s) = p at this
  generalize commentLoop (unitFuel (.file f')) 1 (.file f') (putSymbol s.writeAddr { type := .comment, name := some t.lex, region := t.region } s) = p' at this
  obtain ⟨d, u1, s1⟩ := p
  obtain ⟨d', u1', s1'⟩ := p'
  dsimp only at this ⊢
  obtain ⟨rfl, rfl, h3⟩ := this
  by_cases hd : d = 0
  · rw [if_neg (by simp [hd]), if_neg (by simp [hd])]
    exact ⟨rfl, rfl, fun _ => ⟨(h3 hd).1, (h3 hd).2.mono hk⟩⟩
  · rw [if_pos hd, if_pos hd]
    exact ⟨rfl, rfl, fun h => by cases h⟩

theorem macroHead_sim (start : Token) (k n n' : Nat) {f f' : FileUnit} {ts : List Token} (h : Lists f ts) (h' : Lists f' ts) (hk : ts.length ≤ k) {s : Asm}
    (hb : s.readBuf = none) (hn : k < n) (hn' : k < n') : SimR (SimF k) (macroHead start n (.file f) s) (macroHead start n' (.file f') s) := by
  induction k generalizing n n' f f' ts s with
  | zero =>
    obtain ⟨n, rfl⟩ : ∃ m, n = m + 1 := ⟨n - 1, by omega⟩
    obtain ⟨n', rfl⟩ : ∃ m, n' = m + 1 := ⟨n' - 1, by omega⟩
    rw [macroHead, macroHead]
    rcases nextToken_sim h h' hk hb with ⟨v, v', h1, h2⟩ | ⟨t, v, v', ts', j, hj, _⟩
    · rw [h1, h2]
      exact ⟨rfl, rfl, fun h => by cases h⟩
    · omega
  | succ k ih =>
    obtain ⟨n, rfl⟩ : ∃ m, n = m + 1 := ⟨n - 1, by omega⟩
    obtain ⟨n', rfl⟩ : ∃ m, n' = m + 1 := ⟨n' - 1, by omega⟩
    rw [macroHead, macroHead]
    rcases nextToken_sim h h' hk hb with ⟨v, v', h1, h2⟩ | ⟨t, v, v', ts', j, hj, h1, h2, h3, h4, h5⟩
    · rw [h1, h2]
      exact ⟨rfl, rfl, fun h => by cases h⟩
    · have hjk : j = k := by omega
      subst hjk
      rw [h1, h2]
      dsimp only
      have next : ∀ s', s'.readBuf = none → SimR (SimF (j + 1)) (macroHead start n (.file v) s') (macroHead start n' (.file v') s') := fun s' hb' =>
        (ih n n' h3 h4 h5 hb' (by omega) (by omega)).mono fun _ _ h => h.mono (by omega)
      have bad : ∀ (e : Bool × Asm) (u u' : Unit), SimR (SimF (j + 1)) (false, u, e.2) (false, u', e.2) := fun e u u' => ⟨rfl, rfl, fun h => by cases h⟩
      split
      · have hc := processComment_simF (k := j) t ⟨v, v', ts', rfl, rfl, h3, h4, h5⟩ (s := s) hb
        generalize processComment t (.file v) s = p at hc
        generalize processComment t (.file v') s = p' at hc
        obtain ⟨a, u1, s1⟩ := p
        obtain ⟨a', u1', s1'⟩ := p'
        obtain ⟨rfl, rfl, hc⟩ := hc
        dsimp only at hc
        cases a with
        | false => exact ⟨rfl, rfl, fun h => by cases h⟩
        | true =>
          dsimp only
          obtain ⟨hb1, hs1⟩ := hc rfl
          obtain ⟨g, g', us, rfl, rfl, e3, e4, e5⟩ := hs1
          exact (ih n n' e3 e4 e5 hb1 (by omega) (by omega)).mono fun _ _ h => h.mono (by omega)
      · split
        · exact next _ hb
        · split
          · split
            · exact bad (error _ _ _) _ _
            · exact next _ hb
          · split
            · exact ⟨rfl, rfl, fun _ => ⟨hb, ⟨v, v', ts', rfl, rfl, h3, h4, by omega⟩⟩⟩
            · exact bad (error _ _ _) _ _

theorem macroBody_sim (start : Token) (k n n' depth : Nat) (acc : List Token) {f f' : FileUnit} {ts : List Token} (h : Lists f ts) (h' : Lists f' ts)
    (hk : ts.length ≤ k) {s : Asm} (hb : s.readBuf = none) (hn : k < n) (hn' : k < n') :
    (macroBody start n depth acc (.file f) s).1 = (macroBody start n' depth acc (.file f') s).1 ∧
    (macroBody start n depth acc (.file f) s).2.2 = (macroBody start n' depth acc (.file f') s).2.2 ∧
    ((macroBody start n depth acc (.file f) s).1.isSome → (macroBody start n depth acc (.file f) s).2.2.readBuf = none ∧
      SimF k (macroBody start n depth acc (.file f) s).2.1 (macroBody start n' depth acc (.file f') s).2.1) := by
  induction k generalizing n n' depth acc f f' ts s with
  | zero =>
    obtain ⟨n, rfl⟩ : ∃ m, n = m + 1 := ⟨n - 1, by omega⟩
    obtain ⟨n', rfl⟩ : ∃ m, n' = m + 1 := ⟨n' - 1, by omega⟩
    rw [macroBody, macroBody]
    rcases nextToken_sim h h' hk hb with ⟨v, v', h1, h2⟩ | ⟨t, v, v', ts', j, hj, _⟩
    · rw [h1, h2]
      exact ⟨rfl, rfl, fun h => by cases h⟩
    · omega
  | succ k ih =>
    obtain ⟨n, rfl⟩ : ∃ m, n = m + 1 := ⟨n - 1, by omega⟩
    obtain ⟨n', rfl⟩ : ∃ m, n' = m + 1 := ⟨n' - 1, by omega⟩
    rw [macroBody, macroBody]
    rcases nextToken_sim h h' hk hb with ⟨v, v', h1, h2⟩ | ⟨t, v, v', ts', j, hj, h1, h2, h3, h4, h5⟩
    · rw [h1, h2]
      exact ⟨rfl, rfl, fun h => by cases h⟩
    · rw [h1, h2]
      dsimp only
      generalize (if t.lex = [ch '}'] then depth - 1 else if opensLambda t.lex = true then depth + 1 else depth) = d
      split
      · exact ⟨rfl, rfl, fun h => by cases h⟩
      · split
        · exact ⟨rfl, rfl, fun _ => ⟨hb, ⟨v, v', ts', rfl, rfl, h3, h4, by omega⟩⟩⟩
        · have := ih n n' d (t :: acc) h3 h4 (by omega) hb (by omega) (by omega)
          exact ⟨this.1, this.2.1, fun hs => ⟨(this.2.2 hs).1, (this.2.2 hs).2.mono (by omega)⟩⟩

/-- Units that give the same tokens. -/
def Sim (u u' : Unit) : Prop := (u = u' ∧ IsMacro u) ∨ ∃ k, SimF k u u'

theorem processComment_sim (t : Token) {u u' : Unit} (h : Sim u u') {s : Asm} (hb : s.readBuf = none) :
    SimR Sim (processComment t u s) (processComment t u' s) := by
  rcases h with ⟨rfl, hm⟩ | ⟨k, h⟩
  · have := processComment_macro t hm s
    exact ⟨rfl, rfl, fun _ => ⟨this.2.readBuf.trans hb, .inl ⟨rfl, this.1⟩⟩⟩
  · exact (processComment_simF t h hb).mono fun _ _ h => .inr ⟨k, h⟩

theorem createMacro_sim (start : Token) (name : Str) (n : Node) {u u' : Unit} (h : Sim u u') {s : Asm} (hb : s.readBuf = none) :
    SimR Sim (createMacro start name n u s) (createMacro start name n u' s) := by
  rcases h with ⟨rfl, hm⟩ | ⟨k, f, f', ts, rfl, rfl, h, h', hk⟩
  · refine ⟨rfl, rfl, fun ht => ?_⟩
    revert ht
    unfold createMacro
    dsimp only
    have h1 := macroHead_macro start (unitFuel u) hm (putSymbol 0 { type := .macro, name := some name, region := start.region, id := s.numMacros + 1 } { s with numMacros := s.numMacros + 1 })
    generalize macroHead start (unitFuel u) u (putSymbol 0 { type := .macro, name := some name, region := start.region, id := s.numMacros + 1 } { s with numMacros := s.numMacros + 1 }) = p at h1
    obtain ⟨a, u1, s1⟩ := p
    cases a with
    | false => intro ht; cases ht
    | true =>
      dsimp only at h1 ⊢
      have h2 := macroBody_macro start (unitFuel u1) 1 [] h1.1 (setNode name { n with entry := .macro [] 0 false } s1)
      generalize macroBody start (unitFuel u1) 1 [] u1 (setNode name { n with entry := .macro [] 0 false } s1) = q at h2
      obtain ⟨a, u2, s2⟩ := q
      cases a with
      | none => intro ht; cases ht
      | some acc => exact fun _ => ⟨h2.2.readBuf.trans (h1.2.readBuf.trans hb), .inl ⟨rfl, h2.1⟩⟩
  · have h1 := h.length
    have h2 := h'.length
    unfold createMacro
    dsimp only
    have hh := macroHead_sim start ts.length (unitFuel (.file f)) (unitFuel (.file f')) h h' (Nat.le_refl _)
      (s := putSymbol 0 { type := .macro, name := some name, region := start.region, id := s.numMacros + 1 } { s with numMacros := s.numMacros + 1 }) hb
      (by unfold unitFuel; dsimp only; omega) (by unfold unitFuel; dsimp only; omega)
    generalize macroHead start (unitFuel (.file f)) (.file f) (putSymbol 0 { type := .macro, name := some name, region := start.region, id := s.numMacros + 1 } { s with numMacros := s.numMacros + 1 }) = p at hh
    generalize macroHead start (unitFuel (.file f')) (.file f') (putSymbol 0 { type := .macro, name := some name, region := start.region, id := s.numMacros + 1 } { s with numMacros := s.numMacros + 1 }) = p' at hh
    obtain ⟨a, u1, s1⟩ := p
    obtain ⟨a', u1', s1'⟩ := p'
    obtain ⟨rfl, rfl, hh⟩ := hh
    dsimp only at hh
    cases a with
    | false => exact ⟨rfl, rfl, fun h => by cases h⟩
    | true =>
      obtain ⟨hb1, g, g', us, rfl, rfl, e3, e4, e5⟩ := hh rfl
      have h1 := e3.length
      have h2 := e4.length
      dsimp only
      have hc := macroBody_sim start us.length (unitFuel (.file g)) (unitFuel (.file g')) 1 [] e3 e4 (Nat.le_refl _)
        (s := setNode name { n with entry := .macro [] 0 false } s1) hb1 (by unfold unitFuel; dsimp only; omega) (by unfold unitFuel; dsimp only; omega)
      generalize macroBody start (unitFuel (.file g)) 1 [] (.file g) (setNode name { n with entry := .macro [] 0 false } s1) = q at hc
      generalize macroBody start (unitFuel (.file g')) 1 [] (.file g') (setNode name { n with entry := .macro [] 0 false } s1) = q' at hc
      obtain ⟨a, u2, s2⟩ := q
      obtain ⟨a', u2', s2'⟩ := q'
      obtain ⟨rfl, rfl, hc⟩ := hc
      cases a with
      | none => exact ⟨rfl, rfl, fun h => by cases h⟩
      | some acc => exact ⟨rfl, rfl, fun _ => ⟨(hc rfl).1, .inr ⟨_, (hc rfl).2⟩⟩⟩

theorem processMacro_sim (start : Token) {u u' : Unit} (h : Sim u u') {s : Asm} (hb : s.readBuf = none) :
    SimR Sim (processMacro start u s) (processMacro start u' s) := by
  unfold processMacro
  have hf := findOrCreate_calm start (popFront start.lex) s
  generalize findOrCreate start (popFront start.lex) s = p at hf
  obtain ⟨o, s1⟩ := p
  cases o with
  | none => exact ⟨rfl, rfl, fun h => by cases h⟩
  | some n =>
    dsimp only at hf ⊢
    cases n.entry with
    | unknown => exact createMacro_sim start _ n h (hf.readBuf.trans hb)
    | _ => exact ⟨rfl, rfl, fun h => by cases h⟩

/-! ## Nested units -/

/-- Optional results that agree. -/
def SimO (o o' : Option (Bool × Unit × Asm)) : Prop := (o = none ∧ o' = none) ∨ ∃ r r', o = some r ∧ o' = some r' ∧ SimR Sim r r'

/-- Nested units agree, and leave no character in the buffer. -/
def SimN (rec rec' : Nested) : Prop := ∀ u u' s, Sim u u' → s.readBuf = none → rec u s = rec' u' s ∧ ∀ s', rec u s = some (true, s') → s'.readBuf = none

theorem simO_some {r r' : Bool × Unit × Asm} (h : SimR Sim r r') : SimO (some r) (some r') := .inr ⟨r, r', rfl, rfl, h⟩

theorem simR_calm {u u' : Unit} (h : Sim u u') {s : Asm} (hb : s.readBuf = none) {r : Bool × Asm} (hr : Calm s r.2) : SimR Sim (r.1, u, r.2) (r.1, u', r.2) :=
  ⟨rfl, rfl, fun _ => ⟨hr.readBuf.trans hb, h⟩⟩

theorem simO_false {u u' : Unit} {s : Asm} : SimO (some (false, u, s)) (some (false, u', s)) := simO_some ⟨rfl, rfl, fun h => by cases h⟩

variable {rec rec' : Nested} (hrec : SimN rec rec')
include hrec

theorem runMacro_sim (t : Token) (name : Str) (n : Node) (body : List Token) (id : Short) (arg : Str) {u u' : Unit} (h : Sim u u') {s : Asm} (hb : s.readBuf = none) :
    SimO (runMacro rec t name n body id arg u s) (runMacro rec' t name n body id arg u' s) := by
  unfold runMacro
  dsimp only
  have hr := hrec (.macro ⟨body, arg⟩) (.macro ⟨body, arg⟩) { setNode name { n with entry := .macro body id true } s with depth := (setNode name { n with entry := .macro body id true } s).depth + 1 }
    (.inl ⟨rfl, ⟨_, rfl⟩⟩) hb
  rw [← hr.1]
  have hr2 := hr.2
  generalize rec _ _ = o at hr2
  cases o with
  | none => exact .inl ⟨rfl, rfl⟩
  | some r =>
    obtain ⟨ok, s1⟩ := r
    refine simO_some ⟨rfl, rfl, fun ht => ⟨?_, h⟩⟩
    dsimp only at ht ⊢
    subst ht
    have := hr2 s1 rfl
    rw [if_pos rfl]
    split
    · exact this
    · exact this

theorem expandMacro_sim (t : Token) (name : Str) (n : Node) (body : List Token) (id : Short) (x : Bool) {u u' : Unit} (h : Sim u u') {s : Asm} (hb : s.readBuf = none) :
    SimO (expandMacro rec t name n body id x u s) (expandMacro rec' t name n body id x u' s) := by
  unfold expandMacro
  dsimp only
  split
  · exact simO_false
  · split
    · exact simO_false
    · split
      · rcases h with ⟨rfl, m, rfl⟩ | ⟨k, f, f', ts, rfl, rfl, h, h', hk⟩
        · have hm := nextToken_macro ⟨m, rfl⟩ (putSymbol 0 { type := .macroRef, name := some name, region := t.region, id := id } s)
          generalize nextToken (.macro m) (putSymbol 0 { type := .macroRef, name := some name, region := t.region, id := id } s) = p at hm
          obtain ⟨o, u1, s1⟩ := p
          cases o with
          | none => exact simO_false
          | some a => exact runMacro_sim hrec t name n body id a.lex (.inl ⟨rfl, hm.1⟩) (hm.2.readBuf.trans hb)
        · rcases nextToken_sim h h' hk (s := putSymbol 0 { type := .macroRef, name := some name, region := t.region, id := id } s) hb with ⟨v, v', h1, h2⟩ | ⟨a, v, v', ts', j, hj, h1, h2, h3, h4, h5⟩
          · rw [h1, h2]
            exact simO_false
          · rw [h1, h2]
            exact runMacro_sim hrec t name n body id a.lex (.inr ⟨j, v, v', ts', rfl, rfl, h3, h4, h5⟩) hb
      · exact runMacro_sim hrec t name n body id [] h hb

theorem processWord_sim (t : Token) {u u' : Unit} (h : Sim u u') {s : Asm} (hb : s.readBuf = none) :
    SimO (processWord rec t u s) (processWord rec' t u' s) := by
  unfold processWord
  split
  · dsimp only
    refine simO_some (simR_calm h hb ?_)
    exact (ite_calm (warning_calm _ _ _) (.refl s)).trans (emitOpcode_calm _ _ _ _)
  · have hf := findOrCreate_calm t t.lex s
    have hnode : ∀ n s', findOrCreate t t.lex s = (some n, s') → s'.symtab t.lex = some n := fun n s' h => findOrCreate_node _ _ _ _ _ h
    generalize findOrCreate t t.lex s = p at hf hnode
    obtain ⟨o, s1⟩ := p
    cases o with
    | none => exact simO_false
    | some n =>
      have hn := hnode n s1 rfl
      have hm := macroOf_some hn
      dsimp only at hf ⊢
      split
      · exact expandMacro_sim hrec _ _ _ _ _ _ h (hf.readBuf.trans hb)
      · exact simO_some (simR_calm h hb (hf.trans ((setNode_calm (n := { n with referenced := true }) hm.symm).trans
          (andThen_calm (emitOpcode_calm _ _ _ _) fun _ => emitBackwardRef_calm _ _ _ _ _ _ _ _ _))))
      · rename_i he
        rw [he] at hm
        exact simO_some (simR_calm h hb (hf.trans (andThen_calm' (emitOpcode_calm _ _ _ _) fun hc => emitForwardRef_calm _ _ _ _ _ _ _ ((hc.macros _).trans hm))))
      · rename_i he
        rw [he] at hm
        exact simO_some (simR_calm h hb (hf.trans (andThen_calm' (emitOpcode_calm _ _ _ _) fun hc => emitForwardRef_calm _ _ _ _ _ _ _ ((hc.macros _).trans hm))))

omit hrec

/-- Sets of files that give the same tokens, without errors. -/
def SimFiles (files files' : Files) : Prop := ∀ name path, (files name = none ∧ files' name = none) ∨
  ∃ st st' ts, files name = some st ∧ files' name = some st' ∧ Lists ⟨st, path, ⟨1, 1, 0⟩⟩ ts ∧ Lists ⟨st', path, ⟨1, 1, 0⟩⟩ ts

variable {files files' : Files} (hfiles : SimFiles files files')
include hrec hfiles

theorem processFile_sim (path : Str) {s : Asm} (hb : s.readBuf = none) :
    processFile files rec path s = processFile files' rec' path s ∧ ∀ s', processFile files rec path s = some (true, s') → s'.readBuf = none := by
  unfold processFile
  dsimp only
  rcases hfiles (cstr path) path with ⟨h1, h2⟩ | ⟨st, st', ts, h1, h2, h3, h4⟩
  · rw [h1, h2]
    exact ⟨rfl, fun s' h => by cases h⟩
  · rw [h1, h2]
    dsimp only
    have hr := hrec (.file ⟨st, path, ⟨1, 1, 0⟩⟩) (.file ⟨st', path, ⟨1, 1, 0⟩⟩) { s with log := .fopen (cstr path) :: s.log }
      (.inr ⟨ts.length, _, _, ts, rfl, rfl, h3, h4, Nat.le_refl _⟩) hb
    rw [← hr.1]
    refine ⟨rfl, ?_⟩
    have hr2 := hr.2
    generalize rec _ _ = o at hr2
    intro s' h
    cases o with
    | none => cases h
    | some r =>
      obtain ⟨ok, s1⟩ := r
      simp only [Option.some.injEq, Prod.mk.injEq] at h
      obtain ⟨rfl, rfl⟩ := h
      exact hr2 s1 rfl

theorem processInclude_sim (name : Str) (t : Token) {s : Asm} (hb : s.readBuf = none) :
    processInclude files rec name t s = processInclude files' rec' name t s ∧ ∀ s', processInclude files rec name t s = some (true, s') → s'.readBuf = none := by
  unfold processInclude
  split
  · refine ⟨rfl, fun s' h => ?_⟩
    simp only [Option.some.injEq, Prod.mk.injEq] at h
    rw [← h.2]
    exact hb
  · dsimp only
    have hr := processFile_sim hrec hfiles name (s := { s with includes := name :: s.includes, depth := s.depth + 1 }) hb
    rw [← hr.1]
    refine ⟨rfl, ?_⟩
    have hr2 := hr.2
    generalize processFile files rec name { s with includes := name :: s.includes, depth := s.depth + 1 } = o at hr2
    intro s' h
    cases o with
    | none => cases h
    | some r =>
      obtain ⟨ok, s1⟩ := r
      cases ok with
      | false => cases h
      | true =>
        simp only [if_true, Option.some.injEq, Prod.mk.injEq, true_and] at h
        rw [← h]
        exact hr2 s1 rfl

theorem processTilde_sim (t : Token) {s : Asm} (hb : s.readBuf = none) :
    processTilde files rec t s = processTilde files' rec' t s ∧ ∀ s', processTilde files rec t s = some (true, s') → s'.readBuf = none := by
  unfold processTilde
  split
  · exact ⟨rfl, fun s' h => by cases h⟩
  · dsimp only
    split
    · refine ⟨rfl, fun s' h => ?_⟩
      simp only [Option.some.injEq, Prod.mk.injEq, true_and] at h
      rw [← h]
      split <;> exact hb
    · exact processInclude_sim hrec hfiles _ t hb

omit hrec hfiles in
theorem ite_simO {c : Prop} [Decidable c] {a b a' b' : Option (Bool × Unit × Asm)} (ha : SimO a a') (hb : SimO b b') :
    SimO (if c then a else b) (if c then a' else b') := by
  split
  exacts [ha, hb]

theorem processToken_sim (t : Token) {u u' : Unit} (h : Sim u u') {s : Asm} (hb : s.readBuf = none) :
    SimO (processToken files rec t u s) (processToken files' rec' t u' s) := by
  have kp : ∀ r : Bool × Asm, Calm s r.2 → SimO (keep u r) (keep u' r) := fun r hr => simO_some (simR_calm h hb hr)
  have lab : ∀ op k z, Calm s (andThen (emitOpcode t op true s) fun s => emitLabelRef t k z (popFront t.lex) true s).2 := fun op k z =>
    andThen_calm (emitOpcode_calm _ _ _ _) fun _ => emitLabelRef_calm _ _ _ _ _ _
  unfold processToken
  dsimp only
  refine ite_simO (simO_some (processComment_sim t h hb)) <| ite_simO (kp _ (error_calm _ _ _)) <| ite_simO (kp _ (processMark_calm _ _)) <|
    ite_simO (kp _ (ite_calm1 (error_calm _ _ _) (processMark_calm _ _))) <| ite_simO ?_ <| ite_simO (simO_some (processMacro_sim t h hb)) <|
    ite_simO (kp _ (processGlobalLabel_calm _ _)) <| ite_simO (kp _ (processLocalLabel_calm _ _)) <| ite_simO (kp _ (lab _ _ _)) <|
    ite_simO (kp _ (lab _ _ _)) <| ite_simO (kp _ (ite_calm1 (error_calm _ _ _) (processLambdaClose_calm _ _))) <|
    ite_simO (kp _ (ite_calm1 (error_calm _ _ _) (emitJsi_calm _ _))) <| ite_simO (kp _ (emitJsi_calm _ _)) <| ite_simO (kp _ (processAbsPadding_calm _ _)) <|
    ite_simO (kp _ (processRelPadding_calm _ _)) <| ite_simO (kp _ (processLitNumber_calm _ _)) <| ite_simO (kp _ (lab _ _ _)) <|
    ite_simO (kp _ (emitLabelRef_calm _ _ _ _ _ _)) <| ite_simO (kp _ (lab _ _ _)) <| ite_simO (kp _ (emitLabelRef_calm _ _ _ _ _ _)) <|
    ite_simO (kp _ (lab _ _ _)) <| ite_simO (kp _ (emitLabelRef_calm _ _ _ _ _ _)) <| ite_simO (kp _ (processText_calm _ _)) <|
    ite_simO (kp _ (processRawNumber_calm _ _)) (processWord_sim hrec t h hb)
  have ht := processTilde_sim hrec hfiles t hb
  rw [← ht.1]
  have ht2 := ht.2
  generalize processTilde files rec t s = o at ht2
  cases o with
  | none => exact .inl ⟨rfl, rfl⟩
  | some r =>
    obtain ⟨ok, s1⟩ := r
    refine simO_some ⟨rfl, rfl, fun hok => ?_⟩
    dsimp only at hok
    subst hok
    exact ⟨ht2 s1 rfl, h⟩

theorem unitLoop_sim (fuel : Nat) : SimN (unitLoop files rec fuel) (unitLoop files' rec' fuel) := by
  induction fuel with
  | zero => exact fun u u' s _ _ => ⟨rfl, fun s' h => by cases h⟩
  | succ fuel ih =>
    intro u u' s h hb
    rw [unitLoop, unitLoop]
    have step : ∀ t (v v' : Unit) (s1 : Asm), Sim v v' → s1.readBuf = none →
        (match processToken files rec t v s1 with | none => none | some (false, _, s) => some (false, s) | some (true, u, s) => unitLoop files rec fuel u s) =
        (match processToken files' rec' t v' s1 with | none => none | some (false, _, s) => some (false, s) | some (true, u, s) => unitLoop files' rec' fuel u s) ∧
        ∀ s', (match processToken files rec t v s1 with | none => none | some (false, _, s) => some (false, s) | some (true, u, s) => unitLoop files rec fuel u s) = some (true, s') →
          s'.readBuf = none := by
      intro t v v' s1 hv hb1
      rcases processToken_sim hrec hfiles t hv hb1 with ⟨h1, h2⟩ | ⟨r, r', h1, h2, h3⟩
      · rw [h1, h2]
        exact ⟨rfl, fun s' h => by cases h⟩
      · rw [h1, h2]
        obtain ⟨ok, w, s2⟩ := r
        obtain ⟨ok', w', s2'⟩ := r'
        obtain ⟨rfl, rfl, h3⟩ := h3
        dsimp only at h3 ⊢
        cases ok with
        | false => exact ⟨rfl, fun s' h => by cases h⟩
        | true => exact ih w w' s2 (h3 rfl).2 (h3 rfl).1
    rcases h with ⟨rfl, hm⟩ | ⟨k, f, f', ts, rfl, rfl, h, h', hk⟩
    · have hn := nextToken_macro hm s
      generalize nextToken u s = p at hn
      obtain ⟨o, u1, s1⟩ := p
      cases o with
      | none =>
        refine ⟨rfl, fun s' h => ?_⟩
        simp only [Option.some.injEq, Prod.mk.injEq] at h
        rw [← h.2]
        exact hn.2.readBuf.trans hb
      | some t => exact step t u1 u1 s1 (.inl ⟨rfl, hn.1⟩) (hn.2.readBuf.trans hb)
    · rcases nextToken_sim h h' hk hb with ⟨v, v', h1, h2⟩ | ⟨t, v, v', ts', j, hj, h1, h2, h3, h4, h5⟩
      · rw [h1, h2]
        refine ⟨rfl, fun s' h => ?_⟩
        simp only [Option.some.injEq, Prod.mk.injEq] at h
        rw [← h.2]
        exact hb
      · rw [h1, h2]
        exact step t _ _ s (.inr ⟨j, v, v', ts', rfl, rfl, h3, h4, h5⟩) hb

omit hrec in
theorem processUnit_sim (fuel levels : Nat) : SimN (processUnit files fuel levels) (processUnit files' fuel levels) := by
  induction levels with
  | zero => exact unitLoop_sim (fun _ _ _ _ _ => ⟨rfl, fun _ h => by cases h⟩) hfiles fuel
  | succ levels ih => exact unitLoop_sim ih hfiles fuel

theorem deferredLoop_sim (fuel i : Nat) {s : Asm} (hb : s.readBuf = none) : deferredLoop files rec fuel i s = deferredLoop files' rec' fuel i s := by
  induction fuel generalizing i s with
  | zero => rfl
  | succ fuel ih =>
    rw [deferredLoop, deferredLoop]
    cases s.deferred[i]? with
    | none => rfl
    | some p =>
      obtain ⟨name, t⟩ := p
      dsimp only
      have hr := processInclude_sim hrec hfiles name t hb
      rw [← hr.1]
      have hr2 := hr.2
      generalize processInclude files rec name t s = o at hr2
      cases o with
      | none => rfl
      | some r =>
        obtain ⟨ok, s1⟩ := r
        cases ok with
        | false => rfl
        | true => exact ih (i + 1) (hr2 s1 rfl)

omit hrec in
/-- Files with the same tokens are assembled in the same way. -/
theorem assemble_sim (fuel : Nat) (filename : Str) : assemble files fuel filename = assemble files' fuel filename := by
  unfold assemble
  dsimp only
  have hrec := processUnit_sim hfiles fuel MAX_DEPTH
  have hr := processFile_sim hrec hfiles filename (s := initial) rfl
  rw [← hr.1]
  have hr2 := hr.2
  generalize processFile files (processUnit files fuel MAX_DEPTH) filename initial = o at hr2
  cases o with
  | none => rfl
  | some r =>
    obtain ⟨ok, s1⟩ := r
    cases ok with
    | false => rfl
    | true =>
      dsimp only
      unfold resolve
      rw [deferredLoop_sim hrec hfiles fuel 0 (hr2 s1 rfl)]

omit hfiles in
/-- **C34.** Line endings are interchangeable: sets of files that differ only in writing CR LF or LF are assembled in exactly
the same way, with the same code, symbols and reports. -/
theorem C34_line_endings (hsame : ∀ name, (files name = none ∧ files' name = none) ∨
      ∃ raw raw', files name = some (raw.map some) ∧ files' name = some (raw'.map some) ∧ ProperLines raw ∧ ProperLines raw' ∧
        normalise raw = normalise raw' ∧ ∃ ts, Tokens [] (normalise raw) ts true)
    (fuel : Nat) (filename : Str) : assemble files fuel filename = assemble files' fuel filename := by
  refine assemble_sim (fun name path => ?_) fuel filename
  rcases hsame name with h | ⟨raw, raw', h1, h2, h3, h4, h5, ts, h6⟩
  · exact .inl h
  · refine .inr ⟨_, _, ts.map (·.token path), h1, h2, ?_, ?_⟩
    · obtain ⟨us, ok, e1, _, e3⟩ := reads_spec _ ⟨raw.map some, path, ⟨1, 1, 0⟩⟩ [] _ ⟨rfl, raw, rfl, h3, rfl⟩ (Nat.lt_succ_self _)
      obtain ⟨rfl, rfl⟩ := C34_unique e1 h6
      exact e3 rfl
    · obtain ⟨us, ok, e1, _, e3⟩ := reads_spec _ ⟨raw'.map some, path, ⟨1, 1, 0⟩⟩ [] _ ⟨rfl, raw', rfl, h4, rfl⟩ (Nat.lt_succ_self _)
      rw [← h5] at e1
      obtain ⟨rfl, rfl⟩ := C34_unique e1 h6
      exact e3 rfl

/-! ## Instances and violations -/

/-- The texts of the tokens of a file, for examples. -/
def lexemes (text : String) : List Str × Bool := let r := lexAll 60 [] (normalise (str text)); (r.1.map (·.text), r.2)

/-- Words, a text, both kinds of line endings. -/
example : lexemes "@on-reset\r\n\t#01 \" a b\" ADD \n" = ([str "@on-reset", str "#01", str "\"a b", str "ADD"], true) := by
  decide +kernel

/-- The hypotheses of the theorem about line endings hold for a program. -/
example : ProperLines (str "#01\r\n\r\nADD") ∧ ¬ ProperLines (str "#01\rADD") ∧ normalise (str "#01\r\n\r\nADD") = str "#01\n\nADD" := by
  refine ⟨?_, ?_, by decide⟩
  · intro a b h
    have : ∀ n, n ≤ 10 → (str "#01\r\n\r\nADD")[n]? = some CR → ((str "#01\r\n\r\nADD").drop (n + 1)).head? = some LF := by decide
    have hn : (str "#01\r\n\r\nADD")[a.length]? = some CR := by rw [h]; simp
    have hl : a.length ≤ 10 := by
      have := congrArg List.length h
      rw [List.length_append] at this
      have h2 : (str "#01\r\n\r\nADD").length = 10 := by decide
      omega
    have := this a.length hl hn
    rw [h] at this
    simpa using this
  · intro h
    exact absurd (h (str "#01") (str "ADD") (by decide)) (by decide)

/-- **C34 fails** for a CR without LF: it does not end the word, and the character after it is read twice. -/
theorem C34_lone_cr_violated (s : Asm) (hb : s.readBuf = none) :
    (nextInFile ⟨(str "foo\rbar").map some, str "m", ⟨1, 1, 0⟩⟩ s).1.map (·.lex) = some (str "foobbar") := by
  obtain ⟨a, b, rb, c, d, e, f, g, h, i, j, k, l, m, n⟩ := s
  cases hb
  rfl

/-- **C34 fails** for an included file that ends in CR: the rest of the including file is dropped, without an error. -/
theorem C34_include_violated : outcome [("m", "~x INC"), ("x", " \r")] = some (true, 0, []) ∧ outcome [("m", "~x INC"), ("x", " ")] = some (true, 0, [(0x100, 1)]) := by
  decide +kernel

/-- **C34 fails** for offsets in files with CR LF: the word is at offset 2 of the file, the assembler says 1. -/
theorem C34_offset_violated (s : Asm) (hb : s.readBuf = none) :
    (nextInFile ⟨(str "\r\nINC").map some, str "m", ⟨1, 1, 0⟩⟩ s).1.map (·.region.start.byte) = some 1 := by
  obtain ⟨a, b, rb, c, d, e, f, g, h, i, j, k, l, m, n⟩ := s
  cases hb
  rfl

end Buxn.Asm
