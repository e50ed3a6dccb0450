import Verif.Asm.AcceptsWord
import Verif.Asm.Includes
/-!
# C80: comments and definitions of macros succeed
-/

namespace Buxn.Asm.Meaning
open Buxn.VM Buxn.Asm Buxn.Asm.Spec

/-- The words that a unit gives, all of them without an error. -/
inductive Feed : Unit → List Str → Prop
  | file {u : FileUnit} {ts : List Token} : Spec.Reads u ts true → (∀ t ∈ ts, t.lex ≠ []) → Feed (.file u) (ts.map (·.lex))
  | body {rest : List Token} {arg : Str} : (∀ t ∈ rest, t.lex ≠ []) → (arg ≠ [] → ∀ t ∈ rest, Short? (replace arg t.lex)) →
      Feed (.macro ⟨rest, arg⟩) (rest.map fun t => if arg = [] then t.lex else replace arg t.lex)

theorem Feed.src {u : Unit} {ws : List Str} (h : Feed u ws) : Src u ws true := by
  cases h with
  | file a b => exact .file a b
  | body a b => exact .body a ⟨fun _ => b, fun _ => rfl⟩

/-- A text that is not too long is expanded. -/
theorem expandText_can (arg w acc : Str) (h : acc.length + (replace arg w).length ≤ MAX_LONG_STRING_LEN) : ∃ rev, expandText arg w acc = some rev := by
  induction w generalizing acc with
  | nil => exact ⟨acc, rfl⟩
  | cons c cs ih =>
    have hc : replace arg (c :: cs) = (if c = ch '^' then arg else [c]) ++ replace arg cs := rfl
    rw [hc, List.length_append] at h
    rw [expandText]
    by_cases e : c = ch '^'
    · rw [if_pos e] at h ⊢
      rw [if_neg (by omega)]
      exact ih _ (by rw [List.length_append, List.length_reverse]; omega)
    · rw [if_neg e] at h ⊢
      simp only [List.length_singleton] at h
      rw [if_neg (by omega)]
      exact ih _ (by rw [List.length_cons]; omega)

/-- The next word is always there. -/
theorem Feed.next {u : Unit} {ws : List Str} (h : Feed u ws) (s : Asm) (hr : s.readBuf = none) :
    (∃ t u' rest, nextToken u s = (some t, u', s) ∧ t.lex ≠ [] ∧ ws = t.lex :: rest ∧ Feed u' rest) ∨ (∃ u', nextToken u s = (none, u', s) ∧ ws = []) := by
  cases h with
  | @file u ts h hne =>
    cases h with
    | stop h =>
      obtain ⟨h1, h2⟩ := h s hr
      refine .inr ⟨.file (nextInFile u s).2.1, ?_, rfl⟩
      show ((nextInFile u s).1, Unit.file (nextInFile u s).2.1, (nextInFile u s).2.2) = _
      rw [h1, h2]
    | @next _ u' t ts _ h1 h2 =>
      refine .inl ⟨t, .file u', ts.map (·.lex), ?_, hne t List.mem_cons_self, rfl, .file h2 fun t ht => hne t (List.mem_cons_of_mem _ ht)⟩
      show ((nextInFile u s).1, Unit.file (nextInFile u s).2.1, (nextInFile u s).2.2) = _
      rw [h1 s hr]
  | @body rest arg hne hfit =>
    cases rest with
    | nil => exact .inr ⟨_, rfl, rfl⟩
    | cons t rest =>
      have hne' : ∀ t ∈ rest, t.lex ≠ [] := fun t ht => hne t (List.mem_cons_of_mem _ ht)
      have hfit' : arg ≠ [] → ∀ t ∈ rest, Short? (replace arg t.lex) := fun ha t ht => hfit ha t (List.mem_cons_of_mem _ ht)
      have ht := hne t List.mem_cons_self
      by_cases ha : arg = []
      · subst ha
        exact .inl ⟨t, .macro ⟨rest, []⟩, _, rfl, ht, rfl, .body hne' hfit'⟩
      · have ha' : ¬ arg.length = 0 := fun h => ha (List.length_eq_zero_iff.1 h)
        have hs := hfit ha t List.mem_cons_self
        have e : nextToken (.macro ⟨t :: rest, arg⟩) s = ((nextInMacro ⟨t :: rest, arg⟩ s).1, Unit.macro (nextInMacro ⟨t :: rest, arg⟩ s).2.1, (nextInMacro ⟨t :: rest, arg⟩ s).2.2) := rfl
        rw [e]
        unfold nextInMacro
        dsimp only
        rw [if_neg ha']
        unfold Short? at hs
        obtain ⟨rev, hx⟩ := expandText_can arg t.lex [] (by
          simp only [List.length_nil, Nat.zero_add]
          show _ ≤ 1024
          refine Nat.le_trans hs ?_
          unfold TEXT WORD
          split <;> omega)
        rw [hx]
        have hrev := expandText_eq arg t.lex [] rev hx
        rw [List.reverse_nil, List.nil_append] at hrev
        dsimp only
        have hlim : ¬ (if (replace arg t.lex).head? = some (ch '"') then MAX_LONG_STRING_LEN else MAX_TOKEN_LEN) < (replace arg t.lex).length := Nat.not_lt.2 hs
        rw [hrev, if_neg hlim]
        have hlex : (if ch '^' ∈ t.lex then { t with lex := replace arg t.lex } else t).lex = replace arg t.lex := by
          split
          · rfl
          · rename_i h; rw [replace_none _ _ h]
        refine .inl ⟨_, .macro ⟨rest, arg⟩, _, rfl, ?_, ?_, .body hne' hfit'⟩
        · rw [hlex]; exact replace_ne _ _ ha ht
        · rw [List.map_cons, if_neg ha, hlex]

/-! ## Comments -/

theorem comment_length (d : Nat) (ws rest : List Str) (h : comment d ws = some rest) : rest.length ≤ ws.length := by
  induction ws generalizing d with
  | nil =>
    cases d with
    | zero => cases h; exact Nat.le_refl _
    | succ d => cases h
  | cons w ws ih =>
    cases d with
    | zero => cases h; exact Nat.le_refl _
    | succ d => rw [comment] at h; exact Nat.le_succ_of_le (ih _ h)

theorem commentLoop_can (fuel d : Nat) {u : Unit} {ws rest : List Str} {s : Asm} (hfuel : ws.length < fuel) (h : Feed u ws) (hr : s.readBuf = none) (hc : comment d ws = some rest) :
    ∃ u' s', commentLoop fuel d u s = (0, u', s') ∧ Feed u' rest ∧ Calmly s s' := by
  induction fuel generalizing d u ws s with
  | zero => omega
  | succ fuel ih =>
    rw [commentLoop]
    cases d with
    | zero =>
      rw [if_pos rfl]
      cases ws <;> cases hc <;> exact ⟨u, s, rfl, h, .refl _⟩
    | succ d =>
      rw [if_neg (Nat.succ_ne_zero d)]
      rcases h.next s hr with ⟨t, u1, ws1, e, -, rfl, h1⟩ | ⟨u1, e, rfl⟩
      · rw [e]
        dsimp only
        rw [comment] at hc
        obtain ⟨u', s', h2, h3, h4⟩ := ih (s := putSymbol s.writeAddr { type := .comment, name := some t.lex, region := t.region, id := BitVec.ofNat 16 (d + 1) } s) _
          (by rw [List.length_cons] at hfuel; omega) h1 hr hc
        exact ⟨u', s', h2, h3, (putSymbol_calm _ _ _).trans h4⟩
      · cases hc

theorem processComment_can (t : Token) {u : Unit} {ws rest : List Str} {s : Asm} (h : Feed u ws) (hr : s.readBuf = none) (hc : comment 1 ws = some rest) :
    ∃ u' s', processComment t u s = (true, u', s') ∧ Feed u' rest ∧ Calmly s s' := by
  unfold processComment
  dsimp only
  rw [((C39_loops_complete u _ (ws.length + 1)).2.1 1)]
  obtain ⟨u', s', h1, h2, h3⟩ := commentLoop_can (unitFuel u + (ws.length + 1)) 1 (s := putSymbol s.writeAddr { type := .comment, name := some t.lex, region := t.region } s) (by omega) h hr hc
  rw [h1]
  exact ⟨u', s', rfl, h2, (putSymbol_calm _ _ _).trans h3⟩

/-! ## Definitions of macros -/

theorem macroHead_can (start : Token) (fuel : Nat) {u : Unit} {ws rest : List Str} {s : Asm} (hfuel : ws.length < fuel) (h : Feed u ws) (hr : s.readBuf = none) (ho : Opens ws rest) :
    ∃ u' s', macroHead start fuel u s = (true, u', s') ∧ Feed u' rest ∧ Calmly s s' := by
  induction ho generalizing fuel u s with
  | brace =>
    obtain _ | fuel := fuel
    · omega
    rw [macroHead]
    rcases h.next s hr with ⟨t, u1, ws1, e, -, he, h1⟩ | ⟨u1, e, he⟩
    · rw [e]
      dsimp only
      obtain ⟨h2, rfl⟩ := List.cons.inj he
      rw [← h2, if_neg (by decide), if_neg (by decide), if_neg (by decide), if_pos (by decide)]
      exact ⟨u1, s, rfl, h1, .refl _⟩
    · cases he
  | @mark w ws rest hm _ ih =>
    obtain _ | fuel := fuel
    · omega
    rw [macroHead]
    rcases h.next s hr with ⟨t, u1, ws1, e, hne, he, h1⟩ | ⟨u1, e, he⟩
    · rw [e]
      dsimp only
      obtain ⟨h2, rfl⟩ := List.cons.inj he
      subst h2
      rw [List.length_cons] at hfuel
      obtain ⟨u', s', a, b, c⟩ := ih fuel (s := processMark t s) (by omega) h1 hr
      have c' : Calmly s s' := (putSymbol_calm _ _ s).trans c
      rcases hm with hm | hm
      · have : t.lex.headD 0 = ch '[' := by
          cases hl : t.lex with
          | nil => exact absurd hl hne
          | cons x l => rw [hl] at hm; exact Option.some.inj hm
        rw [this, if_neg (by decide), if_pos rfl]
        exact ⟨u', s', a, b, c'⟩
      · rw [hm, if_neg (by decide), if_neg (by decide), if_pos (by decide), if_neg (by decide)]
        exact ⟨u', s', a, b, c'⟩
    · cases he
  | @comment w ws ws' rest hm hc _ ih =>
    obtain _ | fuel := fuel
    · omega
    rw [macroHead]
    rcases h.next s hr with ⟨t, u1, ws1, e, hne, he, h1⟩ | ⟨u1, e, he⟩
    · rw [e]
      dsimp only
      obtain ⟨h2, rfl⟩ := List.cons.inj he
      subst h2
      have : t.lex.headD 0 = ch '(' := by
        cases hl : t.lex with
        | nil => exact absurd hl hne
        | cons x l => unfold IsComment at hm; rw [hl] at hm; exact Option.some.inj hm
      rw [this, if_pos rfl]
      obtain ⟨u2, s2, h3, h4, h5⟩ := processComment_can t h1 hr hc
      rw [h3]
      dsimp only
      have hlen := comment_length _ _ _ hc
      rw [List.length_cons] at hfuel
      have hr2 : s2.readBuf = none := by
        obtain ⟨_, _, _, h7⟩ := processComment_src h1.src hr h3
        exact h7.same.readBuf.trans hr
      obtain ⟨u', s', a, b, c⟩ := ih fuel (s := s2) (by omega) h4 hr2
      exact ⟨u', s', a, b, h5.trans c⟩
    · cases he

theorem macroBody_can (start : Token) (fuel d : Nat) (hd : d ≠ 0) (acc : List Token) {u : Unit} {ws b rest : List Str} {s : Asm} (hfuel : ws.length < fuel) (h : Feed u ws) (hr : s.readBuf = none)
    (hb : body d ws = some (b, rest)) : ∃ acc' u', macroBody start fuel d acc u s = (some acc', u', s) ∧ Feed u' rest := by
  induction fuel generalizing d u ws acc b with
  | zero => omega
  | succ fuel ih =>
    rw [macroBody]
    rcases h.next s hr with ⟨t, u1, ws1, e, hne, rfl, h1⟩ | ⟨u1, e, rfl⟩
    · rw [e]
      dsimp only
      rw [body] at hb
      by_cases hp : t.lex.head? = some (ch '%')
      · rw [if_pos hp] at hb; cases hb
      rw [if_neg hp] at hb
      rw [if_neg (fun e => hp (head_eq hne e))]
      rw [List.length_cons] at hfuel
      by_cases hc : t.lex = [ch '}']
      · rw [if_pos (show t.lex = str "}" from hc)] at hb
        rw [if_pos hc]
        by_cases hd1 : d ≤ 1
        · rw [if_pos hd1] at hb
          cases hb
          rw [if_pos (by omega)]
          exact ⟨acc, u1, rfl, h1⟩
        · rw [if_neg hd1, Option.map_eq_some_iff] at hb
          obtain ⟨⟨b', r'⟩, hb, he⟩ := hb
          cases he
          rw [if_neg (by omega)]
          exact ih _ (by omega) _ (by omega) h1 hb
      · rw [if_neg (show ¬ t.lex = str "}" from hc)] at hb
        rw [if_neg hc]
        have hdd : (if opensLambda t.lex = true then d + 1 else d) = (if t.lex ∈ LAMBDAS then d + 1 else d) := by
          by_cases hm : t.lex ∈ LAMBDAS
          · rw [if_pos hm, if_pos ((opensLambda_iff _).2 hm)]
          · rw [if_neg hm, if_neg (fun h => hm ((opensLambda_iff _).1 h))]
        rw [hdd]
        have h0 : (if t.lex ∈ LAMBDAS then d + 1 else d) ≠ 0 := by split <;> omega
        rw [if_neg h0]
        rw [Option.map_eq_some_iff] at hb
        obtain ⟨⟨b', r'⟩, hb, he⟩ := hb
        cases he
        exact ih _ h0 _ (by omega) h1 hb
    · cases hb

variable {d : Nat} {active : List Str} {i : Nat} {s : Asm} {S S' f : State}

theorem processMacro_can (t : Token) {u : Unit} {ws ws' b rest : List Str} (h : Sim i s S) (ho : Ok d active s) (hact : ∀ n ∈ active, S.macros.lookup n ≠ none) (hsrc : Feed u ws)
    (hm : S.macros.lookup (popFront t.lex) = none) (hop : Opens ws ws') (hb : body 1 ws' = some (b, rest))
    (hg : Grows { S with macros := (popFront t.lex, b) :: S.macros } f) (hf : Finished f) :
    ∃ u' s', processMacro t u s = (true, u', s') ∧ Feed u' rest ∧ Ok d active s' ∧ Sim i s' { S with macros := (popFront t.lex, b) :: S.macros } := by
  have hmac : f.macros.lookup (popFront t.lex) = some b := hg.macros _ _ (by rw [lookup_cons, if_pos rfl])
  obtain ⟨hv, hlab⟩ := hf.macros _ _ hmac
  have hnew : findOrCreate t (popFront t.lex) s = (some ⟨t, false, .unknown⟩, { setNode (popFront t.lex) ⟨t, false, .unknown⟩ s with names := popFront t.lex :: s.names }) := by
    rcases findOrCreate_can t (popFront t.lex) s hv with ⟨n, hsn, -⟩ | ⟨-, hfc⟩
    · exfalso
      cases hen : n.entry with
      | unknown => have := ho.settled _ _ hsn; rw [hen] at this; exact this.elim
      | «macro» a b c => exact absurd hen (h.notMacro hm hsn _ _ _)
      | label id a =>
        have : S.labels.lookup (popFront t.lex) = some a := by rw [h.tables.labels, hsn, Option.bind_some, hen]; rfl
        rw [hg.labels _ _ this] at hlab; cases hlab
      | forward id fs =>
        have hfs := ho.settled _ _ hsn
        rw [hen] at hfs
        cases fs with
        | nil => exact hfs rfl
        | cons g gs =>
          have hmem := h.tables.fwd _ n id (g :: gs) hsn hen g List.mem_cons_self
          obtain ⟨l, h1, -⟩ := hf.refs _ (hg.refs _ hmem)
          have h1 : f.labels.lookup (popFront t.lex) = some l := h1
          rw [h1] at hlab; cases hlab
    · exact hfc
  have hx : ∃ u' s', processMacro t u s = (true, u', s') ∧ Feed u' rest ∧ Ok d active s' := by
    unfold processMacro
    rw [hnew]
    have ho0 : OkBut (popFront t.lex) d active { setNode (popFront t.lex) ⟨t, false, .unknown⟩ s with names := popFront t.lex :: s.names } := ((ho.but (popFront t.lex)).change _).names _
    have hr0 : ({ setNode (popFront t.lex) ⟨t, false, .unknown⟩ s with names := popFront t.lex :: s.names } : Asm).readBuf = none := h.readBuf
    generalize ({ setNode (popFront t.lex) ⟨t, false, .unknown⟩ s with names := popFront t.lex :: s.names } : Asm) = s0 at ho0 hr0
    dsimp only
    unfold createMacro
    dsimp only
    generalize hid : s0.numMacros + 1 = id
    have ho1 : OkBut (popFront t.lex) d active (putSymbol 0 { type := .macro, name := some (popFront t.lex), region := t.region, id := id } { s0 with numMacros := id }) := ho0.calmly ⟨rfl, rfl, rfl, fun _ h => List.mem_cons_of_mem _ h⟩
    have hd1 : Declared (putSymbol 0 { type := .macro, name := some (popFront t.lex), region := t.region, id := id } { s0 with numMacros := id }).log .macro 0 (popFront t.lex) t.region :=
      ⟨_, List.mem_cons_self, rfl, rfl, rfl, rfl⟩
    have hr1 : (putSymbol 0 { type := .macro, name := some (popFront t.lex), region := t.region, id := id } { s0 with numMacros := id }).readBuf = none := hr0
    generalize putSymbol 0 { type := .macro, name := some (popFront t.lex), region := t.region, id := id } { s0 with numMacros := id } = s1 at ho1 hr1 hd1
    rw [(C39_loops_complete u s1 (ws.length + 1)).2.2.1 t]
    obtain ⟨u2, s2, h1, h2, h3⟩ := macroHead_can t (unitFuel u + (ws.length + 1)) (s := s1) (by omega) hsrc hr1 hop
    rw [h1]
    dsimp only
    have hr2 : s2.readBuf = none := by
      obtain ⟨_, _, _, h7⟩ := macroHead_src t _ hsrc.src hr1 h1
      exact h7.same.readBuf.trans hr1
    rw [(C39_loops_complete u2 (setNode (popFront t.lex) ⟨t, false, .macro [] 0 false⟩ s2) (ws'.length + 1)).2.2.2 t 1 []]
    obtain ⟨acc, u3, h4, h5⟩ := macroBody_can t (unitFuel u2 + (ws'.length + 1)) 1 (by omega) [] (s := setNode (popFront t.lex) ⟨t, false, .macro [] 0 false⟩ s2) (by omega) h2 hr2 hb
    rw [h4]
    refine ⟨u3, _, rfl, h5, ((ho1.calmly h3).change _).set _ ?_⟩
    refine ⟨⟨(fun h => by cases h), fun hin => absurd hm (hact _ hin)⟩, fun _ => ?_⟩
    obtain ⟨x, hx1, hx2⟩ := hd1
    exact ⟨x, h3.log _ hx1, hx2⟩
  obtain ⟨u', s', h1, h2, h3⟩ := hx
  refine ⟨u', s', h1, h2, h3, ?_⟩
  obtain ⟨ws1, b1, rest1, -, -, h4, h5, -, h6⟩ := processMacro_sim t h hsrc.src h1
  cases opens_unique h4 hop
  rw [hb] at h5
  cases h5
  exact h6

end Buxn.Asm.Meaning
