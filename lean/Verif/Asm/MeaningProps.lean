import Verif.Asm.MeaningRun
/-!
# C78: the assembler writes the image that the source denotes
-/

namespace Buxn.Asm.Meaning
open Buxn.VM Buxn.Asm Buxn.Asm.Spec

/-! ## One word -/

theorem step_word {files : Files} {i : Nat} {w : Str} {ws : List Str} {ok : Bool} {S S1 : State} {s : Asm} {u : Unit} {s' : Asm} (hsrc : Src u ws ok) (hm : IsName w → S.macros.lookup w = none)
    (hfit : Fits w S) (hw : Word w S S1) (h1 : Sim i s' S1) : Steps files i w ws ok S s u s' := ⟨ws, S1, hsrc, h1, fun _ _ _ hr => .word hm hfit hw hr⟩

theorem keep_ok {u u' : Unit} {r : Bool × Asm} {s' : Asm} (h : keep u r = some (true, u', s')) : r.1 = true ∧ u = u' ∧ r.2 = s' := by
  unfold keep at h
  simp only [Option.some.injEq, Prod.mk.injEq] at h
  exact h

theorem ite_err {c : Prop} [Decidable c] {m : String} {rg : Region} {s : Asm} {r : Bool × Asm} (h : (if c then error m rg s else r).1 = true) : ¬ c ∧ (if c then error m rg s else r) = r := by
  split at h
  · cases h
  · rename_i hc; exact ⟨hc, if_neg hc⟩

theorem runic_list (c : Byte) : isRunic c = true → c ∈ [ch '(', ch ')', ch '[', ch ']', ch '~', ch '%', ch '@', ch '&', ch '!', ch '?', ch '}', ch '{', ch '/', ch '|', ch '$', ch '#', ch '.', ch '-', ch ',',
    ch '_', ch ';', ch '=', ch '"'] := by
  revert c; decide +kernel

theorem plain_rune (c : Byte) : c ≠ ch '(' → c ≠ ch ')' → c ≠ ch '[' → c ≠ ch ']' → c ≠ ch '~' → c ≠ ch '%' → c ≠ ch '@' → c ≠ ch '&' → c ≠ ch '!' → c ≠ ch '?' → c ≠ ch '}' →
    c ≠ ch '{' → c ≠ ch '/' → c ≠ ch '|' → c ≠ ch '$' → c ≠ ch '#' → c ≠ ch '.' → c ≠ ch '-' → c ≠ ch ',' → c ≠ ch '_' → c ≠ ch ';' → c ≠ ch '=' → c ≠ ch '"' → isRunic c = false := by
  intros
  cases hr : isRunic c with
  | false => rfl
  | true =>
    have := runic_list c hr
    simp only [List.mem_cons, List.not_mem_nil, or_false] at this
    tauto

theorem processToken_sim {files : Files} {rec : Nested} (hf : Texts files) (hrec : RecSim files rec) {i : Nat} {s s' : Asm} {S : State} {ok : Bool} {u u' : Unit} {ws : List Str} (t : Token)
    (h : Sim i s S) (hsrc : Src u ws ok) (hne : t.lex ≠ []) (he : processToken files rec t u s = some (true, u', s')) (hs : s'.success = true) : Steps files i t.lex ws ok S s u' s' := by
  obtain ⟨c, rest, hl⟩ : ∃ c rest, t.lex = c :: rest := by
    cases hx : t.lex with
    | nil => exact absurd hx hne
    | cons c rest => exact ⟨c, rest, rfl⟩
  have hhd : t.lex.headD 0 = c := by rw [hl]; rfl
  have hpop : popFront t.lex = rest := by rw [hl]; rfl
  have htail : t.lex.tail = rest := by rw [hl]; rfl
  have hlen : t.lex.length = rest.length + 1 := by rw [hl]; rfl
  have hname : c ∈ RUNES → IsName t.lex → S.macros.lookup t.lex = none := fun hc hn => by rw [hl] at hn; exact absurd hn (rune_name hc)
  have hfit : c ≠ ch '&' → Fits t.lex S := fun hc r hr => by
    rw [hl] at hr
    exact absurd (List.cons.inj hr).1 hc
  have href : ∀ op k z, runes.lookup c = some (op, k, z) → ∀ r : Bool × Asm, c ≠ ch '&' → c ∈ RUNES → keep u r = some (true, u', s') →
      (r.1 = true → r.2.success = true → ∃ S', Refers rest k z (S.put op.toList) S' ∧ Sim i r.2 S') → Steps files i t.lex ws ok S s u' s' := by
    intro op k z hlk r hamp hc hk hr
    obtain ⟨h1, rfl, rfl⟩ := keep_ok hk
    obtain ⟨S', h2, h3⟩ := hr h1 hs
    exact step_word hsrc (hname hc) (hfit hamp) (by rw [hl]; exact word_rune hlk h2) h3
  unfold processToken at he
  dsimp only at he
  rw [hhd, hpop] at he
  by_cases hc : c = ch '('
  · rw [if_pos hc] at he
    simp only [Option.some.injEq] at he
    obtain ⟨rest', h1, h2, h3⟩ := processComment_src hsrc h.readBuf he
    exact ⟨rest', S, h2, h.same h3, fun _ _ _ hr => .comment (by rw [hl, hc]; rfl) h1 hr⟩
  rw [if_neg hc] at he
  rename' hc => n0
  by_cases hc : c = ch ')'
  · rw [if_pos hc] at he
    have := (keep_ok he).1
    cases this
  rw [if_neg hc] at he
  rename' hc => n1
  by_cases hc : c = ch '['
  · rw [if_pos hc] at he
    obtain ⟨-, rfl, rfl⟩ := keep_ok he
    exact ⟨ws, S, hsrc, h.same (processMark_emits t s), fun _ _ _ hr => .mark (.inl (by rw [hl, hc]; rfl)) hr⟩
  rw [if_neg hc] at he
  rename' hc => n2
  by_cases hc : c = ch ']'
  · rw [if_pos hc] at he
    obtain ⟨h1, rfl, rfl⟩ := keep_ok he
    obtain ⟨h2, h3⟩ := ite_err h1
    rw [h3]
    exact ⟨ws, S, hsrc, h.same (processMark_emits t s), fun _ _ _ hr => .mark (isMark_of hne (.inr ⟨hhd.trans hc, Decidable.not_not.1 h2⟩)) hr⟩
  rw [if_neg hc] at he
  rename' hc => n3
  by_cases hc : c = ch '~'
  · rw [if_pos hc] at he
    rw [Option.map_eq_some_iff] at he
    obtain ⟨⟨b, s2⟩, h1, h2⟩ := he
    cases h2
    exact tilde_sim hf hrec t rest (by rw [hl, hc]) h hsrc h1 hs
  rw [if_neg hc] at he
  rename' hc => n4
  by_cases hc : c = ch '%'
  · rw [if_pos hc] at he
    simp only [Option.some.injEq] at he
    obtain ⟨ws1, b, rest', h1, h2, h3, h4, h5, h6⟩ := processMacro_sim t h hsrc he
    rw [hpop] at h1 h2 h6
    exact ⟨rest', _, h5, h6, fun _ _ _ hr => .define (by rw [hl, hc]) h1 h2 h3 h4 hr⟩
  rw [if_neg hc] at he
  rename' hc => n5
  by_cases hc : c = ch '@'
  · rw [if_pos hc] at he
    obtain ⟨h1, rfl, rfl⟩ := keep_ok he
    obtain ⟨S', h2, h3⟩ := globalLabel_sim h t rest (by rw [hl, hc]) h1 hs
    exact step_word hsrc (hname (by rw [hc]; decide)) (hfit (by rw [hc]; decide)) h2 h3
  rw [if_neg hc] at he
  rename' hc => n6
  by_cases hc : c = ch '&'
  · rw [if_pos hc] at he
    obtain ⟨h1, rfl, rfl⟩ := keep_ok he
    obtain ⟨S', hft, h2, h3⟩ := localLabel_sim h t rest (by rw [hl, hc]) h1 hs
    exact step_word hsrc (hname (by rw [hc]; decide)) hft h2 h3
  rw [if_neg hc] at he
  rename' hc => n7
  by_cases hc : c = ch '!'
  · rw [if_pos hc] at he
    exact href (some 0x40) .rel .short (by rw [hc]; decide +kernel) _ (by rw [hc]; decide) (by rw [hc]; decide) he fun h1 h2 => opRef_sim h t 0x40 true true .rel .short rest h1 h2
  rw [if_neg hc] at he
  rename' hc => n8
  by_cases hc : c = ch '?'
  · rw [if_pos hc] at he
    exact href (some 0x20) .rel .short (by rw [hc]; decide +kernel) _ (by rw [hc]; decide) (by rw [hc]; decide) he fun h1 h2 => opRef_sim h t 0x20 true true .rel .short rest h1 h2
  rw [if_neg hc] at he
  rename' hc => n9
  by_cases hc : c = ch '}'
  · rw [if_pos hc] at he
    obtain ⟨h1, rfl, rfl⟩ := keep_ok he
    obtain ⟨h2, h3⟩ := ite_err h1
    rw [h3] at h1 hs ⊢
    obtain ⟨k, ks, h4, h5⟩ := processLambdaClose_sim h t h1 hs
    have hr : rest = [] := List.length_eq_zero_iff.1 (by omega)
    refine step_word hsrc (hname (by rw [hc]; decide)) (hfit (by rw [hc]; decide)) ?_ h5
    rw [hl, hr, hc]
    refine word_none (by decide +kernel) ?_
    rw [if_neg (by decide), if_neg (by decide), if_neg (by decide), if_neg (by decide), if_neg (by decide), if_neg (by decide), if_neg (by decide), if_pos (show [ch '}'] = str "}" from rfl)]
    exact ⟨k, ks, h4, rfl⟩
  rw [if_neg hc] at he
  rename' hc => n10
  by_cases hc : c = ch '{'
  · rw [if_pos hc] at he
    obtain ⟨h1, rfl, rfl⟩ := keep_ok he
    obtain ⟨h2, h3⟩ := ite_err h1
    rw [h3] at h1 hs ⊢
    obtain ⟨S', h4, h5⟩ := jsi_sim h t h1 hs
    have hr : rest = [] := List.length_eq_zero_iff.1 (by omega)
    refine step_word hsrc (hname (by rw [hc]; decide)) (hfit (by rw [hc]; decide)) ?_ h5
    rw [hl, hr, hc] at h4
    rw [hl, hr, hc]
    refine word_none (by decide +kernel) ?_
    rw [if_neg (by decide), if_neg (by decide), if_neg (by decide), if_neg (by decide), if_neg (by decide), if_neg (by decide), if_neg (by decide), if_neg (by decide), if_pos (show [ch '{'] = str "{" ∨ _ from .inl rfl)]
    exact h4
  rw [if_neg hc] at he
  rename' hc => n11
  by_cases hc : c = ch '/'
  · rw [if_pos hc] at he
    obtain ⟨h1, rfl, rfl⟩ := keep_ok he
    obtain ⟨S', h4, h5⟩ := jsi_sim h t h1 hs
    refine step_word hsrc (hname (by rw [hc]; decide)) (hfit (by rw [hc]; decide)) ?_ h5
    rw [hl, hc] at h4
    rw [hl, hc]
    refine word_none (by decide +kernel) ?_
    rw [if_neg (by decide), if_neg (by decide), if_neg (by decide), if_neg (by decide), if_neg (show ch '/' :: rest ≠ str "@@" from fun e => absurd (List.cons.inj e).1 (by decide)), if_neg (by decide), if_neg (by decide),
      if_neg (show ch '/' :: rest ≠ str "}" from fun e => absurd (List.cons.inj e).1 (by decide)), if_pos (.inr rfl)]
    exact h4
  rw [if_neg hc] at he
  rename' hc => n12
  by_cases hc : c = ch '|'
  · rw [if_pos hc] at he
    obtain ⟨h1, rfl, rfl⟩ := keep_ok he
    obtain ⟨a, S1, h2, h3⟩ := absPadding_sim h t h1
    rw [hpop] at h2
    refine step_word hsrc (hname (by rw [hc]; decide)) (hfit (by rw [hc]; decide)) ?_ h3
    rw [hl, hc]
    refine word_none (by decide +kernel) ?_
    rw [if_neg (by decide), if_neg (by decide), if_pos rfl]
    exact ⟨a, S1, h2, rfl⟩
  rw [if_neg hc] at he
  rename' hc => n13
  by_cases hc : c = ch '$'
  · rw [if_pos hc] at he
    obtain ⟨h1, rfl, rfl⟩ := keep_ok he
    obtain ⟨a, S1, h2, h3⟩ := relPadding_sim h t h1
    rw [hpop] at h2
    refine step_word hsrc (hname (by rw [hc]; decide)) (hfit (by rw [hc]; decide)) ?_ h3
    rw [hl, hc]
    refine word_none (by decide +kernel) ?_
    rw [if_neg (by decide), if_neg (by decide), if_neg (by decide), if_pos rfl]
    exact ⟨a, S1, h2, rfl⟩
  rw [if_neg hc] at he
  rename' hc => n14
  by_cases hc : c = ch '#'
  · rw [if_pos hc] at he
    obtain ⟨h1, rfl, rfl⟩ := keep_ok he
    obtain ⟨v, k, h2, h3⟩ := litNumber_sim h t h1 hs
    rw [hpop] at h2
    refine step_word hsrc (hname (by rw [hc]; decide)) (hfit (by rw [hc]; decide)) ?_ h3
    rw [hl, hc]
    refine word_none (by decide +kernel) ?_
    rw [if_pos rfl]
    exact ⟨v, k, h2, rfl⟩
  rw [if_neg hc] at he
  rename' hc => n15
  by_cases hc : c = ch '.'
  · rw [if_pos hc] at he
    exact href (some 0x80) .zero .byte (by rw [hc]; decide +kernel) _ (by rw [hc]; decide) (by rw [hc]; decide) he fun h1 h2 => opRef_sim h t 0x80 true true .zero .byte rest h1 h2
  rw [if_neg hc] at he
  rename' hc => n16
  by_cases hc : c = ch '-'
  · rw [if_pos hc] at he
    exact href none .zero .byte (by rw [hc]; decide +kernel) _ (by rw [hc]; decide) (by rw [hc]; decide) he fun h1 h2 => emitLabelRef_sim h t .zero .byte rest true h1 h2
  rw [if_neg hc] at he
  rename' hc => n17
  by_cases hc : c = ch ','
  · rw [if_pos hc] at he
    exact href (some 0x80) .rel .byte (by rw [hc]; decide +kernel) _ (by rw [hc]; decide) (by rw [hc]; decide) he fun h1 h2 => opRef_sim h t 0x80 true true .rel .byte rest h1 h2
  rw [if_neg hc] at he
  rename' hc => n18
  by_cases hc : c = ch '_'
  · rw [if_pos hc] at he
    exact href none .rel .byte (by rw [hc]; decide +kernel) _ (by rw [hc]; decide) (by rw [hc]; decide) he fun h1 h2 => emitLabelRef_sim h t .rel .byte rest true h1 h2
  rw [if_neg hc] at he
  rename' hc => n19
  by_cases hc : c = ch ';'
  · rw [if_pos hc] at he
    exact href (some 0xa0) .abs .short (by rw [hc]; decide +kernel) _ (by rw [hc]; decide) (by rw [hc]; decide) he fun h1 h2 => opRef_sim h t 0xa0 true true .abs .short rest h1 h2
  rw [if_neg hc] at he
  rename' hc => n20
  by_cases hc : c = ch '='
  · rw [if_pos hc] at he
    exact href none .abs .short (by rw [hc]; decide +kernel) _ (by rw [hc]; decide) (by rw [hc]; decide) he fun h1 h2 => emitLabelRef_sim h t .abs .short rest true h1 h2
  rw [if_neg hc] at he
  rename' hc => n21
  by_cases hc : c = ch '"'
  · rw [if_pos hc] at he
    obtain ⟨h1, rfl, rfl⟩ := keep_ok he
    obtain ⟨h2, h3⟩ := text_sim h t h1 hs
    rw [htail] at h2 h3
    refine step_word hsrc (hname (by rw [hc]; decide)) (hfit (by rw [hc]; decide)) ?_ h3
    rw [hl, hc]
    refine word_none (by decide +kernel) ?_
    rw [if_neg (by decide), if_pos rfl]
    exact ⟨h2, rfl⟩
  rw [if_neg hc] at he
  rename' hc => n22
  have hplain : ∀ d, t.lex.head? = some d → isRunic d = false := by
    intro d hd
    rw [hl] at hd
    cases hd
    exact plain_rune c n0 n1 n2 n3 n4 n5 n6 n7 n8 n9 n10 n11 n12 n13 n14 n15 n16 n17 n18 n19 n20 n21 n22
  by_cases hnum : isNumber t.lex = true
  · rw [if_pos hnum] at he
    obtain ⟨h1, rfl, rfl⟩ := keep_ok he
    obtain ⟨v, k, h2, h3⟩ := rawNumber_sim h t h1 hs
    exact step_word hsrc (fun hn => absurd ⟨v, k, h2⟩ hn.2.1) (hfit n7) (word_bare hne hplain (.inl ⟨v, k, h2, rfl⟩)) h3
  rw [if_neg hnum] at he
  rcases processWord_sim rec t u u' h hne (by simpa using hnum) he hs with ⟨rfl, S', h1, h2, h3⟩ | ⟨hn, n, s1, b, id, x, h1, h2, h3⟩
  · exact step_word hsrc h1 (hfit n7) (word_bare hne hplain h2) h3
  · obtain ⟨h4, h5, -⟩ := findOrCreate_sim h h1
    have h6 := h4.mark t.lex { n with referenced := true, entry := .macro b id x } n h5 h2.symm (by simp) rfl
    refine .before ?_ ?_ (expandMacro_sim hrec t _ b id x h6 hsrc hn (by simp [setNode]) rfl h3 hs)
    · have := (findOrCreate_calm t t.lex s).depth
      rw [h1] at this
      exact this
    · intro k hk
      obtain ⟨b', j, hk⟩ := hk
      have hc := (findOrCreate_calm t t.lex s).macros k
      rw [h1] at hc
      have hc : macroOf s1 k = macroOf s k := hc
      refine ⟨b', j, ?_⟩
      rw [macroOf_set]
      split
      · rename_i e
        subst e
        rw [← hc, macroOf_some h5, h2] at hk
        exact hk
      · exact hc.trans hk

/-! ## Units -/

theorem unitLoop_sim {files : Files} {rec : Nested} (hf : Texts files) (hrec : RecSim files rec) (hgood : GoodN (fun a b => Ext a b ∧ KeepsMacros a b) rec) (hway : WayN files rec) (hdep : DepthN rec) (fuel : Nat) {i : Nat} {s s' : Asm} {S : State} {ok b : Bool} {u : Unit} {ws : List Str}
    (h : Sim i s S) (hsrc : Src u ws ok) (he : unitLoop files rec fuel u s = some (b, s')) (hs : s'.success = true) : ok = true ∧ ∃ S', (∀ active, (∀ n ∈ active, Busy s n) → Within files s.depth active ws S S') ∧ Sim i s' S' := by
  induction fuel generalizing u ws s S with
  | zero => cases he
  | succ fuel ih =>
    rw [unitLoop] at he
    rcases hsrc.next s h.readBuf with ⟨t, u1, rest, e, htne, rfl, hsrc1⟩ | ⟨u1, e, rfl, rfl⟩ | ⟨u1, s1, e, h1⟩
    · rw [e] at he
      dsimp only at he
      cases hp : processToken files rec t u1 s with
      | none => rw [hp] at he; cases he
      | some r =>
        obtain ⟨c, u2, s2⟩ := r
        rw [hp] at he
        cases c with
        | false =>
          dsimp only at he
          cases he
          have := (processToken_good ext_atoms.closed files rec hgood t u1 s _ hp).2 rfl
          rw [hs] at this; cases this
        | true =>
          dsimp only at he
          have hs2 : s2.success = true := (unitLoop_good ext_atoms.closed files rec hgood fuel u2 s2 _ he).1.1.ok hs
          obtain ⟨ws', S1, h2, h3, h4⟩ := processToken_sim hf hrec t h hsrc1 htne hp hs2
          obtain ⟨hok, S', h5, h6⟩ := ih h3 h2 he
          refine ⟨hok, S', fun active ha => h4 active ha S' ?_, h6⟩
          have hd2 : s2.depth = s.depth := processToken_depth hdep t u1 s _ hp
          rw [← hd2]
          exact h5 active fun n hn => (processToken_way hway t u1 s _ hp).keepsBusy (ha n hn)
    · rw [e] at he
      cases he
      exact ⟨rfl, S, fun _ _ => .done, h⟩
    · rw [e] at he
      cases he
      rw [hs] at h1; cases h1

theorem processUnit_sim {files : Files} (hf : Texts files) (fuel levels : Nat) : RecSim files (processUnit files fuel levels) := by
  induction levels with
  | zero =>
    intro i u ws ok s S b s' hsrc h he hs
    exact unitLoop_sim hf (fun _ _ _ _ _ _ _ _ _ _ h => by cases h) (fun _ _ _ h => by cases h) (fun _ _ _ h => by cases h) (fun _ _ _ h => by cases h) fuel h hsrc he hs
  | succ levels ih =>
    intro i u ws ok s S b s' hsrc h he hs
    exact unitLoop_sim hf ih (processUnit_good ext_atoms.closed files fuel levels) (processUnit_way files fuel levels) (processUnit_depth files fuel levels) fuel h hsrc he hs

/-! ## The files at the end -/

theorem deferredLoop_sim {files : Files} {rec : Nested} (hf : Texts files) (hrec : RecSim files rec) (hgood : GoodN (fun a b => Ext a b ∧ KeepsMacros a b) rec) (hway : WayN files rec) (hdep : DepthN rec) (fuel i : Nat) {s s' : Asm} {S : State} {b : Bool}
    (h : Sim i s S) (h0 : s.depth = 0) (he : deferredLoop files rec fuel i s = some (b, s')) (hs : s'.success = true) : ∃ j S', EndsWithin files S S' ∧ Sim j s' S' := by
  induction fuel generalizing i s S with
  | zero => cases he
  | succ fuel ih =>
    rw [deferredLoop] at he
    cases hd : s.deferred[i]? with
    | none =>
      rw [hd] at he
      cases he
      refine ⟨i, S, .done ?_, h⟩
      rw [h.deferred, List.drop_eq_nil_of_le (List.getElem?_eq_none_iff.1 hd)]; rfl
    | some p =>
      obtain ⟨name, t⟩ := p
      rw [hd] at he
      dsimp only at he
      obtain ⟨hlt, hget⟩ := List.getElem?_eq_some_iff.1 hd
      have hdef : S.deferred = name :: (s.deferred.drop (i + 1)).map (·.1) := by
        rw [h.deferred, List.drop_eq_getElem_cons hlt, hget]; rfl
      have h1 : Sim (i + 1) s { S with deferred := (s.deferred.drop (i + 1)).map (·.1) } :=
        ⟨h.readBuf, h.addr, h.scope, h.anonymous, h.included, rfl, hlt, h.tables, h.lams, h.memory, h.history⟩
      cases hp : processInclude files rec name t s with
      | none => rw [hp] at he; cases he
      | some r =>
        obtain ⟨c, s2⟩ := r
        rw [hp] at he
        cases c with
        | false =>
          dsimp only at he
          cases he
          have := (processInclude_good ext_atoms.closed files rec hgood _ _ _ _ hp).2 rfl
          rw [hs] at this; cases this
        | true =>
          dsimp only at he
          have hs2 : s2.success = true := (deferredLoop_good ext_atoms.closed files rec hgood fuel (i + 1) s2 _ he).1.1.ok hs
          have hd2 : s2.depth = 0 := (processInclude_depth hdep name t s _ hp).trans h0
          rcases processInclude_sim hf hrec name t h1 hp hs2 with ⟨h2, h3⟩ | ⟨h2, inner, S1, h3, h4, h5⟩
          · obtain ⟨j, S', h6, h7⟩ := ih _ h3 hd2 he
            exact ⟨j, S', .again hdef h2 h6, h7⟩
          · obtain ⟨j, S', h6, h7⟩ := ih _ h5 hd2 he
            have h4 := h4 [] fun _ h => by cases h
            rw [h0] at h4
            exact ⟨j, S', .include hdef h2 h3 h4 h6, h7⟩

/-! ## The end -/

theorem initial_sim : Sim 0 initial {} where
  readBuf := rfl
  addr := rfl
  scope := rfl
  anonymous := rfl
  included := rfl
  deferred := rfl
  index := Nat.le_refl _
  tables := ⟨fun _ _ h => (by cases h), rfl, fun _ => rfl, fun _ => rfl, fun _ _ _ _ _ h => (by cases h), fun _ _ _ _ h => (by cases h), fun _ h => (by cases h),
    fun _ => ⟨fun h => (by cases h), fun ⟨_, h, _⟩ => (by cases h)⟩, fun _ _ h => (by cases h)⟩
  lams := ⟨.nil, .nil, fun _ h => (by cases h), fun _ _ h => (by cases h), fun _ h => (by cases h), .nil⟩
  memory := ⟨.nil, fun _ h => (by cases h), fun _ _ h => (by cases h), fun _ h => (by cases h), fun _ _ h => (by cases h)⟩
  history := ⟨rfl, fun _ _ _ _ h => (by cases h)⟩

theorem reportRefs_written (fs : List FRef) (s : Asm) : written (reportRefs fs s).log = written s.log := by
  induction fs generalizing s with
  | nil => rfl
  | cons f fs ih => rw [reportRefs, ih]; rfl

theorem reportLambdas_written (fs : List FRef) (s : Asm) : written (reportLambdas fs s).log = written s.log := by
  induction fs generalizing s with
  | nil => rfl
  | cons f fs ih => rw [reportLambdas, ih]; rfl

theorem reportAtLabels_written (fs : List FRef) (s : Asm) : written (reportAtLabels fs s).log = written s.log := by
  induction fs generalizing s with
  | nil => rfl
  | cons f fs ih => rw [reportAtLabels, ih]; rfl

theorem ite_written {c : Prop} [Decidable c] {m : String} {r : Region} (s : Asm) : written (if c then warning m r s else s).log = written s.log := by split <;> rfl

theorem reportSymbols_written (ks : List Str) (s : Asm) : written (reportSymbols ks s).log = written s.log := by
  induction ks generalizing s with
  | nil => rfl
  | cons k ks ih =>
    unfold reportSymbols
    rw [ih]
    split
    · rfl
    · dsimp only
      split
      · exact reportRefs_written _ _
      · rfl
      · exact ite_written s
      · exact ite_written s

theorem reportRefs_emitted (fs : List FRef) (s : Asm) : emitted (reportRefs fs s).log = emitted s.log := by
  induction fs generalizing s with
  | nil => rfl
  | cons f fs ih => rw [reportRefs, ih]; rfl

theorem reportLambdas_emitted (fs : List FRef) (s : Asm) : emitted (reportLambdas fs s).log = emitted s.log := by
  induction fs generalizing s with
  | nil => rfl
  | cons f fs ih => rw [reportLambdas, ih]; rfl

theorem reportAtLabels_emitted (fs : List FRef) (s : Asm) : emitted (reportAtLabels fs s).log = emitted s.log := by
  induction fs generalizing s with
  | nil => rfl
  | cons f fs ih => rw [reportAtLabels, ih]; rfl

theorem ite_emitted {c : Prop} [Decidable c] {m : String} {r : Region} (s : Asm) : emitted (if c then warning m r s else s).log = emitted s.log := by split <;> rfl

theorem reportSymbols_emitted (ks : List Str) (s : Asm) : emitted (reportSymbols ks s).log = emitted s.log := by
  induction ks generalizing s with
  | nil => rfl
  | cons k ks ih =>
    unfold reportSymbols
    rw [ih]
    split
    · rfl
    · dsimp only
      split
      · exact reportRefs_emitted _ _
      · rfl
      · exact ite_emitted s
      · exact ite_emitted s

/-- At the end of a run without errors every reference has a target. -/
theorem found_end {i : Nat} {s : Asm} {S : State} (h : Sim i s S) (hlam : s.lambdas = []) (hfw : ∀ name n id fs, s.symtab name = some n → n.entry = .forward id fs → fs = [])
    (r : Reference) (hr : r ∈ S.refs) : ∃ l, S.find r.target = some l := by
  cases ht : r.target with
  | place a => exact ⟨a, rfl⟩
  | name n =>
    cases hl : S.labels.lookup n with
    | some l => exact ⟨l, hl⟩
    | none =>
      obtain ⟨m, id, fs, h1, h2, f, h3, -⟩ := h.tables.wait r hr n ht hl
      rw [hfw n m id fs h1 h2] at h3; cases h3
  | lambda k =>
    obtain ⟨-, h1⟩ := h.lams.all r hr k ht
    have ho := h.lams.opened
    rw [hlam] at ho
    generalize S.opened = op at ho h1
    cases ho
    rcases h1 with h1 | h1
    · cases h1
    · cases hl : S.closed.lookup k with
      | some l => exact ⟨l, hl⟩
      | none => exact absurd hl h1

/-- At the end of a run without errors nothing is pending, and the image is the one of the specification. -/
theorem holds_end {i : Nat} {s : Asm} {S : State} (h : Sim i s S) (hlam : s.lambdas = []) (hfw : ∀ name n id fs, s.symtab name = some n → n.entry = .forward id fs → fs = [])
    (hd : S.places.Nodup) : Holds S (img (written s.log)) := by
  have hem : (emitted s.log).Nodup := h.memory.places.nodup_iff.2 hd
  refine ⟨h.memory.bytes hem, fun r hr => ?_, fun a ha => ?_⟩
  · obtain ⟨l, hl⟩ := found_end h hlam hfw r hr
    obtain ⟨h1, h2⟩ := h.memory.refs hem r hr l (by unfold findIn; unfold State.find at hl; exact hl)
    exact ⟨l, hl, h1, h2⟩
  · unfold img
    rw [List.find?_eq_none.2]
    intro p hp he
    simp only [decide_eq_true_eq] at he
    exact ha (h.memory.places.mem_iff.1 (he ▸ h.memory.sub p hp))

/-- A run without errors ends in a state of the specification, in which nothing is pending. -/
theorem assemble_sim (files : Files) (hf : Texts files) (fuel : Nat) (filename : Str) (s : Asm) (h : assemble files fuel filename = some (true, s)) :
    ∃ (S : State) (j : Nat) (s0 : Asm), ProgramWithin files filename S ∧ Sim j s0 S ∧ s0.lambdas = [] ∧ (∀ name n id fs, s0.symtab name = some n → n.entry = .forward id fs → fs = []) ∧
      emitted s.log = emitted s0.log ∧ written s.log = written s0.log ∧ s.symtab = s0.symtab := by
  unfold assemble at h
  dsimp only at h
  have hrec := processUnit_sim hf fuel MAX_DEPTH
  have hgood := processUnit_good ext_atoms.closed files fuel MAX_DEPTH
  cases hp : processFile files (processUnit files fuel MAX_DEPTH) filename initial with
  | none => rw [hp] at h; cases h
  | some r =>
    obtain ⟨b, s1⟩ := r
    rw [hp] at h
    cases b with
    | false =>
      simp only [Option.some.injEq, Prod.mk.injEq] at h
      have := (processFile_good ext_atoms.closed files _ hgood _ _ _ hp).2 rfl
      rw [h.1] at this; cases this
    | true =>
      dsimp only at h
      cases hq : resolve files (processUnit files fuel MAX_DEPTH) fuel s1 with
      | none => rw [hq] at h; cases h
      | some r =>
        obtain ⟨c, s2⟩ := r
        rw [hq] at h
        simp only [Option.some.injEq, Prod.mk.injEq] at h
        obtain ⟨hok, rfl⟩ := h
        have hs1 : s1.success = true := (resolve_good ext_atoms.closed (reported warning_ext) files _ hgood fuel s1 _ hq).1.1.ok hok
        obtain ⟨ws, S1, h1, h2, h3⟩ := processFile_sim hf hrec filename initial_sim hp hs1
        unfold resolve at hq
        cases hr : deferredLoop files (processUnit files fuel MAX_DEPTH) fuel 0 s1 with
        | none => rw [hr] at hq; cases hq
        | some r =>
          obtain ⟨d, s0⟩ := r
          rw [hr] at hq
          cases d with
          | false =>
            cases hq
            have := (deferredLoop_good ext_atoms.closed files _ hgood fuel 0 s1 _ hr).2 rfl
            rw [hok] at this; cases this
          | true =>
            dsimp only at hq
            simp only [Option.some.injEq, Prod.mk.injEq] at hq
            obtain ⟨-, rfl⟩ := hq
            have q1 := reportLambdas_quiet s0.lambdas s0
            have q2 := reportAtLabels_quiet (reportLambdas s0.lambdas s0).atLabels (reportLambdas s0.lambdas s0)
            have q3 := reportSymbols_quiet (reportAtLabels (reportLambdas s0.lambdas s0).atLabels (reportLambdas s0.lambdas s0)).names.reverse (reportAtLabels (reportLambdas s0.lambdas s0).atLabels (reportLambdas s0.lambdas s0))
            have hs0 : s0.success = true := q1.ext.ok (q2.ext.ok (q3.ext.ok hok))
            obtain ⟨j, S, h4, h5⟩ := deferredLoop_sim hf hrec hgood (processUnit_way files fuel MAX_DEPTH) (processUnit_depth files fuel MAX_DEPTH) fuel 0 h3 (processFile_depth (processUnit_depth files fuel MAX_DEPTH) filename initial _ hp) hr hs0
            have hlam : s0.lambdas = [] := by
              cases hl : s0.lambdas with
              | nil => rfl
              | cons f fs =>
                rw [hl] at q2 q3 hok
                have := q2.ext.ok (q3.ext.ok hok)
                rw [reportLambdas_fails] at this; cases this
            have hnames : (reportAtLabels (reportLambdas s0.lambdas s0).atLabels (reportLambdas s0.lambdas s0)).names = s0.names := (reportAtLabels_tables _ _).1.trans (reportLambdas_tables _ _).2
            refine ⟨S, j, s0, ⟨ws, S1, h1, h2 [] (fun _ h => by cases h), h4⟩, h5, hlam, fun name n id fs hn he => ?_, ?_, ?_, ?_⟩
            · cases hfs : fs with
              | nil => rfl
              | cons f fs' =>
                have hm : name ∈ (reportAtLabels (reportLambdas s0.lambdas s0).atLabels (reportLambdas s0.lambdas s0)).names.reverse := by
                  rw [hnames]; exact List.mem_reverse.2 (h5.tables.names name n hn)
                have := reportSymbols_fails _ (reportAtLabels (reportLambdas s0.lambdas s0).atLabels (reportLambdas s0.lambdas s0)) name hm n (by rw [q2.symtab, q1.symtab]; exact hn) id f fs he (by rw [hfs]; simp)
                rw [this] at hok; cases hok
            · rw [reportSymbols_emitted, reportAtLabels_emitted, reportLambdas_emitted]
            · rw [reportSymbols_written, reportAtLabels_written, reportLambdas_written]
            · rw [q3.symtab, q2.symtab, q1.symtab]

/-- **C78.** If the assembler succeeds, the source denotes a program, and if that program does not fill any address twice then the memory image
that the assembler has written is the one of that program: every byte is where it was put, every reference holds the number that its label
stands for, and everything else is zero. The addresses that are announced as emitted are those that the program fills. -/
theorem C78_assembles (files : Files) (hf : Texts files) (fuel : Nat) (filename : Str) (s : Asm) (h : assemble files fuel filename = some (true, s)) :
    ∃ S, Program files filename S ∧ (emitted s.log).Perm S.places ∧ (S.places.Nodup → Holds S (image s.log)) := by
  obtain ⟨S, j, s0, h1, h2, h3, h4, h5, h6, -⟩ := assemble_sim files hf fuel filename s h
  refine ⟨S, h1.program, h5 ▸ h2.memory.places, fun hd => ?_⟩
  rw [image_eq, h6]
  exact holds_end h2 h3 h4 hd

/-- **C78.** The same about any meaning of the source, and about the ROM file: loaded at 0x100 it gives the memory that the source denotes. -/
theorem C78_rom (files : Files) (hf : Texts files) (fuel : Nat) (filename : Str) (s : Asm) (h : assemble files fuel filename = some (true, s)) (S : State) (hS : Program files filename S)
    (hd : S.places.Nodup) : ∃ r, putAll (written s.log).reverse emptyRom = some r ∧ Holds S fun a => loaded (romFile r) a.toNat := by
  obtain ⟨S', h1, -, h2⟩ := C78_assembles files hf fuel filename s h
  cases C78_one_meaning hS h1
  obtain ⟨r, h3, -, -, h4⟩ := C38_rom_file files fuel filename true s h
  refine ⟨r, h3, ?_⟩
  have : (fun a : Short => loaded (romFile r) a.toNat) = image s.log := funext h4
  rw [this]
  exact h2 hd

/-- What was put last counts. -/
theorem img_lookup (w : List (Short × Byte)) (a : Short) : img w a = (w.lookup a).getD 0 := by
  induction w with
  | nil => rfl
  | cons p w ih =>
    obtain ⟨b, v⟩ := p
    rw [List.lookup_cons]
    by_cases h : b = a
    · subst h
      simp [img]
    · have h' : (a == b) = false := by simpa using fun e => h e.symm
      rw [h']
      dsimp only
      rw [← ih]
      simp [img, h]

/-- **C78.** The same without the condition: what the assembler writes, byte for byte and in this order, is what the program puts into memory,
so the memory image is the one of the program also if it fills an address more than once: what is put last counts. -/
theorem C78_image (files : Files) (hf : Texts files) (fuel : Nat) (filename : Str) (s : Asm) (h : assemble files fuel filename = some (true, s)) (S : State) (hS : Program files filename S) :
    written s.log = S.writes ∧ image s.log = S.image ∧ ∃ r, putAll S.writes.reverse emptyRom = some r ∧ ∀ a : Short, loaded (romFile r) a.toNat = S.image a := by
  obtain ⟨S', j, s0, h1, h2, -, -, -, h6, -⟩ := assemble_sim files hf fuel filename s h
  cases C78_one_meaning hS h1.program
  have hw : written s.log = S.writes := h6.trans h2.history.writes
  have hi : image s.log = S.image := by
    funext a
    rw [image_eq, img_lookup, hw]
    rfl
  obtain ⟨r, h3, -, -, h4⟩ := C38_rom_file files fuel filename true s h
  rw [hw] at h3
  exact ⟨hw, hi, r, h3, fun a => by rw [h4, hi]⟩

/-- **C78.** Nothing is filled below 0x100, where devices and variables are. -/
theorem C78_no_zero_page (files : Files) (hf : Texts files) (fuel : Nat) (filename : Str) (s : Asm) (h : assemble files fuel filename = some (true, s)) (S : State) (hS : Program files filename S)
    (a : Short) (ha : a ∈ S.places) : 0x100 ≤ a.toNat := by
  obtain ⟨S', h1, h2, -⟩ := C78_assembles files hf fuel filename s h
  cases C78_one_meaning hS h1
  have h3 := h2.mem_iff.2 ha
  unfold emitted at h3
  obtain ⟨e, he, hv⟩ := List.mem_filterMap.1 h3
  have : ∃ v, (a, v) ∈ written s.log := by
    unfold written
    split at hv
    · rename_i b v
      cases hv
      exact ⟨v, List.mem_filterMap.2 ⟨_, he, rfl⟩⟩
    · cases hv
  obtain ⟨v, hv⟩ := this
  exact C38_no_zero_page files fuel filename true s h a v hv

/-! ## Instances -/

/-- Files of a few texts without CR. -/
theorem texts_of (l : List (String × String)) (h : ∀ p ∈ l, CR ∉ str p.2) : Texts (filesOf l) := by
  intro name st hst
  unfold filesOf at hst
  rw [Option.map_eq_some_iff] at hst
  obtain ⟨p, hp, rfl⟩ := hst
  exact ⟨str p.2, rfl, fun a b e => absurd (show CR ∈ str p.2 by rw [e]; simp) (h p (List.mem_of_find?_eq_some hp))⟩

/-- A program with a macro, a lambda, an include, labels before and after their references, that assembles and fills every address once: the
theorems are about it. -/
example : let fs := filesOf [("m", "%T: { ^ } @top ;end ,top ?{ T: #12 } ~x"), ("x", "@end INC !top")]
    Texts fs ∧ ∃ s, assemble fs 60 (str "m") = some (true, s) ∧ ∃ S, Program fs (str "m") S ∧ S.places.Nodup ∧ Holds S (image s.log) := by
  intro fs
  have hf : Texts fs := texts_of _ (by decide +kernel)
  refine ⟨hf, ?_⟩
  have h : ((assemble fs 60 (str "m")).map fun r => (r.1, decide (emitted r.2.log).Nodup)) = some (true, true) := by decide +kernel
  rw [Option.map_eq_some_iff] at h
  obtain ⟨⟨b, s⟩, h1, h2⟩ := h
  simp only [Prod.mk.injEq, decide_eq_true_eq] at h2
  obtain ⟨rfl, h2⟩ := h2
  obtain ⟨S, h3, h4, h5⟩ := C78_assembles fs hf 60 (str "m") s h1
  exact ⟨s, h1, S, h3, h4.nodup_iff.1 h2, h5 (h4.nodup_iff.1 h2)⟩

/-- A program that puts an instruction where half of a reference is, before the label is placed: when the label is placed, the reference is
filled in over the instruction. -/
example : let fs := filesOf [("m", ";end |102 ADD @end BRK")]
    ∃ s, assemble fs 30 (str "m") = some (true, s) ∧ ∃ S, Program fs (str "m") S ∧ ¬S.places.Nodup ∧ S.image 0x101 = 0x01 ∧ S.image 0x102 = 0x03 := by
  intro fs
  have hf : Texts fs := texts_of _ (by decide +kernel)
  have h : ((assemble fs 30 (str "m")).map fun r => (r.1, decide (emitted r.2.log).Nodup, image r.2.log 0x101, image r.2.log 0x102)) = some (true, false, 0x01, 0x03) := by decide +kernel
  rw [Option.map_eq_some_iff] at h
  obtain ⟨⟨b, s⟩, h1, h2⟩ := h
  simp only [Prod.mk.injEq, decide_eq_false_iff_not] at h2
  obtain ⟨rfl, h2, h3, h4⟩ := h2
  obtain ⟨S, h5, h6, -⟩ := C78_assembles fs hf 30 (str "m") s h1
  obtain ⟨-, h7, -⟩ := C78_image fs hf 30 (str "m") s h1 S h5
  exact ⟨s, h1, S, h5, fun hn => h2 (h6.nodup_iff.2 hn), h7 ▸ h3, h7 ▸ h4⟩

/-- What a few words mean: a reference, an instruction, and the label. -/
example (files : Files) : Reads files [str ";end", str "INC", str "@end"] {}
    { addr := 0x104, scope := str "end", bytes := [(0x103, 0x01), (0x100, 0xa0)], refs := [⟨0x101, .abs, .short, .name (str "end")⟩], labels := [(str "end", 0x104)], used := [str "end"],
      writes := [(0x102, 0x04), (0x101, 0x01), (0x103, 0x01), (0x102, 0x01), (0x101, 0x00), (0x100, 0xa0)] } := by
  refine .word (s1 := State.refer .abs .short (.name (str "end")) { State.put [0xa0] {} with used := [str "end"] }) (fun h => absurd h (rune_name (by decide)))
    (word_rune (op := some 0xa0) (k := .abs) (z := .short) (by decide +kernel) ⟨.name (str "end"), _, rfl, rfl⟩) ?_
  refine .word (s1 := State.put [0x01] (State.refer .abs .short (.name (str "end")) { State.put [0xa0] {} with used := [str "end"] })) (fun _ => rfl)
    (word_bare (by decide) (by intro c hc; cases hc; rfl) (.inr (.inl ⟨?_, .poly .INC false false false, 0x01, Mnemonic.op .INC [] (by intro f hf; cases hf), rfl, rfl⟩))) ?_
  · rintro ⟨v, k, h⟩
    exact absurd (Literal.isNumber h) (by decide +kernel)
  refine .word (fun h => absurd h (rune_name (by decide))) (word_none (by decide +kernel) ?_) .done
  rw [if_neg (by decide), if_neg (by decide), if_neg (by decide), if_neg (by decide), if_neg (by decide +kernel), if_pos (by decide)]
  exact ⟨_, ⟨rfl, rfl⟩, rfl⟩

/-- `{` opens a lambda in the text, but in the body of a macro it is not counted: the first `}` ends the macro. -/
theorem C78_macro_brace_violated : (outcome [("m", "{ INC }")]).map (·.1) = some true ∧ (outcome [("m", "%M { { INC } } M")]).map (·.1) = some false ∧
    (outcome [("m", "%M { ?{ INC } } M")]).map (·.1) = some true := by decide +kernel

end Buxn.Asm.Meaning
