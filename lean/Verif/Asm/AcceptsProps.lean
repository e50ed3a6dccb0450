import Verif.Asm.AcceptsRun
import Verif.Asm.AcceptsShort
import Verif.Asm.Terminates
/-!
# C80: a program with a meaning, within the limits and complete, is accepted
-/

namespace Buxn.Asm.Meaning
open Buxn.VM Buxn.Asm Buxn.Asm.Spec

theorem processUnit_can {files : Files} {f : State} (hf : Texts files) (hc : Finished f) (fuel levels : Nat) : RecCan files f (processUnit files fuel levels) := by
  induction levels with
  | zero =>
    intro i u ws s S S' d active b s' h1 h2 h3 h4 h5 h6 h7
    exact unitLoop_can hf hc (fun _ _ _ _ _ _ _ _ _ _ _ _ _ _ _ _ h => by cases h) fuel i u ws s S S' d active b s' h1 h2 h3 h4 h5 h6 h7
  | succ levels ih =>
    intro i u ws s S S' d active b s' h1 h2 h3 h4 h5 h6 h7
    exact unitLoop_can hf hc ih fuel i u ws s S S' d active b s' h1 h2 h3 h4 h5 h6 h7

theorem defined_nil (S : State) : Defined [] S := fun _ h => by cases h

theorem deferredLoop_can {files : Files} {rec : Nested} {f : State} (hf : Texts files) (hrec : RecCan files f rec) (fuel : Nat) :
    ∀ (i : Nat) (s : Asm) (S S' : State) (r : Bool × Asm), EndsWithin files S S' → Grows S' f → Sim i s S → Ok 0 [] s → deferredLoop files rec fuel i s = some r →
      r.1 = true ∧ Ok 0 [] r.2 ∧ ∃ j, Sim j r.2 S' := by
  induction fuel with
  | zero => intro i s S S' r _ _ _ _ he; cases he
  | succ fuel ih =>
    intro i s S S' r hw hg h ho he
    rw [deferredLoop] at he
    cases hd : s.deferred[i]? with
    | none =>
      rw [hd] at he
      cases he
      have h0 : S.deferred = [] := by
        rw [h.deferred, List.drop_eq_nil_of_le (List.getElem?_eq_none_iff.1 hd)]; rfl
      cases hw with
      | done _ => exact ⟨rfl, ho, i, h⟩
      | «include» hx => rw [h0] at hx; cases hx
      | again hx => rw [h0] at hx; cases hx
    | some p =>
      obtain ⟨name, t⟩ := p
      rw [hd] at he
      dsimp only at he
      obtain ⟨hlt, hget⟩ := List.getElem?_eq_some_iff.1 hd
      have hdef : S.deferred = name :: (s.deferred.drop (i + 1)).map (·.1) := by
        rw [h.deferred, List.drop_eq_getElem_cons hlt, hget]; rfl
      have h1 : Sim (i + 1) s { S with deferred := (s.deferred.drop (i + 1)).map (·.1) } :=
        ⟨h.readBuf, h.addr, h.scope, h.anonymous, h.included, rfl, hlt, h.tables, h.lams, h.memory, h.history⟩
      cases hw with
      | done hx => rw [hdef] at hx; cases hx
      | again hx hin hr =>
        rw [hdef] at hx
        obtain ⟨rfl, rfl⟩ := List.cons.inj hx
        rw [processInclude_old (S := { S with deferred := (s.deferred.drop (i + 1)).map (·.1) }) name t hin h1] at he
        exact ih _ _ _ _ _ hr hg h1 ho he
      | «include» hx hin hwords hinner hr =>
        rw [hdef] at hx
        obtain ⟨rfl, rfl⟩ := List.cons.inj hx
        cases hp : processInclude files rec name t s with
        | none => rw [hp] at he; cases he
        | some q =>
          obtain ⟨c, s2⟩ := q
          rw [hp] at he
          have hfresh := ((reads_onward hinner.reads) (include_onward _ _ h1.fresh).1).1
          have hg1 := ((ends_onward hr.ends) hfresh).2.trans hg
          obtain ⟨h2, h3, h4⟩ := processInclude_new (S := { S with deferred := (s.deferred.drop (i + 1)).map (·.1) }) hf hrec name t hin hwords h1 ho (defined_nil _) hinner hg1 _ hp
          have h2 : c = true := h2
          subst h2
          exact ih _ _ _ _ _ hr hg h4 h3 he

theorem reportAtLabels_success (l : List FRef) (s : Asm) : (reportAtLabels l s).success = s.success := by
  induction l generalizing s with
  | nil => rfl
  | cons f l ih => rw [reportAtLabels, ih]; rfl

theorem reportSymbols_success (ks : List Str) (s : Asm) (h : ∀ k n, s.symtab k = some n → (∃ id a, n.entry = .label id a) ∨ ∃ ts id x, n.entry = .macro ts id x) :
    (reportSymbols ks s).success = s.success := by
  induction ks generalizing s with
  | nil => rfl
  | cons k ks ih =>
    rw [reportSymbols.eq_def]
    dsimp only
    cases hn : s.symtab k with
    | none => exact ih s h
    | some n =>
      have hif : ∀ (c : Prop) [Decidable c], (reportSymbols ks (if c then warning "Unreferenced symbol" n.token.region s else s)).success = s.success := by
        intro c _
        split
        · exact ih (warning "Unreferenced symbol" n.token.region s) h
        · exact ih s h
      rcases h k n hn with ⟨id, a, he⟩ | ⟨ts, id, x, he⟩
      · dsimp only
        rw [he]
        exact hif _
      · dsimp only
        rw [he]
        exact hif _

/-- At the end everything is defined. -/
theorem entries_end {i : Nat} {s : Asm} {S : State} (h : Sim i s S) (ho : Ok 0 [] s) (hc : Finished S) (k : Str) (n : Node) (hn : s.symtab k = some n) :
    (∃ id a, n.entry = .label id a) ∨ ∃ ts id x, n.entry = .macro ts id x := by
  have hs := ho.settled k n hn
  cases he : n.entry with
  | unknown => rw [he] at hs; exact hs.elim
  | label id a => exact .inl ⟨id, a, rfl⟩
  | «macro» ts id x => exact .inr ⟨ts, id, x, rfl⟩
  | forward id fs =>
    rw [he] at hs
    cases fs with
    | nil => exact absurd rfl hs
    | cons f fs =>
      obtain ⟨l, hl, -⟩ := hc.refs _ (h.tables.fwd k n id _ hn he f (List.mem_cons_self ..))
      have hl : S.labels.lookup k = some l := hl
      rw [h.tables.labels, hn, Option.bind_some, he] at hl
      cases hl

/-- **C80 (nothing is refused without a reason).** A program that has a meaning within the limits, and is complete, is accepted: whenever the
assembler comes to an end, it has been a success. -/
theorem C80_accepts (files : Files) (hf : Texts files) (main : Str) (S : State) (hp : ProgramWithin files main S) (hc : Complete S) (fuel : Nat) (b : Bool) (s : Asm)
    (h : assemble files fuel main = some (b, s)) : b = true := by
  replace hc := Complete.finished hp hc
  obtain ⟨ws, S1, hwords, hw, hends⟩ := hp
  have hrec := processUnit_can hf hc fuel MAX_DEPTH
  unfold assemble at h
  dsimp only at h
  have ho : Ok 0 [] initial := ⟨rfl, rfl, fun _ _ h => by cases h⟩
  have hfresh := ((reads_onward hw.reads) start_fresh).1
  have hg := ((ends_onward hends.ends) hfresh).2
  cases hpf : processFile files (processUnit files fuel MAX_DEPTH) main initial with
  | none => rw [hpf] at h; cases h
  | some q =>
    obtain ⟨c, s1⟩ := q
    rw [hpf] at h
    obtain ⟨h1, h2, h3⟩ := processFile_can hf hrec main hwords initial_sim ho (defined_nil _) hw hg _ hpf
    have h1 : c = true := h1
    subst h1
    dsimp only at h h2 h3
    unfold resolve at h
    cases hdl : deferredLoop files (processUnit files fuel MAX_DEPTH) fuel 0 s1 with
    | none => rw [hdl] at h; cases h
    | some q =>
      obtain ⟨c, s2⟩ := q
      rw [hdl] at h
      obtain ⟨h4, h5, j, h6⟩ := deferredLoop_can hf hrec fuel 0 s1 S1 S _ hends (Grows.refl _) h3 h2 hdl
      have h4 : c = true := h4
      subst h4
      dsimp only at h h5 h6
      simp only [Option.some.injEq, Prod.mk.injEq] at h
      obtain ⟨rfl, -⟩ := h
      have hlam : s2.lambdas = [] := by
        have := h6.lams.opened
        rw [hc.opened] at this
        cases hl : s2.lambdas with
        | nil => rfl
        | cons f l => rw [hl] at this; cases this
      rw [hlam]
      show (reportSymbols _ (reportAtLabels _ s2)).success = true
      rw [reportSymbols_success _ _ (by rw [(reportAtLabels_tables _ _).2]; exact entries_end h6 h5 hc), reportAtLabels_success]
      exact h5.success

/-- **C80 (and a ROM comes out).** Such a program is assembled, and the ROM holds it. -/
theorem C80_assembled (files : Files) (hf : Texts files) (main : Str) (S : State) (hp : ProgramWithin files main S) (hc : Complete S) :
    ∃ fuel s, (∀ fuel', fuel ≤ fuel' → assemble files fuel' main = some (true, s)) ∧ (emitted s.log).Perm S.places ∧ Denotes S (image s.log) := by
  obtain ⟨fuel, ⟨b, s⟩, h⟩ := C39_terminates files main
  have hb := C80_accepts files hf main S hp hc fuel b s (h fuel (Nat.le_refl _))
  subst hb
  obtain ⟨S', h1, h2, h3⟩ := C78_assembles files hf fuel main s (h fuel (Nat.le_refl _))
  cases C78_one_meaning hp.program h1
  exact ⟨fuel, s, h, h2, fun a => congrFun (C78_image files hf fuel main s (h fuel (Nat.le_refl _)) S h1).2.1 a, h3⟩

/-! ## A program that is within the limits and complete -/

theorem tokens_join (pre : Str) (ws : List Str) (h : ∀ w ∈ ws, w ≠ [] ∧ w ≠ [QUOTE] ∧ w.length ≤ 47 ∧ ∀ c ∈ w, ¬ IsSep c) :
    ∃ ls, Tokens pre (ws.flatMap fun w => SPACE :: w) ls true ∧ ws = ls.map (·.text) := by
  induction ws generalizing pre with
  | nil => exact ⟨[], .nothing (fun _ h => by cases h), rfl⟩
  | cons w ws ih =>
    obtain ⟨h1, h2, h3, h4⟩ := h w (List.mem_cons_self ..)
    obtain ⟨ls, h5, h6⟩ := ih (pre ++ [SPACE] ++ w) fun v hv => h v (List.mem_cons_of_mem _ hv)
    refine ⟨⟨w, posAt (pre ++ [SPACE]), posAt (pre ++ [SPACE] ++ w)⟩ :: ls, .word (seps := [SPACE]) ?_ h1 h4 ?_ (fun x => h2 x.1) h3 h5, by rw [h6]; rfl⟩
    · intro c hc
      rw [List.mem_singleton.1 hc]
      unfold IsSep; decide
    · intro c hc
      cases ws with
      | nil => cases hc
      | cons v ws =>
        cases hc
        unfold IsSep; decide

/-- Words between spaces. -/
theorem words_of {files : Files} {name : Str} (raw : Str) (ws : List Str) (hf : files (name.takeWhile (· ≠ 0)) = some (raw.map some)) (hr : normalise raw = ws.flatMap fun w => SPACE :: w)
    (h : ∀ w ∈ ws, w ≠ [] ∧ w ≠ [QUOTE] ∧ w.length ≤ 47 ∧ ∀ c ∈ w, c ∉ [ch ' ', ch '\n', ch '\t', ch '\r', 0x0b, 0x0c]) : Words files name ws := by
  obtain ⟨ls, h1, h2⟩ := tokens_join [] ws h
  exact ⟨raw, ls, hf, by rw [hr]; exact h1, h2⟩

/-- A file that is included, a macro and a reference to what follows. -/
def sample : Files := filesOf [("m", " %M { INC } ;end M ~x"), ("x", " @end BRK")]

namespace Sample

/-- After each of its words. -/
def st1 : State := { macros := [(str "M", [str "INC"])] }
def st2 : State := { st1 with addr := 0x103, bytes := [(0x100, 0xa0)], refs := [⟨0x101, .abs, .short, .name (str "end")⟩], used := [str "end"], writes := [(0x102, 0x01), (0x101, 0x00), (0x100, 0xa0)] }
def st3 : State := { st2 with used := [str "M", str "end"], addr := 0x104, bytes := [(0x103, 0x01), (0x100, 0xa0)], writes := (0x103, 0x01) :: st2.writes }
def st4 : State := { st3 with included := [str "x"] }
def st5 : State := { st4 with scope := str "end", labels := [(str "end", 0x104)], writes := (0x102, 0x04) :: (0x101, 0x01) :: st4.writes }
/-- What it means. -/
def meaning : State := { st5 with addr := 0x105, bytes := [(0x104, 0x00), (0x103, 0x01), (0x100, 0xa0)], writes := (0x104, 0x00) :: st5.writes }

theorem word2 : Word (str ";end") st1 st2 :=
  word_rune (c := ch ';') (rest := str "end") (op := some 0xa0) (k := .abs) (z := .short) (by decide +kernel) ⟨.name (str "end"), { st1.put [0xa0] with used := [str "end"] }, rfl, rfl⟩

theorem word3 : Word (str "INC") { st2 with used := [str "M", str "end"] } st3 := by
  refine word_bare (by decide) (by intro c hc; cases hc; rfl) (.inr (.inl ⟨?_, .poly .INC false false false, 0x01, Mnemonic.op .INC [] (by intro f hf; cases hf), rfl, rfl⟩))
  rintro ⟨v, k, h⟩
  exact absurd (Literal.isNumber h) (by decide +kernel)

theorem word5 : Word (str "@end") st4 st5 := by
  refine word_none (c := ch '@') (rest := str "end") (by decide +kernel) ?_
  rw [if_neg (by decide), if_neg (by decide), if_neg (by decide), if_neg (by decide), if_neg (by decide +kernel), if_pos (by decide)]
  exact ⟨{ st4 with labels := [(str "end", 0x104)], writes := (0x102, 0x04) :: (0x101, 0x01) :: st4.writes }, ⟨rfl, rfl⟩, rfl⟩

theorem word6 : Word (str "BRK") st5 meaning := by
  refine word_bare (by decide) (by intro c hc; cases hc; rfl) (.inr (.inl ⟨?_, .BRK, 0x00, .brk, rfl, rfl⟩))
  rintro ⟨v, k, h⟩
  exact absurd (Literal.isNumber h) (by decide +kernel)

theorem name : IsName (str "M") := isName_of (by intro c hc; cases hc; rfl) (by decide +kernel) (by decide +kernel)

theorem inside : Within sample 1 [] [str "@end", str "BRK"] st4 meaning :=
  .word (fun h => absurd h (rune_name (by decide))) (fun _ h => by cases h) word5 (.word (fun _ => rfl) (fun _ h => by cases h) word6 .done)

theorem words : Words sample (str "m") [str "%M", str "{", str "INC", str "}", str ";end", str "M", str "~x"] :=
  words_of (str " %M { INC } ;end M ~x") _ rfl (by decide +kernel) (by decide +kernel)

theorem within : ProgramWithin sample (str "m") meaning := by
  refine ⟨_, meaning, words, ?_, .done rfl⟩
  refine .define (name := str "M") (ws' := [str "INC", str "}", str ";end", str "M", str "~x"]) (b := [str "INC"]) (rest := [str ";end", str "M", str "~x"]) rfl name rfl .brace (by decide +kernel) ?_
  show Within sample 0 [] _ st1 _
  refine .word (fun h => absurd h (rune_name (by decide))) (fun _ h => by cases h) word2 ?_
  refine .expand (b := [str "INC"]) (s1 := st3) name rfl (by decide) (by decide) (by decide) (.word (fun _ => rfl) (fun _ h => by cases h) word3 .done) ?_
  exact .include (name := str "x") (inner := [str "@end", str "BRK"]) (s1 := meaning) rfl (by decide) (by decide) (by intro h; cases h)
    (words_of (str " @end BRK") _ rfl (by decide +kernel) (by decide +kernel)) inside .done

theorem valid (w : Str) (h1 : w ≠ []) (h2 : ∀ c, w.head? = some c → isRunic c = false) (h3 : parseOpcode w = none) (h4 : isNumber w = false) : ValidName w :=
  ⟨h1, isName_of h2 h3 h4, fun h => by rw [← isNumber_iff] at h; rw [h] at h4; cases h4⟩

theorem complete : Complete meaning where
  places := by
    have h : meaning.places.all (fun a => decide (0x100 ≤ a.toNat)) = true := by decide +kernel
    exact fun a ha => of_decide_eq_true (List.all_eq_true.1 h a ha)
  opened := rfl
  refs := by
    intro r hr
    rw [List.mem_singleton.1 hr]
    exact ⟨0x104, by decide +kernel, fun h => by cases h⟩
  labels := by
    intro n a h
    have h : [(str "end", (0x104 : Short))].lookup n = some a := h
    by_cases e : n = str "end"
    · subst e
      exact valid _ (by decide) (by intro c hc; cases hc; rfl) (by decide +kernel) (by decide +kernel)
    · rw [lookup_cons, if_neg e] at h; cases h
  macros := by
    intro n a h
    have h : [(str "M", [str "INC"])].lookup n = some a := h
    by_cases e : n = str "M"
    · subst e
      exact ⟨valid _ (by decide) (by intro c hc; cases hc; rfl) (by decide +kernel) (by decide +kernel), by decide +kernel⟩
    · rw [lookup_cons, if_neg e] at h; cases h

/-- **C80 (an instance).** It is accepted. -/
theorem C80_example : Texts sample ∧ ∃ fuel s, assemble sample fuel (str "m") = some (true, s) ∧ Holds meaning (image s.log) := by
  have hf : Texts sample := texts_of _ (by decide +kernel)
  obtain ⟨fuel, s, h1, -, h2⟩ := C80_assembled sample hf (str "m") meaning within complete
  exact ⟨hf, fuel, s, h1 fuel (Nat.le_refl _), h2.once (by decide +kernel)⟩

end Sample

end Buxn.Asm.Meaning
