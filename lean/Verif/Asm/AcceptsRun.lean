import Verif.Asm.AcceptsRead
/-!
# C80: macros, includes and units succeed
-/

namespace Buxn.Asm.Meaning
open Buxn.VM Buxn.Asm Buxn.Asm.Spec

/-- The macros that are being expanded are defined. -/
def Defined (active : List Str) (S : State) : Prop := ∀ n ∈ active, S.macros.lookup n ≠ none

theorem Defined.grows {active : List Str} {S S' : State} (h : Defined active S) (hg : Grows S S') : Defined active S' := fun n hn hx => by
  cases hl : S.macros.lookup n with
  | none => exact h n hn hl
  | some b => rw [hg.macros n b hl] at hx; cases hx

/-- Units within units succeed. -/
def RecCan (files : Files) (f : State) (rec : Nested) : Prop :=
  ∀ i u ws s S S' d active b s', Feed u ws → Within files d active ws S S' → Grows S' f → Sim i s S → Ok d active s → Defined active S → rec u s = some (b, s') →
    b = true ∧ Ok d active s' ∧ Sim i s' S'

variable {files : Files} {rec : Nested} {d : Nat} {active : List Str} {i : Nat} {s : Asm} {S S' f : State}

/-- The entry of a macro that the program has defined. -/
theorem Sim.macroEntry (h : Sim i s S) {name : Str} {b : List Str} (hb : S.macros.lookup name = some b) :
    ∃ n ts id x, s.symtab name = some n ∧ n.entry = .macro ts id x ∧ b = ts.map (·.lex) ∧ ∀ t ∈ ts, t.lex ≠ [] := by
  have hx := h.tables.macros name
  rw [hb] at hx
  cases hn : s.symtab name with
  | none => rw [hn] at hx; cases hx
  | some n =>
    rw [hn, Option.bind_some] at hx
    cases hen : n.entry with
    | «macro» ts id x =>
      rw [hen] at hx
      exact ⟨n, ts, id, x, rfl, hen, Option.some.inj hx, h.tables.bodies _ _ _ _ _ hn hen⟩
    | unknown => rw [hen] at hx; cases hx
    | label _ _ => rw [hen] at hx; cases hx
    | forward _ _ => rw [hen] at hx; cases hx

theorem Sim.macroDeclared (h : Sim i s S) (ho : Ok d active s) {name : Str} {b : List Str} (hb : S.macros.lookup name = some b) {n : Node} (hn : s.symtab name = some n) :
    n.referenced = false → Declared s.log .macro 0 name n.token.region := by
  obtain ⟨m, ts, id, x, h1, h2, -⟩ := h.macroEntry hb
  rw [hn] at h1
  cases h1
  have := ho.settled _ _ hn
  rw [h2] at this
  exact this.2

theorem runMacro_can (hrec : RecCan files f rec) (t : Token) (name : Str) (n : Node) (ts : List Token) (id : Short) (arg : Str) (u : Unit) (h : Sim i s S) (ho : Ok d active s) (hact : Defined active S)
    (hn : s.symtab name = some n) (hb : S.macros.lookup name = some (ts.map (·.lex))) (hne : ∀ t ∈ ts, t.lex ≠ []) (hin : name ∉ active)
    (hw : Within files (d + 1) (name :: active) (ts.map fun t => if arg = [] then t.lex else replace arg t.lex) S S') (hfit : arg ≠ [] → ∀ t ∈ ts, Short? (replace arg t.lex)) (hg : Grows S' f)
    (r : Bool × Unit × Asm) (he : runMacro rec t name n ts id arg u s = some r) : r.1 = true ∧ r.2.1 = u ∧ Ok d active r.2.2 ∧ Sim i r.2.2 S' := by
  unfold runMacro at he
  dsimp only at he
  have h1 : Sim i { setNode name { n with entry := .macro ts id true } s with depth := (setNode name { n with entry := .macro ts id true } s).depth + 1 } S :=
    (h.redefine name n { n with entry := .macro ts id true } hn ts id true hb rfl rfl hne rfl).depth _
  have h2 : Ok (d + 1) (name :: active) { setNode name { n with entry := .macro ts id true } s with depth := (setNode name { n with entry := .macro ts id true } s).depth + 1 } := by
    refine ⟨ho.success, congrArg (· + 1) ho.depth, fun k m hk => ?_⟩
    by_cases e : k = name
    · subst e
      have : (setNode k { n with entry := .macro ts id true } s).symtab k = some { n with entry := .macro ts id true } := by simp [setNode]
      have hk : (setNode k { n with entry := .macro ts id true } s).symtab k = some m := hk
      rw [this] at hk
      cases hk
      exact ⟨by simp, fun hr => h.macroDeclared ho hb (n := n) hn hr⟩
    · have : (setNode name { n with entry := .macro ts id true } s).symtab k = s.symtab k := by simp [setNode, e]
      have hk : (setNode name { n with entry := .macro ts id true } s).symtab k = some m := hk
      rw [this] at hk
      have := ho.settled k m hk
      cases hen : m.entry with
      | unknown => rw [hen] at this; exact this.elim
      | label _ _ => rw [hen] at this; exact this
      | forward _ _ => rw [hen] at this; exact this
      | «macro» a b x =>
        rw [hen] at this
        refine ⟨?_, this.2⟩
        show x = true ↔ k ∈ name :: active
        rw [List.mem_cons]
        refine Iff.trans this.1 ⟨.inr, ?_⟩
        rintro (h | h)
        exacts [absurd h e, h]
  generalize ({ setNode name { n with entry := .macro ts id true } s with depth := (setNode name { n with entry := .macro ts id true } s).depth + 1 } : Asm) = s1 at he h1 h2
  cases hr : rec (.macro ⟨ts, arg⟩) s1 with
  | none => rw [hr] at he; cases he
  | some q =>
    obtain ⟨b, s2⟩ := q
    rw [hr] at he
    dsimp only at he
    have hact' : Defined (name :: active) S := by
      intro k hk
      rcases List.mem_cons.1 hk with rfl | hk
      · rw [hb]; simp
      · exact hact k hk
    obtain ⟨rfl, h3, h4⟩ := hrec i _ _ s1 S S' (d + 1) (name :: active) b s2 (.body hne hfit) hw hg h1 h2 hact' hr
    rw [if_pos rfl] at he
    simp only [Option.some.injEq] at he
    subst he
    refine ⟨rfl, rfl, ?_⟩
    dsimp only
    have hb' := reads_macros hw.reads name _ hb
    have h5 := h4.depth (s2.depth - 1)
    have hsome : ∃ m, s2.symtab name = some m := by
      rw [h4.tables.macros] at hb'
      cases hx : s2.symtab name with
      | none => rw [hx] at hb'; cases hb'
      | some m => exact ⟨m, rfl⟩
    obtain ⟨m, hm⟩ := hsome
    rw [hm]
    dsimp only
    refine ⟨⟨h3.success, ?_, fun k q hk => ?_⟩, h5.redefine name m { m with entry := .macro ts id false } hm ts id false hb' rfl rfl hne rfl⟩
    · show s2.depth - 1 = d
      rw [h3.depth]; rfl
    · by_cases e : k = name
      · subst e
        have : (setNode k { m with entry := .macro ts id false } s2).symtab k = some { m with entry := .macro ts id false } := by simp [setNode]
        have hk : (setNode k { m with entry := .macro ts id false } s2).symtab k = some q := hk
        rw [this] at hk
        cases hk
        exact ⟨⟨(fun h => by cases h), fun h => absurd h hin⟩, fun hr => h4.macroDeclared h3 hb' (n := m) hm hr⟩
      · have : (setNode name { m with entry := .macro ts id false } s2).symtab k = s2.symtab k := by simp [setNode, e]
        have hk : (setNode name { m with entry := .macro ts id false } s2).symtab k = some q := hk
        rw [this] at hk
        have := h3.settled k q hk
        cases hen : q.entry with
        | unknown => rw [hen] at this; exact this.elim
        | label _ _ => rw [hen] at this; exact this
        | forward _ _ => rw [hen] at this; exact this
        | «macro» a b x =>
          rw [hen] at this
          refine ⟨?_, this.2⟩
          show x = true ↔ k ∈ active
          refine Iff.trans this.1 ⟨fun h => ?_, List.mem_cons_of_mem _⟩
          rcases List.mem_cons.1 h with h | h
          exacts [absurd h e, h]

/-- How the name of a macro is read. -/
theorem macro_token (h : Sim i s S) (ho : Ok d active s) (t : Token) (hf : Finished f) (hgm : ∀ b, S.macros.lookup t.lex = some b → f.macros.lookup t.lex = some b)
    {b : List Str} (hb : S.macros.lookup t.lex = some b) (hin : t.lex ∉ active) (hd : d < DEPTH) :
    ∃ n ts id s1, b = ts.map (·.lex) ∧ (∀ t ∈ ts, t.lex ≠ []) ∧ Sim i s1 { S with used := t.lex :: S.used } ∧ Ok d active s1 ∧ s1.symtab t.lex = some n ∧
      ∀ u, processToken files rec t u s = if t.lex.getLast? = some (ch ':') then
        (match nextToken u s1 with
        | (none, u, s) => some (false, u, if s.success then (error "Macro expects an argument" t.region s).2 else s)
        | (some a, u, s) => runMacro rec t t.lex n ts id a.lex u s)
        else runMacro rec t t.lex n ts id [] u s1 := by
  obtain ⟨hv, -⟩ := hf.macros _ _ (hgm b hb)
  obtain ⟨n, ts, id, x, hn, hen, rfl, hne⟩ := h.macroEntry hb
  have hx : x = false := by
    have := ho.settled _ _ hn
    rw [hen] at this
    cases x with
    | false => rfl
    | true => exact absurd (this.1.1 rfl) hin
  subst hx
  have hfc : findOrCreate t t.lex s = (some n, s) := by
    rcases findOrCreate_can t t.lex s hv with ⟨m, hm, hfc⟩ | ⟨hm, -⟩
    · rw [hn] at hm; cases hm; exact hfc
    · rw [hn] at hm; cases hm
  have h1 := h.mark t.lex { n with referenced := true, entry := .macro ts id false } n hn hen.symm (by simp) rfl
  have ho1 : Ok d active (setNode t.lex { n with referenced := true, entry := .macro ts id false } s) := ho.set t.lex _ (by
    exact ⟨⟨(fun h => by cases h), fun h => absurd h hin⟩, fun h => by cases h⟩)
  refine ⟨{ n with referenced := true, entry := .macro ts id false }, ts, id,
    putSymbol 0 { type := .macroRef, name := some t.lex, region := t.region, id := id } (setNode t.lex { n with referenced := true, entry := .macro ts id false } s), rfl, hne,
    h1.same (putSymbol_emits _ _ _), ho1.calmly (putSymbol_calm _ _ _), by simp [setNode, putSymbol], fun u => ?_⟩
  have hrun : isRunic (t.lex.headD 0) = false := by
    cases hl : t.lex with
    | nil => exact absurd hl hv.1
    | cons c cs => exact hv.2.1.runic (by rw [hl]; rfl)
  rw [processToken_plain files rec t u s hrun hv.number]
  unfold processWord
  rw [hv.2.1.opcode]
  dsimp only
  rw [hfc]
  dsimp only
  rw [hen]
  dsimp only
  unfold expandMacro
  have hdep : ¬ MAX_DEPTH ≤ (setNode t.lex { n with referenced := true, entry := .macro ts id false } s).depth := by
    rw [ho1.depth]
    show ¬ 32 ≤ d
    unfold DEPTH at hd
    omega
  rw [if_neg hdep, if_neg (by simp)]
  rfl

/-! ## Files -/

theorem processFile_can (hf : Texts files) (hrec : RecCan files f rec) (path : Str) {inner : List Str} (hwords : Words files path inner) (h : Sim i s S) (ho : Ok d active s) (hact : Defined active S)
    (hw : Within files d active inner S S') (hg : Grows S' f) (r : Bool × Asm) (he : processFile files rec path s = some r) : r.1 = true ∧ Ok d active r.2 ∧ Sim i r.2 S' := by
  unfold processFile at he
  dsimp only at he
  obtain ⟨raw, ls, hfile, ht, rfl⟩ := hwords
  have hfile : files (cstr path) = some (raw.map some) := hfile
  rw [hfile] at he
  dsimp only at he
  obtain ⟨raw', hraw, hl⟩ := hf _ _ hfile
  have : raw = raw' := (List.map_injective_iff.2 (fun _ _ h => Option.some.inj h)) hraw
  subst this
  obtain ⟨ls', ok, ht', hr⟩ := C34_tokens raw path hl
  obtain ⟨e1, e2⟩ := C34_unique ht ht'
  subst e1
  subst e2
  have hne : ∀ t ∈ ls.map (·.token path), t.lex ≠ [] := by
    intro t hm
    obtain ⟨l, hl, rfl⟩ := List.mem_map.1 hm
    exact tokens_ne ht l hl
  have h1 : Sim i { s with log := .fopen (cstr path) :: s.log } S := h.same ⟨⟨rfl, rfl, rfl, rfl, rfl, rfl, rfl, rfl⟩, rfl, rfl, rfl⟩
  have ho1 : Ok d active { s with log := .fopen (cstr path) :: s.log } := ho.calmly ⟨rfl, rfl, rfl, fun _ h => List.mem_cons_of_mem _ h⟩
  cases hx : rec (.file ⟨raw.map some, path, ⟨1, 1, 0⟩⟩) { s with log := .fopen (cstr path) :: s.log } with
  | none => rw [hx] at he; cases he
  | some q =>
    obtain ⟨c, s2⟩ := q
    rw [hx] at he
    cases he
    have hw' : Within files d active ((ls.map (·.token path)).map (·.lex)) S S' := by
      rw [List.map_map]; exact hw
    obtain ⟨h2, h3, h4⟩ := hrec i _ _ _ S S' d active c s2 (.file hr hne) hw' hg h1 ho1 hact hx
    exact ⟨h2, h3.calmly ⟨rfl, rfl, rfl, fun _ h => List.mem_cons_of_mem _ h⟩, h4.same ⟨⟨rfl, rfl, rfl, rfl, rfl, rfl, rfl, rfl⟩, rfl, rfl, rfl⟩⟩

theorem processInclude_new (hf : Texts files) (hrec : RecCan files f rec) (name : Str) (t : Token) {inner : List Str} (hin : name ∉ S.included) (hwords : Words files name inner) (h : Sim i s S)
    (ho : Ok d active s) (hact : Defined active S) (hw : Within files (d + 1) active inner { S with included := name :: S.included } S') (hg : Grows S' f) (r : Bool × Asm)
    (he : processInclude files rec name t s = some r) : r.1 = true ∧ Ok d active r.2 ∧ Sim i r.2 S' := by
  unfold processInclude at he
  rw [if_neg (by rw [← h.included]; exact hin)] at he
  dsimp only at he
  have h1 : Sim i { s with includes := name :: s.includes, depth := s.depth + 1 } { S with included := name :: S.included } :=
    ⟨h.readBuf, h.addr, h.scope, h.anonymous, by rw [h.included], h.deferred, h.index, h.tables, h.lams, h.memory, h.history⟩
  have ho1 : Ok (d + 1) active { s with includes := name :: s.includes, depth := s.depth + 1 } := ⟨ho.success, congrArg (· + 1) ho.depth, ho.settled⟩
  cases hx : processFile files rec name { s with includes := name :: s.includes, depth := s.depth + 1 } with
  | none => rw [hx] at he; cases he
  | some q =>
    obtain ⟨c, s2⟩ := q
    rw [hx] at he
    dsimp only at he
    obtain ⟨h2, h3, h4⟩ := processFile_can hf hrec name hwords h1 ho1 hact hw hg _ hx
    have h2 : c = true := h2
    rw [if_pos h2] at he
    cases he
    refine ⟨rfl, ⟨h3.success, ?_, h3.settled⟩, h4.depth _⟩
    show s2.depth - 1 = d
    have : s2.depth = d + 1 := h3.depth
    rw [this]; rfl

theorem processInclude_old (name : Str) (t : Token) (hin : name ∈ S.included) (h : Sim i s S) : processInclude files rec name t s = some (true, s) := by
  unfold processInclude
  rw [if_pos (by rw [← h.included]; exact hin)]

/-! ## Units -/

theorem processToken_tilde (t : Token) (name : Str) (u : Unit) (ht : t.lex = ch '~' :: name) (hd : s.depth < DEPTH) (hdef : name.head? ≠ some (ch '~')) :
    processToken files rec t u s = (processInclude files rec name t (putSymbol s.writeAddr { type := .include, name := some name, region := t.region } s)).map fun r => (r.1, u, r.2) := by
  have e0 : processToken files rec t u s = (processTilde files rec t s).map fun r => (r.1, u, r.2) := by
    unfold processToken; dsimp only; rw [ht]; rfl
  rw [e0]
  unfold processTilde
  rw [ht, if_neg (show ¬ MAX_DEPTH ≤ s.depth by unfold DEPTH at hd; show ¬ 32 ≤ _; omega)]
  dsimp only
  have e : decide ((popFront (ch '~' :: name)).head? = some (ch '~')) = false := decide_eq_false hdef
  rw [e, if_neg (by simp), if_neg (by simp)]
  rfl

theorem processToken_tilde2 (t : Token) (name : Str) (u : Unit) (ht : t.lex = ch '~' :: ch '~' :: name) (hd : s.depth < DEPTH) :
    processToken files rec t u s = some (true, u, if name ∈ s.includes then putSymbol s.writeAddr { type := .include, name := some name, region := t.region } s
      else { putSymbol s.writeAddr { type := .include, name := some name, region := t.region } s with deferred := s.deferred ++ [(name, t)] }) := by
  have e0 : processToken files rec t u s = (processTilde files rec t s).map fun r => (r.1, u, r.2) := by
    unfold processToken; dsimp only; rw [ht]; rfl
  rw [e0]
  unfold processTilde
  rw [ht, if_neg (show ¬ MAX_DEPTH ≤ s.depth by unfold DEPTH at hd; show ¬ 32 ≤ _; omega)]
  rfl

/-- One word, or the name of a macro with its argument: reading goes on with the rest. -/
theorem processToken_can (hf : Texts files) (hc : Finished f) (hrec : RecCan files f rec) (t : Token) {u : Unit} {ws : List Str} (hsrc : Feed u ws) (hw : Within files d active (t.lex :: ws) S S')
    (hne : t.lex ≠ []) (hg : Grows S' f) (h : Sim i s S) (ho : Ok d active s) (hact : Defined active S) (b : Bool) (u' : Unit) (s' : Asm) (he : processToken files rec t u s = some (b, u', s')) :
    b = true ∧ ∃ ws' S1, Feed u' ws' ∧ Within files d active ws' S1 S' ∧ Ok d active s' ∧ Sim i s' S1 ∧ Grows S S1 := by
  have hfresh := h.fresh
  generalize hl : t.lex :: ws = l at hw
  cases hw with
  | done => cases hl
  | @comment _ _ w ws0 rest _ _ hm hcm hr =>
    obtain ⟨rfl, rfl⟩ := List.cons.inj hl
    have hhd : t.lex.headD 0 = ch '(' := by
      cases hx : t.lex with
      | nil => exact absurd hx hne
      | cons x l => unfold IsComment at hm; rw [hx] at hm; exact Option.some.inj hm
    have e : processToken files rec t u s = some (processComment t u s) := by
      unfold processToken; dsimp only; rw [hhd]; rfl
    rw [e] at he
    obtain ⟨u1, s1, h1, h2, h3⟩ := processComment_can t hsrc h.readBuf hcm
    rw [h1] at he
    cases he
    obtain ⟨_, _, _, h4⟩ := processComment_src hsrc.src h.readBuf h1
    exact ⟨rfl, rest, S, h2, hr, ho.calmly h3, h.same h4, .refl _⟩
  | @mark _ _ w ws0 _ _ hm hr =>
    obtain ⟨rfl, rfl⟩ := List.cons.inj hl
    have e : processToken files rec t u s = some (true, u, processMark t s) := by
      rcases hm with hm | hm
      · have hhd : t.lex.headD 0 = ch '[' := by
          cases hx : t.lex with
          | nil => exact absurd hx hne
          | cons x l => rw [hx] at hm; exact Option.some.inj hm
        unfold processToken; dsimp only; rw [hhd]; rfl
      · have hhd : t.lex.headD 0 = ch ']' := by rw [hm]; rfl
        unfold processToken; dsimp only; rw [hhd]
        show keep u (if t.lex.length ≠ 1 then _ else _) = _
        rw [if_neg (by rw [hm]; decide)]
        rfl
    rw [e] at he
    cases he
    exact ⟨rfl, ws, S, hsrc, hr, ho.calmly (putSymbol_calm _ _ _), h.same (processMark_emits t s), .refl _⟩
  | @define _ _ w name ws0 ws1 b0 rest _ _ hwn hnm hfree hop hbody hr =>
    obtain ⟨rfl, rfl⟩ := List.cons.inj hl
    have hpop : popFront t.lex = name := by rw [hwn]; rfl
    have e : processToken files rec t u s = some (processMacro t u s) := by
      unfold processToken; dsimp only; rw [hwn]; rfl
    rw [e] at he
    have hon : Grows { S with macros := (name, b0) :: S.macros } f := ((reads_onward hr.reads) (define_onward hfree hfresh).1).2.trans hg
    subst hpop
    obtain ⟨u1, s1, h1, h2, h3, h4⟩ := processMacro_can t h ho hact hsrc hfree hop hbody hon hc
    rw [h1] at he
    cases he
    exact ⟨rfl, rest, _, h2, hr, h3, h4, (define_onward hfree hfresh).2⟩
  | @expand _ _ w b0 ws0 _ S1 _ hnm hb hlast hd hin hbody hr =>
    obtain ⟨rfl, rfl⟩ := List.cons.inj hl
    have h1f := ((used_onward (t.lex :: S.used) S).trans (reads_onward hbody.reads)) hfresh
    have hg1 : Grows S1 f := ((reads_onward hr.reads) h1f.1).2.trans hg
    obtain ⟨n, ts, id, s1, rfl, htne, h1, ho1, hn1, e⟩ := macro_token (files := files) (rec := rec) h ho t hc (fun b hb => hg1.macros _ _ (h1f.2.macros _ _ hb)) hb hin hd
    rw [e, if_neg hlast] at he
    have hbody' : Within files (d + 1) (t.lex :: active) (ts.map fun t => if ([] : Str) = [] then t.lex else replace [] t.lex) { S with used := t.lex :: S.used } S1 := by
      have : (ts.map fun t => if ([] : Str) = [] then t.lex else replace [] t.lex) = ts.map (·.lex) := List.map_congr_left fun t _ => if_pos rfl
      rw [this]; exact hbody
    obtain ⟨h2, h3, h4, h5⟩ := runMacro_can hrec t t.lex n ts id [] u h1 ho1 hact hn1 hb htne hin hbody' (fun h => absurd rfl h) hg1 _ he
    have h2 : b = true := h2
    have h3 : u' = u := h3
    subst h3
    exact ⟨h2, ws, S1, hsrc, hr, h4, h5, h1f.2⟩
  | @apply _ _ w arg b0 ws0 _ S1 _ hnm hb hlast hd hin hfit hbody hr =>
    obtain ⟨rfl, rfl⟩ := List.cons.inj hl
    have h1f := ((used_onward (t.lex :: S.used) S).trans (reads_onward hbody.reads)) hfresh
    have hg1 : Grows S1 f := ((reads_onward hr.reads) h1f.1).2.trans hg
    obtain ⟨n, ts, id, s1, rfl, htne, h1, ho1, hn1, e⟩ := macro_token (files := files) (rec := rec) h ho t hc (fun b hb => hg1.macros _ _ (h1f.2.macros _ _ hb)) hb hin hd
    rw [e, if_pos hlast] at he
    rcases hsrc.next s1 h1.readBuf with ⟨a, u1, rest, e1, hane, harg, hsrc1⟩ | ⟨u1, e1, harg⟩
    · obtain ⟨rfl, rfl⟩ := List.cons.inj harg
      rw [e1] at he
      dsimp only at he
      have hbody' : Within files (d + 1) (t.lex :: active) (ts.map fun t => if a.lex = [] then t.lex else replace a.lex t.lex) { S with used := t.lex :: S.used } S1 := by
        have : (ts.map fun t => if a.lex = [] then t.lex else replace a.lex t.lex) = (ts.map (·.lex)).map (replace a.lex) := by
          rw [List.map_map]
          exact List.map_congr_left fun t _ => if_neg hane
        rw [this]; exact hbody
      obtain ⟨h2, h3, h4, h5⟩ := runMacro_can hrec t t.lex n ts id a.lex u1 h1 ho1 hact hn1 hb htne hin hbody' (fun _ t ht => hfit _ (List.mem_map_of_mem ht)) hg1 _ he
      have h2 : b = true := h2
      have h3 : u' = u1 := h3
      subst h3
      exact ⟨h2, _, S1, hsrc1, hr, h4, h5, h1f.2⟩
    · cases harg
  | @«include» _ _ w name inner ws0 _ S1 _ hwn hdef hd hin hwords hinner hr =>
    obtain ⟨rfl, rfl⟩ := List.cons.inj hl
    have h1f := (reads_onward hinner.reads) (include_onward _ _ hfresh).1
    have hg1 : Grows S1 f := ((reads_onward hr.reads) h1f.1).2.trans hg
    rw [processToken_tilde t name u hwn (by rw [ho.depth]; exact hd) hdef, Option.map_eq_some_iff] at he
    obtain ⟨r, he, hr'⟩ := he
    obtain ⟨h2, h3, h4⟩ := processInclude_new hf hrec name t hin hwords (h.same (putSymbol_emits _ _ s)) (ho.calmly (putSymbol_calm _ _ _)) hact hinner hg1 r he
    cases hr'
    exact ⟨h2, ws, S1, hsrc, hr, h3, h4, (include_onward _ _ hfresh).2.trans h1f.2⟩
  | @again _ _ w name ws0 _ _ hwn hdef hd hin hr =>
    obtain ⟨rfl, rfl⟩ := List.cons.inj hl
    rw [processToken_tilde t name u hwn (by rw [ho.depth]; exact hd) hdef, processInclude_old name t hin (h.same (putSymbol_emits _ _ s))] at he
    cases he
    exact ⟨rfl, ws, S, hsrc, hr, ho.calmly (putSymbol_calm _ _ _), h.same (putSymbol_emits _ _ s), .refl _⟩
  | @defer _ _ w name ws0 _ _ hwn hd hr =>
    obtain ⟨rfl, rfl⟩ := List.cons.inj hl
    rw [processToken_tilde2 t name u hwn (by rw [ho.depth]; exact hd)] at he
    simp only [Option.some.injEq, Prod.mk.injEq] at he
    obtain ⟨rfl, rfl, rfl⟩ := he
    have h1 := h.same (putSymbol_emits s.writeAddr { type := .include, name := some name, region := t.region } s)
    refine ⟨rfl, ws, _, hsrc, hr, ?_, ?_, ?_⟩
    · split
      · exact ho.calmly (putSymbol_calm _ _ _)
      · exact ⟨ho.1, ho.2, fun k n hn => (ho.3 k n hn).more fun _ h => List.mem_cons_of_mem _ h⟩
    · by_cases hin : name ∈ s.includes
      · rw [if_pos hin, if_pos (by rw [h.included]; exact hin)]
        exact h1
      · rw [if_neg hin, if_neg (by rw [h.included]; exact hin)]
        refine ⟨h1.readBuf, h1.addr, h1.scope, h1.anonymous, h1.included, ?_, ?_, h1.tables, h1.lams, h1.memory, h1.history⟩
        · show _ = ((s.deferred ++ [(name, t)]).drop i).map _
          rw [List.drop_append_of_le_length h.index, List.map_append, h.deferred]; rfl
        · show i ≤ (s.deferred ++ [(name, t)]).length
          have := h.index
          rw [List.length_append]; omega
    · split
      · exact .refl _
      · exact (defer_onward _ _ hfresh).2
  | @word _ _ w ws0 _ S1 _ hm _ hwd hr =>
    obtain ⟨rfl, rfl⟩ := List.cons.inj hl
    have hg1 : Grows S1 f := ((reads_onward hr.reads) (word_onward hwd hfresh).1).2.trans hg
    obtain ⟨s1, e, h1, h2⟩ := word_can t hm hwd h ho hg1 hc
    rw [e] at he
    cases he
    exact ⟨rfl, ws, S1, hsrc, hr, h1, h2, (word_onward hwd hfresh).2⟩

theorem unitLoop_can (hf : Texts files) (hc : Finished f) (hrec : RecCan files f rec) (fuel : Nat) : RecCan files f (unitLoop files rec fuel) := by
  induction fuel with
  | zero => intro i u ws s S S' d active b s' _ _ _ _ _ _ he; cases he
  | succ fuel ih =>
    intro i u ws s S S' d active b s' hsrc hw hg h ho hact he
    rw [unitLoop] at he
    rcases hsrc.next s h.readBuf with ⟨t, u1, rest, e, htne, rfl, hsrc1⟩ | ⟨u1, e, rfl⟩
    · rw [e] at he
      dsimp only at he
      cases hp : processToken files rec t u1 s with
      | none => rw [hp] at he; cases he
      | some r =>
        obtain ⟨c, u2, s2⟩ := r
        rw [hp] at he
        obtain ⟨rfl, ws', S1, h1, h2, h3, h4, h5⟩ := processToken_can hf hc hrec t hsrc1 hw htne hg h ho hact c u2 s2 hp
        dsimp only at he
        exact ih i u2 ws' s2 S1 S' d active b s' h1 h2 hg h4 h3 (hact.grows h5) he
    · rw [e] at he
      cases he
      cases hw with
      | done => exact ⟨ho.success, ho, h⟩

end Buxn.Asm.Meaning
