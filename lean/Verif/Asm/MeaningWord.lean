import Verif.Asm.MeaningRead
import Verif.Asm.MeaningUnique
/-!
# C78: words other than macros, comments and includes
-/

namespace Buxn.Asm.Meaning
open Buxn.VM Buxn.Asm Buxn.Asm.Spec

/-! ## The specification of words -/

theorem word_rune {c : Byte} {rest : Str} {op : Option Byte} {k : RefKind} {z : RefSize} {S S' : State} (h : runes.lookup c = some (op, k, z))
    (hr : Refers rest k z (S.put op.toList) S') : Word (c :: rest) S S' := by
  unfold Word
  dsimp only
  rw [h]
  exact hr

theorem word_none {c : Byte} {rest : Str} {S S' : State} (h : runes.lookup c = none)
    (hw : if c = ch '#' then ∃ v k, Literal rest v k ∧ S' = S.put ((if k = 1 then 0x80 else 0xa0) :: bytesOf v k)
      else if c = ch '"' then rest ≠ [] ∧ S' = S.put rest
      else if c = ch '|' then ∃ a s1, Pads rest S a s1 ∧ S' = { s1 with addr := a }
      else if c = ch '$' then ∃ a s1, Pads rest S a s1 ∧ S' = { s1 with addr := S.addr + a }
      else if c :: rest = str "@@" then S' = { S with anonymous := S.addr :: S.anonymous }
      else if c = ch '@' then ∃ s1, Defines rest S s1 ∧ S' = { s1 with scope := rest.takeWhile (· ≠ ch '/') }
      else if c = ch '&' then Defines (S.scope ++ str "/" ++ rest) S S'
      else if c :: rest = str "}" then ∃ k ks, S.opened = k :: ks ∧ S' = { S with opened := ks, closed := (k, S.addr) :: S.closed, writes := S.fill (.lambda k) ++ S.writes }
      else if c :: rest = str "{" ∨ c = ch '/' then Refers (c :: rest) .rel .short (S.put [0x60]) S'
      else Bare (c :: rest) S S') : Word (c :: rest) S S' := by
  unfold Word
  dsimp only
  rw [h]
  exact hw

theorem isRunic_iff (c : Byte) : isRunic c = true ↔ c ∈ RUNES := by revert c; decide +kernel

theorem runes_none (c : Byte) (h : isRunic c = false) : runes.lookup c = none ∧ c ≠ ch '#' ∧ c ≠ ch '"' ∧ c ≠ ch '|' ∧ c ≠ ch '$' ∧ c ≠ ch '@' ∧ c ≠ ch '&' ∧ c ≠ ch '}' ∧ c ≠ ch '{' ∧ c ≠ ch '/' := by
  revert c; decide +kernel

theorem word_bare {w : Str} {S S' : State} (hne : w ≠ []) (hr : ∀ c, w.head? = some c → isRunic c = false) (h : Bare w S S') : Word w S S' := by
  cases w with
  | nil => exact absurd rfl hne
  | cons c rest =>
    obtain ⟨h0, h1, h2, h3, h4, h5, h6, h7, h8, h9⟩ := runes_none c (hr c rfl)
    refine word_none h0 ?_
    have e1 : ∀ {d : Byte} {l : Str}, c ≠ d → c :: rest ≠ d :: l := fun h e => h (List.cons.inj e).1
    rw [if_neg h1, if_neg h2, if_neg h3, if_neg h4, if_neg (show c :: rest ≠ str "@@" from e1 h5), if_neg h5, if_neg h6, if_neg (show c :: rest ≠ str "}" from e1 h7),
      if_neg (by rintro (e | e); exacts [absurd e (show c :: rest ≠ str "{" from e1 h8), h9 e])]
    exact h

theorem mnemonic_opcode {w : Str} {i : Instr} (h : Mnemonic w i) : ∃ op, dispatch op = some i := by
  cases h with
  | brk => exact ⟨0, by decide +kernel⟩
  | lit fl hfl => exact ⟨_, dispatch_code 0 (by omega) fl hfl⟩
  | op o fl hfl =>
    obtain ⟨hb, hlt, hget⟩ := baseCode_op o
    have hc := dispatch_code _ hlt fl hfl
    rw [instrAt, if_neg (by omega), Nat.add_sub_cancel, hget] at hc
    exact ⟨_, hc⟩

theorem isName_of {w : Str} (hr : ∀ c, w.head? = some c → isRunic c = false) (hp : parseOpcode w = none) (hn : isNumber w = false) : IsName w := by
  refine ⟨fun c hc hm => ?_, ?_, ?_⟩
  · have := hr c hc
    rw [(isRunic_iff c).2 hm] at this; cases this
  · rintro ⟨v, k, h⟩
    rw [Literal.isNumber h] at hn; cases hn
  · rintro ⟨i, h⟩
    obtain ⟨op, ho⟩ := mnemonic_opcode h
    obtain ⟨red, hred⟩ := (C33_mnemonics w op).2 ⟨i, h, ho⟩
    rw [hred] at hp; cases hp

theorem rune_name {c : Byte} {rest : Str} (h : c ∈ RUNES) : ¬ IsName (c :: rest) := fun hn => hn.1 c rfl h

/-! ## References -/

theorem andThen_fst {r : Bool × Asm} {f : Asm → Bool × Asm} (h : (andThen r f).1 = true) : r.1 = true ∧ andThen r f = f r.2 := by
  unfold andThen at *
  split at h
  · rename_i h1; exact ⟨h1, if_pos h1⟩
  · cases h

theorem opRef_sim {i : Nat} {s : Asm} {S : State} (h : Sim i s S) (t : Token) (op : Byte) (r r' : Bool) (k : RefKind) (z : RefSize) (ref : Str)
    (hok : (andThen (emitOpcode t op r s) fun s => emitLabelRef t k z ref r' s).1 = true) (hs : (andThen (emitOpcode t op r s) fun s => emitLabelRef t k z ref r' s).2.success = true) :
    ∃ S', Refers ref k z (S.put [op]) S' ∧ Sim i (andThen (emitOpcode t op r s) fun s => emitLabelRef t k z ref r' s).2 S' := by
  obtain ⟨h1, e⟩ := andThen_fst hok
  rw [e] at hok hs ⊢
  have hp := (emitOpcode_puts t op r s ((emitLabelRef_good ext_atoms.closed t k z ref r' _).1.1.ok hs)).2
  exact emitLabelRef_sim (h.puts hp) t k z ref r' hok hs

/-! ## Numbers and texts -/

theorem litNumber_sim {i : Nat} {s : Asm} {S : State} (h : Sim i s S) (t : Token) (hok : (processLitNumber t s).1 = true) (hs : (processLitNumber t s).2.success = true) :
    ∃ v k, Literal (popFront t.lex) v k ∧ Sim i (processLitNumber t s).2 (S.put ((if k = 1 then 0x80 else 0xa0) :: bytesOf v k)) := by
  unfold processLitNumber at *
  cases hp : parseLiteral (popFront t.lex) with
  | error e => rw [hp] at hok; cases hok
  | ok r =>
    obtain ⟨n, k⟩ := r
    rw [hp] at hok hs
    obtain ⟨v, hl, rfl⟩ := (C32_literal_value _ n k).1 hp
    refine ⟨v, k, hl, ?_⟩
    dsimp only at *
    by_cases hk : k = 1
    · rw [if_pos hk] at hok hs ⊢
      rw [if_pos hk, bytesOf, if_pos hk, ← lo8_ofNat]
      obtain ⟨h1, e⟩ := andThen_fst hok
      rw [e] at hs ⊢
      have p2 := (emitByte_puts t _ true _ hs).2
      have p1 := (emitOpcode_puts t 0x80 true s ((emitByte_good ext_atoms.closed t _ true _).1.1.ok hs)).2
      exact h.puts (p1.trans p2)
    · rw [if_neg hk] at hok hs ⊢
      rw [if_neg hk, bytesOf, if_neg hk, ← hi8_ofNat, ← lo8_ofNat]
      obtain ⟨h1, e⟩ := andThen_fst hok
      rw [e] at hs ⊢
      have p2 := (emitShort_puts t _ true _ hs).2
      have p1 := (emitOpcode_puts t 0xa0 true s ((emitShort_good ext_atoms.closed t _ true _).1.1.ok hs)).2
      exact h.puts (p1.trans p2)

theorem rawNumber_sim {i : Nat} {s : Asm} {S : State} (h : Sim i s S) (t : Token) (hok : (processRawNumber t s).1 = true) (hs : (processRawNumber t s).2.success = true) :
    ∃ v k, Literal t.lex v k ∧ Sim i (processRawNumber t s).2 (S.put (bytesOf v k)) := by
  unfold processRawNumber at *
  cases hp : parseLiteral t.lex with
  | error e => rw [hp] at hok; cases hok
  | ok r =>
    obtain ⟨n, k⟩ := r
    rw [hp] at hok hs
    obtain ⟨v, hl, rfl⟩ := (C32_literal_value _ n k).1 hp
    refine ⟨v, k, hl, ?_⟩
    dsimp only at *
    by_cases hk : k = 1
    · rw [if_pos hk] at hok hs ⊢
      rw [bytesOf, if_pos hk, ← lo8_ofNat]
      exact h.puts (emitByte_puts t _ false _ hs).2
    · rw [if_neg hk] at hok hs ⊢
      rw [bytesOf, if_neg hk, ← hi8_ofNat, ← lo8_ofNat]
      exact h.puts (emitShort_puts t _ false _ hs).2

theorem text_sim {i : Nat} {s : Asm} {S : State} (h : Sim i s S) (t : Token) (hok : (processText t s).1 = true) (hs : (processText t s).2.success = true) :
    t.lex.tail ≠ [] ∧ Sim i (processText t s).2 (S.put t.lex.tail) := by
  unfold processText at *
  by_cases hl : t.lex.length ≤ 1
  · rw [if_pos hl] at hok; cases hok
  · rw [if_neg hl] at hs ⊢
    refine ⟨?_, h.puts (textLoop_puts t _ _ _ s hs).2⟩
    intro e
    have := congrArg List.length e
    rw [List.length_tail, List.length_nil] at this
    omega

/-! ## Padding -/

theorem hex_isNumber {ds : Str} (hne : ds ≠ []) (h : HexDigits ds) : isNumber ds = true := by
  unfold isNumber
  rw [if_neg (fun e => hne (List.length_eq_zero_iff.1 e)), plusCount_hex h, if_neg (by omega), List.all_eq_true]
  exact fun c hc => (isHex_iff c).2 (h c hc)

theorem Amount.isNumber {p : Str} {v : Nat} (h : Amount p v) : isNumber p = true := by
  cases h with
  | hex hne _ hd => exact hex_isNumber hne hd
  | literal h => exact Literal.isNumber h

theorem Sim.setAddr {i : Nat} {s : Asm} {S : State} (h : Sim i s S) (a : Short) : Sim i { s with writeAddr := a } { S with addr := a } :=
  ⟨h.readBuf, rfl, h.scope, h.anonymous, h.included, h.deferred, h.index, h.tables, h.lams, h.memory, h.history⟩

theorem resolvePadding_sim {i : Nat} {s s' : Asm} {S : State} (h : Sim i s S) (t : Token) (a : Short) (hr : resolvePadding t s = (some a, s')) :
    ∃ S', Pads (popFront t.lex) S a S' ∧ Sim i s' S' ∧ s'.writeAddr = s.writeAddr := by
  unfold resolvePadding at hr
  dsimp only at hr
  generalize popFront t.lex = p at hr ⊢
  by_cases hl : p.length = 0
  · rw [if_pos hl] at hr; cases hr
  rw [if_neg hl] at hr
  by_cases hn : isNumber p = true
  · rw [if_pos hn] at hr
    cases hp : parseNumber p with
    | error e => rw [hp] at hr; cases hr
    | ok r =>
      obtain ⟨n, k⟩ := r
      rw [hp] at hr
      obtain ⟨v, hv, hnv⟩ := parse_amount hp
      cases hr
      rw [hnv]
      exact ⟨S, .number hv, h, rfl⟩
  rw [if_neg hn] at hr
  have hna : ¬ ∃ v, Amount p v := fun ⟨v, hv⟩ => hn hv.isNumber
  generalize hre : resolveLabelRef t p s = re at hr
  obtain ⟨o, s1⟩ := re
  cases o with
  | none => cases hr
  | some name =>
    dsimp only at hr
    have hb : p ≠ [ch '{'] := by
      rintro rfl
      have : resolveLabelRef t [ch '{'] s = (some [ch '{'], s) := rfl
      rw [this] at hre
      cases hre
      rw [if_neg (by decide), show s.symtab [ch '{'] = none from h.tables.brace] at hr
      cases hr
    obtain ⟨rfl, hfull⟩ := resolveLabelRef_some hre hb
    by_cases hat : name = [ch '@']
    · rw [if_pos hat] at hr hfull
      have href : p = str "@" := by
        by_contra hne
        unfold fullName at hfull
        rw [if_neg (by rintro (h | h); exacts [hb h, hne h])] at hfull
        split at hfull
        · split at hfull <;> cases hfull
        · exact hl rfl
      cases hla : s1.atLabels with
      | nil => rw [hla] at hr; cases hr
      | cons l ls =>
        rw [hla] at hr
        cases hr
        rw [href]
        refine ⟨_, .anonymous (rest := ls.map (·.addr)) (by rw [h.anonymous, hla]; rfl), ?_, rfl⟩
        exact ⟨h.readBuf, h.addr, h.scope, rfl, h.included, h.deferred, h.index, h.tables, h.lams, h.memory, h.history⟩
    · rw [if_neg hat] at hr hfull
      cases hs : s1.symtab name with
      | none => rw [hs] at hr; cases hr
      | some n =>
        rw [hs] at hr
        dsimp only at hr
        cases he : n.entry with
        | label id b =>
          rw [he] at hr
          cases hr
          refine ⟨_, .label hna (n := name) (by rw [h.scope, ← hfull]) ?_, h.mark name _ n hs he.symm (by simp) rfl, rfl⟩
          rw [h.tables.labels, hs, Option.bind_some, he]; rfl
        | unknown => rw [he] at hr; cases hr
        | forward _ _ => rw [he] at hr; cases hr
        | «macro» _ _ _ => rw [he] at hr; cases hr

theorem absPadding_sim {i : Nat} {s : Asm} {S : State} (h : Sim i s S) (t : Token) (hok : (processAbsPadding t s).1 = true) :
    ∃ a S1, Pads (popFront t.lex) S a S1 ∧ Sim i (processAbsPadding t s).2 { S1 with addr := a } := by
  unfold processAbsPadding at *
  generalize hr : resolvePadding t s = r at *
  obtain ⟨o, s1⟩ := r
  cases o with
  | none => cases hok
  | some a =>
    obtain ⟨S1, h1, h2, -⟩ := resolvePadding_sim h t a hr
    exact ⟨a, S1, h1, h2.setAddr a⟩

theorem relPadding_sim {i : Nat} {s : Asm} {S : State} (h : Sim i s S) (t : Token) (hok : (processRelPadding t s).1 = true) :
    ∃ a S1, Pads (popFront t.lex) S a S1 ∧ Sim i (processRelPadding t s).2 { S1 with addr := S.addr + a } := by
  unfold processRelPadding at *
  generalize hr : resolvePadding t s = r at *
  obtain ⟨o, s1⟩ := r
  cases o with
  | none => cases hok
  | some a =>
    obtain ⟨S1, h1, h2, h3⟩ := resolvePadding_sim h t a hr
    refine ⟨a, S1, h1, ?_⟩
    dsimp only
    rw [h.addr, ← h3]
    have h4 := h2.setAddr (s1.writeAddr + a)
    split
    · exact h4.same (warning_emits _ _ _)
    · exact h4

/-! ## Labels -/

theorem globalLabel_sim {i : Nat} {s : Asm} {S : State} (h : Sim i s S) (t : Token) (rest : Str) (ht : t.lex = ch '@' :: rest) (hok : (processGlobalLabel t s).1 = true)
    (hs : (processGlobalLabel t s).2.success = true) : ∃ S', Word t.lex S S' ∧ Sim i (processGlobalLabel t s).2 S' := by
  unfold processGlobalLabel at *
  dsimp only at *
  have hpop : popFront t.lex = rest := by rw [ht]; rfl
  rw [hpop] at hok hs ⊢
  rw [ht]
  by_cases ha : rest = [ch '@']
  · rw [if_pos ha]
    refine ⟨{ S with anonymous := S.addr :: S.anonymous }, word_none (by decide +kernel) ?_, ?_⟩
    · subst ha
      rw [if_neg (by decide), if_neg (by decide), if_neg (by decide), if_neg (by decide), if_pos (show [ch '@', ch '@'] = str "@@" from rfl)]
    · exact ⟨h.readBuf, h.addr, h.scope, by rw [h.addr, h.anonymous]; rfl, h.included, h.deferred, h.index, h.tables, h.lams, h.memory.same rfl rfl, h.history.next [] rfl fun _ n _ _ h1 h2 => ⟨n, h1, h2⟩⟩
  · rw [if_neg ha] at hok hs ⊢
    obtain ⟨h1, e⟩ := andThen_fst hok
    rw [e] at hs ⊢
    obtain ⟨S1, hd, h2⟩ := registerLabel_sim h t rest h1 hs
    refine ⟨{ S1 with scope := rest.takeWhile (· ≠ ch '/') }, word_none (by decide +kernel) ?_, ?_⟩
    · rw [if_neg (by decide), if_neg (by decide), if_neg (by decide), if_neg (by decide), if_neg (show ch '@' :: rest ≠ str "@@" from fun e => ha (List.cons.inj e).2), if_pos rfl]
      exact ⟨S1, hd, rfl⟩
    · exact ⟨h2.readBuf, h2.addr, rfl, h2.anonymous, h2.included, h2.deferred, h2.index, h2.tables, h2.lams, h2.memory, h2.history⟩

theorem localLabel_sim {i : Nat} {s : Asm} {S : State} (h : Sim i s S) (t : Token) (rest : Str) (ht : t.lex = ch '&' :: rest) (hok : (processLocalLabel t s).1 = true)
    (hs : (processLocalLabel t s).2.success = true) : ∃ S', Fits t.lex S ∧ Word t.lex S S' ∧ Sim i (processLocalLabel t s).2 S' := by
  unfold processLocalLabel resolveLocalName at *
  have hpop : popFront t.lex = rest := by rw [ht]; rfl
  rw [hpop] at hok hs ⊢
  rw [ht]
  by_cases hl : MAX_TOKEN_LEN < rest.length + s.scope.length + 1
  · rw [if_pos hl] at hok; cases hok
  · rw [if_neg hl] at hok hs ⊢
    dsimp only at *
    obtain ⟨S1, hd, h2⟩ := registerLabel_sim h t (s.scope ++ ch '/' :: rest) hok hs
    have hfit : Fits (ch '&' :: rest) S := by
      intro r hr
      cases hr
      rw [h.scope, List.length_append, List.length_append]
      show s.scope.length + 1 + rest.length ≤ 47
      have : ¬ 47 < rest.length + s.scope.length + 1 := hl
      omega
    refine ⟨S1, hfit, word_none (by decide +kernel) ?_, h2⟩
    rw [if_neg (by decide), if_neg (by decide), if_neg (by decide), if_neg (by decide), if_neg (show ch '&' :: rest ≠ str "@@" from fun e => absurd (List.cons.inj e).1 (by decide)), if_neg (by decide), if_pos rfl]
    rw [h.scope, List.append_assoc]
    exact hd

/-! ## Calls -/

theorem jsi_sim {i : Nat} {s : Asm} {S : State} (h : Sim i s S) (t : Token) (hok : (emitJsi t s).1 = true) (hs : (emitJsi t s).2.success = true) :
    ∃ S', Refers t.lex .rel .short (S.put [0x60]) S' ∧ Sim i (emitJsi t s).2 S' := opRef_sim h t 0x60 false false .rel .short t.lex hok hs

theorem name_target {w : Str} (hne : w ≠ []) (hr : ∀ c, w.head? = some c → isRunic c = false) (S : State) : S.target w = some (.name w, { S with used := w :: S.used }) := by
  cases w with
  | nil => exact absurd rfl hne
  | cons c rest =>
    obtain ⟨-, -, -, -, -, h5, h6, -, h8, h9⟩ := runes_none c (hr c rfl)
    have e1 : ∀ {d : Byte} {l : Str}, c ≠ d → c :: rest ≠ d :: l := fun h e => h (List.cons.inj e).1
    unfold State.target fullName
    rw [if_neg (show c :: rest ≠ str "{" from e1 h8), if_neg (show c :: rest ≠ str "@" from e1 h5),
      if_neg (by rintro (e | e); exacts [absurd e (show c :: rest ≠ str "{" from e1 h8), absurd e (show c :: rest ≠ str "@" from e1 h5)])]
    dsimp only
    rw [if_neg (by rintro (e | e); exacts [h6 e, h9 e])]
    rfl

theorem emitForwardRef_ext (t : Token) (k : RefKind) (z : RefSize) (name : Str) (n : Node) (r : Bool) (s : Asm) : Ext s (emitForwardRef t k z name n r s).2 := by
  unfold emitForwardRef addForwardRef
  exact (numberLabel_ext _ _).trans (Ext.trans (setNode_ext _ _ _) (andThen_ext (emitPlaceholder_ext _ _ _ _ _ _ _) fun _ => setNode_ext _ _ _))

/-- A word that is an instruction or a call. -/
theorem processWord_sim {i : Nat} {s s' : Asm} {S : State} (rec : Nested) (t : Token) (u u' : Unit) (h : Sim i s S) (hne : t.lex ≠ []) (hn : isNumber t.lex = false)
    (he : processWord rec t u s = some (true, u', s')) (hs : s'.success = true) :
    (u' = u ∧ ∃ S', (IsName t.lex → S.macros.lookup t.lex = none) ∧ Bare t.lex S S' ∧ Sim i s' S') ∨
    (IsName t.lex ∧ ∃ n s1 body id x, findOrCreate t t.lex s = (some n, s1) ∧ n.entry = .macro body id x ∧
      expandMacro rec t t.lex { n with referenced := true, entry := .macro body id x } body id x u (setNode t.lex { n with referenced := true, entry := .macro body id x } s1) = some (true, u', s')) := by
  unfold processWord at he
  have hnl : ¬ ∃ v k, Literal t.lex v k := fun ⟨v, k, hl⟩ => by rw [Literal.isNumber hl] at hn; cases hn
  cases hp : parseOpcode t.lex with
  | some r =>
    obtain ⟨op, red⟩ := r
    rw [hp] at he
    dsimp only at he
    obtain ⟨ins, hm, hd⟩ := (C33_mnemonics t.lex op).1 ⟨red, hp⟩
    have h1 : Sim i (if red = true then warning "Opcode contains redundant flags" t.region s else s) S := by
      split
      exacts [h.same (warning_emits _ _ _), h]
    generalize (if red = true then warning "Opcode contains redundant flags" t.region s else s) = s1 at he h1
    obtain ⟨hb, hu, rfl⟩ : (emitOpcode t op false s1).1 = true ∧ u = u' ∧ (emitOpcode t op false s1).2 = s' := by
      simp only [Option.some.injEq, Prod.mk.injEq] at he
      exact he
    refine .inl ⟨hu.symm, _, fun hnm => absurd ⟨ins, hm⟩ hnm.2.2, .inr (.inl ⟨hnl, ins, op, hm, hd, rfl⟩), ?_⟩
    exact h1.puts (emitOpcode_puts t op false s1 hs).2
  | none =>
    rw [hp] at he
    dsimp only at he
    generalize hfc : findOrCreate t t.lex s = fc at he
    obtain ⟨o, s1⟩ := fc
    cases o with
    | none => cases he
    | some n =>
      obtain ⟨h1, hsym, hwa, hr, -, -, -⟩ := findOrCreate_sim h hfc
      have hname : IsName t.lex := isName_of hr hp hn
      dsimp only at he
      have hmac : bodyOf n.entry = none → (IsName t.lex → S.macros.lookup t.lex = none) := fun hb _ => by
        rw [h1.tables.macros, hsym, Option.bind_some]; exact hb
      cases hen : n.entry with
      | «macro» body id x =>
        rw [hen] at he
        exact .inr ⟨hname, n, s1, body, id, x, rfl, hen, he⟩
      | label id addr =>
        rw [hen] at he hmac
        dsimp only at he
        obtain ⟨hb, hu, rfl⟩ : (andThen (emitOpcode t 0x60 false (setNode t.lex { n with referenced := true, entry := .label id addr } s1)) fun s => emitBackwardRef t .rel .short (some t.lex) id addr true false s).1 = true ∧ u = u' ∧
            (andThen (emitOpcode t 0x60 false (setNode t.lex { n with referenced := true, entry := .label id addr } s1)) fun s => emitBackwardRef t .rel .short (some t.lex) id addr true false s).2 = s' := by
          simp only [Option.some.injEq, Prod.mk.injEq] at he
          exact he
        have h2 := h1.mark t.lex { n with referenced := true, entry := .label id addr } n hsym hen.symm (by simp) rfl
        obtain ⟨-, e⟩ := andThen_fst hb
        rw [e] at hs ⊢
        have p1 := (emitOpcode_puts t 0x60 false _ ((emitBackwardRef_ext _ _ _ _ _ _ _ _ _).ok hs)).2
        have h3 := h2.puts p1
        obtain ⟨-, hr', e'⟩ := emitBackwardRef_emits t .rel .short (some t.lex) id addr true false _ hs
        have hl : findIn (S.put [0x60]).labels (S.put [0x60]).closed (.name t.lex) = some addr := by
          rw [put_eq]
          show S.labels.lookup t.lex = _
          rw [h1.tables.labels, hsym, Option.bind_some, hen]; rfl
        refine .inl ⟨hu.symm, _, hmac rfl, .inr (.inr ⟨hname, .name t.lex, _, name_target hne hr _, rfl⟩), ?_⟩
        exact h3.refer .rel .short _ addr hl (fun j h => by cases h) hr' e'
      | unknown =>
        rw [hen] at he hmac
        dsimp only at he
        obtain ⟨hb, hu, rfl⟩ : (andThen (emitOpcode t 0x60 false s1) fun s => emitForwardRef t .rel .short t.lex n false s).1 = true ∧ u = u' ∧
            (andThen (emitOpcode t 0x60 false s1) fun s => emitForwardRef t .rel .short t.lex n false s).2 = s' := by
          simp only [Option.some.injEq, Prod.mk.injEq] at he
          exact he
        obtain ⟨-, e⟩ := andThen_fst hb
        rw [e] at hs ⊢
        have p1 := (emitOpcode_puts t 0x60 false s1 ((emitForwardRef_ext _ _ _ _ _ _ _).ok hs)).2
        refine .inl ⟨hu.symm, _, hmac rfl, .inr (.inr ⟨hname, .name t.lex, _, name_target hne hr _, rfl⟩), ?_⟩
        exact emitForwardRef_sim (h1.puts p1) t .rel .short t.lex n false (by rw [p1.same.symtab]; exact hsym) (.inl hen) hs
      | forward id fs =>
        rw [hen] at he hmac
        dsimp only at he
        obtain ⟨hb, hu, rfl⟩ : (andThen (emitOpcode t 0x60 false s1) fun s => emitForwardRef t .rel .short t.lex n false s).1 = true ∧ u = u' ∧
            (andThen (emitOpcode t 0x60 false s1) fun s => emitForwardRef t .rel .short t.lex n false s).2 = s' := by
          simp only [Option.some.injEq, Prod.mk.injEq] at he
          exact he
        obtain ⟨-, e⟩ := andThen_fst hb
        rw [e] at hs ⊢
        have p1 := (emitOpcode_puts t 0x60 false s1 ((emitForwardRef_ext _ _ _ _ _ _ _).ok hs)).2
        refine .inl ⟨hu.symm, _, hmac rfl, .inr (.inr ⟨hname, .name t.lex, _, name_target hne hr _, rfl⟩), ?_⟩
        exact emitForwardRef_sim (h1.puts p1) t .rel .short t.lex n false (by rw [p1.same.symtab]; exact hsym) (.inr ⟨id, fs, hen⟩) hs

end Buxn.Asm.Meaning
