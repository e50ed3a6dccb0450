import Verif.Asm.AcceptsEmit
/-!
# C80: references and labels succeed
-/

namespace Buxn.Asm.Meaning
open Buxn.VM Buxn.Asm Buxn.Asm.Spec

theorem isDigit_iff' (c : Byte) : isDigit c = true ↔ c ∈ str "0123456789" := by revert c; decide +kernel

theorem isNumber_iff (w : Str) : isNumber w = true ↔ Numeric w := by
  have hplus : (ch '+') ∉ str "0123456789abcdef" := by decide
  have hall : ∀ l : Str, (l.all isDigit = true) ↔ DecDigits l := fun l => by
    rw [List.all_eq_true]
    exact forall₂_congr fun c _ => isDigit_iff' c
  have hhex : ∀ l : Str, (l.all (fun c => isDigit c || isLowHex c) = true) ↔ HexDigits l := fun l => by
    rw [List.all_eq_true]
    exact forall₂_congr fun c _ => isHex_iff c
  have hno : ∀ l : Str, l.head? = some (ch '+') → ¬ HexDigits l := fun l hl h => hex_no_plus h hl
  unfold isNumber Numeric
  match w with
  | [] => simp
  | [a] =>
    by_cases ha : a = ch '+'
    · subst ha
      have : isNumber [ch '+'] = true := by decide
      constructor
      · intro _; exact ⟨by simp, .inr ⟨[], (fun c h => by cases h), .inl rfl⟩⟩
      · intro _; exact this
    · have hp : plusCount [a] = 0 := if_neg ha
      rw [hp, if_neg (by simp), if_neg (by omega), hhex]
      constructor
      · intro h; exact ⟨by simp, .inl h⟩
      · rintro ⟨-, h | ⟨ds, -, h | h⟩⟩
        · exact h
        · exact absurd (List.cons.inj h).1 ha
        · exact absurd (List.cons.inj h).1 ha
  | a :: b :: l =>
    rw [if_neg (by simp)]
    by_cases ha : a = ch '+'
    · subst ha
      by_cases hb : b = ch '+'
      · subst hb
        have hp : plusCount (ch '+' :: ch '+' :: l) = 2 := rfl
        rw [hp, if_pos (by omega)]
        show List.all l isDigit = true ↔ _
        rw [hall]
        constructor
        · intro h; exact ⟨by simp, .inr ⟨l, h, .inr rfl⟩⟩
        · rintro ⟨-, h | ⟨ds, hd, h | h⟩⟩
          · exact absurd h (hno _ rfl)
          · have : ds = ch '+' :: l := (List.cons.inj h).2.symm
            subst this
            exact absurd (hd _ List.mem_cons_self) (by decide)
          · have : ds = l := (List.cons.inj (List.cons.inj h).2).2.symm
            rw [← this]; exact hd
      · have hp : plusCount (ch '+' :: b :: l) = 1 := by
          show (if ch '+' = ch '+' then (if b = ch '+' then 2 else 1) else 0) = 1
          rw [if_pos rfl, if_neg hb]
        rw [hp, if_pos (by omega)]
        show List.all (b :: l) isDigit = true ↔ _
        rw [hall]
        constructor
        · intro h; exact ⟨by simp, .inr ⟨b :: l, h, .inl rfl⟩⟩
        · rintro ⟨-, h | ⟨ds, hd, h | h⟩⟩
          · exact absurd h (hno _ rfl)
          · have : ds = b :: l := (List.cons.inj h).2.symm
            rw [← this]; exact hd
          · exact absurd (List.cons.inj (List.cons.inj h).2).1 hb
    · have hp : plusCount (a :: b :: l) = 0 := if_neg ha
      rw [hp, if_neg (by omega), hhex]
      constructor
      · intro h; exact ⟨by simp, .inl h⟩
      · rintro ⟨-, h | ⟨ds, -, h | h⟩⟩
        · exact h
        · exact absurd (List.cons.inj h).1 ha
        · exact absurd (List.cons.inj h).1 ha

theorem ValidName.number {w : Str} (h : ValidName w) : isNumber w = false := by
  cases hx : isNumber w with
  | false => rfl
  | true => exact absurd ((isNumber_iff w).1 hx) h.2.2

theorem IsName.runic {w : Str} (h : IsName w) {c : Byte} (hc : w.head? = some c) : isRunic c = false := by
  cases hx : isRunic c with
  | false => rfl
  | true => exact absurd ((isRunic_iff c).1 hx) (h.1 c hc)

theorem IsName.opcode {w : Str} (h : IsName w) : parseOpcode w = none := by
  cases hx : parseOpcode w with
  | none => rfl
  | some p =>
    obtain ⟨i, hi, -⟩ := (C33_mnemonics w p.1).1 ⟨p.2, hx⟩
    exact absurd ⟨i, hi⟩ h.2.2

/-- A valid name is found or created. -/
theorem findOrCreate_can (t : Token) (name : Str) (s : Asm) (h : ValidName name) :
    (∃ n, s.symtab name = some n ∧ findOrCreate t name s = (some n, s)) ∨
    (s.symtab name = none ∧ findOrCreate t name s = (some ⟨t, false, .unknown⟩, { setNode name ⟨t, false, .unknown⟩ s with names := name :: s.names })) := by
  cases name with
  | nil => exact absurd rfl h.1
  | cons c cs =>
    have h1 : isRunic c = false := h.2.1.runic rfl
    have h2 := h.2.1.opcode
    have h3 := h.number
    unfold findOrCreate
    dsimp only
    rw [h1, if_neg (by simp), h2, if_neg (by simp), h3, if_neg (by simp)]
    cases hx : s.symtab (c :: cs) with
    | some n => exact .inl ⟨n, rfl, rfl⟩
    | none => exact .inr ⟨rfl, rfl⟩

/-- As `Ok`, except for one entry. -/
structure OkBut (name : Str) (d : Nat) (active : List Str) (s : Asm) : Prop where
  success : s.success = true
  depth : s.depth = d
  settled : ∀ k n, k ≠ name → s.symtab k = some n → Settled active s.log k n n.entry

variable {d : Nat} {active : List Str}

theorem Ok.but {s : Asm} (h : Ok d active s) (name : Str) : OkBut name d active s := ⟨h.success, h.depth, fun k n _ => h.settled k n⟩

theorem OkBut.calmly {name : Str} {s s' : Asm} (h : OkBut name d active s) (c : Calmly s s') : OkBut name d active s' :=
  ⟨c.success.trans h.success, c.depth.trans h.depth, by rw [c.symtab]; exact fun k n e hn => (h.settled k n e hn).more c.log⟩

theorem OkBut.change {name : Str} {s : Asm} (h : OkBut name d active s) (n : Node) : OkBut name d active (setNode name n s) :=
  ⟨h.success, h.depth, fun k m e hk => by
    have : (setNode name n s).symtab k = s.symtab k := by simp [setNode, e]
    rw [this] at hk; exact h.settled k m e hk⟩

theorem OkBut.set {name : Str} {s : Asm} (h : OkBut name d active s) (n : Node) (hn : Settled active s.log name n n.entry) : Ok d active (setNode name n s) :=
  ⟨h.success, h.depth, fun k m hk => by
    by_cases e : k = name
    · subst e
      have : (setNode k n s).symtab k = some n := by simp [setNode]
      rw [this] at hk; cases hk; exact hn
    · have : (setNode name n s).symtab k = s.symtab k := by simp [setNode, e]
      rw [this] at hk; exact h.settled k m e hk⟩

theorem OkBut.names {name : Str} {s : Asm} (h : OkBut name d active s) (l : List Str) : OkBut name d active { s with names := l } := ⟨h.1, h.2, h.3⟩

theorem numberLabel_calm (e : Entry) (s : Asm) : Calmly s (numberLabel e s) := by
  unfold numberLabel
  split
  · exact ⟨rfl, rfl, rfl, fun _ h => h⟩
  · exact .refl s

theorem numberLabel_addr (e : Entry) (s : Asm) : (numberLabel e s).writeAddr = s.writeAddr := by
  unfold numberLabel
  split <;> rfl

theorem emitForwardRef_can (t : Token) (k : RefKind) (z : RefSize) (name : Str) (n : Node) (r : Bool) (s : Asm) (ho : OkBut name d active s)
    (h : ∀ a ∈ cells s.writeAddr z, 0x100 ≤ a.toNat) : (emitForwardRef t k z name n r s).1 = true ∧ Ok d active (emitForwardRef t k z name n r s).2 := by
  unfold emitForwardRef addForwardRef
  dsimp only
  generalize forwardOf n.entry (s.numLabels + 1) = f
  have h1 : OkBut name d active (setNode name { n with entry := .forward f.1 f.2 } (numberLabel n.entry s)) := (ho.calmly (numberLabel_calm _ s)).change _
  have ha : (setNode name { n with entry := .forward f.1 f.2 } (numberLabel n.entry s)).writeAddr = s.writeAddr := numberLabel_addr _ s
  obtain ⟨h2, h3⟩ := emitPlaceholder_can t k z (some name) f.1 r (setNode name { n with entry := .forward f.1 f.2 } (numberLabel n.entry s)) (by rw [ha]; exact h)
  unfold andThen
  rw [if_pos h2]
  exact ⟨rfl, (h1.calmly h3).set _ (by simp [Settled])⟩

theorem emitLambdaRef_can (t : Token) (k : RefKind) (z : RefSize) (r : Bool) (s : Asm) (ho : Ok d active s)
    (h : ∀ a ∈ cells s.writeAddr z, 0x100 ≤ a.toNat) : (emitLambdaRef t k z r s).1 = true ∧ Ok d active (emitLambdaRef t k z r s).2 := by
  have h1 := emitPlaceholder_can t k z none (s.numLabels + 1) r { s with numLabels := s.numLabels + 1 } h
  have h2 : Succeeds s (emitLambdaRef t k z r s) := by
    refine Succeeds.andThen (s := s) ⟨h1.1, Calmly.trans (a := s) (b := { s with numLabels := s.numLabels + 1 }) ⟨rfl, rfl, rfl, fun _ h => h⟩ h1.2⟩ ⟨rfl, rfl, rfl, rfl, fun _ h => h⟩
  exact ⟨h2.1, ho.calmly h2.2⟩

variable {i : Nat} {s : Asm} {S S' f : State}

/-- The entry of a name that the program refers to or defines is not that of a macro. -/
theorem Sim.notMacro (h : Sim i s S) (hm : S.macros.lookup name = none) {n : Node} (hn : s.symtab name = some n) (ts : List Token) (id : Short) (x : Bool) :
    n.entry ≠ .macro ts id x := by
  intro e
  have := h.tables.macros name
  rw [hm, hn, Option.bind_some, e] at this
  cases this

theorem grows_macro_none (hg : Grows S f) {n : Str} (h : f.macros.lookup n = none) : S.macros.lookup n = none := by
  cases hx : S.macros.lookup n with
  | none => rfl
  | some b => rw [hg.macros n b hx] at h; cases h

/-- A reference can be written if the program is complete at the end. -/
theorem emitLabelRef_can (h : Sim i s S) (ho : Ok d active s) (t : Token) (k : RefKind) (z : RefSize) (ref : Str) (r : Bool) (hr : Refers ref k z S S')
    (hg : Grows S' f) (hf : Finished f) : (emitLabelRef t k z ref r s).1 = true ∧ Ok d active (emitLabelRef t k z ref r s).2 := by
  obtain ⟨tg, S1, ht, rfl⟩ := hr
  have hmem : (⟨S1.addr, k, z, tg⟩ : Reference) ∈ (S1.refer k z tg).refs := List.mem_cons_self
  have hS1 : S1.addr = s.writeAddr := by
    rw [← h.addr]
    unfold State.target at ht
    split at ht
    · cases ht; rfl
    · split at ht
      · split at ht
        · cases ht
        · cases ht; rfl
      · rw [Option.map_eq_some_iff] at ht
        obtain ⟨n, -, ht⟩ := ht
        cases ht; rfl
  have hcell : ∀ a ∈ cells s.writeAddr z, 0x100 ≤ a.toNat := fun a ha => hf.cell hg hmem (by rw [Reference.cells_eq]; show a ∈ cells S1.addr z; rw [hS1]; exact ha)
  have hreach : ∀ l, S1.find tg = some l → InReach k z s.writeAddr l := fun l hl => by
    have := hf.reach hg hmem (l := l) hl
    rw [← hS1]; exact this
  unfold emitLabelRef
  unfold State.target at ht
  by_cases hb : ref = str "{"
  · rw [if_pos (show ref = [ch '{'] from hb)]
    exact emitLambdaRef_can t k z r s ho hcell
  rw [if_neg (show ¬ ref = [ch '{'] from hb)]
  rw [if_neg hb] at ht
  by_cases ha : ref = str "@"
  · rw [if_pos ha] at ht
    have e : resolveLabelRef t ref s = (some [ch '@'], s) := by rw [ha]; rfl
    rw [e]
    dsimp only
    rw [if_pos rfl]
    have han := h.anonymous
    cases hs : S.anonymous with
    | nil => rw [hs] at ht; cases ht
    | cons a as =>
      rw [hs] at ht han
      cases ht
      cases hl : s.atLabels with
      | nil => rw [hl] at han; cases han
      | cons l ls =>
        rw [hl, List.map_cons] at han
        have : a = l.addr := (List.cons.inj han).1
        obtain ⟨h1, h2⟩ := emitBackwardRef_can t k z none l.labelId l.addr true r { s with atLabels := ls } (hreach _ (by rw [this]; rfl)) hcell
        exact ⟨h1, Ok.calmly (s := { s with atLabels := ls }) ⟨ho.1, ho.2, ho.3⟩ h2⟩
  · rw [if_neg ha, Option.map_eq_some_iff] at ht
    obtain ⟨full, hfull, ht⟩ := ht
    cases ht
    obtain ⟨hv, hlen, hmac⟩ := hf.name hg hmem rfl
    have e : resolveLabelRef t ref s = (some full, s) := by
      unfold fullName at hfull
      rw [if_neg (by rintro (h | h); exacts [hb h, ha h])] at hfull
      cases ref with
      | nil => cases hfull
      | cons c rest =>
        dsimp only at hfull
        unfold resolveLabelRef
        dsimp only
        by_cases hc : c = ch '&' ∨ c = ch '/'
        · rw [if_pos hc] at hfull ⊢
          cases hfull
          unfold resolveLocalName
          rw [if_neg]
          · rw [h.scope]; simp [str]
          · rw [← h.scope]
            simp only [List.length_append, WORD, show (str "/").length = 1 from rfl] at hlen
            show ¬ 47 < _
            omega
        · rw [if_neg hc] at hfull ⊢
          cases hfull; rfl
    rw [e]
    dsimp only
    cases full with
    | nil => exact absurd rfl hv.1
    | cons c cs =>
      have hrun : isRunic c = false := hv.2.1.runic rfl
      have hat : ¬ (c :: cs) = [ch '@'] := by
        intro he
        rw [(List.cons.inj he).1] at hrun
        revert hrun; decide
      rw [if_neg hat]
      dsimp only
      rw [hrun, if_neg (by simp)]
      have hm0 : S.macros.lookup (c :: cs) = none := grows_macro_none hg hmac
      rcases findOrCreate_can t (c :: cs) s hv with ⟨n, hn, hfc⟩ | ⟨hn, hfc⟩
      · rw [hfc]
        dsimp only
        cases hen : n.entry with
        | unknown => have := ho.settled _ _ hn; rw [hen] at this; exact this.elim
        | «macro» a b c => exact absurd hen (h.notMacro hm0 hn _ _ _)
        | label id addr =>
          have hl : S.find (.name (c :: cs)) = some addr := by
            show S.labels.lookup _ = _
            rw [h.tables.labels, hn, Option.bind_some, hen]; rfl
          have h1 := ho.set (c :: cs) { n with referenced := true } (by
            show Settled _ _ _ _ n.entry
            rw [hen]; exact fun h => by cases h)
          obtain ⟨h2, h3⟩ := emitBackwardRef_can t k z (some (c :: cs)) id addr true r (setNode (c :: cs) { n with referenced := true } s) (hreach _ hl) hcell
          exact ⟨by simpa [hen] using h2, by simpa [hen] using h1.calmly h3⟩
        | forward id fs => exact emitForwardRef_can t k z (c :: cs) n r s (ho.but _) hcell
      · rw [hfc]
        exact emitForwardRef_can t k z (c :: cs) _ r _ (((ho.but (c :: cs)).change _).names _) hcell

/-- A label can be defined if the program is complete at the end. -/
theorem registerLabel_can (h : Sim i s S) (ho : Ok d active s) (t : Token) (name : Str) (hd : Defines name S S') (hg : Grows S' f) (hf : Finished f) :
    (registerLabel t name s).1 = true ∧ Ok d active (registerLabel t name s).2 := by
  obtain ⟨hn0, rfl⟩ := hd
  have hl : ((name, S.addr) :: S.labels).lookup name = some S.addr := by rw [lookup_cons, if_pos rfl]
  obtain ⟨hv, -, hmac⟩ := hf.label hg (n := name) (a := S.addr) hl
  have hm0 : S.macros.lookup name = none := grows_macro_none hg hmac
  have place : ∀ (n : Node) (id : Short) (fs : List FRef) (s1 : Asm), OkBut name d active s1 → s1.writeAddr = s.writeAddr → (∀ g ∈ fs, refOf g (.name name) ∈ S.refs) → (fs = [] → n.token = t) →
      (placeLabel t name n id fs s1).1 = true ∧ Ok d active (placeLabel t name n id fs s1).2 := by
    intro n id fs s1 h1 ha hfs htok
    unfold placeLabel
    dsimp only
    refine ⟨rfl, ?_⟩
    have h2 := h1.change { n with entry := .label id s1.writeAddr }
    have h3 := patchAll_can name id s1.writeAddr fs (setNode name { n with entry := .label id s1.writeAddr } s1) (fun g hgm => by
      have hm := hfs g hgm
      refine ⟨?_, fun a haa => ?_⟩
      · rw [ha, ← h.addr]
        exact hf.reach (r := refOf g (.name name)) hg hm hl
      · exact hf.cell (r := refOf g (.name name)) hg hm (by rw [Reference.cells_eq]; exact haa))
    generalize patchAll name id s1.writeAddr fs (setNode name { n with entry := .label id s1.writeAddr } s1) = s2 at h3 ⊢
    have h4 : OkBut name d active (putSymbol s1.writeAddr { type := .label, name := some name, region := t.region, id := id } { s2 with writeAddr := s1.writeAddr }) :=
      (h2.calmly h3).calmly ⟨rfl, rfl, rfl, fun _ h => List.mem_cons_of_mem _ h⟩
    refine h4.set { n with entry := .label id s1.writeAddr, referenced := !fs.isEmpty } fun hr => ?_
    have hnil : fs = [] := by simpa using hr
    exact ⟨_, List.mem_cons_self, rfl, rfl, rfl, by rw [htok hnil]⟩
  unfold registerLabel
  rcases findOrCreate_can t name s hv with ⟨n, hn, hfc⟩ | ⟨hn, hfc⟩
  · rw [hfc]
    dsimp only
    unfold defineLabel
    cases hen : n.entry with
    | unknown => have := ho.settled _ _ hn; rw [hen] at this; exact this.elim
    | «macro» a b c => exact absurd hen (h.notMacro hm0 hn _ _ _)
    | label id addr =>
      rw [h.tables.labels, hn, Option.bind_some, hen] at hn0; cases hn0
    | forward id fs =>
      exact place n id fs s (ho.but _) rfl (h.tables.fwd name n id fs hn hen) (fun e => by have := ho.settled _ _ hn; rw [hen] at this; exact absurd e this)
  · rw [hfc]
    dsimp only
    unfold defineLabel
    dsimp only
    exact place _ _ [] _ (OkBut.calmly (((ho.but name).change ⟨t, false, .unknown⟩).names (name :: s.names)) ⟨rfl, rfl, rfl, fun _ h => h⟩) rfl (fun g hg => by cases hg) (fun _ => rfl)

/-- A lambda can be closed if the program is complete at the end. -/
theorem processLambdaClose_can (h : Sim i s S) (ho : Ok d active s) (t : Token) {k : Nat} {ks : List Nat} (hop : S.opened = k :: ks)
    (hg : Grows { S with opened := ks, closed := (k, S.addr) :: S.closed, writes := S.fill (.lambda k) ++ S.writes } f) (hf : Finished f) :
    (processLambdaClose t s).1 = true ∧ Ok d active (processLambdaClose t s).2 := by
  have hlams := h.lams.opened
  rw [hop] at hlams
  unfold processLambdaClose
  cases hl : s.lambdas with
  | nil => rw [hl] at hlams; cases hlams
  | cons g gs =>
    rw [hl] at hlams
    obtain ⟨⟨hm, -⟩, -⟩ := List.forall₂_cons.1 hlams
    dsimp only
    have h0 := calculateAddr_calm g.token g.kind g.addr s.writeAddr s
    have hv := calculateAddr_value g.token g.kind g.addr s.writeAddr s
    generalize calculateAddr g.token g.kind g.addr s.writeAddr s = c at *
    obtain ⟨v, s1⟩ := c
    dsimp only at *
    subst hv
    have hfind : ({ S with opened := ks, closed := (k, S.addr) :: S.closed, writes := S.fill (.lambda k) ++ S.writes } : State).find (.lambda k) = some s.writeAddr := by
      show ((k, S.addr) :: S.closed).lookup k = _
      rw [lookup_cons, if_pos rfl, h.addr]
    have hreach : InReach g.kind g.size g.addr s.writeAddr := hf.reach (r := refOf g (.lambda k)) hg hm hfind
    have h1 := emitAddr_can g.token g.kind g.size (refValue g.kind g.addr s.writeAddr) none true { s1 with writeAddr := g.addr } hreach
      (fun a ha => hf.cell (r := refOf g (.lambda k)) hg hm (by rw [Reference.cells_eq]; exact ha))
    have h2 : Calmly s (emitAddr g.token g.kind g.size (refValue g.kind g.addr s.writeAddr) none true { s1 with writeAddr := g.addr }).2 :=
      h0.trans (Calmly.trans (a := s1) (b := { s1 with writeAddr := g.addr }) ⟨rfl, rfl, rfl, fun _ h => h⟩ h1.2)
    unfold andThen
    rw [if_pos h1.1]
    exact ⟨rfl, ho.calmly (h2.trans ⟨rfl, rfl, rfl, fun _ h => List.mem_cons_of_mem _ h⟩)⟩

end Buxn.Asm.Meaning
