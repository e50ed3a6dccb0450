import Verif.Asm.AcceptsRefs
import Verif.Asm.MeaningProps
/-!
# C80: words succeed
-/

namespace Buxn.Asm.Meaning
open Buxn.VM Buxn.Asm Buxn.Asm.Spec

variable {d : Nat} {active : List Str} {i : Nat} {s : Asm} {S S' f : State}

/-- A result with which reading goes on. -/
def Fine (d : Nat) (active : List Str) (r : Bool × Asm) : Prop := r.1 = true ∧ Ok d active r.2

theorem Ok.fine {r : Bool × Asm} (h : Ok d active s) (h' : Succeeds s r) : Fine d active r := ⟨h'.1, h.calmly h'.2⟩

theorem Fine.andThen {r : Bool × Asm} {g : Asm → Bool × Asm} (h : Fine d active r) (h' : Fine d active (g r.2)) : Fine d active (andThen r g) := by
  unfold Asm.andThen
  rw [if_pos h.1]
  exact h'

theorem grows_of (h : Sim i s S) (ho : Onward S S') (hg : Grows S' f) : Grows S f := (ho h.fresh).2.trans hg

theorem put_high (h : Sim i s S) (bs : List Byte) (hg : Grows (S.put bs) f) (hf : Finished f) : ∀ p ∈ laidOut s.writeAddr bs, 0x100 ≤ p.1.toNat := by
  intro p hp
  refine hf.byte hg (p := p) ?_
  rw [put_eq, h.addr]
  exact List.mem_append_left _ hp

theorem first_high (h : Sim i s S) (b : Byte) (bs : List Byte) (hg : Grows (S.put (b :: bs)) f) (hf : Finished f) : 0x100 ≤ s.writeAddr.toNat :=
  put_high h (b :: bs) hg hf (s.writeAddr, b) (by simp [laidOut])

theorem opcode_can (h : Sim i s S) (ho : Ok d active s) (t : Token) (op : Byte) (r : Bool) (hg : Grows (S.put [op]) f) (hf : Finished f) :
    Fine d active (emitOpcode t op r s) ∧ Sim i (emitOpcode t op r s).2 (S.put [op]) := by
  have h1 := ho.fine (emitOpcode_can t op r s (first_high h op [] hg hf))
  exact ⟨h1, h.puts (emitOpcode_puts t op r s h1.2.success).2⟩

theorem opRef_can (h : Sim i s S) (ho : Ok d active s) (t : Token) (op : Byte) (r r' : Bool) (k : RefKind) (z : RefSize) (ref : Str) (hr : Refers ref k z (S.put [op]) S')
    (hg : Grows S' f) (hf : Finished f) : Fine d active (andThen (emitOpcode t op r s) fun s => emitLabelRef t k z ref r' s) := by
  have hp : Fresh (S.put [op]) := (put_onward [op] S h.fresh).1
  obtain ⟨h1, h2⟩ := opcode_can h ho t op r ((refers_onward hr hp).2.trans hg) hf
  exact h1.andThen (emitLabelRef_can h2 h1.2 t k z ref r' hr hg hf)

theorem litNumber_can (h : Sim i s S) (ho : Ok d active s) (t : Token) (w : Str) (hw : popFront t.lex = w) (v k : Nat) (hl : Literal w v k)
    (hg : Grows (S.put ((if k = 1 then 0x80 else 0xa0) :: bytesOf v k)) f) (hf : Finished f) : Fine d active (processLitNumber t s) := by
  unfold processLitNumber
  rw [hw, (C32_literal_value w _ k).2 ⟨v, hl, rfl⟩]
  dsimp only
  have hall := put_high h _ hg hf
  by_cases hk : k = 1
  · rw [if_pos hk]
    rw [if_pos hk, bytesOf, if_pos hk] at hall hg
    have h1 := ho.fine (emitOpcode_can t 0x80 true s (hall (s.writeAddr, 0x80) (by simp [laidOut])))
    have ha := (emitOpcode_puts t 0x80 true s h1.2.success).2.addr
    exact h1.andThen (h1.2.fine (emitByte_can t _ true _ (by rw [ha]; exact hall (s.writeAddr + 1, BitVec.ofNat 8 v) (by simp [laidOut]))))
  · rw [if_neg hk]
    rw [if_neg hk, bytesOf, if_neg hk] at hall hg
    have h1 := ho.fine (emitOpcode_can t 0xa0 true s (hall (s.writeAddr, 0xa0) (by simp [laidOut])))
    have ha := (emitOpcode_puts t 0xa0 true s h1.2.success).2.addr
    refine h1.andThen (h1.2.fine (emitShort_can t _ true _ ?_))
    rw [ha]
    intro a hm
    simp only [cells, List.length_cons, List.length_nil, List.mem_cons, List.not_mem_nil, or_false] at hm
    rcases hm with rfl | rfl
    · exact hall (s.writeAddr + 1 + 1, BitVec.ofNat 8 v) (by simp only [laidOut]; simp)
    · exact hall (s.writeAddr + 1, BitVec.ofNat 8 (v / 256)) (by simp only [laidOut]; simp)

theorem rawNumber_can (h : Sim i s S) (ho : Ok d active s) (t : Token) (v k : Nat) (hl : Literal t.lex v k) (hg : Grows (S.put (bytesOf v k)) f) (hf : Finished f) :
    Fine d active (processRawNumber t s) := by
  unfold processRawNumber
  rw [(C32_literal_value t.lex _ k).2 ⟨v, hl, rfl⟩]
  dsimp only
  have hall := put_high h _ hg hf
  by_cases hk : k = 1
  · rw [if_pos hk]
    rw [bytesOf, if_pos hk] at hall hg
    exact ho.fine (emitByte_can t _ false s (hall (s.writeAddr, BitVec.ofNat 8 v) (by simp [laidOut])))
  · rw [if_neg hk]
    rw [bytesOf, if_neg hk] at hall hg
    refine ho.fine (emitShort_can t _ false _ ?_)
    intro a hm
    simp only [cells, List.mem_cons, List.not_mem_nil, or_false] at hm
    rcases hm with rfl | rfl
    · exact hall (s.writeAddr + 1, BitVec.ofNat 8 v) (by simp only [laidOut]; simp)
    · exact hall (s.writeAddr, BitVec.ofNat 8 (v / 256)) (by simp only [laidOut]; simp)

theorem text_can (h : Sim i s S) (ho : Ok d active s) (t : Token) (hne : t.lex.tail ≠ []) (hg : Grows (S.put t.lex.tail) f) (hf : Finished f) :
    Fine d active (processText t s) := by
  unfold processText
  rw [if_neg]
  · exact ho.fine (textLoop_can t _ _ _ s (put_high h _ hg hf))
  · intro hl
    exact hne (List.length_eq_zero_iff.1 (by rw [List.length_tail]; omega))

/-! ## Padding -/

theorem resolvePadding_can (h : Sim i s S) (ho : Ok d active s) (t : Token) (a : Short) (hp : Pads (popFront t.lex) S a S') (hg : Grows S' f) (hf : Finished f) :
    ∃ s', resolvePadding t s = (some a, s') ∧ Ok d active s' := by
  unfold resolvePadding
  dsimp only
  generalize popFront t.lex = p at hp
  cases hp with
  | @number _ v _ hv =>
    have hn := hv.isNumber
    have hl : ¬ p.length = 0 := by
      intro hl
      rw [List.length_eq_zero_iff.1 hl] at hn
      cases hn
    obtain ⟨-, k, hk⟩ := amount_parse hv
    rw [if_neg hl, if_pos hn, hk]
    exact ⟨s, rfl, ho⟩
  | @anonymous _ _ rest han =>
    rw [if_neg (by decide), if_neg (by decide)]
    rw [show resolveLabelRef t (str "@") s = (some [ch '@'], s) from rfl]
    dsimp only
    rw [if_pos rfl]
    have hx := h.anonymous
    rw [han] at hx
    cases hl : s.atLabels with
    | nil => rw [hl] at hx; cases hx
    | cons l ls =>
      rw [hl, List.map_cons] at hx
      rw [(List.cons.inj hx).1]
      exact ⟨_, rfl, ⟨ho.1, ho.2, ho.3⟩⟩
  | @label _ n _ _ hna hfull hlab =>
    obtain ⟨hv, hlen, -⟩ := hf.label hg hlab
    unfold fullName at hfull
    by_cases hb : p = str "{" ∨ p = str "@"
    · rw [if_pos hb] at hfull; cases hfull
    rw [if_neg hb] at hfull
    cases p with
    | nil => cases hfull
    | cons c rest =>
      dsimp only at hfull
      rw [if_neg (by simp)]
      have hlook : ∃ nd id, s.symtab n = some nd ∧ nd.entry = .label id a := by
        have := h.tables.labels n
        rw [hlab] at this
        cases hx : s.symtab n with
        | none => rw [hx] at this; cases this
        | some nd =>
          rw [hx, Option.bind_some] at this
          cases hen : nd.entry with
          | label id b => rw [hen] at this; cases this; exact ⟨nd, id, rfl, hen⟩
          | unknown => rw [hen] at this; cases this
          | forward _ _ => rw [hen] at this; cases this
          | «macro» _ _ _ => rw [hen] at this; cases this
      obtain ⟨nd, id, hnd, hen⟩ := hlook
      have hnat : n ≠ [ch '@'] := by
        rintro rfl
        have := hv.2.1.runic (c := ch '@') rfl
        revert this; decide
      have hnum : isNumber (c :: rest) = false := by
        by_cases hc : c = ch '&' ∨ c = ch '/'
        · cases hx : isNumber (c :: rest) with
          | false => rfl
          | true =>
            obtain ⟨-, hh | ⟨ds, -, hh | hh⟩⟩ := (isNumber_iff _).1 hx
            · have := hh c List.mem_cons_self
              rcases hc with rfl | rfl <;> exact absurd this (by decide)
            · have := (List.cons.inj hh).1
              rcases hc with rfl | rfl <;> exact absurd this (by decide)
            · have := (List.cons.inj hh).1
              rcases hc with rfl | rfl <;> exact absurd this (by decide)
        · rw [if_neg hc] at hfull
          cases hfull
          exact hv.number
      rw [hnum, if_neg (by simp)]
      have e : resolveLabelRef t (c :: rest) s = (some n, s) := by
        unfold resolveLabelRef
        dsimp only
        by_cases hc : c = ch '&' ∨ c = ch '/'
        · rw [if_pos hc] at hfull ⊢
          cases hfull
          unfold resolveLocalName
          rw [if_neg]
          · rw [h.scope]; simp [str]
          · rw [← h.scope]
            simp only [List.length_append, WORD, show (str "/").length = 1 from rfl] at hlen
            show ¬ 47 < _
            omega
        · rw [if_neg hc] at hfull ⊢
          cases hfull; rfl
      rw [e]
      dsimp only
      rw [if_neg hnat, hnd]
      dsimp only
      rw [hen]
      exact ⟨_, rfl, ho.set n { nd with referenced := true, entry := .label id a } (fun h => by cases h)⟩

theorem absPadding_can (h : Sim i s S) (ho : Ok d active s) (t : Token) (a : Short) (hp : Pads (popFront t.lex) S a S') (hg : Grows S' f) (hf : Finished f) :
    Fine d active (processAbsPadding t s) := by
  obtain ⟨s', e, h1⟩ := resolvePadding_can h ho t a hp hg hf
  unfold processAbsPadding
  rw [e]
  exact ⟨rfl, ⟨h1.1, h1.2, h1.3⟩⟩

theorem relPadding_can (h : Sim i s S) (ho : Ok d active s) (t : Token) (a : Short) (hp : Pads (popFront t.lex) S a S') (hg : Grows S' f) (hf : Finished f) :
    Fine d active (processRelPadding t s) := by
  obtain ⟨s', e, h1⟩ := resolvePadding_can h ho t a hp hg hf
  unfold processRelPadding
  rw [e]
  dsimp only
  refine ⟨rfl, ?_⟩
  dsimp only
  split
  · exact ⟨h1.1, h1.2, fun k n hn => (h1.3 k n hn).more fun _ h => List.mem_cons_of_mem _ h⟩
  · exact ⟨h1.1, h1.2, h1.3⟩

/-! ## Names -/

theorem mnemonic_number {w : Str} {j : Instr} (h : Mnemonic w j) : isNumber w = false := by
  cases hx : isNumber w with
  | false => rfl
  | true =>
    have hu := mnemonicHead _ (mnemonic_upper h)
    obtain ⟨hne, hh⟩ := (isNumber_iff w).1 hx
    cases w with
    | nil => exact absurd rfl hne
    | cons c cs =>
      rw [List.headD_cons] at hu
      rcases hh with hh | ⟨ds, -, hh | hh⟩
      · have := (isHex_iff c).2 (hh c List.mem_cons_self)
        rw [hu.2.1] at this; cases this
      · exact absurd (List.cons.inj hh).1 hu.2.2
      · exact absurd (List.cons.inj hh).1 hu.2.2

theorem plain_not (c : Byte) (h : isRunic c = false) : c ∉ str "()[]~%@&!?}{/|$#.-,_;=\"" := by
  revert c; decide +kernel

/-- How a word without a rune is dispatched. -/
theorem processToken_plain (files : Files) (rec : Nested) (t : Token) (u : Unit) (s : Asm) (h : isRunic (t.lex.headD 0) = false) (hn : isNumber t.lex = false) :
    processToken files rec t u s = processWord rec t u s := by
  have hc := plain_not _ h
  rw [processToken]
  generalize t.lex.headD 0 = c at hc
  simp only [str, show "()[]~%@&!?}{/|$#.-,_;=\"".toList = ['(', ')', '[', ']', '~', '%', '@', '&', '!', '?', '}', '{', '/', '|', '$', '#', '.', '-', ',', '_', ';', '=', '"'] from rfl,
    List.map_cons, List.map_nil, List.mem_cons, not_or] at hc
  obtain ⟨h1, h2, h3, h4, h5, h6, h7, h8, h9, h10, h11, h12, h13, h14, h15, h16, h17, h18, h19, h20, h21, h22, h23, -⟩ := hc
  simp only [h1, h2, h3, h4, h5, h6, h7, h8, h9, h10, h11, h12, h13, h14, h15, h16, h17, h18, h19, h20, h21, h22, h23, if_false]
  rw [hn, if_neg (by simp)]

theorem mnemonic_can (h : Sim i s S) (ho : Ok d active s) (t : Token) {j : Instr} {op : Byte} (hm : Mnemonic t.lex j) (hd : dispatch op = some j) (hg : Grows (S.put [op]) f) (hf : Finished f) :
    ∃ r, (∀ rec u, processWord rec t u s = keep u r) ∧ Fine d active r := by
  obtain ⟨red, hred⟩ := (C33_mnemonics t.lex op).2 ⟨j, hm, hd⟩
  refine ⟨emitOpcode t op false (if red = true then warning "Opcode contains redundant flags" t.region s else s), fun rec u => ?_, ?_⟩
  · unfold processWord
    rw [hred]
    rfl
  · have h1 : Calmly s (if red = true then warning "Opcode contains redundant flags" t.region s else s) := by
      split
      exacts [warning_calm _ _ _, .refl _]
    have h2 : Sim i (if red = true then warning "Opcode contains redundant flags" t.region s else s) S := by
      split
      exacts [h.same (warning_emits _ _ _), h]
    exact (opcode_can h2 (ho.calmly h1) t op false hg hf).1

theorem call_can (h : Sim i s S) (ho : Ok d active s) (t : Token) (hn : IsName t.lex) (hne : t.lex ≠ []) (hr : Refers t.lex .rel .short (S.put [0x60]) S') (hg : Grows S' f) (hf : Finished f) :
    isNumber t.lex = false ∧ ∃ r, (∀ rec u, processWord rec t u s = keep u r) ∧ Fine d active r := by
  have hp : Fresh (S.put [0x60]) := (put_onward [0x60] S h.fresh).1
  have hg1 : Grows (S.put [0x60]) f := (refers_onward hr hp).2.trans hg
  obtain ⟨tg, S1, ht, rfl⟩ := hr
  rw [name_target hne (fun c hc => hn.runic hc)] at ht
  cases ht
  have hmem : (⟨(S.put [0x60]).addr, .rel, .short, .name t.lex⟩ : Reference) ∈ ((S.put [0x60]).refer .rel .short (.name t.lex)).refs := List.mem_cons_self
  obtain ⟨hv, -, hmac⟩ := hf.name hg hmem rfl
  refine ⟨hv.number, ?_⟩
  have hm0 : S.macros.lookup t.lex = none := by
    have := grows_macro_none hg1 hmac
    rwa [put_eq] at this
  have hadr : (S.put [0x60]).addr = s.writeAddr + 1 := by rw [put_eq, h.addr]; rfl
  have hcell : ∀ a ∈ cells (s.writeAddr + 1) .short, 0x100 ≤ a.toNat := fun a ha => hf.cell hg hmem (by rw [Reference.cells_eq]; show a ∈ cells (S.put [0x60]).addr .short; rw [hadr]; exact ha)
  have hopc := hn.opcode
  have hhigh := first_high h 0x60 [] hg1 hf
  rcases findOrCreate_can t t.lex s hv with ⟨n, hsn, hfc⟩ | ⟨hsn, hfc⟩
  · cases hen : n.entry with
    | unknown => have := ho.settled _ _ hsn; rw [hen] at this; exact this.elim
    | «macro» a b c => exact absurd hen (h.notMacro hm0 hsn _ _ _)
    | label id addr =>
      have ho1 := ho.set t.lex { n with referenced := true, entry := .label id addr } (fun h => by cases h)
      refine ⟨andThen (emitOpcode t 0x60 false (setNode t.lex { n with referenced := true, entry := .label id addr } s)) fun s => emitBackwardRef t .rel .short (some t.lex) id addr true false s, fun rec u => ?_, ?_⟩
      · unfold processWord
        rw [hopc]
        dsimp only
        rw [hfc]
        dsimp only
        rw [hen]
        rfl
      · have h1 := ho1.fine (emitOpcode_can t 0x60 false (setNode t.lex { n with referenced := true, entry := .label id addr } s) hhigh)
        have ha : (emitOpcode t 0x60 false (setNode t.lex { n with referenced := true, entry := .label id addr } s)).2.writeAddr = s.writeAddr + 1 := (emitOpcode_puts t 0x60 false _ h1.2.success).2.addr
        refine h1.andThen (h1.2.fine (emitBackwardRef_can _ _ _ _ _ _ _ _ _ ?_ ?_))
        · rw [ha, ← hadr]
          refine hf.reach hg hmem ?_
          show (S.put [0x60]).labels.lookup t.lex = _
          rw [put_eq]
          show S.labels.lookup t.lex = _
          rw [h.tables.labels, hsn, Option.bind_some, hen]; rfl
        · rw [ha]; exact hcell
    | forward id fs =>
      refine ⟨andThen (emitOpcode t 0x60 false s) fun s => emitForwardRef t .rel .short t.lex n false s, fun rec u => ?_, ?_⟩
      · unfold processWord
        rw [hopc]
        dsimp only
        rw [hfc]
        dsimp only
        rw [hen]
        rfl
      · have h1 := ho.fine (emitOpcode_can t 0x60 false s hhigh)
        have ha : (emitOpcode t 0x60 false s).2.writeAddr = s.writeAddr + 1 := (emitOpcode_puts t 0x60 false _ h1.2.success).2.addr
        exact h1.andThen (emitForwardRef_can t .rel .short t.lex n false _ (h1.2.but _) (by rw [ha]; exact hcell))
  · have ho1 : OkBut t.lex d active { setNode t.lex ⟨t, false, .unknown⟩ s with names := t.lex :: s.names } := ((ho.but t.lex).change _).names _
    generalize hs1 : ({ setNode t.lex ⟨t, false, .unknown⟩ s with names := t.lex :: s.names } : Asm) = s1 at hfc ho1
    have hw1 : s1.writeAddr = s.writeAddr := by rw [← hs1]; rfl
    refine ⟨andThen (emitOpcode t 0x60 false s1) fun s => emitForwardRef t .rel .short t.lex ⟨t, false, .unknown⟩ false s, fun rec u => ?_, ?_⟩
    · unfold processWord
      rw [hopc]
      dsimp only
      rw [hfc]
      rfl
    · have h1 := emitOpcode_can t 0x60 false s1 (by rw [hw1]; exact hhigh)
      have h2 := ho1.calmly h1.2
      have ha : (emitOpcode t 0x60 false s1).2.writeAddr = s.writeAddr + 1 := by rw [← hw1]; exact (emitOpcode_puts t 0x60 false _ h2.success).2.addr
      unfold andThen
      rw [if_pos h1.1]
      exact emitForwardRef_can t .rel .short t.lex _ false _ h2 (by rw [ha]; exact hcell)

/-! ## Words -/

theorem lookup_mem {α β : Type} [DecidableEq α] [BEq α] [LawfulBEq α] {l : List (α × β)} {a : α} {b : β} (h : l.lookup a = some b) : (a, b) ∈ l := by
  induction l with
  | nil => cases h
  | cons p l ih =>
    obtain ⟨x, y⟩ := p
    rw [lookup_cons] at h
    split at h
    · rename_i e
      cases h; subst e; exact List.mem_cons_self
    · exact List.mem_cons_of_mem _ (ih h)

/-- A word of the specification is no error. -/
theorem word_fine (t : Token) (hw : Word t.lex S S') (h : Sim i s S) (ho : Ok d active s) (hg : Grows S' f) (hf : Finished f) :
    ∃ r, (∀ files rec u, processToken files rec t u s = keep u r) ∧ Fine d active r := by
  have hl : ∃ c rest, t.lex = c :: rest := by
    cases hx : t.lex with
    | nil => rw [hx] at hw; exact hw.elim
    | cons c rest => exact ⟨c, rest, rfl⟩
  obtain ⟨c, rest, hl⟩ := hl
  have hhd : t.lex.headD 0 = c := by rw [hl]; rfl
  have hpop : popFront t.lex = rest := by rw [hl]; rfl
  have htail : t.lex.tail = rest := by rw [hl]; rfl
  have hw' := hw
  rw [hl] at hw'
  unfold Word at hw'
  dsimp only at hw'
  cases hlk : runes.lookup c with
  | some q =>
    obtain ⟨op, k, z⟩ := q
    rw [hlk] at hw'
    dsimp only at hw'
    have hm := lookup_mem hlk
    unfold runes at hm
    simp only [List.mem_cons, Prod.mk.injEq, List.not_mem_nil, or_false] at hm
    have go : ∀ r, (∀ files rec u, processToken files rec t u s = keep u r) → Fine d active r → ∃ r, (∀ files rec u, processToken files rec t u s = keep u r) ∧ Fine d active r := fun r a b => ⟨r, a, b⟩
    rcases hm with ⟨hc, rfl, rfl, rfl⟩ | ⟨hc, rfl, rfl, rfl⟩ | ⟨hc, rfl, rfl, rfl⟩ | ⟨hc, rfl, rfl, rfl⟩ | ⟨hc, rfl, rfl, rfl⟩ | ⟨hc, rfl, rfl, rfl⟩ | ⟨hc, rfl, rfl, rfl⟩ | ⟨hc, rfl, rfl, rfl⟩
    · exact go _ (fun files rec u => by unfold processToken; dsimp only; rw [hhd, hpop, hc]; rfl) (opRef_can h ho t 0x80 true true .zero .byte rest hw' hg hf)
    · exact go _ (fun files rec u => by unfold processToken; dsimp only; rw [hhd, hpop, hc]; rfl) (emitLabelRef_can h ho t .zero .byte rest true hw' hg hf)
    · exact go _ (fun files rec u => by unfold processToken; dsimp only; rw [hhd, hpop, hc]; rfl) (opRef_can h ho t 0x80 true true .rel .byte rest hw' hg hf)
    · exact go _ (fun files rec u => by unfold processToken; dsimp only; rw [hhd, hpop, hc]; rfl) (emitLabelRef_can h ho t .rel .byte rest true hw' hg hf)
    · exact go _ (fun files rec u => by unfold processToken; dsimp only; rw [hhd, hpop, hc]; rfl) (opRef_can h ho t 0xa0 true true .abs .short rest hw' hg hf)
    · exact go _ (fun files rec u => by unfold processToken; dsimp only; rw [hhd, hpop, hc]; rfl) (emitLabelRef_can h ho t .abs .short rest true hw' hg hf)
    · exact go _ (fun files rec u => by unfold processToken; dsimp only; rw [hhd, hpop, hc]; rfl) (opRef_can h ho t 0x40 true true .rel .short rest hw' hg hf)
    · exact go _ (fun files rec u => by unfold processToken; dsimp only; rw [hhd, hpop, hc]; rfl) (opRef_can h ho t 0x20 true true .rel .short rest hw' hg hf)
  | none =>
    rw [hlk] at hw'
    dsimp only at hw'
    by_cases hc : c = ch '#'
    · rw [if_pos hc] at hw'
      obtain ⟨v, k, hlit, rfl⟩ := hw'
      exact ⟨processLitNumber t s, fun files rec u => by unfold processToken; dsimp only; rw [hhd, hc]; rfl, litNumber_can h ho t rest hpop v k hlit hg hf⟩
    rw [if_neg hc] at hw'
    rename' hc => n0
    by_cases hc : c = ch '"'
    · rw [if_pos hc] at hw'
      obtain ⟨hr, rfl⟩ := hw'
      exact ⟨processText t s, fun files rec u => by unfold processToken; dsimp only; rw [hhd, hc]; rfl, text_can h ho t (by rw [htail]; exact hr) (by rw [htail]; exact hg) hf⟩
    rw [if_neg hc] at hw'
    rename' hc => n1
    by_cases hc : c = ch '|'
    · rw [if_pos hc] at hw'
      obtain ⟨a, S1, hp, rfl⟩ := hw'
      exact ⟨processAbsPadding t s, fun files rec u => by unfold processToken; dsimp only; rw [hhd, hc]; rfl, absPadding_can h ho t a (by rw [hpop]; exact hp) (((addr_onward _ _) (pads_onward hp h.fresh).1).2.trans hg) hf⟩
    rw [if_neg hc] at hw'
    rename' hc => n2
    by_cases hc : c = ch '$'
    · rw [if_pos hc] at hw'
      obtain ⟨a, S1, hp, rfl⟩ := hw'
      exact ⟨processRelPadding t s, fun files rec u => by unfold processToken; dsimp only; rw [hhd, hc]; rfl, relPadding_can h ho t a (by rw [hpop]; exact hp) (((addr_onward _ _) (pads_onward hp h.fresh).1).2.trans hg) hf⟩
    rw [if_neg hc] at hw'
    rename' hc => n3
    by_cases hat : c :: rest = str "@@"
    · have e1 : c = ch '@' := (List.cons.inj hat).1
      have e2 : rest = [ch '@'] := (List.cons.inj hat).2
      refine ⟨processGlobalLabel t s, fun files rec u => by unfold processToken; dsimp only; rw [hhd, e1]; rfl, ?_⟩
      unfold processGlobalLabel
      dsimp only
      rw [hpop, if_pos e2]
      exact ⟨rfl, ⟨ho.1, ho.2, fun k n hn => (ho.3 k n hn).more fun _ h => List.mem_cons_of_mem _ h⟩⟩
    rw [if_neg hat] at hw'
    by_cases hc : c = ch '@'
    · rw [if_pos hc] at hw'
      obtain ⟨S1, hd, rfl⟩ := hw'
      refine ⟨processGlobalLabel t s, fun files rec u => by unfold processToken; dsimp only; rw [hhd, hc]; rfl, ?_⟩
      have hg1 : Grows S1 f := ((Onward.of (fun _ h => h) (fun _ h => h) (fun _ _ h => h) rfl rfl rfl rfl : Onward S1 { S1 with scope := rest.takeWhile (· ≠ ch '/') }) (defines_onward hd h.fresh).1).2.trans hg
      unfold processGlobalLabel
      dsimp only
      rw [hpop, if_neg (fun e => hat (by rw [hc, e]; rfl))]
      have h1 : Fine d active (registerLabel t rest s) := registerLabel_can h ho t rest hd hg1 hf
      exact h1.andThen ⟨rfl, ⟨h1.2.1, h1.2.2, h1.2.3⟩⟩
    rw [if_neg hc] at hw'
    rename' hc => n5
    by_cases hc : c = ch '&'
    · rw [if_pos hc] at hw'
      refine ⟨processLocalLabel t s, fun files rec u => by unfold processToken; dsimp only; rw [hhd, hc]; rfl, ?_⟩
      have hlab : S'.labels.lookup (S.scope ++ str "/" ++ rest) = some S.addr := by
        rw [hw'.2]
        show List.lookup _ ((_, S.addr) :: S.labels) = _
        rw [lookup_cons, if_pos rfl]
      obtain ⟨-, hlen, -⟩ := hf.label hg hlab
      unfold processLocalLabel resolveLocalName
      rw [hpop, if_neg]
      · dsimp only
        have h1 := registerLabel_can h ho t _ hw' hg hf
        rw [h.scope, List.append_assoc] at h1
        exact h1
      · rw [← h.scope]
        simp only [List.length_append, WORD, show (str "/").length = 1 from rfl] at hlen
        show ¬ 47 < _
        omega
    rw [if_neg hc] at hw'
    rename' hc => n6
    by_cases hcl : c :: rest = str "}"
    · rw [if_pos hcl] at hw'
      have e1 : c = ch '}' := (List.cons.inj hcl).1
      have e2 : rest = [] := (List.cons.inj hcl).2
      obtain ⟨k, ks, hop, rfl⟩ := hw'
      refine ⟨if t.lex.length ≠ 1 then error "Invalid runic token" t.region s else processLambdaClose t s, fun files rec u => by unfold processToken; dsimp only; rw [hhd, e1]; rfl, ?_⟩
      rw [if_neg (by rw [hl, e2]; simp)]
      exact processLambdaClose_can h ho t hop hg hf
    rw [if_neg hcl] at hw'
    by_cases hbr : c :: rest = str "{" ∨ c = ch '/'
    · rw [if_pos hbr] at hw'
      have hjsi : Fine d active (emitJsi t s) := opRef_can h ho t 0x60 false false .rel .short t.lex (by rw [hl]; exact hw') hg hf
      rcases hbr with e | e
      · have e1 : c = ch '{' := (List.cons.inj e).1
        have e2 : rest = [] := (List.cons.inj e).2
        refine ⟨if t.lex.length ≠ 1 then error "Invalid runic token" t.region s else emitJsi t s, fun files rec u => by unfold processToken; dsimp only; rw [hhd, e1]; rfl, ?_⟩
        rw [if_neg (by rw [hl, e2]; simp)]
        exact hjsi
      · exact ⟨emitJsi t s, fun files rec u => by unfold processToken; dsimp only; rw [hhd, e]; rfl, hjsi⟩
    rw [if_neg hbr, ← hl] at hw'
    rcases hw' with ⟨v, k, hlit, rfl⟩ | ⟨-, j, op, hm, hd, rfl⟩ | ⟨hn, hr⟩
    · exact ⟨processRawNumber t s, fun files rec u => processToken_number files rec t u s (Literal.isNumber hlit), rawNumber_can h ho t v k hlit hg hf⟩
    · obtain ⟨r, e, h1⟩ := mnemonic_can h ho t hm hd hg hf
      exact ⟨r, fun files rec u => (processToken_upper files rec t u s (mnemonic_upper hm)).trans (e rec u), h1⟩
    · obtain ⟨hnum, r, e, h1⟩ := call_can h ho t hn (by rw [hl]; simp) hr hg hf
      exact ⟨r, fun files rec u => (processToken_plain files rec t u s (by rw [hhd]; exact hn.runic (by rw [hl]; rfl)) hnum).trans (e rec u), h1⟩

/-- A word of the specification is no error, and does what it says. -/
theorem word_can (t : Token) (hm : IsName t.lex → S.macros.lookup t.lex = none) (hw : Word t.lex S S') (h : Sim i s S) (ho : Ok d active s) (hg : Grows S' f) (hf : Finished f) :
    ∃ s', (∀ files rec u, processToken files rec t u s = some (true, u, s')) ∧ Ok d active s' ∧ Sim i s' S' := by
  obtain ⟨⟨b, s'⟩, he, rfl, h1⟩ := word_fine t hw h ho hg hf
  refine ⟨s', he, h1, ?_⟩
  have hne : t.lex ≠ [] := by
    intro e; rw [e] at hw; exact hw
  have hs := processToken_sim (files := fun _ => none) (rec := fun _ _ => none) (fun _ _ h => by cases h) (fun _ _ _ _ _ _ _ _ _ _ h => by cases h) (ok := true) (u := .macro ⟨[], []⟩) (ws := []) t h
    (.body (rest := []) (arg := []) (fun _ h => by cases h) ⟨fun _ h => absurd rfl h, fun _ => rfl⟩) hne (he _ _ _) h1.success
  obtain ⟨ws', S1, h2, h3, h4⟩ := hs
  cases h2 with
  | body _ _ => rw [reads_unique (h4 [] (fun _ h => by cases h) S1 .done).reads (.word hm hw .done)] at h3; exact h3

end Buxn.Asm.Meaning
