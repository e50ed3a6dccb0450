import Verif.Asm.Numbers
import Verif.VM.Spec
/-!
# C33: opcode mnemonics

Which words are opcodes, in terms of the instruction that the interpreter dispatches to.
-/

namespace Buxn.Asm
open Buxn.VM

/-! ## Specification -/

namespace Spec

/-- The name of an operation. -/
def opName : Op → String
  | .INC => "INC" | .POP => "POP" | .NIP => "NIP" | .SWP => "SWP" | .ROT => "ROT" | .DUP => "DUP" | .OVR => "OVR" | .EQU => "EQU"
  | .NEQ => "NEQ" | .GTH => "GTH" | .LTH => "LTH" | .JMP => "JMP" | .JCN => "JCN" | .JSR => "JSR" | .STH => "STH" | .LDZ => "LDZ"
  | .STZ => "STZ" | .LDR => "LDR" | .STR => "STR" | .LDA => "LDA" | .STA => "STA" | .DEI => "DEI" | .DEO => "DEO" | .ADD => "ADD"
  | .SUB => "SUB" | .MUL => "MUL" | .DIV => "DIV" | .AND => "AND" | .ORA => "ORA" | .EOR => "EOR" | .SFT => "SFT"

/-- Mode suffixes in any order and number. -/
def Flags (fl : Str) : Prop := ∀ f ∈ fl, f ∈ str "2rk"

/-- The instruction that a word denotes. -/
inductive Mnemonic : Str → Instr → Prop
  | brk : Mnemonic (str "BRK") .BRK
  | lit (fl : Str) : Flags fl → Mnemonic (str "LIT" ++ fl) (.LIT (ch 'r' ∈ fl) (ch '2' ∈ fl))
  | op (o : Op) (fl : Str) : Flags fl → Mnemonic (str (opName o) ++ fl) (.poly o (ch 'k' ∈ fl) (ch 'r' ∈ fl) (ch '2' ∈ fl))

end Spec

open Spec

/-! ## Flags -/

/-- The bit of a flag. -/
def flagBit (f : Byte) : Byte := if f = ch '2' then 0x20 else if f = ch 'r' then 0x40 else 0x80

def maskOf (fl : Str) : Byte := fl.foldr (fun f m => flagBit f ||| m) 0

theorem mem_2rk {f : Byte} (h : f ∈ str "2rk") : f = ch '2' ∨ f = ch 'r' ∨ f = ch 'k' := by
  simpa [str, show "2rk".toList = ['2', 'r', 'k'] from rfl] using h

theorem opFlags_cons {f : Byte} (h : f ∈ str "2rk") (fl : Str) (op : Byte) (red : Bool) :
    opFlags (f :: fl) op red = opFlags fl (op ||| flagBit f) (red || op &&& flagBit f ≠ 0) := by
  rcases mem_2rk h with rfl | rfl | rfl <;> rfl

theorem flagBit_or {f g : Byte} (hf : f ∈ str "2rk") (hg : g ∈ str "2rk") (op : Byte) :
    ((op ||| flagBit f) &&& flagBit g ≠ 0) ↔ (op &&& flagBit g ≠ 0 ∨ f = g) := by
  rcases mem_2rk hf with rfl | rfl | rfl <;> rcases mem_2rk hg with rfl | rfl | rfl <;> (revert op; decide +kernel)

theorem opFlags_ok (fl : Str) (op : Byte) (red : Bool) (hfl : Flags fl) :
    ∃ r, opFlags fl op red = some (op ||| maskOf fl, r) ∧ (r = true ↔ red = true ∨ ¬ fl.Nodup ∨ ∃ f ∈ fl, op &&& flagBit f ≠ 0) := by
  induction fl generalizing op red with
  | nil => exact ⟨red, by rw [opFlags, maskOf, List.foldr_nil]; simp, by simp⟩
  | cons f fl ih =>
    have hf := hfl f (by simp)
    have hfl' : Flags fl := fun g hg => hfl g (by simp [hg])
    obtain ⟨r, h, hr⟩ := ih (op ||| flagBit f) (red || op &&& flagBit f ≠ 0) hfl'
    refine ⟨r, ?_, ?_⟩
    · rw [opFlags_cons hf, h, maskOf, maskOf, List.foldr_cons, BitVec.or_assoc]
    · rw [hr, List.nodup_cons]
      have hex : (∃ g ∈ fl, (op ||| flagBit f) &&& flagBit g ≠ 0) ↔ (∃ g ∈ fl, op &&& flagBit g ≠ 0) ∨ f ∈ fl := by
        constructor
        · rintro ⟨g, hg, h⟩
          rcases (flagBit_or hf (hfl' g hg) op).1 h with h | rfl
          exacts [.inl ⟨g, hg, h⟩, .inr hg]
        · rintro (⟨g, hg, h⟩ | h)
          · exact ⟨g, hg, (flagBit_or hf (hfl' g hg) op).2 (.inl h)⟩
          · exact ⟨f, h, (flagBit_or hf hf op).2 (.inr rfl)⟩
      rw [hex]
      simp only [Bool.or_eq_true, decide_eq_true_eq, List.mem_cons, exists_eq_or_imp]
      generalize (op &&& flagBit f ≠ 0) = A
      generalize (∃ g ∈ fl, op &&& flagBit g ≠ 0) = B
      by_cases hC : f ∈ fl <;> by_cases hD : fl.Nodup <;> simp [hC, hD] <;> tauto

theorem opFlags_none (fl : Str) (op : Byte) (red : Bool) (hfl : ¬ Flags fl) : opFlags fl op red = none := by
  induction fl generalizing op red with
  | nil => exact absurd (fun f hf => by cases hf) hfl
  | cons f fl ih =>
    by_cases hf : f ∈ str "2rk"
    · rw [opFlags_cons hf]
      exact ih _ _ fun h => hfl (by intro g hg; rcases List.mem_cons.1 hg with rfl | hg; exacts [hf, h g hg])
    · rw [opFlags, if_neg, if_neg, if_neg] <;> (rintro rfl; exact hf (by decide +kernel))

theorem maskOf_eq (fl : Str) (hfl : Flags fl) :
    maskOf fl = (if ch '2' ∈ fl then 0x20 else 0) ||| (if ch 'r' ∈ fl then 0x40 else 0) ||| (if ch 'k' ∈ fl then 0x80 else 0) := by
  induction fl with
  | nil => rfl
  | cons f fl ih =>
    rw [maskOf, List.foldr_cons, ← maskOf, ih fun g hg => hfl g (by simp [hg])]
    rcases mem_2rk (hfl f (by simp)) with rfl | rfl | rfl <;>
      by_cases h2 : ch '2' ∈ fl <;> by_cases hr : ch 'r' ∈ fl <;> by_cases hk : ch 'k' ∈ fl <;> simp [h2, hr, hk] <;> decide +kernel

/-! ## The names -/

/-- The names in the order of `asm.c:24-57`. -/
def names : List String :=
  ["LIT", "INC", "POP", "NIP", "SWP", "ROT", "DUP", "OVR", "EQU", "NEQ", "GTH", "LTH", "JMP", "JCN", "JSR", "STH",
   "LDZ", "STZ", "LDR", "STR", "LDA", "STA", "DEI", "DEO", "ADD", "SUB", "MUL", "DIV", "AND", "ORA", "EOR", "SFT"]

theorem signExtend_high : ∀ x : Byte, (x.signExtend 32).getLsbD 15 = x.getLsbD 7 ∧ (x.signExtend 32).getLsbD 23 = x.getLsbD 7 ∧
    (x.signExtend 32).getLsbD 31 = x.getLsbD 7 := by decide +kernel

theorem refCode_sign (a b c : Byte) : (refCode a b c).getLsbD 31 = (a.getLsbD 7 || b.getLsbD 7 || c.getLsbD 7) := by
  rw [refCode, BitVec.getLsbD_or, BitVec.getLsbD_or, BitVec.getLsbD_shiftLeft, BitVec.getLsbD_shiftLeft, (signExtend_high c).2.2]
  simp only [Nat.reduceSub, (signExtend_high a).1, (signExtend_high b).2.1, Nat.reduceLT, decide_true, decide_false, Bool.true_and, Bool.not_false]

theorem refCode_inj (a b c a' b' c' : Byte) (h : refCode a b c = refCode a' b' c') (ha : a'.getLsbD 7 = false) (hb : b'.getLsbD 7 = false)
    (hc : c'.getLsbD 7 = false) : a = a' ∧ b = b' ∧ c = c' := by
  have hs := refCode_sign a b c
  rw [h, refCode_sign, ha, hb, hc] at hs
  simp only [Bool.or_self, Bool.false_eq, Bool.or_eq_false_iff] at hs
  obtain ⟨⟨ha1, hb1⟩, hc1⟩ := hs
  have hsa : ∀ x : Byte, x.getLsbD 7 = false → x.signExtend 32 = x.setWidth 32 := by decide +kernel
  have hN : ∀ x y z : Byte, x.getLsbD 7 = false → y.getLsbD 7 = false → z.getLsbD 7 = false →
      (refCode x y z).toNat = x.toNat * 65536 + y.toNat * 256 + z.toNat := by
    intro x y z hx hy hz
    rw [refCode, hsa x hx, hsa y hy, hsa z hz]
    have := x.isLt; have := y.isLt; have := z.isLt
    simp only [BitVec.toNat_or, BitVec.toNat_shiftLeft, BitVec.toNat_setWidth]
    rw [Nat.mod_eq_of_lt (by omega : x.toNat < 2 ^ 32), Nat.mod_eq_of_lt (by omega : y.toNat < 2 ^ 32), Nat.mod_eq_of_lt (by omega : z.toNat < 2 ^ 32)]
    rw [Nat.mod_eq_of_lt (by rw [Nat.shiftLeft_eq]; omega), Nat.mod_eq_of_lt (by rw [Nat.shiftLeft_eq]; omega)]
    rw [Nat.or_assoc, ← Nat.shiftLeft_add_eq_or_of_lt (by omega : z.toNat < 2 ^ 8), ← Nat.shiftLeft_add_eq_or_of_lt (by rw [Nat.shiftLeft_eq]; omega : _ < 2 ^ 16)]
    simp only [Nat.shiftLeft_eq]
    omega
  have e := congrArg BitVec.toNat h
  rw [hN a b c ha1 hb1 hc1, hN a' b' c' ha hb hc] at e
  have := a.isLt; have := b.isLt; have := c.isLt; have := a'.isLt; have := b'.isLt; have := c'.isLt
  refine ⟨?_, ?_, ?_⟩ <;> apply BitVec.eq_of_toNat_eq <;> omega

/-- A table entry matches exactly its three letters. -/
theorem refOf_iff (n : String) (hn : n ∈ "BRK" :: names) (a b c : Byte) : refOf n = refCode a b c ↔ str n = [a, b, c] := by
  have h3 : ∃ x y z : Byte, str n = [x, y, z] ∧ x.getLsbD 7 = false ∧ y.getLsbD 7 = false ∧ z.getLsbD 7 = false := by
    have : ∀ n ∈ "BRK" :: names, (match str n with | [x, y, z] => !x.getLsbD 7 && !y.getLsbD 7 && !z.getLsbD 7 | _ => false) = true := by decide +kernel
    have := this n hn
    split at this
    · rename_i x y z hxyz
      simp only [Bool.and_eq_true, Bool.not_eq_true'] at this
      exact ⟨x, y, z, hxyz, this.1.1, this.1.2, this.2⟩
    · cases this
  obtain ⟨x, y, z, hs, hx, hy, hz⟩ := h3
  rw [refOf, hs]
  constructor
  · intro h
    obtain ⟨rfl, rfl, rfl⟩ := refCode_inj a b c x y z h.symm hx hy hz
    rfl
  · intro h; cases h; rfl

/-- Look a name up. -/
theorem findIdx_names (a b c : Byte) : baseRefs.findIdx (· = refCode a b c) = names.findIdx (fun n => str n = [a, b, c]) := by
  have : ∀ l : List String, (∀ n ∈ l, n ∈ "BRK" :: names) →
      (l.map refOf).findIdx (· = refCode a b c) = l.findIdx (fun n => str n = [a, b, c]) := by
    intro l hl
    induction l with
    | nil => rfl
    | cons n l ih =>
      have e : (decide (refOf n = refCode a b c)) = decide (str n = [a, b, c]) := by
        rw [decide_eq_decide]; exact refOf_iff n (hl n (by simp)) a b c
      rw [List.map_cons, List.findIdx_cons, List.findIdx_cons, e, ih fun m hm => hl m (by simp [hm])]
  exact this names fun n hn => by simp [hn]

/-! ## Opcodes -/

/-- The code of the `i`-th name without flags. -/
def baseCode (i : Nat) : Byte := if i = 0 then 0x80 else BitVec.ofNat 8 i

/-- The instruction of the `i`-th name. -/
def instrAt (i : Nat) (fl : Str) : Instr :=
  if i = 0 then .LIT (ch 'r' ∈ fl) (ch '2' ∈ fl) else .poly (Buxn.VM.Spec.mnemonics.getD (i - 1) .INC) (ch 'k' ∈ fl) (ch 'r' ∈ fl) (ch '2' ∈ fl)

theorem dispatch_table : ∀ i < 32, ∀ k r s : Bool,
    dispatch (baseCode i ||| ((if s = true then 0x20 else 0) ||| (if r = true then 0x40 else 0) ||| (if k = true then 0x80 else 0))) =
      some (if i = 0 then .LIT r s else .poly (Buxn.VM.Spec.mnemonics.getD (i - 1) .INC) k r s) := by
  decide +kernel

theorem dispatch_code (i : Nat) (hi : i < 32) (fl : Str) (hfl : Flags fl) : dispatch (baseCode i ||| maskOf fl) = some (instrAt i fl) := by
  have := dispatch_table i hi (ch 'k' ∈ fl) (ch 'r' ∈ fl) (ch '2' ∈ fl)
  simp only [decide_eq_true_eq] at this
  rw [maskOf_eq fl hfl, this, instrAt]

/-- The byte of an instruction. -/
def encode : Instr → Byte
  | .BRK => 0
  | .JCI => 0x20
  | .JMI => 0x40
  | .JSI => 0x60
  | .LIT r s => 0x80 ||| (if r then 0x40 else 0) ||| (if s then 0x20 else 0)
  | .poly o k r s => BitVec.ofNat 8 (Buxn.VM.Spec.mnemonics.idxOf o + 1) ||| (if k then 0x80 else 0) ||| (if r then 0x40 else 0) ||| (if s then 0x20 else 0)

theorem dispatch_encode : ∀ b : Byte, (dispatch b).map encode = some b := by decide +kernel

/-- No two bytes are dispatched alike. -/
theorem dispatch_inj (a b : Byte) (i : Instr) (ha : dispatch a = some i) (hb : dispatch b = some i) : a = b := by
  have h1 := dispatch_encode a
  have h2 := dispatch_encode b
  rw [ha] at h1; rw [hb] at h2
  simp only [Option.map_some, Option.some.injEq] at h1 h2
  rw [← h1, h2]

theorem names_op : ∀ i < 31, names[i + 1]? = some (opName (Buxn.VM.Spec.mnemonics.getD i .INC)) := by decide +kernel

theorem instrAt_mnemonic (i : Nat) (n : String) (hi : names[i]? = some n) (fl : Str) (hfl : Flags fl) : Mnemonic (str n ++ fl) (instrAt i fl) := by
  cases i with
  | zero => cases hi; exact .lit fl hfl
  | succ i =>
    have hlt : i < 31 := by
      have := (List.getElem?_eq_some_iff.1 hi).1
      have hl : names.length = 32 := rfl
      omega
    rw [names_op i hlt] at hi
    cases hi
    exact .op _ fl hfl

theorem parse_lit (fl : Str) : parseOpcode (str "LIT" ++ fl) = opFlags fl 0x80 false := by rfl

theorem parse_op (o : Op) (fl : Str) : parseOpcode (str (opName o) ++ fl) = opFlags fl (BitVec.ofNat 8 (Buxn.VM.Spec.mnemonics.idxOf o + 1)) false := by
  cases o <;> rfl

theorem baseCode_op (o : Op) : BitVec.ofNat 8 (Buxn.VM.Spec.mnemonics.idxOf o + 1) = baseCode (Buxn.VM.Spec.mnemonics.idxOf o + 1) ∧ Buxn.VM.Spec.mnemonics.idxOf o + 1 < 32 ∧
    Buxn.VM.Spec.mnemonics.getD (Buxn.VM.Spec.mnemonics.idxOf o) .INC = o := by
  cases o <;> decide +kernel

/-- **C33.** A word is an opcode exactly if it is a mnemonic with mode suffixes in any order, and the byte it gets is the one
that the interpreter dispatches to that operation in those modes. -/
theorem C33_mnemonics (w : Str) (op : Byte) : (∃ red, parseOpcode w = some (op, red)) ↔ ∃ i, Mnemonic w i ∧ dispatch op = some i := by
  constructor
  · rintro ⟨red, h⟩
    match w with
    | [] => cases h
    | [_] => cases h
    | [_, _] => cases h
    | a :: b :: c :: fl =>
      simp only [parseOpcode] at h
      by_cases hb : refCode a b c = refOf "BRK"
      · rw [if_pos hb] at h
        have hs := (refOf_iff "BRK" (by simp) a b c).1 hb.symm
        by_cases hl : fl.length = 0
        · rw [if_pos hl] at h
          have := List.length_eq_zero_iff.1 hl
          subst this
          cases h
          refine ⟨.BRK, ?_, by decide +kernel⟩
          rw [← hs]; exact .brk
        · rw [if_neg hl] at h; cases h
      · rw [if_neg hb, findIdx_names] at h
        by_cases hi : 32 ≤ names.findIdx (fun n => str n = [a, b, c])
        · rw [if_pos hi] at h; cases h
        · rw [if_neg hi] at h
          have hlt : names.findIdx (fun n => str n = [a, b, c]) < names.length := by
            have hl : names.length = 32 := rfl
            omega
          have hsat := List.findIdx_getElem (w := hlt)
          simp only [decide_eq_true_eq] at hsat
          obtain ⟨j, hj⟩ : ∃ j, names.findIdx (fun n => str n = [a, b, c]) = j := ⟨_, rfl⟩
          rw [hj] at h hi
          simp only [hj] at hsat hlt
          by_cases hfl : Flags fl
          · obtain ⟨r, hr, _⟩ := opFlags_ok fl (baseCode j) false hfl
            rw [baseCode] at hr
            rw [hr] at h
            simp only [Option.some.injEq, Prod.mk.injEq] at h
            refine ⟨instrAt j fl, ?_, ?_⟩
            · have := instrAt_mnemonic j names[j] (List.getElem?_eq_getElem hlt) fl hfl
              rw [hsat] at this
              exact this
            · rw [← h.1]; exact dispatch_code j (by omega) fl hfl
          · rw [opFlags_none _ _ _ hfl] at h; cases h
  · rintro ⟨i, hm, hd⟩
    cases hm with
    | brk =>
      have := dispatch_inj op 0 .BRK hd (by decide +kernel)
      subst this
      exact ⟨false, rfl⟩
    | lit fl hfl =>
      obtain ⟨r, hr, _⟩ := opFlags_ok fl 0x80 false hfl
      have := dispatch_inj op _ _ hd (dispatch_code 0 (by omega) fl hfl)
      subst this
      exact ⟨r, by rw [parse_lit, hr]; rfl⟩
    | op o fl hfl =>
      obtain ⟨r, hr, _⟩ := opFlags_ok fl (BitVec.ofNat 8 (Buxn.VM.Spec.mnemonics.idxOf o + 1)) false hfl
      obtain ⟨hb, hlt, hget⟩ := baseCode_op o
      have hc := dispatch_code _ hlt fl hfl
      rw [instrAt, if_neg (by omega), Nat.add_sub_cancel, hget] at hc
      have := dispatch_inj op _ _ hd hc
      subst this
      exact ⟨r, by rw [parse_op, hr, ← hb]⟩

/-- **C33.** A suffix is reported as redundant exactly if it occurs twice, or is `k` after `LIT`. -/
theorem C33_redundant (fl : Str) (hfl : Flags fl) (op : Byte) (red : Bool) :
    (parseOpcode (str "LIT" ++ fl) = some (op, red) → (red = true ↔ ¬ fl.Nodup ∨ ch 'k' ∈ fl)) ∧
    (∀ o, parseOpcode (str (opName o) ++ fl) = some (op, red) → (red = true ↔ ¬ fl.Nodup)) := by
  constructor
  · intro h
    obtain ⟨r, hr, hiff⟩ := opFlags_ok fl 0x80 false hfl
    rw [parse_lit, hr] at h
    cases h
    rw [hiff]
    have : (∃ f ∈ fl, (0x80 : Byte) &&& flagBit f ≠ 0) ↔ ch 'k' ∈ fl := by
      constructor
      · rintro ⟨f, hf, h⟩
        rcases mem_2rk (hfl f hf) with rfl | rfl | rfl
        · exact absurd (by decide +kernel) h
        · exact absurd (by decide +kernel) h
        · exact hf
      · intro h; exact ⟨_, h, by decide +kernel⟩
    rw [this]; simp
  · intro o h
    obtain ⟨r, hr, hiff⟩ := opFlags_ok fl (BitVec.ofNat 8 (Buxn.VM.Spec.mnemonics.idxOf o + 1)) false hfl
    rw [parse_op, hr] at h
    cases h
    rw [hiff]
    have hz : ∀ f ∈ str "2rk", BitVec.ofNat 8 (Buxn.VM.Spec.mnemonics.idxOf o + 1) &&& flagBit f = 0 := by
      cases o <;> decide +kernel
    constructor
    · rintro (h | h | ⟨f, hf, h⟩)
      · cases h
      · exact h
      · exact absurd (hz f (hfl f hf)) h
    · intro h; exact .inr (.inl h)

/-- A mnemonic is not a rune or a number. -/
theorem mnemonicHead (c : Byte) (h : isUppercased c = true) : c ∉ str "()[]~%@&!?}{/|$#.-,_;=\"" ∧ (isDigit c || isLowHex c) = false ∧ c ≠ ch '+' := by
  revert c; decide +kernel

theorem mnemonic_upper {w : Str} {i : Instr} (h : Mnemonic w i) : isUppercased (w.headD 0) = true := by
  cases h with
  | brk => rfl
  | lit fl _ => rfl
  | op o fl _ => cases o <;> rfl

/-- How a word in capital letters is dispatched. -/
theorem processToken_upper (files : Files) (rec : Nested) (t : Token) (u : Unit) (s : Asm) (h : isUppercased (t.lex.headD 0) = true) :
    processToken files rec t u s = processWord rec t u s := by
  obtain ⟨hc, hnum, hplus⟩ := mnemonicHead _ h
  have hn : isNumber t.lex = false := by
    match hl : t.lex with
    | [] => rfl
    | c :: cs =>
      rw [hl] at hnum hplus
      simp only [List.headD_cons] at hnum hplus
      have hp0 : plusCount (c :: cs) = 0 := by
        cases cs with
        | nil => rw [plusCount, if_neg hplus]
        | cons d ds => rw [plusCount, if_neg hplus]
      rw [isNumber, if_neg (by simp), if_neg (by omega), List.all_cons, hnum]
      rfl
  rw [processToken]
  generalize t.lex.headD 0 = c at hc
  simp only [str, show "()[]~%@&!?}{/|$#.-,_;=\"".toList = ['(', ')', '[', ']', '~', '%', '@', '&', '!', '?', '}', '{', '/', '|', '$', '#', '.', '-', ',', '_', ';', '=', '"'] from rfl,
    List.map_cons, List.map_nil, List.mem_cons, not_or] at hc
  obtain ⟨h1, h2, h3, h4, h5, h6, h7, h8, h9, h10, h11, h12, h13, h14, h15, h16, h17, h18, h19, h20, h21, h22, h23, -⟩ := hc
  simp only [h1, h2, h3, h4, h5, h6, h7, h8, h9, h10, h11, h12, h13, h14, h15, h16, h17, h18, h19, h20, h21, h22, h23, if_false, hn]
  rfl

/-- **C33.** In a program, a mnemonic emits the byte that the interpreter dispatches to its instruction, whatever symbols are
defined. -/
theorem C33_mnemonic_token (files : Files) (rec : Nested) (t : Token) (u : Unit) (s : Asm) (i : Instr) (h : Mnemonic t.lex i)
    (ha : 0x100 ≤ s.writeAddr.toNat) :
    ∃ op s', dispatch op = some i ∧ processToken files rec t u s = some (true, u, s') ∧ Emits [op] s s' := by
  have hop : ∃ op, dispatch op = some i := by
    revert h
    generalize t.lex = w
    intro h
    cases h with
    | brk => exact ⟨0, by decide +kernel⟩
    | lit fl hfl => exact ⟨_, dispatch_code 0 (by omega) fl hfl⟩
    | op o fl hfl =>
      obtain ⟨hb, hlt, hget⟩ := baseCode_op o
      have hc := dispatch_code _ hlt fl hfl
      rw [instrAt, if_neg (by omega), Nat.add_sub_cancel, hget] at hc
      exact ⟨_, hc⟩
  obtain ⟨op, hop⟩ := hop
  obtain ⟨red, hred⟩ := (C33_mnemonics t.lex op).2 ⟨i, h, hop⟩
  rw [processToken_upper files rec t u s (mnemonic_upper h), processWord, hred]
  have hlt := s.writeAddr.isLt
  cases red with
  | false =>
    obtain ⟨s', h1, e1, _⟩ := emitOpcode_emits t op false s 0 ha (by omega)
    exact ⟨op, s', hop, by simp [h1], e1⟩
  | true =>
    obtain ⟨s', h1, e1, _⟩ := emitOpcode_emits t op false (warning "Opcode contains redundant flags" t.region s) 0 ha (by simp only [warning]; omega)
    exact ⟨op, s', hop, by simp [h1], e1⟩

/-! ## Instances -/

example : Mnemonic (str "ADD2rk2") (.poly .ADD true true true) :=
  Mnemonic.op .ADD (str "2rk2") (by intro f hf; revert hf; revert f; decide +kernel)

example : parseOpcode (str "ADDk2") = parseOpcode (str "ADD2k") := by decide +kernel

example : parseOpcode (str "ADD3") = none ∧ parseOpcode (str "add") = none ∧ parseOpcode (str "BRK2") = none := by decide +kernel

end Buxn.Asm
