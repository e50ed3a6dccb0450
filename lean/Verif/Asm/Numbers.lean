import Verif.Asm.Model
import Mathlib.Tactic.Linarith
import Mathlib.Tactic.Ring
import Mathlib.Data.List.Induction
/-!
# C32: numeric literals

`Literal w v k` says which texts are numbers: two or four lowercase hexadecimal digits, `+` and a decimal number of at
most 255, or `++` and a decimal number of at most 65535 (no digit at all after the sign is accepted, and is zero).
-/

namespace Buxn.Asm
open Buxn.VM

/-! ## Specification -/

namespace Spec

/-- The value of a digit: its position in the list of digits. -/
def digitValue (c : Byte) : Nat := (str "0123456789abcdef").idxOf c

/-- Positional notation. -/
def numeral (base : Nat) (ds : Str) : Nat := ds.foldl (fun n c => n * base + digitValue c) 0

def HexDigits (ds : Str) : Prop := ∀ c ∈ ds, c ∈ str "0123456789abcdef"

def DecDigits (ds : Str) : Prop := ∀ c ∈ ds, c ∈ str "0123456789"

/-- `w` is a number with value `v` that occupies `k` bytes. -/
inductive Literal : Str → Nat → Nat → Prop
  | hexByte (ds : Str) : ds.length = 2 → HexDigits ds → Literal ds (numeral 16 ds) 1
  | hexShort (ds : Str) : ds.length = 4 → HexDigits ds → Literal ds (numeral 16 ds) 2
  | decByte (ds : Str) : DecDigits ds → numeral 10 ds ≤ 255 → Literal (str "+" ++ ds) (numeral 10 ds) 1
  | decShort (ds : Str) : DecDigits ds → numeral 10 ds ≤ 65535 → Literal (str "++" ++ ds) (numeral 10 ds) 2

/-- The bytes written to the ROM, newest first. -/
def written (log : List Event) : List (Short × Byte) :=
  log.filterMap fun
    | .rom a v _ => some (a, v)
    | _ => none

/-- Bytes laid out from an address on, in the order of `written`. -/
def laidOut (addr : Short) : List Byte → List (Short × Byte)
  | [] => []
  | b :: bs => laidOut (addr + 1) bs ++ [(addr, b)]

/-- The bytes of a `k`-byte number, most significant first. -/
def bytesOf (v k : Nat) : List Byte := if k = 1 then [BitVec.ofNat 8 v] else [BitVec.ofNat 8 (v / 256), BitVec.ofNat 8 v]

/-- The errors reported. -/
def errors (log : List Event) : List (String × Region) :=
  log.filterMap fun
    | .error m r => some (m, r)
    | _ => none

end Spec

open Spec

/-! ## Digits -/

theorem isDigit_iff (c : Byte) : isDigit c = true ↔ c ∈ str "0123456789" := by revert c; decide +kernel

theorem isHex_iff (c : Byte) : (isDigit c || isLowHex c) = true ↔ c ∈ str "0123456789abcdef" := by revert c; decide +kernel

theorem digit_value (c : Byte) (h : isDigit c = true) : c.toNat - (ch '0').toNat = digitValue c ∧ digitValue c < 10 := by
  revert c; decide +kernel

theorem digit_short (c : Byte) (h : isDigit c = true) : (c - ch '0').setWidth 16 = BitVec.ofNat 16 (digitValue c) := by
  revert c; decide +kernel

theorem lowHex_short (c : Byte) (h : isLowHex c = true) : (c - ch 'a' + 10).setWidth 16 = BitVec.ofNat 16 (digitValue c) := by
  revert c; decide +kernel

theorem hex_value (c : Byte) (h : c ∈ str "0123456789abcdef") : digitValue c < 16 := by
  revert c; decide +kernel

theorem not_digit_lowHex (c : Byte) : ¬ (isDigit c = true ∧ isLowHex c = true) := by revert c; decide +kernel

theorem plus_not_hex : ch '+' ∉ str "0123456789abcdef" := by decide +kernel

theorem plus_not_dec : ch '+' ∉ str "0123456789" := by decide +kernel

/-! ## Numerals -/

theorem numeral_append (base : Nat) (ds : Str) (c : Byte) : numeral base (ds ++ [c]) = numeral base ds * base + digitValue c := by
  simp [numeral]

theorem foldl_lower (base : Nat) (hb : 1 ≤ base) (ds : Str) (n : Nat) : n ≤ ds.foldl (fun n c => n * base + digitValue c) n := by
  induction ds generalizing n with
  | nil => exact Nat.le_refl _
  | cons c ds ih => exact Nat.le_trans (by nlinarith [digitValue c]) (ih _)

/-- The decimal loop. -/
theorem decLoop_iff (limit : Nat) (ds : Str) (acc n : Nat) (hacc : acc ≤ limit) :
    decLoop limit ds acc = .ok n ↔ DecDigits ds ∧ ds.foldl (fun n c => n * 10 + digitValue c) acc = n ∧ n ≤ limit := by
  induction ds generalizing acc with
  | nil =>
    simp only [decLoop, DecDigits, List.foldl_nil, Except.ok.injEq]
    constructor
    · rintro rfl; exact ⟨by simp, rfl, hacc⟩
    · rintro ⟨_, h, _⟩; exact h
  | cons c ds ih =>
    rw [decLoop]
    by_cases hc : isDigit c = true
    · rw [if_pos hc]
      obtain ⟨hv, _⟩ := digit_value c hc
      simp only [hv]
      by_cases hl : limit < acc * 10 + digitValue c
      · rw [if_pos hl]
        constructor
        · intro h; cases h
        · rintro ⟨_, h, hn⟩
          have := foldl_lower 10 (by omega) ds (acc * 10 + digitValue c)
          simp only [List.foldl_cons] at h
          omega
      · rw [if_neg hl, ih _ (by omega)]
        simp only [DecDigits, List.foldl_cons, List.forall_mem_cons, (isDigit_iff c).1 hc, true_and]
    · rw [if_neg hc]
      constructor
      · intro h; cases h
      · rintro ⟨h, _⟩
        exact absurd ((isDigit_iff c).2 (h c (by simp))) hc

/-- One step of the hexadecimal loop. -/
theorem hexLoop_cons (c : Byte) (cs : Str) (i : Nat) (acc : Short) :
    hexLoop (c :: cs) i acc = if c ∈ str "0123456789abcdef" then hexLoop cs (i + 1) (acc ||| (BitVec.ofNat 16 (digitValue c) <<< (i * 4))) else none := by
  rw [hexLoop]
  by_cases h : isDigit c = true
  · rw [if_pos h, if_pos ((isHex_iff c).1 (by simp [h])), digit_short c h]
  · rw [if_neg h]
    by_cases h' : isLowHex c = true
    · rw [if_pos h', if_pos ((isHex_iff c).1 (by simp [h'])), lowHex_short c h']
    · rw [if_neg h', if_neg]
      intro hm
      have := (isHex_iff c).2 hm
      simp_all

theorem short_or (x y : Nat) (k : Nat) (hk : k ≤ 12) (hx : x < 2 ^ (16 - k)) (hy : y < 2 ^ k) :
    (BitVec.ofNat 16 y : Short) ||| (BitVec.ofNat 16 x <<< k) = BitVec.ofNat 16 (x * 2 ^ k + y) := by
  have h16 : 2 ^ (16 - k) * 2 ^ k = 2 ^ 16 := by rw [← Nat.pow_add]; congr 1; omega
  have hxk : x * 2 ^ k + 2 ^ k ≤ 2 ^ 16 := by
    rw [← h16]; exact (Nat.succ_mul x (2 ^ k)).symm ▸ Nat.mul_le_mul_right _ hx
  have hpk : 0 < 2 ^ k := Nat.pow_pos (by omega)
  have hx16 : x < 2 ^ 16 := by nlinarith
  apply BitVec.eq_of_toNat_eq
  simp only [BitVec.toNat_or, BitVec.toNat_ofNat, BitVec.toNat_shiftLeft]
  rw [Nat.mod_eq_of_lt hx16, Nat.mod_eq_of_lt (by omega : y < 2 ^ 16), Nat.shiftLeft_eq,
    Nat.mod_eq_of_lt (by omega : x * 2 ^ k < 2 ^ 16), Nat.mod_eq_of_lt (by omega : x * 2 ^ k + y < 2 ^ 16)]
  rw [Nat.or_comm, ← Nat.shiftLeft_eq, ← Nat.shiftLeft_add_eq_or_of_lt hy, Nat.shiftLeft_eq]

/-- The hexadecimal loop. -/
theorem hexLoop_rev (n : Nat) (ds : Str) (i v : Nat) (hn : ds.length = n) (hd : HexDigits ds) (hlen : n + i ≤ 4) (hv : v < 2 ^ (i * 4)) :
    hexLoop ds.reverse i (BitVec.ofNat 16 v) = some (BitVec.ofNat 16 (numeral 16 ds * 2 ^ (i * 4) + v)) := by
  induction n generalizing ds i v with
  | zero =>
    have := List.length_eq_zero_iff.1 hn
    subst this
    simp [hexLoop, numeral]
  | succ n ih =>
    obtain ⟨init, c, rfl⟩ : ∃ init c, ds = init ++ [c] := by
      refine ⟨ds.dropLast, ds.getLast (by intro h; simp [h] at hn), (List.dropLast_concat_getLast _).symm⟩
    have hc : c ∈ str "0123456789abcdef" := hd c (by simp)
    have hcv := hex_value c hc
    simp only [List.length_append, List.length_singleton] at hn
    have hpow : 2 ^ ((i + 1) * 4) = 16 * 2 ^ (i * 4) := by rw [Nat.add_mul, Nat.pow_add]; omega
    have hpi : 0 < 2 ^ (i * 4) := Nat.pow_pos (by omega)
    have hx : digitValue c < 2 ^ (16 - i * 4) := Nat.lt_of_lt_of_le (show digitValue c < 2 ^ 4 from hcv) (Nat.pow_le_pow_right (by omega) (by omega))
    rw [List.reverse_append, List.reverse_singleton, List.singleton_append, hexLoop_cons, if_pos hc, short_or _ _ _ (by omega) hx hv,
      ih init (i + 1) _ (by omega) (fun d hd' => hd d (by simp [hd'])) (by omega) (by rw [hpow]; nlinarith), numeral_append, hpow]
    congr 2
    ring

theorem hexLoop_ok (ds : Str) (h : HexDigits ds) (hl : ds.length ≤ 4) : hexLoop ds.reverse 0 0 = some (BitVec.ofNat 16 (numeral 16 ds)) := by
  have := hexLoop_rev ds.length ds 0 0 rfl h (by omega) (by simp)
  simpa using this

theorem hexLoop_bad (ds : Str) (i : Nat) (acc : Short) (h : ¬ HexDigits ds) : hexLoop ds i acc = none := by
  induction ds generalizing i acc with
  | nil => exact absurd (fun c hc => by cases hc) h
  | cons c ds ih =>
    rw [hexLoop_cons]
    by_cases hc : c ∈ str "0123456789abcdef"
    · rw [if_pos hc]
      exact ih _ _ fun hd => h (by intro d hd'; rcases List.mem_cons.1 hd' with rfl | hd'; exacts [hc, hd d hd'])
    · rw [if_neg hc]

theorem numeral_hex_lt (ds : Str) (h : HexDigits ds) : numeral 16 ds < 16 ^ ds.length := by
  induction ds using List.reverseRecOn with
  | nil => simp [numeral]
  | append_singleton ds c ih =>
    have hc := hex_value c (h c (by simp))
    have := ih fun d hd => h d (by simp [hd])
    rw [numeral_append, List.length_append, List.length_singleton, Nat.pow_succ]
    omega

/-! ## Literals -/

/-- A literal fits in the bytes it occupies. -/
theorem Spec.Literal.bound {w : Str} {v k : Nat} (h : Literal w v k) : v < 256 ^ k ∧ (k = 1 ∨ k = 2) := by
  cases h with
  | hexByte ds hl hd => have := numeral_hex_lt w hd; rw [hl] at this; omega
  | hexShort ds hl hd => have := numeral_hex_lt w hd; rw [hl] at this; omega
  | decByte ds hd hv => omega
  | decShort ds hd hv => omega

theorem dec_hex {ds : Str} (h : DecDigits ds) : HexDigits ds := by
  intro c hc
  exact (isHex_iff c).1 (by rw [(isDigit_iff c).2 (h c hc)]; rfl)

theorem Spec.Literal.nonempty {w : Str} {v k : Nat} (h : Literal w v k) : w ≠ [] := by
  rintro rfl
  generalize hw : ([] : Str) = w at h
  cases h with
  | hexByte _ hl _ => subst hw; simp at hl
  | hexShort _ hl _ => subst hw; simp at hl
  | decByte ds _ _ => simp [str] at hw
  | decShort ds _ _ => simp [str] at hw

theorem plusCount_hex {w : Str} (h : HexDigits w) : plusCount w = 0 := by
  match w with
  | [] => rfl
  | [a] =>
    rw [plusCount, if_neg]
    rintro rfl; exact plus_not_hex (h _ (by simp))
  | a :: b :: w =>
    rw [plusCount, if_neg]
    rintro rfl; exact plus_not_hex (h _ (by simp))

theorem Spec.Literal.hexOf {w : Str} {v k : Nat} (h : Literal w v k) (hp : w.head? ≠ some (ch '+')) :
    HexDigits w ∧ v = numeral 16 w ∧ ((w.length = 2 ∧ k = 1) ∨ (w.length = 4 ∧ k = 2)) := by
  cases h with
  | hexByte ds hl hd => exact ⟨hd, rfl, .inl ⟨hl, rfl⟩⟩
  | hexShort ds hl hd => exact ⟨hd, rfl, .inr ⟨hl, rfl⟩⟩
  | decByte ds hd hv => exact absurd rfl hp
  | decShort ds hd hv => exact absurd rfl hp

theorem Spec.Literal.decByteOf {ds : Str} {v k : Nat} (h : Literal (ch '+' :: ds) v k) (hp : ds.head? ≠ some (ch '+')) :
    DecDigits ds ∧ v = numeral 10 ds ∧ v ≤ 255 ∧ k = 1 := by
  generalize hw : ch '+' :: ds = w at h
  cases h with
  | hexByte _ hl hd => subst hw; exact absurd (hd _ (by simp)) plus_not_hex
  | hexShort _ hl hd => subst hw; exact absurd (hd _ (by simp)) plus_not_hex
  | decByte ds' hd hv => cases hw; exact ⟨hd, rfl, hv, rfl⟩
  | decShort ds' hd hv => cases hw; exact absurd rfl hp

theorem Spec.Literal.decShortOf {ds : Str} {v k : Nat} (h : Literal (ch '+' :: ch '+' :: ds) v k) :
    DecDigits ds ∧ v = numeral 10 ds ∧ v ≤ 65535 ∧ k = 2 := by
  generalize hw : ch '+' :: ch '+' :: ds = w at h
  cases h with
  | hexByte _ hl hd => subst hw; exact absurd (hd _ (by simp)) plus_not_hex
  | hexShort _ hl hd => subst hw; exact absurd (hd _ (by simp)) plus_not_hex
  | decByte ds' hd hv => cases hw; exact absurd (hd _ (by simp)) plus_not_dec
  | decShort ds' hd hv => cases hw; exact ⟨hd, rfl, hv, rfl⟩

theorem plusCount_one (ds : Str) (hp : ds.head? ≠ some (ch '+')) : plusCount (ch '+' :: ds) = 1 := by
  match ds with
  | [] => rfl
  | d :: ds => rw [plusCount, if_pos rfl, if_neg]; intro h; exact hp (by rw [h]; rfl)

/-- **C32.** The number reader accepts exactly the literals of the specification and computes their value and size. -/
theorem C32_literal_value (w : Str) (n : Short) (k : Nat) :
    parseLiteral w = .ok (n, k) ↔ ∃ v, Literal w v k ∧ n = BitVec.ofNat 16 v := by
  match w with
  | [] => exact ⟨fun h => (by cases h), fun ⟨v, h, _⟩ => absurd rfl h.nonempty⟩
  | c :: ds =>
    rw [parseLiteral]
    by_cases hc : c = ch '+'
    · subst hc
      rw [if_neg (fun h => h.1 rfl), parseNumber, if_neg (by simp)]
      by_cases hp : ds.head? = some (ch '+')
      · obtain ⟨ds, rfl⟩ : ∃ r, ds = ch '+' :: r := by
          cases ds with
          | nil => cases hp
          | cons a r => exact ⟨r, by simp at hp; rw [hp]⟩
        rw [show plusCount (ch '+' :: ch '+' :: ds) = 2 from rfl, if_neg (by omega), if_neg (by omega), show (ch '+' :: ch '+' :: ds).drop 2 = ds from rfl]
        constructor
        · intro h
          split at h
          · cases h
          · rename_i m hm
            obtain ⟨hd, hv, hb⟩ := (decLoop_iff _ _ _ _ (by omega)).1 hm
            cases h
            refine ⟨m, ?_, rfl⟩
            have := Literal.decShort ds hd (by rw [numeral, hv]; exact hb)
            rw [numeral, hv] at this
            exact this
        · rintro ⟨v, h, rfl⟩
          obtain ⟨hd, hv, hb, rfl⟩ := h.decShortOf
          rw [(decLoop_iff 0xffff ds 0 v (by omega)).2 ⟨hd, hv.symm, hb⟩]
      · rw [plusCount_one ds hp, if_neg (by omega), if_pos rfl, show (ch '+' :: ds).drop 1 = ds from rfl]
        constructor
        · intro h
          split at h
          · cases h
          · rename_i m hm
            obtain ⟨hd, hv, hb⟩ := (decLoop_iff _ _ _ _ (by omega)).1 hm
            cases h
            refine ⟨m, ?_, rfl⟩
            have := Literal.decByte ds hd (by rw [numeral, hv]; exact hb)
            rw [numeral, hv] at this
            exact this
        · rintro ⟨v, h, rfl⟩
          obtain ⟨hd, hv, hb, rfl⟩ := h.decByteOf hp
          rw [(decLoop_iff 0xff ds 0 v (by omega)).2 ⟨hd, hv.symm, hb⟩]
    · have hp0 : plusCount (c :: ds) = 0 := by
        cases ds with
        | nil => rw [plusCount, if_neg hc]
        | cons d ds => rw [plusCount, if_neg hc]
      have hh : (c :: ds).head? ≠ some (ch '+') := by simpa using hc
      by_cases hl : (c :: ds).length = 2 ∨ (c :: ds).length = 4
      · rw [if_neg (by omega), parseNumber, if_neg (by omega), if_pos hp0, if_neg (by omega)]
        by_cases hd : HexDigits (c :: ds)
        · rw [hexLoop_ok _ hd (by omega)]
          constructor
          · intro h
            simp only [Except.ok.injEq, Prod.mk.injEq] at h
            obtain ⟨rfl, rfl⟩ := h
            refine ⟨_, ?_, rfl⟩
            rcases hl with hl | hl
            · rw [if_pos (by omega)]; exact .hexByte _ hl hd
            · rw [if_neg (by omega)]; exact .hexShort _ hl hd
          · rintro ⟨v, h, rfl⟩
            obtain ⟨_, rfl, hk⟩ := h.hexOf hh
            rcases hk with ⟨hl, rfl⟩ | ⟨hl, rfl⟩
            · rw [if_pos (by omega)]
            · rw [if_neg (by omega)]
        · rw [hexLoop_bad _ _ _ (fun h => hd (fun c hc => h c (List.mem_reverse.2 hc)))]
          exact ⟨fun h => (by cases h), fun ⟨v, h, _⟩ => absurd (h.hexOf hh).1 hd⟩
      · rw [if_pos ⟨hc, by omega, by omega⟩]
        exact ⟨fun h => (by cases h), fun ⟨v, h, _⟩ => by have := (h.hexOf hh).2.2; omega⟩

/-! ## What the tokens `#w` and `w` emit -/

theorem andThen_true (s : Asm) (f : Asm → Bool × Asm) : andThen (true, s) f = f s := rfl

/-- Writing outside of the zero page succeeds. -/
theorem emit_ok (t : Token) (b : Byte) (p : Bool) (s : Asm) (h : ¬ s.writeAddr < RESET_VECTOR) :
    emit t b p s = (true, { s with writeAddr := s.writeAddr + 1, log := .rom s.writeAddr b p :: s.log }) := by
  rw [emit]; exact if_neg h

theorem emit_next (t : Token) (b : Byte) (p : Bool) (s : Asm) (n : Nat) (h : 0x100 ≤ s.writeAddr.toNat) (hn : s.writeAddr.toNat + (n + 1) ≤ 0x10000) :
    ∃ s', emit t b p s = (true, s') ∧ s'.log = .rom s.writeAddr b p :: s.log ∧ s'.writeAddr = s.writeAddr + 1 ∧
      (0 < n → 0x100 ≤ s'.writeAddr.toNat ∧ s'.writeAddr.toNat + n ≤ 0x10000) ∧ s'.success = s.success := by
  refine ⟨_, emit_ok t b p s ?_, rfl, rfl, ?_, rfl⟩
  · rw [BitVec.lt_def]; simp only [RESET_VECTOR, BitVec.reduceToNat]; omega
  · intro hn0
    simp only [BitVec.toNat_add]
    rw [show (1 : Short).toNat = 1 from rfl]
    omega

@[simp] theorem written_sym (a : Short) (i : SymInfo) (l : List Event) : written (.sym a i :: l) = written l := rfl
@[simp] theorem written_rom (a : Short) (v : Byte) (p : Bool) (l : List Event) : written (.rom a v p :: l) = (a, v) :: written l := rfl
@[simp] theorem written_error (m : String) (r : Region) (l : List Event) : written (.error m r :: l) = written l := rfl
@[simp] theorem written_warning (m : String) (r : Region) (l : List Event) : written (.warning m r :: l) = written l := rfl
@[simp] theorem written_fopen (n : Str) (l : List Event) : written (.fopen n :: l) = written l := rfl
@[simp] theorem written_fclose (n : Str) (l : List Event) : written (.fclose n :: l) = written l := rfl
@[simp] theorem written_ref (a : Short) (k : RefKind) (z : RefSize) (n : Option Str) (i : Short) (l : List Event) : written (.ref a k z n i :: l) = written l := rfl
@[simp] theorem errors_sym (a : Short) (i : SymInfo) (l : List Event) : errors (.sym a i :: l) = errors l := rfl
@[simp] theorem errors_rom (a : Short) (v : Byte) (p : Bool) (l : List Event) : errors (.rom a v p :: l) = errors l := rfl
@[simp] theorem errors_error (m : String) (r : Region) (l : List Event) : errors (.error m r :: l) = (m, r) :: errors l := rfl
@[simp] theorem errors_warning (m : String) (r : Region) (l : List Event) : errors (.warning m r :: l) = errors l := rfl
@[simp] theorem errors_fopen (n : Str) (l : List Event) : errors (.fopen n :: l) = errors l := rfl
@[simp] theorem errors_fclose (n : Str) (l : List Event) : errors (.fclose n :: l) = errors l := rfl
@[simp] theorem errors_ref (a : Short) (k : RefKind) (z : RefSize) (n : Option Str) (i : Short) (l : List Event) : errors (.ref a k z n i :: l) = errors l := rfl

/-- What a step that only writes `bs` does. -/
def Spec.Emits (bs : List Byte) (s s' : Asm) : Prop :=
  written s'.log = laidOut s.writeAddr bs ++ written s.log ∧ s'.writeAddr = s.writeAddr + BitVec.ofNat 16 bs.length ∧ errors s'.log = errors s.log

/-- What a step that only reports an error does. -/
def Spec.Rejects (s s' : Asm) : Prop :=
  written s'.log = written s.log ∧ s'.success = false ∧ ∃ e, errors s'.log = e :: errors s.log

theorem emitOpcode_emits (t : Token) (b : Byte) (r : Bool) (s : Asm) (n : Nat) (h : 0x100 ≤ s.writeAddr.toNat) (hn : s.writeAddr.toNat + (n + 1) ≤ 0x10000) :
    ∃ s', emitOpcode t b r s = (true, s') ∧ Emits [b] s s' ∧ (0 < n → 0x100 ≤ s'.writeAddr.toNat ∧ s'.writeAddr.toNat + n ≤ 0x10000) := by
  obtain ⟨s1, he, hl, hw, hb, _⟩ := emit_next t b false s n h hn
  refine ⟨_, by rw [emitOpcode, he, andThen_true], ⟨?_, ?_, ?_⟩, ?_⟩
  · simp [putSymbol, hl, laidOut]
  · simp [putSymbol, hw]
  · simp [putSymbol, hl]
  · exact hb

theorem emitByte_emits (t : Token) (b : Byte) (r : Bool) (s : Asm) (h : 0x100 ≤ s.writeAddr.toNat) (hn : s.writeAddr.toNat + 1 ≤ 0x10000) :
    ∃ s', emitByte t b r s = (true, s') ∧ Emits [b] s s' := by
  obtain ⟨s1, he, hl, hw, hb, _⟩ := emit_next t b false s 0 h hn
  refine ⟨_, by rw [emitByte, he, andThen_true], ⟨?_, ?_, ?_⟩⟩
  · simp [putSymbol, hl, laidOut]
  · simp [putSymbol, hw]
  · simp [putSymbol, hl]

theorem emitShort_emits (t : Token) (x : Short) (r : Bool) (s : Asm) (h : 0x100 ≤ s.writeAddr.toNat) (hn : s.writeAddr.toNat + 2 ≤ 0x10000) :
    ∃ s', emitShort t x r s = (true, s') ∧ Emits [hi8 x, lo8 x] s s' := by
  obtain ⟨s1, he, hl, hw, hb, _⟩ := emit_next t (hi8 x) false s 1 h hn
  obtain ⟨s2, he2, hl2, hw2, _, _⟩ := emit_next t (lo8 x) false s1 0 (hb (by omega)).1 (hb (by omega)).2
  refine ⟨_, by rw [emitShort, emit2, he, andThen_true, he2, andThen_true, andThen_true], ⟨?_, ?_, ?_⟩⟩
  · simp [putSymbol2, putSymbol, hl, hl2, laidOut, hw]
  · simp only [putSymbol2, putSymbol, hw2, hw, List.length_cons, List.length_nil]
    rw [BitVec.add_assoc]; rfl
  · simp [putSymbol2, putSymbol, hl2, hl]

theorem laidOut_append (a : Short) (bs cs : List Byte) : laidOut a (bs ++ cs) = laidOut (a + BitVec.ofNat 16 bs.length) cs ++ laidOut a bs := by
  induction bs generalizing a with
  | nil => simp [laidOut]
  | cons b bs ih =>
    simp only [List.cons_append, laidOut, ih, List.append_assoc, List.length_cons]
    rw [BitVec.add_assoc, show (1 : Short) + BitVec.ofNat 16 bs.length = BitVec.ofNat 16 (bs.length + 1) by
      apply BitVec.eq_of_toNat_eq; simp; omega]

theorem Spec.Emits.trans {bs cs : List Byte} {s s' s'' : Asm} (h : Emits bs s s') (h' : Emits cs s' s'') : Emits (bs ++ cs) s s'' := by
  refine ⟨?_, ?_, ?_⟩
  · rw [h'.1, h.1, h.2.1, laidOut_append, List.append_assoc]
  · rw [h'.2.1, h.2.1, BitVec.add_assoc, List.length_append]
    congr 1
    apply BitVec.eq_of_toNat_eq; simp
  · rw [h'.2.2, h.2.2]

theorem hi8_ofNat (v : Nat) : hi8 (BitVec.ofNat 16 v) = BitVec.ofNat 8 (v / 256) := by
  apply BitVec.eq_of_toNat_eq
  simp only [hi8, BitVec.toNat_setWidth, BitVec.toNat_ushiftRight, BitVec.toNat_ofNat, Nat.shiftRight_eq_div_pow]
  omega

theorem lo8_ofNat (v : Nat) : lo8 (BitVec.ofNat 16 v) = BitVec.ofNat 8 v := by
  apply BitVec.eq_of_toNat_eq
  simp only [lo8, BitVec.toNat_setWidth, BitVec.toNat_ofNat]
  omega

theorem parseLiteral_reject (w : Str) (h : ¬ ∃ v k, Literal w v k) : ∃ e, parseLiteral w = .error e := by
  match hp : parseLiteral w with
  | .error e => exact ⟨e, rfl⟩
  | .ok (n, k) =>
    obtain ⟨v, hv, _⟩ := (C32_literal_value w n k).1 hp
    exact absurd ⟨v, k, hv⟩ h

/-- How `#` is dispatched. -/
theorem processToken_hash (files : Files) (rec : Nested) (t : Token) (u : Unit) (s : Asm) (w : Str) (ht : t.lex = ch '#' :: w) :
    processToken files rec t u s = keep u (processLitNumber t s) := by
  rw [processToken]
  simp only [ht, List.headD_cons]
  iterate 15 rw [if_neg (by decide)]
  rw [if_pos trivial]

/-- **C32.** `#w` emits `LIT` and the byte, or `LIT2` and the short, and nothing else. -/
theorem C32_literal_token (files : Files) (rec : Nested) (t : Token) (u : Unit) (s : Asm) (w : Str) (v k : Nat) (ht : t.lex = ch '#' :: w)
    (hw : Literal w v k) (ha : 0x100 ≤ s.writeAddr.toNat) (hb : s.writeAddr.toNat + (k + 1) ≤ 0x10000) :
    ∃ s', processToken files rec t u s = some (true, u, s') ∧ Emits ((if k = 1 then 0x80 else 0xa0) :: bytesOf v k) s s' := by
  rw [processToken_hash files rec t u s w ht, processLitNumber, ht, show popFront (ch '#' :: w) = w from rfl, (C32_literal_value w _ k).2 ⟨v, hw, rfl⟩]
  obtain ⟨_, rfl | rfl⟩ := hw.bound
  · obtain ⟨s1, h1, e1, b1⟩ := emitOpcode_emits t 0x80 true s 1 ha hb
    obtain ⟨s2, h2, e2⟩ := emitByte_emits t (lo8 (BitVec.ofNat 16 v)) true s1 (b1 (by omega)).1 (b1 (by omega)).2
    refine ⟨s2, ?_, ?_⟩
    · simp only [h1, andThen_true, h2, keep, if_true]
    · rw [lo8_ofNat] at e2; exact Emits.trans e1 e2
  · obtain ⟨s1, h1, e1, b1⟩ := emitOpcode_emits t 0xa0 true s 2 ha hb
    obtain ⟨s2, h2, e2⟩ := emitShort_emits t (BitVec.ofNat 16 v) true s1 (b1 (by omega)).1 (b1 (by omega)).2
    refine ⟨s2, ?_, ?_⟩
    · simp only [h1, andThen_true, h2, keep]; rfl
    · rw [lo8_ofNat, hi8_ofNat] at e2; exact Emits.trans e1 e2

/-- **C32.** Anything else after `#` is an error and writes nothing. -/
theorem C32_literal_rejected (files : Files) (rec : Nested) (t : Token) (u : Unit) (s : Asm) (w : Str) (ht : t.lex = ch '#' :: w)
    (hw : ¬ ∃ v k, Literal w v k) : ∃ s', processToken files rec t u s = some (false, u, s') ∧ Rejects s s' := by
  obtain ⟨e, he⟩ := parseLiteral_reject w hw
  rw [processToken_hash files rec t u s w ht, processLitNumber, ht, show popFront (ch '#' :: w) = w from rfl, he]
  exact ⟨_, rfl, rfl, rfl, _, rfl⟩

theorem numberHead (c : Byte) (h : (isDigit c || isLowHex c) = true ∨ c = ch '+') :
    c ∉ str "()[]~%@&!?}{/|$#.-,_;=\"" := by
  revert c; decide +kernel

/-- How a number is dispatched. -/
theorem processToken_number (files : Files) (rec : Nested) (t : Token) (u : Unit) (s : Asm) (hn : isNumber t.lex = true) :
    processToken files rec t u s = keep u (processRawNumber t s) := by
  have hc : t.lex.headD 0 ∉ str "()[]~%@&!?}{/|$#.-,_;=\"" := by
    apply numberHead
    match hl : t.lex with
    | [] => rw [hl] at hn; simp [isNumber] at hn
    | c :: cs =>
      rw [hl] at hn
      simp only [List.headD_cons]
      by_cases hc : c = ch '+'
      · exact .inr hc
      · left
        have hp0 : plusCount (c :: cs) = 0 := by
          cases cs with
          | nil => rw [plusCount, if_neg hc]
          | cons d ds => rw [plusCount, if_neg hc]
        rw [isNumber, if_neg (by simp), if_neg (by omega)] at hn
        simp only [List.all_cons, Bool.and_eq_true] at hn
        exact hn.1
  rw [processToken]
  generalize t.lex.headD 0 = c at hc
  simp only [str, show "()[]~%@&!?}{/|$#.-,_;=\"".toList = ['(', ')', '[', ']', '~', '%', '@', '&', '!', '?', '}', '{', '/', '|', '$', '#', '.', '-', ',', '_', ';', '=', '"'] from rfl,
    List.map_cons, List.map_nil, List.mem_cons, not_or] at hc
  obtain ⟨h1, h2, h3, h4, h5, h6, h7, h8, h9, h10, h11, h12, h13, h14, h15, h16, h17, h18, h19, h20, h21, h22, h23, -⟩ := hc
  simp only [h1, h2, h3, h4, h5, h6, h7, h8, h9, h10, h11, h12, h13, h14, h15, h16, h17, h18, h19, h20, h21, h22, h23, if_false]
  rw [if_pos hn]

/-- A literal looks like a number. -/
theorem Literal.isNumber {w : Str} {v k : Nat} (h : Literal w v k) : isNumber w = true := by
  have hne := h.nonempty
  rw [Asm.isNumber, if_neg (by rw [List.length_eq_zero_iff]; exact hne)]
  cases h with
  | hexByte ds hl hd =>
    rw [plusCount_hex hd, if_neg (by omega), List.all_eq_true]
    exact fun c hc => (isHex_iff c).2 (hd c hc)
  | hexShort ds hl hd =>
    rw [plusCount_hex hd, if_neg (by omega), List.all_eq_true]
    exact fun c hc => (isHex_iff c).2 (hd c hc)
  | decByte ds hd hv =>
    have hp : ds.head? ≠ some (ch '+') := by
      intro hp
      cases ds with
      | nil => cases hp
      | cons a r => simp at hp; subst hp; exact plus_not_dec (hd _ (by simp))
    rw [show str "+" ++ ds = ch '+' :: ds from rfl, plusCount_one ds hp, if_pos (by omega), List.all_eq_true]
    exact fun c hc => (isDigit_iff c).2 (hd c hc)
  | decShort ds hd hv =>
    rw [show plusCount (str "++" ++ ds) = 2 from rfl, if_pos (by omega), List.all_eq_true]
    exact fun c hc => (isDigit_iff c).2 (hd c hc)

/-- **C32.** A literal alone emits its bytes, and nothing else. -/
theorem C32_raw_token (files : Files) (rec : Nested) (t : Token) (u : Unit) (s : Asm) (v k : Nat) (hw : Literal t.lex v k)
    (ha : 0x100 ≤ s.writeAddr.toNat) (hb : s.writeAddr.toNat + k ≤ 0x10000) :
    ∃ s', processToken files rec t u s = some (true, u, s') ∧ Emits (bytesOf v k) s s' := by
  rw [processToken_number files rec t u s (Literal.isNumber hw), processRawNumber, (C32_literal_value t.lex _ k).2 ⟨v, hw, rfl⟩]
  obtain ⟨_, rfl | rfl⟩ := hw.bound
  · obtain ⟨s2, h2, e2⟩ := emitByte_emits t (lo8 (BitVec.ofNat 16 v)) false s ha hb
    refine ⟨s2, by simp [h2, keep], ?_⟩
    rw [lo8_ofNat] at e2; exact e2
  · obtain ⟨s2, h2, e2⟩ := emitShort_emits t (BitVec.ofNat 16 v) false s ha hb
    refine ⟨s2, by simp [h2, keep], ?_⟩
    rw [lo8_ofNat, hi8_ofNat] at e2; exact e2

/-- **C32.** A word that looks like a number but is not a literal is an error. -/
theorem C32_raw_rejected (files : Files) (rec : Nested) (t : Token) (u : Unit) (s : Asm) (hn : isNumber t.lex = true)
    (hw : ¬ ∃ v k, Literal t.lex v k) : ∃ s', processToken files rec t u s = some (false, u, s') ∧ Rejects s s' := by
  obtain ⟨e, he⟩ := parseLiteral_reject t.lex hw
  rw [processToken_number files rec t u s hn, processRawNumber, he]
  exact ⟨_, rfl, rfl, rfl, _, rfl⟩

/-! ## Instances -/

example : Literal (str "7f") 127 1 := .hexByte _ rfl (by intro c hc; revert hc; revert c; decide +kernel)

example : Literal (str "+255") 255 1 := .decByte (str "255") (by intro c hc; revert hc; revert c; decide +kernel) (by decide +kernel)

example : parseLiteral (str "beef") = .ok (0xbeef, 2) := by decide +kernel

example : ¬ ∃ v k, Literal (str "+256") v k := by
  rintro ⟨v, k, h⟩
  have := (C32_literal_value (str "+256") _ k).2 ⟨v, h, rfl⟩
  revert this
  rw [show parseLiteral (str "+256") = .error "Invalid number: Too big" by decide +kernel]
  intro h; cases h

end Buxn.Asm
