import Verif.VM.Spec
import Verif.Devices.Common
/-!
# The date and time device (C62)

Models `/repo/src/devices/datetime.c`. The C library is a parameter: each call of `time` and `localtime` gives a reading
of the clock, which is a `struct tm` or nothing (`localtime` returns a null pointer). The device asks the clock on every
read of a port, so the readings of two ports may differ.
-/
namespace Buxn.Datetime
open Buxn.VM

/-- `struct tm` of the C standard; the members are of type `int`. -/
structure Tm where
  sec : Int
  min : Int
  hour : Int
  mday : Int
  mon : Int
  year : Int
  wday : Int
  yday : Int
  isdst : Int
  deriving DecidableEq

/-- `struct tm tm = { 0 }`, `datetime.c:10`. -/
def zero : Tm := ⟨0, 0, 0, 0, 0, 0, 0, 0, 0⟩

/-- The conversion of an `int` to `uint8_t` at the `return` statements. -/
def toByte (x : Int) : Byte := BitVec.ofInt 8 x

/-- `t->tm_year + 1900`, `datetime.c:15-16`. -/
def fullYear (t : Tm) : Res Int := if t.year + 1900 ≤ 2147483647 then .ok (t.year + 1900) else .error .signedOverflow

/-- `buxn_datetime_dei`, `datetime.c:8-28`; `reading` is what `localtime` returned. `>> 8` of a negative `int` is taken to
be arithmetic. -/
def dei (reading : Option Tm) (vm : VM) (addr : Byte) : Res Byte :=
  let t := reading.getD zero
  if addr = 0xc0 then (fullYear t).map fun y => toByte (y / 256)
  else if addr = 0xc1 then (fullYear t).map toByte
  else if addr = 0xc2 then .ok (toByte t.mon)
  else if addr = 0xc3 then .ok (toByte t.mday)
  else if addr = 0xc4 then .ok (toByte t.hour)
  else if addr = 0xc5 then .ok (toByte t.min)
  else if addr = 0xc6 then .ok (toByte t.sec)
  else if addr = 0xc7 then .ok (toByte t.wday)
  else if addr = 0xc8 then .ok (toByte (t.yday / 256))
  else if addr = 0xc9 then .ok (toByte t.yday)
  else if addr = 0xca then .ok (toByte t.isdst)
  else .ok (vm.device addr)

/-- The readings that the clock will give, one per call. -/
structure Clock where
  reading : Nat → Option Tm
  calls : Nat

/-- The device as a host of the machine: every read of a port calls the clock. -/
def host : Host Clock where
  dei a vm c := (dei (c.reading c.calls) vm a).map fun v => (v, vm, { c with calls := c.calls + 1 })
  deo _ vm c := .ok (vm, c)

/-! ## Specification -/

/-- A moment of a calendar, within the ranges that the C standard gives to `struct tm`, from the year 0 to the year
65535. -/
structure Calendar (t : Tm) : Prop where
  sec : 0 ≤ t.sec ∧ t.sec ≤ 60
  min : 0 ≤ t.min ∧ t.min ≤ 59
  hour : 0 ≤ t.hour ∧ t.hour ≤ 23
  mday : 1 ≤ t.mday ∧ t.mday ≤ 31
  mon : 0 ≤ t.mon ∧ t.mon ≤ 11
  year : -1900 ≤ t.year ∧ t.year ≤ 65535 - 1900
  wday : 0 ≤ t.wday ∧ t.wday ≤ 6
  yday : 0 ≤ t.yday ∧ t.yday ≤ 365

/-- What an instruction that reads one port, or two consecutive ports, gets. -/
def readByte (cfg : Cfg) (port : Nat) (vm : VM) (c : Clock) : Option Nat :=
  ((Spec.deviceIn cfg host 1 port vm c).toOption).map (·.1)
def readShort (cfg : Cfg) (port : Nat) (vm : VM) (c : Clock) : Option Nat :=
  ((Spec.deviceIn cfg host 2 port vm c).toOption).map (·.1)

/-! ## Proofs -/

theorem toByte_toNat (x : Int) (h0 : 0 ≤ x) (h1 : x ≤ 255) : (toByte x).toNat = x.toNat := by
  unfold toByte
  rw [BitVec.toNat_ofInt]
  omega

theorem toByte_mod (x : Int) : ((toByte x).toNat : Int) = x % 256 := by
  unfold toByte
  rw [BitVec.toNat_ofInt]
  omega

theorem fullYear_ok {t : Tm} (h : t.year ≤ 65535 - 1900) : fullYear t = .ok (t.year + 1900) := by
  unfold fullYear
  rw [if_pos (by omega)]

theorem readByte_eq (cfg : Cfg) (port : Nat) (vm : VM) (c : Clock) :
    readByte cfg port vm c = ((dei (c.reading c.calls) vm (BitVec.ofNat 8 port)).toOption).map (·.toNat) := by
  unfold readByte Spec.deviceIn host
  dsimp only
  rw [if_neg (by decide)]
  cases dei (c.reading c.calls) vm (BitVec.ofNat 8 port) <;> rfl

theorem readShort_eq (cfg : Cfg) (port : Nat) (vm : VM) (c : Clock) (x y : Byte)
    (hx : dei (c.reading (if cfg.hiFirst then c.calls else c.calls + 1)) vm (BitVec.ofNat 8 port) = .ok x)
    (hy : dei (c.reading (if cfg.hiFirst then c.calls + 1 else c.calls)) vm (BitVec.ofNat 8 (port + 1)) = .ok y) :
    readShort cfg port vm c = some (x.toNat * 256 + y.toNat) := by
  unfold readShort Spec.deviceIn host
  dsimp only
  rw [if_pos rfl]
  cases hc : cfg.hiFirst with
  | true =>
    rw [hc] at hx hy
    simp only [if_true] at hx hy
    rw [if_pos rfl, hx]
    simp only [bind, Except.bind, Except.map, pure, Except.pure]
    rw [hy]
    rfl
  | false =>
    rw [hc] at hx hy
    simp only [Bool.false_eq_true, if_false] at hx hy
    rw [if_neg (by simp), hy]
    simp only [bind, Except.bind, Except.map, pure, Except.pure]
    rw [hx]
    rfl

/-- **C62**, single ports. Month, day, hour, minute, second and day of the week are those of the reading, for every moment of
the calendar and whatever is in the device page. -/
theorem C62_bytes (cfg : Cfg) (vm : VM) (c : Clock) (t : Tm) (h : c.reading c.calls = some t) (ht : Calendar t) :
    readByte cfg 0xc2 vm c = some t.mon.toNat ∧ readByte cfg 0xc3 vm c = some t.mday.toNat ∧
    readByte cfg 0xc4 vm c = some t.hour.toNat ∧ readByte cfg 0xc5 vm c = some t.min.toNat ∧
    readByte cfg 0xc6 vm c = some t.sec.toNat ∧ readByte cfg 0xc7 vm c = some t.wday.toNat := by
  obtain ⟨a1, a2, a3, a4, a5, a6, a7, a8⟩ := ht
  have key : ∀ (p : Nat) (x : Int), dei (some t) vm (BitVec.ofNat 8 p) = .ok (toByte x) → 0 ≤ x → x ≤ 255 →
      readByte cfg p vm c = some x.toNat := by
    intro p x h1 h2 h3
    rw [readByte_eq, h, h1]
    show some (toByte x).toNat = _
    rw [toByte_toNat x h2 h3]
  exact ⟨key _ _ rfl (by omega) (by omega), key _ _ rfl (by omega) (by omega), key _ _ rfl (by omega) (by omega),
    key _ _ rfl (by omega) (by omega), key _ _ rfl (by omega) (by omega), key _ _ rfl (by omega) (by omega)⟩

/-- A short read from the year or the day of the year, for any two readings. -/
theorem short_of (cfg : Cfg) (vm : VM) (c : Clock) (p : Nat) (v : Tm → Int) (a b : Tm)
    (ha : c.reading (if cfg.hiFirst then c.calls else c.calls + 1) = some a)
    (hb : c.reading (if cfg.hiFirst then c.calls + 1 else c.calls) = some b)
    (h1 : dei (some a) vm (BitVec.ofNat 8 p) = .ok (toByte (v a / 256)))
    (h2 : dei (some b) vm (BitVec.ofNat 8 (p + 1)) = .ok (toByte (v b)))
    (ra : 0 ≤ v a ∧ v a ≤ 65535) (rb : 0 ≤ v b ∧ v b ≤ 65535) :
    readShort cfg p vm c = some ((v a).toNat / 256 * 256 + (v b).toNat % 256) := by
  rw [readShort_eq cfg p vm c (toByte (v a / 256)) (toByte (v b)) (by rw [ha]; exact h1) (by rw [hb]; exact h2)]
  have e1 := toByte_mod (v a / 256)
  have e2 := toByte_mod (v b)
  exact congrArg some (by omega)

theorem year_hi (vm : VM) (t : Tm) (h : t.year ≤ 65535 - 1900) :
    dei (some t) vm (BitVec.ofNat 8 0xc0) = .ok (toByte ((t.year + 1900) / 256)) := by
  show (fullYear t).map _ = _
  rw [fullYear_ok h]; rfl
theorem year_lo (vm : VM) (t : Tm) (h : t.year ≤ 65535 - 1900) :
    dei (some t) vm (BitVec.ofNat 8 0xc1) = .ok (toByte (t.year + 1900)) := by
  show (fullYear t).map _ = _
  rw [fullYear_ok h]; rfl

/-- **C62**, shorts. `DEI2` makes two calls of the clock. If the high bytes of the two readings agree, the year (of the
common era) that the program gets is that of one of the readings, and so is the day of the year. In particular it is right
whenever the clock does not move between the two calls. This holds for either order of the two calls. -/
theorem C62_shorts_partial (cfg : Cfg) (vm : VM) (c : Clock) (t t' : Tm) (h : c.reading c.calls = some t)
    (h' : c.reading (c.calls + 1) = some t') (ht : Calendar t) (ht' : Calendar t') :
    ((t.year + 1900) / 256 = (t'.year + 1900) / 256 →
      readShort cfg 0xc0 vm c = some (t.year + 1900).toNat ∨ readShort cfg 0xc0 vm c = some (t'.year + 1900).toNat) ∧
    (t.yday / 256 = t'.yday / 256 →
      readShort cfg 0xc8 vm c = some t.yday.toNat ∨ readShort cfg 0xc8 vm c = some t'.yday.toNat) := by
  obtain ⟨-, -, -, -, -, y1, -, d1⟩ := ht
  obtain ⟨-, -, -, -, -, y2, -, d2⟩ := ht'
  cases hc : cfg.hiFirst with
  | true =>
    have hy := short_of cfg vm c 0xc0 (fun t => t.year + 1900) t t' (by rw [hc]; exact h) (by rw [hc]; exact h')
      (year_hi vm t (by omega)) (year_lo vm t' (by omega)) (by omega) (by omega)
    have hd := short_of cfg vm c 0xc8 (·.yday) t t' (by rw [hc]; exact h) (by rw [hc]; exact h') rfl rfl (by omega) (by omega)
    rw [hy, hd]
    exact ⟨fun e => .inr (congrArg some (by omega)), fun e => .inr (congrArg some (by omega))⟩
  | false =>
    have hy := short_of cfg vm c 0xc0 (fun t => t.year + 1900) t' t (by rw [hc]; exact h') (by rw [hc]; exact h)
      (year_hi vm t' (by omega)) (year_lo vm t (by omega)) (by omega) (by omega)
    have hd := short_of cfg vm c 0xc8 (·.yday) t' t (by rw [hc]; exact h') (by rw [hc]; exact h) rfl rfl (by omega) (by omega)
    rw [hy, hd]
    exact ⟨fun e => .inl (congrArg some (by omega)), fun e => .inl (congrArg some (by omega))⟩

/-- **C62**, no clock. When the C library cannot tell the local time the program reads the start of the year 1900, with a day
of the month of 0, and no daylight saving. -/
theorem C62_no_clock (cfg : Cfg) (vm : VM) (c : Clock) (h : ∀ n, c.reading n = none) :
    readShort cfg 0xc0 vm c = some 1900 ∧ readShort cfg 0xc8 vm c = some 0 ∧
    ∀ p, 0xc2 ≤ p → p ≤ 0xca → readByte cfg p vm c = some 0 := by
  refine ⟨?_, ?_, ?_⟩
  · rw [readShort_eq cfg 0xc0 vm c 7 108 (by rw [h]; rfl) (by rw [h]; rfl)]; rfl
  · rw [readShort_eq cfg 0xc8 vm c 0 0 (by rw [h]; rfl) (by rw [h]; rfl)]; rfl
  · intro p h1 h2
    rw [readByte_eq, h]
    have : p = 0xc2 ∨ p = 0xc3 ∨ p = 0xc4 ∨ p = 0xc5 ∨ p = 0xc6 ∨ p = 0xc7 ∨ p = 0xc8 ∨ p = 0xc9 ∨ p = 0xca := by omega
    rcases this with h | h | h | h | h | h | h | h | h <;> subst h <;> rfl

/-- **C62**, daylight saving and the rest. The port `0xca` is 1 in daylight saving time and 0 outside of it (as `localtime`
tells it); the five ports above it, which have no meaning, read back what the program has written there; and no read changes
the machine. -/
theorem C62_other_ports (cfg : Cfg) (vm : VM) (c : Clock) :
    (∀ t, c.reading c.calls = some t → t.isdst = 0 ∨ t.isdst = 1 → readByte cfg 0xca vm c = some t.isdst.toNat) ∧
    (∀ p, 0xcb ≤ p → p ≤ 0xcf → readByte cfg p vm c = some (vm.device (BitVec.ofNat 8 p)).toNat) ∧
    (∀ n p v vm' c', Spec.deviceIn cfg host n p vm c = .ok (v, vm', c') → vm' = vm) := by
  refine ⟨?_, ?_, ?_⟩
  · intro t h hd
    rw [readByte_eq, h]
    show some (toByte t.isdst).toNat = _
    rw [toByte_toNat _ (by omega) (by omega)]
  · intro p h1 h2
    rw [readByte_eq]
    have : p = 0xcb ∨ p = 0xcc ∨ p = 0xcd ∨ p = 0xce ∨ p = 0xcf := by omega
    rcases this with h | h | h | h | h <;> subst h <;> rfl
  · intro n p v vm' c' e
    have hv : ∀ {a : Byte} {vm : VM} {c : Clock} {x : Byte × VM × Clock}, host.dei a vm c = .ok x → x.2.1 = vm := by
      intro a vm c x e
      unfold host at e
      dsimp only at e
      cases hx : dei (c.reading c.calls) vm a with
      | error u => rw [hx] at e; cases e
      | ok y => rw [hx] at e; cases e; rfl
    unfold Spec.deviceIn at e
    simp only [bind, Except.bind, pure, Except.pure] at e
    split at e
    · split at e
      all_goals
        split at e
        · cases e
        · rename_i x hx
          split at e
          · cases e
          · rename_i y hy
            cases e
            rw [hv hy, hv hx]
    · split at e
      · cases e
      · rename_i x hx
        cases e
        exact hv hx

/-- The last second of September 13th, 2026 (day 255 of the year, counted from 0), and the first of September 14th. -/
def beforeMidnight : Tm := ⟨59, 59, 23, 13, 8, 126, 0, 255, 1⟩
def afterMidnight : Tm := ⟨0, 0, 0, 14, 8, 126, 1, 256, 1⟩
/-- A clock that passes midnight between the first and the second call. -/
def midnight : Clock where
  reading n := some (if n = 0 then beforeMidnight else afterMidnight)
  calls := 0

theorem calendar_before : Calendar beforeMidnight := by constructor <;> decide
theorem calendar_after : Calendar afterMidnight := by constructor <;> decide

/-- **C62** fails at the moment when the high byte changes: the device asks the clock anew for each byte, so a program that
reads the day of the year with one `DEI2` across midnight gets a day that is neither of the two: day 0 if the compiler
evaluates the high byte first, and day 511 (which does not exist) otherwise. -/
theorem C62_torn_read_violated (vm : VM) (w : Bool) :
    readShort ⟨w, true⟩ 0xc8 vm midnight = some 0 ∧ readShort ⟨w, false⟩ 0xc8 vm midnight = some 511 := by
  constructor
  · rw [readShort_eq ⟨w, true⟩ 0xc8 vm midnight 0 0 rfl rfl]; rfl
  · rw [readShort_eq ⟨w, false⟩ 0xc8 vm midnight 1 255 rfl rfl]; rfl

/-- A program cannot tell an unknown daylight saving (`tm_isdst` negative) from a known one: the port reads 255. -/
theorem C62_unknown_dst_violated (cfg : Cfg) (vm : VM) :
    readByte cfg 0xca vm ⟨fun _ => some { beforeMidnight with isdst := -1 }, 0⟩ = some 255 := by
  rw [readByte_eq]; rfl

/-- The hypotheses are met: two moments of the calendar with the same high bytes. -/
example (vm : VM) (cfg : Cfg) : readShort cfg 0xc0 vm midnight = some 2026 := by
  have := (C62_shorts_partial cfg vm midnight beforeMidnight afterMidnight rfl rfl calendar_before calendar_after).1 rfl
  simpa [beforeMidnight, afterMidnight] using this

end Buxn.Datetime
