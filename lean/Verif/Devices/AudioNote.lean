import Verif.Devices.AudioProps
/-!
# The life of a note (C16)
-/
namespace Buxn.Audio
open Buxn.VM

/-! ## Specification

A channel `c` just after a note was started. Frames are numbered from 1. -/

/-- Where in the (unrolled) sample frame `k` is. -/
def position (c : Chan) (k : Nat) : Nat := (c.count + k * c.advance) / c.period

/-- The note has ended at frame `k`: a one-shot sample is exhausted, or the release of the envelope is over. -/
def over (c : Chan) (k : Nat) : Prop :=
  1 ≤ k ∧ ((c.rep = false ∧ c.len ≤ position c k) ∨ (c.r ≠ 0 ∧ c.r < k))

instance (c : Chan) (k : Nat) : Decidable (over c k) := by unfold over; infer_instance

/-- The envelope `age` frames into the note: flat when all four times are zero; else it rises to `0x888` during
`[0, a)`, falls to `0x444` during `[a, d)`, stays there during `[d, s)`, falls to zero during `[s, r)`. -/
def level (c : Chan) (age : Nat) : Nat :=
  if c.r = 0 then 0x888
  else if age < c.a then 0x888 * age / c.a
  else if age < c.d then 0x444 * ((c.d - c.a) + (c.d - age)) / (c.d - c.a)
  else if age < c.s then 0x444
  else if age < c.r then 0x444 * (c.r - age) / (c.r - c.s)
  else 0

/-- The sample of frame `k`, before the volumes. -/
def value (c : Chan) (mem : Nat → Byte) (k : Nat) : Int :=
  if over c k then 0 else signed (mem (c.addr + position c k % c.len)) * (level c (k - 1) : Nat)

/-- The stream elements of a frame: left and right alternating, or the sum when there is one output channel. -/
def mix (channels : Nat) (s : Int) (v0 v1 : Nat) : List Int :=
  if channels < 2 then [s * v0 + s * v1]
  else (List.range channels).map fun j => if j % 2 = 0 then s * v0 else s * v1

/-- A silent frame. -/
def silence (channels : Nat) : List Int := mix channels 0 0 0

/-- What a call of render on a silent buffer of `n` frames leaves in it. -/
def padded (channels n : Nat) (fs : List (List Int)) : List (List Int) :=
  fs ++ List.replicate (n - fs.length) (silence channels)

/-- Render calls one after the other, each with what the memory holds at the time and a number of frames. -/
def calls (memSize ch : Nat) : List ((Nat → Byte) × Nat) → Chan → Res (List (State × List (List Int)))
  | [], _ => .ok []
  | (mem, n) :: rest, c => do
    let (st, c, fs) ← render mem memSize ch n c
    let out ← calls memSize ch rest c
    return (st, padded ch n fs) :: out

/-- What they should return when `t` frames have already been rendered. -/
def expected (c : Chan) (ch : Nat) : Nat → List ((Nat → Byte) × Nat) → List (State × List (List Int))
  | _, [] => []
  | t, (mem, n) :: rest =>
    (if over c t then .stopped else if over c (t + n) then .finished else .playing,
      (List.range n).map fun j => mix ch (value c mem (t + j + 1)) c.vol0 c.vol1) :: expected c ch (t + n) rest

/-- A note that has just started, on which no counter can wrap around. -/
structure Started (c : Chan) : Prop where
  advance : c.advance ≠ 0
  period : c.period ≠ 0
  len : c.len ≠ 0
  fits : c.addr + c.len ≤ 65536
  v0 : c.vol0 ≤ 15
  v1 : c.vol1 ≤ 15
  age : c.age = 0
  i : c.i = 0
  ad : c.a ≤ c.d
  ds : c.d ≤ c.s
  sr : c.s ≤ c.r
  r : c.r ≤ 1900000
  count32 : c.count + c.advance < 4294967296
  period32 : c.period + c.advance < 4294967296
  step16 : c.len + (max c.count c.period + c.advance) / c.period ≤ 65536

/-! ## Proof -/

theorem mul32_eq {x y : Nat} (h : x * y < 4294967296) : mul32 x y = x * y := Nat.mod_eq_of_lt h

theorem div_eq {x y : Nat} (hy : y ≠ 0) (h : x ≤ 2184 * y) (c : Chan) :
    (do let q ← divU x y; return (toI32 q, c) : Res (Int × Chan)) = .ok (((x / y : Nat) : Int), c) := by
  have hb : x / y ≤ 2184 := Nat.div_le_of_le_mul (by rw [Nat.mul_comm]; exact h)
  simp only [divU, if_neg hy, bind, Except.bind, pure, Except.pure]
  rw [toI32_small hb]

theorem envelope_level (c : Chan) (age : Nat) (ad : c.a ≤ c.d) (ds : c.d ≤ c.s) (sr : c.s ≤ c.r) (hr : c.r ≤ 1900000) :
    envelope c age = .ok ((level c age : Nat), if c.r ≠ 0 ∧ c.r ≤ age then { c with advance := 0 } else c) := by
  unfold envelope level
  by_cases h0 : c.r = 0
  · rw [if_pos h0, if_pos h0, if_neg (by omega)]; rfl
  rw [if_neg h0, if_neg h0]
  by_cases h1 : age < c.a
  · rw [if_pos h1, if_pos h1, if_neg (by omega), mul32_eq (by omega)]
    exact div_eq (by omega) (by omega) c
  rw [if_neg h1, if_neg h1]
  by_cases h2 : age < c.d
  · rw [if_pos h2, if_pos h2, if_neg (by omega), sub32_double (by omega) h2 (by omega), sub32_eq (by omega) (by omega),
      Nat.mod_eq_of_lt (by omega), mul32_eq (by omega)]
    exact div_eq (by omega) (by omega) c
  rw [if_neg h2, if_neg h2]
  by_cases h3 : age < c.s
  · rw [if_pos h3, if_pos h3, if_neg (by omega)]; rfl
  rw [if_neg h3, if_neg h3]
  by_cases h4 : age < c.r
  · rw [if_pos h4, if_pos h4, if_neg (by omega), sub32_eq (by omega) (by omega), sub32_eq (by omega) (by omega),
      mul32_eq (by omega)]
    exact div_eq (by omega) (by omega) c
  rw [if_neg h4, if_neg h4, if_pos (by omega)]; rfl

theorem level_le (c : Chan) (age : Nat) (ad : c.a ≤ c.d) (ds : c.d ≤ c.s) (sr : c.s ≤ c.r) (hr : c.r ≤ 1900000) :
    level c age ≤ 0x888 := by
  obtain ⟨e, c', h1, h2, h3, _⟩ := envelope_ok c age (by omega) (by omega)
  rw [envelope_level c age ad ds sr hr] at h1
  cases h1
  omega

theorem frame_mix (ch : Nat) (s : Int) (v0 v1 : Nat) (hs : -279552 ≤ s ∧ s ≤ 279552) (h0 : v0 ≤ 15) (h1 : v1 ≤ 15) :
    frame ch s v0 v1 = .ok (mix ch s v0 v1) := by
  have b0 := mul_bound (a := 279552) (b := 15) hs (y := (v0 : Int)) (by omega)
  have b1 := mul_bound (a := 279552) (b := 15) hs (y := (v1 : Int)) (by omega)
  unfold frame mix
  rw [i32_ok _ (by omega), i32_ok _ (by omega)]
  simp only [bind, Except.bind, pure, Except.pure]
  split <;> rfl

theorem mix_zero (ch v0 v1 : Nat) : mix ch 0 v0 v1 = silence ch := by
  unfold silence mix
  simp

/-- `x` is the channel `k` frames into the note, not over yet; `P` is the unrolled position. -/
structure Rel (c : Chan) (k P : Nat) (x : Chan) : Prop where
  shape : x = { c with count := x.count, i := P % c.len, age := x.age }
  pos : P * c.period + x.count = c.count + k * c.advance
  inside : c.rep = false → P < c.len
  age : c.r ≠ 0 → x.age = k
  count : x.count ≤ max c.count c.period

theorem position_mono (c : Chan) {j k : Nat} (h : j ≤ k) : position c j ≤ position c k := by
  unfold position
  apply Nat.div_le_div_right
  have := Nat.mul_le_mul_right c.advance h
  omega

theorem over_mono (c : Chan) {j k : Nat} (h : j ≤ k) (ho : over c j) : over c k := by
  obtain ⟨h1, h2⟩ := ho
  refine ⟨by omega, ?_⟩
  rcases h2 with h2 | h2
  · exact .inl ⟨h2.1, Nat.le_trans h2.2 (position_mono c h)⟩
  · exact .inr ⟨h2.1, by omega⟩

/-- Moving one frame on. -/
theorem move_rel {c : Chan} (hc : Started c) {k P : Nat} {x : Chan} (hx : Rel c k P x) :
    (c.rep = false ∧ c.len ≤ position c (k + 1) ∧ ∃ y, move x = .ok (true, y) ∧ y.advance = 0) ∨
    (∃ y, (c.rep = false → position c (k + 1) < c.len) ∧ move x = .ok (false, y) ∧
      y = { c with count := y.count, i := position c (k + 1) % c.len, age := x.age } ∧ y.count < c.period ∧
      position c (k + 1) * c.period + y.count = c.count + (k + 1) * c.advance) := by
  have hp := Nat.pos_of_ne_zero hc.period
  have hl := Nat.pos_of_ne_zero hc.len
  have e1 : x.advance = c.advance := by rw [hx.shape]
  have e2 : x.period = c.period := by rw [hx.shape]
  have e3 : x.len = c.len := by rw [hx.shape]
  have e4 : x.rep = c.rep := by rw [hx.shape]
  have e5 : x.i = P % c.len := by rw [hx.shape]
  have hcnt := hx.count
  have h32 : u32 (x.count + c.advance) = x.count + c.advance := by
    unfold u32
    apply Nat.mod_eq_of_lt
    have := hc.count32
    have := hc.period32
    omega
  have hq : (x.count + c.advance) / c.period ≤ (max c.count c.period + c.advance) / c.period :=
    Nat.div_le_div_right (by omega)
  have hmodlt : P % c.len < c.len := Nat.mod_lt _ hl
  have h16 : u16 (P % c.len + (x.count + c.advance) / c.period) = P % c.len + (x.count + c.advance) / c.period := by
    unfold u16
    apply Nat.mod_eq_of_lt
    have := hc.step16
    omega
  have hpos : position c (k + 1) = P + (x.count + c.advance) / c.period := by
    unfold position
    rw [Nat.add_mul, Nat.one_mul, ← Nat.add_assoc, ← hx.pos, Nat.add_assoc, Nat.add_comm, Nat.add_mul_div_right _ _ hp,
      Nat.add_comm]
  have hacc : position c (k + 1) * c.period + (x.count + c.advance) % c.period = c.count + (k + 1) * c.advance := by
    rw [hpos, Nat.add_mul, Nat.add_mul, Nat.one_mul, ← Nat.add_assoc, ← hx.pos]
    have := Nat.div_add_mod (x.count + c.advance) c.period
    rw [Nat.mul_comm c.period] at this
    omega
  have hcl : (x.count + c.advance) % c.period < c.period := Nat.mod_lt _ hp
  unfold move
  simp only [divU, modU, e1, e2, e3, e4, e5, h32, h16, if_neg hc.period, if_neg hc.len, bind, Except.bind, pure,
    Except.pure]
  by_cases hge : P % c.len + (x.count + c.advance) / c.period ≥ c.len
  · rw [if_pos hge]
    by_cases hrep : c.rep = false
    · left
      rw [if_pos hrep]
      refine ⟨hrep, ?_, _, rfl, rfl⟩
      have := hx.inside hrep
      rw [Nat.mod_eq_of_lt this] at hge
      omega
    · right
      rw [if_neg hrep]
      refine ⟨_, fun h => absurd h hrep, rfl, ?_, hcl, hacc⟩
      rw [hpos, Nat.add_mod P]
      conv_lhs => rw [hx.shape]
      simp only [Nat.add_mod, Nat.mod_mod]
  · right
    rw [if_neg hge]
    refine ⟨_, ?_, rfl, ?_, hcl, hacc⟩
    · intro hrep
      have := hx.inside hrep
      rw [Nat.mod_eq_of_lt this] at hge
      omega
    · have hidx : (P + (x.count + c.advance) / c.period) % c.len = P % c.len + (x.count + c.advance) / c.period := by
        rw [← Nat.mod_add_mod, Nat.mod_eq_of_lt (Nat.lt_of_not_le hge)]
      rw [hpos, hidx]
      conv_lhs => rw [hx.shape]

/-- Emitting frame `k + 1`. -/
theorem emit_rel {c : Chan} (hc : Started c) (mem : Nat → Byte) (memSize ch : Nat) (hm : 65536 ≤ memSize) {k : Nat}
    {y : Chan} (hage : c.r ≠ 0 → y.age = k)
    (hy : y = { c with count := y.count, i := position c (k + 1) % c.len, age := y.age })  :
    emit mem memSize ch y = .ok (mix ch (signed (mem (c.addr + position c (k + 1) % c.len)) * (level c k : Nat)) c.vol0 c.vol1,
      if c.r ≠ 0 ∧ c.r ≤ k then { y with age := u32 (y.age + 1), advance := 0 } else { y with age := u32 (y.age + 1) }) := by
  have hl := Nat.pos_of_ne_zero hc.len
  have e1 : y.addr = c.addr := by rw [hy]
  have e2 : y.i = position c (k + 1) % c.len := by rw [hy]
  have ea : y.a = c.a := by rw [hy]
  have ed : y.d = c.d := by rw [hy]
  have es : y.s = c.s := by rw [hy]
  have er : y.r = c.r := by rw [hy]
  have ev0 : y.vol0 = c.vol0 := by rw [hy]
  have ev1 : y.vol1 = c.vol1 := by rw [hy]
  have hlt : position c (k + 1) % c.len < c.len := Nat.mod_lt _ hl
  unfold emit
  rw [if_pos (by have := hc.fits; omega),
    envelope_level _ _ (by dsimp only; rw [ea, ed]; exact hc.ad) (by dsimp only; rw [ed, es]; exact hc.ds)
      (by dsimp only; rw [es, er]; exact hc.sr) (by dsimp only; rw [er]; exact hc.r)]
  have hlev : level { y with age := u32 (y.age + 1) } y.age = level c k := by
    unfold level
    dsimp only
    rw [ea, ed, es, er]
    by_cases h0 : c.r = 0
    · rw [if_pos h0, if_pos h0]
    · rw [hage h0]
  have hcond : ((y.r ≠ 0 ∧ y.r ≤ y.age) ↔ (c.r ≠ 0 ∧ c.r ≤ k)) := by
    rw [er]
    constructor
    · rintro ⟨h1, h2⟩; rw [hage h1] at h2; exact ⟨h1, h2⟩
    · rintro ⟨h1, h2⟩; rw [hage h1]; exact ⟨h1, h2⟩
  have hmem : mem (y.addr + y.i) = mem (c.addr + position c (k + 1) % c.len) := by rw [e1, e2]
  simp only [bind, Except.bind, pure, Except.pure, hlev, hmem]
  have hle := level_le c k hc.ad hc.ds hc.sr hc.r
  have hsb := signed_bound (mem (c.addr + position c (k + 1) % c.len))
  have hb := mul_bound (a := 128) (b := 2184) (x := signed (mem (c.addr + position c (k + 1) % c.len)))
    (y := (level c k : Nat)) (by omega) (by omega)
  rw [i32_ok _ (by omega)]
  dsimp only
  have hv : ∀ z : Chan, z = (if y.r ≠ 0 ∧ y.r ≤ y.age then { y with age := u32 (y.age + 1), advance := 0 }
      else { y with age := u32 (y.age + 1) }) → z.vol0 = c.vol0 ∧ z.vol1 = c.vol1 := by
    intro z hz
    subst hz
    split <;> exact ⟨ev0, ev1⟩
  obtain ⟨hv0, hv1⟩ := hv _ rfl
  rw [hv0, hv1, frame_mix _ _ _ _ (by omega) hc.v0 hc.v1]
  dsimp only
  rw [ite_iff hcond]

/-- A channel that has been released: it stands still and emits silence. -/
structure Dead (x : Chan) : Prop where
  advance : x.advance = 0
  count : x.count < x.period
  p32 : x.period < 4294967296
  i : x.i < x.len
  fits : x.addr + x.len ≤ 65536
  ad : x.a ≤ x.d
  ds : x.d ≤ x.s
  sr : x.s ≤ x.r
  r : x.r ≤ 1900000
  r0 : x.r ≠ 0
  age : x.r ≤ x.age
  v0 : x.vol0 ≤ 15
  v1 : x.vol1 ≤ 15

theorem dead_loop (mem : Nat → Byte) (memSize ch : Nat) (hm : 65536 ≤ memSize) (n : Nat) (x : Chan) (hx : Dead x)
    (hn : x.age + n < 4294967296) :
    ∃ x', renderLoop mem memSize ch n x = .ok (x', List.replicate n (silence ch)) ∧ x'.advance = 0 := by
  induction n generalizing x with
  | zero => exact ⟨x, rfl, hx.advance⟩
  | succ n ih =>
    have hp : x.period ≠ 0 := by have := hx.count; omega
    have h32 : u32 x.count = x.count := Nat.mod_eq_of_lt (by have := hx.count; have := hx.p32; omega)
    have h16 : u16 x.i = x.i := Nat.mod_eq_of_lt (by have := hx.i; have := hx.fits; omega)
    have hself : ({ x with advance := 0 } : Chan) = x := by
      have := hx.advance
      cases x
      dsimp only at this
      subst this
      rfl
    have hmv : move x = .ok (false, x) := by
      unfold move
      simp only [divU, modU, hx.advance, Nat.add_zero, h32, if_neg hp, Nat.div_eq_of_lt hx.count, h16,
        Nat.mod_eq_of_lt hx.count, bind, Except.bind, pure, Except.pure]
      rw [if_neg (Nat.not_le.mpr hx.i)]
      conv_rhs => rw [← hself]
    have hage : u32 (x.age + 1) = x.age + 1 := Nat.mod_eq_of_lt (by omega)
    have hlev : level { x with age := x.age + 1 } x.age = 0 := by
      unfold level
      have := hx.ad; have := hx.ds; have := hx.sr; have := hx.age; have := hx.r0
      dsimp only
      rw [if_neg (by omega), if_neg (by omega), if_neg (by omega), if_neg (by omega), if_neg (by omega)]
    have hem : emit mem memSize ch x = .ok (silence ch, { x with age := x.age + 1 }) := by
      unfold emit
      rw [if_pos (by have := hx.i; have := hx.fits; omega), hage,
        envelope_level { x with age := x.age + 1 } x.age hx.ad hx.ds hx.sr hx.r, hlev,
        if_pos ⟨hx.r0, hx.age⟩]
      simp only [bind, Except.bind, pure, Except.pure, Int.ofNat_zero, Int.natCast_zero, Int.mul_zero]
      rw [i32_ok 0 (by decide)]
      dsimp only
      rw [frame_mix _ _ _ _ (by decide) hx.v0 hx.v1, mix_zero]
      dsimp only
      conv_rhs => rw [← hself]
    obtain ⟨x', h1, h2⟩ := ih { x with age := x.age + 1 } { hx with age := Nat.le_succ_of_le hx.age } (by dsimp only; omega)
    refine ⟨x', ?_, h2⟩
    simp only [renderLoop, hmv, bind, Except.bind, pure, Except.pure]
    rw [if_neg (by decide)]
    simp only [hem, h1, List.replicate_succ]

theorem value_over {c : Chan} {mem : Nat → Byte} {k : Nat} (h : over c k) : value c mem k = 0 := by
  unfold value; rw [if_pos h]

theorem map_silent {c : Chan} {mem : Nat → Byte} {k n ch : Nat} (h : over c (k + 1)) :
    ((List.range n).map fun j => mix ch (value c mem (k + j + 1)) c.vol0 c.vol1) = List.replicate n (silence ch) := by
  rw [List.eq_replicate_iff]
  refine ⟨by simp, ?_⟩
  intro b hb
  rw [List.mem_map] at hb
  obtain ⟨j, _, rfl⟩ := hb
  rw [value_over (over_mono c (by omega) h), mix_zero]

theorem map_succ {c : Chan} {mem : Nat → Byte} {k n ch : Nat} :
    ((List.range (n + 1)).map fun j => mix ch (value c mem (k + j + 1)) c.vol0 c.vol1) =
      mix ch (value c mem (k + 1)) c.vol0 c.vol1 ::
        (List.range n).map fun j => mix ch (value c mem (k + 1 + j + 1)) c.vol0 c.vol1 := by
  rw [List.range_succ_eq_map, List.map_cons, List.map_map]
  congr 1
  apply List.map_congr_left
  intro j _
  simp only [Function.comp_apply, Nat.succ_eq_add_one]
  rw [show k + (j + 1) + 1 = k + 1 + j + 1 by omega]

theorem loop_rel {c : Chan} (hc : Started c) (mem : Nat → Byte) (memSize ch : Nat) (hm : 65536 ≤ memSize) (n : Nat)
    (hn : n < 2147483648) (k P : Nat) (x : Chan) (hx : Rel c k P x) (hk : ¬ over c k) :
    ∃ x' fs, renderLoop mem memSize ch n x = .ok (x', fs) ∧
      padded ch n fs = ((List.range n).map fun j => mix ch (value c mem (k + j + 1)) c.vol0 c.vol1) ∧
      ((over c (k + n) ∧ x'.advance = 0) ∨ (¬ over c (k + n) ∧ ∃ P', Rel c (k + n) P' x')) := by
  induction n generalizing k P x with
  | zero => exact ⟨x, [], rfl, rfl, .inr ⟨hk, P, hx⟩⟩
  | succ n ih =>
    simp only [renderLoop, bind, Except.bind, pure, Except.pure]
    rcases move_rel hc hx with ⟨hrep, hge, y, hmv, hy⟩ | ⟨y, hin, hmv, hy, hycount, hyacc⟩
    · have ho : over c (k + 1) := ⟨by omega, .inl ⟨hrep, hge⟩⟩
      rw [hmv]
      dsimp only
      rw [if_pos rfl]
      refine ⟨_, _, rfl, ?_, .inl ⟨over_mono c (by omega) ho, hy⟩⟩
      rw [map_silent ho]
      rfl
    · have hyage : y.age = x.age := by rw [hy]
      rw [hmv]
      dsimp only
      rw [if_neg (by decide), emit_rel hc mem memSize ch hm (k := k)
        (fun h => by rw [hyage]; exact hx.age h) (by rw [hyage]; exact hy)]
      dsimp only
      by_cases hr : c.r ≠ 0 ∧ c.r ≤ k
      · -- the release ends here
        have ho : over c (k + 1) := ⟨by omega, .inr ⟨hr.1, by omega⟩⟩
        have hage : x.age = k := hx.age hr.1
        have hkr : k = c.r := by
          by_contra hne
          apply hk
          exact ⟨by omega, .inr ⟨hr.1, by omega⟩⟩
        have hrb := hc.r
        have hu : u32 (y.age + 1) = k + 1 := by rw [hyage, hage]; exact Nat.mod_eq_of_lt (by omega)
        rw [if_pos hr, hu]
        have hlen : y.len = c.len := by rw [hy]
        have hper : y.period = c.period := by rw [hy]
        have hi : y.i = position c (k + 1) % c.len := by rw [hy]
        have hdead : Dead { y with age := k + 1, advance := 0 } := by
          have ea : y.a = c.a := by rw [hy]
          have ed : y.d = c.d := by rw [hy]
          have es : y.s = c.s := by rw [hy]
          have er : y.r = c.r := by rw [hy]
          have ev0 : y.vol0 = c.vol0 := by rw [hy]
          have ev1 : y.vol1 = c.vol1 := by rw [hy]
          have eaddr : y.addr = c.addr := by rw [hy]
          constructor
          all_goals dsimp only
          · rw [hper]; exact hycount
          · rw [hper]; have := hc.period32; omega
          · rw [hi, hlen]; exact Nat.mod_lt _ (Nat.pos_of_ne_zero hc.len)
          · rw [eaddr, hlen]; exact hc.fits
          · rw [ea, ed]; exact hc.ad
          · rw [ed, es]; exact hc.ds
          · rw [es, er]; exact hc.sr
          · rw [er]; exact hc.r
          · rw [er]; exact hr.1
          · rw [er]; omega
          · rw [ev0]; exact hc.v0
          · rw [ev1]; exact hc.v1
        obtain ⟨x', h1, h2⟩ := dead_loop mem memSize ch hm n _ hdead (by dsimp only; omega)
        rw [h1]
        refine ⟨_, _, rfl, ?_, .inl ⟨over_mono c (by omega) ho, h2⟩⟩
        rw [map_silent ho]
        have hlev : level c k = 0 := by
          unfold level
          have := hc.ad; have := hc.ds; have := hc.sr
          rw [if_neg hr.1, if_neg (by omega), if_neg (by omega), if_neg (by omega), if_neg (by omega)]
        rw [hlev]
        simp only [Int.natCast_zero, Int.mul_zero, Int.ofNat_zero]
        rw [mix_zero]
        unfold padded
        rw [← List.replicate_succ, List.length_replicate, Nat.sub_self, List.replicate_zero, List.append_nil]
      · rw [if_neg hr]
        have ho : ¬ over c (k + 1) := by
          rintro ⟨_, h | h⟩
          · exact absurd (hin h.1) (by omega)
          · exact hr ⟨h.1, by omega⟩
        have hx' : Rel c (k + 1) (position c (k + 1)) { y with age := u32 (y.age + 1) } := by
          refine ⟨?_, ?_, hin, ?_, ?_⟩
          · dsimp only
            rw [hyage]
            conv_lhs => rw [hy]
          · exact hyacc
          · intro h
            dsimp only
            rw [hyage, hx.age h]
            refine Nat.mod_eq_of_lt ?_
            have := hc.r
            have : k < c.r := by
              by_contra hge
              exact hr ⟨h, by omega⟩
            omega
          · exact Nat.le_trans (Nat.le_of_lt hycount) (Nat.le_max_right _ _)
        obtain ⟨x', fs, h1, h2, h3⟩ := ih (by omega) (k + 1) _ _ hx' ho
        rw [h1]
        refine ⟨_, _, rfl, ?_, ?_⟩
        · rw [map_succ, ← h2]
          unfold padded value
          rw [if_neg ho, List.length_cons, Nat.add_sub_add_right, Nat.add_sub_cancel]
          rfl
        · rw [show k + (n + 1) = k + 1 + n by omega]
          exact h3

theorem calls_rel {c : Chan} (hc : Started c) (memSize ch : Nat) (hm : 65536 ≤ memSize)
    (bufs : List ((Nat → Byte) × Nat)) (hn : ∀ b ∈ bufs, b.2 < 2147483648) (k : Nat) (x : Chan)
    (hx : (over c k ∧ x.advance = 0) ∨ (¬ over c k ∧ ∃ P, Rel c k P x)) :
    calls memSize ch bufs x = .ok (expected c ch k bufs) := by
  induction bufs generalizing k x with
  | nil => rfl
  | cons b rest ih =>
    obtain ⟨mem, n⟩ := b
    have hn0 := hn (mem, n) (List.mem_cons_self ..)
    have ih := ih (fun b hb => hn b (List.mem_cons_of_mem _ hb)) (k + n)
    simp only [calls, expected]
    rcases hx with ⟨ho, ha⟩ | ⟨ho, P, hx⟩
    · unfold render
      rw [if_pos (.inl ha), if_pos ho]
      simp only [bind, Except.bind, pure, Except.pure]
      rw [ih x (.inl ⟨over_mono c (by omega) ho, ha⟩)]
      dsimp only
      rw [show (padded ch n [] = List.replicate n (silence ch)) from rfl, ← map_silent (mem := mem) (over_mono c (Nat.le_succ k) ho)]
    · obtain ⟨x', fs, h1, h2, h3⟩ := loop_rel hc mem memSize ch hm n hn0 k P x hx ho
      have ha : x.advance = c.advance := by rw [hx.shape]
      have hp : x.period = c.period := by rw [hx.shape]
      unfold render
      rw [if_neg (by rw [ha, hp]; exact fun h => h.elim hc.advance hc.period), if_neg ho]
      simp only [bind, Except.bind, pure, Except.pure, h1]
      rcases h3 with ⟨h3, h4⟩ | ⟨h3, P', h4⟩
      · rw [if_pos h4, if_pos h3, ih x' (.inl ⟨h3, h4⟩)]
        dsimp only
        rw [h2]
      · have ha' : x'.advance = c.advance := by rw [h4.shape]
        rw [if_neg (by rw [ha']; exact hc.advance), if_neg h3, ih x' (.inr ⟨h3, P', h4⟩)]
        dsimp only
        rw [h2]

theorem rel_start {c : Chan} (hc : Started c) : Rel c 0 0 c := by
  refine ⟨?_, by omega, fun _ => Nat.pos_of_ne_zero hc.len, fun _ => hc.age, Nat.le_max_left _ _⟩
  rw [Nat.zero_mod, ← hc.i]

/-- **C16.** From the start of a note, whatever the sizes of the buffers: every frame before the end of the note holds
the sample at its position times the envelope times the volumes, every frame after it is silent; a call returns
*finished* exactly if the note ends during it, *playing* before, *stopped* after. -/
theorem C16_note (c : Chan) (hc : Started c) (memSize ch : Nat) (hm : 65536 ≤ memSize)
    (bufs : List ((Nat → Byte) × Nat)) (hn : ∀ b ∈ bufs, b.2 < 2147483648) :
    calls memSize ch bufs c = .ok (expected c ch 0 bufs) :=
  calls_rel hc memSize ch hm bufs hn 0 c (.inr ⟨fun h => absurd h.1 (by decide), 0, rel_start hc⟩)

/-- The number of frames of a list of buffers. -/
def frames (bufs : List ((Nat → Byte) × Nat)) : Nat := (bufs.map (·.2)).sum

theorem expected_stopped (c : Chan) (ch t : Nat) (bufs : List ((Nat → Byte) × Nat)) (h : over c t) :
    ((expected c ch t bufs).map (·.1)).count State.finished = 0 := by
  induction bufs generalizing t with
  | nil => rfl
  | cons b rest ih =>
    simp only [expected, List.map_cons, if_pos h]
    rw [List.count_cons_of_ne (by decide)]
    exact ih (t + b.2) (over_mono c (by omega) h)

theorem expected_count (c : Chan) (ch t : Nat) (bufs : List ((Nat → Byte) × Nat)) (h : ¬ over c t) :
    ((expected c ch t bufs).map (·.1)).count State.finished = if over c (t + frames bufs) then 1 else 0 := by
  induction bufs generalizing t with
  | nil => simp [expected, frames, h]
  | cons b rest ih =>
    simp only [expected, List.map_cons, if_neg h]
    have hf : t + frames (b :: rest) = t + b.2 + frames rest := by simp [frames, Nat.add_assoc]
    rw [hf]
    by_cases h2 : over c (t + b.2)
    · rw [if_pos h2, List.count_cons_self, expected_stopped c ch _ rest h2, if_pos (over_mono c (by omega) h2)]
    · rw [if_neg h2, List.count_cons_of_ne (by decide)]
      exact ih _ h2

/-- The note is reported finished exactly once, in whatever way the rendering is cut into buffers, as soon as enough
frames have been asked for. -/
theorem C16_finished_once (c : Chan) (hc : Started c) (memSize ch : Nat) (hm : 65536 ≤ memSize)
    (bufs : List ((Nat → Byte) × Nat)) (hn : ∀ b ∈ bufs, b.2 < 2147483648) :
    ∃ out, calls memSize ch bufs c = .ok out ∧
      (out.map (·.1)).count State.finished = if over c (frames bufs) then 1 else 0 := by
  refine ⟨_, C16_note c hc memSize ch hm bufs hn, ?_⟩
  rw [expected_count c ch 0 bufs (fun h => absurd h.1 (by decide)), Nat.zero_add]

/-- A one-shot note ends. -/
theorem C16_ends (c : Chan) (hc : Started c) (h : c.rep = false) : over c (c.len * c.period) := by
  have hp := Nat.pos_of_ne_zero hc.period
  refine ⟨Nat.mul_pos (Nat.pos_of_ne_zero hc.len) hp, .inl ⟨h, ?_⟩⟩
  unfold position
  rw [Nat.le_div_iff_mul_le hp]
  have : c.len * c.period * 1 ≤ c.len * c.period * c.advance :=
    Nat.mul_le_mul_left _ (Nat.pos_of_ne_zero hc.advance)
  omega

/-- A looping note without envelope never ends. -/
theorem C16_loops (c : Chan) (h : c.rep = true) (hr : c.r = 0) (k : Nat) : ¬ over c k := by
  rintro ⟨_, h' | h'⟩
  · rw [h] at h'; exact absurd h'.1 (by decide)
  · exact h'.1 hr

/-- A stopped channel returns *stopped*, writes nothing and does not change. -/
theorem C16_stopped_silent (mem : Nat → Byte) (memSize ch n : Nat) (c : Chan) (h : c.advance = 0) :
    render mem memSize ch n c = .ok (.stopped, c, []) := by
  unfold render; rw [if_pos (.inl h)]

/-! ### Which notes qualify

Every note of the device does, at the sample rates of sound cards, unless its sample is almost 64K long. -/

/-- The largest period at sample rate `f`: that of a one-byte sample. -/
def maxPeriod (f : Nat) : Nat := u32 (notePeriod f * 337) / 2

theorem u32_small {x : Nat} (h : x < 4294967296) : u32 x = x := Nat.mod_eq_of_lt h

theorem adv_bound (n adv : Nat) (h : ADVANCES[n]? = some adv) : 0x80000 ≤ adv ∧ adv ≤ 989724 := by
  have : adv ∈ ADVANCES := List.mem_of_getElem? h
  revert adv
  intro adv _ hm
  have key : ∀ x ∈ ADVANCES, 0x80000 ≤ x ∧ x ≤ 989724 := by decide
  exact key adv hm

/-- The invariant about the phase counter. -/
structure Phase (f : Nat) (c : Chan) : Prop where
  freq : c.freq = f
  count : c.count ≤ maxPeriod f
  period : c.period ≤ maxPeriod f

theorem notePeriod_bound (f : Nat) (h2 : f ≤ 192000) : (8000 ≤ f → 11888 ≤ notePeriod f) ∧ notePeriod f ≤ 285332 := by
  unfold notePeriod
  rw [u32_small (by omega)]
  omega

theorem receive_phase (f : Nat) (h2 : f ≤ 192000) (m : Message) (c c' : Chan) (h : receive m c = .ok c')
    (hp : Phase f c) : Phase f c' := by
  unfold receive at h
  simp only [bind, Except.bind, pure, Except.pure, divU] at h
  have hf := hp.freq
  by_cases h3 : m.pitch < 108 ∧ m.len ≠ 0
  · rw [if_pos h3] at h
    obtain ⟨adv, hadv⟩ := advances_get m.pitch
    rw [hadv] at h
    dsimp only at h
    by_cases h4 : m.len ≤ 256
    · rw [if_pos h4, if_neg h3.2] at h
      cases h
      refine ⟨hp.freq, hp.count, ?_⟩
      dsimp only
      rw [hf]
      exact Nat.div_le_self _ _
    · rw [if_neg h4] at h
      cases h
      refine ⟨hp.freq, hp.count, ?_⟩
      dsimp only
      rw [hf]
      unfold maxPeriod
      have := (notePeriod_bound f h2).2
      generalize notePeriod f = x at this ⊢
      rw [u32_small (by omega)]
      omega
  · rw [if_neg h3] at h
    cases h
    exact ⟨hp.freq, hp.count, hp.period⟩

theorem event_phase (f : Nat) (h2 : f ≤ 192000) (memSize : Nat) (hm : 65536 ≤ memSize) (e : Event) (c c' : Chan)
    (fs : List (List Int)) (h : event memSize e c = .ok (c', fs)) (hi : Inv c) (hp : Phase f c) : Phase f c' := by
  cases e with
  | note ports =>
    cases hd : deo ports 15 with
    | none =>
      simp only [event, hd, pure, Except.pure] at h
      cases h
      exact hp
    | some m =>
      have hf := deo_fits ports m hd
      obtain ⟨c1, h1, _⟩ := receive_ok m c ⟨hf.1, hf.2.1, hf.2.2.1⟩ hi
      simp only [event, hd, h1, bind, Except.bind, pure, Except.pure] at h
      cases h
      exact receive_phase f h2 m c _ h1 hp
  | render mem ch n =>
    obtain ⟨st, c1, fs1, h1, _, h3, h4, _⟩ := render_ok mem memSize ch n hm c hi
    simp only [event, h1, bind, Except.bind, pure, Except.pure] at h
    cases h
    refine ⟨h3.freq.trans hp.freq, ?_, h3.period ▸ hp.period⟩
    rcases h4 with h4 | h4
    · rw [h4]; exact hp.count
    · have := hp.period; omega
  | read ports port =>
    obtain ⟨v, p, c1, h1, hc⟩ := dei_ok ports port c hi
    simp only [event, h1, bind, Except.bind, pure, Except.pure] at h
    cases h
    rcases hc with rfl | rfl
    · exact hp
    · exact ⟨hp.freq, hp.count, hp.period⟩

theorem history_phase (f : Nat) (h2 : f ≤ 192000) (memSize : Nat) (hm : 65536 ≤ memSize) (es : List Event) (c c' : Chan)
    (fs : List (List Int)) (h : history memSize es c = .ok (c', fs)) (hi : Inv c) (hp : Phase f c) :
    Phase f c' ∧ Inv c' := by
  induction es generalizing c c' fs with
  | nil => cases h; exact ⟨hp, hi⟩
  | cons e es ih =>
    obtain ⟨c1, fs1, h1, h2', _⟩ := event_ok memSize hm e c hi
    obtain ⟨c2, fs2, h3, h4, _⟩ := history_ok memSize hm es c1 h2'
    simp only [history, h1, h3, bind, Except.bind, pure, Except.pure] at h
    cases h
    exact ih c1 _ fs2 h3 h2' (event_phase f h2 memSize hm e c c1 fs1 h1 hi hp)

theorem maxPeriod_eq (f : Nat) (h2 : f ≤ 192000) : maxPeriod f = notePeriod f * 337 / 2 := by
  unfold maxPeriod
  have := (notePeriod_bound f h2).2
  rw [u32_small]
  omega

/-- A note with a pitch below 108 and a sample of 1 to 65000 bytes, after any history of a channel whose sample rate is
between 8000 and 192000, meets the hypotheses of the theorems above. -/
theorem C16_notes_qualify (f memSize : Nat) (h1 : 8000 ≤ f) (h2 : f ≤ 192000) (hm : 65536 ≤ memSize) (es : List Event)
    (c c' : Chan) (fs : List (List Int)) (h : history memSize es (fresh f) = .ok (c, fs)) (ports : Fin 16 → Byte)
    (m : Message) (hd : deo ports 15 = some m) (hpitch : m.pitch < 108) (hl0 : m.len ≠ 0) (hl1 : m.len ≤ 65000)
    (hr : receive m c = .ok c') : Started c' ∧ c'.len = m.len ∧ c'.rep = m.rep ∧ c'.addr = m.addr := by
  obtain ⟨hp, hi⟩ := history_phase f h2 memSize hm es (fresh f) c fs h (fresh_inv f)
    ⟨rfl, Nat.zero_le _, Nat.zero_le _⟩
  have hfit := deo_fits ports m hd
  have hf := hp.freq
  have hcount := hp.count
  rw [maxPeriod_eq f h2] at hcount
  unfold receive at hr
  simp only [bind, Except.bind, pure, Except.pure, divU] at hr
  rw [if_pos ⟨hpitch, hl0⟩] at hr
  obtain ⟨adv, hadv⟩ := advances_get m.pitch
  have hadvb := adv_bound _ _ hadv
  rw [hadv] at hr
  dsimp only at hr
  have hsh : adv >>> (8 - m.pitch / 12) ≤ 989724 := by
    rw [Nat.shiftRight_eq_div_pow]
    exact Nat.le_trans (Nat.div_le_self _ _) hadvb.2
  have hsh0 : adv >>> (8 - m.pitch / 12) ≠ 0 := by
    rw [Nat.shiftRight_eq_div_pow]
    have h8 : 2 ^ (8 - m.pitch / 12) ≤ 2 ^ 8 := Nat.pow_le_pow_right (by decide) (by omega)
    have h256 : (2:Nat) ^ 8 = 256 := by decide
    have : 0 < adv / 2 ^ (8 - m.pitch / 12) := Nat.div_pos (by omega) (Nat.pow_pos (by decide))
    omega
  generalize adv >>> (8 - m.pitch / 12) = advance at hsh hsh0 hr
  have hstep : c.freq / 15 ≤ 12800 := by omega
  have hadsr : m.adsr / 4096 ≤ 15 := by omega
  have hw : ∀ n, n ≤ 15 → u32 (c.freq / 15 * n) = c.freq / 15 * n ∧ c.freq / 15 * n ≤ 192000 := by
    intro n hn
    have : c.freq / 15 * n ≤ 12800 * 15 := Nat.mul_le_mul hstep hn
    exact ⟨u32_small (by omega), by omega⟩
  obtain ⟨wa, ba⟩ := hw _ hadsr
  obtain ⟨wd, bd⟩ := hw (m.adsr / 256 % 16) (by omega)
  obtain ⟨ws, bs⟩ := hw (m.adsr / 16 % 16) (by omega)
  obtain ⟨wr, br⟩ := hw (m.adsr % 16) (by omega)
  rw [wa, wd, ws, wr] at hr
  generalize c.freq / 15 * (m.adsr / 4096) = va at ba hr
  generalize c.freq / 15 * (m.adsr / 256 % 16) = vd at bd hr
  generalize c.freq / 15 * (m.adsr / 16 % 16) = vs at bs hr
  generalize c.freq / 15 * (m.adsr % 16) = vr at br hr
  rw [u32_small (show vd + va < 4294967296 by omega), u32_small (show vs + (vd + va) < 4294967296 by omega),
    u32_small (show vr + (vs + (vd + va)) < 4294967296 by omega)] at hr
  rw [hf] at hr
  have hn1 := (notePeriod_bound f h2).1 h1
  have hn2 := (notePeriod_bound f h2).2
  generalize notePeriod f = np at hn1 hn2 hr hcount
  have hbound : ∀ period, np * 337 / 2 / 256 ≤ period → period ≤ np * 337 / 2 →
      period ≠ 0 ∧ c.count + advance < 4294967296 ∧ period + advance < 4294967296 ∧
        m.len + (max c.count period + advance) / period ≤ 65536 := by
    intro period hp1 hp2
    refine ⟨by omega, by omega, by omega, ?_⟩
    have : (max c.count period + advance) / period ≤ 400 := by
      apply Nat.div_le_of_le_mul
      omega
    omega
  by_cases h4 : m.len ≤ 256
  · rw [if_pos h4, if_neg hl0, u32_small (show np * 337 < 4294967296 by omega)] at hr
    cases hr
    have hb := hbound (np * 337 / 2 / m.len) (Nat.div_le_div_left h4 (Nat.pos_of_ne_zero hl0)) (Nat.div_le_self _ _)
    refine ⟨?_, rfl, rfl, rfl⟩
    refine ⟨hsh0, hb.1, hl0, hfit.1, hfit.2.1, hfit.2.2.1, rfl, rfl, ?_, ?_, ?_, ?_, hb.2.1, hb.2.2.1, hb.2.2.2⟩
    all_goals dsimp only
    all_goals omega
  · rw [if_neg h4] at hr
    cases hr
    have hb := hbound np (by omega) (by omega)
    refine ⟨?_, rfl, rfl, rfl⟩
    refine ⟨hsh0, hb.1, hl0, hfit.1, hfit.2.1, hfit.2.2.1, rfl, rfl, ?_, ?_, ?_, ?_, hb.2.1, hb.2.2.1, hb.2.2.2⟩
    all_goals dsimp only
    all_goals omega

/-! ### Concrete cases and counterexamples -/

/-- Ports of a note: address, length, envelope, volume byte, pitch byte. -/
def ports (addr len adsr : Nat) (vol pitch : Byte) : Fin 16 → Byte := fun p =>
  if p = 8 then BitVec.ofNat 8 (adsr / 256) else if p = 9 then BitVec.ofNat 8 adsr
  else if p = 10 then BitVec.ofNat 8 (len / 256) else if p = 11 then BitVec.ofNat 8 len
  else if p = 12 then BitVec.ofNat 8 (addr / 256) else if p = 13 then BitVec.ofNat 8 addr
  else if p = 14 then vol else if p = 15 then pitch else 0

/-- A one-shot note with an envelope that meets the hypotheses, after another note has played. -/
example : ∃ es c m c' fs, history 65536 es (fresh 44100) = .ok (c, fs) ∧ fs.length = 3 ∧
    deo (ports 0x1234 1000 0x1234 0xff 0xbc) 15 = some m ∧ receive m c = .ok c' ∧ Started c' ∧ c'.rep = false ∧
    c'.len = 1000 ∧ c'.addr = 0x1234 := by
  have hd : deo (ports 0x1234 1000 0x1234 0xff 0xbc) 15 =
      some { addr := 0x1234, adsr := 0x1234, len := 1000, pitch := 60, rep := false, vol0 := 15, vol1 := 15 } := by
    decide +kernel
  have hh : (history 65536 [.note (ports 0 1 0 0xff 0x6b), .render (fun _ => 7) 2 3] (fresh 44100)).map
      (fun r => r.2.length) = .ok 3 := by decide +kernel
  cases h : history 65536 [.note (ports 0 1 0 0xff 0x6b), .render (fun _ => 7) 2 3] (fresh 44100) with
  | error e => rw [h] at hh; cases hh
  | ok r =>
    obtain ⟨c, fs⟩ := r
    rw [h] at hh
    have hi := (history_phase 44100 (by decide) 65536 (by decide) _ _ _ _ h (fresh_inv _) ⟨rfl, Nat.zero_le _, Nat.zero_le _⟩).2
    have hf := deo_fits _ _ hd
    obtain ⟨c', h1, _⟩ := receive_ok _ c ⟨hf.1, hf.2.1, hf.2.2.1⟩ hi
    have hq := C16_notes_qualify 44100 65536 (by decide) (by decide) (by decide) _ c c' fs h _ _ hd (by decide)
      (by decide) (by decide) h1
    exact ⟨_, c, _, c', fs, h, by simpa [Except.map] using hh, hd, h1, hq.1, hq.2.2.1, hq.2.1, hq.2.2.2⟩

/-- The bound on the length is needed: a one-shot note with a sample of 65535 bytes, played at a high pitch, jumps over
the end of its sample (the 16-bit index wraps around) and keeps on playing. Here the position is past the end at
frame 788, and at frame 800 the channel is still playing. -/
theorem C16_long_sample_violated :
    ∃ c, (history 65536 [.note (ports 0 65535 0 0xff 0xeb)] (fresh 8000)).map (·.1) = .ok c ∧
      c.rep = false ∧ over c 788 ∧
      (render (fun _ => 0) 65536 2 800 c).map (·.1) = .ok .playing := by
  refine ⟨_, rfl, ?_, ?_, ?_⟩ <;> decide +kernel

/-- Reading the VU port can swallow the end of a note: if the release is over by the time of the read, the read stops
the channel and no render ever reports that the note has finished. -/
theorem C16_vu_read_violated :
    ∃ c, (history 65536 [.note (ports 0 1000 1 0xff 0x3c)] (fresh 8000)).map (·.1) = .ok c ∧
      (do let (st, c, _) ← render (fun _ => 0) 65536 2 533 c
          let (_, _, c) ← dei (fun _ => 0) 4 c
          let (st', c, _) ← render (fun _ => 0) 65536 2 100 c
          let (st'', _, _) ← render (fun _ => 0) 65536 2 100 c
          return [st, st', st'']) = Except.ok [State.playing, .stopped, .stopped] ∧
      (do let (st, c, _) ← render (fun _ => 0) 65536 2 533 c
          let (st', c, _) ← render (fun _ => 0) 65536 2 100 c
          let (st'', _, _) ← render (fun _ => 0) 65536 2 100 c
          return [st, st', st'']) = Except.ok [State.playing, .finished, .stopped] := by
  refine ⟨_, rfl, ?_, ?_⟩ <;> decide +kernel

/-- A new note does not reset the phase of the previous one: a one-shot note of 256 bytes that follows a one-byte
sample can end at its first frame, with nothing heard. -/
theorem C16_stale_phase_violated :
    ∃ c, (history 65536 [.note (ports 0 1 0 0xff 0x6b), .render (fun _ => 7) 2 11, .note (ports 0 256 0 0xff 0xeb)]
        (fresh 44100)).map (·.1) = .ok c ∧ c.len = 256 ∧
      (render (fun _ => 7) 65536 2 100 c).map (fun r => (r.1, r.2.2)) = .ok (.finished, []) := by
  refine ⟨_, rfl, ?_, ?_⟩ <;> decide +kernel

end Buxn.Audio
