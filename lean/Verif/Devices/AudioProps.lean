import Verif.Devices.Audio
import Mathlib.Tactic.Linarith
import Mathlib.Tactic.NormNum
/-!
# Theorems about audio (C15, C16)
-/
namespace Buxn.Audio
open Buxn.VM

/-! ## Histories -/

/-- What can happen to a channel: a message built by a write of the pitch port is received (with whatever the ports
hold), a buffer is rendered, or the guest reads a port. -/
inductive Event
  | note (ports : Fin 16 → Byte)
  | render (mem : Nat → Byte) (channels n : Nat)
  | read (ports : Fin 16 → Byte) (port : Fin 16)

/-- One event: the new channel and the frames rendered. -/
def event (memSize : Nat) : Event → Chan → Res (Chan × List (List Int))
  | .note ports, c =>
    match deo ports 15 with
    | some m => do return (← receive m c, [])
    | none => return (c, [])
  | .render mem channels n, c => do
    let (_, c, fs) ← render mem memSize channels n c
    return (c, fs)
  | .read ports port, c => do
    let (_, _, c) ← dei ports port c
    return (c, [])

/-- A history: the new channel and all the frames. -/
def history (memSize : Nat) : List Event → Chan → Res (Chan × List (List Int))
  | [], c => .ok (c, [])
  | e :: es, c => do
    let (c, fs) ← event memSize e c
    let (c, gs) ← history memSize es c
    return (c, fs ++ gs)

/-- A channel as the host creates it (`gui.c:496-515`): all zero but for the sample rate. -/
def fresh (freq : Nat) : Chan :=
  { freq, addr := 0, count := 0, advance := 0, period := 0, age := 0, a := 0, d := 0, s := 0, r := 0, i := 0,
    len := 0, vol0 := 0, vol1 := 0, rep := false }

/-! ## The invariant -/

structure Inv (c : Chan) : Prop where
  fits : c.addr + c.len ≤ 65536
  sample : c.advance ≠ 0 → c.len ≠ 0
  v0 : c.vol0 ≤ 15
  v1 : c.vol1 ≤ 15
  age : c.age < 4294967296
  r : c.r < 4294967296
  d : c.d < 4294967296

theorem mul32_le (x y : Nat) : mul32 x y ≤ x * y := Nat.mod_le _ _

theorem sub32_eq {x y : Nat} (h : y ≤ x) (hx : x < 4294967296) : sub32 x y = x - y := by
  unfold sub32; omega

theorem sub32_double {d a age : Nat} (h1 : a ≤ age) (h2 : age < d) (hd : d < 4294967296) :
    sub32 (sub32 (mul32 2 d) a) age = ((d - a) + (d - age)) % 4294967296 := by
  unfold sub32 mul32
  omega

theorem toI32_small {x : Nat} (h : x ≤ 2184) : toI32 x = x := by
  unfold toI32
  rw [if_pos (by omega)]

theorem div_ok {x y : Nat} (hy : y ≠ 0) (h : x ≤ 2184 * y) (c : Chan) :
    ∃ e c', (do let q ← divU x y; return (toI32 q, c) : Res (Int × Chan)) = .ok (e, c') ∧ 0 ≤ e ∧ e ≤ 0x888 ∧ c' = c := by
  have hb : x / y ≤ 2184 := Nat.div_le_of_le_mul (by rw [Nat.mul_comm]; exact h)
  refine ⟨toI32 (x / y), c, ?_, ?_, ?_, rfl⟩
  · simp only [divU, if_neg hy, bind, Except.bind, pure, Except.pure]
  · rw [toI32_small hb]; exact Int.natCast_nonneg _
  · rw [toI32_small hb]; exact_mod_cast hb

theorem envelope_ok (c : Chan) (age : Nat) (hd : c.d < 4294967296) (hr : c.r < 4294967296) :
    ∃ e c', envelope c age = .ok (e, c') ∧ 0 ≤ e ∧ e ≤ 0x888 ∧ (c' = c ∨ c' = { c with advance := 0 }) := by
  unfold envelope
  by_cases h0 : c.r = 0
  · rw [if_pos h0]
    exact ⟨_, _, rfl, by decide, by decide, .inl rfl⟩
  rw [if_neg h0]
  by_cases h1 : age < c.a
  · rw [if_pos h1]
    obtain ⟨e, c', h, h2, h3, h4⟩ := div_ok (x := mul32 0x888 age) (y := c.a) (by omega)
      (by have := mul32_le 0x888 age; omega) c
    exact ⟨e, c', h, h2, h3, .inl h4⟩
  rw [if_neg h1]
  by_cases h2 : age < c.d
  · rw [if_pos h2, sub32_double (by omega) h2 hd, sub32_eq (by omega) hd]
    obtain ⟨e, c', h, h2, h3, h4⟩ := div_ok (x := mul32 0x444 (((c.d - c.a) + (c.d - age)) % 4294967296)) (y := c.d - c.a)
      (by omega) (by have := mul32_le 0x444 (((c.d - c.a) + (c.d - age)) % 4294967296); omega) c
    exact ⟨e, c', h, h2, h3, .inl h4⟩
  rw [if_neg h2]
  by_cases h3 : age < c.s
  · rw [if_pos h3]
    exact ⟨_, _, rfl, by decide, by decide, .inl rfl⟩
  rw [if_neg h3]
  by_cases h4 : age < c.r
  · rw [if_pos h4, sub32_eq (Nat.le_of_lt h4) hr, sub32_eq (by omega) hr]
    obtain ⟨e, c', h, h2, h3, h4⟩ := div_ok (x := mul32 0x444 (c.r - age)) (y := c.r - c.s)
      (by omega) (by have := mul32_le 0x444 (c.r - age); omega) c
    exact ⟨e, c', h, h2, h3, .inl h4⟩
  rw [if_neg h4]
  exact ⟨_, _, rfl, by decide, by decide, .inr rfl⟩

theorem signed_bound (x : Byte) : -128 ≤ signed x ∧ signed x ≤ 127 := by
  revert x; decide +kernel

theorem i32_ok (x : Int) (h : -2147483648 ≤ x ∧ x ≤ 2147483647) : i32 x = .ok x := by simp [i32, h]

theorem mul_bound {x y a b : Int} (hx : -a ≤ x ∧ x ≤ a) (hy : 0 ≤ y ∧ y ≤ b) :
    -(a * b) ≤ x * y ∧ x * y ≤ a * b := by
  constructor <;> nlinarith

theorem frame_ok (ch : Nat) (s : Int) (v0 v1 : Nat) (hs : -279552 ≤ s ∧ s ≤ 279552) (h0 : v0 ≤ 15) (h1 : v1 ≤ 15) :
    ∃ f, frame ch s v0 v1 = .ok f ∧ ∀ x ∈ f, -8386560 ≤ x ∧ x ≤ 8386560 := by
  have b0 := mul_bound (a := 279552) (b := 15) hs (y := (v0 : Int)) (by omega)
  have b1 := mul_bound (a := 279552) (b := 15) hs (y := (v1 : Int)) (by omega)
  unfold frame
  rw [i32_ok _ (by omega), i32_ok _ (by omega)]
  simp only [bind, Except.bind, pure, Except.pure]
  by_cases h : ch < 2
  · rw [if_pos h]
    refine ⟨_, rfl, ?_⟩
    intro x hx
    rw [List.mem_singleton] at hx
    omega
  · rw [if_neg h]
    refine ⟨_, rfl, ?_⟩
    intro x hx
    rw [List.mem_map] at hx
    obtain ⟨j, _, rfl⟩ := hx
    split <;> omega

/-- What the loop keeps. -/
structure Same (c c' : Chan) : Prop where
  addr : c'.addr = c.addr
  len : c'.len = c.len
  period : c'.period = c.period
  freq : c'.freq = c.freq

theorem Same.trans {c c' c'' : Chan} (h : Same c c') (h' : Same c' c'') : Same c c'' :=
  ⟨h'.addr.trans h.addr, h'.len.trans h.len, h'.period.trans h.period, h'.freq.trans h.freq⟩

theorem inv_advance0 {c : Chan} (hi : Inv c) : Inv { c with advance := 0 } :=
  { hi with sample := fun h => absurd rfl h }

theorem move_ok (c : Chan) (hi : Inv c) (hl : c.len ≠ 0) (hp : c.period ≠ 0) :
    ∃ stop c', move c = .ok (stop, c') ∧ Inv c' ∧ Same c c' ∧ c'.count < c.period ∧ (stop = false → c'.i < c'.len) := by
  unfold move
  simp only [divU, modU, if_neg hp, if_neg hl, bind, Except.bind, pure, Except.pure]
  have hmod := Nat.mod_lt (u32 (c.count + c.advance)) (Nat.pos_of_ne_zero hp)
  by_cases h1 : u16 (c.i + u32 (c.count + c.advance) / c.period) ≥ c.len
  · rw [if_pos h1]
    by_cases h2 : c.rep = false
    · rw [if_pos h2]
      exact ⟨_, _, rfl, { hi with sample := fun _ => hl }, ⟨rfl, rfl, rfl, rfl⟩, hmod, fun h => absurd h (by decide)⟩
    · rw [if_neg h2]
      exact ⟨_, _, rfl, { hi with sample := fun _ => hl }, ⟨rfl, rfl, rfl, rfl⟩, hmod,
        fun _ => Nat.mod_lt _ (Nat.pos_of_ne_zero hl)⟩
  · rw [if_neg h1]
    exact ⟨_, _, rfl, { hi with sample := fun _ => hl }, ⟨rfl, rfl, rfl, rfl⟩, hmod, fun _ => Nat.lt_of_not_le h1⟩

theorem emit_ok (mem : Nat → Byte) (memSize ch : Nat) (hm : 65536 ≤ memSize) (c : Chan) (hi : Inv c) (hl : c.i < c.len) :
    ∃ f c', emit mem memSize ch c = .ok (f, c') ∧ Inv c' ∧ Same c c' ∧ c'.count = c.count ∧
      ∀ x ∈ f, -8386560 ≤ x ∧ x ≤ 8386560 := by
  unfold emit
  rw [if_pos (by have := hi.fits; omega)]
  simp only [bind, Except.bind, pure, Except.pure]
  obtain ⟨e, c3, he, he0, he1, hc3⟩ := envelope_ok { c with age := u32 (c.age + 1) } c.age hi.d hi.r
  rw [he]
  dsimp only
  have hsb := signed_bound (mem (c.addr + c.i))
  have hb := mul_bound (a := 128) (b := 2184) (x := signed (mem (c.addr + c.i))) (y := e) (by omega) (by omega)
  rw [i32_ok _ (by omega)]
  dsimp only
  have hi3 : Inv c3 := by
    have hage : u32 (c.age + 1) < 4294967296 := Nat.mod_lt _ (by decide)
    rcases hc3 with rfl | rfl
    · exact { hi with age := hage }
    · exact { hi with age := hage, sample := fun h => absurd rfl h }
  have hsame3 : Same c c3 := by rcases hc3 with rfl | rfl <;> exact ⟨rfl, rfl, rfl, rfl⟩
  have hcount3 : c3.count = c.count := by rcases hc3 with rfl | rfl <;> rfl
  obtain ⟨f, hf, hfb⟩ := frame_ok ch (signed (mem (c.addr + c.i)) * e) c3.vol0 c3.vol1 (by omega) hi3.v0 hi3.v1
  rw [hf]
  exact ⟨_, _, rfl, hi3, hsame3, hcount3, hfb⟩

theorem renderLoop_ok (mem : Nat → Byte) (memSize ch : Nat) (hm : 65536 ≤ memSize) (n : Nat) (c : Chan)
    (hi : Inv c) (hl : c.len ≠ 0) (hp : c.period ≠ 0) :
    ∃ c' fs, renderLoop mem memSize ch n c = .ok (c', fs) ∧ Inv c' ∧ Same c c' ∧
      (c'.count = c.count ∨ c'.count < c.period) ∧ fs.length ≤ n ∧
      ∀ f ∈ fs, ∀ x ∈ f, -8386560 ≤ x ∧ x ≤ 8386560 := by
  induction n generalizing c with
  | zero =>
    exact ⟨c, [], rfl, hi, ⟨rfl, rfl, rfl, rfl⟩, .inl rfl, Nat.le_refl _, fun f hf => absurd hf (by simp)⟩
  | succ n ih =>
    obtain ⟨stop, c1, h1, hi1, hs1, hc1, hlt1⟩ := move_ok c hi hl hp
    simp only [renderLoop, h1, bind, Except.bind, pure, Except.pure]
    cases stop with
    | true =>
      rw [if_pos rfl]
      exact ⟨_, _, rfl, hi1, hs1, .inr hc1, by simp, fun f hf => absurd hf (by simp)⟩
    | false =>
      rw [if_neg (by decide)]
      obtain ⟨f, c2, h2, hi2, hs2, hc2, hb2⟩ := emit_ok mem memSize ch hm c1 hi1 (hlt1 rfl)
      obtain ⟨c3, fs, h3, hi3, hs3, hc3, hlen3, hb3⟩ := ih c2 hi2
        (by rw [hs2.len, hs1.len]; exact hl) (by rw [hs2.period, hs1.period]; exact hp)
      simp only [h2, h3]
      refine ⟨_, _, rfl, hi3, (hs1.trans hs2).trans hs3, .inr ?_, by simp only [List.length_cons]; omega, ?_⟩
      · rw [hs2.period, hs1.period] at hc3
        rcases hc3 with h | h
        · rw [h, hc2]; exact hc1
        · exact h
      · intro g hg
        rcases List.mem_cons.mp hg with rfl | hg
        · exact hb2
        · exact hb3 g hg

/-! ## C15 -/

theorem u32_lt (x : Nat) : u32 x < 4294967296 := Nat.mod_lt _ (by decide)

theorem load2_lt (ports : Fin 16 → Byte) (p : Fin 16) : load2 ports p < 65536 := by
  unfold load2
  have := (ports p).isLt
  have := (ports (p + 1)).isLt
  omega

/-- A message built by the device describes a sample inside the first 64K. -/
theorem deo_fits (ports : Fin 16 → Byte) (m : Message) (h : deo ports 15 = some m) :
    m.addr + m.len ≤ 65536 ∧ m.vol0 ≤ 15 ∧ m.vol1 ≤ 15 ∧ m.pitch < 128 ∧ m.adsr < 65536 ∧ m.len < 65536 := by
  unfold deo at h
  rw [if_pos rfl] at h
  simp only [Option.some.injEq] at h
  subst h
  have h1 := load2_lt ports 12
  have h2 := load2_lt ports 8
  have h3 := load2_lt ports 10
  have h4 := (ports 14).isLt
  dsimp only
  unfold u16
  refine ⟨?_, by omega, by omega, Nat.mod_lt _ (by decide), h2, ?_⟩
  · split <;> omega
  · split <;> omega

theorem advances_get (n : Nat) : ∃ a, ADVANCES[n % 12]? = some a := by
  have h : n % 12 < ADVANCES.length := Nat.mod_lt _ (by decide)
  exact ⟨_, List.getElem?_eq_getElem h⟩

theorem receive_ok (m : Message) (c : Chan) (hm : m.addr + m.len ≤ 65536 ∧ m.vol0 ≤ 15 ∧ m.vol1 ≤ 15) (hi : Inv c) :
    ∃ c', receive m c = .ok c' ∧ Inv c' := by
  unfold receive
  simp only [bind, Except.bind, pure, Except.pure, divU]
  by_cases h : m.pitch < 108 ∧ m.len ≠ 0
  · rw [if_pos h]
    obtain ⟨adv, hadv⟩ := advances_get m.pitch
    rw [hadv]
    dsimp only
    by_cases h2 : m.len ≤ 256
    · rw [if_pos h2, if_neg h.2]
      exact ⟨_, rfl, ⟨hm.1, fun _ => h.2, hm.2.1, hm.2.2, Nat.zero_lt_succ _, u32_lt _, u32_lt _⟩⟩
    · rw [if_neg h2]
      exact ⟨_, rfl, ⟨hm.1, fun _ => h.2, hm.2.1, hm.2.2, Nat.zero_lt_succ _, u32_lt _, u32_lt _⟩⟩
  · rw [if_neg h]
    exact ⟨_, rfl, ⟨hm.1, fun h => absurd rfl h, hm.2.1, hm.2.2, hi.age, hi.r, hi.d⟩⟩

theorem render_ok (mem : Nat → Byte) (memSize ch n : Nat) (hm : 65536 ≤ memSize) (c : Chan) (hi : Inv c) :
    ∃ st c' fs, render mem memSize ch n c = .ok (st, c', fs) ∧ Inv c' ∧ Same c c' ∧
      (c'.count = c.count ∨ c'.count < c.period) ∧ fs.length ≤ n ∧
      ∀ f ∈ fs, ∀ x ∈ f, -8386560 ≤ x ∧ x ≤ 8386560 := by
  unfold render
  by_cases h : c.advance = 0 ∨ c.period = 0
  · rw [if_pos h]
    exact ⟨_, _, _, rfl, hi, ⟨rfl, rfl, rfl, rfl⟩, .inl rfl, by simp, fun f hf => absurd hf (by simp)⟩
  · rw [if_neg h]
    rw [not_or] at h
    obtain ⟨c', fs, h1, h2, h3, h4, h5, h6⟩ := renderLoop_ok mem memSize ch hm n c hi (hi.sample h.1) h.2
    simp only [h1, bind, Except.bind, pure, Except.pure]
    exact ⟨_, _, _, rfl, h2, h3, h4, h5, h6⟩

theorem vuSide_ok (c : Chan) (vol : Nat) (hi : Inv c) (hv : vol ≤ 15) :
    ∃ v c', vuSide c vol = .ok (v, c') ∧ 0 ≤ v ∧ v ≤ 15 ∧ (vol = 0 → v = 0) ∧ (vol ≠ 0 → 1 ≤ v) ∧
      (c' = c ∨ c' = { c with advance := 0 }) := by
  unfold vuSide
  by_cases h : vol = 0
  · rw [if_pos h]
    exact ⟨_, _, rfl, by decide, by decide, fun _ => rfl, fun h' => absurd h h', .inl rfl⟩
  rw [if_neg h]
  obtain ⟨e, c', he, h0, h1, hc⟩ := envelope_ok c c.age hi.d hi.r
  have hb := mul_bound (x := e) (a := 2184) (y := (vol : Int)) (b := 15) (by omega) (by omega)
  have hp : 0 ≤ e * vol := Int.mul_nonneg h0 (by omega)
  simp only [he, bind, Except.bind, pure, Except.pure]
  rw [i32_ok _ (by omega)]
  dsimp only
  have hq : 0 ≤ (e * (vol : Int)).tdiv 2048 := Int.tdiv_nonneg hp (by decide)
  have hq2 : (e * (vol : Int)).tdiv 2048 ≤ 15 := by
    rw [Int.tdiv_eq_ediv_of_nonneg hp]
    omega
  rw [i32_ok _ (by omega)]
  dsimp only
  refine ⟨_, _, rfl, ?_, ?_, fun h' => absurd h' h, ?_, hc⟩
  · split <;> omega
  · split <;> omega
  · intro _; split <;> omega

theorem getVu_ok (c : Chan) (hi : Inv c) : ∃ v c', getVu c = .ok (v, c') ∧ (c' = c ∨ c' = { c with advance := 0 }) := by
  unfold getVu
  by_cases h : c.advance = 0 ∨ c.period = 0
  · rw [if_pos h]; exact ⟨_, _, rfl, .inl rfl⟩
  rw [if_neg h]
  obtain ⟨v, c1, h1, _, _, _, _, hc1⟩ := vuSide_ok c c.vol0 hi hi.v0
  have hi1 : Inv c1 := by rcases hc1 with rfl | rfl; exacts [hi, inv_advance0 hi]
  obtain ⟨w, c2, h2, _, _, _, _, hc2⟩ := vuSide_ok c1 c1.vol1 hi1 hi1.v1
  simp only [h1, h2, bind, Except.bind, pure, Except.pure]
  refine ⟨_, _, rfl, ?_⟩
  rcases hc1 with rfl | rfl <;> rcases hc2 with rfl | rfl <;> simp

theorem dei_ok (ports : Fin 16 → Byte) (port : Fin 16) (c : Chan) (hi : Inv c) :
    ∃ v p c', dei ports port c = .ok (v, p, c') ∧ (c' = c ∨ c' = { c with advance := 0 }) := by
  unfold dei
  by_cases h : port = 4
  · rw [if_pos h]
    obtain ⟨v, c', h1, h2⟩ := getVu_ok c hi
    simp only [h1, bind, Except.bind, pure, Except.pure]
    exact ⟨_, _, _, rfl, h2⟩
  rw [if_neg h]
  by_cases h2 : port = 2
  · rw [if_pos h2]; exact ⟨_, _, _, rfl, .inl rfl⟩
  · rw [if_neg h2]; exact ⟨_, _, _, rfl, .inl rfl⟩

theorem event_ok (memSize : Nat) (hm : 65536 ≤ memSize) (e : Event) (c : Chan) (hi : Inv c) :
    ∃ c' fs, event memSize e c = .ok (c', fs) ∧ Inv c' ∧ ∀ f ∈ fs, ∀ x ∈ f, -8386560 ≤ x ∧ x ≤ 8386560 := by
  cases e with
  | note ports =>
    cases hd : deo ports 15 with
    | none =>
      refine ⟨c, [], ?_, hi, fun f hf => absurd hf (by simp)⟩
      simp only [event, hd, pure, Except.pure]
    | some m =>
      have hf := deo_fits ports m hd
      obtain ⟨c', h1, h2⟩ := receive_ok m c ⟨hf.1, hf.2.1, hf.2.2.1⟩ hi
      refine ⟨c', [], ?_, h2, fun f hf => absurd hf (by simp)⟩
      simp only [event, hd, h1, bind, Except.bind, pure, Except.pure]
  | render mem ch n =>
    obtain ⟨st, c', fs, h1, h2, _, _, _, h6⟩ := render_ok mem memSize ch n hm c hi
    simp only [event, h1, bind, Except.bind, pure, Except.pure]
    exact ⟨_, _, rfl, h2, h6⟩
  | read ports port =>
    obtain ⟨v, p, c', h1, h2⟩ := dei_ok ports port c hi
    simp only [event, h1, bind, Except.bind, pure, Except.pure]
    refine ⟨_, _, rfl, ?_, fun f hf => absurd hf (by simp)⟩
    rcases h2 with rfl | rfl; exacts [hi, inv_advance0 hi]

theorem history_ok (memSize : Nat) (hm : 65536 ≤ memSize) (es : List Event) (c : Chan) (hi : Inv c) :
    ∃ c' fs, history memSize es c = .ok (c', fs) ∧ Inv c' ∧ ∀ f ∈ fs, ∀ x ∈ f, -8386560 ≤ x ∧ x ≤ 8386560 := by
  induction es generalizing c with
  | nil => exact ⟨_, _, rfl, hi, fun f hf => absurd hf (by simp)⟩
  | cons e es ih =>
    obtain ⟨c1, fs, h1, h2, h3⟩ := event_ok memSize hm e c hi
    obtain ⟨c2, gs, h4, h5, h6⟩ := ih c1 h2
    simp only [history, h1, h4, bind, Except.bind, pure, Except.pure]
    refine ⟨_, _, rfl, h5, ?_⟩
    intro f hf
    rcases List.mem_append.mp hf with hf | hf
    · exact h3 f hf
    · exact h6 f hf

theorem fresh_inv (f : Nat) : Inv (fresh f) :=
  ⟨by simp [fresh], fun h => absurd rfl h, by simp [fresh], by simp [fresh], by simp [fresh], by simp [fresh], by simp [fresh]⟩

/-- **C15.** In every history of notes (whatever the sixteen ports hold), buffers (of any size, for any number of
output channels, with whatever the guest memory holds) and port reads, at any sample rate, nothing is undefined: no
read outside the 64K memory, no division by zero, no overflow. Every sample written is within the range of the output
(`±12582912` represents `±1.0`). -/
theorem C15_audio_safe (freq memSize : Nat) (hm : 65536 ≤ memSize) (es : List Event) :
    ∃ c fs, history memSize es (fresh freq) = .ok (c, fs) ∧
      ∀ f ∈ fs, ∀ x ∈ f, -12582912 ≤ x ∧ x ≤ 12582912 := by
  obtain ⟨c, fs, h1, _, h3⟩ := history_ok memSize hm es (fresh freq) (fresh_inv freq)
  refine ⟨c, fs, h1, ?_⟩
  intro f hf x hx
  have := h3 f hf x hx
  omega

/-- The latched sample lies in the first 64K. -/
theorem C15_sample_in_memory (freq memSize : Nat) (hm : 65536 ≤ memSize) (es : List Event) (c : Chan)
    (fs : List (List Int)) (h : history memSize es (fresh freq) = .ok (c, fs)) :
    c.addr + c.len ≤ 65536 ∧ c.vol0 ≤ 15 ∧ c.vol1 ≤ 15 := by
  obtain ⟨c', fs', h1, h2, _⟩ := history_ok memSize hm es (fresh freq) (fresh_inv freq)
  rw [h1] at h
  cases h
  exact ⟨h2.fits, h2.v0, h2.v1⟩

theorem div_same {x y : Nat} (c : Chan) (r : Int × Chan)
    (h : (do let q ← divU x y; return (toI32 q, c) : Res (Int × Chan)) = .ok r) : r.2 = c := by
  unfold divU at h
  by_cases hy : y = 0
  · simp [hy, bind, Except.bind] at h
  · simp only [if_neg hy, bind, Except.bind, pure, Except.pure] at h
    cases h; rfl

theorem envelope_same (c : Chan) (age : Nat) (r : Int × Chan) (h : envelope c age = .ok r) :
    r.2 = c ∨ r.2 = { c with advance := 0 } := by
  unfold envelope at h
  by_cases h0 : c.r = 0
  · rw [if_pos h0] at h; cases h; exact .inl rfl
  rw [if_neg h0] at h
  by_cases h1 : age < c.a
  · rw [if_pos h1] at h; exact .inl (div_same c r h)
  rw [if_neg h1] at h
  by_cases h2 : age < c.d
  · rw [if_pos h2] at h; exact .inl (div_same c r h)
  rw [if_neg h2] at h
  by_cases h3 : age < c.s
  · rw [if_pos h3] at h; cases h; exact .inl rfl
  rw [if_neg h3] at h
  by_cases h4 : age < c.r
  · rw [if_pos h4] at h; exact .inl (div_same c r h)
  rw [if_neg h4] at h
  cases h
  exact .inr rfl

theorem move_same (c : Chan) (stop : Bool) (c' : Chan) (h : move c = .ok (stop, c')) :
    Same c c' ∧ (stop = false → c'.i < c'.len) := by
  unfold move divU modU at h
  simp only [bind, Except.bind, pure, Except.pure] at h
  by_cases hp : c.period = 0
  · simp only [if_pos hp] at h; cases h
  simp only [if_neg hp] at h
  by_cases h1 : u16 (c.i + u32 (c.count + c.advance) / c.period) ≥ c.len
  · simp only [if_pos h1] at h
    by_cases h2 : c.rep = false
    · simp only [if_pos h2] at h
      cases h
      exact ⟨⟨rfl, rfl, rfl, rfl⟩, fun h => absurd h (by decide)⟩
    · simp only [if_neg h2] at h
      by_cases hl : c.len = 0
      · simp only [if_pos hl] at h; cases h
      · simp only [if_neg hl] at h
        cases h
        exact ⟨⟨rfl, rfl, rfl, rfl⟩, fun _ => Nat.mod_lt _ (Nat.pos_of_ne_zero hl)⟩
  · simp only [if_neg h1] at h
    cases h
    exact ⟨⟨rfl, rfl, rfl, rfl⟩, fun _ => Nat.lt_of_not_le h1⟩

theorem emit_same (mem : Nat → Byte) (memSize ch : Nat) (c : Chan) (f : List Int) (c' : Chan)
    (h : emit mem memSize ch c = .ok (f, c')) : Same c c' := by
  unfold emit at h
  simp only [bind, Except.bind, pure, Except.pure] at h
  split at h
  · cases h
  split at h
  · cases h
  rename_i r he
  split at h
  · cases h
  split at h
  · cases h
  cases h
  rcases envelope_same _ _ _ he with h | h <;> rw [h] <;> exact ⟨rfl, rfl, rfl, rfl⟩

theorem renderLoop_local (mem mem' : Nat → Byte) (memSize ch n : Nat) (c : Chan)
    (h : ∀ x, c.addr ≤ x → x < c.addr + c.len → mem x = mem' x) :
    renderLoop mem memSize ch n c = renderLoop mem' memSize ch n c := by
  induction n generalizing c with
  | zero => rfl
  | succ n ih =>
    simp only [renderLoop, bind, Except.bind, pure, Except.pure]
    cases hmv : move c with
    | error e => rfl
    | ok r =>
      obtain ⟨stop, c1⟩ := r
      dsimp only
      obtain ⟨hs1, hlt⟩ := move_same c stop c1 hmv
      cases stop with
      | true => rfl
      | false =>
        rw [if_neg (by decide), if_neg (by decide)]
        have hlt := hlt rfl
        have he : emit mem memSize ch c1 = emit mem' memSize ch c1 := by
          unfold emit
          rw [h (c1.addr + c1.i) (by rw [hs1.addr]; omega) (by rw [hs1.addr, ← hs1.len]; omega)]
        rw [he]
        cases hem : emit mem' memSize ch c1 with
        | error e => rfl
        | ok r =>
          obtain ⟨f, c2⟩ := r
          dsimp only
          have hs2 := hs1.trans (emit_same _ _ _ _ _ _ hem)
          rw [ih c2 (by rw [hs2.addr, hs2.len]; exact h)]

/-- Rendering depends on the memory only through the latched sample: no byte outside it is read. -/
theorem C15_only_sample_read (mem mem' : Nat → Byte) (memSize ch n : Nat) (c : Chan)
    (h : ∀ x, c.addr ≤ x → x < c.addr + c.len → mem x = mem' x) :
    render mem memSize ch n c = render mem' memSize ch n c := by
  unfold render
  rw [renderLoop_local mem mem' memSize ch n c h]

end Buxn.Audio
