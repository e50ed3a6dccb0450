import Verif.Gui.MouseWheel
/-!
# C64: where the pointer is, and fingers
-/
namespace Buxn.Gui
open Buxn.VM Buxn.Input
variable {σ : Type}

/-! ## Position -/

/-- The pointer is over the pixel `(i, j)` of the picture that is drawn. -/
def Over (d : Draw) (i j : Nat) (x y : Rat) : Prop :=
  (d.xMargin + i * d.scale ≤ x ∧ x < d.xMargin + (i + 1) * d.scale) ∧
  (d.yMargin + j * d.scale ≤ y ∧ y < d.yMargin + (j + 1) * d.scale)

theorem clamp_mem (v hi : Rat) (h : 0 ≤ hi) : 0 ≤ clamp v 0 hi ∧ clamp v 0 hi ≤ hi := by
  unfold clamp
  split
  · exact ⟨le_refl _, h⟩
  · split
    · exact ⟨h, le_refl _⟩
    · rename_i h1 h2; exact ⟨not_lt.1 h1, not_lt.1 h2⟩

theorem toU16_spec (x : Rat) (h0 : 0 ≤ x) (h1 : x < 65536) : ∃ s, toU16 x = .ok s ∧ (s.toNat : Int) = ⌊x⌋ := by
  unfold toU16
  rw [if_pos ⟨by linarith, h1⟩, if_neg (not_lt.2 h0)]
  refine ⟨_, rfl, ?_⟩
  have a : 0 ≤ ⌊x⌋ := Int.floor_nonneg.2 h0
  have b : ⌊x⌋ < 65536 := by rw [Int.floor_lt]; exact_mod_cast h1
  rw [BitVec.toNat_ofInt]
  omega

/-- Placing the mouse always succeeds, and the result is the integer part of the clamped position. -/
theorem place_spec (P : Program σ) (x y : Rat) (a : App σ) (hw : P.width a.rest ≤ 65535) (hh : P.height a.rest ≤ 65535) :
    ∃ sx sy : Short, place P x y a = .ok { a with dev := { a.dev with mouse := { a.dev.mouse with x := sx, y := sy } } } ∧
      (sx.toNat : Int) = ⌊clamp x 0 (P.width a.rest)⌋ ∧ (sy.toNat : Int) = ⌊clamp y 0 (P.height a.rest)⌋ := by
  have hw' : (P.width a.rest : Rat) < 65536 := by exact_mod_cast (by omega : P.width a.rest < 65536)
  have hh' : (P.height a.rest : Rat) < 65536 := by exact_mod_cast (by omega : P.height a.rest < 65536)
  have c1 := clamp_mem x (P.width a.rest) (by exact_mod_cast Nat.zero_le _)
  have c2 := clamp_mem y (P.height a.rest) (by exact_mod_cast Nat.zero_le _)
  obtain ⟨sx, e1, f1⟩ := toU16_spec _ c1.1 (lt_of_le_of_lt c1.2 hw')
  obtain ⟨sy, e2, f2⟩ := toU16_spec _ c2.1 (lt_of_le_of_lt c2.2 hh')
  refine ⟨sx, sy, ?_, f1, f2⟩
  unfold place
  rw [e1, e2]
  rfl

theorem clamp_id {v hi : Rat} (h0 : 0 ≤ v) (h1 : v ≤ hi) : clamp v 0 hi = v := by
  unfold clamp
  rw [if_neg (not_lt.2 h0), if_neg (not_lt.2 h1)]

theorem scale_pos {W H w h : Nat} (hW : 0 < W) (hH : 0 < H) (hw : 0 < w) (hh : 0 < h) : 0 < (drawInfo W H w h).scale := by
  have a : (0 : Rat) < W := by exact_mod_cast hW
  have b : (0 : Rat) < H := by exact_mod_cast hH
  have c : (0 : Rat) < w := by exact_mod_cast hw
  have d : (0 : Rat) < h := by exact_mod_cast hh
  unfold drawInfo
  dsimp only
  split
  · exact div_pos a c
  · exact div_pos b d

/-- **C64**, the picture. The picture is drawn with square pixels, inside of the window, touching two opposite sides of it,
and centred up to the rounding of the margins. -/
theorem C64_picture (W H w h : Nat) (hW : 0 < W) (hH : 0 < H) (hw : 0 < w) (hh : 0 < h) :
    let d := drawInfo W H w h
    0 < d.scale ∧ 0 ≤ d.xMargin ∧ 0 ≤ d.yMargin ∧ d.xMargin + w * d.scale ≤ W ∧ d.yMargin + h * d.scale ≤ H ∧
    (w * d.scale = W ∨ h * d.scale = H) ∧
    (∃ m : Int, d.xMargin = m ∧ (m : Rat) ≤ (W - w * d.scale) / 2 ∧ (W - w * d.scale) / 2 < m + 1) ∧
    (∃ m : Int, d.yMargin = m ∧ (m : Rat) ≤ (H - h * d.scale) / 2 ∧ (H - h * d.scale) / 2 < m + 1) := by
  intro d
  have c : (0 : Rat) < w := by exact_mod_cast hw
  have c' : (0 : Rat) < h := by exact_mod_cast hh
  have hs := scale_pos hW hH hw hh
  have hx : (w : Rat) * d.scale ≤ W := by
    show (w : Rat) * (if (W : Rat) / w < H / h then (W : Rat) / w else H / h) ≤ W
    split
    · rw [mul_div_cancel₀ _ (ne_of_gt c)]
    · rename_i hle
      have := not_lt.1 hle
      rw [le_div_iff₀ c] at this
      linarith [mul_comm (w : Rat) ((H : Rat) / h)]
  have hy : (h : Rat) * d.scale ≤ H := by
    show (h : Rat) * (if (W : Rat) / w < H / h then (W : Rat) / w else H / h) ≤ H
    split
    · rename_i hlt
      rw [lt_div_iff₀ c'] at hlt
      linarith [mul_comm (h : Rat) ((W : Rat) / w)]
    · rw [mul_div_cancel₀ _ (ne_of_gt c')]
  have hor : (w : Rat) * d.scale = W ∨ (h : Rat) * d.scale = H := by
    show (w : Rat) * (if (W : Rat) / w < H / h then (W : Rat) / w else H / h) = W ∨ (h : Rat) * (if (W : Rat) / w < H / h then (W : Rat) / w else H / h) = H
    split
    · exact .inl (mul_div_cancel₀ _ (ne_of_gt c))
    · exact .inr (mul_div_cancel₀ _ (ne_of_gt c'))
  have ex : d.xMargin = (⌊((W : Rat) - w * d.scale) * (1 / 2)⌋ : Int) := rfl
  have ey : d.yMargin = (⌊((H : Rat) - h * d.scale) * (1 / 2)⌋ : Int) := rfl
  have fx := Int.floor_le (((W : Rat) - w * d.scale) * (1 / 2))
  have fx' := Int.lt_floor_add_one (((W : Rat) - w * d.scale) * (1 / 2))
  have fy := Int.floor_le (((H : Rat) - h * d.scale) * (1 / 2))
  have fy' := Int.lt_floor_add_one (((H : Rat) - h * d.scale) * (1 / 2))
  have nx : (0 : Int) ≤ ⌊((W : Rat) - w * d.scale) * (1 / 2)⌋ := Int.floor_nonneg.2 (by linarith)
  have ny : (0 : Int) ≤ ⌊((H : Rat) - h * d.scale) * (1 / 2)⌋ := Int.floor_nonneg.2 (by linarith)
  have nx' : (0 : Rat) ≤ (⌊((W : Rat) - w * d.scale) * (1 / 2)⌋ : Int) := by exact_mod_cast nx
  have ny' : (0 : Rat) ≤ (⌊((H : Rat) - h * d.scale) * (1 / 2)⌋ : Int) := by exact_mod_cast ny
  refine ⟨hs, by rw [ex]; exact nx', by rw [ey]; exact ny', by rw [ex]; linarith, by rw [ey]; linarith, hor,
    ⟨_, ex, by linarith, by linarith⟩, ⟨_, ey, by linarith, by linarith⟩⟩

theorem floor_over {m s x : Rat} {i : Nat} (hs : 0 < s) (h : m + i * s ≤ x ∧ x < m + (i + 1) * s) : ⌊(x - m) / s⌋ = (i : Int) := by
  rw [Int.floor_eq_iff]
  constructor
  · rw [le_div_iff₀ hs]
    have : (((i : Int) : Rat)) = (i : Rat) := by push_cast; rfl
    rw [this]; linarith [h.1]
  · rw [div_lt_iff₀ hs]
    have : (((i : Int) : Rat)) = (i : Rat) := by push_cast; rfl
    rw [this]; linarith [h.2]

/-- The mouse vector is called once, with this position. -/
def ShownAt (a a' : App σ) (x y : Nat) : Prop :=
  ∃ c : Call, a'.calls = a.calls ++ [c] ∧ c.port = 0x90 ∧ c.seen.mouse.x.toNat = x ∧ c.seen.mouse.y.toNat = y ∧
    c.seen.mouse.state = a.dev.mouse.state ∧ a'.dev.mouse.x.toNat = x ∧ a'.dev.mouse.y.toNat = y

/-- **C64**, position. When the pointer moves over a pixel of the picture the program is called with the coordinates of
that pixel, whatever the sizes of window and screen. -/
theorem C64_position (P : Program σ) (E : Env) (x y : Rat) (a : App σ) (i j : Nat)
    (hW : 0 < E.W) (hH : 0 < E.H) (hw : P.width a.rest ≤ 65535) (hh : P.height a.rest ≤ 65535)
    (hi : i < P.width a.rest) (hj : j < P.height a.rest)
    (h : Over (drawInfo E.W E.H (P.width a.rest) (P.height a.rest)) i j x y) :
    ∃ a', event P E (.move x y) a = .ok a' ∧ ShownAt a a' i j := by
  have hs := scale_pos hW hH (by omega : 0 < P.width a.rest) (by omega : 0 < P.height a.rest)
  generalize hd : drawInfo E.W E.H (P.width a.rest) (P.height a.rest) = d at h hs
  obtain ⟨sx, sy, e1, e2, e3⟩ := place_spec P ((x - d.xMargin) / d.scale) ((y - d.yMargin) / d.scale) a hw hh
  have f1 := floor_over hs h.1
  have f2 := floor_over hs h.2
  have hx0 : 0 ≤ (x - d.xMargin) / d.scale := by
    have : (0 : Int) ≤ ⌊(x - d.xMargin) / d.scale⌋ := by rw [f1]; omega
    exact Int.floor_nonneg.1 this
  have hy0 : 0 ≤ (y - d.yMargin) / d.scale := by
    have : (0 : Int) ≤ ⌊(y - d.yMargin) / d.scale⌋ := by rw [f2]; omega
    exact Int.floor_nonneg.1 this
  have hx1 : (x - d.xMargin) / d.scale ≤ (P.width a.rest : Rat) := by
    have := Int.lt_floor_add_one ((x - d.xMargin) / d.scale)
    rw [f1] at this
    have h2 : ((i : Int) : Rat) + 1 ≤ (P.width a.rest : Rat) := by exact_mod_cast hi
    linarith
  have hy1 : (y - d.yMargin) / d.scale ≤ (P.height a.rest : Rat) := by
    have := Int.lt_floor_add_one ((y - d.yMargin) / d.scale)
    rw [f2] at this
    have h2 : ((j : Int) : Rat) + 1 ≤ (P.height a.rest : Rat) := by exact_mod_cast hj
    linarith
  rw [clamp_id hx0 hx1, f1] at e2
  rw [clamp_id hy0 hy1, f2] at e3
  have ee : event P E (.move x y) a = .ok (updateMouse P { a with dev := { a.dev with mouse := { a.dev.mouse with x := sx, y := sy } } }) := by
    unfold event handle
    dsimp only
    rw [hd, e1]
    rfl
  exact ⟨_, ee, _, rfl, rfl, by exact_mod_cast e2, by exact_mod_cast e3, rfl, by exact_mod_cast e2, by exact_mod_cast e3⟩

/-- **C64**, position. Wherever the pointer is, the position is at most the size of the screen. Partial: it should be less
(`C64_edge_violated`). -/
theorem C64_position_bounded_partial (P : Program σ) (E : Env) (x y : Rat) (a : App σ)
    (hw : P.width a.rest ≤ 65535) (hh : P.height a.rest ≤ 65535) :
    ∃ a' i j, event P E (.move x y) a = .ok a' ∧ ShownAt a a' i j ∧ i ≤ P.width a.rest ∧ j ≤ P.height a.rest := by
  generalize hd : drawInfo E.W E.H (P.width a.rest) (P.height a.rest) = d
  obtain ⟨sx, sy, e1, e2, e3⟩ := place_spec P ((x - d.xMargin) / d.scale) ((y - d.yMargin) / d.scale) a hw hh
  have ee : event P E (.move x y) a = .ok (updateMouse P { a with dev := { a.dev with mouse := { a.dev.mouse with x := sx, y := sy } } }) := by
    unfold event handle
    dsimp only
    rw [hd, e1]
    rfl
  have b : ∀ (v : Rat) (n : Nat), ⌊clamp v 0 n⌋ ≤ (n : Int) := by
    intro v n
    have c := clamp_mem v n (by exact_mod_cast Nat.zero_le n)
    have := Int.floor_le (clamp v 0 n)
    have h2 : ((⌊clamp v 0 n⌋ : Int) : Rat) ≤ ((n : Int) : Rat) := by push_cast; linarith [c.2]
    exact_mod_cast h2
  refine ⟨_, sx.toNat, sy.toNat, ee, ⟨_, rfl, rfl, rfl, rfl, rfl, rfl, rfl⟩, ?_, ?_⟩
  · have := b ((x - d.xMargin) / d.scale) (P.width a.rest)
    omega
  · have := b ((y - d.yMargin) / d.scale) (P.height a.rest)
    omega

/-- A program that does nothing, with a screen of the default size. -/
def idle : Program Unit := ⟨fun _ vm _ r => (vm, r), fun _ => 512, fun _ => 320⟩

/-- The position after a history. -/
def posOf (r : Res (App σ)) : Option (Nat × Nat) :=
  match r with
  | .ok a => some (a.dev.mouse.x.toNat, a.dev.mouse.y.toNat)
  | .error _ => none

/-- An empty machine. -/
def blank : VM := ⟨65536, 0, 0, fun _ => 0, fun _ => 0, fun _ => 0, fun _ => 0⟩

/-- **C64** fails at the edge: when the pointer leaves the picture to the right, the program gets the position 512 on a screen
with the columns 0 to 511. -/
theorem C64_edge_violated :
    posOf (events idle [(⟨1024, 640, false⟩, .move 1024 639)] (start blank () ⟨0, [], 0, 0⟩)) = some (512, 319) := by
  decide +kernel

/-- Over a pixel of a magnified picture that is centred in a wide window. -/
example : Over (drawInfo 1200 640 512 320) 100 7 289 15 ∧
    posOf (events idle [(⟨1200, 640, false⟩, .move 289 15)] (start blank () ⟨0, [], 0, 0⟩)) = some (100, 7) := by
  refine ⟨?_, by decide +kernel⟩
  unfold Over
  decide +kernel

end Buxn.Gui
