import Verif.Devices.ScreenProps
/-!
# The drawing ports (C20, C21)
-/
namespace Buxn.Screen
open Buxn.VM

/-- The registers that drawing does not change. -/
structure SameSetup (s s' : Screen) : Prop where
  width : s'.width = s.width
  height : s'.height = s.height
  mx : s'.rMX = s.rMX
  my : s'.rMY = s.rMY
  ma : s'.rMA = s.rMA
  ml : s'.rML = s.rML
  dx : s'.rDX = s.rDX
  dy : s'.rDY = s.rDY

theorem SameSetup.auto {s s' : Screen} (h : SameSetup s s') {a : Byte} (ha : AutoIs s a) : AutoIs s' a :=
  ⟨h.mx.trans ha.mx, h.my.trans ha.my, h.ma.trans ha.ma, h.ml.trans ha.ml, h.dx.trans ha.dx, h.dy.trans ha.dy⟩

theorem setLayer_setup (s : Screen) (ctrl : Byte) (l : Layer) (r : Rect) : SameSetup s (setLayer s ctrl l r) := by
  obtain ⟨h1, h2, h3, h4, h5, h6, h7, h8, h9, h10, h11⟩ := setLayer_same s ctrl l r
  exact ⟨h1, h2, h6, h7, h8, h9, h10, h11⟩

/-- Everything about a draw except which pixels it colours. -/
structure Drawn (s s' : Screen) (ctrl : Byte) (rect : Rect) : Prop where
  setup : SameSetup s s'
  other : otherLayer s' ctrl = otherLayer s ctrl
  otherRect : (if bit ctrl 6 then s'.bgRect = s.bgRect else s'.fgRect = s.fgRect)
  rect : rectOf s' ctrl = rect
  colors : (∀ j, layerOf s ctrl j < 4) → ∀ j, layerOf s' ctrl j < 4

theorem otherRect_set (s : Screen) (ctrl : Byte) (l : Layer) (r : Rect) (X Y A : Int) :
    (if bit ctrl 6 then ({ (setLayer s ctrl l r) with rX := X, rY := Y, rA := A } : Screen).bgRect = s.bgRect
      else ({ (setLayer s ctrl l r) with rX := X, rY := Y, rA := A } : Screen).fgRect = s.fgRect) := by
  unfold setLayer
  cases bit ctrl 6 <;> rfl

theorem pixelOp_pixel (s : Screen) (ctrl : Byte) (hw : 0 ≤ s.width) (hh : 0 ≤ s.height) (hfill : bit ctrl 7 = false) :
    ∃ s', pixelOp s ctrl = .ok s' ∧ Drawn s s' ctrl (dirty (rectOf s ctrl) s.rX s.rY (s.rX + 1) (s.rY + 1)) ∧
      (∀ x y, Visible s x y → pix s.width (layerOf s' ctrl) x y =
        if x = s.rX ∧ y = s.rY then ctrl.toNat % 4 else pix s.width (layerOf s ctrl) x y) ∧
      s'.rX = (if s.rMX ≠ 0 then s.rX + 1 else s.rX) ∧ s'.rY = (if s.rMY ≠ 0 then s.rY + 1 else s.rY) ∧ s'.rA = s.rA := by
  have key : ∃ l', (if s.rX ≥ 0 ∧ s.rY ≥ 0 ∧ s.rX < s.width + 16 ∧ s.rY < s.height then
        put s.size (layerOf s ctrl) ((s.rX + 8) + (s.rY + 8) * (s.width + 16)) (ctrl.toNat % 4)
      else .ok (layerOf s ctrl)) = .ok l' ∧
      (∀ x y, Visible s x y → pix s.width l' x y = if x = s.rX ∧ y = s.rY then ctrl.toNat % 4 else pix s.width (layerOf s ctrl) x y) ∧
      ((∀ j, layerOf s ctrl j < 4) → ∀ j, l' j < 4) := by
    by_cases hin : s.rX ≥ 0 ∧ s.rY ≥ 0 ∧ s.rX < s.width + 16 ∧ s.rY < s.height
    · rw [if_pos hin]
      -- a position right of the screen is in the margin of this row or of the next
      have hb : 0 ≤ (s.rX + 8) + (s.rY + 8) * (s.width + 16) ∧ (s.rX + 8) + (s.rY + 8) * (s.width + 16) < s.size := by
        unfold Screen.size
        have h4 : 0 ≤ (s.rY + 8) * (s.width + 16) := Int.mul_nonneg (by omega) (by omega)
        have h5 : (s.rY + 8 + 2) * (s.width + 16) ≤ (s.height + 16) * (s.width + 16) := Int.mul_le_mul_of_nonneg_right (by omega) (by omega)
        rw [Int.add_mul] at h5
        rw [Int.mul_comm (s.width + 16) (s.height + 16)]
        omega
      rw [put_ok hb]
      refine ⟨_, rfl, ?_, ?_⟩
      · intro x y hv
        obtain ⟨v1, v2, v3, v4⟩ := hv
        unfold pix
        beta_reduce
        by_cases hr : s.rX + 8 < s.width + 16
        · have := cell_inj (W := s.width + 16) (cx := x + 8) (cy := y + 8) (cx' := s.rX + 8) (cy' := s.rY + 8) (by omega) (by omega)
            (by omega) (by omega)
          by_cases he : x = s.rX ∧ y = s.rY
          · rw [if_pos he, if_pos (this.mpr (by omega))]
          · rw [if_neg he, if_neg (fun h => he (by have := this.mp h; omega))]
        · have heq : (s.rX + 8) + (s.rY + 8) * (s.width + 16) = (s.rX + 8 - (s.width + 16)) + (s.rY + 8 + 1) * (s.width + 16) := by
            rw [Int.add_mul (s.rY + 8) 1]; omega
          have := cell_inj (W := s.width + 16) (cx := x + 8) (cy := y + 8) (cx' := s.rX + 8 - (s.width + 16)) (cy' := s.rY + 8 + 1) (by omega)
            (by omega) (by omega) (by omega)
          rw [heq, if_neg (c := x = s.rX ∧ y = s.rY) (by omega), if_neg (fun h => by have := this.mp h; omega)]
      · intro hc j
        beta_reduce
        split
        · exact Nat.mod_lt _ (by decide)
        · exact hc j
    · rw [if_neg hin]
      refine ⟨_, rfl, ?_, fun h => h⟩
      intro x y hv
      obtain ⟨v1, v2, v3, v4⟩ := hv
      rw [if_neg (by omega)]
  obtain ⟨l', k1, k2, k3⟩ := key
  unfold pixelOp
  dsimp only
  rw [hfill, if_neg (by decide), k1]
  simp only [bind, Except.bind, pure, Except.pure]
  obtain ⟨e1, e2, e3⟩ := layerOf_setLayer s ctrl l' (dirty (rectOf s ctrl) s.rX s.rY (s.rX + 1) (s.rY + 1))
  have hset := setLayer_setup s ctrl l' (dirty (rectOf s ctrl) s.rX s.rY (s.rX + 1) (s.rY + 1))
  obtain ⟨_, _, _, _, hA, _⟩ := setLayer_same s ctrl l' (dirty (rectOf s ctrl) s.rX s.rY (s.rX + 1) (s.rY + 1))
  refine ⟨_, rfl, ⟨⟨hset.width, hset.height, hset.mx, hset.my, hset.ma, hset.ml, hset.dx, hset.dy⟩, e2, ?_, e3, ?_⟩, ?_, rfl, rfl, hA⟩
  · exact otherRect_set s ctrl l' _ _ _ _
  · intro h j
    have := k3 h j
    rw [← e1] at this
    exact this
  · intro x y hv
    rw [← k2 x y hv]
    exact congrArg (fun l => pix s.width l x y) e1

theorem pixelOp_fill (s : Screen) (ctrl : Byte) (hw : 0 ≤ s.width) (hh : 0 ≤ s.height) (hfill : bit ctrl 7 = true) (hn : Near s) :
    ∃ s', pixelOp s ctrl = .ok s' ∧ Drawn s s' ctrl (dirty (rectOf s ctrl) ((fillBounds s ctrl).1 - 8) ((fillBounds s ctrl).2.2.1 - 8)
        ((fillBounds s ctrl).2.1 - 8) ((fillBounds s ctrl).2.2.2 - 8)) ∧
      (∀ x y, Visible s x y → pix s.width (layerOf s' ctrl) x y =
        if InFill s ctrl x y then ctrl.toNat % 4 else pix s.width (layerOf s ctrl) x y) ∧
      s'.rX = s.rX ∧ s'.rY = s.rY ∧ s'.rA = s.rA := by
  obtain ⟨l', k1, k2, k3⟩ := fill_ok s ctrl hw hh hn (ctrl.toNat % 4) (layerOf s ctrl)
  unfold pixelOp
  dsimp only
  rw [hfill, if_pos rfl]
  obtain ⟨x1, x2, y1, y2, hb⟩ : ∃ x1 x2 y1 y2, fillBounds s ctrl = (x1, x2, y1, y2) := ⟨_, _, _, _, rfl⟩
  rw [hb] at k1 ⊢
  simp only [bind, Except.bind, pure, Except.pure]
  dsimp only at k1 ⊢
  rw [k1]
  dsimp only
  obtain ⟨e1, e2, e3⟩ := layerOf_setLayer s ctrl l' (dirty (rectOf s ctrl) (x1 - 8) (y1 - 8) (x2 - 8) (y2 - 8))
  have hset := setLayer_setup s ctrl l' (dirty (rectOf s ctrl) (x1 - 8) (y1 - 8) (x2 - 8) (y2 - 8))
  obtain ⟨_, _, hX, hY, hA, _⟩ := setLayer_same s ctrl l' (dirty (rectOf s ctrl) (x1 - 8) (y1 - 8) (x2 - 8) (y2 - 8))
  refine ⟨_, rfl, ⟨hset, e2, ?_, e3, ?_⟩, ?_, hX, hY, hA⟩
  · unfold setLayer
    cases bit ctrl 6 <;> rfl
  · intro h j
    rw [e1]
    exact k3 h (Nat.mod_lt _ (by decide)) j
  · intro x y hv
    rw [e1]
    exact k2 x y hv

/-- The increment of the address after each sprite. -/
def addrStep (s : Screen) (ctrl : Byte) : Int := if bit ctrl 7 then s.rMA * 4 else s.rMA * 2

/-- All the sprites of an operation lie in memory. -/
def SpritesInMemory (vm : VM) (s : Screen) (ctrl : Byte) : Prop :=
  ∀ k : Nat, k ≤ s.rML → SpriteInMemory vm (bit ctrl 7) (s.rA + k * addrStep s ctrl)

theorem spriteOp_ok (vm : VM) (s : Screen) (ctrl : Byte) (hw : 0 ≤ s.width) (hh : 0 ≤ s.height) (hw2 : s.width ≤ 65520)
    (hh2 : s.height ≤ 65520) (hm : SpritesInMemory vm s ctrl) :
    ∃ s', spriteOp vm s ctrl = .ok s' ∧
      Drawn s s' ctrl (spriteDirty s ctrl (s.rX + ((s.rML + 1 : Nat) : Int) * (flipX ctrl * s.rDY)) (s.rY + ((s.rML + 1 : Nat) : Int) * (flipY ctrl * s.rDX))) ∧
      (∀ x y, Visible s x y → pix s.width (layerOf s' ctrl) x y =
        drawSprites vm ctrl (flipX ctrl * s.rDY) (flipY ctrl * s.rDX) (addrStep s ctrl) (s.rML + 1) s.rA s.rX s.rY (pix s.width (layerOf s ctrl)) x y) ∧
      s'.rX = (if s.rMX ≠ 0 then s.rX + s.rDX * flipX ctrl else s.rX) ∧ s'.rY = (if s.rMY ≠ 0 then s.rY + s.rDY * flipY ctrl else s.rY) ∧
      s'.rA = s.rA + ((s.rML + 1 : Nat) : Int) * addrStep s ctrl := by
  obtain ⟨l', k1, k2, k3⟩ := sprites_ok vm s ctrl hw hh hw2 hh2 (flipX ctrl * s.rDY) (flipY ctrl * s.rDX) (addrStep s ctrl) (s.rML + 1) s.rA s.rX s.rY
    (fun k hk => hm k (by omega)) (layerOf s ctrl)
  unfold spriteOp
  simp only [bind, Except.bind, pure, Except.pure]
  have hincr : (if bit ctrl 7 then s.rMA * 4 else s.rMA * 2) = addrStep s ctrl := rfl
  rw [hincr, k1]
  dsimp only
  obtain ⟨r, hr⟩ : ∃ r, r = spriteDirty s ctrl (s.rX + ((s.rML + 1 : Nat) : Int) * (flipX ctrl * s.rDY)) (s.rY + ((s.rML + 1 : Nat) : Int) * (flipY ctrl * s.rDX)) :=
    ⟨_, rfl⟩
  rw [← hr]
  obtain ⟨e1, e2, e3⟩ := layerOf_setLayer s ctrl l' r
  have hset := setLayer_setup s ctrl l' r
  refine ⟨_, rfl, ⟨⟨hset.width, hset.height, hset.mx, hset.my, hset.ma, hset.ml, hset.dx, hset.dy⟩, e2, ?_, e3, ?_⟩, ?_, rfl, rfl, rfl⟩
  · exact otherRect_set s ctrl l' _ _ _ _
  · intro h j
    have := k3 h j
    rw [← e1] at this
    exact this
  · intro x y hv
    rw [← k2 x y hv]
    exact congrArg (fun l => pix s.width l x y) e1

/-! ## C21 at the ports -/

/-- The screen that a draw works on: after the resize the size ports may ask for. -/
def target (vm : VM) (g : Gui) : Screen := (maybeResize vm g).scr

theorem deo_2e (vm : VM) (g : Gui) {s' : Screen} (h : pixelOp (target vm g) (vm.device 0x2e) = .ok s') :
    deo vm g 0x2e = .ok { (maybeResize vm g) with scr := s' } := by
  have : deo vm g 0x2e = (do return { (maybeResize vm g) with scr := ← pixelOp (target vm g) (vm.device 0x2e) }) := rfl
  rw [this, h]
  rfl

theorem deo_2f (vm : VM) (g : Gui) {s' : Screen} (h : spriteOp vm (target vm g) (vm.device 0x2f) = .ok s') :
    deo vm g 0x2f = .ok { (maybeResize vm g) with scr := s' } := by
  have : deo vm g 0x2f = (do return { (maybeResize vm g) with scr := ← spriteOp vm (target vm g) (vm.device 0x2f) }) := rfl
  rw [this, h]
  rfl

/-- A screen size the host can have. -/
def SizeOk (s : Screen) : Prop := 0 ≤ s.width ∧ s.width ≤ 65520 ∧ 0 ≤ s.height ∧ s.height ≤ 65520

/-- **C21.** A write to the pixel port with bit 7 clear colours exactly the pixel at the position, if it is on the
screen, in the layer selected by bit 6, with the colour in bits 0-1; then the position moves as the auto byte says. -/
theorem C21_pixel (vm : VM) (g : Gui) (auto : Byte) (hs : SizeOk (target vm g)) (ha : AutoIs (target vm g) auto)
    (hfill : bit (vm.device 0x2e) 7 = false) :
    ∃ g', deo vm g 0x2e = .ok g' ∧
      (∀ x y, Visible (target vm g) x y → pix (target vm g).width (layerOf g'.scr (vm.device 0x2e)) x y =
        if x = (target vm g).rX ∧ y = (target vm g).rY then (vm.device 0x2e).toNat % 4
        else pix (target vm g).width (layerOf (target vm g) (vm.device 0x2e)) x y) ∧
      otherLayer g'.scr (vm.device 0x2e) = otherLayer (target vm g) (vm.device 0x2e) ∧
      g'.scr.rX = (target vm g).rX + (if bit auto 0 then 1 else 0) ∧ g'.scr.rY = (target vm g).rY + (if bit auto 1 then 1 else 0) := by
  obtain ⟨s', h1, h2, h3, h4, h5, h6⟩ := pixelOp_pixel (target vm g) (vm.device 0x2e) hs.1 hs.2.2.1 hfill
  refine ⟨{ (maybeResize vm g) with scr := s' }, ?_, h3, h2.other, ?_, ?_⟩
  · exact deo_2e vm g h1
  · dsimp only
    rw [h4, ha.mx]
    cases bit auto 0 <;> simp
  · dsimp only
    rw [h5, ha.my]
    cases bit auto 1 <;> simp

/-- **C21.** A write to the pixel port with bit 7 set colours exactly the quadrant selected by bits 4 and 5, provided
that the position is at most 8 pixels off the screen. Missing: other positions, see `C21_fill_violated`. -/
theorem C21_fill_partial (vm : VM) (g : Gui) (hs : SizeOk (target vm g)) (hn : Near (target vm g)) (hfill : bit (vm.device 0x2e) 7 = true) :
    ∃ g', deo vm g 0x2e = .ok g' ∧
      (∀ x y, Visible (target vm g) x y → pix (target vm g).width (layerOf g'.scr (vm.device 0x2e)) x y =
        if InFill (target vm g) (vm.device 0x2e) x y then (vm.device 0x2e).toNat % 4
        else pix (target vm g).width (layerOf (target vm g) (vm.device 0x2e)) x y) ∧
      otherLayer g'.scr (vm.device 0x2e) = otherLayer (target vm g) (vm.device 0x2e) ∧
      g'.scr.rX = (target vm g).rX ∧ g'.scr.rY = (target vm g).rY := by
  obtain ⟨s', h1, h2, h3, h4, h5, h6⟩ := pixelOp_fill (target vm g) (vm.device 0x2e) hs.1 hs.2.2.1 hfill hn
  refine ⟨{ (maybeResize vm g) with scr := s' }, ?_, h3, h2.other, h4, h5⟩
  exact deo_2e vm g h1

/-- **C21.** A write to the sprite port draws as many sprites as the high half of the auto byte says, plus one: the
position steps by 8 in `x` if bit 1 of the auto byte is set and in `y` if bit 0 is, backwards if the sprite is mirrored
that way; the address steps by the size of a sprite if bit 2 is set. Each is drawn as `drawSprite` says. The other layer
does not change. Then the position moves by 8 as the auto byte says. -/
theorem C21_sprite (vm : VM) (g : Gui) (auto : Byte) (hs : SizeOk (target vm g)) (ha : AutoIs (target vm g) auto)
    (hm : SpritesInMemory vm (target vm g) (vm.device 0x2f)) :
    ∃ g', deo vm g 0x2f = .ok g' ∧
      (∀ x y, Visible (target vm g) x y → pix (target vm g).width (layerOf g'.scr (vm.device 0x2f)) x y =
        drawSprites vm (vm.device 0x2f)
          (if bit auto 1 then (if bit (vm.device 0x2f) 4 then -8 else 8) else 0)
          (if bit auto 0 then (if bit (vm.device 0x2f) 5 then -8 else 8) else 0)
          (if bit auto 2 then (if bit (vm.device 0x2f) 7 then 16 else 8) else 0)
          (auto.toNat / 16 + 1) (target vm g).rA (target vm g).rX (target vm g).rY
          (pix (target vm g).width (layerOf (target vm g) (vm.device 0x2f))) x y) ∧
      otherLayer g'.scr (vm.device 0x2f) = otherLayer (target vm g) (vm.device 0x2f) ∧
      g'.scr.rX = (target vm g).rX + (if bit auto 0 then (if bit (vm.device 0x2f) 4 then -8 else 8) else 0) ∧
      g'.scr.rY = (target vm g).rY + (if bit auto 1 then (if bit (vm.device 0x2f) 5 then -8 else 8) else 0) := by
  obtain ⟨s', h1, h2, h3, h4, h5, h6⟩ := spriteOp_ok vm (target vm g) (vm.device 0x2f) hs.1 hs.2.2.1 hs.2.1 hs.2.2.2 hm
  have e1 : flipX (vm.device 0x2f) * (target vm g).rDY = if bit auto 1 then (if bit (vm.device 0x2f) 4 then -8 else 8) else 0 := by
    rw [ha.dy]; unfold flipX; cases bit auto 1 <;> cases bit (vm.device 0x2f) 4 <;> rfl
  have e2 : flipY (vm.device 0x2f) * (target vm g).rDX = if bit auto 0 then (if bit (vm.device 0x2f) 5 then -8 else 8) else 0 := by
    rw [ha.dx]; unfold flipY; cases bit auto 0 <;> cases bit (vm.device 0x2f) 5 <;> rfl
  have e3 : addrStep (target vm g) (vm.device 0x2f) = if bit auto 2 then (if bit (vm.device 0x2f) 7 then 16 else 8) else 0 := by
    unfold addrStep; rw [ha.ma]; cases bit auto 2 <;> cases bit (vm.device 0x2f) 7 <;> rfl
  refine ⟨{ (maybeResize vm g) with scr := s' }, ?_, ?_, h2.other, ?_, ?_⟩
  · exact deo_2f vm g h1
  · rw [← e1, ← e2, ← e3, ← ha.ml]
    exact h3
  · dsimp only
    rw [h4, ha.mx, ha.dx]
    unfold flipX
    cases bit auto 0 <;> cases bit (vm.device 0x2f) 4 <;> simp
  · dsimp only
    rw [h5, ha.my, ha.dy]
    unfold flipY
    cases bit auto 1 <;> cases bit (vm.device 0x2f) 5 <;> simp

theorem byte_bits : ∀ b : Byte, (b &&& 1).toNat = (if b.getLsbD 0 then 1 else 0) ∧ (b &&& 2).toNat = (if b.getLsbD 1 then 2 else 0) ∧
    (b &&& 4).toNat = (if b.getLsbD 2 then 4 else 0) ∧ (b >>> 4).toNat = b.toNat / 16 := by decide +kernel

/-- **C21.** Writing the auto port sets the registers as the auto byte says; `AutoIs` is the hypothesis of the two
theorems above. -/
theorem C21_auto (vm : VM) (g : Gui) : ∃ g', deo vm g 0x26 = .ok g' ∧ AutoIs g'.scr (vm.device 0x26) := by
  refine ⟨_, rfl, ?_⟩
  obtain ⟨h1, h2, h3, h4⟩ := byte_bits (vm.device 0x26)
  refine ⟨?_, ?_, ?_, h4, ?_, ?_⟩ <;> dsimp only <;> unfold bit <;> simp only [h1, h2, h3] <;> split <;> rfl

/-- **C21.** The position ports set the position to the signed value of the two bytes, the address port to the unsigned
value. -/
theorem C21_position (vm : VM) (g : Gui) :
    (∀ a, a = 0x28 ∨ a = 0x29 → ∃ g', deo vm g a = .ok g' ∧ g'.scr.rX = (vm.device 0x28 ++ vm.device 0x29).toInt) ∧
    (∀ a, a = 0x2a ∨ a = 0x2b → ∃ g', deo vm g a = .ok g' ∧ g'.scr.rY = (vm.device 0x2a ++ vm.device 0x2b).toInt) ∧
    (∀ a, a = 0x2c ∨ a = 0x2d → ∃ g', deo vm g a = .ok g' ∧ g'.scr.rA = (vm.device 0x2c ++ vm.device 0x2d).toNat) := by
  have hcat : ∀ h l : Byte, (h ++ l).toNat = h.toNat * 256 + l.toNat := by
    intro h l
    rw [BitVec.toNat_append, ← Nat.shiftLeft_add_eq_or_of_lt l.isLt, Nat.shiftLeft_eq]
  have htw : ∀ h l : Byte, twos (h.toNat * 256 + l.toNat) = (h ++ l).toInt := by
    intro h l
    unfold twos
    rw [BitVec.toInt_eq_toNat_cond, hcat]
    have := h.isLt
    have := l.isLt
    norm_num
    split <;> split <;> omega
  refine ⟨?_, ?_, ?_⟩
  · rintro a (rfl | rfl) <;> exact ⟨_, rfl, htw _ _⟩
  · rintro a (rfl | rfl) <;> exact ⟨_, rfl, htw _ _⟩
  · rintro a (rfl | rfl) <;> exact ⟨_, rfl, by rw [hcat]; rfl⟩

/-! ## C20 -/

/-- **C20.** No write to any port accesses anything outside the layers or guest memory, provided that a fill has its
position at most 8 pixels off the screen and that the sprites lie in memory. The pixel mode is safe at every position
and the sprite port at every position, mode byte and size. Missing: the two conditions, which the code does not check
(`C20_fill_violated`, `C20_address_violated`). -/
theorem C20_in_bounds_partial (vm : VM) (g : Gui) (a : Byte) (hs : SizeOk (target vm g))
    (hfill : a = 0x2e → bit (vm.device 0x2e) 7 = true → Near (target vm g))
    (haddr : a = 0x2f → SpritesInMemory vm (target vm g) (vm.device 0x2f)) : ∃ g', deo vm g a = .ok g' := by
  by_cases h1 : a = 0x2e
  · subst h1
    cases hb : bit (vm.device 0x2e) 7 with
    | true =>
      obtain ⟨g', h, _⟩ := C21_fill_partial vm g hs (hfill rfl hb) hb
      exact ⟨g', h⟩
    | false =>
      obtain ⟨s', h1, _⟩ := pixelOp_pixel (target vm g) (vm.device 0x2e) hs.1 hs.2.2.1 hb
      refine ⟨{ (maybeResize vm g) with scr := s' }, ?_⟩
      exact deo_2e vm g h1
  · by_cases h2 : a = 0x2f
    · subst h2
      obtain ⟨s', h1, _⟩ := spriteOp_ok vm (target vm g) (vm.device 0x2f) hs.1 hs.2.2.1 hs.2.1 hs.2.2.2 (haddr rfl)
      refine ⟨{ (maybeResize vm g) with scr := s' }, ?_⟩
      exact deo_2f vm g h1
    · unfold deo
      dsimp only
      split
      · exact ⟨_, rfl⟩
      split
      · exact ⟨_, rfl⟩
      split
      · exact ⟨_, rfl⟩
      split
      · exact ⟨_, rfl⟩
      exact ⟨g, rfl⟩

/-- Directly after the address port is written, the condition on the address holds if the guest memory is larger than
64K + 256 bytes, whatever the rest. -/
theorem C20_fresh_address (vm : VM) (s : Screen) (auto ctrl : Byte) (ha : AutoIs s auto) (h0 : 0 ≤ s.rA) (h1 : s.rA < 65536)
    (hm : 65536 + 256 ≤ vm.memSize) : SpritesInMemory vm s ctrl := by
  intro k hk
  have hml := ha.ml
  have := auto.isLt
  have hk2 : k ≤ 15 := by omega
  have hst : addrStep s ctrl = 0 ∨ addrStep s ctrl = 8 ∨ (addrStep s ctrl = 16 ∧ bit ctrl 7 = true) := by
    unfold addrStep; rw [ha.ma]; cases bit auto 2 <;> cases bit ctrl 7 <;> simp
  unfold SpriteInMemory
  rcases hst with h | h | ⟨h, _⟩ <;> rw [h] <;> cases bit ctrl 7 <;> simp <;> omega

/-- A machine with `m` bytes of memory and the given device page. -/
def machine (m : Nat) (dev : Byte → Byte) : VM :=
  ⟨m, 0, 0, fun _ => 0, fun _ => 0, dev, fun _ => 0⟩

/-- A history of port writes, each with the machine as it is at that moment. -/
def history (g : Gui) (ops : List (VM × Byte)) : Res Gui := ops.foldlM (fun g op => deo op.1 g op.2) g

end Buxn.Screen
