import Verif.Devices.ScreenOps
/-!
# Where the screen device leaves its bounds, and cases that meet the hypotheses of C20 and C21
-/
namespace Buxn.Screen
open Buxn.VM

/-- Whether the code accesses something out of bounds. -/
def isOob {α : Type} : Res α → Bool
  | .error .oob => true
  | _ => false

/-- A colour of a layer after a history. -/
def seen (fg : Bool) (x y : Int) : Res Gui → Option Nat
  | .ok g => some (pix g.scr.width (if fg then g.scr.fg else g.scr.bg) x y)
  | .error _ => none

/-- A device page with the position `(x, y)`, the auto byte, the mode bytes of the two ports, and the size ports 0. -/
def page (xh xl yh yl auto pixel spr : Byte) : Byte → Byte := fun a =>
  if a = 0x28 then xh else if a = 0x29 then xl else if a = 0x2a then yh else if a = 0x2b then yl
  else if a = 0x26 then auto else if a = 0x2e then pixel else if a = 0x2f then spr else 0

/-- **C20 fails for a fill far off the screen**: position (0, -16), fill to the right and down, on the default screen of
the emulator. The code writes before the beginning of the layer. -/
theorem C20_fill_violated :
    isOob (history (start 512 320) [(machine 65536 (page 0 0 0xff 0xf0 0 0x81 0), 0x2a), (machine 65536 (page 0 0 0xff 0xf0 0 0x81 0), 0x2e)]) = true := by
  decide +kernel

/-- **C21 fails for a fill more than 8 pixels off the screen**: with a screen of 8 by 8 pixels and the position (-20, 4), a
fill to the right and down colours pixels of the row above, (4, 3). -/
theorem C21_fill_violated :
    let h := history (start 8 8) [(machine 65536 (page 0xff 0xec 0 4 0 0x81 0), 0x28), (machine 65536 (page 0xff 0xec 0 4 0 0x81 0), 0x2a),
      (machine 65536 (page 0xff 0xec 0 4 0 0x81 0), 0x2e)]
    seen false 4 3 h = some 1 ∧ seen false 3 3 h = some 0 ∧ seen false 3 4 h = some 1 := by decide +kernel

/-- A pixel, a fill and a sprite within the hypotheses of C21: position (2, 3), colours 2 and 1; then the sprite
(all zero) with blending mode 4, which is opaque, over the upper left. -/
example :
    let m := machine 65536 (page 0 2 0 3 0 0x42 0x44)
    seen true 2 3 (history (start 8 8) [(m, 0x28), (m, 0x2a), (m, 0x2e)]) = some 2 ∧
    seen true 2 4 (history (start 8 8) [(m, 0x28), (m, 0x2a), (m, 0x2e)]) = some 0 ∧
    seen true 2 4 (history (start 8 8) [(m, 0x28), (m, 0x2a), (m, 0x2e), (m, 0x2f)]) = some 1 ∧
    seen true 1 4 (history (start 8 8) [(m, 0x28), (m, 0x2a), (m, 0x2e), (m, 0x2f)]) = some 0 ∧
    seen false 1 4 (history (start 8 8) [(m, 0x28), (m, 0x2a), (machine 65536 (page 0 2 0 3 0 0xb3 0), 0x2e)]) = some 0 ∧
    seen false 1 2 (history (start 8 8) [(m, 0x28), (m, 0x2a), (machine 65536 (page 0 2 0 3 0 0xb3 0), 0x2e)]) = some 3 := by
  decide +kernel

/-- The hypotheses of the theorems hold on the default screen after the auto port is written. -/
example : SizeOk (target (machine 65536 (page 0 2 0 3 0xf7 0x42 0x44)) (start 512 320)) ∧
    Near (target (machine 65536 (page 0 2 0 3 0xf7 0x42 0x44)) (start 512 320)) ∧ AutoIs (start 512 320).scr 0 ∧
    SpritesInMemory (machine (65536 * 16) (page 0 2 0 3 0xf7 0x42 0x44)) (start 512 320).scr 0x84 := by
  refine ⟨by unfold SizeOk; decide +kernel, by unfold Near; decide +kernel, ⟨rfl, rfl, rfl, rfl, rfl, rfl⟩, ?_⟩
  exact C20_fresh_address _ _ 0 _ ⟨rfl, rfl, rfl, rfl, rfl, rfl⟩ (by decide) (by decide) (by decide)

/-! ## The address runs away -/

/-- The machine of the witness: 16 sprites at a time, the address moves, two bits per pixel. -/
def runMachine (m : Nat) (xh xl : Byte) : VM := machine m (page xh xl 0 0 0xf4 0 0x81)

theorem no_resize (m : Nat) (xh xl : Byte) (g : Gui) : maybeResize (runMachine m xh xl) g = g := by
  have e : (runMachine m xh xl).devLoad2 0x22 = 0 := by
    simp [VM.devLoad2, runMachine, machine, page]
  unfold maybeResize preferred
  rw [e]
  simp

/-- The state of the witness after some sprites: only the address and a rectangle matter. -/
structure Running (g : Gui) (a : Int) (x : Int) : Prop where
  w : g.scr.width = 512
  h : g.scr.height = 320
  auto : AutoIs g.scr 0xf4
  x : g.scr.rX = x
  y : g.scr.rY = 0
  a : g.scr.rA = a

theorem sprites_off (vm : VM) (s : Screen) (hw : s.width = 512) (n : Nat) (rA y : Int) (l : Layer) (da dy : Int) :
    sprites vm s 1 true 1 1 0 dy da n rA 0x7fff y l = .ok (rA + n * da, 0x7fff, y + n * dy, l) := by
  induction n generalizing rA y with
  | zero => simp [sprites]
  | succ n ih =>
    unfold sprites
    have h1 : sprite vm s 1 true 1 1 rA 0x7fff y l = .ok l := by
      unfold sprite
      dsimp only
      rw [if_neg (by rw [hw]; omega)]
    rw [h1]
    simp only [bind, Except.bind]
    rw [show (0x7fff : Int) + 0 = 0x7fff by rfl, ih]
    congr 2
    · rw [Int.natCast_add, Int.add_mul, Int.natCast_one, Int.one_mul]; omega
    · congr 2
      rw [Int.natCast_add, Int.add_mul, Int.natCast_one, Int.one_mul]; omega

theorem run_step (m : Nat) (g : Gui) (a : Int) (hr : Running g a 0x7fff) :
    ∃ g', deo (runMachine m 0x7f 0xff) g 0x2f = .ok g' ∧ Running g' (a + 256) 0x7fff := by
  obtain ⟨hw, hh, ha, hx, hy, hA⟩ := hr
  have hctrl : (runMachine m 0x7f 0xff).device 0x2f = 0x81 := rfl
  have hs : spriteOp (runMachine m 0x7f 0xff) g.scr 0x81 = .ok
      { (setLayer g.scr 0x81 (layerOf g.scr 0x81) (spriteDirty g.scr 0x81 0x7fff 0)) with rA := a + 256, rX := 0x7fff, rY := 0 } := by
    unfold spriteOp
    have e : (if bit 0x81 7 then g.scr.rMA * 4 else g.scr.rMA * 2) = 16 := by rw [ha.ma]; rfl
    have e1 : flipX 0x81 = 1 := rfl
    have e2 : flipY 0x81 = 1 := rfl
    simp only [bind, Except.bind, pure, Except.pure]
    rw [e, e1, e2, ha.dx, ha.dy, ha.ml, ha.mx, ha.my, hx, hy, hA]
    have := sprites_off (runMachine m 0x7f 0xff) g.scr hw 16 a 0 (layerOf g.scr 0x81) 16 0
    rw [show ((0x81 : Byte).toNat % 16) = 1 by rfl, show bit 0x81 7 = true by rfl,
      show (1 : Int) * (if bit 0xf4 1 = true then 8 else 0) = 0 by rfl, show (1 : Int) * (if bit 0xf4 0 = true then 8 else 0) = 0 by rfl,
      show (0xf4 : Byte).toNat / 16 + 1 = 16 by rfl, this]
    rfl
  refine ⟨{ (maybeResize (runMachine m 0x7f 0xff) g) with scr := { (setLayer g.scr 0x81 (layerOf g.scr 0x81) (spriteDirty g.scr 0x81 0x7fff 0)) with rA := a + 256, rX := 0x7fff, rY := 0 } }, ?_, ?_⟩
  · apply deo_2f
    unfold target
    rw [no_resize, hctrl]
    exact hs
  · have hset := setLayer_setup g.scr 0x81 (layerOf g.scr 0x81) (spriteDirty g.scr 0x81 0x7fff 0)
    have ha2 := hset.auto ha
    exact ⟨hset.width.trans hw, hset.height.trans hh, ⟨ha2.mx, ha2.my, ha2.ma, ha2.ml, ha2.dx, ha2.dy⟩, rfl, rfl, rfl⟩

theorem run_steps (m : Nat) (n : Nat) (g : Gui) (a : Int) (hr : Running g a 0x7fff) :
    ∃ g', history g (List.replicate n (runMachine m 0x7f 0xff, 0x2f)) = .ok g' ∧ Running g' (a + n * 256) 0x7fff := by
  induction n generalizing g a with
  | zero => exact ⟨g, rfl, by simpa using hr⟩
  | succ n ih =>
    obtain ⟨g1, h1, h2⟩ := run_step m g a hr
    obtain ⟨g2, h3, h4⟩ := ih g1 (a + 256) h2
    refine ⟨g2, ?_, ?_⟩
    · unfold history
      rw [List.replicate_succ, List.foldlM_cons, h1]
      exact h3
    · rwa [show a + ((n + 1 : Nat) : Int) * 256 = a + 256 + n * 256 by omega]

theorem history_append (g g1 : Gui) (a b : List (VM × Byte)) (h : history g a = .ok g1) : history g (a ++ b) = history g1 b := by
  unfold history at h ⊢
  rw [List.foldlM_append, h]
  rfl

theorem set_x (m : Nat) (xh xl : Byte) (g : Gui) : deo (runMachine m xh xl) g 0x28 =
    .ok { g with scr := { g.scr with rX := twos (xh.toNat * 256 + xl.toNat) } } := rfl

theorem sprite_far (m : Nat) (s : Screen) (l : Layer) (hw : s.width = 512) (hh : s.height = 320) :
    sprite (runMachine m 0 0) s ((0x81 : Byte).toNat % 16) (bit 0x81 7) (flipX 0x81) (flipY 0x81) (0 + m * 256) 0 0 l = .error .oob := by
  unfold sprite
  dsimp only
  rw [if_pos (by rw [hw, hh]; decide)]
  rw [show (((0 : Int) + 16) % 65536 - (0 + 8) % 65536).toNat = 7 + 1 by rfl]
  unfold spriteRows
  have : rdMem (runMachine m 0 0) (0 + m * 256 + if flipY 0x81 < 0 then 7 else 0) = .error .oob := by
    unfold rdMem
    have hms : (runMachine m 0 0).memSize = m := rfl
    rw [hms, if_neg]
    rw [show (if flipY 0x81 < 0 then (7 : Int) else 0) = 0 by rfl]
    omega
  rw [this]
  rfl

/-- **C20 fails for an address that has run away**: whatever the size of the guest memory, a program that draws sprites
with automatic address increments reads beyond its end. Only the auto port, the position and the sprite port are
written; the address is never reduced to 16 bits (`screen.c:209`, `screen.c:213`). -/
theorem C20_address_violated (m : Nat) : ∃ ops : List (VM × Byte), (∀ op ∈ ops, op.1.memSize = m) ∧
    history (start 512 320) ops = .error .oob := by
  refine ⟨[(runMachine m 0x7f 0xff, 0x26), (runMachine m 0x7f 0xff, 0x28)] ++ List.replicate m (runMachine m 0x7f 0xff, 0x2f) ++
    [(runMachine m 0 0, 0x28), (runMachine m 0 0, 0x2f)], ?_, ?_⟩
  · intro op hop
    simp only [List.mem_append, List.mem_cons, List.not_mem_nil, or_false, List.mem_replicate] at hop
    rcases hop with (((rfl | rfl) | ⟨_, rfl⟩) | (rfl | rfl)) <;> rfl
  · obtain ⟨g0, h0, hr0⟩ : ∃ g0, history (start 512 320) [(runMachine m 0x7f 0xff, 0x26), (runMachine m 0x7f 0xff, 0x28)] = .ok g0 ∧
        Running g0 0 0x7fff := by
      have hd : ∃ g0, deo (runMachine m 0x7f 0xff) (start 512 320) 0x26 = .ok g0 ∧ g0.scr.width = 512 ∧ g0.scr.height = 320 ∧
          AutoIs g0.scr 0xf4 ∧ g0.scr.rY = 0 ∧ g0.scr.rA = 0 := by
        obtain ⟨g', hg, hauto⟩ := C21_auto (runMachine m 0x7f 0xff) (start 512 320)
        refine ⟨_, rfl, rfl, rfl, ?_, rfl, rfl⟩
        have := Except.ok.inj ((show _ = _ from rfl : deo (runMachine m 0x7f 0xff) (start 512 320) 0x26 = Except.ok _).symm.trans hg)
        rw [this]
        exact hauto
      obtain ⟨g0, e0, f1, f2, f3, f4, f5⟩ := hd
      refine ⟨{ g0 with scr := { g0.scr with rX := 0x7fff } }, ?_, ⟨f1, f2, ⟨f3.mx, f3.my, f3.ma, f3.ml, f3.dx, f3.dy⟩, rfl, f4, f5⟩⟩
      unfold history
      rw [List.foldlM_cons, e0]
      simp only [bind, Except.bind]
      rw [List.foldlM_cons, set_x, show twos ((0x7f : Byte).toNat * 256 + (0xff : Byte).toNat) = 0x7fff by decide]
      rfl
    obtain ⟨g1, h1, hr1⟩ := run_steps m m g0 0 hr0
    rw [List.append_assoc, history_append _ _ _ _ h0, history_append _ _ _ _ h1]
    obtain ⟨hw, hh, ha, hx, hy, hA⟩ := hr1
    have hx0 : deo (runMachine m 0 0) g1 0x28 = .ok { g1 with scr := { g1.scr with rX := 0 } } := by
      rw [set_x, show twos ((0 : Byte).toNat * 256 + (0 : Byte).toNat) = 0 by decide]
    unfold history
    rw [List.foldlM_cons, hx0]
    simp only [bind, Except.bind]
    rw [List.foldlM_cons]
    have hctrl : (runMachine m 0 0).device 0x2f = 0x81 := rfl
    have hbad : spriteOp (runMachine m 0 0) { g1.scr with rX := 0 } 0x81 = .error .oob := by
      unfold spriteOp
      simp only [bind, Except.bind, pure, Except.pure]
      rw [hA, hy]
      unfold sprites
      rw [sprite_far m _ _ (by exact hw) (by exact hh)]
      rfl
    have hd : deo (runMachine m 0 0) { g1 with scr := { g1.scr with rX := 0 } } 0x2f = .error .oob := by
      have he : deo (runMachine m 0 0) { g1 with scr := { g1.scr with rX := 0 } } 0x2f =
        (do return { (maybeResize (runMachine m 0 0) { g1 with scr := { g1.scr with rX := 0 } }) with
          scr := ← spriteOp (runMachine m 0 0) (maybeResize (runMachine m 0 0) { g1 with scr := { g1.scr with rX := 0 } }).scr 0x81 }) := rfl
      rw [he, no_resize, hbad]
      rfl
    rw [hd]
    rfl

end Buxn.Screen
