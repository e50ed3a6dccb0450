import Verif.Devices.ScreenWitness
import Verif.Devices.SystemProps
/-!
# Rendering: the picture of the host follows the layers (C22)

Between two frames the host redraws only the rectangle that the device has marked as changed. C22 says that this is
enough: after every frame the textures show exactly the layers and the palette of that moment, whatever the program,
the host and the user did before.
-/
namespace Buxn.Screen
open Buxn.VM

/-! ## Specification -/

/-- What can happen to the screen: the guest writes or reads a port of the screen (`vm` is the machine at that moment), an
instruction writes to the colour ports `ports` (`vm` is the machine after it), or the host draws a frame. -/
inductive Ev where
  | deo (vm : VM) (a : Byte)
  | dei (vm : VM) (a : Byte)
  | theme (vm : VM) (ports : List Byte)
  | render

/-- The device, the textures of the host and the palette. -/
structure World where
  gui : Gui
  pal : Nat → Nat

/-- The four colours, `gui.c:633-634`: computed from the device page whenever the host draws. -/
def colors (vm : VM) : Nat → Nat := fun c => if h : c < 4 then (System.palette vm ⟨c, h⟩).toNat else 0

/-- One event. A write to a colour port asks for a full refresh if it is the low byte of the pair
(`system.c:75-79`, `gui.c:300-303`). -/
def World.step (w : World) : Ev → Res World
  | .deo vm a => do return { w with gui := ← Screen.deo vm w.gui a }
  | .dei vm a => .ok { w with gui := (Screen.dei vm w.gui a).2 }
  | .theme vm ports =>
    .ok { gui := if ports.any (fun a => a = 0x09 ∨ a = 0x0b ∨ a = 0x0d) then forceRefresh w.gui else w.gui, pal := colors vm }
  | .render => do return { w with gui := ← renderFrame w.pal w.gui }

def World.run (w : World) : List Ev → Res World
  | [] => .ok w
  | e :: es => do (← w.step e).run es

/-- What the textures must show: the background in the colours of the palette, the foreground too but transparent (0)
where its colour is 0. -/
structure Shown (w : World) : Prop where
  bg : ∀ x y, Visible w.gui.scr x y → w.gui.bgT (y * w.gui.scr.width + x) = w.pal (pix w.gui.scr.width w.gui.scr.bg x y)
  fg : ∀ x y, Visible w.gui.scr x y → w.gui.fgT (y * w.gui.scr.width + x) =
    if pix w.gui.scr.width w.gui.scr.fg x y = 0 then 0 else w.pal (pix w.gui.scr.width w.gui.scr.fg x y)

/-- What an event must respect. The size the program asks for is at most 32640 pixels each way; a fill starts near the
screen (`C20_fill_violated`, `C21_fill_violated`); a sprite lies in memory (`C20_address_violated`) and its position has
not run away by more than some 4000 automatic steps; an instruction that changes the colours writes a low byte
(`C22_theme_violated`). -/
def EvOk (w : World) : Ev → Prop
  | .deo vm a => (a = 0x2e ∨ a = 0x2f → (preferred vm).1 ≤ 32640 ∧ (preferred vm).2 ≤ 32640) ∧
      (a = 0x2e → bit (vm.device 0x2e) 7 = true → Near (target vm w.gui)) ∧
      (a = 0x2f → SpritesInMemory vm (target vm w.gui) (vm.device 0x2f) ∧
        (-32768 ≤ w.gui.scr.rX ∧ w.gui.scr.rX ≤ 65400) ∧ -32768 ≤ w.gui.scr.rY ∧ w.gui.scr.rY ≤ 65400)
  | .dei vm _ => (preferred vm).1 ≤ 32640 ∧ (preferred vm).2 ≤ 32640
  | .theme vm ports => colors vm = w.pal ∨ 0x09 ∈ ports ∨ 0x0b ∈ ports ∨ 0x0d ∈ ports
  | .render => True

/-- A history in which every event respects its condition. -/
def RunOk : World → List Ev → Prop
  | _, [] => True
  | w, e :: es => EvOk w e ∧ ∀ w', w.step e = .ok w' → RunOk w' es

/-! ## The rectangle -/

def Covers (r : Rect) (x y : Int) : Prop := (r.x1 ≤ x ∧ x < r.x2) ∧ r.y1 ≤ y ∧ y < r.y2

theorem dirty_old {r : Rect} {x y : Int} (a b c d : Int) (h : Covers r x y) : Covers (dirty r a b c d) x y := by
  obtain ⟨⟨h1, h2⟩, h3, h4⟩ := h
  unfold Covers dirty
  refine ⟨⟨?_, ?_⟩, ?_, ?_⟩ <;> dsimp only <;> split <;> omega

theorem dirty_new (r : Rect) {x y : Int} {a b c d : Int} (h : (a ≤ x ∧ x < c) ∧ b ≤ y ∧ y < d) : Covers (dirty r a b c d) x y := by
  obtain ⟨⟨h1, h2⟩, h3, h4⟩ := h
  unfold Covers dirty
  refine ⟨⟨?_, ?_⟩, ?_, ?_⟩ <;> dsimp only <;> split <;> omega

/-! ## The drawing loops -/

theorem renderRow_ok (w h : Int) (layer : Layer) (pal : Nat → Nat) (hl : ∀ j, layer j < 4) (y : Int) (hy : 0 ≤ y) (hy2 : y < h)
    (n : Nat) (X : Int) (hX : 0 ≤ X) (hn : X + n ≤ w) (t : Int → Nat) :
    ∃ t', renderRow ((w + 16) * (h + 16)) (w * h) layer pal n ((X + 8) + (y + 8) * (w + 16)) (y * w + X) t = .ok t' ∧
      ∀ cx cy, 0 ≤ cx → cx < w → t' (cy * w + cx) = if cy = y ∧ X ≤ cx ∧ cx < X + n then pal (pix w layer cx cy) else t (cy * w + cx) := by
  induction n generalizing X t with
  | zero =>
    refine ⟨t, rfl, ?_⟩
    intro cx cy _ _
    rw [if_neg (by omega)]
  | succ n ih =>
    unfold renderRow
    have hb1 := cell_bounds (W := w + 16) (H := h + 16) (cx := X + 8) (cy := y + 8) (by omega) (by omega) (by omega) (by omega)
    have hb2 := cell_bounds (W := w) (H := h) hX (by omega) hy hy2
    rw [Int.add_comm X (y * w)] at hb2
    rw [if_pos ⟨hb1.1, hb1.2, hl _, hb2.1, hb2.2⟩]
    obtain ⟨t', h1, h2⟩ := ih (X + 1) (by omega) (by omega)
      (fun j => if j = y * w + X then pal (layer ((X + 8) + (y + 8) * (w + 16))) else t j)
    rw [show X + 1 + 8 + (y + 8) * (w + 16) = X + 8 + (y + 8) * (w + 16) + 1 by omega, ← Int.add_assoc] at h1
    refine ⟨t', h1, ?_⟩
    intro cx cy g0 g1
    rw [h2 cx cy g0 g1]
    have heq : (cy * w + cx = y * w + X) ↔ cx = X ∧ cy = y := by
      rw [Int.add_comm (cy * w), Int.add_comm (y * w)]
      exact cell_inj g0 g1 hX (by omega)
    by_cases ha : cy = y ∧ X + 1 ≤ cx ∧ cx < X + 1 + n
    · rw [if_pos ha, if_pos (by omega)]
    · rw [if_neg ha]
      by_cases hb : cx = X ∧ cy = y
      · rw [if_pos (heq.mpr hb), if_pos (by omega)]
        obtain ⟨rfl, rfl⟩ := hb
        rfl
      · rw [if_neg (fun hh => hb (heq.mp hh)), if_neg (by omega)]

theorem renderRows_ok (w h : Int) (layer : Layer) (pal : Nat → Nat) (hl : ∀ j, layer j < 4) (X : Int) (cols : Nat) (hX : 0 ≤ X)
    (hc : X + cols ≤ w) (n : Nat) (Y : Int) (hY : 0 ≤ Y) (hn : Y + n ≤ h) (t : Int → Nat) :
    ∃ t', renderRows ((w + 16) * (h + 16)) (w * h) w X cols layer pal n Y t = .ok t' ∧
      ∀ cx cy, 0 ≤ cx → cx < w → t' (cy * w + cx) =
        if (Y ≤ cy ∧ cy < Y + n) ∧ X ≤ cx ∧ cx < X + cols then pal (pix w layer cx cy) else t (cy * w + cx) := by
  induction n generalizing Y t with
  | zero =>
    refine ⟨t, rfl, ?_⟩
    intro cx cy _ _
    rw [if_neg (by omega)]
  | succ n ih =>
    unfold renderRows
    obtain ⟨t1, a1, a2⟩ := renderRow_ok w h layer pal hl Y hY (by omega) cols X hX hc t
    rw [a1]
    simp only [bind, Except.bind]
    obtain ⟨t', h1, h2⟩ := ih (Y + 1) (by omega) (by omega) t1
    refine ⟨t', h1, ?_⟩
    intro cx cy g0 g1
    rw [h2 cx cy g0 g1, a2 cx cy g0 g1]
    by_cases ha : (Y + 1 ≤ cy ∧ cy < Y + 1 + n) ∧ X ≤ cx ∧ cx < X + cols
    · rw [if_pos ha, if_pos (by omega)]
    · rw [if_neg ha]
      by_cases hb : cy = Y ∧ X ≤ cx ∧ cx < X + cols
      · rw [if_pos hb, if_pos (by omega)]
      · rw [if_neg hb, if_neg (by omega)]

/-- One layer: what was right outside the rectangle is right everywhere after it, and the rectangle is empty. -/
theorem renderLayer_ok (w h : Int) (hw : 0 < w) (hh : 0 < h) (layer : Layer) (hl : ∀ j, layer j < 4) (r : Rect) (pal : Nat → Nat)
    (t : Int → Nat)
    (hold : ∀ x y, (0 ≤ x ∧ x < w ∧ 0 ≤ y ∧ y < h) → Covers r x y ∨ t (y * w + x) = pal (pix w layer x y)) :
    ∃ b r' t', renderLayer w h layer r pal t = .ok (b, r', t') ∧
      (∀ x y, (0 ≤ x ∧ x < w ∧ 0 ≤ y ∧ y < h) → t' (y * w + x) = pal (pix w layer x y)) := by
  have hclamp : ∀ x y, (0 ≤ x ∧ x < w ∧ 0 ≤ y ∧ y < h) → (Covers r x y ↔ Covers (clampRect r w h) x y) := by
    intro x y hv
    unfold Covers clampRect clamp
    dsimp only
    constructor <;> intro hc <;> refine ⟨⟨?_, ?_⟩, ?_, ?_⟩ <;> split_ifs at * <;> omega
  have hcb : 0 ≤ (clampRect r w h).x1 ∧ (clampRect r w h).x2 ≤ w ∧ 0 ≤ (clampRect r w h).y1 ∧ (clampRect r w h).y2 ≤ h := by
    unfold clampRect clamp
    dsimp only
    refine ⟨?_, ?_, ?_, ?_⟩ <;> split_ifs <;> omega
  unfold renderLayer
  generalize hr : clampRect r w h = r0 at hclamp hcb
  dsimp only
  by_cases he : r0.x2 > r0.x1 ∧ r0.y2 > r0.y1
  · rw [if_neg (fun hn => hn he)]
    obtain ⟨t', h1, h2⟩ := renderRows_ok w h layer pal hl r0.x1 (r0.x2 - r0.x1).toNat hcb.1 (by omega) (r0.y2 - r0.y1).toNat r0.y1
      hcb.2.2.1 (by omega) t
    refine ⟨true, _, t', by rw [h1]; rfl, ?_⟩
    intro x y hv
    rw [h2 x y hv.1 hv.2.1]
    by_cases hc : Covers r0 x y
    · obtain ⟨⟨c1, c2⟩, c3, c4⟩ := hc
      rw [if_pos (by omega)]
    · rcases hold x y hv with ho | ho
      · exact absurd ((hclamp x y hv).mp ho) hc
      · rw [ho]
        split <;> rfl
  · rw [if_pos he]
    refine ⟨false, r0, t, rfl, ?_⟩
    intro x y hv
    rcases hold x y hv with ho | ho
    · have := (hclamp x y hv).mp ho
      obtain ⟨⟨c1, c2⟩, c3, c4⟩ := this
      omega
    · exact ho

/-! ## The invariant -/

/-- The palette of the foreground, `gui.c:653-659`. -/
def fgPal (pal : Nat → Nat) : Nat → Nat := fun c => if c = 0 then 0 else pal c

structure Inv (w : World) : Prop where
  w0 : 0 < w.gui.scr.width
  w1 : w.gui.scr.width ≤ 32640
  h0 : 0 < w.gui.scr.height
  h1 : w.gui.scr.height ≤ 32640
  auto : ∃ a, AutoIs w.gui.scr a
  bgc : ∀ j, w.gui.scr.bg j < 4
  fgc : ∀ j, w.gui.scr.fg j < 4
  bg : ∀ x y, Visible w.gui.scr x y → Covers w.gui.scr.bgRect x y ∨
    w.gui.bgT (y * w.gui.scr.width + x) = w.pal (pix w.gui.scr.width w.gui.scr.bg x y)
  fg : ∀ x y, Visible w.gui.scr x y → Covers w.gui.scr.fgRect x y ∨
    w.gui.fgT (y * w.gui.scr.width + x) = fgPal w.pal (pix w.gui.scr.width w.gui.scr.fg x y)

theorem Inv.sizeOk {w : World} (h : Inv w) : SizeOk w.gui.scr := by
  have h0 := h.w0; have h1 := h.w1; have h2 := h.h0; have h3 := h.h1
  exact ⟨by omega, by omega, by omega, by omega⟩

theorem Inv.resize {w : World} (h : Inv w) (vm : VM) (hp : (preferred vm).1 ≤ 32640 ∧ (preferred vm).2 ≤ 32640) :
    Inv { w with gui := maybeResize vm w.gui } := by
  unfold maybeResize
  obtain ⟨pw, ph, hpp⟩ : ∃ pw ph, preferred vm = (pw, ph) := ⟨_, _, rfl⟩
  have hpos : 0 ≤ pw ∧ 0 ≤ ph := by
    unfold preferred at hpp
    injection hpp with h1 h2
    exact ⟨by rw [← h1]; exact Int.natCast_nonneg _, by rw [← h2]; exact Int.natCast_nonneg _⟩
  rw [hpp] at hp ⊢
  dsimp only at hp ⊢
  split
  · rename_i hc
    obtain ⟨a, ha⟩ := h.auto
    refine ⟨?_, hp.1, ?_, hp.2, ⟨a, ⟨ha.mx, ha.my, ha.ma, ha.ml, ha.dx, ha.dy⟩⟩, fun _ => by show 0 < 4; omega, fun _ => by show 0 < 4; omega, ?_, ?_⟩
    · show 0 < pw; omega
    · show 0 < ph; omega
    · intro x y hv
      obtain ⟨v1, v2, v3, v4⟩ := hv
      exact .inl (dirty_new _ ⟨⟨v1, v2⟩, v3, v4⟩)
    · intro x y hv
      obtain ⟨v1, v2, v3, v4⟩ := hv
      exact .inl (dirty_new _ ⟨⟨v1, v2⟩, v3, v4⟩)
  · exact h

/-- A draw keeps the invariant if what it changes is in the rectangle it marks. -/
theorem Inv.draw {w : World} (h : Inv w) (ctrl : Byte) (s' : Screen) (a b c d : Int)
    (hd : Drawn w.gui.scr s' ctrl (dirty (rectOf w.gui.scr ctrl) a b c d))
    (hch : ∀ x y, Visible w.gui.scr x y → ((a ≤ x ∧ x < c) ∧ b ≤ y ∧ y < d) ∨
      pix w.gui.scr.width (layerOf s' ctrl) x y = pix w.gui.scr.width (layerOf w.gui.scr ctrl) x y) :
    Inv { w with gui := { w.gui with scr := s' } } := by
  have hw := hd.setup.width
  have hh := hd.setup.height
  obtain ⟨aa, ha⟩ := h.auto
  have hcol := hd.colors
  have ho := hd.other
  have hr := hd.rect
  have hor := hd.otherRect
  unfold layerOf at hch hcol
  unfold otherLayer at ho
  unfold rectOf at hr
  have hvis : ∀ x y, Visible s' x y → Visible w.gui.scr x y := by
    intro x y hv; unfold Visible at hv ⊢; rw [hw, hh] at hv; exact hv
  cases h6 : bit ctrl 6
  · rw [h6] at hch hcol ho hr hor
    simp only [Bool.false_eq_true, if_false] at hch hcol ho hr hor
    refine ⟨by show 0 < s'.width; rw [hw]; exact h.w0, by show s'.width ≤ _; rw [hw]; exact h.w1, by show 0 < s'.height; rw [hh]; exact h.h0,
      by show s'.height ≤ _; rw [hh]; exact h.h1, ⟨aa, hd.setup.auto ha⟩, hcol h.bgc, by show ∀ j, s'.fg j < 4; rw [ho]; exact h.fgc, ?_, ?_⟩
    · intro x y hv
      have hv' := hvis x y hv
      show Covers s'.bgRect x y ∨ w.gui.bgT (y * s'.width + x) = w.pal (pix s'.width s'.bg x y)
      rw [hw, hr]
      rcases hch x y hv' with hc | hc
      · exact .inl (dirty_new _ hc)
      · rcases h.bg x y hv' with hb | hb
        · exact .inl (dirty_old _ _ _ _ hb)
        · exact .inr (by rw [hc]; exact hb)
    · intro x y hv
      have hv' := hvis x y hv
      show Covers s'.fgRect x y ∨ w.gui.fgT (y * s'.width + x) = fgPal w.pal (pix s'.width s'.fg x y)
      rw [hw, ho, hor]
      exact h.fg x y hv'
  · rw [h6] at hch hcol ho hr hor
    simp only [if_true] at hch hcol ho hr hor
    refine ⟨by show 0 < s'.width; rw [hw]; exact h.w0, by show s'.width ≤ _; rw [hw]; exact h.w1, by show 0 < s'.height; rw [hh]; exact h.h0,
      by show s'.height ≤ _; rw [hh]; exact h.h1, ⟨aa, hd.setup.auto ha⟩, by show ∀ j, s'.bg j < 4; rw [ho]; exact h.bgc, hcol h.fgc, ?_, ?_⟩
    · intro x y hv
      have hv' := hvis x y hv
      show Covers s'.bgRect x y ∨ w.gui.bgT (y * s'.width + x) = w.pal (pix s'.width s'.bg x y)
      rw [hw, ho, hor]
      exact h.bg x y hv'
    · intro x y hv
      have hv' := hvis x y hv
      show Covers s'.fgRect x y ∨ w.gui.fgT (y * s'.width + x) = fgPal w.pal (pix s'.width s'.fg x y)
      rw [hw, hr]
      rcases hch x y hv' with hc | hc
      · exact .inl (dirty_new _ hc)
      · rcases h.fg x y hv' with hb | hb
        · exact .inl (dirty_old _ _ _ _ hb)
        · exact .inr (by rw [hc]; exact hb)

/-- Sprites change nothing outside the squares they cover. -/
theorem drawSprites_outside (vm : VM) (ctrl : Byte) (dx dy da : Int) (n : Nat) (addr px py : Int) (p : Int → Int → Nat) (x y : Int)
    (h : ∀ k : Nat, k < n → ¬((x - (px + k * dx)) % 65536 < 8 ∧ (y - (py + k * dy)) % 65536 < 8)) :
    drawSprites vm ctrl dx dy da n addr px py p x y = p x y := by
  induction n generalizing addr px py p with
  | zero => rfl
  | succ n ih =>
    unfold drawSprites
    rw [ih]
    · unfold drawSprite
      have h0 := h 0 (by omega)
      simp only [Int.natCast_zero, Int.zero_mul, Int.add_zero] at h0
      dsimp only
      rw [if_neg (by simpa using h0)]
    · intro k hk
      have := h (k + 1) (by omega)
      rw [show px + ((k + 1 : Nat) : Int) * dx = px + dx + k * dx by rw [Int.natCast_add, Int.add_mul, Int.natCast_one, Int.one_mul]; omega,
        show py + ((k + 1 : Nat) : Int) * dy = py + dy + k * dy by rw [Int.natCast_add, Int.add_mul, Int.natCast_one, Int.one_mul]; omega] at this
      exact this

theorem near_mod (x p : Int) (h : -65528 ≤ x - p ∧ x - p < 65536) (hm : (x - p) % 65536 < 8) : p ≤ x ∧ x < p + 8 := by omega

/-- The two coordinates of a row of sprites stay in the rectangle that is marked. -/
theorem sprite_span (f : Int) (neg : Bool) (hf : f = if neg then -1 else 1) (D x0 x : Int) (n k : Nat) (hD : D = 0 ∨ D = 8) (hk : k < n)
    (hx : x0 + k * (f * D) ≤ x ∧ x < x0 + k * (f * D) + 8) :
    (if f < 0 then x0 + n * (f * D) else x0) - 8 ≤ x ∧ x < (if f < 0 then x0 else x0 + n * (f * D)) + 8 := by
  cases neg
  · simp at hf
    subst hf
    rcases hD with rfl | rfl <;> norm_num at hx ⊢ <;> omega
  · simp at hf
    subst hf
    rcases hD with rfl | rfl <;> norm_num at hx ⊢ <;> omega

theorem step_bound (f : Int) (neg : Bool) (hf : f = if neg then -1 else 1) (D : Int) (k : Nat) (hD : D = 0 ∨ D = 8) (hk : k ≤ 15) :
    -120 ≤ k * (f * D) ∧ k * (f * D) ≤ 120 := by
  cases neg
  · simp at hf
    subst hf
    rcases hD with rfl | rfl <;> norm_num <;> omega
  · simp at hf
    subst hf
    rcases hD with rfl | rfl <;> norm_num <;> omega

theorem pair_if {c : Prop} [Decidable c] {a b : Int} : (if c then (a, b) else (b, a) : Int × Int) = (if c then a else b, if c then b else a) := by
  split <;> rfl

theorem sprite_change (vm : VM) (s : Screen) (ctrl auto : Byte) (ha : AutoIs s auto) (hw : s.width ≤ 32640) (hh : s.height ≤ 32640)
    (hx : -32768 ≤ s.rX ∧ s.rX ≤ 65400) (hy : -32768 ≤ s.rY ∧ s.rY ≤ 65400) (p : Int → Int → Nat) (x y : Int) (hv : Visible s x y) :
    (((if flipX ctrl < 0 then (s.rX + ((s.rML + 1 : Nat) : Int) * (flipX ctrl * s.rDY), s.rX) else (s.rX, s.rX + ((s.rML + 1 : Nat) : Int) * (flipX ctrl * s.rDY)) : Int × Int).1 - 8 ≤ x ∧
      x < (if flipX ctrl < 0 then (s.rX + ((s.rML + 1 : Nat) : Int) * (flipX ctrl * s.rDY), s.rX) else (s.rX, s.rX + ((s.rML + 1 : Nat) : Int) * (flipX ctrl * s.rDY)) : Int × Int).2 + 8) ∧
     (if flipY ctrl < 0 then (s.rY + ((s.rML + 1 : Nat) : Int) * (flipY ctrl * s.rDX), s.rY) else (s.rY, s.rY + ((s.rML + 1 : Nat) : Int) * (flipY ctrl * s.rDX)) : Int × Int).1 - 8 ≤ y ∧
      y < (if flipY ctrl < 0 then (s.rY + ((s.rML + 1 : Nat) : Int) * (flipY ctrl * s.rDX), s.rY) else (s.rY, s.rY + ((s.rML + 1 : Nat) : Int) * (flipY ctrl * s.rDX)) : Int × Int).2 + 8) ∨
    drawSprites vm ctrl (flipX ctrl * s.rDY) (flipY ctrl * s.rDX) (addrStep s ctrl) (s.rML + 1) s.rA s.rX s.rY p x y = p x y := by
  have hD1 : s.rDX = 0 ∨ s.rDX = 8 := by rw [ha.dx]; split <;> simp
  have hD2 : s.rDY = 0 ∨ s.rDY = 8 := by rw [ha.dy]; split <;> simp
  have hml : s.rML ≤ 15 := by rw [ha.ml]; have := auto.isLt; omega
  obtain ⟨v1, v2, v3, v4⟩ := hv
  by_cases hk : ∃ k : Nat, k < s.rML + 1 ∧ (x - (s.rX + k * (flipX ctrl * s.rDY))) % 65536 < 8 ∧ (y - (s.rY + k * (flipY ctrl * s.rDX))) % 65536 < 8
  · left
    obtain ⟨k, k1, k2, k3⟩ := hk
    have b1 := step_bound (flipX ctrl) (bit ctrl 4) rfl s.rDY k hD2 (by omega)
    have b2 := step_bound (flipY ctrl) (bit ctrl 5) rfl s.rDX k hD1 (by omega)
    have n1 := near_mod x _ (by omega) k2
    have n2 := near_mod y _ (by omega) k3
    have s1 := sprite_span (flipX ctrl) (bit ctrl 4) rfl s.rDY s.rX x (s.rML + 1) k hD2 k1 n1
    have s2 := sprite_span (flipY ctrl) (bit ctrl 5) rfl s.rDX s.rY y (s.rML + 1) k hD1 k1 n2
    rw [pair_if, pair_if]
    exact ⟨s1, s2⟩
  · right
    apply drawSprites_outside
    intro k k1 hh
    exact hk ⟨k, k1, hh.1, hh.2⟩

theorem maybeResize_pos (vm : VM) (g : Gui) : (target vm g).rX = g.scr.rX ∧ (target vm g).rY = g.scr.rY := by
  unfold target maybeResize
  dsimp only
  split
  · exact ⟨rfl, rfl⟩
  · exact ⟨rfl, rfl⟩

theorem step_ok {w : World} (h : Inv w) (e : Ev) (he : EvOk w e) :
    ∃ w', w.step e = .ok w' ∧ Inv w' ∧ (e = .render → Shown w') := by
  cases e with
  | dei vm a =>
    exact ⟨_, rfl, h.resize vm he, by intro hh; cases hh⟩
  | theme vm ports =>
    refine ⟨_, rfl, ?_, by intro hh; cases hh⟩
    by_cases hp : ports.any (fun a => a = 0x09 ∨ a = 0x0b ∨ a = 0x0d) = true
    · rw [if_pos hp]
      obtain ⟨a, ha⟩ := h.auto
      refine ⟨h.w0, h.w1, h.h0, h.h1, ⟨a, ⟨ha.mx, ha.my, ha.ma, ha.ml, ha.dx, ha.dy⟩⟩, h.bgc, h.fgc, ?_, ?_⟩
      · intro x y hv
        obtain ⟨v1, v2, v3, v4⟩ := hv
        exact .inl (dirty_new _ ⟨⟨v1, v2⟩, v3, v4⟩)
      · intro x y hv
        obtain ⟨v1, v2, v3, v4⟩ := hv
        exact .inl (dirty_new _ ⟨⟨v1, v2⟩, v3, v4⟩)
    · rw [if_neg hp]
      have hc : colors vm = w.pal := by
        rcases he with h1 | h1 | h1 | h1
        · exact h1
        all_goals exact absurd (List.any_eq_true.mpr ⟨_, h1, by decide⟩) hp
      rw [hc]
      exact h
  | render =>
    obtain ⟨b1, r1, t1, e1, f1⟩ := renderLayer_ok w.gui.scr.width w.gui.scr.height h.w0 h.h0 w.gui.scr.bg h.bgc w.gui.scr.bgRect w.pal w.gui.bgT
      h.bg
    obtain ⟨b2, r2, t2, e2, f2⟩ := renderLayer_ok w.gui.scr.width w.gui.scr.height h.w0 h.h0 w.gui.scr.fg h.fgc w.gui.scr.fgRect (fgPal w.pal) w.gui.fgT
      h.fg
    have hr : renderFrame w.pal w.gui = .ok { scr := { w.gui.scr with bgRect := r1, fgRect := r2 }, bgT := t1, fgT := t2 } := by
      unfold renderFrame
      dsimp only
      rw [e1]
      simp only [bind, Except.bind]
      unfold fgPal at e2
      rw [e2]
      rfl
    refine ⟨{ w with gui := { scr := { w.gui.scr with bgRect := r1, fgRect := r2 }, bgT := t1, fgT := t2 } }, ?_, ?_, ?_⟩
    · unfold World.step
      rw [hr]
      rfl
    · obtain ⟨a, ha⟩ := h.auto
      exact ⟨h.w0, h.w1, h.h0, h.h1, ⟨a, ⟨ha.mx, ha.my, ha.ma, ha.ml, ha.dx, ha.dy⟩⟩, h.bgc, h.fgc, fun x y hv => .inr (f1 x y hv), fun x y hv => .inr (f2 x y hv)⟩
    · intro _
      exact ⟨f1, f2⟩
  | deo vm a =>
    obtain ⟨hsize, hfill, hspr⟩ := he
    suffices hs : ∃ g', Screen.deo vm w.gui a = .ok g' ∧ Inv { w with gui := g' } by
      obtain ⟨g', h1, h2⟩ := hs
      refine ⟨{ w with gui := g' }, ?_, h2, by intro hh; cases hh⟩
      show (do return { w with gui := ← Screen.deo vm w.gui a }) = _
      rw [h1]
      rfl
    by_cases h2e : a = 0x2e
    · subst h2e
      have hinv := h.resize vm (hsize (.inl rfl))
      have hso := hinv.sizeOk
      cases hb : bit (vm.device 0x2e) 7 with
      | false =>
        obtain ⟨s', k1, k2, k3, _⟩ := pixelOp_pixel (target vm w.gui) (vm.device 0x2e) hso.1 hso.2.2.1 hb
        refine ⟨_, deo_2e vm w.gui k1, hinv.draw _ s' _ _ _ _ k2 ?_⟩
        intro x y hv
        by_cases hxy : x = (target vm w.gui).rX ∧ y = (target vm w.gui).rY
        · exact .inl (by omega)
        · right
          exact (k3 x y hv).trans (if_neg hxy)
      | true =>
        obtain ⟨s', k1, k2, k3, _⟩ := pixelOp_fill (target vm w.gui) (vm.device 0x2e) hso.1 hso.2.2.1 hb (hfill rfl hb)
        refine ⟨_, deo_2e vm w.gui k1, hinv.draw _ s' _ _ _ _ k2 ?_⟩
        intro x y hv
        by_cases hxy : InFill (target vm w.gui) (vm.device 0x2e) x y
        · left
          obtain ⟨v1, v2, v3, v4⟩ := hv
          change x < (target vm w.gui).width at v2
          change y < (target vm w.gui).height at v4
          unfold InFill at hxy
          unfold fillBounds
          cases h4 : bit (vm.device 0x2e) 4 <;> cases h5 : bit (vm.device 0x2e) 5 <;> rw [h4, h5] at hxy <;> simp at hxy ⊢ <;> omega
        · right
          exact (k3 x y hv).trans (if_neg hxy)
    · by_cases h2f : a = 0x2f
      · subst h2f
        have hinv := h.resize vm (hsize (.inr rfl))
        have hso := hinv.sizeOk
        obtain ⟨hmem, hpx, hpy⟩ := hspr rfl
        obtain ⟨auto, hauto⟩ := hinv.auto
        obtain ⟨s', k1, k2, k3, _⟩ := spriteOp_ok vm (target vm w.gui) (vm.device 0x2f) hso.1 hso.2.2.1 hso.2.1 hso.2.2.2 hmem
        have hpos := maybeResize_pos vm w.gui
        rw [← hpos.1] at hpx
        rw [← hpos.2] at hpy
        refine ⟨_, deo_2f vm w.gui k1, hinv.draw _ s' _ _ _ _ k2 ?_⟩
        intro x y hv
        have hc := sprite_change vm (target vm w.gui) (vm.device 0x2f) auto hauto hinv.w1 hinv.h1 hpx hpy (pix (target vm w.gui).width (layerOf (target vm w.gui) (vm.device 0x2f))) x y hv
        rcases hc with hc | hc
        · exact .inl hc
        · exact .inr ((k3 x y hv).trans hc)
      · obtain ⟨au, ha⟩ := h.auto
        have hkeep : ∀ s' : Screen, (∃ a, AutoIs s' a) → s'.width = w.gui.scr.width → s'.height = w.gui.scr.height → s'.bg = w.gui.scr.bg →
            s'.fg = w.gui.scr.fg → s'.bgRect = w.gui.scr.bgRect → s'.fgRect = w.gui.scr.fgRect → Inv { w with gui := { w.gui with scr := s' } } := by
          intro s' a1 a2 a3 a4 a5 a6 a7
          have hvis : ∀ x y, Visible s' x y → Visible w.gui.scr x y := by
            intro x y hv; unfold Visible at hv ⊢; rw [a2, a3] at hv; exact hv
          refine ⟨by rw [a2]; exact h.w0, by rw [a2]; exact h.w1, by rw [a3]; exact h.h0, by rw [a3]; exact h.h1, a1, by rw [a4]; exact h.bgc,
            by rw [a5]; exact h.fgc, ?_, ?_⟩
          · intro x y hv
            dsimp only
            rw [a6, a2, a4]
            exact h.bg x y (hvis x y hv)
          · intro x y hv
            dsimp only
            rw [a7, a2, a5]
            exact h.fg x y (hvis x y hv)
        unfold Screen.deo
        dsimp only
        by_cases e1 : a = 0x26
        · subst e1
          refine ⟨_, rfl, ?_⟩
          obtain ⟨g', c1, c2⟩ := C21_auto vm w.gui
          have := Except.ok.inj c1
          refine hkeep _ ⟨vm.device 0x26, ?_⟩ rfl rfl rfl rfl rfl rfl
          rw [← this] at c2
          exact c2
        rw [if_neg e1]
        have hauto : ∀ x y r, AutoIs { w.gui.scr with rX := x, rY := y, rA := r } au :=
          fun _ _ _ => ⟨ha.mx, ha.my, ha.ma, ha.ml, ha.dx, ha.dy⟩
        split
        · exact ⟨_, rfl, hkeep _ ⟨au, hauto _ _ _⟩ rfl rfl rfl rfl rfl rfl⟩
        split
        · exact ⟨_, rfl, hkeep _ ⟨au, hauto _ _ _⟩ rfl rfl rfl rfl rfl rfl⟩
        split
        · exact ⟨_, rfl, hkeep _ ⟨au, hauto _ _ _⟩ rfl rfl rfl rfl rfl rfl⟩
        exact ⟨_, rfl, h⟩

theorem start_inv (w h : Int) (hw : 0 < w ∧ w ≤ 32640) (hh : 0 < h ∧ h ≤ 32640) (pal : Nat → Nat) : Inv ⟨start w h, pal⟩ := by
  refine ⟨hw.1, hw.2, hh.1, hh.2, ⟨0, ⟨rfl, rfl, rfl, rfl, rfl, rfl⟩⟩, fun _ => by show 0 < 4; omega, fun _ => by show 0 < 4; omega, ?_, ?_⟩
  · intro x y hv
    obtain ⟨v1, v2, v3, v4⟩ := hv
    exact .inl (dirty_new _ ⟨⟨v1, v2⟩, v3, v4⟩)
  · intro x y hv
    obtain ⟨v1, v2, v3, v4⟩ := hv
    exact .inl (dirty_new _ ⟨⟨v1, v2⟩, v3, v4⟩)

theorem run_ok {w : World} (h : Inv w) (es : List Ev) (hr : RunOk w es) : ∃ w', w.run es = .ok w' ∧ Inv w' := by
  induction es generalizing w with
  | nil => exact ⟨w, rfl, h⟩
  | cons e es ih =>
    obtain ⟨he, hes⟩ := hr
    obtain ⟨w1, h1, h2, _⟩ := step_ok h e he
    obtain ⟨w2, h3, h4⟩ := ih h2 (hes w1 h1)
    refine ⟨w2, ?_, h4⟩
    show (do (← w.step e).run es) = _
    rw [h1]
    exact h3

/-- **C22.** After any history that starts with a screen of a size from 1 to 32640 each way, a frame draws without leaving
the layers or the textures, and then both textures show exactly the layers, in the colours of that moment. Partial: the
events respect `EvOk`. -/
theorem C22_render_partial (width height : Int) (hw : 0 < width ∧ width ≤ 32640) (hh : 0 < height ∧ height ≤ 32640) (pal : Nat → Nat)
    (es : List Ev) (hr : RunOk ⟨start width height, pal⟩ es) :
    ∃ w w', World.run ⟨start width height, pal⟩ es = .ok w ∧ w.step .render = .ok w' ∧
      w'.gui.scr.bg = w.gui.scr.bg ∧ w'.gui.scr.fg = w.gui.scr.fg ∧ w'.pal = w.pal ∧ Shown w' := by
  obtain ⟨w, h1, h2⟩ := run_ok (start_inv width height hw hh pal) es hr
  obtain ⟨w', h3, h4, h5⟩ := step_ok h2 .render trivial
  have hsame : w'.gui.scr.bg = w.gui.scr.bg ∧ w'.gui.scr.fg = w.gui.scr.fg ∧ w'.pal = w.pal := by
    have he : w.step .render = (do return { w with gui := ← renderFrame w.pal w.gui }) := rfl
    rw [he] at h3
    cases hf : renderFrame w.pal w.gui with
    | error e => rw [hf] at h3; cases h3
    | ok g =>
      rw [hf] at h3
      have := Except.ok.inj h3
      rw [← this]
      unfold renderFrame at hf
      dsimp only at hf
      simp only [bind, Except.bind] at hf
      split at hf
      · cases hf
      split at hf
      · cases hf
      have := Except.ok.inj hf
      rw [← this]
      exact ⟨rfl, rfl, rfl⟩
  exact ⟨w, w', h1, h3, hsame.1, hsame.2.1, hsame.2.2, h5 rfl⟩

/-- A colour of the palette is never the transparent 0, so the foreground texture tells where the foreground is empty. -/
theorem C22_opaque (vm : VM) (c : Nat) (h : c < 4) : colors vm c ≠ 0 := by
  unfold colors
  rw [dif_pos h, System.C12_palette]
  omega

/-! ## Where it fails, and cases that meet the hypotheses -/

/-- What the background texture and the layer show at a pixel after a history. -/
def shownAt (x y : Int) : Res World → Option (Nat × Nat)
  | .ok w => some (w.gui.bgT (y * w.gui.scr.width + x), w.pal (pix w.gui.scr.width w.gui.scr.bg x y))
  | .error _ => none

/-- **C22 fails if an instruction changes the high byte of a colour only**: the palette of the next frame is new, but
nothing is redrawn. -/
theorem C22_theme_violated :
    shownAt 0 0 (World.run ⟨start 8 8, colors (machine 65536 (fun _ => 0))⟩
      [.render, .theme (machine 65536 (fun a => if a = 0x08 then 0xf0 else 0)) [0x08], .render]) =
      some (0xff000000, 0xff0000ff) := by decide +kernel

/-- **C22 fails after a fill far off the screen** (see `C21_fill_violated`): what it colours in the row above is not in the
rectangle that is redrawn. -/
theorem C22_fill_violated :
    let m := machine 65536 (page 0xff 0xec 0 4 0 0x81 0)
    shownAt 4 3 (World.run ⟨start 8 8, fun c => c + 10⟩ [.render, .deo m 0x28, .deo m 0x2a, .deo m 0x2e, .render]) = some (10, 11) := by
  decide +kernel

/-- A history within the hypotheses: draw a pixel and a sprite, change a colour, draw the frame. -/
example :
    let m := machine 65536 (page 0 2 0 3 0 0x02 0x84)
    shownAt 2 3 (World.run ⟨start 8 8, fun c => c + 10⟩ [.render, .deo m 0x28, .deo m 0x2a, .deo m 0x2e, .render]) = some (12, 12) ∧
    RunOk ⟨start 8 8, fun c => c + 10⟩ [.render, .theme m [0x08, 0x09]] := by
  refine ⟨by decide +kernel, trivial, fun w' _ => ⟨?_, fun _ _ => trivial⟩⟩
  exact .inr (.inl (by decide))

end Buxn.Screen
