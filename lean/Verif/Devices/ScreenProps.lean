import Verif.Devices.Screen
import Mathlib.Tactic.Linarith
/-!
# Theorems about the screen device: bounds and drawing (C20, C21)
-/
namespace Buxn.Screen
open Buxn.VM

/-! ## Specification -/

/-- The colour of the pixel `(x, y)` of a layer of a screen of width `w`: there is a margin of 8 on each side. -/
def pix (w : Int) (l : Layer) (x y : Int) : Nat := l ((x + 8) + (y + 8) * (w + 16))

/-- A pixel of the screen. -/
def Visible (s : Screen) (x y : Int) : Prop := 0 ≤ x ∧ x < s.width ∧ 0 ≤ y ∧ y < s.height

/-- The layer that the mode byte does not select. -/
def otherLayer (s : Screen) (ctrl : Byte) : Layer := if bit ctrl 6 then s.bg else s.fg

/-- The colour a sprite colour becomes: colour 0 becomes the high half of the blending mode; the others rotate with its
low half. -/
def blendSpec (color mode : Nat) : Nat :=
  match color with
  | 0 => if mode % 5 = 0 then 0 else mode / 4
  | 1 => mode % 4
  | 2 => 1 + mode % 4 % 3
  | _ => 1 + (mode % 4 + 1) % 3

/-- The colour of a sprite at column `u` and row `v` of its 8 by 8 pixels: the leftmost pixel is the most significant bit
of the row, the second bit plane follows the first, and the sprite may be mirrored. -/
def spritePix (vm : VM) (addr : Int) (two flipx flipy : Bool) (u v : Int) : Nat :=
  let col := if flipx then 7 - u else u
  let row := if flipy then 7 - v else v
  let plane (a : Int) : Nat := ((vm.memory (a + row).toNat).getLsbD (7 - col).toNat).toNat
  plane addr + (if two then 2 * plane (addr + 8) else 0)

/-- A picture with a sprite drawn over it at `(px, py)`; coordinates are 16 bits wide. Colour 0 is transparent if the
blending mode is a multiple of 5. -/
def drawSprite (vm : VM) (ctrl : Byte) (addr px py : Int) (p : Int → Int → Nat) : Int → Int → Nat := fun x y =>
  let u := (x - px) % 65536
  let v := (y - py) % 65536
  if u < 8 ∧ v < 8 then
    let c := spritePix vm addr (bit ctrl 7) (bit ctrl 4) (bit ctrl 5) u v
    if c = 0 ∧ ctrl.toNat % 16 % 5 = 0 then p x y else blendSpec c (ctrl.toNat % 16)
  else p x y

/-- `n` sprites one after the other, with steps of position and address. -/
def drawSprites (vm : VM) (ctrl : Byte) (dx dy da : Int) : Nat → Int → Int → Int → (Int → Int → Nat) → Int → Int → Nat
  | 0, _, _, _, p => p
  | n + 1, addr, px, py, p => drawSprites vm ctrl dx dy da n (addr + da) (px + dx) (py + dy) (drawSprite vm ctrl addr px py p)

/-- The registers that the auto byte determines, `screen.c:136-143`: bits 0, 1 and 2 and the length. -/
structure AutoIs (s : Screen) (auto : Byte) : Prop where
  mx : s.rMX = if bit auto 0 then 1 else 0
  my : s.rMY = if bit auto 1 then 2 else 0
  ma : s.rMA = if bit auto 2 then 4 else 0
  ml : s.rML = auto.toNat / 16
  dx : s.rDX = if bit auto 0 then 8 else 0
  dy : s.rDY = if bit auto 1 then 8 else 0

/-- Which pixels a fill colours: from the position to the edges of the screen selected by bits 4 and 5. -/
def InFill (s : Screen) (ctrl : Byte) (x y : Int) : Prop :=
  (if bit ctrl 4 then x < s.rX else s.rX ≤ x) ∧ (if bit ctrl 5 then y < s.rY else s.rY ≤ y)

instance (s : Screen) (ctrl : Byte) (x y : Int) : Decidable (InFill s ctrl x y) := by unfold InFill; infer_instance

/-- The position is on the screen or at most 8 pixels away from it. -/
def Near (s : Screen) : Prop := -8 ≤ s.rX ∧ s.rX ≤ s.width + 8 ∧ -8 ≤ s.rY ∧ s.rY ≤ s.height + 8

/-! ## Cells -/

theorem cell_inj {W cx cy cx' cy' : Int} (h0 : 0 ≤ cx) (h1 : cx < W) (h0' : 0 ≤ cx') (h1' : cx' < W) :
    cx + cy * W = cx' + cy' * W ↔ cx = cx' ∧ cy = cy' := by
  constructor
  · intro h
    have hW : 0 < W := by omega
    have e1 : (cx + cy * W) / W = cy := by
      rw [Int.add_mul_ediv_right _ _ (by omega), Int.ediv_eq_zero_of_lt h0 h1]; omega
    have e2 : (cx' + cy' * W) / W = cy' := by
      rw [Int.add_mul_ediv_right _ _ (by omega), Int.ediv_eq_zero_of_lt h0' h1']; omega
    have hy : cy = cy' := by rw [← e1, ← e2, h]
    subst hy
    omega
  · rintro ⟨rfl, rfl⟩; rfl

theorem cell_bounds {W H cx cy : Int} (h0 : 0 ≤ cx) (h1 : cx < W) (h2 : 0 ≤ cy) (h3 : cy < H) :
    0 ≤ cx + cy * W ∧ cx + cy * W < W * H := by
  have h4 : 0 ≤ cy * W := Int.mul_nonneg h2 (by omega)
  have h5 : (cy + 1) * W ≤ H * W := Int.mul_le_mul_of_nonneg_right (by omega) (by omega)
  rw [Int.add_mul, Int.one_mul] at h5
  rw [Int.mul_comm W H]
  omega

theorem put_ok {size : Int} {l : Layer} {i : Int} {c : Nat} (h : 0 ≤ i ∧ i < size) :
    put size l i c = .ok (fun j => if j = i then c else l j) := by unfold put; rw [if_pos h]

/-! ## Fill -/

theorem fillRow_ok (W H : Int) (c : Nat) (cy : Int) (hcy : 0 ≤ cy) (hcy2 : cy < H) (n : Nat) (X : Int) (hX : 0 ≤ X) (hn : X + n ≤ W) (l : Layer) :
    ∃ l', fillRow (W * H) c n (cy * W + X) l = .ok l' ∧
      (∀ cx cy', 0 ≤ cx → cx < W → l' (cx + cy' * W) = if cy' = cy ∧ X ≤ cx ∧ cx < X + n then c else l (cx + cy' * W)) ∧
      ((∀ j, l j < 4) → c < 4 → ∀ j, l' j < 4) := by
  induction n generalizing X l with
  | zero =>
    refine ⟨l, rfl, ?_, fun h _ => h⟩
    intro cx cy' _ _
    rw [if_neg (by omega)]
  | succ n ih =>
    unfold fillRow
    have hb := cell_bounds (W := W) (H := H) hX (by omega) hcy hcy2
    rw [put_ok (by rw [Int.add_comm]; exact hb)]
    simp only [bind, Except.bind]
    obtain ⟨l', h1, h2, h3⟩ := ih (X + 1) (by omega) (by omega) (fun j => if j = cy * W + X then c else l j)
    rw [← Int.add_assoc] at h1
    refine ⟨l', h1, ?_, ?_⟩
    · intro cx cy' g0 g1
      rw [h2 cx cy' g0 g1]
      by_cases ha : cy' = cy ∧ X + 1 ≤ cx ∧ cx < X + 1 + n
      · rw [if_pos ha, if_pos (by omega)]
      · rw [if_neg ha]
        have heq : (cx + cy' * W = cy * W + X) ↔ cx = X ∧ cy' = cy := by
          rw [Int.add_comm (cy * W) X]
          exact cell_inj g0 g1 hX (by omega)
        by_cases hb : cx = X ∧ cy' = cy
        · rw [if_pos (heq.mpr hb), if_pos (by omega)]
        · rw [if_neg (fun h => hb (heq.mp h)), if_neg (by omega)]
    · intro hl hc
      apply h3 _ hc
      intro j
      split
      · exact hc
      · exact hl j

theorem fillRows_ok (W H : Int) (c : Nat) (X : Int) (hor : Nat) (hX : 0 ≤ X) (hh : X + hor ≤ W) (n : Nat) (Y : Int)
    (hY : 0 ≤ Y) (hn : Y + n ≤ H) (l : Layer) :
    ∃ l', fillRows (W * H) c W X hor n (Y * W) l = .ok l' ∧
      (∀ cx cy, 0 ≤ cx → cx < W → l' (cx + cy * W) = if (Y ≤ cy ∧ cy < Y + n) ∧ X ≤ cx ∧ cx < X + hor then c else l (cx + cy * W)) ∧
      ((∀ j, l j < 4) → c < 4 → ∀ j, l' j < 4) := by
  induction n generalizing Y l with
  | zero =>
    refine ⟨l, rfl, ?_, fun h _ => h⟩
    intro cx cy _ _
    rw [if_neg (by omega)]
  | succ n ih =>
    unfold fillRows
    obtain ⟨l1, a1, a2, a3⟩ := fillRow_ok W H c Y hY (by omega) hor X hX hh l
    rw [a1]
    simp only [bind, Except.bind]
    obtain ⟨l', h1, h2, h3⟩ := ih (Y + 1) (by omega) (by omega) l1
    rw [Int.add_mul, Int.one_mul] at h1
    refine ⟨l', h1, ?_, fun hl hc => h3 (a3 hl hc) hc⟩
    intro cx cy g0 g1
    rw [h2 cx cy g0 g1, a2 cx cy g0 g1]
    by_cases ha : (Y + 1 ≤ cy ∧ cy < Y + 1 + n) ∧ X ≤ cx ∧ cx < X + hor
    · rw [if_pos ha, if_pos (by omega)]
    · rw [if_neg ha]
      by_cases hb : cy = Y ∧ X ≤ cx ∧ cx < X + hor
      · rw [if_pos hb, if_pos (by omega)]
      · rw [if_neg hb, if_neg (by omega)]

theorem fillRow_zero (size : Int) (c : Nat) (a : Int) (l : Layer) : fillRow size c 0 a l = .ok l := rfl

theorem fillRows_none (size : Int) (c : Nat) (len x1 : Int) (n : Nat) (ay : Int) (l : Layer) :
    fillRows size c len x1 0 n ay l = .ok l := by
  induction n generalizing ay with
  | zero => rfl
  | succ n ih =>
    unfold fillRows
    rw [fillRow_zero]
    simp only [bind, Except.bind]
    exact ih _

theorem layerOf_setLayer (s : Screen) (ctrl : Byte) (l : Layer) (r : Rect) :
    layerOf (setLayer s ctrl l r) ctrl = l ∧ otherLayer (setLayer s ctrl l r) ctrl = otherLayer s ctrl ∧
      rectOf (setLayer s ctrl l r) ctrl = r := by
  unfold layerOf otherLayer rectOf setLayer
  cases bit ctrl 6 <;> exact ⟨rfl, rfl, rfl⟩

theorem setLayer_same (s : Screen) (ctrl : Byte) (l : Layer) (r : Rect) :
    (setLayer s ctrl l r).width = s.width ∧ (setLayer s ctrl l r).height = s.height ∧ (setLayer s ctrl l r).rX = s.rX ∧
      (setLayer s ctrl l r).rY = s.rY ∧ (setLayer s ctrl l r).rA = s.rA ∧ (setLayer s ctrl l r).rMX = s.rMX ∧
      (setLayer s ctrl l r).rMY = s.rMY ∧ (setLayer s ctrl l r).rMA = s.rMA ∧ (setLayer s ctrl l r).rML = s.rML ∧
      (setLayer s ctrl l r).rDX = s.rDX ∧ (setLayer s ctrl l r).rDY = s.rDY := by
  unfold setLayer
  cases bit ctrl 6 <;> exact ⟨rfl, rfl, rfl, rfl, rfl, rfl, rfl, rfl, rfl, rfl, rfl⟩

/-- The fill that the code does, in cells. -/
theorem fill_ok (s : Screen) (ctrl : Byte) (hw : 0 ≤ s.width) (hh : 0 ≤ s.height) (hn : Near s) (c : Nat) (l : Layer) :
    ∃ l', fillRows s.size c (s.width + 16) (fillBounds s ctrl).1 ((fillBounds s ctrl).2.1 - (fillBounds s ctrl).1).toNat
        ((fillBounds s ctrl).2.2.2 - (fillBounds s ctrl).2.2.1).toNat ((fillBounds s ctrl).2.2.1 * (s.width + 16)) l = .ok l' ∧
      (∀ x y, Visible s x y → pix s.width l' x y = if InFill s ctrl x y then c else pix s.width l x y) ∧
      ((∀ j, l j < 4) → c < 4 → ∀ j, l' j < 4) := by
  obtain ⟨n1, n2, n3, n4⟩ := hn
  obtain ⟨x1, x2, y1, y2, hb⟩ : ∃ x1 x2 y1 y2, fillBounds s ctrl = (x1, x2, y1, y2) := ⟨_, _, _, _, rfl⟩
  have hx : (0 ≤ x1 ∧ x2 ≤ s.width + 16) ∧ ∀ x y, Visible s x y → ((x1 ≤ x + 8 ∧ x + 8 < x2) ↔ (if bit ctrl 4 then x < s.rX else s.rX ≤ x)) := by
    unfold fillBounds at hb
    cases h4 : bit ctrl 4 <;> rw [h4] at hb <;> simp at hb ⊢ <;> unfold Visible <;> refine ⟨?_, ?_⟩ <;> intros <;> omega
  have hy : (0 ≤ y1 ∧ y2 ≤ s.height + 16) ∧ ∀ x y, Visible s x y → ((y1 ≤ y + 8 ∧ y + 8 < y2) ↔ (if bit ctrl 5 then y < s.rY else s.rY ≤ y)) := by
    unfold fillBounds at hb
    cases h4 : bit ctrl 5 <;> rw [h4] at hb <;> simp at hb ⊢ <;> unfold Visible <;> refine ⟨?_, ?_⟩ <;> intros <;> omega
  rw [hb]
  dsimp only
  have hif : ∀ x y, Visible s x y → (InFill s ctrl x y ↔ (y1 ≤ y + 8 ∧ y + 8 < y2) ∧ x1 ≤ x + 8 ∧ x + 8 < x2) := by
    intro x y hv
    unfold InFill
    rw [← hx.2 x y hv, ← hy.2 x y hv]
    exact And.comm
  by_cases hempty : x2 ≤ x1 ∨ y2 ≤ y1
  · refine ⟨l, ?_, ?_, fun h _ => h⟩
    · rcases hempty with h | h
      · rw [show (x2 - x1).toNat = 0 by omega]
        exact fillRows_none _ _ _ _ _ _ _
      · rw [show (y2 - y1).toNat = 0 by omega]; rfl
    · intro x y hv
      rw [if_neg (fun h => by have := (hif x y hv).mp h; omega)]
  · obtain ⟨l', h1, h2, h3⟩ := fillRows_ok (s.width + 16) (s.height + 16) c x1 (x2 - x1).toNat hx.1.1 (by omega) (y2 - y1).toNat y1
      hy.1.1 (by omega) l
    refine ⟨l', h1, ?_, h3⟩
    intro x y hv
    have hv' := hv
    obtain ⟨v1, v2, v3, v4⟩ := hv'
    unfold pix
    rw [h2 (x + 8) (y + 8) (by omega) (by omega)]
    by_cases ha : InFill s ctrl x y
    · have := (hif x y hv).mp ha
      rw [if_pos ha, if_pos (by omega)]
    · rw [if_neg ha, if_neg (fun h => ha ((hif x y hv).mpr (by omega)))]

/-! ## Sprites -/

theorem blending_spec : ∀ color : Fin 4, ∀ mode : Fin 16, ¬(color.val = 0 ∧ mode.val % 5 = 0) →
    blending color mode = blendSpec color mode ∧ blending color mode < 4 := by decide

theorem plane1 : ∀ b : Byte, ∀ q : Fin 8, (b.toNat >>> q.val) &&& 1 = (b.getLsbD q.val).toNat := by decide +kernel
theorem plane2 : ∀ b : Byte, ∀ q : Fin 8, ((b.toNat <<< 1) >>> q.val) &&& 2 = 2 * (b.getLsbD q.val).toNat := by decide +kernel
theorem planes : ∀ a b : Bool, a.toNat ||| (2 * b.toNat) = a.toNat + 2 * b.toNat ∧ a.toNat + 2 * b.toNat < 4 := by decide

/-- The colour of one pixel of a row as the code computes it. -/
def rowColor (ch1 ch2 : Nat) (q : Int) : Nat := ((ch1 >>> q.toNat) &&& 1) ||| ((ch2 >>> q.toNat) &&& 2)

/-- What is drawn over `old`. -/
def drawn (blend color old : Nat) : Nat := if blend % 5 ≠ 0 ∨ color ≠ 0 then blending color blend else old

theorem spriteRow_ok (W H : Int) (blend ch1 ch2 : Nat) (fx : Int) (cy : Int) (hcy : 0 ≤ cy) (hcy2 : cy < H) (n : Nat) (X q : Int)
    (hX : 0 ≤ X) (hn : X + n ≤ W) (l : Layer) :
    ∃ l', spriteRow (W * H) blend ch1 ch2 fx n (X + cy * W) q l = .ok l' ∧
      (∀ cx cy', 0 ≤ cx → cx < W → l' (cx + cy' * W) =
        if cy' = cy ∧ X ≤ cx ∧ cx < X + n then drawn blend (rowColor ch1 ch2 (q - fx * (cx - X))) (l (cx + cy' * W))
        else l (cx + cy' * W)) ∧
      ((∀ j, l j < 4) → (∀ q, blend % 5 ≠ 0 ∨ rowColor ch1 ch2 q ≠ 0 → blending (rowColor ch1 ch2 q) blend < 4) → ∀ j, l' j < 4) := by
  induction n generalizing X q l with
  | zero =>
    refine ⟨l, rfl, ?_, fun h _ => h⟩
    intro cx cy' _ _
    rw [if_neg (by omega)]
  | succ n ih =>
    unfold spriteRow
    have hb := cell_bounds (W := W) (H := H) hX (by omega) hcy hcy2
    have hput : (if blend % 5 ≠ 0 ∨ rowColor ch1 ch2 q ≠ 0 then put (W * H) l (X + cy * W) (blending (rowColor ch1 ch2 q) blend) else .ok l) =
        .ok (fun j => if j = X + cy * W then drawn blend (rowColor ch1 ch2 q) (l j) else l j) := by
      unfold drawn
      by_cases hd : blend % 5 ≠ 0 ∨ rowColor ch1 ch2 q ≠ 0
      · rw [if_pos hd, put_ok hb]; simp [hd]
      · rw [if_neg hd]; simp [hd]
    have hfold : ((ch1 >>> q.toNat) &&& 1) ||| ((ch2 >>> q.toNat) &&& 2) = rowColor ch1 ch2 q := rfl
    simp only [bind, Except.bind]
    rw [hfold, hput]
    dsimp only
    obtain ⟨l', h1, h2, h3⟩ := ih (X + 1) (q - fx) (by omega) (by omega) (fun j => if j = X + cy * W then drawn blend (rowColor ch1 ch2 q) (l j) else l j)
    rw [show X + 1 + cy * W = X + cy * W + 1 by omega] at h1
    refine ⟨l', h1, ?_, ?_⟩
    · intro cx cy' g0 g1
      rw [h2 cx cy' g0 g1]
      have heq : (cx + cy' * W = X + cy * W) ↔ cx = X ∧ cy' = cy := cell_inj g0 g1 hX (by omega)
      by_cases hb : cx = X ∧ cy' = cy
      · obtain ⟨rfl, rfl⟩ := hb
        rw [if_neg (by omega), if_pos rfl, if_pos (by omega), Int.sub_self, Int.mul_zero, Int.sub_zero]
      · have hne : ¬(cx + cy' * W = X + cy * W) := fun h => hb (heq.mp h)
        rw [if_neg hne]
        by_cases ha : cy' = cy ∧ X + 1 ≤ cx ∧ cx < X + 1 + n
        · rw [if_pos ha, if_pos (by omega)]
          congr 2
          rw [show cx - X = (cx - (X + 1)) + 1 by omega, Int.mul_add, Int.mul_one]
          omega
        · rw [if_neg ha, if_neg (by omega)]
    · intro hl hc
      apply h3 _ hc
      intro j
      split
      · unfold drawn
        split
        · rename_i hd; exact hc q hd
        · exact hl j
      · exact hl j

theorem rdMem_ok (vm : VM) (i : Int) (h0 : 0 ≤ i) (h1 : i < vm.memSize) : rdMem vm i = .ok (vm.memory i.toNat).toNat := by
  unfold rdMem; rw [if_pos ⟨h0, h1⟩]

/-- The bits of row `qy` at the address `rA` as the code reads them. -/
def planeA (vm : VM) (rA qy : Int) : Nat := (vm.memory (rA + qy).toNat).toNat
def planeB (vm : VM) (two : Bool) (rA qy : Int) : Nat := if two then (vm.memory (rA + qy + 8).toNat).toNat <<< 1 else 0

theorem rowColor_le (vm : VM) (two : Bool) (rA qy q : Int) (h : 0 ≤ q ∧ q ≤ 7) :
    rowColor (planeA vm rA qy) (planeB vm two rA qy) q =
      ((vm.memory (rA + qy).toNat).getLsbD q.toNat).toNat + (if two then 2 * ((vm.memory (rA + qy + 8).toNat).getLsbD q.toNat).toNat else 0) := by
  unfold rowColor planeA planeB
  have h1 := plane1 (vm.memory (rA + qy).toNat) ⟨q.toNat, by omega⟩
  have h2 := plane2 (vm.memory (rA + qy + 8).toNat) ⟨q.toNat, by omega⟩
  dsimp only at h1 h2
  rw [h1]
  cases two with
  | true => rw [if_pos rfl, if_pos rfl, h2]; exact (planes _ _).1
  | false => simp

theorem rowColor_lt (vm : VM) (two : Bool) (rA qy q : Int) : rowColor (planeA vm rA qy) (planeB vm two rA qy) q < 4 := by
  unfold rowColor
  have h1 : ∀ a, a &&& 1 = a % 2 := fun a => Nat.and_two_pow_sub_one_eq_mod a 1
  have h2 : ∀ a : Nat, a &&& 2 = 0 ∨ a &&& 2 = 2 := by
    intro a
    have : a &&& 2 ≤ 2 := Nat.and_le_right
    have h : ∀ b, b ≤ 2 → b &&& 2 = b → b = 0 ∨ b = 2 := by
      intro b hb h
      have : b = 0 ∨ b = 1 ∨ b = 2 := by omega
      rcases this with rfl | rfl | rfl
      · exact .inl rfl
      · exact absurd h (by decide)
      · exact .inr rfl
    apply h _ this
    rw [Nat.and_assoc, Nat.and_self]
  rw [h1]
  rcases h2 (planeB vm two rA qy >>> q.toNat) with h | h <;> rw [h]
  · rw [Nat.or_zero]; omega
  · have : (planeA vm rA qy >>> q.toNat) % 2 = 0 ∨ (planeA vm rA qy >>> q.toNat) % 2 = 1 := by omega
    rcases this with h | h <;> rw [h] <;> decide

theorem blending_lt (blend color : Nat) (hb : blend < 16) (hc : color < 4) (hd : blend % 5 ≠ 0 ∨ color ≠ 0) : blending color blend < 4 :=
  (blending_spec ⟨color, hc⟩ ⟨blend, hb⟩ (by dsimp only; omega)).2

theorem spriteRows_ok (vm : VM) (W H : Int) (blend : Nat) (hb : blend < 16) (two : Bool) (rA fx fy qfx X : Int) (cols : Nat)
    (hX : 0 ≤ X) (hc : X + cols ≤ W) (n : Nat) (Y qy : Int) (hY : 0 ≤ Y) (hn : Y + n ≤ H)
    (hmem : ∀ k : Nat, k < n → 0 ≤ rA + (qy + fy * k) ∧ rA + (qy + fy * k) + (if two then 8 else 0) < vm.memSize) (l : Layer) :
    ∃ l', spriteRows vm (W * H) blend two rA fx fy qfx X W cols n (Y * W) qy l = .ok l' ∧
      (∀ cx cy, 0 ≤ cx → cx < W → l' (cx + cy * W) =
        if (Y ≤ cy ∧ cy < Y + n) ∧ X ≤ cx ∧ cx < X + cols then
          drawn blend (rowColor (planeA vm rA (qy + fy * (cy - Y))) (planeB vm two rA (qy + fy * (cy - Y))) (qfx - fx * (cx - X))) (l (cx + cy * W))
        else l (cx + cy * W)) ∧
      ((∀ j, l j < 4) → ∀ j, l' j < 4) := by
  induction n generalizing Y qy l with
  | zero =>
    refine ⟨l, rfl, ?_, fun h => h⟩
    intro cx cy _ _
    rw [if_neg (by omega)]
  | succ n ih =>
    unfold spriteRows
    have h0 := hmem 0 (by omega)
    simp only [Int.natCast_zero, Int.mul_zero, Int.add_zero] at h0
    have hr1 : rdMem vm (rA + qy) = .ok (planeA vm rA qy) := rdMem_ok vm _ h0.1 (by
      have := h0.2
      split at this <;> omega)
    have hr2 : (if two then (do let c ← rdMem vm (rA + qy + 8); return c <<< 1) else .ok 0 : Res Nat) = .ok (planeB vm two rA qy) := by
      unfold planeB
      cases two with
      | true =>
        rw [if_pos rfl, if_pos rfl, rdMem_ok vm _ (by omega) (by have := h0.2; rw [if_pos rfl] at this; exact this)]
        rfl
      | false => simp
    rw [hr1]
    simp only [bind, Except.bind] at hr2 ⊢
    rw [hr2]
    dsimp only
    obtain ⟨l1, a1, a2, a3⟩ := spriteRow_ok W H blend (planeA vm rA qy) (planeB vm two rA qy) fx Y hY (by omega) cols X qfx hX hc l
    rw [a1]
    dsimp only
    obtain ⟨l', h1, h2, h3⟩ := ih (Y + 1) (qy + fy) (by omega) (by omega) (by
      intro k hk
      have := hmem (k + 1) (by omega)
      rw [show qy + fy + fy * (k : Int) = qy + fy * ((k + 1 : Nat) : Int) by
        rw [Int.natCast_add, Int.mul_add, Int.natCast_one, Int.mul_one]; omega]
      exact this) l1
    rw [Int.add_mul, Int.one_mul] at h1
    refine ⟨l', h1, ?_, ?_⟩
    · intro cx cy g0 g1
      rw [h2 cx cy g0 g1]
      by_cases hcy : cy = Y
      · subst hcy
        rw [if_neg (by omega), a2 cx cy g0 g1]
        by_cases ha : X ≤ cx ∧ cx < X + cols
        · rw [if_pos ⟨rfl, ha⟩, if_pos (by omega), Int.sub_self, Int.mul_zero, Int.add_zero]
        · rw [if_neg (fun h => ha h.2), if_neg (fun h => ha h.2)]
      · rw [a2 cx cy g0 g1, if_neg (c := cy = Y ∧ X ≤ cx ∧ cx < X + cols) (fun h => hcy h.1)]
        by_cases ha : (Y + 1 ≤ cy ∧ cy < Y + 1 + n) ∧ X ≤ cx ∧ cx < X + cols
        · have hidx : qy + fy + fy * (cy - (Y + 1)) = qy + fy * (cy - Y) := by
            rw [show cy - Y = (cy - (Y + 1)) + 1 by omega, Int.mul_add, Int.mul_one]; omega
          rw [if_pos ha, if_pos (by omega), hidx]
        · rw [if_neg ha, if_neg (by omega)]
    · intro hl
      apply h3
      apply a3 hl
      intro q hd
      exact blending_lt _ _ hb (rowColor_lt _ _ _ _ _) hd

/-- The memory a sprite at address `rA` may be read from. -/
def SpriteInMemory (vm : VM) (two : Bool) (rA : Int) : Prop := 0 ≤ rA ∧ rA + (if two then 16 else 8) ≤ vm.memSize

theorem drawn_eq (blend color old : Nat) (hb : blend < 16) (hc : color < 4) :
    drawn blend color old = if color = 0 ∧ blend % 5 = 0 then old else blendSpec color blend := by
  unfold drawn
  by_cases h : color = 0 ∧ blend % 5 = 0
  · rw [if_neg (by omega), if_pos h]
  · rw [if_pos (by omega), if_neg h]
    exact (blending_spec ⟨color, hc⟩ ⟨blend, hb⟩ h).1

theorem flip_cases (ctrl : Byte) : (bit ctrl 4 = false ∧ flipX ctrl = 1 ∨ bit ctrl 4 = true ∧ flipX ctrl = -1) ∧
    (bit ctrl 5 = false ∧ flipY ctrl = 1 ∨ bit ctrl 5 = true ∧ flipY ctrl = -1) := by
  unfold flipX flipY
  cases bit ctrl 4 <;> cases bit ctrl 5 <;> decide

theorem sprite_ok (vm : VM) (s : Screen) (ctrl : Byte) (hw : 0 ≤ s.width) (hh : 0 ≤ s.height) (hw2 : s.width ≤ 65520) (hh2 : s.height ≤ 65520)
    (rA x y : Int) (hm : SpriteInMemory vm (bit ctrl 7) rA) (l : Layer) :
    ∃ l', sprite vm s (ctrl.toNat % 16) (bit ctrl 7) (flipX ctrl) (flipY ctrl) rA x y l = .ok l' ∧
      (∀ px py, Visible s px py → pix s.width l' px py = drawSprite vm ctrl rA x y (pix s.width l) px py) ∧
      ((∀ j, l j < 4) → ∀ j, l' j < 4) := by
  unfold sprite
  dsimp only
  have hb16 : ctrl.toNat % 16 < 16 := Nat.mod_lt _ (by decide)
  obtain ⟨hfx, hfy⟩ := flip_cases ctrl
  by_cases hc : (x + 8) % 65536 < s.width + 8 ∧ (y + 16) % 65536 < s.height + 16
  · rw [if_pos hc]
    by_cases hrow : (y + 16) % 65536 = (y + 8) % 65536 + 8
    · have hcol : (x + 16) % 65536 = (x + 8) % 65536 + 8 := by omega
      rw [hrow, hcol]
      rw [show ((x + 8) % 65536 + 8 - (x + 8) % 65536).toNat = 8 by omega, show ((y + 8) % 65536 + 8 - (y + 8) % 65536).toNat = 8 by omega]
      obtain ⟨l', h1, h2, h3⟩ := spriteRows_ok vm (s.width + 16) (s.height + 16) (ctrl.toNat % 16) hb16 (bit ctrl 7) rA (flipX ctrl) (flipY ctrl)
        (if flipX ctrl > 0 then 7 else 0) ((x + 8) % 65536) 8 (by omega) (by omega) 8 ((y + 8) % 65536) (if flipY ctrl < 0 then 7 else 0)
        (by omega) (by omega) (by
          intro k hk
          obtain ⟨m1, m2⟩ := hm
          rcases hfy with ⟨_, hf⟩ | ⟨_, hf⟩ <;> rw [hf] <;> simp <;> cases hb7 : bit ctrl 7 <;> rw [hb7] at m2 <;> simp at m2 ⊢ <;> omega) l
      refine ⟨l', h1, ?_, h3⟩
      intro px py hv
      obtain ⟨v1, v2, v3, v4⟩ := hv
      unfold pix drawSprite
      rw [h2 (px + 8) (py + 8) (by omega) (by omega)]
      dsimp only
      by_cases ha : (px - x) % 65536 < 8 ∧ (py - y) % 65536 < 8
      · have hpx : px + 8 - (x + 8) % 65536 = (px - x) % 65536 := by omega
        have hpy : py + 8 - (y + 8) % 65536 = (py - y) % 65536 := by omega
        rw [if_pos ha, if_pos (by omega), hpx, hpy]
        obtain ⟨u, hu⟩ : ∃ u, u = (px - x) % 65536 := ⟨_, rfl⟩
        obtain ⟨v, hv⟩ : ∃ v, v = (py - y) % 65536 := ⟨_, rfl⟩
        rw [← hu, ← hv] at ha ⊢
        have hu0 : 0 ≤ u := by rw [hu]; exact Int.emod_nonneg _ (by decide)
        have hv0 : 0 ≤ v := by rw [hv]; exact Int.emod_nonneg _ (by decide)
        have hcolor : rowColor (planeA vm rA ((if flipY ctrl < 0 then 7 else 0) + flipY ctrl * v))
            (planeB vm (bit ctrl 7) rA ((if flipY ctrl < 0 then 7 else 0) + flipY ctrl * v)) ((if flipX ctrl > 0 then 7 else 0) - flipX ctrl * u) =
            spritePix vm rA (bit ctrl 7) (bit ctrl 4) (bit ctrl 5) u v := by
          rw [rowColor_le]
          · unfold spritePix
            dsimp only
            rcases hfx with ⟨hf1, hf2⟩ | ⟨hf1, hf2⟩ <;> rcases hfy with ⟨hg1, hg2⟩ | ⟨hg1, hg2⟩ <;> rw [hf1, hf2, hg1, hg2] <;> simp
            · rw [show rA + v + 8 = rA + 8 + v by omega]
            · rw [show rA + (7 + -v) + 8 = rA + 8 + (7 - v) by omega, show rA + (7 + -v) = rA + (7 - v) by omega]
            · rw [show rA + v + 8 = rA + 8 + v by omega]
            · rw [show rA + (7 + -v) + 8 = rA + 8 + (7 - v) by omega, show rA + (7 + -v) = rA + (7 - v) by omega]
          · rcases hfx with ⟨hf1, hf2⟩ | ⟨hf1, hf2⟩ <;> rw [hf2] <;> simp <;> omega
        rw [drawn_eq _ _ _ hb16 (rowColor_lt _ _ _ _ _), hcolor]
      · rw [if_neg ha, if_neg (by omega)]
    · -- the rows wrap around: nothing is drawn, and nothing should be
      rw [show ((y + 16) % 65536 - (y + 8) % 65536).toNat = 0 by omega]
      refine ⟨l, rfl, ?_, fun h => h⟩
      intro px py hv
      obtain ⟨v1, v2, v3, v4⟩ := hv
      unfold drawSprite
      dsimp only
      rw [if_neg (by omega)]
  · rw [if_neg hc]
    refine ⟨l, rfl, ?_, fun h => h⟩
    intro px py hv
    obtain ⟨v1, v2, v3, v4⟩ := hv
    unfold drawSprite
    dsimp only
    rw [if_neg (by omega)]

theorem drawSprite_congr (vm : VM) (ctrl : Byte) (addr px py : Int) (p q : Int → Int → Nat) (x y : Int) (h : p x y = q x y) :
    drawSprite vm ctrl addr px py p x y = drawSprite vm ctrl addr px py q x y := by
  unfold drawSprite
  dsimp only
  split
  · split
    · exact h
    · rfl
  · exact h

theorem drawSprites_congr (vm : VM) (ctrl : Byte) (dx dy da : Int) (n : Nat) (addr px py : Int) (p q : Int → Int → Nat) (x y : Int)
    (h : p x y = q x y) : drawSprites vm ctrl dx dy da n addr px py p x y = drawSprites vm ctrl dx dy da n addr px py q x y := by
  induction n generalizing addr px py p q with
  | zero => exact h
  | succ n ih =>
    unfold drawSprites
    apply ih
    exact drawSprite_congr _ _ _ _ _ _ _ _ _ h

theorem sprites_ok (vm : VM) (s : Screen) (ctrl : Byte) (hw : 0 ≤ s.width) (hh : 0 ≤ s.height) (hw2 : s.width ≤ 65520) (hh2 : s.height ≤ 65520)
    (dx dy da : Int) (n : Nat) (rA x y : Int) (hm : ∀ k : Nat, k < n → SpriteInMemory vm (bit ctrl 7) (rA + k * da)) (l : Layer) :
    ∃ l', sprites vm s (ctrl.toNat % 16) (bit ctrl 7) (flipX ctrl) (flipY ctrl) dx dy da n rA x y l = .ok (rA + n * da, x + n * dx, y + n * dy, l') ∧
      (∀ px py, Visible s px py → pix s.width l' px py = drawSprites vm ctrl dx dy da n rA x y (pix s.width l) px py) ∧
      ((∀ j, l j < 4) → ∀ j, l' j < 4) := by
  induction n generalizing rA x y l with
  | zero => exact ⟨l, by simp [sprites], fun _ _ _ => rfl, fun h => h⟩
  | succ n ih =>
    unfold sprites
    obtain ⟨l1, a1, a2, a3⟩ := sprite_ok vm s ctrl hw hh hw2 hh2 rA x y (by have := hm 0 (by omega); simpa using this) l
    rw [a1]
    simp only [bind, Except.bind]
    obtain ⟨l', h1, h2, h3⟩ := ih (rA + da) (x + dx) (y + dy) (by
      intro k hk
      have := hm (k + 1) (by omega)
      rwa [show rA + ((k + 1 : Nat) : Int) * da = rA + da + k * da by rw [Int.natCast_add, Int.add_mul, Int.natCast_one, Int.one_mul]; omega] at this) l1
    refine ⟨l', ?_, ?_, fun h => h3 (a3 h)⟩
    · rw [h1]
      congr 1
      rw [Int.natCast_add, Int.add_mul, Int.add_mul, Int.add_mul, Int.natCast_one, Int.one_mul, Int.one_mul, Int.one_mul]
      simp only [Prod.mk.injEq, and_true]
      omega
    · intro px py hv
      rw [h2 px py hv]
      exact drawSprites_congr _ _ _ _ _ _ _ _ _ _ _ _ _ (a2 px py hv)

end Buxn.Screen
