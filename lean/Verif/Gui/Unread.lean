import Verif.Misc.Unread
import Verif.Gui.WholeSafe
/-!
# C94: memory that a program does not read before it writes it does not matter

The third part: the devices of `buxn-gui`. Besides those of `buxn-cli`, the screen looks at the sprites in the memory, and the metadata of the program is looked for there. (The thread that plays
the sounds looks at their samples later, which is not part of the run of a vector.)
-/
namespace Buxn.Screen
open Buxn.VM
variable {U : Nat → Bool} {f : Nat → Byte}

/-! ## The screen -/

/-- The cells that a sprite operation looks at: the 8 bytes of each sprite, or 16 if there are two bits per pixel. -/
def spriteCells (s : Screen) (ctrl : Byte) (i : Nat) : Prop :=
  ∃ k q : Nat, k ≤ s.rML ∧ q < (if bit ctrl 7 then 16 else 8) ∧ (i : Int) = s.rA + k * (if bit ctrl 7 then s.rMA * 4 else s.rMA * 2) + q

theorem rdMem_patch {vm : VM} {x : Int} (h : ∀ i : Nat, (i : Int) = x → U i = false) : rdMem (vm.patch U f) x = rdMem vm x := by
  unfold rdMem
  rw [show (vm.patch U f).memSize = vm.memSize from rfl]
  by_cases hx : 0 ≤ x ∧ x < (vm.memSize : Int)
  · rw [if_pos hx, if_pos hx, patch_memory (h _ (by omega))]
  · rw [if_neg hx, if_neg hx]

theorem spriteRows_patch {vm : VM} {size : Int} {blend : Nat} {two : Bool} {rA fx fy qfx xmar wmar2 : Int} {cols : Nat} (n : Nat) (ay qy : Int) (l : Layer)
    (h : ∀ j : Nat, j < n → ∀ i : Nat, (i : Int) = rA + (qy + j * fy) ∨ two = true ∧ (i : Int) = rA + (qy + j * fy) + 8 → U i = false) :
    spriteRows (vm.patch U f) size blend two rA fx fy qfx xmar wmar2 cols n ay qy l = spriteRows vm size blend two rA fx fy qfx xmar wmar2 cols n ay qy l := by
  induction n generalizing ay qy l with
  | zero => rfl
  | succ n ih =>
    unfold spriteRows
    have h0 : ∀ i : Nat, (i : Int) = rA + qy ∨ two = true ∧ (i : Int) = rA + qy + 8 → U i = false := by
      intro i hi
      refine h 0 (by omega) i ?_
      rw [show qy + ((0 : Nat) : Int) * fy = qy by rw [Int.natCast_zero, Int.zero_mul, Int.add_zero]]
      exact hi
    rw [rdMem_patch fun i hi => h0 i (.inl hi)]
    have h8 : (if two then (do let c ← rdMem (vm.patch U f) (rA + qy + 8); return c <<< 1) else .ok 0 : Res Nat) = (if two then (do let c ← rdMem vm (rA + qy + 8); return c <<< 1) else .ok 0) := by
      cases two with
      | false => rfl
      | true => rw [rdMem_patch fun i hi => h0 i (.inr ⟨rfl, hi⟩)]
    rw [h8]
    have hi : ∀ l, spriteRows (vm.patch U f) size blend two rA fx fy qfx xmar wmar2 cols n (ay + wmar2) (qy + fy) l = spriteRows vm size blend two rA fx fy qfx xmar wmar2 cols n (ay + wmar2) (qy + fy) l := by
      intro l
      refine ih _ _ _ fun j hj i hi => h (j + 1) (by omega) i ?_
      rw [show qy + ((j + 1 : Nat) : Int) * fy = qy + fy + j * fy by rw [Int.natCast_add, Int.natCast_one, Int.add_mul, Int.one_mul]; omega]
      exact hi
    simp only [hi]

theorem sprite_patch {vm : VM} {s : Screen} {blend : Nat} {two : Bool} {fx fy : Int} (hfy : fy = 1 ∨ fy = -1) {rA x y : Int} {l : Layer}
    (h : ∀ q : Nat, q < (if two then 16 else 8) → ∀ i : Nat, (i : Int) = rA + q → U i = false) :
    sprite (vm.patch U f) s blend two fx fy rA x y l = sprite vm s blend two fx fy rA x y l := by
  unfold sprite
  dsimp only
  split
  · refine spriteRows_patch _ _ _ _ fun j hj i hi => ?_
    have hj8 : j < 8 := by omega
    have hq : ∃ q : Nat, q < 8 ∧ (if fy < 0 then (7 : Int) else 0) + j * fy = q := by
      rcases hfy with rfl | rfl
      · exact ⟨j, hj8, by rw [if_neg (by omega)]; omega⟩
      · exact ⟨7 - j, by omega, by rw [if_pos (by omega)]; omega⟩
    obtain ⟨q, hq, e⟩ := hq
    rw [e] at hi
    rcases hi with hi | ⟨rfl, hi⟩
    · exact h q (by split <;> omega) i hi
    · exact h (q + 8) (by rw [if_pos rfl]; omega) i (by omega)
  · rfl

theorem sprites_patch {vm : VM} {s : Screen} {blend : Nat} {two : Bool} {fx fy dyx dxy incr : Int} (hfy : fy = 1 ∨ fy = -1) (n : Nat) (rA x y : Int) (l : Layer)
    (h : ∀ k q : Nat, k < n → q < (if two then 16 else 8) → ∀ i : Nat, (i : Int) = rA + k * incr + q → U i = false) :
    sprites (vm.patch U f) s blend two fx fy dyx dxy incr n rA x y l = sprites vm s blend two fx fy dyx dxy incr n rA x y l := by
  induction n generalizing rA x y l with
  | zero => rfl
  | succ n ih =>
    unfold sprites
    rw [sprite_patch hfy fun q hq i hi => h 0 q (by omega) hq i (by rw [Int.natCast_zero, Int.zero_mul]; omega)]
    have hi : ∀ l, sprites (vm.patch U f) s blend two fx fy dyx dxy incr n (rA + incr) (x + dyx) (y + dxy) l = sprites vm s blend two fx fy dyx dxy incr n (rA + incr) (x + dyx) (y + dxy) l := by
      intro l
      refine ih _ _ _ _ fun k q hk hq i hi => h (k + 1) q (by omega) hq i ?_
      rw [show ((k + 1 : Nat) : Int) * incr = incr + k * incr by rw [Int.natCast_add, Int.natCast_one, Int.add_mul, Int.one_mul]; omega]
      omega
    simp only [hi]

theorem spriteOp_patch {vm : VM} {s : Screen} {ctrl : Byte} (h : ∀ i, spriteCells s ctrl i → U i = false) : spriteOp (vm.patch U f) s ctrl = spriteOp vm s ctrl := by
  unfold spriteOp
  dsimp only
  rw [sprites_patch (by unfold flipY; split <;> simp) _ _ _ _ _ fun k q hk hq i hi => h i ⟨k, q, by omega, hq, hi⟩]

/-- The screen does the same whatever is in the cells that are not part of a sprite. -/
theorem C94_screen {vm : VM} {g : Gui} {a : Byte} (h : a = 0x2f → ∀ i, spriteCells (maybeResize vm g).scr (vm.device 0x2f) i → U i = false) : deo (vm.patch U f) g a = deo vm g a := by
  by_cases ha : a = 0x2f
  · subst ha
    have e : ∀ vm, deo vm g 0x2f = (spriteOp vm (maybeResize vm g).scr (vm.device 0x2f)).map fun s => { maybeResize vm g with scr := s } := by
      intro vm
      show (do return { maybeResize vm g with scr := ← spriteOp vm (maybeResize vm g).scr (vm.device 0x2f) } : Res Gui) = _
      cases spriteOp vm (maybeResize vm g).scr (vm.device 0x2f) <;> rfl
    rw [e, e, show maybeResize (vm.patch U f) g = maybeResize vm g from rfl, show (vm.patch U f).device = vm.device from rfl, spriteOp_patch (h rfl)]
  · unfold deo
    dsimp only
    simp only [if_neg ha]
    rfl

end Buxn.Screen

namespace Buxn.Gui.Whole
open Buxn.VM Buxn.Input
open Buxn.Cli (deviceId devicePort ports isFile requested requestFills)
variable {τ : Type} {U : Nat → Bool} {f : Nat → Byte}

/-! ## Specification -/

/-- How the devices of `buxn-gui` use the memory. When metadata is announced (port 07), they may look at anything; so may a request at the expansion port on a machine that is too large for
32-bit indices. -/
def usage (F : File.Host τ) (dev : Devices) : Usage (Data τ) where
  looks a vm d i :=
    a = 0x03 ∧ (i ∈ requested vm ∨ 2 ^ 32 < vm.memSize + 65536) ∨ a = 0x07 ∨
    a = 0x2f ∧ Screen.spriteCells (Screen.maybeResize vm d.gui).scr (vm.device 0x2f) i ∨
    isFile a = true ∧ File.looks (ports vm (deviceId a)) (devicePort a) vm.memory i
  fills a vm d i :=
    a = 0x03 && requestFills vm i ||
    isFile a &&
      match deo F dev a vm d with
      | .ok (_, d') => File.filled (ports vm (deviceId a)) (devicePort a) (d'.core.file (deviceId a = 0xb0)).success i
      | .error _ => false

/-! ## All devices -/

theorem system_patch (a : Byte) (vm : VM) (d : Data τ) (hm : 65536 ≤ vm.memSize) (h : a = 0x03 → ∀ i, i ∈ requested vm ∨ 2 ^ 32 < vm.memSize + 65536 → U i = false)
    (h7 : a = 0x07 → ∀ i, U i = false) :
    System.deo callbacks a (vm.patch U f) d = (System.deo callbacks a vm d).map fun x => (x.1.patch (without U fun i => a = 0x03 && requestFills vm i) f, x.2) := by
  by_cases h7' : a = 0x07
  · have hU := h7 h7'
    have hU' : ∀ i, without U (fun i => a = 0x03 && requestFills vm i) i = false := by intro i; unfold without; rw [hU i]; rfl
    rw [Cli.patch_none vm hU]
    cases System.deo callbacks a vm d with
    | error u => rfl
    | ok x =>
      show Except.ok _ = Except.ok _
      dsimp only
      rw [Cli.patch_none _ hU']
  unfold System.deo
  by_cases h3 : a = 0x03
  · rw [if_pos h3, if_pos h3]
    have hw : (without U fun i => a = 0x03 && requestFills vm i) = without U (requestFills vm) := by
      congr 1
      funext i
      rw [decide_eq_true h3, Bool.true_and]
    rw [hw]
    by_cases hmax : 2 ^ 32 < vm.memSize + 65536
    · have hU : ∀ i, U i = false := fun i => h h3 i (.inr hmax)
      rw [Cli.patch_none vm hU]
      have hU' : ∀ i, without U (requestFills vm) i = false := by intro i; unfold without; rw [hU i]; rfl
      cases System.expansion vm with
      | error u => rfl
      | ok vm1 =>
        show Except.ok _ = Except.ok _
        dsimp only
        rw [Cli.patch_none vm1 hU']
    · rw [Cli.expansion_patch vm hm (by omega) fun i hi => h h3 i (.inl hi)]
      cases System.expansion vm <;> rfl
  · have hw : (without U fun i => a = 0x03 && requestFills vm i) = U := by
      have : (fun i => (decide (a = 0x03) && requestFills vm i)) = fun _ => false := by
        funext i
        rw [decide_eq_false h3, Bool.false_and]
      rw [this, without_nil]
    rw [hw, if_neg h3, if_neg h3]
    split
    · rfl
    split
    · rfl
    split
    · rfl
    split
    · rw [show (vm.patch U f).device = vm.device from rfl]
      split <;> rfl
    · rfl

theorem usage_uses (F : File.Host τ) (S : Sounds) (dev : Devices) : Uses (usage F dev) (host F S dev) where
  dei a vm d U f := by
    show dei S dev a (vm.patch U f) d = (dei S dev a vm d).map _
    by_cases h0 : deviceId a = 0x00
    · have e : ∀ vm, dei S dev a vm d = .ok (System.dei vm a, vm, d) := fun vm => if_pos h0
      rw [e, e]
      rfl
    by_cases h1 : deviceId a = 0x10
    · have e : ∀ vm, dei S dev a vm d = .ok (consoleDei { vm := vm, dev := dev.console, rest := () } a, vm, d) := fun vm => (if_neg h0).trans (if_pos h1)
      rw [e, e]
      rfl
    by_cases h2 : deviceId a = 0x20
    · have e : ∀ vm, dei S dev a vm d = .ok ((Screen.dei vm d.gui a).1, vm, { d with gui := (Screen.dei vm d.gui a).2 }) := fun vm =>
        (if_neg h0).trans ((if_neg h1).trans (if_pos h2))
      rw [e, e]
      rfl
    by_cases h3 : isAudio (deviceId a) = true
    · have e : ∀ vm, dei S dev a vm d = audioDei S (deviceId a) a vm d := fun vm => (if_neg h0).trans ((if_neg h1).trans ((if_neg h2).trans (if_pos h3)))
      rw [e, e]
      unfold audioDei
      rw [show (vm.patch U f).memSize = vm.memSize from rfl, show ports (vm.patch U f) (deviceId a) = ports vm (deviceId a) from rfl]
      cases Audio.history vm.memSize (S d.reads) (d.audio (channel (deviceId a))) with
      | error u => rfl
      | ok x =>
        obtain ⟨c, y⟩ := x
        show (Audio.dei _ _ c).bind _ = Except.map _ ((Audio.dei _ _ c).bind _)
        cases Audio.dei (ports vm (deviceId a)) (devicePort a) c <;> rfl
    have skip : ∀ {α : Type} (x0 x1 x2 x3 x4 : α), (if deviceId a = 0x00 then x0 else if deviceId a = 0x10 then x1 else if deviceId a = 0x20 then x2 else if isAudio (deviceId a) then x3 else x4) = x4 :=
      fun x0 x1 x2 x3 x4 => (if_neg h0).trans ((if_neg h1).trans ((if_neg h2).trans (if_neg h3)))
    by_cases h4 : deviceId a = 0x90
    · have e : ∀ vm, dei S dev a vm d = .ok (mouseDei { vm := vm, dev := dev.mouse, rest := () } a, vm, d) := fun vm => (skip ..).trans (if_pos h4)
      rw [e, e]
      rfl
    by_cases h5 : deviceId a = 0x80
    · have e : ∀ vm, dei S dev a vm d = .ok (controllerDei { vm := vm, dev := dev.controller, rest := () } a, vm, d) := fun vm => (skip ..).trans ((if_neg h4).trans (if_pos h5))
      rw [e, e]
      rfl
    by_cases h6 : deviceId a = 0xa0
    · have e : ∀ vm, dei S dev a vm d = .ok (File.dei (d.core.file false) (ports vm (deviceId a)) (devicePort a), vm, d) := fun vm =>
        (skip ..).trans ((if_neg h4).trans ((if_neg h5).trans (if_pos h6)))
      rw [e, e]
      rfl
    by_cases h7 : deviceId a = 0xb0
    · have e : ∀ vm, dei S dev a vm d = .ok (File.dei (d.core.file true) (ports vm (deviceId a)) (devicePort a), vm, d) := fun vm =>
        (skip ..).trans ((if_neg h4).trans ((if_neg h5).trans ((if_neg h6).trans (if_pos h7))))
      rw [e, e]
      rfl
    by_cases h8 : deviceId a = 0xc0
    · have e : ∀ vm, dei S dev a vm d = (Datetime.dei (d.core.clock.reading d.core.clock.calls) vm a).map fun v =>
          (v, vm, { d with core := { d.core with clock := { d.core.clock with calls := d.core.clock.calls + 1 } } }) := fun vm =>
        (skip ..).trans ((if_neg h4).trans ((if_neg h5).trans ((if_neg h6).trans ((if_neg h7).trans (if_pos h8)))))
      rw [e, e]
      rw [show Datetime.dei (d.core.clock.reading d.core.clock.calls) (vm.patch U f) a = Datetime.dei (d.core.clock.reading d.core.clock.calls) vm a from rfl]
      cases Datetime.dei (d.core.clock.reading d.core.clock.calls) vm a <;> rfl
    · have e : ∀ vm, dei S dev a vm d = .ok (vm.device a, vm, d) := fun vm =>
        (skip ..).trans ((if_neg h4).trans ((if_neg h5).trans ((if_neg h6).trans ((if_neg h7).trans (if_neg h8)))))
      rw [e, e]
      rfl
  deo a vm d U f hm h := by
    show deo F dev a (vm.patch U f) d = (deo F dev a vm d).map _
    have hother : isFile a = false → (usage F dev).fills a vm d = fun i => a = 0x03 && requestFills vm i := by
      intro hi
      funext i
      show (_ || (isFile a && _)) = _
      rw [hi, Bool.false_and, Bool.or_false]
    have hfile : isFile a = true → ∀ vm' d', deo F dev a vm d = .ok (vm', d') →
        (usage F dev).fills a vm d = File.filled (ports vm (deviceId a)) (devicePort a) (d'.core.file (deviceId a = 0xb0)).success := by
      intro hi vm' d' e
      have h3 : a ≠ 0x03 := by rintro rfl; revert hi; decide
      funext i
      show (_ || (isFile a && _)) = _
      rw [hi, Bool.true_and, decide_eq_false h3, Bool.false_and, Bool.false_or, e]
    have hany : ∀ (second : Bool), isFile a = true → second = decide (deviceId a = 0xb0) →
        (∀ vm, deo F dev a vm d = (Cli.fileDeo F second (deviceId a) a vm d.core).map fun (vm, c) => (vm, { d with core := c })) →
        deo F dev a (vm.patch U f) d = (deo F dev a vm d).map fun x => (x.1.patch (without U ((usage F dev).fills a vm d)) f, x.2) := by
      intro second hi hs e
      have hf := hfile hi
      rw [e] at hf
      rw [e, e, Cli.fileDeo_patch F second (deviceId a) a vm d.core fun i hi' => h i (.inr (.inr (.inr ⟨hi, hi'⟩)))]
      cases hx : Cli.fileDeo F second (deviceId a) a vm d.core with
      | error u => rfl
      | ok x =>
        show Except.ok _ = Except.ok _
        dsimp only
        rw [hf x.1 { d with core := x.2 } (by rw [hx]; rfl), ← hs]
    by_cases h0 : deviceId a = 0x00
    · have e : ∀ vm, deo F dev a vm d = System.deo callbacks a vm d := fun vm => if_pos h0
      have hi : isFile a = false := by unfold isFile; rw [h0]; decide
      rw [e, e, hother hi]
      exact system_patch a vm d hm (fun h3 i hi => h i (.inl ⟨h3, hi⟩)) (fun h7 i => h i (.inr (.inl h7)))
    have h3 : a ≠ 0x03 := by rintro rfl; exact h0 (by decide)
    have hnone : isFile a = false → without U ((usage F dev).fills a vm d) = U := by
      intro hi
      rw [hother hi]
      have : (fun i => (decide (a = 0x03) && requestFills vm i)) = fun _ => false := by
        funext i
        rw [decide_eq_false h3, Bool.false_and]
      rw [this, without_nil]
    by_cases h1 : deviceId a = 0x10
    · rw [hnone (by unfold isFile; rw [h1]; decide)]
      have e : ∀ vm, deo F dev a vm d = (match consoleDeo { vm := vm, dev := dev.console, rest := () } a with
          | some (false, c) => print .info c vm d
          | some (true, c) => print .error c vm d
          | none => .ok (vm, d)) := by
        intro vm
        exact (if_neg h0).trans (if_pos h1)
      have hp : ∀ l c, print l c (vm.patch U f) d = (print l c vm d).map fun x => (x.1.patch U f, x.2) := by
        intro l c
        unfold print
        cases Text.write l c d.con <;> rfl
      rw [e, e, show consoleDeo { vm := vm.patch U f, dev := dev.console, rest := () } a = consoleDeo { vm := vm, dev := dev.console, rest := () } a from rfl]
      split
      · exact hp _ _
      · exact hp _ _
      · rfl
    by_cases h2 : deviceId a = 0x20
    · rw [hnone (by unfold isFile; rw [h2]; decide)]
      have e : ∀ vm, deo F dev a vm d = (Screen.deo vm d.gui a).map fun g => (vm, { d with gui := g }) := by
        intro vm
        unfold deo
        dsimp only
        rw [if_neg h0, if_neg h1, if_pos h2]
        cases Screen.deo vm d.gui a <;> rfl
      rw [e, e, Screen.C94_screen fun ha i hi => h i (.inr (.inr (.inl ⟨ha, hi⟩)))]
      cases Screen.deo vm d.gui a <;> rfl
    by_cases hau : isAudio (deviceId a) = true
    · have hi : isFile a = false := by
        cases hx : isFile a with
        | false => rfl
        | true =>
          exfalso
          unfold isFile at hx
          rw [Bool.or_eq_true, decide_eq_true_eq, decide_eq_true_eq] at hx
          rcases hx with hx | hx <;> (rw [hx] at hau; revert hau; decide)
      rw [hnone hi]
      have e : ∀ vm, deo F dev a vm d = (match Audio.deo (ports vm (deviceId a)) (devicePort a) with
          | some m => .ok (vm, { d with sent := d.sent ++ [(channel (deviceId a), m)] })
          | none => .ok (vm, d)) := by
        intro vm
        exact (if_neg h0).trans ((if_neg h1).trans ((if_neg h2).trans (if_pos hau)))
      rw [e, e, show ports (vm.patch U f) (deviceId a) = ports vm (deviceId a) from rfl]
      split <;> rfl
    by_cases ha : deviceId a = 0xa0
    · exact hany false (by unfold isFile; rw [ha]; decide) (by rw [ha]; decide) fun vm => by
        unfold deo
        dsimp only
        rw [if_neg h0, if_neg h1, if_neg h2, if_neg hau, if_pos ha]
    by_cases hb : deviceId a = 0xb0
    · exact hany true (by unfold isFile; rw [hb]; decide) (by rw [hb]; decide) fun vm => by
        unfold deo
        dsimp only
        rw [if_neg h0, if_neg h1, if_neg h2, if_neg hau, if_neg ha, if_pos hb]
    · have e : ∀ vm, deo F dev a vm d = .ok (vm, d) := fun vm => by
        unfold deo
        dsimp only
        rw [if_neg h0, if_neg h1, if_neg h2, if_neg hau, if_neg ha, if_neg hb]
      rw [e, e, hnone (by unfold isFile; rw [decide_eq_false ha, decide_eq_false hb]; rfl)]
      rfl

/-- **C94**, with the devices of `buxn-gui`: a vector that reads none of the cells `U` before they are filled, neither by its instructions nor by its requests to the expansion port, the file
devices and the screen, does the same whatever is in these cells: it draws and prints the same, sends the same sounds, makes the same calls to the file system, and leaves the same in its stacks,
its device page and its memory, but for the cells of `U` that have not been filled. -/
theorem C94_same_program (F : File.Host τ) (S : Sounds) (dev : Devices) (cfg : Cfg) (k0 k0' : Byte × Byte) (n : Nat) (vm vm' : VM) (d : Data τ) (pc : Short) (hpc : pc ≠ 0)
    (hm : 65536 ≤ vm.memSize) (U : Nat → Bool) (ha : AgreeBut U vm vm')
    (hu : Unread (usage F dev) (host F S dev) U (Spec.visited (Spec.cstep cfg (host F S dev)) n ⟨vm, d, pc.toNat⟩)) :
    AlikeBut (unwritten (usage F dev) (host F S dev) U (Spec.visited (Spec.cstep cfg (host F S dev)) n ⟨vm, d, pc.toNat⟩))
      (execute cfg (host F S dev) none k0 n vm d pc).view (execute cfg (host F S dev) none k0' n vm' d pc).view :=
  C94_execute (usage_uses F S dev) (host_keeps F S dev) cfg k0 k0' n vm vm' d pc hpc hm U ha hu

/-! ## A concrete case -/

/-- All cells that the devices look at, if no file is used and no metadata announced: those of the sprites, one for each `k` and `q` of `spriteCells`. -/
def lookedAt (a : Byte) (vm : VM) (d : Data τ) : Option (List Nat) :=
  if isFile a then none
  else if a = 0x07 then none
  else if a = 0x03 then (if vm.memSize + 65536 ≤ 2 ^ 32 then some (requested vm) else none)
  else if a = 0x2f then
    some (let s := (Screen.maybeResize vm d.gui).scr
      (List.range (s.rML + 1)).flatMap fun (k : Nat) => (List.range 16).map fun (q : Nat) =>
        (s.rA + k * (if Screen.bit (vm.device 0x2f) 7 then s.rMA * 4 else s.rMA * 2) + q).toNat)
  else some []

theorem lookedAt_all (F : File.Host τ) (dev : Devices) (a : Byte) (vm : VM) (d : Data τ) (l : List Nat) (h : lookedAt a vm d = some l) (i : Nat) (hi : (usage F dev).looks a vm d i) :
    i ∈ l := by
  unfold lookedAt at h
  by_cases hf : isFile a = true
  · rw [if_pos hf] at h; cases h
  rw [if_neg hf] at h
  by_cases h7 : a = 0x07
  · rw [if_pos h7] at h; cases h
  rw [if_neg h7] at h
  rcases hi with ⟨h3, hi⟩ | hi | ⟨h2, k, q, hk, hq, hi⟩ | ⟨hi, -⟩
  · rw [if_pos h3] at h
    split at h
    · cases h
      rcases hi with hi | hi
      · exact hi
      · omega
    · cases h
  · exact absurd hi h7
  · rw [if_neg (by rintro rfl; cases h2), if_pos h2] at h
    cases h
    refine List.mem_flatMap.2 ⟨k, List.mem_range.2 (by omega), List.mem_map.2 ⟨q, List.mem_range.2 ?_, ?_⟩⟩
    · have : (if Screen.bit (vm.device 0x2f) 7 then 16 else 8) ≤ 16 := by split <;> omega
      omega
    · rw [← hi]
      rfl
  · exact absurd hi hf

/-- `LIT2 0110 LIT 2c DEO2 LIT 01 LIT 2f DEO BRK` and a sprite at 0110: the program draws it in the upper left corner. -/
def drawSprite : List Nat := [0xa0, 0x01, 0x10, 0x80, 0x2c, 0x37, 0x80, 0x01, 0x80, 0x2f, 0x17, 0x00, 0x00, 0x00, 0x00, 0x00, 0x80, 0, 0, 0, 0, 0, 0, 0x01]

/-- All cells but those of the program and 8 behind it. -/
def aside : Nat → Bool := fun i => !(decide (0x100 ≤ i) && decide (i < 0x120))

/-- The devices at first, with a screen of 8 by 8. -/
def first (rom : List Nat) : Data Unit := (fresh () Cli.noClock 44100 8 8 (booted rom) []).data

/-- No events so far. -/
def idle : Devices := ⟨⟨0, 0, 0, 0, 0⟩, ⟨fun _ => 0, 0⟩, Cli.quiet⟩

/-- The colours of the pixels at the ends of the sprite, and of one between. -/
def drawn (o : Outcome (Data Unit)) : Option (Nat × Nat × Nat) :=
  match o with
  | .halted _ d => some (Screen.pix 8 d.gui.scr.bg 0 0, Screen.pix 8 d.gui.scr.bg 3 3, Screen.pix 8 d.gui.scr.bg 7 7)
  | _ => none

theorem drawSprite_unread : Unread (usage Cli.noFiles idle) (host Cli.noFiles (fun _ => []) idle) aside
    (Spec.visited (Spec.cstep ⟨true, true⟩ (host Cli.noFiles (fun _ => []) idle)) 20 ⟨booted drawSprite, first drawSprite, (0x100 : Short).toNat⟩) :=
  unread_of (all := lookedAt) (lookedAt_all Cli.noFiles idle) (by decide +kernel)

example : drawn (execute ⟨true, true⟩ (host Cli.noFiles (fun _ => []) idle) none (0, 0) 20 (booted drawSprite) (first drawSprite) 0x100) = some (1, 0, 1) := by decide +kernel

/-- The theorem applies: the program draws the same whatever is in the memory around it. -/
example (f : Nat → Byte) : AlikeBut (unwritten (usage Cli.noFiles idle) (host Cli.noFiles (fun _ => []) idle) aside
      (Spec.visited (Spec.cstep ⟨true, true⟩ (host Cli.noFiles (fun _ => []) idle)) 20 ⟨booted drawSprite, first drawSprite, (0x100 : Short).toNat⟩))
    (execute ⟨true, true⟩ (host Cli.noFiles (fun _ => []) idle) none (0, 0) 20 (booted drawSprite) (first drawSprite) 0x100).view
    (execute ⟨true, true⟩ (host Cli.noFiles (fun _ => []) idle) none (7, 8) 20 ((booted drawSprite).patch aside f) (first drawSprite) 0x100).view :=
  C94_same_program Cli.noFiles (fun _ => []) idle _ _ _ 20 _ _ _ _ (by decide) (by unfold booted; decide) aside (patch_agree _) drawSprite_unread

/-- The cells of a sprite are looked at: whatever is in the last of them is drawn. -/
theorem C94_sprite_matters : ∃ f,
    drawn (execute ⟨true, true⟩ (host Cli.noFiles (fun _ => []) idle) none (0, 0) 20 ((booted drawSprite).patch (fun i => i = 0x117) f) (first drawSprite) 0x100) = some (1, 0, 0) :=
  ⟨fun _ => 0, by decide +kernel⟩

end Buxn.Gui.Whole
