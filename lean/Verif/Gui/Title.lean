import Verif.Misc.Metadata
import Mathlib.Tactic.IntervalCases
/-!
# C68: window title and icon

Models `draw_chr`, `apply_metadata` and `buxn_system_set_metadata` of `/repo/src/gui.c`, on top of the parser of C23. What is
passed to `sapp_set_window_title` and `sapp_set_icon` is a list of effects.
-/
namespace Buxn.Gui.Title
open Buxn.VM Buxn.Metadata

/-- What the window system is told. -/
inductive Effect
  | title (text : List Byte)
  | icon (pixels : List (BitVec 32))
  deriving DecidableEq

/-- The guest's memory as a C array of `cap` bytes. -/
def wr (mem : Nat → Byte) (cap i : Nat) (c : Byte) : Res (Nat → Byte) :=
  if i < cap then .ok (fun j => if j = i then c else mem j) else .error .oob

/-- The loop to the end of the first line, `gui.c:145-148`. The fuel is the length that is left. -/
def lineEnd (mem : Nat → Byte) (cap : Nat) : Nat → Nat → Res Nat
  | 0, ch => .ok ch
  | n + 1, ch => do
    let c ← rd mem cap ch
    if c = 0x0a then return ch else lineEnd mem cap n (ch + 1)

/-- A C string that starts at `i`, of at most `n` bytes. -/
def cstr (mem : Nat → Byte) (cap : Nat) : Nat → Nat → Res (List Byte)
  | 0, _ => .error .oob
  | n + 1, i => do
    let c ← rd mem cap i
    if c = 0 then return [] else (cstr mem cap n (i + 1)).map (c :: ·)

/-- `gui.c:145-154`: the title, and the memory afterwards. -/
def setTitle (mem : Nat → Byte) (cap : Nat) (m : Meta) : Res (List Byte × (Nat → Byte)) := do
  let ch ← lineEnd mem cap m.contentLen m.content
  let old ← rd mem cap ch
  let mem ← wr mem cap ch 0
  let text ← cstr mem cap (cap - m.content) m.content
  let mem ← wr mem cap ch old
  return (text, mem)

/-- An array of the C stack that is not initialised. -/
abbrev Image := Nat → Option Byte

/-- One pixel of `draw_chr`, `gui.c:126-130`. `addr` is a 16 bit parameter; `ch1` and `ch2` are bits of the two planes. -/
def drawPixel (mem : Nat → Byte) (cap : Nat) (x y : Nat) (addr : Short) (v h : Nat) (dst : Image) : Res Image := do
  let p1 ← rd mem cap ((addr.toNat + v) % 65536)
  let p2 ← rd mem cap ((addr.toNat + v + 8) % 65536)
  let c : Byte := ((p1 >>> h) &&& (1 : Byte)) + (((p2 >>> h) &&& (1 : Byte)) <<< (1 : Nat))
  let element := (y + v) * 24 + (x + 7 - h)
  if element < 576 then return (fun j => if j = element then some c else dst j) else .error .oob

/-- The loops of `draw_chr`, `gui.c:122-134`, as a list of rows and columns in their order. -/
def drawCells (mem : Nat → Byte) (cap : Nat) (x y : Nat) (addr : Short) : List (Nat × Nat) → Image → Res Image
  | [], dst => .ok dst
  | (v, h) :: cs, dst => do
    let dst ← drawPixel mem cap x y addr v h dst
    drawCells mem cap x y addr cs dst

/-- `for v … for h …`. -/
def cells : List (Nat × Nat) := (List.range 8).flatMap (fun v => (List.range 8).map (fun h => (v, h)))

/-- `draw_chr`, `gui.c:122-134`. -/
def drawChr (mem : Nat → Byte) (cap : Nat) (dst : Image) (x y : Nat) (addr : Short) : Res Image :=
  drawCells mem cap x y addr cells dst

/-- The loops over the nine tiles, `gui.c:162-170`. -/
def drawTiles (mem : Nat → Byte) (cap : Nat) (value : Short) : List (Nat × Nat) → Image → Res Image
  | [], dst => .ok dst
  | (y, x) :: ts, dst => do
    let dst ← drawChr mem cap dst (x * 8) (y * 8) (BitVec.ofNat 16 (value.toNat + (x + y * 3) * 16))
    drawTiles mem cap value ts dst

/-- `for y … for x …`. -/
def tiles : List (Nat × Nat) := (List.range 3).flatMap (fun y => (List.range 3).map (fun x => (y, x)))

/-- `palette`, `gui.c:174-178`. -/
def palette : List (BitVec 32) := [0, 0xff777700, 0xff000000, 0xffffffff]

/-- `rendered_icon[j] = palette[paletted_icon[j]]`, `gui.c:180-182`. Reading what was never written is an error here. -/
def render (img : Image) : List Nat → Res (List (BitVec 32))
  | [] => .ok []
  | j :: js =>
    match img j with
    | none => .error .oob
    | some c =>
      match palette[c.toNat]? with
      | none => .error .oob
      | some p => (render img js).map (p :: ·)

/-- The case of an icon, `gui.c:160-193`. -/
def setIcon (mem : Nat → Byte) (cap : Nat) (value : Short) : Res Effect := do
  let img ← drawTiles mem cap value tiles (fun _ => none)
  let px ← render img (List.range 576)
  return .icon px

/-- The loop over the extensions, `gui.c:156-196`, from index `i` with `n` left. -/
def extensions (mem : Nat → Byte) (cap : Nat) (m : Meta) : Nat → Nat → Res (List Effect)
  | 0, _ => .ok []
  | n + 1, i => do
    let (id, value) ← getExt mem cap m (BitVec.ofNat 8 i)
    let es ← (if id = 0x83 then (setIcon mem cap value).map (fun e => [e]) else .ok [])
    let rest ← extensions mem cap m n (i + 1)
    return es ++ rest

/-- `apply_metadata`, `gui.c:138-198`: what the window system is told, and the memory afterwards. -/
def apply (mem : Nat → Byte) (cap : Nat) (m : Meta) : Res (List Effect × (Nat → Byte)) := do
  let (text, mem) ← setTitle mem cap m
  let es ← extensions mem cap m m.num.toNat 0
  return (.title text :: es, mem)

/-- `buxn_system_set_metadata`, `gui.c:288-297`: called when a program writes the address of metadata to port 0x06. -/
def setMetadata (vm : VM) (address : Short) : Res (List Effect × VM) := do
  match ← fromMemory vm address with
  | none => return ([], vm)
  | some m =>
    let (es, mem) ← apply vm.memory vm.memSize m
    return (es, { vm with memory := mem })

/-- A result of the parser for the ROM as pointers into the memory, where the ROM begins at 0x100. -/
def shift (m : Meta) : Meta := { m with content := m.content + 256, ext := m.ext + 256 }

/-- The part of `load_boot_rom` after the ROM has been read, `gui.c:421-427`: the parser is given all of the memory from
0x100 on. -/
def bootTitle (vm : VM) : Res (List Effect × VM) := do
  match ← fromRom (fun i => vm.memory (i + 256)) (vm.memSize - 256) with
  | none => return ([], vm)
  | some m =>
    if m.contentLen ≠ 0 then do
      let (es, mem) ← apply vm.memory vm.memSize (shift m)
      return (es, { vm with memory := mem })
    else return ([], vm)

/-! ## Specification -/
namespace Spec

/-- The first line of a text. -/
def firstLine (text : List Byte) : List Byte := text.takeWhile (· != 0x0a)

/-- The colour of the pixel in column `px` and row `py` of an icon of 3 × 3 tiles in the CHR format at an address: each tile is
16 bytes, 8 for the low bits and 8 for the high bits of its rows, from left to right in each row. Addresses wrap at 64K. -/
def pixel (mem : Nat → Byte) (address px py : Nat) : BitVec 32 :=
  let tile := address + 16 * (px / 8 + 3 * (py / 8))
  let low := (mem ((tile + py % 8) % 65536)).getLsbD (7 - px % 8)
  let high := (mem ((tile + 8 + py % 8) % 65536)).getLsbD (7 - px % 8)
  match high, low with
  | false, false => 0
  | false, true => 0xff777700
  | true, false => 0xff000000
  | true, true => 0xffffffff

/-- The icon, row by row. -/
def icon (mem : Nat → Byte) (address : Nat) : List (BitVec 32) :=
  (List.range 24).flatMap (fun py => (List.range 24).map (fun px => pixel mem address px py))

/-- What the window system is to be told of metadata with this text and these extensions. -/
def told (mem : Nat → Byte) (text : List Byte) (exts : List (Byte × Short)) : List Effect :=
  .title (firstLine text) :: (exts.filter (·.1 == 0x83)).map (fun e => .icon (icon mem e.2.toNat))

end Spec

/-! ## Proofs: title -/

/-- The `n` bytes at `i`. -/
def bytes (mem : Nat → Byte) (i : Nat) : Nat → List Byte
  | 0 => []
  | n + 1 => mem i :: bytes mem (i + 1) n

theorem bytes_length (mem : Nat → Byte) (i n : Nat) : (bytes mem i n).length = n := by
  induction n generalizing i with
  | zero => rfl
  | succ n ih => simp [bytes, ih]
theorem bytes_get (mem : Nat → Byte) (i n k : Nat) (h : k < (bytes mem i n).length) : (bytes mem i n)[k] = mem (i + k) := by
  induction n generalizing i k with
  | zero => simp [bytes] at h
  | succ n ih =>
    cases k with
    | zero => rfl
    | succ k =>
      have : (bytes mem (i + 1) n)[k]'(by simpa [bytes] using h) = mem (i + 1 + k) := ih _ _ _
      rw [show i + (k + 1) = i + 1 + k by omega, ← this]
      rfl

theorem lineEnd_spec (mem : Nat → Byte) (cap n ch : Nat) (h : ch + n ≤ cap) :
    lineEnd mem cap n ch = .ok (ch + (Spec.firstLine (bytes mem ch n)).length) := by
  induction n generalizing ch with
  | zero => rfl
  | succ n ih =>
    unfold lineEnd
    rw [Metadata.rd_ok (by omega)]
    simp only [bind, Except.bind, pure, Except.pure]
    by_cases hc : mem ch = 0x0a
    · rw [if_pos hc]
      simp [bytes, Spec.firstLine, hc]
    · rw [if_neg hc, ih (ch + 1) (by omega)]
      have : Spec.firstLine (bytes mem ch (n + 1)) = mem ch :: Spec.firstLine (bytes mem (ch + 1) n) := by
        show (mem ch :: bytes mem (ch + 1) n).takeWhile _ = _
        rw [List.takeWhile_cons, if_pos (by simpa using hc)]
        rfl
      rw [this, List.length_cons]
      congr 1
      omega

theorem cstr_spec (mem : Nat → Byte) (cap n i k : Nat) (hz : mem (i + k) = 0) (hn : ∀ j, j < k → mem (i + j) ≠ 0) (hk : k < n)
    (hc : i + k < cap) : cstr mem cap n i = .ok (bytes mem i k) := by
  induction n generalizing i k with
  | zero => omega
  | succ n ih =>
    unfold cstr
    rw [Metadata.rd_ok (by omega)]
    simp only [bind, Except.bind, pure, Except.pure]
    cases k with
    | zero => rw [if_pos (show mem i = 0 from hz)]; rfl
    | succ k =>
      rw [if_neg (show ¬ mem i = 0 from hn 0 (by omega)), ih (i + 1) k (by rw [← hz]; congr 1; omega) (fun j hj => by
        have := hn (j + 1) (by omega)
        rwa [show i + (j + 1) = i + 1 + j by omega] at this) (by omega) (by omega)]
      rfl

theorem bytes_congr {mem mem' : Nat → Byte} {i n : Nat} (h : ∀ j, i ≤ j → j < i + n → mem j = mem' j) : bytes mem i n = bytes mem' i n := by
  induction n generalizing i with
  | zero => rfl
  | succ n ih => unfold bytes; rw [h i (by omega) (by omega), ih (fun j h1 h2 => h j (by omega) (by omega))]

theorem bytes_takeWhile (mem : Nat → Byte) (i n : Nat) (p : Byte → Bool) :
    bytes mem i ((bytes mem i n).takeWhile p).length = (bytes mem i n).takeWhile p := by
  induction n generalizing i with
  | zero => rfl
  | succ n ih =>
    show bytes mem i ((mem i :: bytes mem (i + 1) n).takeWhile p).length = (mem i :: bytes mem (i + 1) n).takeWhile p
    rw [List.takeWhile_cons]
    split
    · exact congrArg (mem i :: ·) (ih (i + 1))
    · rfl

theorem setTitle_spec (mem : Nat → Byte) (cap addr max : Nat) (hm : max ≤ cap) (m : Meta) (h : Sound mem addr max m) :
    setTitle mem cap m = .ok (Spec.firstLine (bytes mem m.content m.contentLen), mem) := by
  have hin := h.inside
  have hlen : (Spec.firstLine (bytes mem m.content m.contentLen)).length ≤ m.contentLen := by
    have := (List.takeWhile_sublist (· != (0x0a : Byte)) (l := bytes mem m.content m.contentLen)).length_le
    rw [bytes_length] at this
    exact this
  unfold setTitle
  rw [lineEnd_spec mem cap _ _ (by omega)]
  simp only [bind, Except.bind, pure, Except.pure]
  generalize hk : (Spec.firstLine (bytes mem m.content m.contentLen)).length = k at hlen
  rw [Metadata.rd_ok (by omega)]
  dsimp only
  have w : ∀ (f : Nat → Byte) (i : Nat) (c : Byte), i < cap → wr f cap i c = .ok (fun j => if j = i then c else f j) :=
    fun f i c hi => if_pos hi
  rw [w _ _ _ (by omega)]
  dsimp only
  rw [cstr_spec _ cap _ m.content k (by rw [if_pos rfl]) (fun j hj => by
    rw [if_neg (by omega)]
    exact h.text j (by omega)) (by omega) (by omega)]
  dsimp only
  rw [w _ _ _ (by omega)]
  dsimp only
  congr 2
  · rw [bytes_congr (mem' := mem) (fun j h1 h2 => by rw [if_neg (by omega)]), ← hk]
    exact bytes_takeWhile mem _ _ _
  · funext j
    by_cases hj : j = m.content + k
    · rw [if_pos hj, hj]
    · rw [if_neg hj, if_neg hj]

/-! ## Proofs: icon -/

/-- The colour number of a pixel. -/
def number (mem : Nat → Byte) (address e : Nat) : Byte :=
  let tile := address + 16 * (e % 24 / 8 + 3 * (e / 24 / 8))
  let p1 := mem ((tile + e / 24 % 8) % 65536)
  let p2 := mem ((tile + 8 + e / 24 % 8) % 65536)
  ((p1 >>> (7 - e % 24 % 8)) &&& (1 : Byte)) + (((p2 >>> (7 - e % 24 % 8)) &&& (1 : Byte)) <<< (1 : Nat))

/-- The image is right where it has been drawn. -/
def Right (mem : Nat → Byte) (address : Nat) (img : Image) : Prop := ∀ e c, img e = some c → c = number mem address e

theorem drawPixel_spec (mem : Nat → Byte) (cap : Nat) (hc : 65536 ≤ cap) (value : Short) (x y v h : Nat) (hx : x < 3) (hy : y < 3) (hv : v < 8)
    (hh : h < 8) (img : Image) (hr : Right mem value.toNat img) :
    ∃ img', drawPixel mem cap (x * 8) (y * 8) (BitVec.ofNat 16 (value.toNat + (x + y * 3) * 16)) v h img = .ok img' ∧
      Right mem value.toNat img' ∧ ∀ e, (img' e).isSome = ((img e).isSome || decide (e = (y * 8 + v) * 24 + (x * 8 + 7 - h))) := by
  unfold drawPixel
  rw [Metadata.rd_ok (by omega), Metadata.rd_ok (by omega)]
  simp only [bind, Except.bind, pure, Except.pure]
  rw [if_pos (by omega)]
  refine ⟨_, rfl, fun e c he => ?_, fun e => ?_⟩
  · by_cases h1 : e = (y * 8 + v) * 24 + (x * 8 + 7 - h)
    · dsimp only at he
      rw [if_pos h1] at he
      cases he
      unfold number
      dsimp only
      have e1 : e / 24 = y * 8 + v := by omega
      have e2 : e % 24 = x * 8 + 7 - h := by omega
      rw [e1, e2, show (y * 8 + v) / 8 = y by omega, show (y * 8 + v) % 8 = v by omega, show (x * 8 + 7 - h) / 8 = x by omega,
        show 7 - (x * 8 + 7 - h) % 8 = h by omega, BitVec.toNat_ofNat]
      have a1 : ((value.toNat + (x + y * 3) * 16) % 2 ^ 16 + v) % 65536 = (value.toNat + 16 * (x + 3 * y) + v) % 65536 := by omega
      have a2 : ((value.toNat + (x + y * 3) * 16) % 2 ^ 16 + v + 8) % 65536 = (value.toNat + 16 * (x + 3 * y) + 8 + v) % 65536 := by omega
      rw [a1, a2]
    · dsimp only at he
      rw [if_neg h1] at he
      exact hr e c he
  · by_cases h1 : e = (y * 8 + v) * 24 + (x * 8 + 7 - h)
    · rw [if_pos h1]; simp [h1]
    · rw [if_neg h1]; simp [h1]

theorem drawCells_spec (mem : Nat → Byte) (cap : Nat) (hc : 65536 ≤ cap) (value : Short) (x y : Nat) (hx : x < 3) (hy : y < 3)
    (cs : List (Nat × Nat)) (hcs : ∀ c ∈ cs, c.1 < 8 ∧ c.2 < 8) (img : Image) (hr : Right mem value.toNat img) :
    ∃ img', drawCells mem cap (x * 8) (y * 8) (BitVec.ofNat 16 (value.toNat + (x + y * 3) * 16)) cs img = .ok img' ∧
      Right mem value.toNat img' ∧
      ∀ e, (img' e).isSome = ((img e).isSome || cs.any (fun c => decide (e = (y * 8 + c.1) * 24 + (x * 8 + 7 - c.2)))) := by
  induction cs generalizing img with
  | nil => exact ⟨img, rfl, hr, fun e => by simp⟩
  | cons c cs ih =>
    obtain ⟨v, h⟩ := c
    obtain ⟨h1, h2⟩ := hcs _ (List.mem_cons_self ..)
    obtain ⟨i1, e1, r1, s1⟩ := drawPixel_spec mem cap hc value x y v h hx hy h1 h2 img hr
    obtain ⟨i2, e2, r2, s2⟩ := ih (fun c hm => hcs c (List.mem_cons_of_mem _ hm)) i1 r1
    refine ⟨i2, ?_, r2, fun e => ?_⟩
    · unfold drawCells
      rw [e1]
      exact e2
    · rw [s2, s1, List.any_cons, Bool.or_assoc]

theorem drawTiles_spec (mem : Nat → Byte) (cap : Nat) (hc : 65536 ≤ cap) (value : Short) (ts : List (Nat × Nat))
    (hts : ∀ t ∈ ts, t.1 < 3 ∧ t.2 < 3) (img : Image) (hr : Right mem value.toNat img) :
    ∃ img', drawTiles mem cap value ts img = .ok img' ∧ Right mem value.toNat img' ∧
      ∀ e, (img' e).isSome = ((img e).isSome || ts.any (fun t => cells.any (fun c => decide (e = (t.1 * 8 + c.1) * 24 + (t.2 * 8 + 7 - c.2))))) := by
  induction ts generalizing img with
  | nil => exact ⟨img, rfl, hr, fun e => by simp⟩
  | cons t ts ih =>
    obtain ⟨y, x⟩ := t
    obtain ⟨h1, h2⟩ := hts _ (List.mem_cons_self ..)
    obtain ⟨i1, e1, r1, s1⟩ := drawCells_spec mem cap hc value x y h2 h1 cells (by decide) img hr
    obtain ⟨i2, e2, r2, s2⟩ := ih (fun c hm => hts c (List.mem_cons_of_mem _ hm)) i1 r1
    refine ⟨i2, ?_, r2, fun e => ?_⟩
    · unfold drawTiles drawChr
      rw [e1]
      exact e2
    · rw [s2, s1, List.any_cons, Bool.or_assoc]

/-- Every pixel is drawn. -/
theorem all_drawn (e : Nat) (he : e < 576) :
    tiles.any (fun t => cells.any (fun c => decide (e = (t.1 * 8 + c.1) * 24 + (t.2 * 8 + 7 - c.2)))) = true := by
  rw [List.any_eq_true]
  refine ⟨(e / 24 / 8, e % 24 / 8), ?_, ?_⟩
  · unfold tiles
    rw [List.mem_flatMap]
    refine ⟨e / 24 / 8, List.mem_range.2 (by omega), List.mem_map.2 ⟨e % 24 / 8, List.mem_range.2 (by omega), rfl⟩⟩
  · rw [List.any_eq_true]
    refine ⟨(e / 24 % 8, 7 - e % 24 % 8), ?_, by simp only [decide_eq_true_iff]; omega⟩
    unfold cells
    rw [List.mem_flatMap]
    refine ⟨e / 24 % 8, List.mem_range.2 (by omega), List.mem_map.2 ⟨7 - e % 24 % 8, List.mem_range.2 (by omega), rfl⟩⟩

/-- The colour of a pixel by its index. -/
theorem pixel_number (mem : Nat → Byte) (address e : Nat) :
    palette[(number mem address e).toNat]? = some (Spec.pixel mem address (e % 24) (e / 24)) := by
  unfold number Spec.pixel
  dsimp only
  generalize mem ((address + 16 * (e % 24 / 8 + 3 * (e / 24 / 8)) + e / 24 % 8) % 65536) = p1
  generalize mem ((address + 16 * (e % 24 / 8 + 3 * (e / 24 / 8)) + 8 + e / 24 % 8) % 65536) = p2
  have hs : 7 - e % 24 % 8 < 8 := by omega
  generalize 7 - e % 24 % 8 = s at hs
  have bit : ∀ (s : Fin 8) (p : Byte), (p >>> s.val) &&& (1 : Byte) = if p.getLsbD s.val then 1 else 0 := by decide +kernel
  have b1 := bit ⟨s, hs⟩ p1
  have b2 := bit ⟨s, hs⟩ p2
  dsimp only at b1 b2
  rw [b1, b2]
  cases p1.getLsbD s <;> cases p2.getLsbD s <;> rfl

theorem render_spec (mem : Nat → Byte) (address : Nat) (img : Image) (hr : Right mem address img) (js : List Nat)
    (hs : ∀ j ∈ js, (img j).isSome = true) :
    render img js = .ok (js.map (fun e => Spec.pixel mem address (e % 24) (e / 24))) := by
  induction js with
  | nil => rfl
  | cons j js ih =>
    unfold render
    obtain ⟨c, hc⟩ := Option.isSome_iff_exists.1 (hs j (List.mem_cons_self ..))
    rw [hc]
    dsimp only
    rw [hr j c hc, pixel_number]
    dsimp only
    rw [ih (fun k hk => hs k (List.mem_cons_of_mem _ hk))]
    rfl

theorem flat_index {α : Type} (f : Nat → Nat → α) (m n : Nat) (hm : 0 < m) :
    (List.range n).flatMap (fun y => (List.range m).map (fun x => f x y)) = (List.range (n * m)).map (fun e => f (e % m) (e / m)) := by
  induction n with
  | zero => simp
  | succ n ih =>
    rw [List.range_succ, List.flatMap_append, ih, Nat.succ_mul, List.range_add, List.map_append]
    congr 1
    simp only [List.flatMap_cons, List.flatMap_nil, List.append_nil, List.map_map]
    apply List.map_congr_left
    intro x hx
    have hx := List.mem_range.1 hx
    simp only [Function.comp_apply]
    rw [Nat.mul_comm n m, Nat.mul_add_mod, Nat.mod_eq_of_lt hx, Nat.mul_add_div hm, Nat.div_eq_of_lt hx]
    rfl

theorem setIcon_spec (mem : Nat → Byte) (cap : Nat) (hc : 65536 ≤ cap) (value : Short) :
    setIcon mem cap value = .ok (.icon (Spec.icon mem value.toNat)) := by
  obtain ⟨img, e1, r1, s1⟩ := drawTiles_spec mem cap hc value tiles (by decide) (fun _ => none) (fun e c h => by cases h)
  unfold setIcon
  rw [e1]
  simp only [bind, Except.bind, pure, Except.pure]
  rw [render_spec mem value.toNat img r1 (List.range 576) (fun j hj => by
    rw [s1, all_drawn j (List.mem_range.1 hj)]; rfl)]
  dsimp only
  unfold Spec.icon
  rw [flat_index (fun px py => Spec.pixel mem value.toNat px py) 24 24 (by decide)]

theorem extensions_spec (mem : Nat → Byte) (cap : Nat) (hc : 65536 ≤ cap) (m : Meta) (exts : List (Byte × Short)) (n i : Nat)
    (hn : exts.length = n) (hg : ∀ j, (h : j < exts.length) → getExt mem cap m (BitVec.ofNat 8 (i + j)) = .ok exts[j]) :
    extensions mem cap m n i = .ok ((exts.filter (·.1 == 0x83)).map (fun e => .icon (Spec.icon mem e.2.toNat))) := by
  induction n generalizing exts i with
  | zero => rw [List.length_eq_zero_iff.1 hn]; rfl
  | succ n ih =>
    cases exts with
    | nil => simp at hn
    | cons x exts =>
      obtain ⟨id, value⟩ := x
      unfold extensions
      have h0 : getExt mem cap m (BitVec.ofNat 8 i) = .ok (id, value) := hg 0 (Nat.succ_pos _)
      have ih := ih exts (i + 1) (by simpa using hn) (fun j h => by
        rw [show i + 1 + j = i + (j + 1) by omega]
        exact hg (j + 1) (by simpa using h))
      rw [h0]
      simp only [bind, Except.bind, pure, Except.pure]
      by_cases hid : id = 0x83
      · rw [if_pos hid, setIcon_spec mem cap hc]
        simp only [Except.map]
        rw [ih, List.filter_cons_of_pos (by simpa using hid)]
        rfl
      · rw [if_neg hid]
        dsimp only
        rw [ih, List.filter_cons_of_neg (by simpa using hid)]
        rfl

/-- The extensions that a result of the parser lists. -/
def extsOf (mem : Nat → Byte) (m : Meta) : List (Byte × Short) :=
  (List.range m.num.toNat).map (fun i => (mem (m.ext + 3 * i), mem (m.ext + 3 * i + 1) ++ mem (m.ext + 3 * i + 2)))

theorem apply_spec (mem : Nat → Byte) (cap addr max : Nat) (hc : 65536 ≤ cap) (hm : max ≤ cap) (m : Meta) (h : Sound mem addr max m) :
    apply mem cap m = .ok (Spec.told mem (bytes mem m.content m.contentLen) (extsOf mem m), mem) := by
  unfold apply
  rw [setTitle_spec mem cap addr max hm m h]
  simp only [bind, Except.bind, pure, Except.pure]
  rw [extensions_spec mem cap hc m (extsOf mem m) m.num.toNat 0 (by simp [extsOf]) (fun j hj => by
    have hj' : j < m.num.toNat := by simpa [extsOf] using hj
    have hb := m.num.isLt
    rw [C23_ext_in_bounds mem cap addr max m hm h]
    rw [Nat.zero_add, BitVec.toNat_ofNat, Nat.mod_eq_of_lt (by omega), if_pos hj']
    simp [extsOf])]
  rfl

/-! ## C68 -/

/-- **C68**, safety. Whatever a program has in its memory and whatever address it announces: nothing is read or written out of
bounds, no uninitialised pixel is shown, and its memory is as before. If there is no text (no zero up to 0xfffe) the window is
left alone; otherwise its title is the first line of the text, and each icon in the list of extensions is shown. -/
theorem C68_any_memory (vm : VM) (address : Short) (hm : 65536 ≤ vm.memSize) :
    (setMetadata vm address = .ok ([], vm) ∧ ∀ i, address.toNat < i → i < 65535 → vm.memory i ≠ 0) ∨
    ∃ m, Sound vm.memory address.toNat 65535 m ∧
      setMetadata vm address = .ok (Spec.told vm.memory (bytes vm.memory m.content m.contentLen) (extsOf vm.memory m), vm) := by
  have ha := address.isLt
  unfold setMetadata fromMemory
  rw [if_neg (by omega)]
  rcases parse_spec vm.memory vm.memSize address.toNat 65535 (by omega) (by omega) with ⟨h, h2⟩ | ⟨m, h, hs⟩
  · left
    rw [h]
    exact ⟨rfl, h2⟩
  · right
    refine ⟨m, hs, ?_⟩
    rw [h]
    simp only [bind, Except.bind, pure, Except.pure]
    rw [apply_spec vm.memory vm.memSize address.toNat 65535 hm (by omega) m hs]

/-- **C68.** A program whose metadata is in its memory, in the format, below 0xffff: the window gets the first line of the text
as its title, and each icon of the list, and nothing else. -/
theorem C68_title_icon (vm : VM) (address : Short) (hm : 65536 ≤ vm.memSize) (version : Byte) (text : List Byte)
    (exts : List (Byte × Short)) (ht : ∀ c ∈ text, c ≠ 0) (hn : exts.length ≤ 255)
    (hat : HasAt vm.memory address.toNat (encode version text exts))
    (hfit : address.toNat + (encode version text exts).length ≤ 65535) :
    setMetadata vm address = .ok (Spec.told vm.memory text exts, vm) := by
  have ha := address.isLt
  obtain ⟨m, h1, -, h3, h4, h5, h6⟩ := C23_round_trip vm.memory vm.memSize address.toNat 65535 (by omega) version text exts ht hn hat hfit
  have hp : fromMemory vm address = .ok (some m) := by unfold fromMemory; rw [if_neg (by omega)]; exact h1
  obtain ⟨r, e, hr⟩ := C23_memory vm address hm
  rw [hp] at e
  cases e
  have hs := hr m rfl
  unfold setMetadata
  rw [hp]
  simp only [bind, Except.bind, pure, Except.pure]
  rw [apply_spec vm.memory vm.memSize address.toNat 65535 hm (by omega) m hs]
  dsimp only
  have e1 : bytes vm.memory m.content m.contentLen = text := by
    apply List.ext_getElem
    · rw [bytes_length, h3]
    · intro i g1 g2
      rw [bytes_get, h4 i g2]
  have e2 : extsOf vm.memory m = exts := by
    apply List.ext_getElem
    · simp [extsOf, h5]
    · intro j g1 g2
      have := h6 j g2
      rw [C23_ext_in_bounds vm.memory vm.memSize address.toNat 65535 m (by omega) hs, BitVec.toNat_ofNat, Nat.mod_eq_of_lt (by omega),
        if_pos (by omega)] at this
      have this := Except.ok.inj this
      rw [← this]
      simp [extsOf]
  rw [e1, e2]

theorem sound_shift {mem : Nat → Byte} {addr max : Nat} {m : Meta} (h : Sound (fun i => mem (i + 256)) addr max m) :
    Sound mem (addr + 256) (max + 256) (shift m) := by
  have hc := h.content
  have hi := h.inside
  have r : ∀ i j, i + 256 = j → mem (i + 256) = mem j := fun i j e => by rw [e]
  refine ⟨h.version, ?_, fun i hl => ?_, ?_, ?_, fun hn => ?_, fun hn => ?_⟩
  · show m.content + 256 = addr + 256 + 1; omega
  · show mem (m.content + 256 + i) ≠ 0
    rw [← r (m.content + i) _ (by omega)]; exact h.text i hl
  · show mem (m.content + 256 + m.contentLen) = 0
    rw [← r (m.content + m.contentLen) _ (by omega)]; exact h.stop
  · show m.content + 256 + m.contentLen < max + 256; omega
  · obtain ⟨e1, e2, e3⟩ := h.exts hn
    refine ⟨?_, ?_, ?_⟩
    · show m.ext + 256 = m.content + 256 + m.contentLen + 2; omega
    · show m.ext + 256 + 3 * m.num.toNat ≤ max + 256; omega
    · show mem (m.content + 256 + m.contentLen + 1) = m.num
      rw [← r (m.content + m.contentLen + 1) _ (by omega)]; exact e3
  · have := h.complete hn
    show max + 256 ≤ m.content + 256 + m.contentLen + 2 ∨ mem (m.content + 256 + m.contentLen + 1) = 0 ∨
      max + 256 < m.content + 256 + m.contentLen + 2 + 3 * (mem (m.content + 256 + m.contentLen + 1)).toNat
    rw [← r (m.content + m.contentLen + 1) (m.content + 256 + m.contentLen + 1) (by omega)]
    rcases this with g | g | g
    · exact .inl (by omega)
    · exact .inr (.inl g)
    · exact .inr (.inr (by omega))

/-- **C68**, when a ROM is loaded, whatever it contains: nothing is read or written out of bounds and the memory is as before;
the window is left alone, or told of the metadata that the parser found. -/
theorem C68_boot (vm : VM) (hm : 65536 ≤ vm.memSize) :
    bootTitle vm = .ok ([], vm) ∨
    ∃ a m, Sound vm.memory a vm.memSize m ∧ m.contentLen ≠ 0 ∧
      bootTitle vm = .ok (Spec.told vm.memory (bytes vm.memory m.content m.contentLen) (extsOf vm.memory m), vm) := by
  have b1 := (vm.memory (1 + 256)).isLt
  have b2 := (vm.memory (2 + 256)).isLt
  obtain ⟨r, e, hr⟩ := C23_rom_partial (fun i => vm.memory (i + 256)) (vm.memSize - 256) (by omega)
  unfold bootTitle
  rw [e]
  simp only [bind, Except.bind, pure, Except.pure]
  cases r with
  | none => exact .inl rfl
  | some m =>
    dsimp only
    by_cases hl : m.contentLen = 0
    · rw [if_neg (fun h => h hl)]; exact .inl rfl
    · rw [if_pos hl]
      have hs := sound_shift (hr m rfl)
      rw [show vm.memSize - 256 + 256 = vm.memSize by omega] at hs
      right
      refine ⟨_, shift m, hs, hl, ?_⟩
      rw [apply_spec vm.memory vm.memSize _ vm.memSize hm (Nat.le_refl _) (shift m) hs]

/-- **C68**, when a ROM is loaded that begins by announcing its metadata (with some text): the window has its title and icon
before the program runs. -/
theorem C68_boot_title_icon (vm : VM) (a : Nat) (hm : 65536 ≤ vm.memSize) (ha : 256 < a) (ha2 : a < 65536)
    (hann : Announces (fun i => vm.memory (i + 256)) a) (version : Byte) (text : List Byte) (exts : List (Byte × Short))
    (ht : ∀ c ∈ text, c ≠ 0) (h0 : text ≠ []) (hn : exts.length ≤ 255) (hat : HasAt vm.memory a (encode version text exts))
    (hfit : a + (encode version text exts).length ≤ vm.memSize) :
    bootTitle vm = .ok (Spec.told vm.memory text exts, vm) := by
  obtain ⟨m, h1, -, h3, h4, h5, h6⟩ := C23_rom_round_trip (fun i => vm.memory (i + 256)) (vm.memSize - 256) a ha ha2 hann version text exts ht hn
    (fun i h => by
      show vm.memory (a - 256 + i + 256) = _
      rw [show a - 256 + i + 256 = a + i by omega]; exact hat i h) (by omega) (by omega)
  have b1 := (vm.memory (1 + 256)).isLt
  have b2 := (vm.memory (2 + 256)).isLt
  obtain ⟨r, e, hr⟩ := C23_rom_partial (fun i => vm.memory (i + 256)) (vm.memSize - 256) (by omega)
  rw [h1] at e
  cases e
  have hs0 := hr m rfl
  have hs := sound_shift hs0
  rw [show vm.memSize - 256 + 256 = vm.memSize by omega] at hs
  have hl : m.contentLen ≠ 0 := by
    rw [h3]
    exact fun h => h0 (List.length_eq_zero_iff.1 h)
  unfold bootTitle
  rw [h1]
  simp only [bind, Except.bind, pure, Except.pure]
  rw [if_pos hl, apply_spec vm.memory vm.memSize _ vm.memSize hm (Nat.le_refl _) (shift m) hs]
  dsimp only
  have e1 : bytes vm.memory (shift m).content (shift m).contentLen = text := by
    apply List.ext_getElem
    · rw [bytes_length]; exact h3
    · intro i g1 g2
      rw [bytes_get, ← h4 i g2]
      show vm.memory (m.content + 256 + i) = vm.memory (m.content + i + 256)
      rw [show m.content + 256 + i = m.content + i + 256 by omega]
  have e2 : extsOf vm.memory (shift m) = exts := by
    apply List.ext_getElem
    · simp only [extsOf, List.length_map, List.length_range]; exact h5
    · intro j g1 g2
      have := h6 j g2
      rw [C23_ext_in_bounds _ _ _ (vm.memSize - 256) m (Nat.le_refl _) hs0, BitVec.toNat_ofNat, Nat.mod_eq_of_lt (by omega),
        if_pos (by omega)] at this
      have this := Except.ok.inj this
      rw [← this]
      simp only [extsOf, List.getElem_map, List.getElem_range]
      show (vm.memory (m.ext + 256 + 3 * j), vm.memory (m.ext + 256 + 3 * j + 1) ++ vm.memory (m.ext + 256 + 3 * j + 2)) = _
      rw [show m.ext + 256 + 3 * j = m.ext + 3 * j + 256 by omega, show m.ext + 3 * j + 256 + 1 = m.ext + 3 * j + 1 + 256 by omega,
        show m.ext + 3 * j + 256 + 2 = m.ext + 3 * j + 2 + 256 by omega]
  rw [e1, e2]

/-- A memory with metadata at 0x200: the text `Hi` and a second line, and an icon at 0x300 whose first row is all of colour 1. -/
def someVM : VM where
  memSize := 65536
  wsp := 0
  rsp := 0
  ws := fun _ => 0
  rs := fun _ => 0
  device := fun _ => 0
  memory := fun i => if i = 0x300 then 0xff else (([0, 0x48, 0x69, 0x0a, 0x78, 0, 1, 0x83, 0x03, 0x00] : List Byte)[i - 0x200]?).getD 0

example : HasAt someVM.memory 0x200 (encode 0 [0x48, 0x69, 0x0a, 0x78] [(0x83, 0x300)]) := by
  intro i h
  have : i < 10 := h
  interval_cases i <;> rfl
example : Spec.firstLine [0x48, 0x69, 0x0a, 0x78] = [0x48, 0x69] := by decide
example : Spec.pixel someVM.memory 0x300 7 0 = 0xff777700 ∧ Spec.pixel someVM.memory 0x300 8 0 = 0 := by decide +kernel

end Buxn.Gui.Title
