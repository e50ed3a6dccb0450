import Verif.Basic
import Mathlib.Tactic.Linarith
/-!
# Embedded ROMs

Models `/repo/src/bembd.h` and `/repo/src/rom2exe.c`.

Files are byte lists with a position. Reading can break down at a position (`bad`), each write can be cut short
(`faults`): this covers disks that are full, quotas and I/O errors. Simplifications: stdio's buffering is not modelled
(a write fails when it is made, not when the buffer is flushed), `size_t` and `long` do not overflow (files are shorter
than `2^63` bytes), `fseek` to the end of an open regular file succeeds.
-/
namespace Buxn.Bembd

/-- A `FILE*` opened for reading. `bad = some n`: reading at or after offset `n` is an I/O error. -/
structure InFile where
  bytes : List Byte
  pos : Nat := 0
  bad : Option Nat := none

/-- A `FILE*` opened for writing. Each `fwrite` takes the head of `faults` as the number of bytes that it manages to
write; when the list is used up every write succeeds. -/
structure OutFile where
  bytes : List Byte := []
  faults : List Nat := []

/-- What can be read of a file. -/
def InFile.readable (f : InFile) : List Byte :=
  match f.bad with
  | none => f.bytes
  | some n => f.bytes.take n

/-- `fread(buf, 1, n, f)`: the bytes read. -/
def fread (n : Nat) (f : InFile) : List Byte × InFile :=
  let got := (f.readable.drop f.pos).take n
  (got, { f with pos := f.pos + got.length })

/-- `fwrite(data, 1, length, f)`: the number of bytes written. -/
def fwrite (data : List Byte) (f : OutFile) : Nat × OutFile :=
  match f.faults with
  | [] => (data.length, { f with bytes := f.bytes ++ data })
  | k :: rest => ((data.take k).length, { bytes := f.bytes ++ data.take k, faults := rest })

theorem fread_left (n : Nat) (f : InFile) (h : (fread n f).1.length ≠ 0) :
    (fread n f).2.readable.length - (fread n f).2.pos < f.readable.length - f.pos := by
  have e : (fread n f).2.readable = f.readable := rfl
  have hp : (fread n f).2.pos = f.pos + (fread n f).1.length := rfl
  have hl : (fread n f).1.length ≤ f.readable.length - f.pos := by
    simp only [fread, List.length_take, List.length_drop]; omega
  rw [e, hp]
  omega

/-- `bembd_cp`, `bembd.h:9-23`. -/
def cpLoop (dst : OutFile) (src : InFile) (total : Nat) : Nat × OutFile × InFile :=
  let r := fread 2048 src
  if h : r.1.length = 0 then (total, dst, r.2)
  else
    let w := fwrite r.1 dst
    if w.1 ≠ r.1.length then (0, w.2, r.2)
    else cpLoop w.2 r.2 (total + r.1.length)
termination_by src.readable.length - src.pos
decreasing_by exact fread_left 2048 src h

def cp (dst : OutFile) (src : InFile) : Nat × OutFile × InFile := cpLoop dst src 0

/-- The bytes of the header, `bembd.h:27-33`; `n` is a `uint32_t`. -/
def header (n : Nat) : List Byte :=
  [BitVec.ofNat 8 (n >>> 24), BitVec.ofNat 8 (n >>> 16), BitVec.ofNat 8 (n >>> 8), BitVec.ofNat 8 n,
    0x62, 0x65, 0x6d, 0x62]

/-- `bembd_write_header`, `bembd.h:25-39`. -/
def writeHeader (container : OutFile) (n : Nat) : Nat × OutFile :=
  let w := fwrite (header n) container
  if w.1 ≠ 8 then (0, w.2) else (n, w.2)

/-- `bembd_put`, `bembd.h:41-47`. -/
def put (container : OutFile) (file : InFile) : Nat × OutFile :=
  let c := cp container file
  let n := c.1 % 2 ^ 32
  if n = 0 then (n, c.2.1) else writeHeader c.2.1 n

/-- `fseek(file, offset, SEEK_SET)`: a negative offset is refused and the position stays. -/
def seek (file : InFile) (offset : Int) : InFile :=
  if offset < 0 then file else { file with pos := offset.toNat }

/-- `bembd_find`, `bembd.h:49-84`. `wrap` says that the compiler lets `(int)x << 24` run into the sign bit (line 76);
the C standard leaves that undefined. -/
def find (wrap : Bool) (file : InFile) : Res (Nat × InFile) :=
  let file := { file with pos := file.bytes.length }
  let size := file.bytes.length
  if size < 8 then .ok (0, file)
  else
    let r := fread 8 (seek file (size - 8))
    match r.1 with
    | [a, b, c, d, e, f, g, h] =>
      if e ≠ 0x62 ∨ f ≠ 0x65 ∨ g ≠ 0x6d ∨ h ≠ 0x62 then .ok (0, r.2)
      else if wrap = false ∧ 128 ≤ a.toNat then .error .signedOverflow
      else
        let n := (a.toNat <<< 24) ||| (b.toNat <<< 16) ||| (c.toNat <<< 8) ||| d.toNat
        .ok (n, seek r.2 ((size : Int) - n - 8))
    | _ => .ok (0, r.2)

/-- `rom2exe.c:77-129`: the exit code and the output file. `none` stands for a file that cannot be opened.
Line 99 tests `output_file` instead of `input_file`, so that an input that cannot be opened is used as a null
pointer. -/
def rom2exe (runner input : Option InFile) (output : Option OutFile) : Res (Nat × Option OutFile) :=
  match runner with
  | none => .ok (1, none)
  | some runner =>
    match output with
    | none => .ok (1, none)
    | some output =>
      let c := cp output runner
      match input with
      | none => .error .oob
      | some input =>
        let p := put c.2.1 input
        if p.1 = 0 then .ok (1, some p.2) else .ok (0, some p.2)

/-! ## Specification -/

namespace Spec

/-- The trailer that marks a payload of `n` bytes: `n` in four bytes, big end first, and the word `bemb`. -/
def trailer (n : Nat) : List Byte :=
  [BitVec.ofNat 8 (n / 2 ^ 24), BitVec.ofNat 8 (n / 2 ^ 16), BitVec.ofNat 8 (n / 2 ^ 8), BitVec.ofNat 8 n] ++
    [BitVec.ofNat 8 'b'.toNat, BitVec.ofNat 8 'e'.toNat, BitVec.ofNat 8 'm'.toNat, BitVec.ofNat 8 'b'.toNat]

/-- A file with the payload `p` appended to `exe`. -/
def withPayload (exe p : List Byte) : List Byte := exe ++ p ++ trailer p.length

end Spec
open Spec

theorem header_trailer (n : Nat) : header n = trailer n := by
  simp only [header, trailer, Nat.shiftRight_eq_div_pow]
  rfl

/-! ## Proofs -/

theorem fwrite_ok (d : List Byte) (f : OutFile) (h : f.faults = []) :
    fwrite d f = (d.length, { f with bytes := f.bytes ++ d }) := by
  unfold fwrite; rw [h]

/-- Copying with no faults appends what can be read. -/
theorem cpLoop_ok (dst : OutFile) (g : InFile) (total : Nat) (h : dst.faults = []) :
    cpLoop dst g total = (total + (g.readable.drop g.pos).length, { dst with bytes := dst.bytes ++ g.readable.drop g.pos },
      { g with pos := g.pos + (g.readable.drop g.pos).length }) := by
  induction dst, g, total using cpLoop.induct with
  | case1 dst g total r hz =>
    unfold cpLoop
    rw [dif_pos (show (fread 2048 g).1.length = 0 from hz)]
    have h0 : g.readable.drop g.pos = [] := by
      have : (g.readable.drop g.pos).length = 0 := by
        have := hz
        simp only [r, fread, List.length_take] at this
        omega
      exact List.length_eq_zero_iff.mp this
    simp [fread, h0]
  | case2 dst g total r hz w hw =>
    exfalso
    apply hw
    simp only [w]; rw [fwrite_ok _ _ h]
  | case3 dst g total r hz w hw ih =>
    rw [cpLoop.eq_def]
    rw [dif_neg (show ¬ (fread 2048 g).1.length = 0 from hz)]
    dsimp only
    rw [if_neg (show ¬ (fwrite (fread 2048 g).1 dst).1 ≠ (fread 2048 g).1.length from by
      rw [fwrite_ok _ _ h]; simp)]
    have hw' : w.2.faults = [] := by simp only [w]; rw [fwrite_ok _ _ h]; exact h
    have e := ih hw'
    simp only [w, r] at e
    rw [e]
    rw [fwrite_ok _ _ h]
    have ed : (fread 2048 g).1 ++ (fread 2048 g).2.readable.drop (fread 2048 g).2.pos = g.readable.drop g.pos := by
      show (g.readable.drop g.pos).take 2048 ++ g.readable.drop (g.pos + ((g.readable.drop g.pos).take 2048).length) = _
      rw [← List.drop_drop, List.length_take]
      rcases Nat.le_total 2048 (g.readable.drop g.pos).length with hl | hl
      · rw [Nat.min_eq_left hl]; exact List.take_append_drop _ _
      · rw [Nat.min_eq_right hl, List.take_of_length_le hl, List.drop_length, List.append_nil]
    have el : (fread 2048 g).1.length + ((fread 2048 g).2.readable.drop (fread 2048 g).2.pos).length
        = (g.readable.drop g.pos).length := by rw [← List.length_append, ed]
    have ep : (fread 2048 g).2.pos = g.pos + (fread 2048 g).1.length := rfl
    have eb : (fread 2048 g).2.bytes = g.bytes := rfl
    have ec : (fread 2048 g).2.bad = g.bad := rfl
    simp only [List.append_assoc, ed, eb, ec]
    rw [ep] at el ⊢
    rw [← el, Nat.add_assoc, Nat.add_assoc]

theorem cp_ok (dst : OutFile) (g : InFile) (h : dst.faults = []) :
    cp dst g = ((g.readable.drop g.pos).length, { dst with bytes := dst.bytes ++ g.readable.drop g.pos },
      { g with pos := g.pos + (g.readable.drop g.pos).length }) := by
  unfold cp; rw [cpLoop_ok dst g 0 h, Nat.zero_add]

/-- Copying never writes anything but a prefix of what it reads. -/
theorem cpLoop_prefix (dst : OutFile) (g : InFile) (total : Nat) :
    ∃ k, (cpLoop dst g total).2.1.bytes = dst.bytes ++ (g.readable.drop g.pos).take k ∧
      ((cpLoop dst g total).1 ≠ 0 → (cpLoop dst g total).2.1.bytes = dst.bytes ++ g.readable.drop g.pos ∧
        (cpLoop dst g total).1 = total + (g.readable.drop g.pos).length) := by
  induction dst, g, total using cpLoop.induct with
  | case1 dst g total r hz =>
    have h0 : g.readable.drop g.pos = [] := by
      have : (g.readable.drop g.pos).length = 0 := by
        have := hz
        simp only [r, fread, List.length_take] at this
        omega
      exact List.length_eq_zero_iff.mp this
    unfold cpLoop
    rw [dif_pos (show (fread 2048 g).1.length = 0 from hz)]
    exact ⟨0, by simp, fun _ => by simp [h0]⟩
  | case2 dst g total r hz w hw =>
    rw [cpLoop.eq_def]
    rw [dif_neg (show ¬ (fread 2048 g).1.length = 0 from hz)]
    dsimp only
    rw [if_pos (show (fwrite (fread 2048 g).1 dst).1 ≠ (fread 2048 g).1.length from hw)]
    refine ⟨(fwrite (fread 2048 g).1 dst).1, ?_, fun h => absurd rfl h⟩
    show (fwrite ((g.readable.drop g.pos).take 2048) dst).2.bytes = _
    have e1 : (fread 2048 g).1 = (g.readable.drop g.pos).take 2048 := rfl
    rw [e1]
    unfold fwrite
    cases dst.faults with
    | nil => simp [List.take_take]
    | cons k rest => simp [List.take_take, List.take_eq_take_iff]
  | case3 dst g total r hz w hw ih =>
    rw [cpLoop.eq_def]
    rw [dif_neg (show ¬ (fread 2048 g).1.length = 0 from hz)]
    dsimp only
    rw [if_neg (show ¬ (fwrite (fread 2048 g).1 dst).1 ≠ (fread 2048 g).1.length from hw)]
    have ew : (fwrite (fread 2048 g).1 dst).2.bytes = dst.bytes ++ (fread 2048 g).1 := by
      have : ¬ (fwrite (fread 2048 g).1 dst).1 ≠ (fread 2048 g).1.length := hw
      revert this
      unfold fwrite
      cases dst.faults with
      | nil => intro _; rfl
      | cons k rest =>
        intro hk
        have hk : ((fread 2048 g).1.take k).length = (fread 2048 g).1.length := not_not.mp hk
        show _ ++ (fread 2048 g).1.take k = _
        rw [List.take_of_length_le]
        rw [List.length_take] at hk
        omega
    have ed : (fread 2048 g).1 ++ (fread 2048 g).2.readable.drop (fread 2048 g).2.pos = g.readable.drop g.pos := by
      show (g.readable.drop g.pos).take 2048 ++ g.readable.drop (g.pos + ((g.readable.drop g.pos).take 2048).length) = _
      rw [← List.drop_drop, List.length_take]
      rcases Nat.le_total 2048 (g.readable.drop g.pos).length with hl | hl
      · rw [Nat.min_eq_left hl]; exact List.take_append_drop _ _
      · rw [Nat.min_eq_right hl, List.take_of_length_le hl, List.drop_length, List.append_nil]
    obtain ⟨k, hk, hn⟩ := ih
    simp only [w, r, ew, List.append_assoc, ed] at hk hn
    refine ⟨(fread 2048 g).1.length + k, ?_, fun h => ?_⟩
    · rw [hk, ← ed, List.take_length_add_append]
    · obtain ⟨h1, h2⟩ := hn h
      refine ⟨h1, ?_⟩
      rw [h2, ← ed, List.length_append]
      omega

/-- The number that the header holds. -/
theorem header_value (n : Nat) (h : n < 2 ^ 32) :
    (((BitVec.ofNat 8 (n / 2 ^ 24)).toNat <<< 24) ||| ((BitVec.ofNat 8 (n / 2 ^ 16)).toNat <<< 16) |||
      ((BitVec.ofNat 8 (n / 2 ^ 8)).toNat <<< 8) ||| (BitVec.ofNat 8 n).toNat) = n := by
  have h1 : ((BitVec.ofNat 8 (n / 2 ^ 8)).toNat <<< 8) ||| (BitVec.ofNat 8 n).toNat = n % 2 ^ 16 := by
    rw [Nat.shiftLeft_eq, Nat.mul_comm, ← Nat.two_pow_add_eq_or_of_lt (BitVec.isLt _)]
    simp only [BitVec.toNat_ofNat]; omega
  have h2 : ((BitVec.ofNat 8 (n / 2 ^ 16)).toNat <<< 16) ||| (n % 2 ^ 16) = n % 2 ^ 24 := by
    rw [Nat.shiftLeft_eq, Nat.mul_comm, ← Nat.two_pow_add_eq_or_of_lt (Nat.mod_lt _ (by norm_num))]
    simp only [BitVec.toNat_ofNat]; omega
  have h3 : ((BitVec.ofNat 8 (n / 2 ^ 24)).toNat <<< 24) ||| (n % 2 ^ 24) = n := by
    rw [Nat.shiftLeft_eq, Nat.mul_comm, ← Nat.two_pow_add_eq_or_of_lt (Nat.mod_lt _ (by norm_num))]
    simp only [BitVec.toNat_ofNat]; omega
  rw [Nat.or_assoc, Nat.or_assoc, h1, h2, h3]

theorem value_lt (a b c d : Byte) :
    ((a.toNat <<< 24) ||| (b.toNat <<< 16) ||| (c.toNat <<< 8) ||| d.toNat) < 2 ^ 32 := by
  have ha := a.isLt; have hb := b.isLt; have hc := c.isLt; have hd := d.isLt
  simp only [Nat.shiftLeft_eq]
  refine Nat.or_lt_two_pow (Nat.or_lt_two_pow (Nat.or_lt_two_pow ?_ ?_) ?_) ?_ <;> omega

theorem value_eq (a b c d : Byte) :
    ((a.toNat <<< 24) ||| (b.toNat <<< 16) ||| (c.toNat <<< 8) ||| d.toNat) =
      a.toNat * 2 ^ 24 + b.toNat * 2 ^ 16 + c.toNat * 2 ^ 8 + d.toNat := by
  have ha := a.isLt; have hb := b.isLt; have hc := c.isLt; have hd := d.isLt
  rw [Nat.or_assoc, Nat.or_assoc]
  have h1 : (c.toNat <<< 8 ||| d.toNat) = c.toNat * 2 ^ 8 + d.toNat := by
    rw [Nat.shiftLeft_eq, Nat.mul_comm, Nat.two_pow_add_eq_or_of_lt hd]
  have h2 : (b.toNat <<< 16 ||| (c.toNat * 2 ^ 8 + d.toNat)) = b.toNat * 2 ^ 16 + (c.toNat * 2 ^ 8 + d.toNat) := by
    rw [Nat.shiftLeft_eq, Nat.mul_comm (b.toNat), Nat.two_pow_add_eq_or_of_lt (by omega)]
  have h3 : (a.toNat <<< 24 ||| (b.toNat * 2 ^ 16 + (c.toNat * 2 ^ 8 + d.toNat))) =
      a.toNat * 2 ^ 24 + (b.toNat * 2 ^ 16 + (c.toNat * 2 ^ 8 + d.toNat)) := by
    rw [Nat.shiftLeft_eq, Nat.mul_comm (a.toNat), Nat.two_pow_add_eq_or_of_lt (by omega)]
  rw [h1, h2, h3]; omega

theorem trailer_length (n : Nat) : (trailer n).length = 8 := rfl

/-- The last eight bytes, as `bembd_find` reads them. -/
theorem find_last (l : List Byte) (h : 8 ≤ l.length) :
    (fread 8 (seek { bytes := l, pos := l.length, bad := none } (l.length - 8))).1 = l.drop (l.length - 8) ∧
    (fread 8 (seek { bytes := l, pos := l.length, bad := none } (l.length - 8))).2 =
      { bytes := l, pos := l.length, bad := none } := by
  have e : seek { bytes := l, pos := l.length, bad := none } (l.length - 8) =
      { bytes := l, pos := l.length - 8, bad := none } := by
    unfold seek
    rw [if_neg (by omega)]
    congr 1; omega
  rw [e]
  constructor
  · simp only [fread, InFile.readable]
    rw [List.take_of_length_le (by rw [List.length_drop]; omega)]
  · simp only [fread, InFile.readable, List.length_take, List.length_drop]
    congr 1
    omega

theorem find_trailer (wrap : Bool) (pre : List Byte) (n : Nat) (hn : n < 2 ^ 32) (hw : wrap = true ∨ n < 2 ^ 31)
    (q : Nat) :
    find wrap { bytes := pre ++ trailer n, pos := q } =
      .ok (n, seek { bytes := pre ++ trailer n, pos := pre.length + 8 } ((pre.length : Int) - n)) := by
  have hl : (pre ++ trailer n).length = pre.length + 8 := by rw [List.length_append, trailer_length]
  obtain ⟨h1, h2⟩ := find_last (pre ++ trailer n) (by omega)
  have h3 : (pre ++ trailer n).drop ((pre ++ trailer n).length - 8) = trailer n := by
    rw [hl, Nat.add_sub_cancel, List.drop_left]
  unfold find
  dsimp only
  rw [if_neg (by omega)]
  rw [h1, h2, h3]
  simp only [trailer, List.cons_append, List.nil_append]
  rw [if_neg (by decide)]
  rw [if_neg]
  · rw [header_value n hn]
    congr 3
    · exact congrArg (fun k => InFile.mk (pre ++ trailer n) k none) hl
    · have hl' : ((pre ++ trailer n).length : Int) = pre.length + 8 := by omega
      have e : ((pre ++ trailer n).length : Int) - n - 8 = pre.length - n := by omega
      exact e
  · rintro ⟨hf, ha⟩
    rcases hw with h | h
    · rw [h] at hf; cases hf
    · simp only [BitVec.toNat_ofNat] at ha; omega

/-! ## C43 -/

/-- **C43**, writing. Appending a payload (not empty, less than 4 GiB) to a container that can be written adds the
payload and its trailer, and reports the size. -/
theorem C43_put (container : OutFile) (p : List Byte) (hw : container.faults = []) (h0 : p ≠ [])
    (h1 : p.length < 2 ^ 32) :
    (put container { bytes := p }).1 = p.length ∧
    (put container { bytes := p }).2.bytes = withPayload container.bytes p := by
  have hp : 0 < p.length := List.length_pos_iff.mpr h0
  have e := cp_ok container { bytes := p } hw
  simp only [InFile.readable, List.drop_zero] at e
  unfold put
  rw [e]
  dsimp only
  rw [Nat.mod_eq_of_lt h1, if_neg (by omega)]
  unfold writeHeader
  rw [fwrite_ok _ { bytes := container.bytes ++ p, faults := container.faults } hw, header_trailer]
  dsimp only
  rw [if_neg (by rw [trailer_length]; simp)]
  exact ⟨rfl, rfl⟩

/-- **C43**, writing when things go wrong. Whatever writes fail, if appending reports success then the container has
the payload, as far as it could be read, and a trailer. -/
theorem C43_put_reports (container : OutFile) (f : InFile) (hs : f.pos = 0) (h1 : f.readable.length < 2 ^ 32)
    (h : (put container f).1 ≠ 0) :
    (put container f).1 = f.readable.length ∧ (put container f).2.bytes = withPayload container.bytes f.readable := by
  obtain ⟨_, _, hk⟩ := cpLoop_prefix container f 0
  unfold put cp at h ⊢
  by_cases hc : (cpLoop container f 0).1 = 0
  · exfalso; apply h; dsimp only; rw [hc]; rfl
  · obtain ⟨h2, h3⟩ := hk hc
    rw [hs, List.drop_zero, Nat.zero_add] at h3
    rw [hs, List.drop_zero] at h2
    dsimp only at h ⊢
    rw [h3, Nat.mod_eq_of_lt h1] at h ⊢
    have hl : ¬ f.readable.length = 0 := by rw [← h3]; exact hc
    rw [if_neg hl] at h ⊢
    unfold writeHeader at h ⊢
    dsimp only at h ⊢
    generalize hf : (cpLoop container f 0).2.1 = o at h h2 ⊢
    by_cases hw : (fwrite (header f.readable.length) o).1 ≠ 8
    · rw [if_pos hw] at h; exact absurd rfl h
    · rw [if_neg hw]
      refine ⟨rfl, ?_⟩
      show (fwrite (header f.readable.length) o).2.bytes = _
      unfold withPayload
      rw [← h2, ← header_trailer]
      revert hw
      unfold fwrite
      cases o.faults with
      | nil => intro _; rfl
      | cons k rest =>
        intro hk
        have hk : ((header f.readable.length).take k).length = 8 := not_not.mp hk
        have : (header f.readable.length).length = 8 := rfl
        rw [List.length_take] at hk
        show _ ++ (header f.readable.length).take k = _
        rw [List.take_of_length_le (by omega)]

/-- **C43**, searching. In a file with a payload appended, the search reports the size of the payload, and the next
bytes read from the file are the payload. -/
theorem C43_find (wrap : Bool) (exe p : List Byte) (q : Nat) (h1 : p.length < 2 ^ 32)
    (hw : wrap = true ∨ p.length < 2 ^ 31) :
    ∃ f, find wrap { bytes := withPayload exe p, pos := q } = .ok (p.length, f) ∧ (fread p.length f).1 = p := by
  refine ⟨_, find_trailer wrap (exe ++ p) p.length h1 hw q, ?_⟩
  have hs : ((exe ++ p).length : Int) - p.length = exe.length := by rw [List.length_append]; omega
  rw [hs]
  unfold seek
  rw [if_neg (by omega)]
  simp only [fread, InFile.readable, Int.toNat_natCast, List.append_assoc, List.drop_left, List.take_left]

/-- **C43**, no payload. A file that does not end in a trailer is reported as having no payload, also if it cannot be
read. -/
theorem C43_none (wrap : Bool) (f : InFile) (h : ∀ pre n, n < 2 ^ 32 → f.bytes ≠ pre ++ trailer n) :
    ∃ f', find wrap f = .ok (0, f') := by
  unfold find
  dsimp only
  split
  · exact ⟨_, rfl⟩
  · rename_i hl
    split
    · rename_i a b c d e g i j hr
      split
      · exact ⟨_, rfl⟩
      · rename_i hm
        exfalso
        simp only [not_or, not_not] at hm
        obtain ⟨he, hg, hi, hj⟩ := hm
        have hsub : (fread 8 (seek { f with pos := f.bytes.length } (f.bytes.length - 8))).1
            = f.bytes.drop (f.bytes.length - 8) := by
          have e : seek { f with pos := f.bytes.length } (f.bytes.length - 8) =
              { f with pos := f.bytes.length - 8 } := by
            unfold seek
            rw [if_neg (by omega)]
            congr 1; omega
          rw [e] at hr ⊢
          unfold fread InFile.readable at hr ⊢
          dsimp only at hr ⊢
          cases hb : f.bad with
          | none =>
            rw [hb] at hr
            dsimp only at hr ⊢
            exact List.take_of_length_le (by rw [List.length_drop]; omega)
          | some m =>
            rw [hb] at hr
            dsimp only at hr ⊢
            have := congrArg List.length hr
            simp only [List.length_take, List.length_drop, List.length_cons, List.length_nil] at this
            rw [List.take_of_length_le (show f.bytes.length ≤ m by omega)]
            exact List.take_of_length_le (by rw [List.length_drop]; omega)
        rw [hsub] at hr
        have hv := value_eq a b c d
        have ha := a.isLt; have hb := b.isLt; have hc := c.isLt; have hd := d.isLt
        apply h (f.bytes.take (f.bytes.length - 8))
          (a.toNat * 2 ^ 24 + b.toNat * 2 ^ 16 + c.toNat * 2 ^ 8 + d.toNat) (by omega)
        conv_lhs => rw [← List.take_append_drop (f.bytes.length - 8) f.bytes]
        congr 1
        rw [hr, he, hg, hi, hj]
        unfold trailer
        simp only [List.cons_append, List.nil_append, List.cons.injEq, and_true]
        refine ⟨?_, ?_, ?_, ?_, by decide, by decide, by decide, by decide⟩ <;>
          (apply BitVec.eq_of_toNat_eq; rw [BitVec.toNat_ofNat]; omega)
    · exact ⟨_, rfl⟩

/-- **C43**, end to end. `buxn-rom2exe` on a runner and a ROM (neither empty, the ROM less than 4 GiB) succeeds, the
output begins with the runner, and the runner's search in the output finds exactly the ROM. -/
theorem C43_round_trip (wrap : Bool) (runner rom : List Byte) (h0 : rom ≠ []) (h1 : rom.length < 2 ^ 32)
    (hw : wrap = true ∨ rom.length < 2 ^ 31) :
    ∃ out, rom2exe (some { bytes := runner }) (some { bytes := rom }) (some {}) = .ok (0, some out) ∧
      runner <+: out.bytes ∧
      ∃ f, find wrap { bytes := out.bytes } = .ok (rom.length, f) ∧ (fread rom.length f).1 = rom := by
  have e := cp_ok {} { bytes := runner } rfl
  simp only [InFile.readable, List.drop_zero] at e
  have hp : 0 < rom.length := List.length_pos_iff.mpr h0
  obtain ⟨p1, p2⟩ := C43_put (cp {} { bytes := runner }).2.1 rom (by rw [e]) h0 h1
  refine ⟨(put (cp {} { bytes := runner }).2.1 { bytes := rom }).2, ?_, ?_, ?_⟩
  · unfold rom2exe
    dsimp only
    rw [if_neg (by rw [p1]; omega)]
  · rw [p2, e]
    unfold withPayload
    rw [List.append_assoc]
    exact List.prefix_append _ _
  · rw [p2]
    exact C43_find wrap _ rom 0 h1 hw

/-- The hypotheses of the theorems above are met by small files. -/
example : ∃ out f, rom2exe (some { bytes := [1, 2, 3] }) (some { bytes := [9, 8] }) (some {}) = .ok (0, some out) ∧
    find false { bytes := out.bytes } = .ok (2, f) ∧ (fread 2 f).1 = [9, 8] := by
  obtain ⟨out, h, _, f, h2, h3⟩ := C43_round_trip false [1, 2, 3] [9, 8] (by decide) (by decide) (.inr (by decide))
  exact ⟨out, f, h, h2, h3⟩

example : ∀ pre n, ([0x7f, 0x45, 0x4c, 0x46, 2, 1, 1, 0, 0, 0] : List Byte) ≠ pre ++ trailer n := by
  intro pre n h
  have := congrArg (fun l => l.reverse.head?) h
  rw [List.reverse_append] at this
  revert this
  simp [trailer]

/-- **C43**, an empty ROM is refused: exit code 1. -/
theorem C43_empty (runner : List Byte) : ∃ out, rom2exe (some { bytes := runner }) (some { bytes := [] }) (some {}) =
    .ok (1, some out) := by
  have e := cp_ok {} { bytes := runner } rfl
  have e2 := cp_ok (cp {} { bytes := runner }).2.1 { bytes := [] } (by rw [e])
  refine ⟨(put (cp {} { bytes := runner }).2.1 { bytes := [] }).2, ?_⟩
  unfold rom2exe
  dsimp only
  rw [if_pos]
  unfold put
  rw [e2]
  rfl

/-- **C43** fails for 4 GiB and more: the size wraps around, success is reported, and the search finds something else
than the payload. -/
theorem C43_long_violated (exe p : List Byte) (h1 : 2 ^ 32 < p.length) (h2 : p.length % 2 ^ 32 ≠ 0) :
    (put { bytes := exe } { bytes := p }).1 ≠ 0 ∧
    ∃ n f, find true { bytes := (put { bytes := exe } { bytes := p }).2.bytes } = .ok (n, f) ∧ n ≠ p.length := by
  have e := cp_ok { bytes := exe } { bytes := p } rfl
  simp only [InFile.readable, List.drop_zero] at e
  have hput : put { bytes := exe } { bytes := p } =
      (p.length % 2 ^ 32, { bytes := exe ++ p ++ trailer (p.length % 2 ^ 32) }) := by
    unfold put
    rw [e]
    dsimp only
    rw [if_neg h2]
    unfold writeHeader
    rw [fwrite_ok _ { bytes := exe ++ p } rfl, header_trailer]
    dsimp only
    rw [if_neg (by rw [trailer_length]; simp)]
  have hlt : p.length % 2 ^ 32 < 2 ^ 32 := Nat.mod_lt _ (by norm_num)
  rw [hput]
  refine ⟨h2, _, _, find_trailer true (exe ++ p) (p.length % 2 ^ 32) hlt (.inl rfl) 0, ?_⟩
  omega

/-- **C43** fails for a file that ends in a trailer but is too short for the size that it announces: the search reports
that size although the file has no such payload, and nothing can be read. -/
theorem C43_short_file_violated (wrap : Bool) (exe : List Byte) (n : Nat) (h1 : exe.length < n) (h2 : n < 2 ^ 31) :
    ∃ f, find wrap { bytes := exe ++ trailer n } = .ok (n, f) ∧ ∀ k, (fread k f).1 = [] := by
  refine ⟨_, find_trailer wrap exe n (by omega) (.inr h2) 0, fun k => ?_⟩
  unfold seek
  rw [if_pos (by omega)]
  simp only [fread, InFile.readable]
  rw [List.drop_of_length_le (by rw [List.length_append, trailer_length]), List.take_nil]

/-- **C43** fails when the ROM cannot be read to its end: the part that was read is embedded and the exit code is 0. -/
theorem C43_read_error_violated : ∃ out f,
    rom2exe (some { bytes := [1] }) (some { bytes := [7, 8, 9], bad := some 2 }) (some {}) = .ok (0, some out) ∧
    find false { bytes := out.bytes } = .ok (2, f) ∧ (fread 2 f).1 = [7, 8] := by
  refine ⟨{ bytes := withPayload [1] [7, 8] }, ?_⟩
  obtain ⟨f, h, h'⟩ := C43_find false [1] [7, 8] 0 (by decide) (.inr (by decide))
  refine ⟨f, ?_, h, h'⟩
  have e1 := cp_ok {} { bytes := [1] } rfl
  have e2 := cp_ok { bytes := [1] } { bytes := [7, 8, 9], bad := some 2 } rfl
  unfold rom2exe
  dsimp only
  rw [e1]
  simp only [InFile.readable, List.drop_zero, List.nil_append]
  unfold put
  rw [e2]
  rfl

/-- **C43** fails when copying the runner fails: the tool goes on and its exit code is 0, but the output does not begin
with the runner. -/
theorem C43_runner_violated : ∃ out,
    rom2exe (some { bytes := [1, 2] }) (some { bytes := [7] }) (some { faults := [1] }) = .ok (0, some out) ∧
    out.bytes = withPayload [1] [7] := by
  refine ⟨{ bytes := withPayload [1] [7] }, ?_, rfl⟩
  have e1 : cp { faults := [1] } { bytes := [1, 2] } = (0, { bytes := [1] }, { bytes := [1, 2], pos := 2 }) := by
    unfold cp; rw [cpLoop.eq_def]; rfl
  have e2 := cp_ok { bytes := [1] } { bytes := [7] } rfl
  unfold rom2exe
  dsimp only
  rw [e1]
  unfold put
  dsimp only
  rw [e2]
  rfl

/-- A ROM that cannot be opened is used as a null pointer. -/
theorem C43_no_input_violated (runner : InFile) (out : OutFile) : rom2exe (some runner) none (some out) = .error .oob :=
  rfl

end Buxn.Bembd
