import Verif.Devices.ScreenWitness
import Verif.Dbg.Attach
import Verif.Chess.C47Cases
import Verif.Chess.C46Cases
import Verif.Chess.C55
import Verif.Asm.Refs
import Verif.Misc.PhysfsSaving
import Verif.Asm.Renaming
/-!
# More concrete cases

Concrete cases that meet the hypotheses of theorems which have none beside them.
-/

namespace Buxn.Screen
open Buxn.VM

/-- A screen of 64 by 48, with the position (3, 5), the address 0x1000 and the auto byte 0x15: two sprites, one below the other, with the position moving to the right and the address moving. -/
def drawing : Gui := { start 64 48 with scr := { (start 64 48).scr with rX := 3, rY := 5, rA := 0x1000, rMX := 1, rMA := 4, rML := 1, rDX := 8 } }

def drawingMachine : VM := machine 65536 fun a => if a = 0x2e then 0x42 else if a = 0x2f then 0xb7 else 0

theorem drawing_target : target drawingMachine drawing = drawing.scr := by rfl

theorem drawing_size : SizeOk (target drawingMachine drawing) := by
  rw [drawing_target]
  unfold SizeOk
  decide +kernel

theorem drawing_auto : AutoIs (target drawingMachine drawing) 0x15 := by
  rw [drawing_target]
  constructor <;> decide +kernel

theorem drawing_sprites : SpritesInMemory drawingMachine (target drawingMachine drawing) (drawingMachine.device 0x2f) := by
  rw [drawing_target]
  intro k hk
  have hk' : k ≤ 1 := hk
  have : k = 0 ∨ k = 1 := by omega
  rcases this with rfl | rfl
  · unfold SpriteInMemory; decide +kernel
  · unfold SpriteInMemory; decide +kernel

/-- The hypotheses of `C21_pixel`: one pixel of the foreground, colour 2. -/
example : ∃ g', deo drawingMachine drawing 0x2e = .ok g' ∧ g'.scr.rX = 4 ∧ g'.scr.rY = 5 := by
  obtain ⟨g', h1, -, -, h2, h3⟩ := C21_pixel drawingMachine drawing 0x15 drawing_size drawing_auto (by decide)
  rw [drawing_target] at h2 h3
  exact ⟨g', h1, h2, h3⟩

/-- The hypotheses of `C21_sprite`: two sprites of two planes, mirrored in both directions. -/
example : ∃ g', deo drawingMachine drawing 0x2f = .ok g' ∧ g'.scr.rX = -5 ∧ g'.scr.rY = 5 := by
  obtain ⟨g', h1, -, -, h2, h3⟩ := C21_sprite drawingMachine drawing 0x15 drawing_size drawing_auto drawing_sprites
  rw [drawing_target] at h2 h3
  exact ⟨g', h1, h2, h3⟩

/-- The hypotheses of `C20_in_bounds_partial`, for every port. -/
example (a : Byte) : ∃ g', deo drawingMachine drawing a = .ok g' :=
  C20_in_bounds_partial drawingMachine drawing a drawing_size (fun _ h => absurd h (by decide)) fun _ => drawing_sprites

end Buxn.Screen

namespace Buxn.Dbg
open Buxn.VM Buxn.VM.Spec

def pausing : D Unit := ⟨requestPause init, (), []⟩

/-- The hypotheses of `C25_exec` and `C24_history`: a session that pauses at every instruction, see the example at the end of Verif/Dbg/ReadOnly.lean. -/
example (vm : VM) (d : D Unit) (h : exec ⟨false, true⟩ plainHost curious (0, 0) 9 (booted [0x80, 3, 0x01]) () pausing 0x100 = .halted vm ((), d)) :
    d.dbg.executing = false ∧ (∃ evs, Breaks 9 evs ∧ d.log = [.beginExec 0x100] ++ evs ++ [.endExec]) ∧ InSync (written d.log) d.dbg := by
  have hs : InSync (written pausing.log) pausing.dbg := ⟨inSync_init.content, inSync_init.size, inSync_init.tight, inSync_init.kinds⟩
  have h1 := C25_exec ⟨false, true⟩ plainHost plainHost_keeps curious (0, 0) 9 (booted [0x80, 3, 0x01]) (by decide) () pausing rfl 0x100 _ _ _ h
  have h2 := C24_history ⟨false, true⟩ plainHost plainHost_keeps curious (0, 0) 9 (booted [0x80, 3, 0x01]) (by decide) () pausing hs 0x100
  rw [h] at h2
  refine ⟨h1.1, ?_, h2⟩
  rcases h1.2 with ⟨h | h, -⟩ | ⟨evs, h3, h4⟩
  · exact absurd h (by decide)
  · exact absurd h (by decide)
  · exact ⟨evs, h3, h4⟩

end Buxn.Dbg

namespace Buxn.Chess
open Buxn.VM Buxn.VM.Spec

/-- The hypotheses of `C47_arc_once`: the loop is taken at one step, and never again. -/
example : ∃ i, ∀ j, i < j → (steps loopProgram (j + 1) (caseStart [])).arcs ≠ (0x109, 0x102) :: (steps loopProgram j (caseStart [])).arcs := by
  have h : (steps loopProgram 7 (caseStart [])).arcs = (0x109, 0x102) :: (steps loopProgram 6 (caseStart [])).arcs := by decide +kernel
  exact ⟨6, fun j hij => C47_arc_once loopProgram (caseStart []) 6 j hij _ h⟩

end Buxn.Chess

namespace Buxn.Chess
open Buxn.VM Buxn.VM.Spec

/-- The hypotheses of `C45_split` and `C45_merge`: a short on the stack, taken apart and put together again. -/
def wholeRun : Run := steps (caseProgram [{}, { short := true }] [0x03]) 1 (caseStart [{}, { short := true }])

theorem whole_items : items wholeRun.wst = [{ short := true }, {}] := by decide +kernel

theorem whole_ok : wholeRun.wst.Ok wholeRun.nodes := by
  refine ⟨show _ = _ by decide +kernel, fun v hv => ?_⟩
  rw [whole_items] at hv
  have hv' : v = { short := true } ∨ v = {} := by simpa using hv
  rcases hv' with rfl | rfl <;> exact whole_tidy _ rfl rfl

example : ∃ lo hi s1 s2 m, popByte wholeRun.wst wholeRun = (lo, s1, { wholeRun with nodes := m }) ∧ popByte s1 { wholeRun with nodes := m } = (hi, s2, { wholeRun with nodes := m }) ∧
    items s2 = [{}] ∧ lo.whole = hi.whole := by
  obtain ⟨lo, hi, s1, s2, m, h1, h2, -, h4, -, -, -, -, -, n, h5, h6, -⟩ := C45_split whole_ok whole_items rfl
  exact ⟨lo, hi, s1, s2, m, h1, h2, h4, h5.trans h6.symm⟩

/-- The halves that `C45_split` yields meet the hypotheses of `C45_merge`. -/
example : ∃ lo hi s2 m, items s2 = [{}] ∧ ∀ c : Run, c.nodes = m → c.terminated = false → realStack false c = s2 → s2.Ok m → s2.size.toNat + 2 ≤ 255 →
    items (realStack false (pushEx false lo (pushEx false hi c))) = [{ short := true }, {}] := by
  obtain ⟨lo, hi, s1, s2, m, h1, h2, h3, h4, a, b, c, d, e, n, h5, h6, h7⟩ := C45_split whole_ok whole_items rfl
  refine ⟨lo, hi, s2, m, h4, ?_⟩
  rintro x rfl hx rfl ho hl
  rw [(C45_merge (t := { short := true }) ho hx hl b a d e c h6 h5 h7).1, h4]

end Buxn.Chess

namespace Buxn.Chess
open Buxn.VM Buxn.VM.Spec

/-! A vector that takes two bytes and writes one of them to a device: `|0100 ( value port -> ) DEO BRK`. -/

def deoCode : List Nat := [0x17, 0x00]
def deoEvents : List Asm.Event := signedAt 0x100 ["value", "port", "->"] ++ opsAt [0x100, 0x101]
def deoReader : Reader := (readAll deoEvents).finish
def deoProgram : Program := deoReader.program (romOf deoCode)
def deoRun : Run := startTrace deoProgram (routineEntry 0x100 (sigAt deoProgram 0x100) 1) deoReader.run

theorem deo_meets : ∃ E base, Meets E base deoRun (bootedSys deoCode) := by
  have hP := program_ok (romOf deoCode) deoEvents
  have hl : deoProgram.label 0x100 = some (some (sigAt deoProgram 0x100)) := by
    have h : isRoutine deoProgram 0x100 = true := by decide +kernel
    unfold isRoutine at h
    unfold sigAt
    rcases e : deoProgram.label 0x100 with _ | _ | s
    · rw [e] at h; cases h
    · rw [e] at h; cases h
    · rfl
  have hs := entry_described (P := deoProgram) hP hl 1 (booted deoCode) (fun _ => 0)
  refine ⟨_, bottom deoProgram 0x100 (booted deoCode), (start_meets (by decide +kernel) (run_safe (finish_ok (readAll_ok deoEvents))).ok.nodes ?_ rfl
    (fun r => (hs r).2) (fun r => (hs r).1)).1⟩
  have h := routineEntry_ok 0x100 (hP.sigs _ _ hl) 1 deoReader.run.nodes
  intro r
  cases r
  · exact h.1
  · exact h.2

/-- The hypotheses of `C46_deo`. -/
example : ∃ v p ws, operandsAt (stack false (booted deoCode)) (ptr false (booted deoCode) - 2) (operandSizes 1 .DEO) = [v, p] ∧
    (∀ e ∈ ws, ∃ t w, e = Event.warning t w) ∧
    ((perform deoProgram (fetched deoProgram deoRun)).log = deoRun.log ++ ws ∨
      (perform deoProgram (fetched deoProgram deoRun)).log = deoRun.log ++ ws ++ writes false deoRun.trace v p) := by
  obtain ⟨E, base, h⟩ := deo_meets
  exact C46_deo h ((exactB_iff _).1 (by decide +kernel)) (k := false) (r := false) (b := false) (by decide +kernel) (by decide +kernel)

/-- The hypotheses of `C45_underflow`: `ADD2` with three bytes on the stack. -/
def shortRun : Run := steps (caseProgram [{}, {}, {}] [0x38]) 1 (caseStart [{}, {}, {}])

example : (instruction (caseProgram [{}, {}, {}] [0x38]) shortRun).success = false := by
  refine (C45_underflow _ shortRun .ADD false false true ⟨by decide +kernel, ⟨_, rfl, rfl⟩, rfl, by decide +kernel⟩ rfl ?_ (by decide +kernel)).2.1
  refine ⟨⟨List.nodup_nil, fun _ h => (by cases h), fun _ h => (by cases h), fun _ h => absurd h (Nat.not_lt_zero _)⟩, ?_, ?_⟩
  · refine ⟨show _ = _ by decide +kernel, fun v hv => ?_⟩
    have : items shortRun.wst = [{}, {}, {}] := by decide +kernel
    rw [this] at hv
    have hv' : v = {} := by simpa using hv
    rw [hv']
    exact whole_tidy _ rfl rfl
  · refine ⟨show _ = _ by decide +kernel, fun v hv => ?_⟩
    have : items shortRun.rst = [] := by decide +kernel
    rw [this] at hv
    cases hv

/-- The hypotheses of `C55_seal`: reading `@x ( a -- b )` up to the closing parenthesis. -/
def sealing : Reader := readAll ((signedAt 0x120 ["a", "--", "b"]).dropLast)

example : sealing.handler = some .signature2 ∧ sealing.label sealing.curAddr = some none := by decide +kernel

end Buxn.Chess

namespace Buxn.Physfs
open Buxn.VM Buxn.File

set_option maxRecDepth 100000 in
/-- The hypotheses of `C75_size_partial`: a file of eight bytes was written and the name set again. -/
example : ∃ w w', guestOps (host disk) 65536 [⟨exPorts 0 3 0, 15, exMem⟩, ⟨exPorts 0 5 0, 15, exMem⟩, ⟨exPorts 0 5 0, 9, exMem⟩] (fresh (start exDisk)) = .ok w ∧
    guestOp (host disk) 65536 ⟨fun p => if p = 4 then 0x40 else exPorts 0 5 0 p, 5, exMem⟩ w = .ok w' ∧ slice w'.mem 0x4000 5 = statText 5 ⟨.regular, 8⟩ := by
  have h : guestOps (host disk) 65536 [⟨exPorts 0 3 0, 15, exMem⟩, ⟨exPorts 0 5 0, 15, exMem⟩, ⟨exPorts 0 5 0, 9, exMem⟩] (fresh (start exDisk)) = .ok _ := rfl
  obtain ⟨w', h1, -, h3, -⟩ := C75_size_partial (C75_physfs disk_keeps) (memSize := 65536) (Nat.le_refl _) (start exDisk) _ _ h rfl
    (fun p => if p = 4 then 0x40 else exPorts 0 5 0 p) exMem [0x66] ex_path.1 [0x68, 0x65, 0x6c, 0x68, 0x65, 0x6c, 0x6c, 0x6f] (by rfl) (by decide)
  exact ⟨_, w', h, h1, h3⟩

end Buxn.Physfs

namespace Buxn.Asm.Meaning.Other
open Buxn.Asm Buxn.Asm.Spec

/-! The hypotheses of `C88_same_verdict`: the first program of Verif/Asm/Renaming.lean with other names for its labels with names. -/

def third : Files := filesOf [("m", " @start #12 @@ INC ?@ ;start JMP2 &y ,start/y LDR start")]

abbrev out3 : List Str := [str "@start", str "#12", str "@@", str "INC", str "?@", str ";start", str "JMP2", str "&y", str ",start/y", str "LDR", str "start"]

theorem expansion3 : Expansion third (str "m") out3 [] :=
  written (words_of (str " @start #12 @@ INC ?@ ;start JMP2 &y ,start/y LDR start") _ rfl (by decide +kernel) (by decide +kernel)) (ordinaries (by decide +kernel))

theorem renamed3 : RenamedProgram NewNames false out out3 := by
  refine .label (a := str "go") (b := str "start") (by decide) (by decide) goStart start ?_
  refine .same (plain (by decide) (rune_name (by decide))) ?_
  refine .anonymous ?_
  refine .same (plain (by decide) (opcode (op := 0x01) (red := false) (by decide +kernel))) ?_
  refine .anonymousRef (by decide) ?_
  refine .ref (a := str "go") (b := str "start") (by decide) ⟨_, _, rfl, rfl, goStart⟩ ?_
  refine .same (plain (by decide) (opcode (op := 0x2c) (red := false) (by decide +kernel))) ?_
  refine .sublabel (a := str "x") (b := str "y") xy startY (by decide) ?_
  refine .ref (a := str "&x") (b := str "start/y") (by decide) ⟨_, _, rfl, rfl, xy⟩ ?_
  refine .same (plain (by decide) (opcode (op := 0x12) (red := false) (by decide +kernel))) ?_
  refine .call (.inl (isName_of (by intro c hc; cases hc; rfl) (by decide +kernel) (by decide +kernel))) (.inl start.2.1) ⟨_, _, rfl, rfl, goStart⟩ ?_
  exact .done

example (fuel fuel' : Nat) (b b' : Bool) (s s' : Asm) (h : assemble first fuel (str "m") = some (b, s)) (h' : assemble third fuel' (str "m") = some (b', s')) : b = b' := by
  refine C88_same_verdict aRenaming ?_ (texts_of _ (by decide +kernel)) (texts_of _ (by decide +kernel)) expansion expansion3 renamed3 fuel fuel' b b' s s' h h' nofun nofun
  intro n n' hn
  simp only [NewNames, List.mem_cons, Prod.mk.injEq, List.not_mem_nil, or_false] at hn
  rcases hn with ⟨rfl, -⟩ | ⟨rfl, -⟩
  · exact ⟨Sample.valid _ (by decide) (by intro c hc; cases hc; rfl) (by decide +kernel) (by decide +kernel), by decide⟩
  · exact ⟨Sample.valid _ (by decide) (by intro c hc; cases hc; rfl) (by decide +kernel) (by decide +kernel), by decide⟩

end Buxn.Asm.Meaning.Other
