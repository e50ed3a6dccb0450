import Verif.Asm.SymFile
import Verif.Asm.Rom
/-!
# C61: what a run of `buxn-asm` leaves behind
-/

namespace Buxn.Asm
open Buxn.VM Spec

namespace Main

/-- Contents of files. -/
abbrev Disk := Str → Option Str

def Disk.set (d : Disk) (name content : Str) : Disk := fun n => if n = name then some content else d n

/-- The files as the assembler reads them: `fopen` and `fgetc`. -/
def Disk.streams (d : Disk) : Files := fun n => (d n).map fun c => c.map some

/-- What is outside the program: which files can be opened for writing; how much of the ROM can be written before an error, if there is one; what the type
checker says about a program that assembles (C45, C54, C55); and the contents of the file with debug symbols (C30, C42). -/
structure World where
  canWrite : Str → Bool
  romLimit : Option Nat
  chess : List Event → Bool
  dbg : List Event → Str

/-- The options. -/
structure Options where
  source : Str
  rom : Option Str
  typeCheck : Bool

def symName (rom : Str) : Str := rom ++ str ".sym"
def dbgName (rom : Str) : Str := rom ++ str ".dbg"

/-- `write_rom`, `src/asm.c:474-508`. The bytes are those of C38. -/
def writeRom (w : World) (rom : Str) (bytes : Str) (d : Disk) : Bool × Disk :=
  if w.canWrite rom then
    match w.romLimit with
    | some k => if k < bytes.length then (false, d.set rom (bytes.take k)) else (true, d.set rom bytes)
    | none => (true, d.set rom bytes)
  else (false, d)

/-- `main`, `src/asm.c:603-733`: the exit code and the files. The symbol file is written while the program is assembled; here it is complete at the end, and empty in
between. `none`: the assembler needs more steps than `fuel`, or a behaviour is undefined. -/
def main (w : World) (o : Options) (fuel : Nat) (d : Disk) : Option (Nat × Disk) :=
  -- .sym file
  let d1 := match o.rom with
    | some rom => if w.canWrite (symName rom) then d.set (symName rom) [] else d
    | none => d
  match assemble d1.streams fuel o.source with
  | none => none
  | some (ok, s) =>
    match SymFile.contents s.log, putAll (written s.log).reverse emptyRom with
    | some sym, some buf =>
      let success := ok && (!o.typeCheck || w.chess s.log)
      match o.rom with
      | none => some (if success then 0 else 1, d1)
      | some rom =>
        let d2 := if w.canWrite (symName rom) then d1.set (symName rom) sym else d1
        let d3 := if success ∧ w.canWrite (dbgName rom) then d2.set (dbgName rom) (w.dbg s.log) else d2
        let r := if success then writeRom w rom (romFile buf) d3 else (false, d3)
        some (if r.1 then 0 else 1, r.2)
    | _, _ => none

end Main

namespace Spec
open Main

/-- The files before the assembler reads them: a symbol file from an earlier run is gone. -/
def cleared (w : World) (o : Options) (d : Disk) : Disk := fun n =>
  if ∃ rom, o.rom = some rom ∧ n = symName rom ∧ w.canWrite n then some [] else d n

/-- The program is accepted. -/
def Accepted (w : World) (o : Options) (ok : Bool) (s : Asm) : Prop := ok = true ∧ (o.typeCheck = true → w.chess s.log = true)

instance (w : World) (o : Options) (ok : Bool) (s : Asm) : Decidable (Accepted w o ok s) := by unfold Accepted; infer_instance

end Spec

open Main

theorem names_differ (rom : Str) : symName rom ≠ rom ∧ dbgName rom ≠ rom ∧ symName rom ≠ dbgName rom := by
  refine ⟨fun h => ?_, fun h => ?_, fun h => ?_⟩
  · have := congrArg List.length h
    simp [symName, str] at this
  · have := congrArg List.length h
    simp [dbgName, str] at this
  · have := List.append_cancel_left h
    revert this
    decide

theorem cleared_eq (w : World) (o : Options) (d : Disk) :
    (match o.rom with
    | some rom => if w.canWrite (symName rom) then d.set (symName rom) [] else d
    | none => d) = cleared w o d := by
  funext n
  unfold cleared
  cases o.rom with
  | none => simp
  | some rom =>
    dsimp only
    by_cases hc : w.canWrite (symName rom)
    · rw [if_pos hc]
      by_cases hn : n = symName rom
      · subst hn; simp [Disk.set, hc]
      · simp [Disk.set, hn]
    · rw [if_neg hc, if_neg]
      rintro ⟨r, h1, rfl, h2⟩
      cases h1
      exact hc h2

theorem cleared_streams {w : World} {o : Options} {d : Disk} (hd : ∀ name c, d name = some c → ProperLines c) :
    ∀ name st, (cleared w o d).streams name = some st → ∃ raw, st = raw.map some ∧ ProperLines raw := by
  intro name st h
  unfold Disk.streams cleared at h
  split at h
  · cases h
    exact ⟨[], rfl, fun a b hab => by simp at hab⟩
  · obtain ⟨c, hc, rfl⟩ := Option.map_eq_some_iff.1 h
    exact ⟨c, rfl, hd name c hc⟩

/-- **C61.** The whole run, for every program, every set of files and every failure: what it leaves in every file, and its exit code. -/
theorem C61_run (w : World) (o : Options) (fuel : Nat) (d : Disk) (hd : ∀ name c, d name = some c → ProperLines c) (ok : Bool) (s : Asm)
    (h : assemble (cleared w o d).streams fuel o.source = some (ok, s)) :
    ∃ code d' sym rom, main w o fuel d = some (code, d') ∧ SymFile.contents s.log = some sym ∧
      (rom.getLast? ≠ some 0 ∧ rom.length ≤ 0xff00 ∧ ∀ a : Short, loaded rom a.toNat = image s.log a) ∧
      (code = 0 ↔ Accepted w o ok s ∧ ∀ path, o.rom = some path → w.canWrite path = true ∧ ∀ k, w.romLimit = some k → rom.length ≤ k) ∧
      (o.rom = none → d' = d) ∧
      (∀ path, o.rom = some path →
        (d' (symName path) = if w.canWrite (symName path) then some sym else d (symName path)) ∧
        (d' (dbgName path) = if Accepted w o ok s ∧ w.canWrite (dbgName path) then some (w.dbg s.log) else d (dbgName path)) ∧
        (code = 0 → d' path = some rom) ∧
        (¬ Accepted w o ok s → d' path = d path) ∧
        ∀ n, n ≠ path → n ≠ symName path → n ≠ dbgName path → d' n = d n) := by
  obtain ⟨buf, hb, h1, h2, h3⟩ := C38_rom_file _ fuel o.source ok s h
  obtain ⟨sym, _, hs, _⟩ := C58_round_trip _ (cleared_streams hd) fuel o.source ok s h
  have hacc : (ok && (!o.typeCheck || w.chess s.log)) = true ↔ Accepted w o ok s := by
    unfold Accepted
    cases ok <;> cases o.typeCheck <;> cases w.chess s.log <;> simp
  have hm : main w o fuel d = match o.rom with
      | none => some (if (ok && (!o.typeCheck || w.chess s.log)) = true then 0 else 1, cleared w o d)
      | some rom => match (if (ok && (!o.typeCheck || w.chess s.log)) = true then writeRom w rom (romFile buf)
            (if (ok && (!o.typeCheck || w.chess s.log)) = true ∧ w.canWrite (dbgName rom) then
              (if w.canWrite (symName rom) then (cleared w o d).set (symName rom) sym else (cleared w o d)).set (dbgName rom) (w.dbg s.log)
            else (if w.canWrite (symName rom) then (cleared w o d).set (symName rom) sym else (cleared w o d)))
          else (false, (if (ok && (!o.typeCheck || w.chess s.log)) = true ∧ w.canWrite (dbgName rom) then
              (if w.canWrite (symName rom) then (cleared w o d).set (symName rom) sym else (cleared w o d)).set (dbgName rom) (w.dbg s.log)
            else (if w.canWrite (symName rom) then (cleared w o d).set (symName rom) sym else (cleared w o d))))) with
        | r => some (if r.1 then 0 else 1, r.2) := by
    unfold main
    rw [cleared_eq]
    dsimp only
    rw [h]
    simp only [hs, hb]
  generalize (ok && (!o.typeCheck || w.chess s.log)) = acc at hm hacc
  cases ho : o.rom with
  | none =>
    rw [ho] at hm
    refine ⟨_, _, sym, romFile buf, hm, hs, ⟨h1, h2, h3⟩, ?_, ?_, ?_⟩
    · rw [← hacc]
      cases acc <;> simp
    · intro _
      funext n
      unfold cleared
      rw [if_neg]
      rintro ⟨rom, e, _⟩
      rw [ho] at e
      cases e
    · intro path e
      cases e
  | some path =>
    rw [ho] at hm
    dsimp only at hm
    obtain ⟨n1, n2, n3⟩ := names_differ path
    have hcl : ∀ n, n ≠ symName path → cleared w o d n = d n := by
      intro n hn
      unfold cleared
      rw [if_neg]
      rintro ⟨rom, e, e', _⟩
      rw [ho] at e
      cases e
      exact hn e'
    have hsym : w.canWrite (symName path) = false → cleared w o d (symName path) = d (symName path) := by
      intro hw
      unfold cleared
      rw [if_neg]
      rintro ⟨rom, e, e', e2⟩
      rw [hw] at e2
      cases e2
    generalize cleared w o d = d1 at hm hcl hsym
    have h2' : ∃ d2, (if w.canWrite (symName path) then d1.set (symName path) sym else d1) = d2 ∧
        (d2 (symName path) = if w.canWrite (symName path) then some sym else d (symName path)) ∧ ∀ n, n ≠ symName path → d2 n = d n := by
      refine ⟨_, rfl, ?_, ?_⟩
      · cases hw : w.canWrite (symName path)
        · simp [hsym hw]
        · simp [Disk.set]
      · intro n hn
        split
        · simp [Disk.set, hn, hcl n hn]
        · exact hcl n hn
    obtain ⟨d2, e2, hd2, hd2'⟩ := h2'
    rw [e2] at hm
    have h3' : ∃ d3, (if acc = true ∧ w.canWrite (dbgName path) then d2.set (dbgName path) (w.dbg s.log) else d2) = d3 ∧
        (d3 (symName path) = if w.canWrite (symName path) then some sym else d (symName path)) ∧
        (d3 (dbgName path) = if acc = true ∧ w.canWrite (dbgName path) then some (w.dbg s.log) else d (dbgName path)) ∧
        ∀ n, n ≠ symName path → n ≠ dbgName path → d3 n = d n := by
      refine ⟨_, rfl, ?_, ?_, ?_⟩
      · rw [← hd2]
        split
        · simp [Disk.set, n3]
        · rfl
      · split
        · simp [Disk.set]
        · exact hd2' _ (Ne.symm n3)
      · intro n hn hn'
        split
        · simp [Disk.set, hn', hd2' n hn]
        · exact hd2' n hn
    obtain ⟨d3, e3, k1, k2, k3⟩ := h3'
    rw [e3] at hm
    generalize romFile buf = bytes at hm h1 h2 h3
    have hk : ∀ c, (d3.set path c) (symName path) = d3 (symName path) ∧ (d3.set path c) (dbgName path) = d3 (dbgName path) ∧ (d3.set path c) path = some c ∧
        ∀ n, n ≠ path → (d3.set path c) n = d3 n := fun c =>
      ⟨by simp [Disk.set, n1], by simp [Disk.set, n2], by simp [Disk.set], fun n hn => by simp [Disk.set, hn]⟩
    have hother : ∀ n, n ≠ path → n ≠ symName path → n ≠ dbgName path → d3 n = d n := fun n _ h h' => k3 n h h'
    have hp : d3 path = d path := k3 path (Ne.symm n1) (Ne.symm n2)
    refine ⟨_, _, sym, bytes, hm, hs, ⟨h1, h2, h3⟩, ?_⟩
    simp only [← hacc]
    cases acc with
    | false => simpa using ⟨k1, by simpa using k2, hp, hother⟩
    | true =>
      simp only [if_true, true_and] at k2 ⊢
      unfold writeRom
      cases hw : w.canWrite path with
      | false => simpa [hw] using ⟨k1, by simpa using k2, hother⟩
      | true =>
        cases hl : w.romLimit with
        | none => simpa [hw, hk] using ⟨k1, by simpa using k2, fun n a b c => ((hk bytes).2.2.2 n a).trans (hother n a b c)⟩
        | some k =>
          rcases Nat.lt_or_ge k bytes.length with hlt | hge
          · have : ¬ bytes.length ≤ k := by omega
            simpa [hw, hk, hlt, this] using ⟨k1, by simpa using k2, fun n a b c => ((hk (bytes.take k)).2.2.2 n a).trans (hother n a b c)⟩
          · have : ¬ k < bytes.length := by omega
            simpa [hw, hk, hge, this] using ⟨k1, by simpa using k2, fun n a b c => ((hk bytes).2.2.2 n a).trans (hother n a b c)⟩

/-- **C61.** A program that is rejected, by the assembler or the type checker, leaves all files as they were, but for the symbol file, and the exit code is 1. -/
theorem C61_rejected_partial (w : World) (o : Options) (fuel : Nat) (d : Disk) (hd : ∀ name c, d name = some c → ProperLines c) (ok : Bool) (s : Asm)
    (h : assemble (cleared w o d).streams fuel o.source = some (ok, s)) (hr : ¬ Accepted w o ok s) (code : Nat) (d' : Disk)
    (hm : main w o fuel d = some (code, d')) (n : Str) (hn : ∀ path, o.rom = some path → n ≠ symName path) : code ≠ 0 ∧ d' n = d n := by
  obtain ⟨code', d'', sym, rom, e, _, _, h1, h2, h3⟩ := C61_run w o fuel d hd ok s h
  rw [hm] at e
  cases e
  refine ⟨fun e => hr (h1.1 e).1, ?_⟩
  cases ho : o.rom with
  | none => rw [h2 ho]
  | some path =>
    obtain ⟨_, k2, _, k4, k5⟩ := h3 path ho
    by_cases e1 : n = path
    · rw [e1]; exact k4 hr
    · by_cases e2 : n = dbgName path
      · rw [e2, k2, if_neg (fun e => hr e.1)]
      · exact k5 n e1 (hn path ho) e2

/-- **C61 fails** for the symbol file of a program that is rejected: that of the ROM, which is kept, is overwritten. -/
theorem C61_symbols_violated : ((main ⟨fun _ => true, none, fun _ => true, fun _ => []⟩ ⟨str "m", some (str "r"), false⟩ 60
      (fun n => if n = str "m" then some (str "BRKK") else if n = str "r" then some [1] else if n = str "r.sym" then some [1, 0, ch 'x', 0] else none)).map
      fun r => (r.1, r.2 (str "r"), r.2 (str "r.sym"))) = some (1, some [1], some []) := by decide +kernel

/-- A program that is accepted. -/
example : ((main ⟨fun _ => true, none, fun _ => true, fun _ => [7]⟩ ⟨str "m", some (str "r"), false⟩ 60
      (fun n => if n = str "m" then some (str "@x INC") else none)).map
      fun r => (r.1, r.2 (str "r"), r.2 (str "r.sym"), r.2 (str "r.dbg"))) = some (0, some [1], some [1, 0, ch 'x', 0], some [7]) := by decide +kernel

end Buxn.Asm
