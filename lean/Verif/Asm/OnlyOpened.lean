import Verif.Asm.Whole
import Verif.Asm.Opened
/-!
# C97: only the files that are opened matter

`Verif/Asm/Opened.lean` shows it for the assembler. Here it is the whole of `buxn-asm`, with the type checker and the files that it writes.
-/

namespace Buxn.Asm
open Buxn.VM Spec Main

namespace Spec

/-- Files on a disk, with some written anew. -/
def overwritten (new : Disk) (d : Disk) : Disk := fun n => match new n with | some c => some c | none => d n

end Spec

theorem overwritten_set (new d : Disk) (n c : Str) : (overwritten new d).set n c = overwritten (new.set n c) d := by
  funext k
  unfold Disk.set overwritten
  dsimp only
  by_cases h : k = n
  · rw [if_pos h, if_pos h]
  · rw [if_neg h, if_neg h]

theorem overwritten_ite (b : Prop) [Decidable b] (new d : Disk) (n c : Str) :
    (if b then (overwritten new d).set n c else overwritten new d) = overwritten (if b then new.set n c else new) d := by
  split
  · exact overwritten_set ..
  · rfl

theorem overwritten_rom (w : Main.World) (rom bytes : Str) (new : Disk) : ∃ ok new', ∀ d, writeRom w rom bytes (overwritten new d) = (ok, overwritten new' d) := by
  unfold writeRom
  by_cases h : w.canWrite rom = true
  · simp only [if_pos h]
    cases w.romLimit with
    | none => exact ⟨true, _, fun d => by rw [overwritten_set]⟩
    | some k =>
      dsimp only
      by_cases hk : k < bytes.length
      · simp only [if_pos hk]
        exact ⟨false, _, fun d => by rw [overwritten_set]⟩
      · simp only [if_neg hk]
        exact ⟨true, _, fun d => by rw [overwritten_set]⟩
  · simp only [if_neg h]
    exact ⟨false, new, fun d => rfl⟩

/-- The symbol file, emptied. -/
def emptied (w : Main.World) (o : Options) : Disk := cleared w o fun _ => none

theorem cleared_overwritten (w : Main.World) (o : Options) (d : Disk) : cleared w o d = overwritten (emptied w o) d := by
  funext n
  unfold emptied overwritten cleared
  split
  · rfl
  · rfl

/-- The files that are written, and the exit code, depend on the outcome of the assembler alone. -/
theorem main_overwrites (w : Main.World) (o : Options) (fuel : Nat) (r : Option (Bool × Asm)) : (∀ d, assemble (cleared w o d).streams fuel o.source = r → Main.main w o fuel d = none) ∨
    ∃ code new, ∀ d, assemble (cleared w o d).streams fuel o.source = r → Main.main w o fuel d = some (code, overwritten new d) := by
  have unfolded : ∀ d, Main.main w o fuel d = (match assemble (cleared w o d).streams fuel o.source with
    | none => none
    | some (ok, s) =>
      match SymFile.contents s.log, putAll (written s.log).reverse emptyRom with
      | some sym, some buf =>
        let success := ok && (!o.typeCheck || w.chess s.log)
        match o.rom with
        | none => some (if success then 0 else 1, overwritten (emptied w o) d)
        | some rom =>
          let d2 := if w.canWrite (symName rom) then (overwritten (emptied w o) d).set (symName rom) sym else overwritten (emptied w o) d
          let d3 := if success ∧ w.canWrite (dbgName rom) then d2.set (dbgName rom) (w.dbg s.log) else d2
          let r := if success then writeRom w rom (romFile buf) d3 else (false, d3)
          some (if r.1 then 0 else 1, r.2)
      | _, _ => none) := by
    intro d
    unfold Main.main
    dsimp only
    rw [cleared_eq, ← cleared_overwritten]
    rfl
  cases r with
  | none => exact .inl fun d h => by rw [unfolded, h]
  | some r =>
    obtain ⟨ok, s⟩ := r
    cases hs : SymFile.contents s.log with
    | none => exact .inl fun d h => by rw [unfolded, h]; dsimp only; rw [hs]
    | some sym =>
      cases hb : putAll (written s.log).reverse emptyRom with
      | none => exact .inl fun d h => by rw [unfolded, h]; dsimp only; rw [hs, hb]
      | some buf =>
        right
        cases hr : o.rom with
        | none => exact ⟨_, emptied w o, fun d h => by rw [unfolded, h]; dsimp only; rw [hs, hb, hr]⟩
        | some rom =>
          cases hk : (ok && (!o.typeCheck || w.chess s.log)) with
          | false =>
            refine ⟨1, if w.canWrite (symName rom) = true then (emptied w o).set (symName rom) sym else emptied w o, fun d h => ?_⟩
            rw [unfolded, h]
            dsimp only
            rw [hs, hb, hr]
            dsimp only
            simp only [hk, Bool.false_eq_true, false_and, if_false, overwritten_ite]
          | true =>
            obtain ⟨k, new, hn⟩ := overwritten_rom w rom (romFile buf)
              (if w.canWrite (dbgName rom) = true then (if w.canWrite (symName rom) = true then (emptied w o).set (symName rom) sym else emptied w o).set (dbgName rom) (w.dbg s.log)
                else if w.canWrite (symName rom) = true then (emptied w o).set (symName rom) sym else emptied w o)
            refine ⟨if k then 0 else 1, new, fun d h => ?_⟩
            rw [unfolded, h]
            dsimp only
            rw [hs, hb, hr]
            dsimp only
            rw [hk, if_pos rfl, overwritten_ite]
            simp only [true_and]
            rw [overwritten_ite, hn]

/-- **C97.** The whole of `buxn-asm`, with the type checker and the debug symbols, does the same on two disks on which the files that it opens are the same: the exit code is the same, and so are
all files that it writes. -/
theorem C97_same_run (w : Whole.World) (o : Options) (fuel n : Nat) (d d2 : Disk) (ok : Bool) (s : Asm)
    (h : assemble (cleared (w.outside n) o d).streams fuel o.source = some (ok, s)) (hag : ∀ k ∈ opened s.log, d2 k = d k) (code : Nat) (d' : Disk)
    (hr : Whole.main w o fuel n d = some (code, d')) : ∃ new, d' = overwritten new d ∧ Whole.main w o fuel n d2 = some (code, overwritten new d2) := by
  have h2 : assemble (cleared (w.outside n) o d2).streams fuel o.source = some (ok, s) := by
    refine C97_opened_files fuel o.source (ok, s) h fun k hk => ?_
    unfold Disk.streams cleared
    rw [hag k hk]
  unfold Whole.main at hr ⊢
  rw [h] at hr
  rw [h2]
  dsimp only at hr ⊢
  split at hr
  · cases hr
  · rename_i hc
    rw [if_neg hc]
    rcases main_overwrites (w.outside n) o fuel (some (ok, s)) with hm | ⟨code', new, hm⟩
    · rw [hm d h] at hr
      cases hr
    · rw [hm d h] at hr
      cases hr
      exact ⟨new, rfl, hm d2 h2⟩

namespace OnlyOpened

/-- The disk of `C83`'s example with a file that the program does not open. -/
def littered : Disk := (Whole.Sample.disk "@main ( -> ) #01 POP BRK").set (str "notes") (str "@main")

/-- A run on either disk opens the same file only, succeeds, and writes the same ROM. -/
example : (match assemble (cleared (Whole.Sample.world.outside 60) ⟨str "m", some (str "r"), true⟩ (Whole.Sample.disk "@main ( -> ) #01 POP BRK")).streams 60 (str "m") with
    | some (_, s) => some (opened s.log)
    | none => none) = some [str "m"] ∧
    (Whole.main Whole.Sample.world ⟨str "m", some (str "r"), true⟩ 60 60 littered).map (fun r => (r.1, r.2 (str "r"), r.2 (str "notes"))) =
      some (0, some [0x80, 0x01, 0x02], some (str "@main")) := by decide +kernel

/-- What is opened matters: with the file in the program, another text in it is another program. -/
theorem C97_opened_matters : outcome [("m", " #12 ~x"), ("x", " BRK")] ≠ outcome [("m", " #12 ~x"), ("x", " INC BRK")] ∧
    outcome [("m", " #12 ~x"), ("x", " BRK")] = outcome [("m", " #12 ~x"), ("x", " BRK"), ("y", " INC BRK")] := by decide +kernel

end OnlyOpened

end Buxn.Asm
