import Verif.Misc.Physfs
import Verif.Misc.Cli
/-!
# `buxn-cli` with its file system (C74)

The program of C63 with `physfs.c` (`src/CMakeLists.txt:146-156`) as its file system.
-/
namespace Buxn.Cli
open Buxn.Boot Spec

variable {π : Type}

/-- What the two devices have open and the state of `physfs.c` fit together. -/
def Fit (s : Bool → File.Slot) (x : Physfs.S π) : Prop := Physfs.Fits (s false) (s true) x

theorem respects_fit (L : Physfs.Lib π) (hL : Physfs.Lists L) : Respects (Physfs.host L) Fit := by
  intro b s s' x x' calls h h1 h2
  obtain ⟨h3, -⟩ := Physfs.performs_fits hL (Physfs.Fits.at h b) h1 h2
  refine Physfs.Fits.back b ?_
  rw [upd_same, upd_other _ _ (show (!b) ≠ b by cases b <;> simp)]
  exact h3

/-- **C74**, the program. Whatever ROM (that fits into the memory) `buxn-cli` runs, with whatever arguments and input, however long one
watches: the functions of `physfs.c` never follow a null pointer nor use a handle that is not open, and there are never more than two
lists of names. Partial: as long as the library can list directories, see `C74_unlisted_violated`. -/
theorem C74_cli_partial (L : Physfs.Lib π) (hL : Physfs.Lists L) (E : Env) (vm : VM.VM) (p₀ : π) (clock : Datetime.Clock)
    (hc : Sane clock) (args : List (List Byte)) (stdin rom : List Byte) (hl : rom.length ≤ 0xfff00) :
    ∃ code w, run E (Physfs.host L) vm (Physfs.start p₀) clock args stdin { bytes := rom } 0 = .ok (code, w) ∧
      w.rest.data.fs.stop = none ∧ w.rest.data.fs.lists ≤ 2 := by
  obtain ⟨code, w, h1, h2⟩ := run_well E (Physfs.host L) (respects_fit L hL) vm (Physfs.start p₀) (Physfs.fits_start p₀) clock hc args stdin
    { bytes := rom } 0 (load_file vm rom hl)
  obtain ⟨s, -, hs⟩ := h2.inv.files
  have hs : Physfs.Fits (s false) (s true) w.rest.data.fs := hs
  refine ⟨code, w, h1, hs.stop, ?_⟩
  rw [hs.lists]
  have : ∀ s, Physfs.isDir s ≤ 1 := by intro s; cases s <;> simp [Physfs.isDir]
  have h0 := this (s false)
  have h1 := this (s true)
  omega

end Buxn.Cli
