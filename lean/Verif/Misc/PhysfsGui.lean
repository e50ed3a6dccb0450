import Verif.Misc.PhysfsCli
import Verif.Gui.WholeProps

/-! The graphical program with the file system of `src/physfs.c` (C77 with C74): it is `buxn-gui` that is linked with it. -/

namespace Buxn.Gui.Whole
open Buxn.VM Buxn.Boot Buxn.Bembd

variable {π : Type}

/-- **C74** for the whole graphical program. Whatever the ROM (that fits into the memory), the arguments, the clock, the sounds, whatever the user does and
whatever the library answers: the code of `src/physfs.c` never dereferences a handle or a list that it does not hold (its stop is never
reached), and it holds at most the two lists that the two file devices have open. Partial: as C77. -/
theorem C74_gui_partial (L : Physfs.Lib π) (hL : Physfs.Lists L) (E : Cli.Env) (S : Sounds) (vm : VM) (p₀ : π) (clock : Datetime.Clock)
    (hc : Cli.Spec.Sane clock) (freq w h : Nat) (hw : 0 < w ∧ w ≤ 32640) (hh : 0 < h ∧ h ≤ 32640) (args : List (List Byte))
    (rom : InFile × Option Nat) (hl : (contents rom).length < 0xfff00) (ss : List Step) (hf : Gui.Spec.Forward ss)
    (hwh : ∀ E e, .event E e ∈ ss → Gui.Spec.WheelFits e) :
    ∃ l l', boot E (Physfs.host L) S vm (Physfs.start p₀) clock freq w h args rom = .ok (some l) ∧
      session E (Physfs.host L) S ss l = some l' ∧
      (l'.app.rest.strayed = false →
        l'.app.rest.data.core.fs.stop = none ∧ l'.app.rest.data.core.fs.lists ≤ 2 ∧
        ∀ u, l'.app.rest.stop = some (.fault u) → u = .signedOverflow ∧ E.cfg.wrapv = false) := by
  obtain ⟨l, h1, h2, h3⟩ := (boot_well E (Physfs.host L) (Cli.respects_fit L hL) S vm (Physfs.start p₀) (Physfs.fits_start p₀) clock hc
    freq w h hw hh args rom).2 hl
  obtain ⟨l', h4⟩ := session_progress E (Physfs.host L) S ss l (by rw [h3]; exact le_of_lt frame_pos) hf hwh
  refine ⟨l, l', h1, h4, fun hs => ?_⟩
  have hg := session_well E (Physfs.host L) (Cli.respects_fit L hL) S ss l l' h4 h2 hs
  obtain ⟨s, -, hs⟩ := hg.data.core.files
  have hs : Physfs.Fits (s false) (s true) l'.app.rest.data.core.fs := hs
  refine ⟨hs.stop, ?_, hg.stop⟩
  rw [hs.lists]
  have : ∀ s, Physfs.isDir s ≤ 1 := by intro s; cases s <;> simp [Physfs.isDir]
  have h0 := this (s false)
  have h1 := this (s true)
  omega

end Buxn.Gui.Whole
