import Verif.Tools.ReplWhole
/-!
# C71: when the prompt is told what is on the stacks

`buxn_chess_deo`, `/repo/src/repl.c:602-616`, on concrete lines.
-/

namespace Buxn.Repl.Sample
open Buxn.VM Buxn.Asm

/-- How often the prompt is told what is on the stacks while a line is checked, and whether the line is run. -/
def tellings (text : String) : Option (Bool × Nat) :=
  match session env Cli.noFiles List.length [] (start machine () clock) with
  | .ok s => let o := (typed text []).work (fun _ => none) (sigText s.known) s.vm; some (o.ok && o.line && decide (o.errors = 0), o.told.length)
  | .error _ => none

/-- **C71**: the prompt is told at the end of a line, and besides only where the line itself writes 2b to port 0e: not for another port, and not for another value. -/
theorem C71_told_when : tellings "#01 POP" = some (true, 1) ∧ tellings "#2b #0e DEO" = some (true, 2) ∧ tellings "#2b #18 DEO" = some (true, 1) ∧
    tellings "#2a #0e DEO" = some (true, 1) := by
  decide +kernel

end Buxn.Repl.Sample
