import Verif.Chess.Reads
import Verif.Chess.C54Cases
/-!
# C93: cases
-/

namespace Buxn.Chess

/-- Deciding that two memories are the same to the checker. -/
def sameBytesB (events : List Asm.Event) (rom rom' : Short → Byte) : Bool :=
  events.all fun e => match e with
    | .sym a i => decide (¬ (i.type = .opcode ∨ i.type = .labelRef ∨ i.type = .number ∨ i.type = .text)) || decide (rom a = rom' a)
    | _ => true

theorem sameBytes_of {events : List Asm.Event} {rom rom' : Short → Byte} (h : sameBytesB events rom rom' = true) : SameBytes events rom rom' := by
  intro a i hi ht
  have := List.all_eq_true.1 h _ hi
  dsimp only at this
  rw [Bool.or_eq_true, decide_eq_true_eq, decide_eq_true_eq] at this
  exact this.resolve_left (fun hn => hn ht)

/-- The same program with other bytes around it. -/
def downAmid (a : Short) : Byte := if 0x100 ≤ a.toNat ∧ a.toNat < 0x110 then romOf downCode a else BitVec.ofNat 8 (a.toNat * 7 + 1)

/-- The hypotheses of `C93_reads` on a program with a call and a loop, which is accepted. -/
theorem down_amid : SameBytes downEvents (romOf downCode) downAmid ∧ (check downAmid downEvents 40).map Run.verdict = (check (romOf downCode) downEvents 40).map Run.verdict ∧
    ((check (romOf downCode) downEvents 40).map fun c => c.success) = some true := by
  have h : SameBytes downEvents (romOf downCode) downAmid := sameBytes_of (by decide +kernel)
  exact ⟨h, (C93_reads _ _ _ 40 h).symm, by decide +kernel⟩

/-- The bytes of the program do matter: with another opcode at 0x10e (`INC` for `POP`) it is refused. -/
example : ((check (fun a => if a = 0x10e then 1 else romOf downCode a) downEvents 40).map fun c => c.success) = some false := by decide +kernel

end Buxn.Chess
