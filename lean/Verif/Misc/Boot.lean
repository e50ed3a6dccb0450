import Verif.Misc.Bembd
import Verif.Devices.InputProps
import Verif.Devices.SystemProps
import Verif.VM.Props
import Mathlib.Data.List.GetD
/-!
# Starting a program

Models `/repo/src/cli.c:112-242` (`boot`, `cli_main`, `embd_main`, `main`), `/repo/src/gui.c:390-434`
(`load_boot_rom`) and the stream of `/repo/src/linux/platform.c:34-45`.

Running a vector is a parameter `exec`, as in `Verif.Devices.Input`. Not modelled: the debugger connection, PhysFS, the
window; standard input is a finite list of bytes followed by the end of the file.
-/
namespace Buxn.Boot
open Buxn.VM Buxn.Input Buxn.Bembd
variable {σ : Type}

/-- `BUXN_RESET_VECTOR`, `vm.h`. -/
def RESET_VECTOR : Nat := 0x100

/-- `BUXN_MEMORY_BANK_SIZE * BUXN_MAX_NUM_MEMORY_BANKS`, `cli.c:120`. -/
def MEMORY_SIZE : Nat := 0x10000 * 16

/-- `BUXN_VM_RESET_ALL`, `vm.h:32-36`. -/
def RESET_ALL : Byte := RESET_ZERO_PAGE ||| RESET_HIGH_MEM ||| RESET_DEVICE ||| RESET_STACK

/-- The bytes `data` arrive at `vm->memory + start`. -/
def store (vm : VM) (start : Nat) (data : List Byte) : Res VM :=
  if start + data.length ≤ vm.memSize then
    .ok { vm with memory := fun i => if start ≤ i ∧ i < start + data.length then data.getD (i - start) 0 else vm.memory i }
  else .error .oob

/-- The loop `cli.c:142-146`; `pos` is `read_pos - vm->memory`. -/
def loadLoop (vm : VM) (pos : Nat) (f : InFile) : Res VM :=
  if pos < vm.memSize then
    let r := fread 1024 f
    if h : r.1.length = 0 then .ok vm
    else
      match store vm pos r.1 with
      | .ok vm => loadLoop vm (pos + r.1.length) r.2
      | .error e => .error e
  else .ok vm
termination_by f.readable.length - f.pos
decreasing_by exact fread_left 1024 f h

/-- Reading the ROM, `cli.c:138-150`. -/
def loadRom (vm : VM) (f : InFile) (romSize : Nat) : Res VM :=
  if romSize = 0 then loadLoop vm RESET_VECTOR f
  else store vm RESET_VECTOR (fread romSize f).1

/-- The loop `cli.c:165-176`. -/
def inputLoop (exec : Exec Console σ) : List Byte → World Console σ → World Console σ
  | input, w =>
    if System.exitCode w.vm < 0 ∧ shouldSendInput w.vm then
      match input with
      | c :: cs => inputLoop exec cs (sendInput exec c w)
      | [] => sendInputEnd exec w
    else w

/-- `boot`, `cli.c:112-188`: the exit code and the final state. `vm` is the block that `malloc` returned. -/
def boot (exec : Exec Console σ) (vm : VM) (rest : σ) (args : List (List Byte)) (stdin : List Byte) (rom : InFile)
    (romSize : Nat) : Res (Int × World Console σ) := do
  let vm ← VM.reset { vm with memSize := MEMORY_SIZE } RESET_ALL
  let vm ← loadRom vm rom romSize
  let w : World Console σ := { vm := vm, dev := consoleInit args.length args ⟨0, [], 0, 0⟩, rest := rest }
  let w := exec 0x100 w
  if System.exitCode w.vm > 0 then return (System.exitCode w.vm, w)
  let w ← sendArgs exec args.length w
  if System.exitCode w.vm > 0 then return (System.exitCode w.vm, w)
  let w := inputLoop exec stdin w
  let code := System.exitCode w.vm
  return (if code < 0 then 0 else code, w)

/-- What a run of the program `buxn-cli` amounts to. -/
inductive Outcome (σ : Type) where
  /-- the program refuses to start with this exit code -/
  | refused (code : Int)
  | ran (code : Int) (w : World Console σ)

/-- `cli_main`, `cli.c:190-214`. `fs` opens a file by name. -/
def cliMain (exec : Exec Console σ) (vm : VM) (rest : σ) (fs : List Byte → Option InFile) (argv : List (List Byte))
    (stdin : List Byte) : Res (Outcome σ) :=
  match argv with
  | _ :: name :: args =>
    match fs name with
    | none => .ok (.refused 1)
    | some f => (boot exec vm rest args stdin f 0).map fun r => .ran r.1 r.2
  | _ => .ok (.refused 1)

/-- `main`, `cli.c:228-242`, and `embd_main`, `cli.c:216-226`. -/
def main (wrap : Bool) (exec : Exec Console σ) (vm : VM) (rest : σ) (fs : List Byte → Option InFile)
    (argv : List (List Byte)) (stdin : List Byte) : Res (Outcome σ) :=
  match argv with
  | [] => cliMain exec vm rest fs argv stdin
  | self :: args =>
    match fs self with
    | none => cliMain exec vm rest fs argv stdin
    | some f => do
      let (n, f) ← find wrap f
      if n = 0 then cliMain exec vm rest fs argv stdin
      else (boot exec vm rest args stdin f n).map fun r => .ran r.1 r.2

/-! ## The graphical program -/

/-- `stream_t`, `gui.c`: `read handle size` gives `none` for a negative result and otherwise the bytes. -/
abbrev Reader (τ : Type) := Nat → τ → Option (List Byte) × τ

/-- The contract of `read`: no more bytes than asked for. -/
def Polite {τ : Type} (read : Reader τ) : Prop := ∀ n t l, (read n t).1 = some l → l.length ≤ n

/-- `stdio_read`, `linux/platform.c:34-45`; the state is the file and `rom_size` if there is a limit. -/
def stdioRead : Reader (InFile × Option Nat) := fun size s =>
  let size := match s.2 with
    | some n => if n < size then n else size
    | none => size
  let r := fread size s.1
  (some r.1, (r.2, s.2.map fun n => n - r.1.length))

/-- The loop of `load_boot_rom`, `gui.c:397-406`: `mem_left`, the last `bytes_read` (`none` if negative) and the memory.
`vm.memSize - memLeft` is `read_pos - memory`. The fuel is `mem_left`, which decreases in every round. -/
def guiLoop {τ : Type} (read : Reader τ) : Nat → Nat → Option Nat → VM → τ → Res (Nat × Option Nat × VM)
  | 0, memLeft, last, vm, _ => .ok (memLeft, last, vm)
  | fuel + 1, memLeft, last, vm, t =>
    if memLeft > 0 then
      match read memLeft t with
      | (none, _) => .ok (memLeft, none, vm)
      | (some l, t) =>
        if l.length > 0 then
          match store vm (vm.memSize - memLeft) l with
          | .ok vm => guiLoop read fuel (memLeft - l.length) (some l.length) vm t
          | .error e => .error e
        else .ok (memLeft, some 0, vm)
    else .ok (memLeft, last, vm)

/-- `load_boot_rom` up to the execution of the reset vector, `gui.c:390-417`: `none` if it refuses. The value of
`bytes_read` before the first read is not initialised in the code; here it is `some 0`, and it is not used as long as
the memory is larger than `0x100` bytes. -/
def guiLoad {τ : Type} (read : Reader τ) (vm : VM) (t : τ) : Res (Option VM) := do
  let left := vm.memSize - RESET_VECTOR
  let (memLeft, last, vm) ← guiLoop read (left + 1) left (some 0) vm t
  match last with
  | none => return none
  | some n => if memLeft = 0 ∧ n > 0 then return none else return some vm

/-! ## Specification -/

namespace Spec

/-- A machine with 16 banks of memory that holds the ROM at `0x100` and is zero everywhere else. -/
structure Fresh (rom : List Byte) (vm : VM) : Prop where
  size : vm.memSize = 16 * 65536
  program : ∀ i (h : i < rom.length), vm.memory (0x100 + i) = rom[i]
  low : ∀ i, i < 0x100 → vm.memory i = 0
  high : ∀ i, 0x100 + rom.length ≤ i → i < 16 * 65536 → vm.memory i = 0
  empty : vm.wsp = 0 ∧ vm.rsp = 0 ∧ (∀ i, vm.ws i = 0) ∧ (∀ i, vm.rs i = 0)
  devices : ∀ i, vm.device i = 0

/-- Each run of a vector is noted down, with the machine as it is before the run. -/
def Logging (log : σ → List (Short × VM)) (exec : Exec Console σ) : Prop :=
  ∀ v w, log (exec v w).rest = log w.rest ++ [(v, w.vm)]

/-- The state port, `0x0f`: not zero once the program has asked to exit. -/
def asksToExit (vm : VM) : Prop := vm.device 0x0f ≠ 0

end Spec
open Spec

/-! ## Proofs -/

theorem store_nil (vm : VM) (pos : Nat) (h : pos ≤ vm.memSize) : store vm pos [] = .ok vm := by
  unfold store
  rw [if_pos (by simpa using h)]
  congr 1
  cases vm
  congr 1
  funext i
  exact if_neg (by simp)

theorem store_append (vm : VM) (pos : Nat) (a b : List Byte) :
    store vm pos (a ++ b) = (match store vm pos a with
      | .ok vm => store vm (pos + a.length) b
      | .error e => .error e) := by
  unfold store
  by_cases h : pos + a.length ≤ vm.memSize
  · rw [if_pos h]
    dsimp only
    rw [List.length_append]
    by_cases h2 : pos + a.length + b.length ≤ vm.memSize
    · rw [if_pos (by omega), if_pos h2]
      congr 2
      funext i
      by_cases h3 : pos + a.length ≤ i ∧ i < pos + a.length + b.length
      · rw [if_pos h3, if_pos (by omega), List.getD_append_right _ _ _ _ (by omega)]
        congr 1; omega
      · rw [if_neg h3]
        by_cases h4 : pos ≤ i ∧ i < pos + a.length
        · rw [if_pos h4, if_pos (by omega), List.getD_append _ _ _ _ (by omega)]
        · rw [if_neg h4, if_neg (by omega)]
    · rw [if_neg (by omega), if_neg h2]
  · rw [if_neg h, if_neg (by rw [List.length_append]; omega)]

theorem store_size {vm vm' : VM} {pos : Nat} {l : List Byte} (h : store vm pos l = .ok vm') :
    vm'.memSize = vm.memSize ∧ pos + l.length ≤ vm.memSize := by
  unfold store at h
  split at h
  · rename_i hh
    cases h; exact ⟨rfl, hh⟩
  · cases h

/-- The loop of the CLI stores the rest of the file, piece by piece. -/
theorem loadLoop_eq (vm : VM) (pos : Nat) (f : InFile) (hp : pos ≤ vm.memSize)
    (hfit : pos + (f.readable.drop f.pos).length ≤ vm.memSize ∨ (vm.memSize - pos) % 1024 ≠ 0) :
    loadLoop vm pos f = store vm pos (f.readable.drop f.pos) := by
  induction hn : (f.readable.drop f.pos).length using Nat.strong_induction_on generalizing vm pos f with
  | _ n ih =>
    unfold loadLoop
    by_cases hlt : pos < vm.memSize
    · rw [if_pos hlt]
      dsimp only
      by_cases hz : (fread 1024 f).1.length = 0
      · rw [dif_pos hz]
        have h0 : f.readable.drop f.pos = [] := by
          simp only [fread, List.length_take] at hz
          exact List.length_eq_zero_iff.mp (by omega)
        rw [h0, store_nil _ _ hp]
      · rw [dif_neg hz]
        have ed : (fread 1024 f).1 ++ (fread 1024 f).2.readable.drop (fread 1024 f).2.pos = f.readable.drop f.pos := by
          show (f.readable.drop f.pos).take 1024 ++ f.readable.drop (f.pos + ((f.readable.drop f.pos).take 1024).length) = _
          rw [← List.drop_drop, List.length_take]
          rcases Nat.le_total 1024 (f.readable.drop f.pos).length with hl | hl
          · rw [Nat.min_eq_left hl]; exact List.take_append_drop _ _
          · rw [Nat.min_eq_right hl, List.take_of_length_le hl, List.drop_length, List.append_nil]
        have el : (fread 1024 f).1.length + ((fread 1024 f).2.readable.drop (fread 1024 f).2.pos).length
            = (f.readable.drop f.pos).length := by rw [← List.length_append, ed]
        have hc : (fread 1024 f).1.length = min 1024 (f.readable.drop f.pos).length := by
          simp only [fread, List.length_take]
        rw [← ed, store_append]
        cases hs : store vm pos (fread 1024 f).1 with
        | error e => rfl
        | ok vm1 =>
          dsimp only
          obtain ⟨hs1, hs2⟩ := store_size hs
          apply ih _ _ vm1 _ (fread 1024 f).2 _ _ rfl
          · omega
          · omega
          · rw [hs1]
            rcases hfit with hfit | hfit
            · left; omega
            · rcases Nat.lt_or_ge 1024 (f.readable.drop f.pos).length with hl | hl
              · right; omega
              · left; omega
    · rw [if_neg hlt]
      have he : pos = vm.memSize := by omega
      have h0 : f.readable.drop f.pos = [] := by
        rcases hfit with hfit | hfit
        · exact List.length_eq_zero_iff.mp (by omega)
        · exfalso; apply hfit; rw [he, Nat.sub_self]
      rw [h0, store_nil _ _ hp]

/-- The machine before the ROM is loaded. -/
theorem reset_fresh (vm : VM) : ∃ vm0, VM.reset { vm with memSize := MEMORY_SIZE } RESET_ALL = .ok vm0 ∧ Fresh [] vm0 := by
  obtain ⟨v, h, h1, h2, h3, h4, h5, h6, h7⟩ := C08_reset_exact { vm with memSize := MEMORY_SIZE } RESET_ALL
    (by show 0x100 ≤ 0x10000 * 16; norm_num)
  have b1 : RESET_ALL.getLsbD 1 = true := by decide
  have b2 : RESET_ALL.getLsbD 2 = true := by decide
  have b3 : RESET_ALL.getLsbD 3 = true := by decide
  have b4 : RESET_ALL.getLsbD 4 = true := by decide
  refine ⟨v, h, ⟨h1, ?_, ?_, ?_, ⟨?_, ?_, ?_, ?_⟩, ?_⟩⟩
  · intro i hi; exact absurd hi (Nat.not_lt_zero i)
  · intro i hi; rw [h2, if_pos (.inl ⟨b1, hi⟩)]
  · intro i hi hj
    rw [h2, if_pos (.inr ⟨b2, by simpa using hi, hj⟩)]
  · rw [h6, if_pos b4]
  · rw [h7, if_pos b4]
  · intro i; rw [h4, if_pos b4]
  · intro i; rw [h5, if_pos b4]
  · intro i; rw [h3, if_pos b3]

theorem fresh_store {vm : VM} (h : Fresh [] vm) (rom : List Byte) (hl : rom.length ≤ 0xfff00) :
    ∃ vm', store vm 0x100 rom = .ok vm' ∧ Fresh rom vm' := by
  refine ⟨{ vm with memory := (fun i => if 0x100 ≤ i ∧ i < 0x100 + rom.length then rom.getD (i - 0x100) 0
                                         else vm.memory i) }, ?_, ?_⟩
  · unfold store
    rw [if_pos (by rw [h.size]; omega)]
  · refine ⟨h.size, ?_, ?_, ?_, h.empty, h.devices⟩
    · intro i hi
      dsimp only
      rw [if_pos (by omega), Nat.add_sub_cancel_left, List.getD_eq_getElem _ _ hi]
    · intro i hi
      dsimp only
      rw [if_neg (by omega), h.low i hi]
    · intro i hi hj
      dsimp only
      rw [if_neg (by omega)]
      rcases Nat.lt_or_ge i 0x100 with hk | hk
      · exact h.low i hk
      · exact h.high i (by simpa using hk) hj

theorem store_too_long {vm : VM} (h : Fresh [] vm) (rom : List Byte) (hl : 0xfff00 < rom.length) :
    store vm 0x100 rom = .error .oob := by
  unfold store
  rw [if_neg (by rw [h.size]; omega)]

/-- Loading from a ROM file and loading the payload of an executable both store the ROM at `0x100`. -/
theorem loadRom_eq {vm : VM} (h : Fresh [] vm) (rom : List Byte) :
    loadRom vm { bytes := rom } 0 = store vm 0x100 rom := by
  unfold loadRom
  rw [if_pos rfl]
  exact loadLoop_eq vm 0x100 { bytes := rom } (by rw [h.size]; norm_num) (.inr (by rw [h.size]; norm_num))

/-! ## C48 -/

/-- **C48**, CLI. A ROM of up to `0xfff00` bytes (all of the memory above `0x100`) is copied to `0x100` onwards, byte
for byte; everything else is zero and nothing is written outside of the memory. -/
theorem C48_cli_partial (vm : VM) (rom : List Byte) (hl : rom.length ≤ 0xfff00) :
    ∃ vm0 vm', VM.reset { vm with memSize := MEMORY_SIZE } RESET_ALL = .ok vm0 ∧
      loadRom vm0 { bytes := rom } 0 = .ok vm' ∧ Fresh rom vm' := by
  obtain ⟨vm0, h0, hf⟩ := reset_fresh vm
  obtain ⟨vm', h1, h2⟩ := fresh_store hf rom hl
  exact ⟨vm0, vm', h0, by rw [loadRom_eq hf, h1], h2⟩

/-- **C48**, embedded ROMs: the same, for the payload found in the executable. -/
theorem C48_embedded_partial (wrap : Bool) (vm : VM) (exe rom : List Byte) (hl : rom.length ≤ 0xfff00) (h0 : rom ≠ []) :
    ∃ vm0 vm' f, VM.reset { vm with memSize := MEMORY_SIZE } RESET_ALL = .ok vm0 ∧
      find wrap { bytes := withPayload exe rom } = .ok (rom.length, f) ∧
      loadRom vm0 f rom.length = .ok vm' ∧ Fresh rom vm' := by
  obtain ⟨vm0, h1, hf⟩ := reset_fresh vm
  obtain ⟨vm', h2, h3⟩ := fresh_store hf rom hl
  obtain ⟨f, h4, h5⟩ := C43_find wrap exe rom 0 (by omega) (.inr (by omega))
  refine ⟨vm0, vm', f, h1, h4, ?_, h3⟩
  have hp : 0 < rom.length := List.length_pos_iff.mpr h0
  unfold loadRom
  rw [if_neg (by omega), h5]
  exact h2

/-- **C48** fails for longer ROMs: both ways of loading write behind the end of the memory. -/
theorem C48_long_rom_violated (vm : VM) (rom : List Byte) (hl : 0xfff00 < rom.length) :
    ∃ vm0, VM.reset { vm with memSize := MEMORY_SIZE } RESET_ALL = .ok vm0 ∧
      loadRom vm0 { bytes := rom } 0 = .error .oob ∧
      ∀ f, (fread rom.length f).1 = rom → loadRom vm0 f rom.length = .error .oob := by
  obtain ⟨vm0, h0, hf⟩ := reset_fresh vm
  refine ⟨vm0, h0, by rw [loadRom_eq hf, store_too_long hf rom hl], fun f hr => ?_⟩
  unfold loadRom
  rw [if_neg (by omega), hr]
  exact store_too_long hf rom hl

/-- The steps of `boot`, one by one. -/
theorem boot_cases {exec : Exec Console σ} {vm : VM} {rest : σ} {args : List (List Byte)} {stdin : List Byte}
    {f : InFile} {n : Nat} {code : Int} {w : World Console σ} (h : boot exec vm rest args stdin f n = .ok (code, w)) :
    ∃ vm0 vm1 w1, VM.reset { vm with memSize := MEMORY_SIZE } RESET_ALL = .ok vm0 ∧ loadRom vm0 f n = .ok vm1 ∧
      w1 = exec 0x100 { vm := vm1, dev := consoleInit args.length args ⟨0, [], 0, 0⟩, rest := rest } ∧
      ((System.exitCode w1.vm > 0 ∧ w = w1 ∧ code = System.exitCode w.vm) ∨
        ∃ w2, sendArgs exec args.length w1 = .ok w2 ∧
          ((System.exitCode w2.vm > 0 ∧ w = w2 ∧ code = System.exitCode w.vm) ∨
            (w = inputLoop exec stdin w2 ∧
              code = if System.exitCode w.vm < 0 then 0 else System.exitCode w.vm))) := by
  unfold boot at h
  cases h0 : VM.reset { vm with memSize := MEMORY_SIZE } RESET_ALL with
  | error e => rw [h0] at h; cases h
  | ok vm0 =>
    rw [h0] at h
    simp only [bind, Except.bind] at h
    cases h1 : loadRom vm0 f n with
    | error e => rw [h1] at h; cases h
    | ok vm1 =>
      rw [h1] at h
      dsimp only at h
      refine ⟨vm0, vm1, _, rfl, h1, rfl, ?_⟩
      generalize exec 0x100 { vm := vm1, dev := consoleInit args.length args ⟨0, [], 0, 0⟩, rest := rest } = w1 at h ⊢
      by_cases hc : System.exitCode w1.vm > 0
      · rw [if_pos hc] at h
        simp only [pure, Except.pure, Except.ok.injEq, Prod.mk.injEq] at h
        left
        obtain ⟨rfl, rfl⟩ := h
        exact ⟨hc, rfl, rfl⟩
      · rw [if_neg hc] at h
        right
        simp only [pure, Except.pure] at h
        cases h2 : sendArgs exec args.length w1 with
        | error e => rw [h2] at h; cases h
        | ok w2 =>
          rw [h2] at h
          dsimp only at h
          refine ⟨w2, rfl, ?_⟩
          by_cases hc2 : System.exitCode w2.vm > 0
          · rw [if_pos hc2] at h
            simp only [Except.ok.injEq, Prod.mk.injEq] at h
            left
            obtain ⟨rfl, rfl⟩ := h
            exact ⟨hc2, rfl, rfl⟩
          · rw [if_neg hc2] at h
            simp only [Except.ok.injEq, Prod.mk.injEq] at h
            right
            obtain ⟨rfl, rfl⟩ := h
            exact ⟨rfl, rfl⟩

theorem sendArg_log {log : σ → List (Short × VM)} {exec : Exec Console σ} (hlog : Logging log exec) (a : List Byte)
    (w : World Console σ) : ∃ more, log (sendArg exec a w).rest = log w.rest ++ more := by
  induction a generalizing w with
  | nil =>
    unfold sendArg sendArg.finish
    dsimp only
    split <;> exact ⟨_, hlog _ _⟩
  | cons c cs ih =>
    unfold sendArg
    split
    · obtain ⟨m, hm⟩ := ih (sendData exec CONSOLE_ARG c w)
      have h1 : log (sendData exec CONSOLE_ARG c w).rest = log w.rest ++ [(w.vm.devLoad2 0x10, w.vm)] := hlog _ _
      exact ⟨[(w.vm.devLoad2 0x10, w.vm)] ++ m, by rw [hm, h1, List.append_assoc]⟩
    · unfold sendArg.finish
      dsimp only
      split <;> exact ⟨_, hlog _ _⟩

theorem sendArgs_log {log : σ → List (Short × VM)} {exec : Exec Console σ} (hlog : Logging log exec) (n : Nat)
    (w w' : World Console σ) (h : sendArgs exec n w = .ok w') : ∃ more, log w'.rest = log w.rest ++ more := by
  induction n generalizing w with
  | zero => unfold sendArgs at h; cases h; exact ⟨[], by simp⟩
  | succ n ih =>
    unfold sendArgs at h
    split at h
    · split at h
      · obtain ⟨m, hm⟩ := ih _ h
        obtain ⟨m', hm'⟩ := sendArg_log hlog _ w
        exact ⟨m' ++ m, by rw [hm, hm', List.append_assoc]⟩
      · cases h
    · cases h; exact ⟨[], by simp⟩

theorem exitCode_neg (vm : VM) : System.exitCode vm < 0 ↔ vm.device 0x0f = 0 := by
  unfold System.exitCode
  dsimp only
  split
  · rename_i h; exact ⟨fun _ => h, fun _ => by decide⟩
  · rename_i h; exact ⟨fun hn => absurd hn (by omega), fun hn => absurd hn h⟩

/-- In the input loop no vector is run after the program has asked to exit. -/
theorem inputLoop_log {log : σ → List (Short × VM)} {exec : Exec Console σ} (hlog : Logging log exec) (input : List Byte)
    (w : World Console σ) :
    ∃ more, log (inputLoop exec input w).rest = log w.rest ++ more ∧ ∀ e ∈ more, ¬ asksToExit e.2 := by
  induction input generalizing w with
  | nil =>
    unfold inputLoop
    split
    · rename_i h
      refine ⟨_, hlog _ _, ?_⟩
      intro e he
      rw [List.mem_singleton] at he
      rw [he]
      exact not_not.mpr ((exitCode_neg w.vm).mp h.1)
    · exact ⟨[], by simp, by simp⟩
  | cons c cs ih =>
    unfold inputLoop
    split
    · rename_i h
      dsimp only
      obtain ⟨m, hm, hx⟩ := ih (sendInput exec c w)
      have h1 : log (sendInput exec c w).rest = log w.rest ++ [(w.vm.devLoad2 0x10, w.vm)] := hlog _ _
      refine ⟨[(w.vm.devLoad2 0x10, w.vm)] ++ m, ?_, ?_⟩
      · rw [hm, h1, List.append_assoc]
      · intro e he
        rcases List.mem_append.mp he with he | he
        · rw [List.mem_singleton] at he
          rw [he]
          exact not_not.mpr ((exitCode_neg w.vm).mp h.1)
        · exact hx e he
    · exact ⟨[], by simp, by simp⟩

/-- **C48**, start. Whatever the guest does and whatever the arguments and the input are, if the ROM fits then the
first vector that is run is `0x100`, on a machine that holds the ROM and is otherwise zero. -/
theorem C48_start (log : σ → List (Short × VM)) (exec : Exec Console σ) (hlog : Logging log exec) (vm : VM) (rest : σ)
    (hr : log rest = []) (args : List (List Byte)) (stdin rom : List Byte) (hl : rom.length ≤ 0xfff00) (code : Int)
    (w : World Console σ) (h : boot exec vm rest args stdin { bytes := rom } 0 = .ok (code, w)) :
    ∃ first more, log w.rest = (0x100, first) :: more ∧ Fresh rom first := by
  obtain ⟨vm0, vm1, w1, h0, h1, e1, hc⟩ := boot_cases h
  obtain ⟨vm0', vm1', h0', h1', hf⟩ := C48_cli_partial vm rom hl
  rw [h0] at h0'
  cases h0'
  rw [h1] at h1'
  cases h1'
  have hlog1 : log w1.rest = [(0x100, vm1)] := by rw [e1, hlog]; simp [hr]
  have key : ∃ more, log w.rest = log w1.rest ++ more := by
    rcases hc with ⟨_, rfl, _⟩ | ⟨w2, h2, hc⟩
    · exact ⟨[], by simp⟩
    · obtain ⟨m, hm⟩ := sendArgs_log hlog _ _ _ h2
      rcases hc with ⟨_, rfl, _⟩ | ⟨rfl, _⟩
      · exact ⟨m, hm⟩
      · obtain ⟨m2, hm2, _⟩ := inputLoop_log hlog stdin w2
        exact ⟨m ++ m2, by rw [hm2, hm, List.append_assoc]⟩
  obtain ⟨more, hm⟩ := key
  exact ⟨vm1, more, by rw [hm, hlog1]; rfl, hf⟩

/-- **C48**, end to end. An executable made from a runner and a ROM does exactly what `buxn-cli` does with the ROM:
the same boot, arguments, input, exit code and final state (also when the ROM is too long). -/
theorem C48_executable (wrap : Bool) (exec : Exec Console σ) (vm : VM) (rest : σ) (fs : List Byte → Option InFile)
    (exe cli romName runner rom : List Byte) (args : List (List Byte)) (stdin : List Byte)
    (hexe : fs exe = some { bytes := withPayload runner rom }) (hrom : fs romName = some { bytes := rom })
    (hcli : fs cli = some { bytes := runner }) (hplain : ∀ pre n, n < 2 ^ 32 → runner ≠ pre ++ trailer n)
    (h0 : rom ≠ []) (h1 : rom.length < 2 ^ 31) :
    main wrap exec vm rest fs (exe :: args) stdin = main wrap exec vm rest fs (cli :: romName :: args) stdin := by
  obtain ⟨f, h2, h3⟩ := C43_find wrap runner rom 0 (by omega) (.inr h1)
  obtain ⟨f', h4⟩ := C43_none wrap { bytes := runner } hplain
  have hp : 0 < rom.length := List.length_pos_iff.mpr h0
  have hb : boot exec vm rest args stdin f rom.length = boot exec vm rest args stdin { bytes := rom } 0 := by
    obtain ⟨vm0, hv, hf⟩ := reset_fresh vm
    unfold boot
    rw [hv]
    simp only [bind, Except.bind]
    have : loadRom vm0 f rom.length = loadRom vm0 { bytes := rom } 0 := by
      rw [loadRom_eq hf]
      unfold loadRom
      rw [if_neg (by omega), h3]
      rfl
    rw [this]
  unfold main
  simp only [hexe, hcli, bind, Except.bind, h2, h4]
  rw [if_neg (by omega), if_pos trivial, hb]
  unfold cliMain
  simp only [hrom]

/-! ### The graphical program -/

/-- A stream that delivers a text in pieces of any size; it ends with an empty piece. -/
def Delivers {τ : Type} (read : Reader τ) (holds : τ → List Byte → Prop) : Prop :=
  ∀ t l n, holds t l → 0 < n → ∃ a b t', read n t = (some a, t') ∧ l = a ++ b ∧ a.length ≤ n ∧ (a = [] → l = []) ∧
    holds t' b

/-- The stream of `linux/platform.c` holds the rest of the file, up to the size limit. -/
theorem stdio_delivers : Delivers stdioRead (fun s l => l = match s.2 with
    | some n => (s.1.readable.drop s.1.pos).take n
    | none => s.1.readable.drop s.1.pos) := by
  rintro ⟨f, lim⟩ l n hl hn
  have hr : ∀ k, (fread k f).2.readable = f.readable := fun _ => rfl
  have hd : ∀ k, f.readable.drop f.pos = (fread k f).1 ++ (fread k f).2.readable.drop (fread k f).2.pos := by
    intro k
    show _ = (f.readable.drop f.pos).take k ++ f.readable.drop (f.pos + ((f.readable.drop f.pos).take k).length)
    rw [← List.drop_drop, List.length_take]
    rcases Nat.le_total k (f.readable.drop f.pos).length with h | h
    · rw [Nat.min_eq_left h]; exact (List.take_append_drop _ _).symm
    · rw [Nat.min_eq_right h, List.take_of_length_le h, List.drop_length, List.append_nil]
  have hk : ∀ k, (fread k f).1 = (f.readable.drop f.pos).take k := fun _ => rfl
  cases lim with
  | none =>
    dsimp only at hl
    refine ⟨(fread n f).1, _, _, rfl, by rw [hl]; exact hd n, by rw [hk, List.length_take]; omega, ?_, rfl⟩
    intro h
    rw [hl]
    rw [hk] at h
    rcases List.take_eq_nil_iff.mp h with h | h
    · omega
    · exact h
  | some m =>
    dsimp only at hl
    have hmin : (if m < n then m else n) = min m n := by split <;> omega
    refine ⟨(fread (min m n) f).1, ((fread (min m n) f).2.readable.drop (fread (min m n) f).2.pos).take
      (m - (fread (min m n) f).1.length), ((fread (min m n) f).2, some (m - (fread (min m n) f).1.length)), ?_, ?_, ?_, ?_, rfl⟩
    · simp only [stdioRead, hmin, Option.map_some]
    · rw [hl, hd (min m n), List.take_append]
      congr 1
      rw [List.take_of_length_le]
      rw [hk, List.length_take]; omega
    · rw [hk, List.length_take]; omega
    · intro h
      rw [hl]
      rw [hk] at h
      rcases List.take_eq_nil_iff.mp h with h | h
      · rw [show m = 0 by omega, List.take_zero]
      · rw [h, List.take_nil]

theorem guiLoop_spec {τ : Type} (read : Reader τ) (holds : τ → List Byte → Prop) (hd : Delivers read holds) (fuel : Nat)
    (vm : VM) (t : τ) (l : List Byte) (ht : holds t l) (left : Nat) (last : Option Nat) (hle : left ≤ vm.memSize)
    (hf : left < fuel) :
    ∃ last' vm', store vm (vm.memSize - left) (l.take left) = .ok vm' ∧
      guiLoop read fuel left last vm t = .ok (left - (l.take left).length, last', vm') ∧
      (l.length < left → last' = some 0) ∧ (left ≤ l.length → 0 < left → ∃ k, last' = some k ∧ 0 < k) ∧
      (left = 0 → last' = last) := by
  induction fuel generalizing vm t l left last with
  | zero => omega
  | succ fuel ih =>
    unfold guiLoop
    by_cases hl : left > 0
    · rw [if_pos hl]
      obtain ⟨a, b, t', hr, hab, hal, hz, hb⟩ := hd t l left ht hl
      rw [hr]
      dsimp only
      by_cases ha : a.length > 0
      · rw [if_pos ha]
        obtain ⟨vm1, hs⟩ : ∃ vm1, store vm (vm.memSize - left) a = .ok vm1 := by
          unfold store; rw [if_pos (by omega)]; exact ⟨_, rfl⟩
        obtain ⟨hs1, hs2⟩ := store_size hs
        rw [hs]
        dsimp only
        obtain ⟨last', vm', h1, h2, h3, h4, h5⟩ := ih vm1 t' b hb (left - a.length) (some a.length) (by omega) (by omega)
        have ht' : l.take left = a ++ b.take (left - a.length) := by
          rw [hab, List.take_append, List.take_of_length_le hal]
        refine ⟨last', vm', ?_, ?_, ?_, ?_, fun h => by omega⟩
        · rw [ht', store_append, hs]
          dsimp only
          rw [hs1] at h1
          have hpos : vm.memSize - left + a.length = vm.memSize - (left - a.length) := by clear h1 h2 h3 h4 h5 ih; omega
          rw [hpos]
          exact h1
        · rw [h2, ht', List.length_append]
          congr 2
          omega
        · intro hlt
          rw [hab, List.length_append] at hlt
          exact h3 (by omega)
        · intro hge _
          rw [hab, List.length_append] at hge
          rcases Nat.eq_zero_or_pos (left - a.length) with he | he
          · exact ⟨a.length, h5 he, ha⟩
          · exact h4 (by omega) he
      · rw [if_neg ha]
        have ha0 : a = [] := List.length_eq_zero_iff.mp (by omega)
        have hl0 := hz ha0
        rw [hl0, List.take_nil]
        refine ⟨some 0, vm, store_nil _ _ (by omega), rfl, fun _ => rfl, fun h => ?_, fun h => by omega⟩
        simp at h; omega
    · rw [if_neg hl]
      have h0 : left = 0 := by omega
      rw [h0, List.take_zero]
      exact ⟨last, vm, store_nil _ _ (by omega), rfl, fun h => absurd h (Nat.not_lt_zero _), fun _ h => absurd h (Nat.lt_irrefl 0), fun _ => rfl⟩

/-- **C48**, graphical program. For a stream that delivers the ROM in pieces of any size: a ROM smaller than the memory
above `0x100` is copied to `0x100` onwards and nothing else is changed; a longer one is refused. In no case is anything
written outside of the memory. -/
theorem C48_gui {τ : Type} (read : Reader τ) (holds : τ → List Byte → Prop) (hd : Delivers read holds) (vm : VM) (t : τ)
    (rom : List Byte) (ht : holds t rom) (hm : 0x100 < vm.memSize) :
    (rom.length < vm.memSize - 0x100 → ∃ vm', guiLoad read vm t = .ok (some vm') ∧ vm'.memSize = vm.memSize ∧
      vm'.device = vm.device ∧ vm'.ws = vm.ws ∧ vm'.rs = vm.rs ∧ vm'.wsp = vm.wsp ∧ vm'.rsp = vm.rsp ∧
      (∀ i (h : i < rom.length), vm'.memory (0x100 + i) = rom[i]) ∧
      (∀ i, i < 0x100 ∨ 0x100 + rom.length ≤ i → vm'.memory i = vm.memory i)) ∧
    (vm.memSize - 0x100 ≤ rom.length → guiLoad read vm t = .ok none) := by
  obtain ⟨last, vm', h1, h2, h3, h4, _⟩ := guiLoop_spec read holds hd (vm.memSize - 0x100 + 1) vm t rom ht
    (vm.memSize - 0x100) (some 0) (by omega) (by omega)
  rw [show vm.memSize - (vm.memSize - 0x100) = 0x100 by omega] at h1
  constructor
  · intro hl
    rw [List.take_of_length_le (by omega)] at h1 h2
    refine ⟨vm', ?_, ?_⟩
    · unfold guiLoad RESET_VECTOR
      dsimp only
      rw [h2, h3 hl]
      simp only [bind, Except.bind]
      rw [if_neg (by omega)]
      rfl
    · unfold store at h1
      rw [if_pos (by omega)] at h1
      cases h1
      refine ⟨rfl, rfl, rfl, rfl, rfl, rfl, ?_, ?_⟩
      · intro i hi
        dsimp only
        rw [if_pos (by omega), Nat.add_sub_cancel_left, List.getD_eq_getElem _ _ hi]
      · intro i hi
        dsimp only
        rw [if_neg (by omega)]
  · intro hl
    obtain ⟨k, hk, hk0⟩ := h4 hl (by omega)
    unfold guiLoad RESET_VECTOR
    dsimp only
    rw [h2, hk]
    simp only [bind, Except.bind]
    rw [if_pos ⟨by rw [List.length_take]; omega, hk0⟩]
    rfl

/-- Nothing is written outside of the memory whatever the stream does, as long as it hands out no more bytes than it is
asked for. -/
theorem C48_gui_in_bounds {τ : Type} (read : Reader τ) (hp : Polite read) (vm : VM) (t : τ) :
    ∃ r, guiLoad read vm t = .ok r := by
  have key : ∀ fuel left last (vm : VM) t, left ≤ vm.memSize → ∃ r, guiLoop read fuel left last vm t = .ok r := by
    intro fuel
    induction fuel with
    | zero => intro left last vm t _; exact ⟨_, rfl⟩
    | succ fuel ih =>
      intro left last vm t hle
      unfold guiLoop
      split
      · cases hr : read left t with
        | mk o t' =>
          cases o with
          | none => exact ⟨_, rfl⟩
          | some l =>
            dsimp only
            have hl := hp left t l (by rw [hr])
            split
            · cases hs : store vm (vm.memSize - left) l with
              | error e =>
                unfold store at hs
                rw [if_pos (by omega)] at hs
                cases hs
              | ok vm1 =>
                dsimp only
                have := (store_size hs).1
                exact ih _ _ _ _ (by omega)
            · exact ⟨_, rfl⟩
      · exact ⟨_, rfl⟩
  unfold guiLoad
  obtain ⟨r, hr⟩ := key (vm.memSize - RESET_VECTOR + 1) (vm.memSize - RESET_VECTOR) (some 0) vm t (by omega)
  obtain ⟨a, b, c⟩ := r
  dsimp only
  rw [hr]
  simp only [bind, Except.bind]
  cases b with
  | none => exact ⟨_, rfl⟩
  | some n => dsimp only; split <;> exact ⟨_, rfl⟩

/-- A ROM that fills the memory exactly is refused by the graphical program, although it fits and `buxn-cli` loads it. -/
theorem C48_gui_full_violated (vm : VM) (rom : List Byte) (hl : rom.length = 0xfff00) (hm : vm.memSize = 16 * 65536) :
    guiLoad stdioRead vm ({ bytes := rom }, none) = .ok none := by
  apply (C48_gui stdioRead _ stdio_delivers vm ({ bytes := rom }, none) rom rfl (by omega)).2
  omega

/-- The stream of an embedded ROM holds exactly the payload. -/
example (exe rom : List Byte) (h : rom.length < 2 ^ 31) : ∃ f, find false { bytes := withPayload exe rom } =
    .ok (rom.length, f) ∧ rom = (f.readable.drop f.pos).take rom.length := by
  obtain ⟨f, h1, h2⟩ := C43_find false exe rom 0 (by omega) (.inr h)
  exact ⟨f, h1, h2.symm⟩

/-! ## C53 -/

/-- **C53**, exit status. The exit status of `buxn-cli` is the state port modulo 128 as the program left it (0 if it
never asked to exit), for every program, arguments and input. -/
theorem C53_exit_status (exec : Exec Console σ) (vm : VM) (rest : σ) (args : List (List Byte)) (stdin : List Byte)
    (f : InFile) (n : Nat) (code : Int) (w : World Console σ) (h : boot exec vm rest args stdin f n = .ok (code, w)) :
    code = ((w.vm.device 0x0f).toNat % 128 : Nat) := by
  have key : ∀ vm : VM, ¬ System.exitCode vm < 0 → System.exitCode vm = ((vm.device 0x0f).toNat % 128 : Nat) := by
    intro vm hn
    rw [System.C12_exit_code] at hn ⊢
    split
    · rename_i hz; rw [if_pos hz] at hn; exact absurd (by decide) hn
    · rfl
  obtain ⟨_, _, _, _, _, _, hc⟩ := boot_cases h
  rcases hc with ⟨h1, rfl, h2⟩ | ⟨w2, _, ⟨h1, rfl, h2⟩ | ⟨_, h2⟩⟩
  · rw [h2]; exact key _ (by omega)
  · rw [h2]; exact key _ (by omega)
  · rw [h2]
    split
    · rename_i hn
      rw [(exitCode_neg _).mp hn]; rfl
    · rename_i hn; exact key _ hn

/-- **C53**, no run after exit. For a program started without arguments: once it has asked to exit no vector is run
any more. -/
theorem C53_no_run_after_exit_partial (log : σ → List (Short × VM)) (exec : Exec Console σ) (hlog : Logging log exec)
    (vm : VM) (rest : σ) (hr : log rest = []) (stdin : List Byte) (f : InFile) (n : Nat) (code : Int)
    (w : World Console σ) (h : boot exec vm rest [] stdin f n = .ok (code, w)) :
    ∀ e ∈ (log w.rest).tail, ¬ asksToExit e.2 := by
  obtain ⟨vm0, vm1, w1, h0, h1, e1, hc⟩ := boot_cases h
  have hlog1 : log w1.rest = [(0x100, vm1)] := by rw [e1, hlog]; simp [hr]
  rcases hc with ⟨_, rfl, _⟩ | ⟨w2, h2, hc⟩
  · rw [hlog1]; simp
  · have e2 : w2 = w1 := by unfold sendArgs at h2; cases h2; rfl
    rw [e2] at hc
    rcases hc with ⟨_, rfl, _⟩ | ⟨rfl, _⟩
    · rw [hlog1]; simp
    · obtain ⟨m, hm, hx⟩ := inputLoop_log hlog stdin w1
      rw [hm, hlog1]
      exact hx

theorem sendArg_first {log : σ → List (Short × VM)} {exec : Exec Console σ} (hlog : Logging log exec) (a : List Byte)
    (w : World Console σ) : ∃ v more, log (sendArg exec a w).rest = log w.rest ++ (v, w.vm) :: more := by
  cases a with
  | nil =>
    unfold sendArg sendArg.finish
    dsimp only
    split <;> exact ⟨_, [], hlog _ _⟩
  | cons c cs =>
    unfold sendArg
    split
    · have h1 : log (sendData exec CONSOLE_ARG c w).rest = log w.rest ++ [(w.vm.devLoad2 0x10, w.vm)] := hlog _ _
      obtain ⟨m, hm⟩ := sendArg_log hlog cs (sendData exec CONSOLE_ARG c w)
      exact ⟨_, m, by rw [hm, h1, List.append_assoc]; rfl⟩
    · unfold sendArg.finish
      dsimp only
      split <;> exact ⟨_, [], hlog _ _⟩

/-- **C53** fails with arguments: a program that asks to exit with code 0 in its first run is run again for its
arguments. -/
theorem C53_args_violated (log : σ → List (Short × VM)) (exec : Exec Console σ) (hlog : Logging log exec)
    (hg : GuestOnly exec) (hq : ∀ w, (exec 0x100 w).vm.device 0x0f = 0x80) (vm : VM) (rest : σ) (hr : log rest = [])
    (a : List Byte) (args : List (List Byte)) (stdin : List Byte) (f : InFile) (n : Nat) (code : Int) (w : World Console σ)
    (h : boot exec vm rest (a :: args) stdin f n = .ok (code, w)) :
    ∃ e ∈ (log w.rest).tail, asksToExit e.2 := by
  obtain ⟨vm0, vm1, w1, h0, h1, e1, hc⟩ := boot_cases h
  have hlog1 : log w1.rest = [(0x100, vm1)] := by rw [e1, hlog]; simp [hr]
  have hx : w1.vm.device 0x0f = 0x80 := by rw [e1]; exact hq _
  have hx0 : System.exitCode w1.vm = 0 := by unfold System.exitCode; dsimp only; rw [hx]; decide
  have hd : w1.dev.argc = (args.length + 1 : Nat) ∧ w1.dev.argv = a :: args := by
    rw [e1, hg.argc, hg.argv]; exact ⟨rfl, rfl⟩
  have key : ∃ v m, log w.rest = log w1.rest ++ (v, w1.vm) :: m := by
    rcases hc with ⟨h, _⟩ | ⟨w2, h2, hc⟩
    · omega
    · have : ∃ v m, log w2.rest = log w1.rest ++ (v, w1.vm) :: m := by
        have h2' : sendArgs exec (args.length + 1) w1 = .ok w2 := h2
        unfold sendArgs at h2'
        rw [if_pos (by omega), hd.2] at h2'
        dsimp only at h2'
        obtain ⟨m, hm⟩ := sendArgs_log hlog _ _ _ h2'
        obtain ⟨v, m', hm'⟩ := sendArg_first hlog a w1
        exact ⟨v, m' ++ m, by rw [hm, hm', List.append_assoc]; rfl⟩
      obtain ⟨v, m, hm⟩ := this
      rcases hc with ⟨_, rfl, _⟩ | ⟨rfl, _⟩
      · exact ⟨v, m, hm⟩
      · obtain ⟨m2, hm2, _⟩ := inputLoop_log hlog stdin w2
        exact ⟨v, m ++ m2, by rw [hm2, hm, List.append_assoc]; rfl⟩
  obtain ⟨v, m, hm⟩ := key
  refine ⟨(v, w1.vm), by rw [hm, hlog1]; simp, ?_⟩
  show w1.vm.device 0x0f ≠ 0
  rw [hx]; decide

/-- A guest that asks to exit with code 0 whenever it is run, and notes down its runs. -/
def quitter : Exec Console (List (Short × VM)) := fun v w =>
  { w with vm := { w.vm with device := (fun i => if i = 0x0f then 0x80 else w.vm.device i) }, rest := w.rest ++ [(v, w.vm)] }

/-- The hypotheses of the theorems about `boot` are met: this guest boots with an argument. -/
example (vm : VM) : Logging id quitter ∧ GuestOnly quitter ∧ (∀ w, (quitter 0x100 w).vm.device 0x0f = 0x80) ∧
    ∃ r, boot quitter vm [] [[0x61]] [] { bytes := [0] } 0 = .ok r := by
  have hg : GuestOnly quitter := ⟨fun _ _ => rfl, fun _ _ => rfl, fun _ _ _ _ => rfl⟩
  refine ⟨fun _ _ => rfl, hg, fun _ => rfl, ?_⟩
  obtain ⟨vm0, vm1, h0, h1, _⟩ := C48_cli_partial vm [0] (by decide)
  obtain ⟨w2, h2, _⟩ := C13_send_args quitter hg [[0x61]] (by decide)
    (quitter 0x100 { vm := vm1, dev := consoleInit 1 [[0x61]] ⟨0, [], 0, 0⟩, rest := [] }) rfl rfl 1 (by decide)
  unfold boot
  rw [h0]
  simp only [bind, Except.bind, h1]
  split
  · exact ⟨_, rfl⟩
  · simp only [pure, Except.pure]
    have : sendArgs quitter [[(0x61 : Byte)]].length (quitter 256
      { vm := vm1, dev := consoleInit ([[(0x61 : Byte)]].length : Nat) [[0x61]] ⟨0, [], 0, 0⟩, rest := [] }) = .ok w2 := h2
    rw [this]
    dsimp only
    split <;> exact ⟨_, rfl⟩

end Buxn.Boot
