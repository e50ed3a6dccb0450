import Verif.VM.Safe
import Verif.VM.Props
import Verif.Devices.Datetime
import Verif.Devices.SystemProps
import Verif.Devices.FileCalls
import Verif.Misc.Boot
/-!
# The whole of `buxn-cli` (C63)

`/repo/src/cli.c` puts the interpreter (C01–C09), the system device (C10–C12), the console (C13), the two file devices
(C17–C19) and the clock (C62) together. The file system is any functions, the clock any sequence of readings.

A run of a vector may never end, so it is observed for `fuel` instructions, for any `fuel`; what has not ended by then is
`unfinished`, and the rest of the program, which would not be reached, is skipped.
-/
namespace Buxn.Cli
open Buxn.VM Buxn.Input Buxn.Bembd Buxn.Boot
variable {τ : Type}

/-- What the program prints: a byte on one of the two streams, or the stacks (`cli.c:67-84`). -/
inductive Out
  | stdout (b : Byte)
  | stderr (b : Byte)
  | dump (ws rs : List Byte)
  deriving DecidableEq

/-- `vm_data_t` without the console, `cli.c:15-19`, and the world outside: the file system, the calls that each of the two
file devices has made, the clock and what has been printed. -/
structure Data (τ : Type) where
  file : Bool → File.Dev
  log : Bool → List File.Call
  fs : τ
  clock : Datetime.Clock
  out : List Out

/-- `buxn_device_id` and `buxn_device_port`, `vm.h:76-84`. -/
def deviceId (a : Byte) : Byte := a &&& 0xf0
def devicePort (a : Byte) : Fin 16 := ⟨(a &&& 0x0f).toNat, by
  have : ∀ a : Byte, (a &&& 0x0f).toNat < 16 := by decide
  exact this a⟩

/-- `vm->device + device_id`. -/
def ports (vm : VM) (id : Byte) : Fin 16 → Byte := fun p => vm.device (id + BitVec.ofNat 8 p.val)

/-- The stacks as `buxn_system_debug` prints them, `cli.c:67-84`. -/
def stackBytes (stk : Byte → Byte) (p : Byte) : List Byte := (List.range p.toNat).map fun i => stk (BitVec.ofNat 8 i)

/-- The callbacks of the system device, `cli.c:67-95`. -/
def callbacks : System.Callbacks (Data τ) where
  debug v vm d := .ok (vm, if v = 0 then d else { d with out := d.out ++ [.dump (stackBytes vm.ws vm.wsp) (stackBytes vm.rs vm.rsp)] })
  setMetadata _ vm d := .ok (vm, d)
  themeChanged vm d := .ok (vm, d)

/-- `buxn_vm_dei`, `cli.c:21-43`. `con` is the console, which no port write changes. `second` selects `file[1]`. -/
def dei (con : Console) (a : Byte) (vm : VM) (d : Data τ) : Res (Byte × VM × Data τ) :=
  let id := deviceId a
  if id = 0x00 then .ok (System.dei vm a, vm, d)
  else if id = 0x10 then .ok (consoleDei { vm := vm, dev := con, rest := () } a, vm, d)
  else if id = 0xc0 then
    (Datetime.dei (d.clock.reading d.clock.calls) vm a).map fun v =>
      (v, vm, { d with clock := { d.clock with calls := d.clock.calls + 1 } })
  else if id = 0xa0 then .ok (File.dei (d.file false) (ports vm id) (devicePort a), vm, d)
  else if id = 0xb0 then .ok (File.dei (d.file true) (ports vm id) (devicePort a), vm, d)
  else .ok (vm.device a, vm, d)

/-- A write to a port of one of the file devices, `cli.c:56-63`. -/
def fileDeo (F : File.Host τ) (second : Bool) (id : Byte) (a : Byte) (vm : VM) (d : Data τ) : Res (VM × Data τ) :=
  (File.deo F vm.memSize (ports vm id) (devicePort a)
      { dev := d.file second, mem := vm.memory, host := d.fs, log := d.log second }).map fun w =>
    ({ vm with memory := w.mem },
      { d with file := upd d.file second w.dev, log := upd d.log second w.log, fs := w.host })

/-- `buxn_vm_deo`, `cli.c:45-65`, with the console's callbacks `cli.c:97-110`. -/
def deo (F : File.Host τ) (con : Console) (a : Byte) (vm : VM) (d : Data τ) : Res (VM × Data τ) :=
  let id := deviceId a
  if id = 0x00 then System.deo callbacks a vm d
  else if id = 0x10 then
    .ok (vm, match consoleDeo { vm := vm, dev := con, rest := () } a with
      | some (false, b) => { d with out := d.out ++ [.stdout b] }
      | some (true, b) => { d with out := d.out ++ [.stderr b] }
      | none => d)
  else if id = 0xa0 then fileDeo F false id a vm d
  else if id = 0xb0 then fileDeo F true id a vm d
  else .ok (vm, d)

/-- The devices of `buxn-cli`. -/
def host (F : File.Host τ) (con : Console) : Host (Data τ) where
  dei := dei con
  deo := deo F con

/-- Why the observation of the program was broken off. -/
inductive Stop
  | fault (u : UB)
  | unfinished
  deriving DecidableEq

/-- The rest of the program's state: the devices, the vectors that the program was asked to run (with the machine as it was
before), and whether the observation was broken off. -/
structure State (τ : Type) where
  data : Data τ
  runs : List (Short × VM)
  stop : Option Stop

/-- What is not said by the code: the language's freedom, the uninitialised locals of each run, and how long a run is
observed. -/
structure Env where
  cfg : Cfg
  locals : Nat → Byte × Byte
  fuel : Nat

/-- `buxn_vm_execute(vm, vector)` in `buxn-cli`. -/
def exec (E : Env) (F : File.Host τ) : Exec Console (State τ) := fun v w =>
  let runs := w.rest.runs ++ [(v, w.vm)]
  match w.rest.stop with
  | some r => { w with rest := { w.rest with runs := runs, stop := some r } }
  | none =>
    match execute E.cfg (host F w.dev) none (E.locals w.rest.runs.length) E.fuel w.vm w.rest.data v with
    | .halted vm d => { w with vm := vm, rest := { data := d, runs := runs, stop := none } }
    | .undefined u => { w with rest := { w.rest with runs := runs, stop := some (.fault u) } }
    | .running c => { w with vm := c.vm, rest := { data := c.host, runs := runs, stop := some .unfinished } }

/-- `vm_data_t devices = { 0 }`, `cli.c:115`. -/
def start (fs : τ) (clock : Datetime.Clock) : State τ where
  data := { file := fun _ => (File.fresh fs).dev, log := fun _ => [], fs := fs, clock := clock, out := [] }
  runs := []
  stop := none

/-- `boot`, `cli.c:112-188`, as `buxn-cli` runs it. -/
def run (E : Env) (F : File.Host τ) (vm : VM) (fs : τ) (clock : Datetime.Clock) (args : List (List Byte)) (stdin : List Byte)
    (rom : InFile) (romSize : Nat) : Res (Int × World Console (State τ)) :=
  boot (exec E F) vm (start fs clock) args stdin rom romSize

/-! ## Specification -/

namespace Spec

/-- The clock is within the range in which `tm_year + 1900` is an `int`: before the year 2147483648. -/
def Sane (c : Datetime.Clock) : Prop := ∀ n t, c.reading n = some t → t.year ≤ 2147483647 - 1900

/-- The calls of one file device obey the discipline: only a handle that was obtained and not given back is used, only as
what it was opened for, and at most one is open. -/
def Disciplined (log : List File.Call) : Prop :=
  (∃ s, File.Slot.closed.run log = some s) ∧ File.closed log ≤ File.opened log ∧ File.opened log ≤ File.closed log + 1

end Spec
open Spec

/-! ## The devices keep their invariant -/

/-- The state of a file device after some calls. -/
def FileAt (s : File.Slot) (dev : File.Dev) (log : List File.Call) : Prop :=
  File.Slot.closed.run log = some s ∧ File.Match s dev ∧ File.BufOk dev ∧ dev.success < 65536

theorem FileAt.disciplined {s : File.Slot} {dev : File.Dev} {log : List File.Call} (h : FileAt s dev log) : Disciplined log := by
  obtain ⟨h1, -⟩ := h
  have hb := File.run_balance log .closed s h1
  have h0 : File.Slot.closed.count = 0 := rfl
  have h2 : s.count ≤ 1 := by cases s <;> simp [File.Slot.count]
  exact ⟨⟨s, h1⟩, by omega, by omega⟩

/-- A relation between what the two file devices have open and the state of the file system, kept by all calls that obey the
discipline. -/
def Respects (F : File.Host τ) (R : (Bool → File.Slot) → τ → Prop) : Prop :=
  ∀ (b : Bool) (s : Bool → File.Slot) (s' : File.Slot) (x x' : τ) (calls : List File.Call), R s x → (s b).run calls = some s' →
    File.Performs F x calls x' → R (upd s b s') x'

/-- No relation. -/
def Free (_ : Bool → File.Slot) (_ : τ) : Prop := True

theorem respects_free (F : File.Host τ) : Respects F Free := fun _ _ _ _ _ _ _ _ _ => trivial

/-- The invariant of the devices, on a machine with `m` bytes of memory. -/
structure InvR (R : (Bool → File.Slot) → τ → Prop) (m : Nat) (d : Data τ) : Prop where
  size : 65536 + 7 ≤ m ∧ m + 65536 ≤ 2 ^ 32
  files : ∃ s, (∀ b, FileAt (s b) (d.file b) (d.log b)) ∧ R s d.fs
  clock : Sane d.clock

abbrev Inv (m : Nat) (d : Data τ) : Prop := InvR Free m d

theorem system_deo (a : Byte) (vm : VM) (d : Data τ) (hs : 65536 + 7 ≤ vm.memSize ∧ vm.memSize + 65536 ≤ 2 ^ 32) :
    ∃ vm' d', System.deo callbacks a vm d = .ok (vm', d') ∧ vm'.memSize = vm.memSize ∧
      d'.file = d.file ∧ d'.log = d.log ∧ d'.clock = d.clock ∧ d'.fs = d.fs := by
  by_cases h3 : a = 0x03
  · subst h3
    obtain ⟨vm', h1, h2⟩ := System.C11_in_bounds callbacks vm d hs.1 hs.2
    exact ⟨vm', d, h1, h2, rfl, rfl, rfl, rfl⟩
  unfold System.deo
  rw [if_neg h3]
  split
  · exact ⟨_, _, rfl, rfl, rfl, rfl, rfl, rfl⟩
  split
  · exact ⟨_, _, rfl, rfl, rfl, rfl, rfl, rfl⟩
  split
  · exact ⟨_, _, rfl, rfl, rfl, rfl, rfl, rfl⟩
  split
  · exact ⟨_, _, rfl, rfl, rfl, rfl, rfl, rfl⟩
  split
  · split
    · refine ⟨_, _, rfl, rfl, ?_⟩
      split <;> exact ⟨rfl, rfl, rfl, rfl⟩
    · exact ⟨_, _, rfl, rfl, rfl, rfl, rfl, rfl⟩
  · exact ⟨_, _, rfl, rfl, rfl, rfl, rfl, rfl⟩

theorem file_deo {R : (Bool → File.Slot) → τ → Prop} (F : File.Host τ) (hR : Respects F R) (second : Bool) (id a : Byte) (vm : VM) (d : Data τ)
    (hm : 65536 ≤ vm.memSize) (h : ∃ s, (∀ b, FileAt (s b) (d.file b) (d.log b)) ∧ R s d.fs) :
    ∃ vm' d', fileDeo F second id a vm d = .ok (vm', d') ∧ vm'.memSize = vm.memSize ∧
      (∃ s, (∀ b, FileAt (s b) (d'.file b) (d'.log b)) ∧ R s d'.fs) ∧ d'.clock = d.clock := by
  obtain ⟨s, h, hr⟩ := h
  obtain ⟨h1, h2, h3, h4⟩ := h second
  obtain ⟨w', s', calls, a1, a2, a3, a4, a5⟩ := File.guestOp_performs F vm.memSize hm ⟨ports vm id, devicePort a, vm.memory⟩ (s second)
    { dev := d.file second, mem := vm.memory, host := d.fs, log := d.log second } ⟨h2, h3, h4⟩
  have e : File.deo F vm.memSize (ports vm id) (devicePort a)
      { dev := d.file second, mem := vm.memory, host := d.fs, log := d.log second } = .ok w' := a1
  unfold fileDeo
  rw [e]
  refine ⟨_, _, rfl, rfl, ⟨upd s second s', ?_, hR second s s' _ _ calls hr a3 a5⟩, rfl⟩
  intro b
  by_cases hb : b = second
  · subst hb
    dsimp only
    rw [upd_same, upd_same, upd_same, a2]
    exact ⟨File.run_trans h1 a3, a4.m, a4.b, a4.sc⟩
  · dsimp only
    rw [upd_other _ _ hb, upd_other _ _ hb, upd_other _ _ hb]
    exact h b

theorem datetime_dei (r : Option Datetime.Tm) (h : ∀ t, r = some t → t.year ≤ 2147483647 - 1900) (vm : VM) (a : Byte) :
    ∃ v, Datetime.dei r vm a = .ok v := by
  have hy : Datetime.fullYear (r.getD Datetime.zero) = .ok ((r.getD Datetime.zero).year + 1900) := by
    unfold Datetime.fullYear
    rw [if_pos]
    cases r with
    | none => decide
    | some t => have := h t rfl; show t.year + 1900 ≤ _; omega
  unfold Datetime.dei
  dsimp only
  rw [hy]
  iterate 11 (split; · exact ⟨_, rfl⟩)
  exact ⟨_, rfl⟩

theorem dei_ok {R : (Bool → File.Slot) → τ → Prop} (con : Console) (a : Byte) (vm : VM) (d : Data τ) (hi : InvR R vm.memSize d) :
    ∃ v d', dei con a vm d = .ok (v, vm, d') ∧ InvR R vm.memSize d' := by
  unfold dei
  dsimp only
  split
  · exact ⟨_, _, rfl, hi⟩
  split
  · exact ⟨_, _, rfl, hi⟩
  split
  · obtain ⟨v, hv⟩ := datetime_dei (d.clock.reading d.clock.calls) (fun t h => hi.clock _ t h) vm a
    rw [hv]
    exact ⟨_, _, rfl, hi.size, hi.files, hi.clock⟩
  split
  · exact ⟨_, _, rfl, hi⟩
  split
  · exact ⟨_, _, rfl, hi⟩
  · exact ⟨_, _, rfl, hi⟩

theorem deo_ok {R : (Bool → File.Slot) → τ → Prop} (F : File.Host τ) (hR : Respects F R) (con : Console) (a : Byte) (vm : VM) (d : Data τ)
    (hi : InvR R vm.memSize d) :
    ∃ vm' d', deo F con a vm d = .ok (vm', d') ∧ vm'.memSize = vm.memSize ∧ InvR R vm.memSize d' := by
  have hm : 65536 ≤ vm.memSize := by have := hi.size.1; omega
  unfold deo
  dsimp only
  split
  · obtain ⟨vm', d', e, h1, h2, h3, h4, h5⟩ := system_deo a vm d hi.size
    exact ⟨vm', d', e, h1, hi.size, by rw [h2, h3, h5]; exact hi.files, by rw [h4]; exact hi.clock⟩
  split
  · refine ⟨_, _, rfl, rfl, hi.size, ?_, ?_⟩
    · split <;> exact hi.files
    · split <;> exact hi.clock
  split
  · obtain ⟨vm', d', e, h1, h2, h3⟩ := file_deo F hR false (deviceId a) a vm d hm hi.files
    exact ⟨vm', d', e, h1, hi.size, h2, by rw [h3]; exact hi.clock⟩
  split
  · obtain ⟨vm', d', e, h1, h2, h3⟩ := file_deo F hR true (deviceId a) a vm d hm hi.files
    exact ⟨vm', d', e, h1, hi.size, h2, by rw [h3]; exact hi.clock⟩
  · exact ⟨_, _, rfl, rfl, hi⟩

theorem host_sound {R : (Bool → File.Slot) → τ → Prop} (F : File.Host τ) (hR : Respects F R) (con : Console) :
    Sound (InvR R) (fun _ => True) (host F con) where
  dei a vm d hi := by
    obtain ⟨v, d', e, h⟩ := dei_ok con a vm d hi
    rw [show (host F con).dei a vm d = .ok (v, vm, d') from e]
    exact ⟨rfl, h⟩
  deo a vm d hi := by
    obtain ⟨vm', d', e, h1, h2⟩ := deo_ok F hR con a vm d hi
    rw [show (host F con).deo a vm d = .ok (vm', d') from e]
    exact ⟨h1, h2⟩

/-! ## The program -/

/-- The program as it is between two runs of a vector. -/
structure WellR (R : (Bool → File.Slot) → τ → Prop) (E : Env) (w : World Console (State τ)) : Prop where
  size : w.vm.memSize = 16 * 65536
  inv : InvR R (16 * 65536) w.rest.data
  stop : ∀ u, w.rest.stop = some (.fault u) → u = .signedOverflow ∧ E.cfg.wrapv = false

abbrev Well (E : Env) (w : World Console (State τ)) : Prop := WellR Free E w

theorem exec_well {R : (Bool → File.Slot) → τ → Prop} (E : Env) (F : File.Host τ) (hR : Respects F R) (v : Short) (w : World Console (State τ)) (h : WellR R E w) :
    WellR R E (exec E F v w) := by
  unfold exec
  dsimp only
  cases hs : w.rest.stop with
  | some r =>
    refine ⟨h.size, h.inv, ?_⟩
    intro u hu
    exact h.stop u (by rw [hs]; exact hu)
  | none =>
    have hf := execute_fine (cfg := E.cfg) (host_sound F hR w.dev) (E.locals w.rest.runs.length) E.fuel w.vm w.rest.data v
      (by rw [h.size]; decide) (by rw [h.size]; exact h.inv)
    rw [h.size] at hf
    dsimp only
    cases hx : execute E.cfg (host F w.dev) none (E.locals w.rest.runs.length) E.fuel w.vm w.rest.data v with
    | halted vm d => rw [hx] at hf; exact ⟨hf.1, hf.2, fun u e => by cases e⟩
    | undefined u =>
      rw [hx] at hf
      refine ⟨h.size, h.inv, ?_⟩
      intro u' e
      cases e
      exact hf trivial
    | running c => rw [hx] at hf; exact ⟨hf.1, hf.2, fun u e => by cases e⟩

/-- `exec` neither sees nor changes the argument list, and notes down what is run. -/
theorem exec_guestOnly (E : Env) (F : File.Host τ) : GuestOnly (exec E F) where
  argc v w := by
    unfold exec
    dsimp only
    split
    · rfl
    · split <;> rfl
  argv v w := by
    unfold exec
    dsimp only
    split
    · rfl
    · split <;> rfl
  blind v w n l := by
    have hh : host F ({ w.dev with argc := n, argv := l } : Console) = host F w.dev := by
      unfold host
      congr 1
    unfold exec
    dsimp only
    rw [hh]
    split
    · rfl
    · split <;> rfl

theorem exec_logging (E : Env) (F : File.Host τ) : Boot.Spec.Logging (fun s : State τ => s.runs) (exec E F) := by
  intro v w
  unfold exec
  dsimp only
  split
  · rfl
  · split <;> rfl

theorem sendData_well {R : (Bool → File.Slot) → τ → Prop} (E : Env) (F : File.Host τ) (hR : Respects F R) (t v : Byte) (w : World Console (State τ)) (h : WellR R E w) :
    WellR R E (sendData (exec E F) t v w) := exec_well E F hR _ _ ⟨h.size, h.inv, h.stop⟩

theorem sendArg_well {R : (Bool → File.Slot) → τ → Prop} (E : Env) (F : File.Host τ) (hR : Respects F R) (a : List Byte) (w : World Console (State τ)) (h : WellR R E w) :
    WellR R E (sendArg (exec E F) a w) := by
  have fin : ∀ w : World Console (State τ), WellR R E w → WellR R E (sendArg.finish (exec E F) w) := by
    intro w h
    unfold sendArg.finish
    dsimp only
    split
    · have := sendData_well E F hR CONSOLE_END 0x0a w h
      exact ⟨this.size, this.inv, this.stop⟩
    · have := sendData_well E F hR CONSOLE_ARG_SEP 0x0a w h
      exact ⟨this.size, this.inv, this.stop⟩
  induction a generalizing w with
  | nil => exact fin w h
  | cons c cs ih =>
    unfold sendArg
    split
    · exact ih _ (sendData_well E F hR _ _ w h)
    · exact fin w h

theorem sendArg_rest (E : Env) (F : File.Host τ) (a : List Byte) (w : World Console (State τ)) :
    (sendArg (exec E F) a w).dev.argc = w.dev.argc - 1 ∧ (sendArg (exec E F) a w).dev.argv = w.dev.argv.tail := by
  have hg := exec_guestOnly E F
  have fin : ∀ w : World Console (State τ), (sendArg.finish (exec E F) w).dev.argc = w.dev.argc - 1 ∧
      (sendArg.finish (exec E F) w).dev.argv = w.dev.argv.tail := by
    intro w
    unfold sendArg.finish
    dsimp only
    split <;> simp only [(sendData_argc hg _ _ w).1, (sendData_argc hg _ _ w).2, and_self]
  induction a generalizing w with
  | nil => exact fin w
  | cons c cs ih =>
    unfold sendArg
    split
    · have := ih (sendData (exec E F) CONSOLE_ARG c w)
      rw [(sendData_argc hg _ _ w).1, (sendData_argc hg _ _ w).2] at this
      exact this
    · exact fin w

theorem sendArgs_well {R : (Bool → File.Slot) → τ → Prop} (E : Env) (F : File.Host τ) (hR : Respects F R) (n : Nat) (w : World Console (State τ)) (h : WellR R E w)
    (hn : w.dev.argc = w.dev.argv.length) : ∃ w', sendArgs (exec E F) n w = .ok w' ∧ WellR R E w' := by
  induction n generalizing w with
  | zero => exact ⟨w, rfl, h⟩
  | succ n ih =>
    unfold sendArgs
    split
    · cases hv : w.dev.argv with
      | nil => rw [hv] at hn; simp at hn; omega
      | cons a l =>
        have h2 := sendArg_rest E F a w
        refine ih _ (sendArg_well E F hR a w h) ?_
        rw [h2.1, h2.2, hn, hv]
        simp
    · exact ⟨w, rfl, h⟩

theorem inputLoop_well {R : (Bool → File.Slot) → τ → Prop} (E : Env) (F : File.Host τ) (hR : Respects F R) (input : List Byte) (w : World Console (State τ)) (h : WellR R E w) :
    WellR R E (inputLoop (exec E F) input w) := by
  induction input generalizing w with
  | nil =>
    unfold inputLoop
    split
    · exact sendData_well E F hR _ _ w h
    · exact h
  | cons c cs ih =>
    unfold inputLoop
    split
    · exact ih _ (sendData_well E F hR _ _ w h)
    · exact h

theorem start_well {R : (Bool → File.Slot) → τ → Prop} (E : Env) (fs : τ) (h0 : R (fun _ => .closed) fs) (clock : Datetime.Clock) (hc : Sane clock) (vm : VM) (con : Console)
    (hm : vm.memSize = 16 * 65536) : WellR R E ⟨vm, con, start fs clock⟩ where
  size := hm
  inv := ⟨by decide, ⟨fun _ => .closed, fun _ => ⟨rfl, .none rfl, ⟨Nat.le_refl _, Nat.zero_le _⟩, Nat.zero_lt_succ _⟩, h0⟩, hc⟩
  stop := fun u e => by cases e

theorem run_well {R : (Bool → File.Slot) → τ → Prop} (E : Env) (F : File.Host τ) (hR : Respects F R) (vm : VM) (fs : τ) (h0 : R (fun _ => .closed) fs)
    (clock : Datetime.Clock) (hc : Sane clock) (args : List (List Byte)) (stdin : List Byte) (rom : InFile) (n : Nat)
    (hload : ∃ vm0 vm1, VM.reset { vm with memSize := MEMORY_SIZE } RESET_ALL = .ok vm0 ∧ loadRom vm0 rom n = .ok vm1 ∧
      vm1.memSize = 16 * 65536) :
    ∃ code w, run E F vm fs clock args stdin rom n = .ok (code, w) ∧ WellR R E w := by
  obtain ⟨vm0, vm1, hr0, h1, h2⟩ := hload
  unfold run boot
  rw [hr0]
  simp only [bind, Except.bind, pure, Except.pure, h1]
  generalize hw1 : exec E F 0x100 { vm := vm1, dev := consoleInit args.length args ⟨0, [], 0, 0⟩, rest := start fs clock } = w1
  have hg := exec_guestOnly E F
  have hwell : WellR R E w1 := by
    rw [← hw1]
    exact exec_well E F hR _ _ (start_well E fs h0 clock hc vm1 _ h2)
  have hargs : w1.dev.argc = w1.dev.argv.length := by
    rw [← hw1, hg.argc, hg.argv]; rfl
  split
  · exact ⟨_, _, rfl, hwell⟩
  · obtain ⟨w2, e2, h2⟩ := sendArgs_well E F hR args.length w1 hwell hargs
    rw [e2]
    dsimp only
    split
    · exact ⟨_, _, rfl, h2⟩
    · exact ⟨_, _, rfl, inputLoop_well E F hR stdin w2 h2⟩

/-! ## C63 -/

theorem load_file (vm : VM) (rom : List Byte) (hl : rom.length ≤ 0xfff00) :
    ∃ vm0 vm1, VM.reset { vm with memSize := MEMORY_SIZE } RESET_ALL = .ok vm0 ∧
      loadRom vm0 { bytes := rom } 0 = .ok vm1 ∧ vm1.memSize = 16 * 65536 := by
  obtain ⟨vm0, vm1, h0, h1, hf⟩ := C48_cli_partial vm rom hl
  exact ⟨vm0, vm1, h0, h1, hf.size⟩

/-- **C63**, safety. Whatever the ROM (that fits into the memory), the arguments, the input, the file system, the clock, and
however long one watches: `buxn-cli` never runs into undefined behaviour, in the interpreter or in any of its devices;
except for the overflow of `MUL2` where the compiler does not define it (C01). -/
theorem C63_no_undefined_behaviour_partial (E : Env) (F : File.Host τ) (vm : VM) (fs : τ) (clock : Datetime.Clock)
    (hc : Sane clock) (args : List (List Byte)) (stdin rom : List Byte) (hl : rom.length ≤ 0xfff00) :
    ∃ code w, run E F vm fs clock args stdin { bytes := rom } 0 = .ok (code, w) ∧
      ∀ u, w.rest.stop = some (.fault u) → u = .signedOverflow ∧ E.cfg.wrapv = false := by
  obtain ⟨code, w, h1, h2⟩ := run_well E F (respects_free F) vm fs trivial clock hc args stdin { bytes := rom } 0 (load_file vm rom hl)
  exact ⟨code, w, h1, h2.stop⟩

/-- **C63**, safety of executables: the same for the payload of an executable. -/
theorem C63_embedded_no_undefined_behaviour_partial (E : Env) (F : File.Host τ) (vm : VM) (fs : τ) (clock : Datetime.Clock)
    (hc : Sane clock) (args : List (List Byte)) (stdin exe rom : List Byte) (hl : rom.length ≤ 0xfff00) (h0 : rom ≠ [])
    (wrap : Bool) :
    ∃ f code w, find wrap { bytes := withPayload exe rom } = .ok (rom.length, f) ∧
      run E F vm fs clock args stdin f rom.length = .ok (code, w) ∧
      ∀ u, w.rest.stop = some (.fault u) → u = .signedOverflow ∧ E.cfg.wrapv = false := by
  obtain ⟨vm0, vm1, f, a0, a1, a2, a3⟩ := C48_embedded_partial wrap vm exe rom hl h0
  obtain ⟨code, w, h1, h2⟩ := run_well E F (respects_free F) vm fs trivial clock hc args stdin f rom.length ⟨vm0, vm1, a0, a2, a3.size⟩
  exact ⟨f, code, w, a1, h1, h2.stop⟩

/-- **C63**, files. In every run of every ROM both file devices keep to the discipline of the file API, and at most one handle
of each is open at any time. -/
theorem C63_files_partial (E : Env) (F : File.Host τ) (vm : VM) (fs : τ) (clock : Datetime.Clock)
    (hc : Sane clock) (args : List (List Byte)) (stdin rom : List Byte) (hl : rom.length ≤ 0xfff00) :
    ∃ code w, run E F vm fs clock args stdin { bytes := rom } 0 = .ok (code, w) ∧
      Disciplined (w.rest.data.log false) ∧ Disciplined (w.rest.data.log true) := by
  obtain ⟨code, w, h1, h2⟩ := run_well E F (respects_free F) vm fs trivial clock hc args stdin { bytes := rom } 0 (load_file vm rom hl)
  obtain ⟨s, hs, -⟩ := h2.inv.files
  exact ⟨code, w, h1, (hs false).disciplined, (hs true).disciplined⟩

/-- What is seen of the program after a run of a vector. -/
def Shows (w w' : World Console (State τ)) : Buxn.VM.Spec.Outcome (Data τ) → Prop
  | .halted vm d => w'.rest.stop = none ∧ w'.vm = vm ∧ w'.rest.data = d ∧ w'.dev = w.dev
  | .undefined u => w'.rest.stop = some (.fault u)
  | .running s => w'.rest.stop = some .unfinished ∧ w'.rest.data = s.host ∧ w'.vm.memory = s.vm.memory ∧
      w'.vm.device = s.vm.device

/-- **C63**, meaning. Wherever the program is, a run of a vector other than 0 is the run of the instruction set from that
address, with the devices of `cli.c`; and a vector 0 does nothing. -/
theorem C63_vector_is_uxn (E : Env) (F : File.Host τ) (w : World Console (State τ)) (hw : Well E w) (h : w.rest.stop = none)
    (v : Short) :
    (v ≠ 0 → Shows w (exec E F v w) (Buxn.VM.Spec.run (Buxn.VM.Spec.cstep E.cfg (host F w.dev)) E.fuel
      { vm := w.vm, host := w.rest.data, pc := v.toNat })) ∧
    (exec E F 0 w = { w with rest := { w.rest with runs := w.rest.runs ++ [(0, w.vm)] } }) := by
  constructor
  · intro hv
    have hx := execute_is_uxn_sound (cfg := E.cfg) (host_sound F (respects_free F) w.dev) (E.locals w.rest.runs.length) E.fuel w.vm w.rest.data
      v hv (by rw [hw.size]; decide) (by rw [hw.size]; exact hw.inv)
    rw [← hx]
    unfold exec
    rw [h]
    dsimp only
    cases execute E.cfg (host F w.dev) none (E.locals w.rest.runs.length) E.fuel w.vm w.rest.data v with
    | halted vm d => exact ⟨rfl, rfl, rfl, rfl⟩
    | undefined u => exact rfl
    | running c => exact ⟨rfl, rfl, rfl, rfl⟩
  · have e : execute E.cfg (host F w.dev) none (E.locals w.rest.runs.length) E.fuel w.vm w.rest.data 0
        = .halted w.vm w.rest.data := by
      unfold execute
      rw [if_pos rfl]
    unfold exec
    rw [h]
    dsimp only
    rw [e, h]

/-- The states that the program gets into are those that `C63_vector_is_uxn` speaks of: before the first run, and after each
run of a vector. -/
theorem C63_reachable (E : Env) (F : File.Host τ) (fs : τ) (clock : Datetime.Clock) (hc : Sane clock) (vm : VM) (con : Console)
    (hm : vm.memSize = 16 * 65536) : Well E ⟨vm, con, start fs clock⟩ ∧
      ∀ (w : World Console (State τ)) (con' : Console) (v : Short), Well E w → Well E (exec E F v { w with dev := con' }) :=
  ⟨start_well E fs trivial clock hc vm con hm, fun _ _ v h => exec_well E F (respects_free F) v _ ⟨h.size, h.inv, h.stop⟩⟩

/-! ## Which device answers -/

/-- The address of port `p` of device `id`. -/
theorem port_addr (p : Fin 16) : (∀ id ∈ [0x00, 0x10, 0xa0, 0xb0, (0xc0 : Byte)],
    deviceId (id + BitVec.ofNat 8 p.val) = id ∧ devicePort (id + BitVec.ofNat 8 p.val) = p) := by
  revert p; decide

/-- **C63**, printing. A write to port 18 prints the byte on standard output, a write to port 19 on standard error, a write of
anything but 0 to port 0e prints the two stacks; each after everything that was printed before, and with no other effect. No
other port of these devices prints. -/
theorem C63_printing (F : File.Host τ) (con : Console) (vm : VM) (d : Data τ) :
    deo F con 0x18 vm d = .ok (vm, { d with out := d.out ++ [.stdout (vm.device 0x18)] }) ∧
    deo F con 0x19 vm d = .ok (vm, { d with out := d.out ++ [.stderr (vm.device 0x19)] }) ∧
    (vm.device 0x0e ≠ 0 → deo F con 0x0e vm d = .ok (vm, { d with out := d.out ++
      [.dump ((List.range vm.wsp.toNat).map fun i => vm.ws (BitVec.ofNat 8 i)) ((List.range vm.rsp.toNat).map fun i => vm.rs (BitVec.ofNat 8 i))] })) ∧
    (∀ a, a ≠ 0x18 → a ≠ 0x19 → a ≠ 0x0e ∨ vm.device 0x0e = 0 → ∀ vm' d', deo F con a vm d = .ok (vm', d') → d'.out = d.out) := by
  refine ⟨rfl, rfl, ?_, ?_⟩
  · intro h
    show (if vm.device 0x0e ≠ 0 then (callbacks (τ := τ)).debug (vm.device 0x0e) vm d else Except.ok (vm, d)) = _
    rw [if_pos h]
    show Except.ok (vm, if vm.device 0x0e = 0 then d else _) = _
    rw [if_neg h]
    rfl
  · intro a h18 h19 h0e vm' d' e
    unfold deo at e
    dsimp only at e
    split at e
    · unfold System.deo at e
      split at e
      · cases hx : System.expansion vm with
        | error u => rw [hx] at e; cases e
        | ok m => rw [hx] at e; cases e; rfl
      iterate 4 (split at e; · cases e; rfl)
      split at e
      · rename_i ha
        subst ha
        split at e
        · have hz : vm.device 0x0e = 0 := h0e.resolve_left (fun h => h rfl)
          rename_i hv
          exact absurd hz hv
        · cases e; rfl
      · cases e; rfl
    split at e
    · have : consoleDeo { vm := vm, dev := con, rest := () } a = none := by
        unfold consoleDeo
        rw [if_neg h18, if_neg h19]
      rw [this] at e
      cases e; rfl
    split at e
    · unfold fileDeo at e
      cases hx : File.deo F vm.memSize (ports vm (deviceId a)) (devicePort a)
        { dev := d.file false, mem := vm.memory, host := d.fs, log := d.log false } with
      | error u => rw [hx] at e; cases e
      | ok w => rw [hx] at e; cases e; rfl
    split at e
    · unfold fileDeo at e
      cases hx : File.deo F vm.memSize (ports vm (deviceId a)) (devicePort a)
        { dev := d.file true, mem := vm.memory, host := d.fs, log := d.log true } with
      | error u => rw [hx] at e; cases e
      | ok w => rw [hx] at e; cases e; rfl
    · cases e; rfl

/-- **C63**, file devices. Ports a0 to af belong to the first file device and b0 to bf to the second one: a write to one of
them is what C17–C19 say of a file device with these sixteen ports, and leaves the other file device, its files and what it
has done so far alone. -/
theorem C63_file_ports (F : File.Host τ) (con : Console) (vm : VM) (d : Data τ) (second : Bool) (p : Fin 16) :
    let base : Byte := if second then 0xb0 else 0xa0
    let page : Fin 16 → Byte := fun q => vm.device (base + BitVec.ofNat 8 q.val)
    (dei con (base + BitVec.ofNat 8 p.val) vm d = .ok (File.dei (d.file second) page p, vm, d)) ∧
    (∀ w, File.deo F vm.memSize page p { dev := d.file second, mem := vm.memory, host := d.fs, log := d.log second } = .ok w →
      ∃ vm' d', deo F con (base + BitVec.ofNat 8 p.val) vm d = .ok (vm', d') ∧
        vm'.memory = w.mem ∧ vm'.device = vm.device ∧ d'.fs = w.host ∧ d'.file second = w.dev ∧ d'.log second = w.log ∧
        d'.file (!second) = d.file (!second) ∧ d'.log (!second) = d.log (!second) ∧ d'.clock = d.clock) := by
  intro base page
  have ha := port_addr p
  cases second
  · have h : base = 0xa0 := rfl
    obtain ⟨h1, h2⟩ := ha 0xa0 (by decide)
    rw [h]
    constructor
    · unfold dei
      rw [h1, h2, if_neg (by decide), if_neg (by decide), if_neg (by decide), if_pos rfl]
      rfl
    · intro w hw
      refine ⟨{ vm with memory := w.mem }, { d with file := upd d.file false w.dev, log := upd d.log false w.log, fs := w.host }, ?_,
        rfl, rfl, rfl, rfl, rfl, rfl, rfl, rfl⟩
      unfold deo
      rw [h1, if_neg (by decide), if_neg (by decide), if_pos rfl]
      unfold fileDeo
      rw [h2, show File.deo F vm.memSize (ports vm 0xa0) p _ = _ from hw]
      rfl
  · have h : base = 0xb0 := rfl
    obtain ⟨h1, h2⟩ := ha 0xb0 (by decide)
    rw [h]
    constructor
    · unfold dei
      rw [h1, h2, if_neg (by decide), if_neg (by decide), if_neg (by decide), if_neg (by decide), if_pos rfl]
      rfl
    · intro w hw
      refine ⟨{ vm with memory := w.mem }, { d with file := upd d.file true w.dev, log := upd d.log true w.log, fs := w.host }, ?_,
        rfl, rfl, rfl, rfl, rfl, rfl, rfl, rfl⟩
      unfold deo
      rw [h1, if_neg (by decide), if_neg (by decide), if_neg (by decide), if_pos rfl]
      unfold fileDeo
      rw [h2, show File.deo F vm.memSize (ports vm 0xb0) p _ = _ from hw]
      rfl

/-- **C63**, clock and the rest. Every read of ports c0 to cf is a new reading of the clock; a device that the program does
not have (2 to 9 and d to f) is plain memory: reading gives what was written, and nothing else happens. -/
theorem C63_other_ports (F : File.Host τ) (con : Console) (vm : VM) (d : Data τ) :
    (∀ p : Fin 16, dei con (0xc0 + BitVec.ofNat 8 p.val) vm d =
      (Datetime.dei (d.clock.reading d.clock.calls) vm (0xc0 + BitVec.ofNat 8 p.val)).map fun v =>
        (v, vm, { d with clock := ⟨d.clock.reading, d.clock.calls + 1⟩ })) ∧
    (∀ a : Byte, (0x20 ≤ a ∧ a ≤ 0x9f) ∨ 0xd0 ≤ a → dei con a vm d = .ok (vm.device a, vm, d) ∧ deo F con a vm d = .ok (vm, d)) := by
  constructor
  · intro p
    obtain ⟨h1, -⟩ := port_addr p 0xc0 (by decide)
    unfold dei
    rw [h1, if_neg (by decide), if_neg (by decide), if_pos rfl]
  · intro a ha
    have : ∀ a : Byte, (0x20 ≤ a ∧ a ≤ 0x9f) ∨ 0xd0 ≤ a →
      deviceId a ≠ 0x00 ∧ deviceId a ≠ 0x10 ∧ deviceId a ≠ 0xc0 ∧ deviceId a ≠ 0xa0 ∧ deviceId a ≠ 0xb0 := by decide
    obtain ⟨h1, h2, h3, h4, h5⟩ := this a ha
    unfold dei deo
    dsimp only
    rw [if_neg h1, if_neg h2, if_neg h3, if_neg h4, if_neg h5, if_neg h1, if_neg h2, if_neg h4, if_neg h5]
    exact ⟨rfl, rfl⟩

/-- A file system without files. -/
def noFiles : File.Host Unit where
  stat _ s := (⟨.invalid, 0⟩, s)
  fopen _ _ s := (none, s)
  fclose _ s := s
  opendir _ s := (none, s)
  closedir _ s := s
  fread _ _ s := ([], s)
  fwrite _ _ s := (0, s)
  readdir _ s := (none, s)
  delete _ s := (false, s)

/-- A clock that does not work. -/
def noClock : Datetime.Clock := ⟨fun _ => none, 0⟩

theorem noClock_sane : Sane noClock := fun _ _ h => by cases h

/-- What is left of a run when the machine itself is not looked at. -/
def summary (r : Res (Int × World Console (State Unit))) : Option (Int × List Out × Option Stop × List File.Call) :=
  match r with
  | .ok (code, w) => some (code, w.rest.data.out, w.rest.stop, w.rest.data.log false)
  | .error _ => none

/-- The program `LIT2 'H' 18 DEO  LIT2 85 0f DEO  BRK` prints a letter and exits with status 5. -/
def hello : List Byte := [0xa0, 0x48, 0x18, 0x17, 0xa0, 0x85, 0x0f, 0x17, 0x00]
/-- The program `LIT2 01 0e DEO  LIT2 00 a5 DEO  BRK` prints the stacks and asks for the status of the file with the name at
address 0 (which is no name). -/
def dumper : List Byte := [0x80, 0x2a, 0xa0, 0x01, 0x0e, 0x17, 0xa0, 0x00, 0xa5, 0x17, 0x00]
/-- An endless loop: `LIT2 01 00 JMP2`. -/
def spin : List Byte := [0xa0, 0x01, 0x00, 0x2c]

/-- An empty machine. -/
def blank : VM := ⟨0, 0, 0, fun _ => 0, fun _ => 0, fun _ => 0, fun _ => 0⟩

example : summary (run ⟨⟨true, true⟩, fun _ => (0, 0), 10⟩ noFiles blank () noClock [] [] { bytes := hello } 0)
    = some (5, [.stdout 0x48], none, []) := by decide +kernel
example : summary (run ⟨⟨true, true⟩, fun _ => (0, 0), 10⟩ noFiles blank () noClock [] [] { bytes := dumper } 0)
    = some (0, [.dump [0x2a] []], none, []) := by decide +kernel
example : summary (run ⟨⟨true, true⟩, fun _ => (0, 0), 10⟩ noFiles blank () noClock [] [] { bytes := spin } 0)
    = some (0, [], some .unfinished, []) := by decide +kernel

end Buxn.Cli
