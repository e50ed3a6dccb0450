import Verif.Tools.Chain
import Verif.Asm.Whole
import Verif.Chess.Devices
import Verif.Chess.C54Cases
/-!
# C81, with the type checker: what a checked source does on the machine

`C81_source_to_run` leaves open what the type checker says. Here the checker is the one of `buxn-asm --chess` (C83), and what it has accepted is followed to the machine that
`buxn-cli` runs (C54, C63): the executable made of a ROM that has been checked starts with the routine at 0x100, which keeps its signature.
-/

namespace Buxn.Chain
open Buxn.VM Buxn.Input Buxn.Bembd Buxn.Bembd.Spec Buxn.Boot Buxn.Boot.Spec Buxn.Asm Buxn.Asm.Main Buxn.Asm.Spec

/-- A run that halts ends with an instruction that halts. -/
theorem halts_at {σ : Type} {cfg : Cfg} {H : Host σ} {n : Nat} {s : Buxn.VM.Spec.Sys σ} {vm : VM} {d : σ}
    (h : Buxn.VM.Spec.run (Buxn.VM.Spec.cstep cfg H) n s = .halted vm d) :
    ∃ l t, l < n ∧ Chess.after cfg H l s = some t ∧ Buxn.VM.Spec.step cfg H t = .ok none ∧ t.vm = vm := by
  induction n generalizing s with
  | zero => cases h
  | succ n ih =>
    unfold Buxn.VM.Spec.run at h
    have hc : ∀ r, Buxn.VM.Spec.cstep cfg H s = .ok r → Buxn.VM.Spec.step cfg H s = .ok r := by
      intro r e
      unfold Buxn.VM.Spec.cstep at e
      split at e
      · cases e
      · exact e
    split at h
    · cases h
    · rename_i e
      cases h
      exact ⟨0, s, by omega, rfl, hc _ e, rfl⟩
    · rename_i s' e
      obtain ⟨l, t, h1, h2, h3, h4⟩ := ih h
      refine ⟨l + 1, t, by omega, ?_, h3, h4⟩
      unfold Chess.after
      rw [hc _ e]
      exact h2

/-- The sizes of the stacks that a routine which takes nothing leaves on an empty machine. -/
def Leaves (P : Chess.Program) (a : Short) (vm : VM) : Prop :=
  vm.wsp = BitVec.ofNat 8 (Chess.total (Chess.sigAt P a).wstOut) ∧ vm.rsp = BitVec.ofNat 8 (Chess.total (Chess.sigAt P a).rstOut)

/-- **C81, checked sources.** `buxn-asm --chess` has exited with 0; `buxn-rom2exe` makes an executable of the ROM, and it is run. It starts on a machine `first` that has nothing
but the ROM in it. Whatever the checker's conditions allow (those of C54: the check was `Regular`, no stack was full, no routine sealed), each routine that the machine enters,
whenever it does, obeys its signature as long as the run neither changes its own code, nor fills a stack, nor writes to the stack pointers' ports; and in particular the vector at
0x100, when it ends, leaves the stacks that it has declared. -/
theorem C81_checked_run_partial (aw : Asm.Whole.World) (source romName : Str) (fuel n : Nat) (d d' : Disk) (hd : ∀ name c, d name = some c → ProperLines c)
    (hm : Asm.Whole.main aw ⟨source, some romName, true⟩ fuel n d = some (0, d')) (hrom : d' romName ≠ some [])
    (wrap : Bool) (E : Cli.Env) (F : File.Host τ) (vm : VM) (fs : τ) (clock : Datetime.Clock) (hclock : Cli.Spec.Sane clock)
    (tool dir exe runner : Str) (hdir : InDir tool dir) (hslash : dir ≠ []) (args : List Str) (stdin : List Byte)
    (hcli : d (dir ++ Gui.Start.text "buxn-cli") = some runner) (hplain : ∀ pre n, n < 2 ^ 32 → runner ≠ pre ++ trailer n)
    (hne : ∀ n, n = dir ++ Gui.Start.text "buxn-cli" → n ≠ romName ∧ n ≠ symName romName ∧ n ≠ dbgName romName ∧ n ≠ exe) (hexe : exe ≠ romName)
    (hin : ¬ Gui.Start.text "-runner=" <+: romName ∧ romName ≠ Gui.Start.text "--") (hwr : aw.canWrite exe = true) :
    ∃ s rom c d'' code w first more,
      assemble (cleared (aw.outside n) ⟨source, some romName, true⟩ d).streams fuel source = some (true, s) ∧
      Chess.check (fun a => loaded rom a.toNat) s.log.reverse n = some c ∧ c.success = true ∧
      rom2exeMain aw.canWrite [tool, romName, exe] d' = some (.ok (0, d'')) ∧
      Boot.main wrap (Cli.exec E F) vm (Cli.start fs clock) (opens d'') (exe :: args) stdin = .ok (.ran code w) ∧
      (∀ u, w.rest.stop = some (.fault u) → u = .signedOverflow ∧ E.cfg.wrapv = false) ∧
      w.rest.runs = (0x100, first) :: more ∧ Fresh rom first ∧
      ∀ r P, r = (Chess.readAll s.log.reverse).finish → P = r.program (fun a => loaded rom a.toNat) →
        c.wrapped = false → (∀ a, Chess.isRoutine P a = true → r.marked a = true) →
        ∀ (extra : List Chess.Run), (∀ c0 ∈ extra, Chess.Safe c0) → (∀ c0 ∈ extra, ∃ m, Chess.Accepts P c0 m) → Chess.Regular P (r.run :: extra) →
        ∀ con : Console,
          (∀ (a : Short) (x : Buxn.VM.Spec.Sys (Cli.Data τ)) (m : Nat), Chess.isRoutine P a = true → x.pc = a.toNat →
            (∀ l t, l < m → Chess.after E.cfg (Cli.host F con) l x = some t → Chess.Tame P (Chess.bottom P a x.vm) t ∧ Chess.SparesPointers t) →
            Chess.Obeys P E.cfg (Cli.host F con) a m x) ∧
          (Chess.isRoutine P 0x100 = true → (Chess.sigAt P 0x100).kind = .vector → (Chess.sigAt P 0x100).wstIn = [] → (Chess.sigAt P 0x100).rstIn = [] →
            (∀ l t, l < E.fuel → Chess.after E.cfg (Cli.host F con) l ⟨first, (Cli.start fs clock).data, 0x100⟩ = some t →
              Chess.Tame P (fun _ => 0) t ∧ Chess.SparesPointers t) →
            (Cli.exec E F 0x100 ⟨first, con, Cli.start fs clock⟩).rest.stop = none →
            Leaves P 0x100 (Cli.exec E F 0x100 ⟨first, con, Cli.start fs clock⟩).vm) := by
  obtain ⟨ok, s, rom, sym, has, h2, _, h3, _, h5⟩ := C83_run aw _ fuel n d hd 0 d' hm
  obtain ⟨⟨rfl, hpass⟩, _⟩ := h3.1 rfl
  obtain ⟨c, hc, hs, _, _⟩ := hpass rfl
  obtain ⟨k1, -, -, -, -, k6⟩ := h5 romName rfl
  have hr := k1 rfl
  have h0 : rom ≠ [] := by rintro rfl; exact hrom hr
  have himg : (fun a : Short => loaded rom a.toNat) = image s.log := funext h2.2.2
  have hlen : rom.length ≤ 0xff00 := h2.2.1
  obtain ⟨n1, n2, n3, n4⟩ := hne _ rfl
  have hcli' : d' (dir ++ Gui.Start.text "buxn-cli") = some runner := by rw [k6 _ n1 n2 n3, hcli]
  have hmake := C81_rom2exe aw.canWrite tool dir hdir [] romName exe (dir ++ Gui.Start.text "buxn-cli") runner rom false d' (by rw [List.getLastD_nil, if_pos rfl]) (fun _ => hslash) (fun _ => hin) hcli' hr hwr
    ⟨fun h => n4 h.symm, hexe⟩ h0 (by omega)
  have e1 : opens (d'.set exe (withPayload runner rom)) exe = some { bytes := withPayload runner rom } := by unfold opens Disk.set; rw [if_pos rfl]; rfl
  have e2 : opens (d'.set exe (withPayload runner rom)) romName = some { bytes := rom } := by unfold opens Disk.set; rw [if_neg (fun h => hexe h.symm), hr]; rfl
  have e3 : opens (d'.set exe (withPayload runner rom)) (dir ++ Gui.Start.text "buxn-cli") = some { bytes := runner } := by unfold opens Disk.set; rw [if_neg n4, hcli']; rfl
  have same := C48_executable wrap (Cli.exec E F) vm (Cli.start fs clock) _ exe (dir ++ Gui.Start.text "buxn-cli") romName runner rom args stdin e1 e2 e3 hplain h0 (by omega)
  obtain ⟨code, w, r1, r2⟩ := Cli.C63_no_undefined_behaviour_partial E F vm fs clock hclock args stdin rom (by omega)
  have r1 : boot (Cli.exec E F) vm (Cli.start fs clock) args stdin { bytes := rom } 0 = .ok (code, w) := r1
  have ran : Boot.main wrap (Cli.exec E F) vm (Cli.start fs clock) (opens (d'.set exe (withPayload runner rom))) (exe :: args) stdin = .ok (.ran code w) := by
    rw [same]
    obtain ⟨f', e4⟩ := C43_none wrap { bytes := runner } hplain
    unfold Boot.main
    simp only [e3, bind, Except.bind, e4]
    rw [if_pos trivial]
    unfold cliMain
    simp only [e2]
    rw [r1]; rfl
  obtain ⟨first, more, f1, f2⟩ := C48_start (fun s : Cli.State τ => s.runs) (Cli.exec E F) (Cli.exec_logging E F) vm (Cli.start fs clock) rfl args stdin rom (by omega) code w r1
  refine ⟨s, rom, c, _, code, w, first, more, has, by rw [himg]; exact hc, hs, hmake, ran, r2, f1, f2, ?_⟩
  rintro r P rfl rfl hw hseal extra hsafe hacc hR con
  have main : ∀ (a : Short) (x : Buxn.VM.Spec.Sys (Cli.Data τ)) (m : Nat), Chess.isRoutine ((Chess.readAll s.log.reverse).finish.program fun a => loaded rom a.toNat) a = true →
      x.pc = a.toNat → _ → Chess.Obeys _ E.cfg (Cli.host F con) a m x := fun a x m ha hpc ht =>
    Chess.C54_with_devices_partial (fun a => loaded rom a.toNat) s.log.reverse n c _ rfl (by rw [himg]; exact hc) hs hw hseal extra hsafe hacc hR (Chess.C54_cli_devices F con) ha hpc ht
  refine ⟨main, fun ha hv hi1 hi2 ht hstop => ?_⟩
  have hb : Chess.bottom ((Chess.readAll s.log.reverse).finish.program fun a => loaded rom a.toNat) 0x100 first = fun _ => 0 := by
    funext r
    unfold Chess.bottom
    rw [show (Chess.sigAt ((Chess.readAll s.log.reverse).finish.program fun a => loaded rom a.toNat) 0x100).load r = 0 by
      unfold Chess.Sig.load Chess.Sig.ins
      rw [hi1, hi2, hv]
      cases r <;> rfl]
    cases r
    · show first.wsp - 0 = 0
      rw [f2.empty.1]; rfl
    · show first.rsp - 0 = 0
      rw [f2.empty.2.1]; rfl
  have hob := main 0x100 ⟨first, (Cli.start fs clock).data, 0x100⟩ E.fuel ha rfl (by rw [hb]; exact ht)
  have hsh := (Cli.C63_vector_is_uxn E F ⟨first, con, Cli.start fs clock⟩ (Cli.C63_reachable E F fs clock hclock first con f2.size).1 rfl 0x100).1 (by decide)
  cases hrun : Buxn.VM.Spec.run (Buxn.VM.Spec.cstep E.cfg (Cli.host F con)) E.fuel ⟨first, (Cli.start fs clock).data, 0x100⟩ with
  | undefined u =>
    have hsh : Cli.Shows _ _ (Buxn.VM.Spec.run (Buxn.VM.Spec.cstep E.cfg (Cli.host F con)) E.fuel ⟨first, (Cli.start fs clock).data, 0x100⟩) := hsh
    rw [hrun] at hsh
    have : (Cli.exec E F 0x100 ⟨first, con, Cli.start fs clock⟩).rest.stop = some (.fault u) := hsh
    rw [hstop] at this; cases this
  | running t =>
    have hsh : Cli.Shows _ _ (Buxn.VM.Spec.run (Buxn.VM.Spec.cstep E.cfg (Cli.host F con)) E.fuel ⟨first, (Cli.start fs clock).data, 0x100⟩) := hsh
    rw [hrun] at hsh
    have : (Cli.exec E F 0x100 ⟨first, con, Cli.start fs clock⟩).rest.stop = some .unfinished := hsh.1
    rw [hstop] at this; cases this
  | halted vm' d1 =>
    have hsh : Cli.Shows _ _ (Buxn.VM.Spec.run (Buxn.VM.Spec.cstep E.cfg (Cli.host F con)) E.fuel ⟨first, (Cli.start fs clock).data, 0x100⟩) := hsh
    rw [hrun] at hsh
    have hvm : (Cli.exec E F 0x100 ⟨first, con, Cli.start fs clock⟩).vm = vm' := hsh.2.1
    rw [hvm]
    obtain ⟨l, t, g1, g2, g3, rfl⟩ := halts_at hrun
    have key : ∀ r, Buxn.VM.Spec.ptr r t.vm = BitVec.ofNat 8 (Chess.total ((Chess.sigAt ((Chess.readAll s.log.reverse).finish.program fun a => loaded rom a.toNat) 0x100).outs r)) := by
      intro r
      rcases hob with ⟨m, s', -, -, hk, -⟩ | hkept
      · rw [hv] at hk; cases hk
      · have := ((hkept l t g1 g2).halt g3).2 r
        rw [this]
        dsimp only
        rw [hb]
        simp
    exact ⟨key false, key true⟩

/-! ## An instance -/

namespace Sample.Checked

/-- Prints an asterisk. -/
def text : String := "@main ( -> ) #2a #18 DEO BRK"

def disk : Disk := fun n => if n = str "m" then some (str text) else if n = str "./buxn-cli" then some [1, 2, 3] else none

theorem accepted : (Asm.Whole.main Asm.Whole.Sample.world ⟨str "m", some (str "r"), true⟩ 60 60 disk).map (fun r => (r.1, r.2 (str "r"))) =
    some (0, some [0x80, 0x2a, 0x80, 0x18, 0x17]) := by decide +kernel

def events : List Asm.Event :=
  match assemble (cleared (Asm.Whole.Sample.world.outside 60) ⟨str "m", some (str "r"), true⟩ disk).streams 60 (str "m") with
  | some (_, s) => s.log.reverse
  | none => []

def reader : Chess.Reader := (Chess.readAll events).finish
def program : Chess.Program := reader.program fun a => loaded [0x80, 0x2a, 0x80, 0x18, 0x17] a.toNat

/-- The conditions on the check are met. -/
theorem conditions : (Chess.check (fun a => loaded [0x80, 0x2a, 0x80, 0x18, 0x17] a.toNat) events 60).map (fun c => (c.success, c.wrapped)) = some (true, false) ∧
    (∀ a, Chess.isRoutine program a = true → reader.marked a = true) ∧ Chess.Regular program [reader.run] ∧
    Chess.isRoutine program 0x100 = true ∧ (Chess.sigAt program 0x100).kind = .vector ∧ (Chess.sigAt program 0x100).wstIn = [] ∧ (Chess.sigAt program 0x100).rstIn = [] := by
  refine ⟨by decide +kernel, Chess.sealed_of (events := events) rfl (by decide +kernel), ?_, by decide +kernel, by decide +kernel, by decide +kernel, by decide +kernel⟩
  refine Chess.regular_of (n := 40) ?_ (by decide +kernel)
  intro c0 h0
  rw [List.mem_singleton.mp h0]
  exact Option.isNone_iff_eq_none.mp (by decide +kernel)

/-- A machine with nothing but the ROM in it. -/
def first : VM where
  memSize := 16 * 65536
  wsp := 0
  rsp := 0
  ws := fun _ => 0
  rs := fun _ => 0
  device := fun _ => 0
  memory := fun i => if 0x100 ≤ i then ([0x80, 0x2a, 0x80, 0x18, 0x17] : List Byte).getD (i - 0x100) 0 else 0

theorem first_fresh : Fresh [0x80, 0x2a, 0x80, 0x18, 0x17] first := by
  refine ⟨rfl, fun i h => ?_, fun i h => ?_, fun i h1 h2 => ?_, ⟨rfl, rfl, fun _ => rfl, fun _ => rfl⟩, fun _ => rfl⟩
  · show (if 0x100 ≤ 0x100 + i then _ else _) = _
    rw [if_pos (by omega), Nat.add_sub_cancel_left, List.getD_eq_getElem?_getD, List.getElem?_eq_getElem h]; rfl
  · exact if_neg (by omega)
  · show (if 0x100 ≤ i then _ else _) = _
    rw [if_pos (by omega), List.getD_eq_getElem?_getD, List.getElem?_eq_none (by simp at h1 ⊢; omega)]; rfl

def start : Buxn.VM.Spec.Sys (Cli.Data _root_.Unit) := ⟨first, (Cli.start () Cli.noClock).data, 0x100⟩

def con : Console := consoleInit 0 [] ⟨0, [], 0, 0⟩

/-- The instructions up to BRK. -/
theorem states : ∀ l t, Chess.after ⟨true, true⟩ (Cli.host Cli.noFiles con) l start = some t → l < 4 := by
  have h : (Chess.after ⟨true, true⟩ (Cli.host Cli.noFiles con) 4 start).isNone = true := by decide +kernel
  have mono : ∀ n s, (Chess.after ⟨true, true⟩ (Cli.host Cli.noFiles con) n s).isNone = true →
      (Chess.after ⟨true, true⟩ (Cli.host Cli.noFiles con) (n + 1) s).isNone = true := by
    intro n
    induction n with
    | zero => intro s h; cases h
    | succ n ih =>
      intro s h
      rw [Chess.after] at h ⊢
      split at h
      · exact ih _ h
      · rfl
  intro l t hl
  by_contra hn
  have : ∀ k, (Chess.after ⟨true, true⟩ (Cli.host Cli.noFiles con) (4 + k) start).isNone = true := by
    intro k
    induction k with
    | zero => exact h
    | succ k ih => exact mono _ _ ih
  have h2 := this (l - 4)
  rw [show 4 + (l - 4) = l by omega, hl] at h2
  cases h2

/-- And those on the run. -/
theorem run_tame : ∀ l t, Chess.after ⟨true, true⟩ (Cli.host Cli.noFiles con) l start = some t → Chess.Tame program (fun _ => 0) t ∧ Chess.SparesPointers t := by
  intro l t h
  refine ⟨Chess.tames_of 10 start (by decide +kernel) l t h, ?_⟩
  have hl := states l t h
  have key : ∀ l < 4, (match Chess.after ⟨true, true⟩ (Cli.host Cli.noFiles con) l start with
      | some t => decide ((t.vm.memory t.pc).toNat % 32 ≠ 0x17) || (decide ((t.vm.memory t.pc).getLsbD 5 = false) && decide (t.vm.ws (t.vm.wsp - 1) = 0x18) &&
          decide ((t.vm.memory t.pc).getLsbD 6 = false))
      | none => true) = true := by decide +kernel
  have := key l hl
  rw [h] at this
  dsimp only at this
  rintro p ⟨h1, h2⟩
  rw [Bool.or_eq_true, decide_eq_true_eq] at this
  rcases this with this | this
  · exact absurd h1 this
  · simp only [Bool.and_eq_true, decide_eq_true_eq] at this
    obtain ⟨⟨a1, a2⟩, a3⟩ := this
    rw [a3] at h2
    rcases h2 with rfl | ⟨h2, -⟩
    · show t.vm.ws (t.vm.wsp - 1) ≠ _ ∧ t.vm.ws (t.vm.wsp - 1) ≠ _
      rw [a2]
      decide
    · rw [a1] at h2; cases h2

/-- **C81/C54 (a limit of the code).** The checker does not know that two ports are the stack pointers: it accepts this program, whose vector says that it leaves nothing, and which
leaves five bytes on the stack. -/
theorem C54_pointer_port_violated :
    (Asm.Whole.main Asm.Whole.Sample.world ⟨str "m", some (str "r"), true⟩ 60 60
        (fun n => if n = str "m" then some (str "@main ( -> ) #05 #04 DEO BRK") else none)).map (fun r => (r.1, r.2 (str "r"))) =
      some (0, some [0x80, 0x05, 0x80, 0x04, 0x17]) ∧
    (match Buxn.VM.Spec.run (Buxn.VM.Spec.cstep ⟨true, true⟩ (Cli.host Cli.noFiles con)) 10
        ⟨{ first with memory := fun i => if 0x100 ≤ i then ([0x80, 0x05, 0x80, 0x04, 0x17] : List Byte).getD (i - 0x100) 0 else 0 }, (Cli.start () Cli.noClock).data, 0x100⟩ with
      | .halted vm _ => some vm.wsp
      | _ => none) = some 5 := by
  refine ⟨by decide +kernel, by decide +kernel⟩

end Sample.Checked

end Buxn.Chain
