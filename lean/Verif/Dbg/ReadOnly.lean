import Verif.Dbg.Events
/-! A debugger that only looks does not change the program; what the write commands change (C27). -/
namespace Buxn.Dbg
open Buxn.VM Buxn.VM.Spec

variable {σ ω : Type}

/-! ## Specification -/

/-- Reading the devices has no effect on anything. -/
def QuietReads (H : Host σ) : Prop := ∀ a vm h, ∃ v, H.dei a vm h = .ok (v, vm, h)

/-- The commands that only look (`look` says whether device reads are among them), or deal with breakpoints. -/
def OnlyLooks (look : Prop) : Query → Prop
  | .devWrite .. => False
  | .memWrite .. => False
  | .devRead .. => look
  | _ => True

/-- All commands of a pause only look, whatever the answers are, and the other end is in a state with `Inv` in the end. -/
inductive ReadOnly (look : Prop) (Inv : ω → Prop) : Script ω → Prop
  | go (g : Go) (w : ω) : Inv w → ReadOnly look Inv (.go g w)
  | ask (q : Query) (k : Reply → Script ω) : OnlyLooks look q → (∀ r, ReadOnly look Inv (k r)) → ReadOnly look Inv (.ask q k)

/-- The other end only looks, now (in states with `Inv`) and ever after. -/
structure Looking (W : Wire ω) (look : Prop) (Inv : ω → Prop) : Prop where
  commands : ∀ w, Inv w → ReadOnly look Inv (W.commands w)
  beginExec : ∀ pc w, Inv w → Inv (W.beginExec pc w)
  beginBreak : ∀ id w, Inv w → Inv (W.beginBreak id w)
  endBreak : ∀ w, Inv w → Inv (W.endBreak w)
  endExec : ∀ w, Inv w → Inv (W.endExec w)

/-! ## Proofs -/

theorem devRead_quiet {H : Host σ} (hq : QuietReads H) (a : Byte) (left i : Nat) (vm : VM) (h : σ) :
    ∃ vs, devRead H a i left vm h = .ok (vs, vm, h) := by
  induction left generalizing i with
  | zero => exact ⟨[], rfl⟩
  | succ left ih =>
    obtain ⟨v, hv⟩ := hq (a + BitVec.ofNat 8 i) vm h
    obtain ⟨vs, hvs⟩ := ih (i + 1)
    exact ⟨v :: vs, by simp only [devRead, bind, Except.bind, pure, Except.pure, hv, hvs]⟩

theorem memRead_ok (vm : VM) (hm : 65536 ≤ vm.memSize) (a : Short) (left i : Nat) :
    memRead vm a i left = .ok ((List.range' i left).map fun j => vm.memory ((a.toNat + j) % 65536)) := by
  induction left generalizing i with
  | zero => rfl
  | succ left ih =>
    have ha : (a + BitVec.ofNat 16 i).toNat = (a.toNat + i) % 65536 := by simp
    have := Nat.mod_lt (a.toNat + i) (show 0 < 65536 by decide)
    simp only [memRead, bind, Except.bind, pure, Except.pure, ih, List.range'_succ, List.map_cons, ha, VM.rd]
    rw [if_pos (by omega)]

theorem brkpAt_ok (d : Dbg) {i : Nat} (h : i < 255) : brkpAt d i = .ok (d.brkps i) := if_pos h

theorem ne_none_lt {id : Byte} (h : id ≠ NONE) : id.toNat < 255 := by
  have h1 := id.isLt
  have : id.toNat ≠ 255 := fun e => h (BitVec.eq_of_toNat_eq e)
  omega

theorem answer_quiet {H : Host σ} {look : Prop} (hl : look → QuietReads H) {pc : Short} {q : Query} (hq : OnlyLooks look q) {vm : VM}
    (hm : 65536 ≤ vm.memSize) (h : σ) (d : Dbg) : ∃ r, answer H pc q vm h d = .ok (r, vm, h, afterQuery d q) := by
  cases q with
  | infoPc => exact ⟨_, rfl⟩
  | infoWst => exact ⟨_, rfl⟩
  | infoRst => exact ⟨_, rfl⟩
  | infoNbrkps => exact ⟨_, rfl⟩
  | brkpSet id b => exact ⟨_, rfl⟩
  | brkpGet id =>
    simp only [answer, bind, Except.bind, pure, Except.pure]
    split
    · rw [brkpAt_ok d (ne_none_lt ‹_›)]; exact ⟨_, rfl⟩
    · exact ⟨_, rfl⟩
  | devRead a n =>
    obtain ⟨vs, hvs⟩ := devRead_quiet (hl hq) a n.toNat 0 vm h
    simp only [answer, bind, Except.bind, pure, Except.pure, hvs]
    exact ⟨_, rfl⟩
  | devWrite a n vs => exact hq.elim
  | memRead a n =>
    simp only [answer, bind, Except.bind, pure, Except.pure, memRead_ok vm hm]
    exact ⟨_, rfl⟩
  | memWrite a n vs => exact hq.elim
  | nop t i => exact ⟨_, rfl⟩

theorem commandLoop_quiet {H : Host σ} {look : Prop} {Inv : ω → Prop} (hl : look → QuietReads H) {pc : Short} {sc : Script ω}
    (hs : ReadOnly look Inv sc) {vm : VM} (hm : 65536 ≤ vm.memSize) (h : σ) (d : Dbg) (log : List Ev) :
    ∃ d', commandLoop H pc sc vm h d log = .ok (vm, h, d') ∧ Inv d'.wire := by
  induction hs generalizing d log with
  | go g w hw => exact ⟨_, rfl, hw⟩
  | ask q k hq _ ih =>
    obtain ⟨r, hr⟩ := answer_quiet hl hq hm (pc := pc) h d
    simp only [commandLoop, hr]
    exact ih r _ _

theorem scan_ok (d : Dbg) (p : Brkp → Bool) (left i : Nat) (h : i + left ≤ 255) : ∃ id, scan d p i left = .ok id := by
  induction left generalizing i with
  | zero => exact ⟨_, rfl⟩
  | succ left ih =>
    simp only [scan, bind, Except.bind, brkpAt_ok d (show i < 255 by omega)]
    split
    · exact ⟨_, rfl⟩
    · exact ih (i + 1) (by omega)

theorem hitBrkp_ok (d : Dbg) (js : Bool) (pc : Short) (vm : VM) (hm : 65536 ≤ vm.memSize) : ∃ id, hitBrkp d js pc vm = .ok id := by
  have hp := pc.isLt
  have hn := d.nbrkps.isLt
  unfold hitBrkp
  split
  · split
    · simp only [bind, Except.bind, pure, Except.pure, VM.rd, if_pos (show pc.toNat < vm.memSize by omega)]
      exact scan_ok _ _ _ _ (by omega)
    · simp only [bind, Except.bind, pure, Except.pure]
      exact scan_ok _ _ _ _ (by omega)
  · exact ⟨_, rfl⟩

theorem shouldPause_ok (d : Dbg) (hit : Byte) (vm : VM) : ∃ b, shouldPause d hit vm = .ok b := by
  unfold shouldPause
  simp only [bind, Except.bind, pure, Except.pure]
  by_cases h : hit ≠ NONE
  · rw [if_pos h, brkpAt_ok d (ne_none_lt h)]; exact ⟨_, rfl⟩
  · rw [if_neg h]; exact ⟨_, rfl⟩

theorem hook_looking {H : Host σ} {W : Wire ω} {look : Prop} {Inv : ω → Prop} (hl : look → QuietReads H) (hw : Looking W look Inv)
    (pc : Short) (vm : VM) (hm : 65536 ≤ vm.memSize) (h : σ) (d : D ω) (hi : Inv d.wire) :
    ∃ d', hook H W pc vm (h, d) = .ok (vm, (h, d')) ∧ Inv d'.wire := by
  unfold hook
  have hi1 : Inv (startExec W pc d).2.wire := by
    unfold startExec
    split
    · exact hi
    · exact hw.beginExec _ _ hi
  dsimp only
  generalize (startExec W pc d).1 = js
  generalize (startExec W pc d).2 = d at hi1
  obtain ⟨hit, hh⟩ := hitBrkp_ok d.dbg js pc vm hm
  obtain ⟨p, hp⟩ := shouldPause_ok d.dbg hit vm
  have hbreak : ∃ d', breakHere H W pc hit p vm h d = .ok (vm, h, d') ∧ Inv d'.wire := by
    unfold breakHere
    split
    · simp only [bind, Except.bind, pure, Except.pure]
      by_cases hp : p = true
      · rw [if_pos hp]
        obtain ⟨d', e, hi2⟩ := commandLoop_quiet hl (hw.commands _ (hw.beginBreak hit d.wire hi1)) hm (pc := pc) h d.dbg
          (d.log ++ [.beginBreak hit])
        rw [e]; exact ⟨_, rfl, hw.endBreak _ hi2⟩
      · rw [if_neg hp]; exact ⟨_, rfl, hw.endBreak _ (hw.beginBreak _ _ hi1)⟩
    · exact ⟨_, rfl, hi1⟩
  obtain ⟨d', hb, hi2⟩ := hbreak
  have hpc := pc.isLt
  simp only [bind, Except.bind, pure, Except.pure, hh, hp, hb, finishExec, VM.rd, if_pos (show pc.toNat < vm.memSize by omega)]
  by_cases ho : vm.memory pc.toNat = 0
  · rw [if_pos ho]; exact ⟨_, rfl, hw.endExec _ hi2⟩
  · rw [if_neg ho]; exact ⟨_, rfl, hi2⟩

/-- The hook's effect on the debugger's own state. -/
def hookNote (H : Host σ) (W : Wire ω) (s : Sys σ) (d : D ω) : D ω :=
  match hook H W (BitVec.ofNat 16 s.pc) s.vm (s.host, d) with
  | .ok x => x.2.2
  | .error _ => d

theorem hook_observer {H : Host σ} {W : Wire ω} {look : Prop} {Inv : ω → Prop} (hl : look → QuietReads H) (hw : Looking W look Inv)
    (pc : Short) (vm : VM) (hm : 65536 ≤ vm.memSize) (x : σ × D ω) (hi : Inv x.2.wire) :
    hook H W pc vm x = observer (hookNote H W) pc vm x := by
  obtain ⟨h, d⟩ := x
  obtain ⟨d', e, _⟩ := hook_looking hl hw pc vm hm h d hi
  simp only [observer, hookNote]
  rw [BitVec.ofNat_toNat, BitVec.setWidth_eq, e]

theorem runLoop_looking {cfg : Cfg} {H : Host σ} (hk : KeepsMemSize H) {W : Wire ω} {look : Prop} {Inv : ω → Prop}
    (hl : look → QuietReads H) (hw : Looking W look Inv) (n : Nat) (c : Cpu (σ × D ω)) (hm : 65536 ≤ c.vm.memSize)
    (hi : Inv c.host.2.wire) :
    runLoop cfg (withNotes (D ω) H) (some (hook H W)) n c = runLoop cfg (withNotes (D ω) H) (some (observer (hookNote H W))) n c := by
  induction n generalizing c with
  | zero => rfl
  | succ n ih =>
    have hr : round cfg (withNotes (D ω) H) (some (hook H W)) c = round cfg (withNotes (D ω) H) (some (observer (hookNote H W))) c := by
      rw [round_hook, round_hook, hook_observer hl hw c.pc c.sys.vm hm c.host hi]
    unfold runLoop
    rw [← hr]
    cases e : round cfg (withNotes (D ω) H) (some (hook H W)) c with
    | error u => rfl
    | ok x =>
      obtain ⟨b, c'⟩ := x
      cases b with
      | false => rfl
      | true =>
        rw [round_hook] at e
        obtain ⟨d', ef, hi'⟩ := hook_looking hl hw c.pc c.sys.vm hm c.host.1 c.host.2 hi
        have ef : hook H W c.pc c.sys.vm c.host = _ := ef
        rw [ef] at e
        have hm' : 65536 ≤ ({ c with vm := c.sys.vm, host := (c.host.1, d') } : Cpu (σ × D ω)).vm.memSize := hm
        refine ih c' ?_ ?_
        · rw [step_memSize (keepsMemSize_notes hk) hm' e]; exact hm'
        · have := step_keeps_notes hm' e
          rw [this]; exact hi'

theorem run_notes {τ : Type} (cfg : Cfg) (H : Host σ) (t : τ) (n : Nat) (s : Sys σ) :
    run (cstep cfg (withNotes τ H)) n (addN t s) = (run (cstep cfg H) n s).addNotes t := by
  induction n generalizing s with
  | zero => rfl
  | succ n ih =>
    unfold run
    rw [cstep_notes]
    cases cstep cfg H s with
    | error u => rfl
    | ok x =>
      cases x with
      | none => rfl
      | some s' => exact ih s'

/-- **C27**, first half. A debugger that from now on only looks (registers, stacks, breakpoints, memory, and devices if
reading them has no effect), resumes and steps, leaves the outcome of an execution exactly what it is without a debugger:
same final memory, stacks, devices and host state, for every number of instructions. -/
theorem C27_looking_changes_nothing (cfg : Cfg) (H : Host σ) (hk : KeepsMemSize H) (W : Wire ω) {look : Prop} {Inv : ω → Prop}
    (hl : look → QuietReads H) (hw : Looking W look Inv) (k0 k1 : Byte × Byte) (n : Nat) (vm : VM)
    (hm : 65536 ≤ vm.memSize) (h : σ) (d : D ω) (hi : Inv d.wire) (pc : Short) (hpc : pc ≠ 0) :
    ∃ d', (exec cfg H W k0 n vm h d pc).view = ((execute cfg H none k1 n vm h pc).view).addNotes d' := by
  unfold exec
  split
  · refine ⟨_, Eq.trans ?_ (C07_hook_transparent cfg H hk (hookNote H W) k0 k1 n vm hm h d pc hpc)⟩
    simp only [execute, if_neg hpc]
    rw [runLoop_looking hk hl hw n _ hm hi]
  · refine ⟨d, ?_⟩
    rw [C01_execute_is_uxn_iso cfg H hk k1 n vm hm h pc hpc,
      C01_execute_is_uxn_iso cfg (withNotes (D ω) H) (keepsMemSize_notes hk) k0 n vm hm (h, d) pc hpc]
    exact run_notes cfg H d n { vm := vm, host := h, pc := pc.toNat }

/-- **C27**: the registers and stacks shown are those of the program: its program counter, and the pointer and content of
the stack asked for; showing them changes nothing. -/
theorem C27_info (H : Host σ) (pc : Short) (vm : VM) (h : σ) (d : Dbg) :
    answer H pc .infoPc vm h d = .ok (.pc pc, vm, h, d) ∧
    answer H pc .infoWst vm h d = .ok (.stack vm.wsp vm.ws, vm, h, d) ∧
    answer H pc .infoRst vm h d = .ok (.stack vm.rsp vm.rs, vm, h, d) ∧
    answer H pc .infoNbrkps vm h d = .ok (.nbrkps d.nbrkps, vm, h, d) := ⟨rfl, rfl, rfl, rfl⟩

/-- **C27**: memory reads return the addressed bytes, with addresses wrapping at 64 KiB. -/
theorem C27_mem_read (H : Host σ) (pc a n : Short) (vm : VM) (hm : 65536 ≤ vm.memSize) (h : σ) (d : Dbg) :
    answer H pc (.memRead a n) vm h d =
      .ok (.bytes ((List.range n.toNat).map fun j => vm.memory ((a.toNat + j) % 65536)), vm, h, d) := by
  simp only [answer, bind, Except.bind, pure, Except.pure, memRead_ok vm hm, List.range_eq_range']

theorem memWrite_ok (a : Short) (vs : Nat → Byte) (left i : Nat) (vm : VM) (hm : 65536 ≤ vm.memSize) (hn : i + left ≤ 65536) :
    ∃ vm', memWrite a vs i left vm = .ok vm' ∧
      (∀ j, i ≤ j → j < i + left → vm'.memory ((a.toNat + j) % 65536) = vs j) ∧
      (∀ x, (∀ j, i ≤ j → j < i + left → x ≠ (a.toNat + j) % 65536) → vm'.memory x = vm.memory x) ∧
      vm' = { vm with memory := vm'.memory } := by
  induction left generalizing i vm with
  | zero => exact ⟨vm, rfl, fun j h1 h2 => by omega, fun x _ => rfl, rfl⟩
  | succ left ih =>
    have ha : (a + BitVec.ofNat 16 i).toNat = (a.toNat + i) % 65536 := by simp
    have hlt := Nat.mod_lt (a.toNat + i) (show 0 < 65536 by decide)
    obtain ⟨vm', e, h1, h2, h3⟩ := ih (i + 1) { vm with memory := upd vm.memory ((a.toNat + i) % 65536) (vs i) } hm (by omega)
    refine ⟨vm', ?_, ?_, ?_, h3⟩
    · simp only [memWrite, bind, Except.bind, VM.wr, ha]
      rw [if_pos (by omega)]
      exact e
    · intro j h4 h5
      by_cases hj : j = i
      · subst hj
        rw [h2 _ (fun j' h6 h7 => by omega)]
        simp [upd]
      · exact h1 j (by omega) (by omega)
    · intro x hx
      rw [h2 x (fun j h4 h5 => hx j (by omega) (by omega))]
      have := hx i (by omega) (by omega)
      simp [upd, this]

/-- **C27**: a memory write stores the given bytes at the addressed places, with addresses wrapping at 64 KiB, and
changes nothing else. -/
theorem C27_mem_write (H : Host σ) (pc a n : Short) (vs : Nat → Byte) (vm : VM) (hm : 65536 ≤ vm.memSize) (h : σ) (d : Dbg) :
    ∃ m, answer H pc (.memWrite a n vs) vm h d = .ok (.done, { vm with memory := m }, h, d) ∧
      (∀ j < n.toNat, m ((a.toNat + j) % 65536) = vs j) ∧
      ∀ x, (∀ j < n.toNat, x ≠ (a.toNat + j) % 65536) → m x = vm.memory x := by
  have hn := n.isLt
  obtain ⟨vm', e, h1, h2, h3⟩ := memWrite_ok a vs n.toNat 0 vm hm (by omega)
  refine ⟨vm'.memory, ?_, fun j hj => h1 j (by omega) (by omega), fun x hx => h2 x fun j _ hj => hx j (by omega)⟩
  simp only [answer, bind, Except.bind, pure, Except.pure, e]
  rw [← h3]

/-- One device write of the guest's kind: the byte goes to the device page, then the device is told. -/
def deviceOutOne (H : Host σ) (p v : Byte) (vm : VM) (h : σ) : Res (VM × σ) :=
  H.deo p { vm with device := upd vm.device p v } h

theorem devWrite_fold (H : Host σ) (a : Byte) (vs : Nat → Byte) (left i : Nat) (vm : VM) (h : σ) :
    devWrite H a vs i left vm h =
      (List.range' i left).foldlM (fun x j => deviceOutOne H (BitVec.ofNat 8 (a.toNat + j)) (vs j) x.1 x.2) (vm, h) := by
  induction left generalizing i vm h with
  | zero => rfl
  | succ left ih =>
    have ha : a + BitVec.ofNat 8 i = BitVec.ofNat 8 (a.toNat + i) := by
      rw [BitVec.ofNat_add, BitVec.ofNat_toNat, BitVec.setWidth_eq]
    simp only [devWrite, bind, Except.bind, List.range'_succ, List.foldlM_cons, ha, deviceOutOne]
    cases H.deo (BitVec.ofNat 8 (a.toNat + i)) { vm with device := upd vm.device (BitVec.ofNat 8 (a.toNat + i)) (vs i) } h with
    | error u => rfl
    | ok x => exact ih _ _ _

/-- **C27**: a device write of `n` bytes at port `a` is the sequence of the `n` single device writes at the ports
`a`, `a+1`, ... (wrapping at 256), in this order, and no more. -/
theorem C27_dev_write (H : Host σ) (pc : Short) (a n : Byte) (vs : Nat → Byte) (vm : VM) (h : σ) (d : Dbg) :
    answer H pc (.devWrite a n vs) vm h d =
      ((List.range n.toNat).foldlM (fun x j => deviceOutOne H (BitVec.ofNat 8 (a.toNat + j)) (vs j) x.1 x.2) (vm, h)).map
        fun x => (.done, x.1, x.2, d) := by
  simp only [answer, bind, Except.bind, pure, Except.pure, devWrite_fold, List.range_eq_range']
  cases List.foldlM (m := Res) (fun (x : VM × σ) j => deviceOutOne H (BitVec.ofNat 8 (a.toNat + j)) (vs j) x.1 x.2) (vm, h) (List.range' 0 n.toNat) <;> rfl

/-- **C27**: if reading devices has no effect, a device read of `n` bytes returns what the devices answer at the ports
`a`, `a+1`, ... (wrapping at 256). -/
theorem C27_dev_read (H : Host σ) (val : Byte → VM → σ → Byte) (hq : ∀ a vm h, H.dei a vm h = .ok (val a vm h, vm, h))
    (pc : Short) (a n : Byte) (vm : VM) (h : σ) (d : Dbg) :
    answer H pc (.devRead a n) vm h d =
      .ok (.bytes ((List.range n.toNat).map fun j => val (BitVec.ofNat 8 (a.toNat + j)) vm h), vm, h, d) := by
  have key : ∀ left i, devRead H a i left vm h =
      .ok ((List.range' i left).map fun j => val (BitVec.ofNat 8 (a.toNat + j)) vm h, vm, h) := by
    intro left
    induction left with
    | zero => intro i; rfl
    | succ left ih =>
      intro i
      have ha : a + BitVec.ofNat 8 i = BitVec.ofNat 8 (a.toNat + i) := by
        rw [BitVec.ofNat_add, BitVec.ofNat_toNat, BitVec.setWidth_eq]
      simp only [devRead, bind, Except.bind, pure, Except.pure, hq, ih, List.range'_succ, List.map_cons, ha]
  simp only [answer, bind, Except.bind, pure, Except.pure, key, List.range_eq_range']

/-! ## A session -/

/-- A debugger that at each pause reads the working stack and some memory, sets a breakpoint at 0x102 and steps on. -/
def curious : Wire Unit where
  beginExec _ w := w
  beginBreak _ w := w
  commands w := .ask .infoWst fun _ => .ask (.memRead 0xffff 2) fun _ => .ask (.brkpSet 0 ⟨0x102, 0x06⟩) fun _ => .go .stepIn w
  endBreak w := w
  endExec w := w

example : Looking curious False fun _ => True where
  commands _ _ := .ask _ _ trivial fun _ => .ask _ _ trivial fun _ => .ask _ _ trivial fun _ => .go _ _ trivial
  beginExec _ _ h := h
  beginBreak _ _ h := h
  endBreak _ h := h
  endExec _ h := h

/-- The session pauses at every instruction, four calls to the host program each, and one event at either end. -/
example : ∃ vm d, exec ⟨false, true⟩ plainHost curious (0, 0) 9 (booted [0x80, 3, 0x01]) () ⟨requestPause init, (), []⟩ 0x100 =
    .halted vm ((), d) ∧ d.log.length = 3 * 6 + 2 ∧ d.dbg.nbrkps = 1 ∧ vm.ws 0 = 4 := ⟨_, _, rfl, rfl, rfl, rfl⟩

end Buxn.Dbg
