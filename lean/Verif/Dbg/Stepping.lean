import Verif.Dbg.Events
/-! Stepping (C26). -/
namespace Buxn.Dbg
open Buxn.VM Buxn.VM.Spec

variable {σ ω : Type}

/-- When the program has to stop after it was let go with `g` while the return stack pointer was `r`. -/
def Due (g : Go) (r : Byte) (vm : VM) : Prop :=
  match g with
  | .resume => False
  | .stepIn => True
  | .stepOver => vm.rsp = r
  | .stepOut => r ≠ 0 ∧ vm.rsp.toNat < r.toNat

/-- The command `g` was given in a state with return stack pointer `r`, and no other since. -/
structure Standing' (g : Go) (r : Byte) (d : Dbg) : Prop where
  executing : d.executing = true
  standing : d.standing = match g with
    | .resume => .execute
    | .stepIn => .pause
    | .stepOver => .stepOver
    | .stepOut => if r = 0 then .execute else .stepOut
  rsp : g = .stepOver ∨ g = .stepOut ∧ r ≠ 0 → d.rsp = r

theorem standing_goOn (g : Go) (vm : VM) (d : Dbg) (h : d.executing = true) : Standing' g vm.rsp (goOn g vm d) := by
  have hz : 0 < vm.rsp.toNat ↔ vm.rsp ≠ 0 := by
    constructor
    · intro h e; rw [e] at h; simp at h
    · intro h
      have : vm.rsp.toNat ≠ 0 := fun e => h (BitVec.eq_of_toNat_eq e)
      omega
  cases g with
  | resume => exact ⟨h, rfl, by simp⟩
  | stepIn => exact ⟨h, rfl, by simp⟩
  | stepOver => exact ⟨h, rfl, fun _ => rfl⟩
  | stepOut =>
    unfold goOn
    dsimp only
    by_cases hr : vm.rsp = 0
    · rw [if_neg (by rw [hz]; exact fun e => e hr)]
      exact ⟨h, by rw [hr]; rfl, by simp [hr]⟩
    · rw [if_pos (hz.mpr hr)]
      exact ⟨h, by dsimp only; rw [if_neg hr], fun _ => rfl⟩

theorem pause_iff_due {g : Go} {r : Byte} {d : Dbg} (h : Standing' g r d) (vm : VM) :
    (d.standing = .pause ∨ (d.standing = .stepOver ∧ vm.rsp = d.rsp) ∨ (d.standing = .stepOut ∧ vm.rsp.toNat < d.rsp.toNat))
      ↔ Due g r vm := by
  obtain ⟨_, h2, h3⟩ := h
  cases g with
  | resume => dsimp only at h2; simp [h2, Due]
  | stepIn => dsimp only at h2; simp [h2, Due]
  | stepOver => dsimp only at h2; simp [h2, Due, h3 (Or.inl rfl)]
  | stepOut =>
    dsimp only at h2
    by_cases hr : r = 0
    · rw [if_pos hr] at h2; simp [h2, Due, hr]
    · rw [if_neg hr] at h2
      rw [h2, h3 (Or.inr ⟨rfl, hr⟩)]
      unfold Due
      dsimp only
      rw [show (r ≠ 0) = True from eq_true hr]
      simp

/-- Nothing for the debugger to do at this instruction. -/
structure Quiet (cmds : List (Byte × Brkp)) (g : Go) (r : Byte) (s : Sys σ) : Prop where
  due : ¬ Due g r s.vm
  brkps : ∀ i : Byte, i ≠ 255 → ¬ Applies (lastWritten cmds i) False s
  page : ¬ AtPageEnd s

/-- At a quiet instruction that is not BRK the hook does nothing at all. -/
theorem hook_quiet {H : Host σ} {W : Wire ω} {pc : Short} {vm : VM} (hm : 65536 ≤ vm.memSize) {h : σ} {d : D ω}
    {cmds : List (Byte × Brkp)} (hs : InSync cmds d.dbg) {g : Go} {r : Byte} (hg : Standing' g r d.dbg)
    (hq : Quiet cmds g r (Sys.mk vm h pc.toNat)) (h0 : vm.memory pc.toNat ≠ 0) :
    hook H W pc vm (h, d) = .ok (vm, h, d) := by
  obtain ⟨hit, f1, f2, f3⟩ := C24_hit_partial cmds d.dbg hs false vm h pc hm hq.page
  have hfe : ((false : Bool) = true) = False := by simp
  rw [hfe] at f2 f3
  have hhit : hit = 255 := by
    by_contra hc
    exact hq.brkps hit hc (f2 hc)
  subst hhit
  have hsp : shouldPause d.dbg 255 vm = .ok false := by
    unfold shouldPause
    have hn := mt (pause_iff_due hg vm).mp hq.due
    simp only [not_or, not_and] at hn
    obtain ⟨n1, n2, n3⟩ := hn
    rw [if_neg (by decide)]
    simp only [bind, Except.bind, pure, Except.pure, Bool.false_or]
    cases hst : d.dbg.standing with
    | execute => rfl
    | pause => exact absurd hst n1
    | stepOver => simp [n2 hst]
    | stepOut => have := n3 hst; simp only [decide_eq_false this]
  have hse : startExec W pc d = (false, d) := by
    unfold startExec; rw [hg.executing, if_pos rfl]
  unfold hook
  simp only [hse]
  simp only [bind, Except.bind, pure, Except.pure, f1, hsp]
  unfold breakHere
  rw [if_neg (by decide)]
  dsimp only
  unfold finishExec
  have hpc := pc.isLt
  simp only [bind, Except.bind, pure, Except.pure, rd_ok vm pc.toNat (by omega)]
  rw [if_neg h0]

theorem cstep_some_ne_brk {cfg : Cfg} {H : Host σ} {s s' : Sys σ} (e : cstep cfg H s = .ok (some s')) : s.vm.memory s.pc ≠ 0 := by
  intro h0
  unfold cstep at e
  split at e
  · cases e
  · unfold Spec.step at e
    simp only [h0] at e
    simp at e

theorem cstep_addN {τ : Type} {cfg : Cfg} {H : Host σ} {s s' : Sys σ} (t : τ) (e : cstep cfg H s = .ok (some s')) :
    cstep cfg (withNotes τ H) (addN t s) = .ok (some (addN t s')) := by
  rw [cstep_notes, e]; rfl

/-- One instruction of the interpreter from a specified step. -/
theorem step_of_cstep {τ : Type} {cfg : Cfg} {H : Host σ} {c : Cpu (σ × τ)} {s s' : Sys σ} {t : τ} (hc : c.sys = addN t s)
    (hm : 65536 ≤ s.vm.memSize) (e : cstep cfg H s = .ok (some s')) :
    ∃ c', step cfg (withNotes τ H) c = .ok (true, c') ∧ c'.sys = addN t s' := by
  have hm' : 65536 ≤ c.vm.memSize := by
    have := congrArg (fun s => s.vm.memSize) hc
    rw [show c.vm.memSize = s.vm.memSize from this]; exact hm
  have hr := step_related_c cfg (withNotes τ H) c hm'
  rw [hc, cstep_addN t e] at hr
  cases hs : step cfg (withNotes τ H) c with
  | error u => rw [hs] at hr; cases hr
  | ok x =>
    obtain ⟨b, c'⟩ := x
    rw [hs] at hr
    cases b with
    | false => have := hr.1; cases this
    | true =>
      have hr : Except.ok (some (addN t s')) = Except.ok (ε := UB) (some c'.sys) := hr
      injection hr with hr
      injection hr with hr
      exact ⟨c', rfl, hr.symm⟩

/-- **C26**, silence: as long as the instructions are quiet the program runs exactly as without a debugger, the
debugger gets no event and its state stays as it is. -/
theorem C26_silent {cfg : Cfg} {H : Host σ} (hk : KeepsMemSize H) {W : Wire ω} {d : D ω}
    {cmds : List (Byte × Brkp)} (hs : InSync cmds d.dbg) {g : Go} {r : Byte} (hg : Standing' g r d.dbg) (n : Nat)
    (c : Cpu (σ × D ω)) (s t : Sys σ) (hc : c.sys = addN d s) (hm : 65536 ≤ s.vm.memSize)
    (hq : ∀ k < n, ∀ u, run (cstep cfg H) k s = .running u → Quiet cmds g r u)
    (hr : run (cstep cfg H) n s = .running t) :
    ∃ c', runLoop cfg (withNotes (D ω) H) (some (hook H W)) n c = .running c' ∧ c'.sys = addN d t := by
  induction n generalizing c s with
  | zero => cases hr; exact ⟨c, rfl, hc⟩
  | succ n ih =>
    have q0 := hq 0 (by omega) s rfl
    unfold run at hr
    cases hx : cstep cfg H s with
    | error u => rw [hx] at hr; cases hr
    | ok x =>
      rw [hx] at hr
      cases x with
      | none => cases hr
      | some s' =>
        have h1 : c.host = (s.host, d) := congrArg Sys.host hc
        have h2 : c.sys.vm = s.vm := congrArg Sys.vm hc
        have h3 : c.pc.toNat = s.pc := congrArg Sys.pc hc
        have hh : hook H W c.pc c.sys.vm c.host = .ok (c.sys.vm, (s.host, d)) := by
          rw [h1, h2]
          refine hook_quiet hm hs hg (by rw [h3]; exact q0) ?_
          rw [h3]; exact cstep_some_ne_brk hx
        obtain ⟨c', e1, e2⟩ := step_of_cstep (c := { c with vm := c.sys.vm, host := (s.host, d) }) (t := d) (s := s) (s' := s')
          (by rw [← h1]; exact hc) hm hx
        have hrd : round cfg (withNotes (D ω) H) (some (hook H W)) c = .ok (true, c') := by
          rw [round_hook, hh]; exact e1
        unfold runLoop
        rw [hrd]
        refine ih c' s' e2 (by rw [cstep_memSize hk hx]; exact hm) ?_ hr
        intro k hk' u hu
        refine hq (k + 1) (by omega) u ?_
        unfold run
        rw [hx]; exact hu

/-- **C26**, stopping: at an instruction where the command is due, without a breakpoint that applies, the debugger
reports a break (and pauses). -/
theorem C26_stops {H : Host σ} (hk : KeepsMemSize H) {W : Wire ω} {d : D ω} {cmds : List (Byte × Brkp)}
    (hs : InSync cmds d.dbg) {g : Go} {r : Byte} (hg : Standing' g r d.dbg) (pc : Short) (vm : VM) (hm : 65536 ≤ vm.memSize) (h : σ)
    (hb : ∀ i : Byte, i ≠ 255 → ¬ Applies (lastWritten cmds i) False (Sys.mk vm h pc.toNat)) (he : ¬ AtPageEnd (Sys.mk vm h pc.toNat))
    (x : VM × σ × D ω) (e : hook H W pc vm (h, d) = .ok x) :
    (∃ qs g' rest, x.2.2.log = d.log ++ .beginBreak 255 :: (List.map Ev.command qs ++ .go g' :: .endBreak :: rest)) ↔ Due g r vm := by
  obtain ⟨hit, pause, pre, evs, post, f1, f2, f3, f4, f5, f6⟩ := C24_stop_partial H hk W pc vm hm h d cmds hs he x e
  have hfe : (d.dbg.executing = false) = False := by rw [hg.executing]; simp
  rw [hfe] at f1
  have hhit : hit = 255 := by
    by_contra hc
    exact hb hit hc (f1.1 hc)
  subst hhit
  rw [hg.executing, if_pos rfl] at f4
  subst f4
  have hp : pause = true ↔ Due g r vm := by
    rw [f2, ← pause_iff_due hg vm]
    simp
  rw [← hp]
  constructor
  · rintro ⟨qs, g', rest, hl⟩
    cases pause with
    | true => rfl
    | false =>
      exfalso
      unfold BreakEvents at f3
      rw [if_neg (by decide), if_pos rfl] at f3
      subst f3
      rw [List.append_nil, List.append_nil] at f6
      rw [hl] at f6
      have := List.append_cancel_left f6
      rw [f5] at this
      split at this <;> simp at this
  · rintro rfl
    unfold BreakEvents at f3
    rw [if_pos rfl] at f3
    obtain ⟨qs, g', rfl⟩ := f3
    exact ⟨qs, g', post, by rw [f6]; simp⟩

/-! ## Calls and returns -/

/-- Instructions by their effect on the depth of calls: JSI and JSR in its four work-stack forms call, JMP2r returns. -/
def isCall (op : Byte) : Prop := op = 0x60 ∨ op = 0x0e ∨ op = 0x2e ∨ op = 0x8e ∨ op = 0xae
def isReturn (op : Byte) : Prop := op = 0x6c
/-- Instructions that leave the return stack alone: no return mode (except that JMI has its bit), no STH, no call. -/
def isPlain (op : Byte) : Prop := op = 0x40 ∨ (op.getLsbD 6 = false ∧ op.toNat % 32 ≠ 0x0e ∧ op.toNat % 32 ≠ 0x0f)

instance (op : Byte) : Decidable (isCall op) := by unfold isCall; infer_instance
instance (op : Byte) : Decidable (isReturn op) := by unfold isReturn; infer_instance

/-- Change of call depth by one instruction. -/
def depthChange (op : Byte) : Int := if isCall op then 1 else if isReturn op then -1 else 0

/-- Change of call depth along some instructions. -/
def depth (path : List (Sys σ)) : Int := (path.map fun s => depthChange (s.vm.memory s.pc)).sum

/-- The return stack is used for nothing but calls and returns. -/
def Disciplined (s : Sys σ) : Prop :=
  isPlain (s.vm.memory s.pc) ∨ isCall (s.vm.memory s.pc) ∨ isReturn (s.vm.memory s.pc)

theorem rsp_pushAll (s : Bool) (vs : List Nat) (vm : VM) : (pushAll false (sz s) vs vm).rsp = vm.rsp :=
  (pushAll_effect false s vs vm).2.1
theorem rsp_pushValue (n v : Nat) (vm : VM) : (pushValue false n v vm).rsp = vm.rsp := (pushValue_other false n v vm).1
theorem rsp_pokeMem (vm : VM) (a p n v : Nat) : (pokeMem vm a p n v).rsp = vm.rsp := by unfold pokeMem; split <;> rfl

/-- An operation on the work stack that is neither STH nor JSR leaves the return stack pointer alone. -/
theorem operation_rsp {cfg : Cfg} {H : Host σ} (hk : KeepsStacks H) {op : Op} {s k : Bool} {pc : Nat} {vm : VM} {h : σ}
    {x : Sys σ} (h1 : op ≠ .STH) (h2 : op ≠ .JSR) (e : operation cfg H op s false k pc vm h = .ok x) : x.vm.rsp = vm.rsp := by
  unfold operation at e
  simp only [sz_fold] at e
  generalize hvs : operandsAt _ _ _ = vs at e
  generalize hv : (if k = true then vm else setPtr false _ vm) = vm1 at e
  have hr : vm1.rsp = vm.rsp := by rw [← hv]; split <;> rfl
  have hns : ∀ v, action (sz s) pc op vs ≠ .stash v := by
    intro v hc
    unfold action at hc
    split at hc <;> first | exact absurd rfl h1 | cases hc
  have hnc : ∀ v, action (sz s) pc op vs ≠ .call v := by
    intro v hc
    unfold action at hc
    split at hc <;> first | exact absurd rfl h2 | cases hc
  cases ha : action (sz s) pc op vs with
  | push vs => rw [ha] at e; cases e; exact (rsp_pushAll _ _ _).trans hr
  | pushByte v => rw [ha] at e; cases e; exact (rsp_pushValue _ _ _).trans hr
  | stash v => exact absurd ha (hns v)
  | jump t => rw [ha] at e; cases e; exact hr
  | call t => exact absurd ha (hnc t)
  | load a p => rw [ha] at e; cases e; exact (rsp_pushValue _ _ _).trans hr
  | store a p v => rw [ha] at e; cases e; exact (rsp_pokeMem _ _ _ _ _).trans hr
  | deviceIn p =>
    rw [ha] at e
    simp only [perform, bind, Except.bind, pure, Except.pure] at e
    split at e
    · cases e
    · rename_i y hy
      cases e
      exact (rsp_pushValue _ _ _).trans ((keeps_deviceIn hk hy true).1.trans hr)
  | deviceOut p v =>
    rw [ha] at e
    simp only [perform, bind, Except.bind, pure, Except.pure] at e
    split at e
    · cases e
    · rename_i y hy
      cases e
      exact (keeps_deviceOut hk hy true).1.trans hr

theorem encodes_bits (b : Byte) :
    (isReturn b → b.toNat % 32 = 0x0c ∧ b.getLsbD 5 = true ∧ b.getLsbD 6 = true ∧ b.getLsbD 7 = false) ∧
    (isCall b → (b.toNat % 32 = 0 ∧ b.getLsbD 5 = true ∧ b.getLsbD 6 = true ∧ b.getLsbD 7 = false) ∨
      (b.toNat % 32 = 0x0e ∧ b.getLsbD 6 = false)) := by
  revert b; unfold isReturn isCall; decide +kernel

theorem plain_bits (b : Byte) (h : isPlain b) :
    (b.toNat % 32 = 0 ∧ b.getLsbD 5 = false ∧ b.getLsbD 6 = true ∧ b.getLsbD 7 = false) ∨
    (b.getLsbD 6 = false ∧ b.toNat % 32 ≠ 0x0e ∧ b.toNat % 32 ≠ 0x0f) := by
  rcases h with rfl | h
  · exact Or.inl (by decide)
  · exact Or.inr h

theorem plain_change (b : Byte) (h : isPlain b) : depthChange b = 0 := by
  have h1 : ¬ isCall b := by
    intro hc
    rcases plain_bits b h with h1 | h1 <;> rcases (encodes_bits b).2 hc with h2 | h2
    · rw [h1.2.1] at h2; simp at h2
    · omega
    · rw [h1.1] at h2; simp at h2
    · exact h1.2.1 h2.1
  have h2 : ¬ isReturn b := by
    intro hc
    have h2 := (encodes_bits b).1 hc
    rcases plain_bits b h with h1 | h1
    · omega
    · rw [h1.1] at h2; simp at h2
  unfold depthChange
  rw [if_neg h1, if_neg h2]

/-- The return stack pointer follows the call depth. -/
theorem step_rsp {cfg : Cfg} {H : Host σ} (hk : KeepsStacks H) {s s' : Sys σ} (hd : Disciplined s)
    (e : cstep cfg H s = .ok (some s')) :
    s'.vm.rsp = s.vm.rsp + BitVec.ofInt 8 (2 * depthChange (s.vm.memory s.pc)) := by
  unfold cstep at e
  split at e
  · cases e
  · unfold Spec.step at e
    dsimp only at e
    rcases hd with hp | hc | hr
    · rw [plain_change _ hp]
      have hgoal : s.vm.rsp + BitVec.ofInt 8 (2 * 0) = s.vm.rsp := by simp
      rw [hgoal]
      rcases plain_bits _ hp with ⟨b1, b2, b3, b4⟩ | ⟨b1, b2, b3⟩
      · rw [b1, b2, b3, b4] at e
        cases e; rfl
      · rw [b1] at e
        split at e
        · generalize (s.vm.memory s.pc).getLsbD 5 = sh at e
          generalize (s.vm.memory s.pc).getLsbD 7 = kp at e
          cases kp <;> cases sh
          · cases e
          · cases e; rfl
          · cases e; exact rsp_pushValue _ _ _
          · cases e; exact rsp_pushValue _ _ _
        · rename_i k hk0
          split at e
          · rename_i op hop
            have h1 : op ≠ .STH := by
              rintro rfl
              have hk32 : k < 31 := by have := Nat.mod_lt (s.vm.memory s.pc).toNat (show 32 > 0 by decide); omega
              have : k = 14 := by interval_cases k <;> simp_all [mnemonics]
              omega
            have h2 : op ≠ .JSR := by
              rintro rfl
              have hk32 : k < 31 := by have := Nat.mod_lt (s.vm.memory s.pc).toNat (show 32 > 0 by decide); omega
              have : k = 13 := by interval_cases k <;> simp_all [mnemonics]
              omega
            cases hx : operation cfg H op ((s.vm.memory s.pc).getLsbD 5) false ((s.vm.memory s.pc).getLsbD 7)
              ((s.pc + 1) % 65536) s.vm s.host with
            | error u => rw [hx] at e; cases e
            | ok y => rw [hx] at e; cases e; exact operation_rsp hk h1 h2 hx
          · cases e
    · have hch : depthChange (s.vm.memory s.pc) = 1 := by unfold depthChange; rw [if_pos hc]
      rw [hch]
      rcases (encodes_bits _).2 hc with ⟨b1, b2, b3, b4⟩ | ⟨b1, b2⟩
      · rw [b1, b2, b3, b4] at e
        cases e; rfl
      · rw [b1, b2] at e
        dsimp only at e
        rw [show mnemonics[13]? = some .JSR from rfl] at e
        dsimp only at e
        unfold operation at e
        dsimp only at e
        generalize (s.vm.memory s.pc).getLsbD 5 = sh at e
        generalize (s.vm.memory s.pc).getLsbD 7 = kp at e
        cases sh <;> cases kp <;> (cases e; rfl)
    · have hch : depthChange (s.vm.memory s.pc) = -1 := by rw [show s.vm.memory s.pc = 0x6c from hr]; decide
      rw [hch]
      obtain ⟨b1, b2, b3, b4⟩ := (encodes_bits _).1 hr
      rw [b1, b2, b3, b4] at e
      cases e
      show s.vm.rsp - BitVec.ofNat 8 2 = _
      rw [BitVec.sub_eq_add_neg]
      rfl

/-- Along a disciplined path the return stack pointer follows the call depth. -/
theorem run_rsp {cfg : Cfg} {H : Host σ} (hk : KeepsStacks H) (n : Nat) (s t : Sys σ)
    (hr : run (cstep cfg H) n s = .running t) (hd : ∀ u ∈ visited (cstep cfg H) n s, Disciplined u) :
    t.vm.rsp = s.vm.rsp + BitVec.ofInt 8 (2 * depth (visited (cstep cfg H) n s)) := by
  induction n generalizing s with
  | zero => cases hr; simp [visited, depth]
  | succ n ih =>
    unfold run at hr
    unfold visited at hd ⊢
    cases hx : cstep cfg H s with
    | error u => rw [hx] at hr; cases hr
    | ok x =>
      rw [hx] at hr hd
      cases x with
      | none => cases hr
      | some s' =>
        dsimp only at hd hr ⊢
        rw [ih s' hr (fun u hu => hd u (List.mem_cons_of_mem _ hu)), step_rsp hk (hd s List.mem_cons_self) hx]
        unfold depth
        rw [List.map_cons, List.sum_cons, BitVec.add_assoc]
        congr 1
        rw [Int.mul_add, BitVec.ofInt_add]

/-- Return stack pointers a known distance apart. -/
theorem rsp_eq_iff (r : Byte) (k : Int) (h1 : -128 < k) (h2 : k < 128) : r + BitVec.ofInt 8 (2 * k) = r ↔ k = 0 := by
  constructor
  · intro e
    have := congrArg BitVec.toNat e
    have hr := r.isLt
    rw [BitVec.toNat_add, BitVec.toNat_ofInt] at this
    omega
  · rintro rfl; simp

theorem rsp_lt_iff (r : Byte) (k : Int) (h1 : 0 ≤ (r.toNat : Int) + 2 * k) (h2 : (r.toNat : Int) + 2 * k < 256) :
    (r + BitVec.ofInt 8 (2 * k)).toNat < r.toNat ↔ k < 0 := by
  have h : ((r + BitVec.ofInt 8 (2 * k)).toNat : Int) = r.toNat + 2 * k := by
    rw [BitVec.toNat_add, BitVec.toNat_ofInt]
    push_cast
    rw [Int.toNat_of_nonneg (by omega)]
    omega
  omega

theorem inSync_nil_applies (i : Byte) (st : Prop) (s : Sys σ) : ¬ Applies (lastWritten [] i) st s :=
  fun h => applies_live h rfl

theorem run_split {next : Sys σ → Res (Option (Sys σ))} {s s1 : Sys σ} (h : next s = .ok (some s1)) (n : Nat) :
    run next (n + 1) s = run next n s1 := by
  conv => lhs; unfold run
  rw [h]

/-- What the theorems about stepping say: after the instruction `s0` at which the command was given, the program runs
unchanged and unseen for `n` instructions to `t`, and the next event, at `t`, is a pause exactly if `due`. -/
def RunsTo (cfg : Cfg) (H : Host σ) (W : Wire ω) (d : D ω) (s0 : Sys σ) (n : Nat) (t : Sys σ) (due : Prop) : Prop :=
  ∀ c0 : Cpu (σ × D ω), c0.sys = addN d s0 →
    ∃ c1 c2, step cfg (withNotes (D ω) H) c0 = .ok (true, c1) ∧
      runLoop cfg (withNotes (D ω) H) (some (hook H W)) n c1 = .running c2 ∧ c2.sys = addN d t ∧
      ∀ x, hook H W c2.pc c2.sys.vm c2.host = .ok x →
        ((∃ qs g rest, x.2.2.log = d.log ++ .beginBreak 255 :: (List.map Ev.command qs ++ .go g :: .endBreak :: rest)) ↔ due)

theorem runsTo {cfg : Cfg} {H : Host σ} (hk : KeepsMemSize H) {W : Wire ω} {d : D ω} {cmds : List (Byte × Brkp)}
    (hs : InSync cmds d.dbg) {g : Go} {r : Byte} (hg : Standing' g r d.dbg) (s0 t : Sys σ) (hm : 65536 ≤ s0.vm.memSize)
    (n : Nat) (hr : run (cstep cfg H) (n + 1) s0 = .running t)
    (hq : ∀ k, 0 < k → k < n + 1 → ∀ u, run (cstep cfg H) k s0 = .running u → Quiet cmds g r u)
    (hb : ∀ i : Byte, i ≠ 255 → ¬ Applies (lastWritten cmds i) False t) (he : ¬ AtPageEnd t) :
    RunsTo cfg H W d s0 n t (Due g r t.vm) := by
  intro c0 hc0
  cases hx : cstep cfg H s0 with
  | error u => unfold run at hr; rw [hx] at hr; cases hr
  | ok x =>
    cases x with
    | none => unfold run at hr; rw [hx] at hr; cases hr
    | some s1 =>
      rw [run_split hx] at hr
      obtain ⟨c1, e1, e2⟩ := step_of_cstep hc0 hm hx
      have hm1 : 65536 ≤ s1.vm.memSize := by rw [cstep_memSize hk hx]; exact hm
      obtain ⟨c2, e3, e4⟩ := C26_silent hk (W := W) hs hg n c1 s1 t e2 hm1
        (fun k hk' u hu => hq (k + 1) (by omega) (by omega) u (by rw [run_split hx]; exact hu)) hr
      refine ⟨c1, c2, e1, e3, e4, ?_⟩
      intro x hx'
      have h1 : c2.host = (t.host, d) := congrArg Sys.host e4
      have h2 : c2.sys.vm = t.vm := congrArg Sys.vm e4
      have h3 : c2.pc.toNat = t.pc := congrArg Sys.pc e4
      rw [h1, h2] at hx'
      have ht : Sys.mk t.vm t.host c2.pc.toNat = t := by rw [h3]
      have hmt : 65536 ≤ t.vm.memSize := by
        have : ∀ n (s : Sys σ), 65536 ≤ s.vm.memSize → run (cstep cfg H) n s = .running t → 65536 ≤ t.vm.memSize := by
          intro n
          induction n with
          | zero => intro s h hr; cases hr; exact h
          | succ n ih =>
            intro s h hr
            unfold run at hr
            cases hy : cstep cfg H s with
            | error u => rw [hy] at hr; cases hr
            | ok y =>
              rw [hy] at hr
              cases y with
              | none => cases hr
              | some s' => exact ih s' (by rw [cstep_memSize hk hy]; exact h) hr
        exact this n s1 hm1 hr
      exact C26_stops hk hs hg c2.pc t.vm hmt t.host (by rw [ht]; exact hb) (by rw [ht]; exact he) x hx'

/-- **C26**, step in: the program stops at the very next instruction. -/
theorem C26_step_in {cfg : Cfg} {H : Host σ} (hk : KeepsMemSize H) {W : Wire ω} {d : D ω} (hs : InSync [] d.dbg)
    {r : Byte} (hg : Standing' .stepIn r d.dbg) (s0 s1 : Sys σ) (hm : 65536 ≤ s0.vm.memSize)
    (hr : cstep cfg H s0 = .ok (some s1)) (he : ¬ AtPageEnd s1) : RunsTo cfg H W d s0 0 s1 True := by
  refine runsTo hk hs hg s0 s1 hm 0 (by rw [run_split hr]; rfl) (fun k h1 h2 => by omega) (fun i _ => inSync_nil_applies _ _ _) he

/-- **C26**, resume: the program runs until a breakpoint applies. -/
theorem C26_resume {cfg : Cfg} {H : Host σ} (hk : KeepsMemSize H) {W : Wire ω} {d : D ω} {cmds : List (Byte × Brkp)}
    (hs : InSync cmds d.dbg) {r : Byte} (hg : Standing' .resume r d.dbg) (s0 t : Sys σ) (hm : 65536 ≤ s0.vm.memSize)
    (n : Nat) (hr : run (cstep cfg H) (n + 1) s0 = .running t)
    (hq : ∀ k, 0 < k → k ≤ n + 1 → ∀ u, run (cstep cfg H) k s0 = .running u →
      (∀ i : Byte, i ≠ 255 → ¬ Applies (lastWritten cmds i) False u) ∧ ¬ AtPageEnd u) :
    RunsTo cfg H W d s0 n t False := by
  refine runsTo hk hs hg s0 t hm n hr (fun k h1 h2 u hu => ?_) ?_ ?_
  · obtain ⟨q1, q2⟩ := hq k h1 (by omega) u hu
    exact ⟨fun h => h, q1, q2⟩
  · exact (hq (n + 1) (by omega) (Nat.le_refl _) t hr).1
  · exact (hq (n + 1) (by omega) (Nat.le_refl _) t hr).2

/-- **C26**, step over. For programs that use the return stack for calls and returns only: the program runs on while it
is deeper or shallower than where the command was given, and it stops when it is back at that depth.
Partial: with STH and other return-stack operations the code compares the wrong thing, see `C26_step_over_violated`;
also the call depth may not change by 128 or more, where the pointer would wrap. -/
theorem C26_step_over_partial {cfg : Cfg} {H : Host σ} (hk : KeepsMemSize H) (hst : KeepsStacks H) {W : Wire ω} {d : D ω}
    (hs : InSync [] d.dbg) (s0 t : Sys σ) (hg : Standing' .stepOver s0.vm.rsp d.dbg) (hm : 65536 ≤ s0.vm.memSize)
    (n : Nat) (hr : run (cstep cfg H) (n + 1) s0 = .running t)
    (hd : ∀ u ∈ visited (cstep cfg H) (n + 1) s0, Disciplined u)
    (hw : ∀ k ≤ n + 1, -128 < depth (visited (cstep cfg H) k s0) ∧ depth (visited (cstep cfg H) k s0) < 128)
    (hne : ∀ k, 0 < k → k ≤ n → depth (visited (cstep cfg H) k s0) ≠ 0)
    (he : ∀ k ≤ n + 1, ∀ u, run (cstep cfg H) k s0 = .running u → ¬ AtPageEnd u) :
    RunsTo cfg H W d s0 n t (depth (visited (cstep cfg H) (n + 1) s0) = 0) := by
  have hpre : ∀ k ≤ n + 1, ∀ u ∈ visited (cstep cfg H) k s0, Disciplined u := by
    have : ∀ (m k : Nat) (s : Sys σ), k ≤ m → ∀ u ∈ visited (cstep cfg H) k s, u ∈ visited (cstep cfg H) m s := by
      intro m
      induction m with
      | zero => intro k s hk u hu; rw [Nat.le_zero.mp hk] at hu; exact hu
      | succ m ih =>
        intro k s hk u hu
        cases k with
        | zero => cases hu
        | succ k =>
          unfold visited at hu ⊢
          rcases List.mem_cons.mp hu with h | h
          · exact List.mem_cons.mpr (Or.inl h)
          · refine List.mem_cons.mpr (Or.inr ?_)
            split at h
            · rename_i s' hs'
              exact ih k s' (by omega) u h
            · cases h
    exact fun k hk u hu => hd u (this (n + 1) k s0 hk u hu)
  have hrsp : ∀ k ≤ n + 1, ∀ u, run (cstep cfg H) k s0 = .running u →
      (u.vm.rsp = s0.vm.rsp ↔ depth (visited (cstep cfg H) k s0) = 0) := by
    intro k hk u hu
    rw [run_rsp hst k s0 u hu (hpre k hk)]
    exact rsp_eq_iff _ _ (hw k hk).1 (hw k hk).2
  have := runsTo hk hs hg (W := W) s0 t hm n hr (fun k h1 h2 u hu => ⟨fun hdue => hne k h1 (by omega) ((hrsp k (by omega) u hu).mp hdue),
    fun i _ => inSync_nil_applies _ _ _, he k (by omega) u hu⟩) (fun i _ => inSync_nil_applies _ _ _) (he _ (Nat.le_refl _) t hr)
  rw [show (depth (visited (cstep cfg H) (n + 1) s0) = 0) = Due .stepOver s0.vm.rsp t.vm from
    propext (hrsp _ (Nat.le_refl _) t hr).symm]
  exact this

/-- **C26**, step out, for programs that use the return stack for calls and returns only: the program runs on while it
is at least as deep as where the command was given, and stops right after the return from there.
Partial: as for step over; here the pointer may not wrap at either end. -/
theorem C26_step_out_partial {cfg : Cfg} {H : Host σ} (hk : KeepsMemSize H) (hst : KeepsStacks H) {W : Wire ω} {d : D ω}
    (hs : InSync [] d.dbg) (s0 t : Sys σ) (h0 : s0.vm.rsp ≠ 0) (hg : Standing' .stepOut s0.vm.rsp d.dbg) (hm : 65536 ≤ s0.vm.memSize)
    (n : Nat) (hr : run (cstep cfg H) (n + 1) s0 = .running t)
    (hd : ∀ k ≤ n + 1, ∀ u ∈ visited (cstep cfg H) k s0, Disciplined u)
    (hw : ∀ k ≤ n + 1, 0 ≤ (s0.vm.rsp.toNat : Int) + 2 * depth (visited (cstep cfg H) k s0) ∧
      (s0.vm.rsp.toNat : Int) + 2 * depth (visited (cstep cfg H) k s0) < 256)
    (hne : ∀ k, 0 < k → k ≤ n → 0 ≤ depth (visited (cstep cfg H) k s0))
    (he : ∀ k ≤ n + 1, ∀ u, run (cstep cfg H) k s0 = .running u → ¬ AtPageEnd u) :
    RunsTo cfg H W d s0 n t (depth (visited (cstep cfg H) (n + 1) s0) < 0) := by
  have hrsp : ∀ k ≤ n + 1, ∀ u, run (cstep cfg H) k s0 = .running u →
      (Due .stepOut s0.vm.rsp u.vm ↔ depth (visited (cstep cfg H) k s0) < 0) := by
    intro k hk u hu
    unfold Due
    dsimp only
    rw [run_rsp hst k s0 u hu (hd k hk), ← rsp_lt_iff _ _ (hw k hk).1 (hw k hk).2]
    exact ⟨fun h => h.2, fun h => ⟨h0, h⟩⟩
  have := runsTo hk hs hg (W := W) s0 t hm n hr (fun k h1 h2 u hu => ⟨fun hdue => by
      have := (hrsp k (by omega) u hu).mp hdue
      have := hne k h1 (by omega)
      omega,
    fun i _ => inSync_nil_applies _ _ _, he k (by omega) u hu⟩) (fun i _ => inSync_nil_applies _ _ _) (he _ (Nat.le_refl _) t hr)
  rw [show (depth (visited (cstep cfg H) (n + 1) s0) < 0) = Due .stepOut s0.vm.rsp t.vm from
    propext (hrsp _ (Nat.le_refl _) t hr).symm]
  exact this

instance (op : Byte) : Decidable (isPlain op) := by unfold isPlain; infer_instance
instance (s : Sys σ) : Decidable (Disciplined s) := by unfold Disciplined; infer_instance

/-- A debugger that was told to step over, and one that was told to step out, in a state with return stack pointer `r`. -/
def steppingOver (r : Byte) : Dbg := { init with executing := true, standing := .stepOver, rsp := r }
def steppingOut (r : Byte) : Dbg := { init with executing := true, standing := .stepOut, rsp := r }

/-- Non-vacuity: stepping over `JSI f` in `JSI f BRK @f INC JMP2r` comes back to depth 0 after three instructions. -/
example : let s0 : Sys Unit := ⟨booted [0x60, 0x00, 0x01, 0x00, 0x01, 0x6c], (), 0x100⟩
    Standing' .stepOver s0.vm.rsp (steppingOver 0) ∧ InSync [] (steppingOver 0) ∧
    (∃ t, run (cstep ⟨true, true⟩ plainHost) 3 s0 = .running t ∧ t.pc = 0x103) ∧
    (∀ u ∈ visited (cstep ⟨true, true⟩ plainHost) 3 s0, Disciplined u) ∧
    depth (visited (cstep ⟨true, true⟩ plainHost) 1 s0) = 1 ∧ depth (visited (cstep ⟨true, true⟩ plainHost) 2 s0) = 1 ∧
    depth (visited (cstep ⟨true, true⟩ plainHost) 3 s0) = 0 := by
  refine ⟨⟨rfl, rfl, fun _ => rfl⟩, inSync_congr inSync_init rfl rfl rfl, ⟨_, rfl, rfl⟩, by decide +kernel, by decide +kernel,
    by decide +kernel, by decide +kernel⟩

/-- Non-vacuity: stepping out of `f` in the same program, at `INC`. -/
example : let s0 : Sys Unit := ⟨{ booted [0x60, 0x00, 0x01, 0x00, 0x01, 0x6c] with rsp := 2, rs := fun i => if i = 0 then 1 else 3 }, (), 0x104⟩
    Standing' .stepOut s0.vm.rsp (steppingOut 2) ∧ InSync [] (steppingOut 2) ∧
    (∃ t, run (cstep ⟨true, true⟩ plainHost) 2 s0 = .running t ∧ t.pc = 0x103) ∧
    (∀ u ∈ visited (cstep ⟨true, true⟩ plainHost) 2 s0, Disciplined u) ∧
    depth (visited (cstep ⟨true, true⟩ plainHost) 1 s0) = 0 ∧ depth (visited (cstep ⟨true, true⟩ plainHost) 2 s0) = -1 := by
  refine ⟨⟨rfl, rfl, fun _ => rfl⟩, inSync_congr inSync_init rfl rfl rfl, ⟨_, rfl, rfl⟩, by decide +kernel, by decide +kernel, by decide +kernel⟩

/-- The property is violated by programs that keep data on the return stack: stepping over `STH` (no call, so the next
instruction is at the same depth) does not stop at the next instruction. -/
theorem C26_step_over_violated :
    let s0 : Sys Unit := ⟨{ booted [0x0f, 0x01, 0x00] with wsp := 1 }, (), 0x100⟩
    Standing' .stepOver s0.vm.rsp (steppingOver 0) ∧
    ∃ t, run (cstep ⟨true, true⟩ plainHost) 1 s0 = .running t ∧
      depth (visited (cstep ⟨true, true⟩ plainHost) 1 s0) = 0 ∧
      hitBrkp (steppingOver 0) false 0x101 t.vm = .ok NONE ∧ shouldPause (steppingOver 0) NONE t.vm = .ok false := by
  refine ⟨⟨rfl, rfl, fun _ => rfl⟩, _, rfl, by decide +kernel, by decide +kernel, by decide +kernel⟩

/-- And stepping out stops too early: at the instruction after `POPr`, although nothing has returned. -/
theorem C26_step_out_violated :
    let s0 : Sys Unit := ⟨{ booted [0x42, 0x01, 0x00] with rsp := 3 }, (), 0x100⟩
    Standing' .stepOut s0.vm.rsp (steppingOut 3) ∧
    ∃ t, run (cstep ⟨true, true⟩ plainHost) 1 s0 = .running t ∧
      depth (visited (cstep ⟨true, true⟩ plainHost) 1 s0) = 0 ∧
      hitBrkp (steppingOut 3) false 0x101 t.vm = .ok NONE ∧ shouldPause (steppingOut 3) NONE t.vm = .ok true := by
  refine ⟨⟨rfl, rfl, fun _ => rfl⟩, _, rfl, by decide +kernel, by decide +kernel, by decide +kernel⟩

end Buxn.Dbg
