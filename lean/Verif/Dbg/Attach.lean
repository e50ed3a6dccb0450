import Verif.Dbg.ReadOnly
/-!
# A debugger on a running program (C73)

`/repo/src/dbg.c` and `/repo/src/dbg/transports/fd.c:47-61`: the program attaches the debugger when it starts, and looks for
requests once per frame; the hook is in place as long as the debugger needs it. Between the executions of vectors the host program
may do anything to the machine.
-/
namespace Buxn.Dbg
open Buxn.VM Buxn.VM.Spec

variable {σ ω : Type}

/-! ## Model -/

/-- `buxn_dbg_integration_t`, `dbg.h:12-22`: the debugger, and whether `vm->config.hook` is set. -/
structure Attached (ω : Type) where
  hooked : Bool
  d : D ω

/-- `buxn_dbg_integration_init`, `dbg.c:4-23`. `w` is the state of the connection. -/
def attached (w : ω) : Attached ω := ⟨true, ⟨requestPause init, w, []⟩⟩

/-- `buxn_dbg_integration_update`, `dbg.c:25-37`, with `buxn_dbg_transport_fd_update`, `fd.c:47-61`: `pending` is what `poll` says. -/
def update (pending : Bool) (a : Attached ω) : Attached ω :=
  let dbg := if pending then requestPause a.d.dbg else a.d.dbg
  ⟨shouldHook dbg, { a.d with dbg := dbg }⟩

/-- What a program does: look for requests, execute a vector, and anything else that it does to the machine and the devices. -/
inductive Step (σ : Type) where
  | update (pending : Bool)
  | vector (pc : Short) (locals : Byte × Byte)
  | outside (f : VM → σ → VM × σ)

/-- A program with a debugger, as long as its executions end (each in at most `n` instructions). -/
def session (cfg : Cfg) (H : Host σ) (W : Wire ω) (n : Nat) : List (Step σ) → VM → σ → Attached ω → Option (VM × σ × Attached ω)
  | [], vm, h, a => some (vm, h, a)
  | .update p :: l, vm, h, a => session cfg H W n l vm h (update p a)
  | .outside f :: l, vm, h, a => session cfg H W n l (f vm h).1 (f vm h).2 a
  | .vector pc k :: l, vm, h, a =>
    match execute cfg (withNotes (D ω) H) (if a.hooked then some (hook H W) else none) k n vm (h, a.d) pc with
    | .halted vm x => session cfg H W n l vm x.1 { a with d := x.2 }
    | _ => none

/-! ## Specification -/

/-- The same program without a debugger. -/
def plain (cfg : Cfg) (H : Host σ) (n : Nat) : List (Step σ) → VM → σ → Option (VM × σ)
  | [], vm, h => some (vm, h)
  | .update _ :: l, vm, h => plain cfg H n l vm h
  | .outside f :: l, vm, h => plain cfg H n l (f vm h).1 (f vm h).2
  | .vector pc k :: l, vm, h =>
    match execute cfg H none k n vm h pc with
    | .halted vm h => plain cfg H n l vm h
    | _ => none

/-- The host program leaves the size of the memory alone. -/
def Keeping (l : List (Step σ)) : Prop := ∀ f, .outside f ∈ l → ∀ vm h, (f vm h).1.memSize = vm.memSize

/-- The debugger is told that an execution begins and that the program pauses before its first instruction, until the other end
lets it go on. -/
def PausesFirst (pc : Short) (evs : List Ev) : Prop :=
  ∃ id qs g rest, evs = .beginExec pc :: .beginBreak id :: (List.map Ev.command qs ++ .go g :: .endBreak :: rest)

/-! ## Pausing -/

/-- A vector executed by a debugger that has been asked to pause. -/
theorem pauses (cfg : Cfg) (H : Host σ) (hk : KeepsMemSize H) (W : Wire ω) (k0 : Byte × Byte) (n : Nat) (vm : VM)
    (hm : 65536 ≤ vm.memSize) (h : σ) (d : D ω) (hd : d.dbg.executing = false) (hp : d.dbg.standing = .pause) (pc : Short) (hpc : pc ≠ 0) :
    match execute cfg (withNotes (D ω) H) (some (hook H W)) k0 n vm (h, d) pc with
    | .halted _ x => ∃ evs, x.2.log = d.log ++ evs ∧ PausesFirst pc evs
    | .running c => n = 0 ∨ ∃ evs, c.host.2.log = d.log ++ evs ∧ PausesFirst pc evs
    | .undefined _ => True := by
  unfold execute
  rw [if_neg hpc]
  cases n with
  | zero => exact .inl rfl
  | succ n =>
    unfold runLoop
    cases hr : round cfg (withNotes (D ω) H) (some (hook H W)) (enter vm (h, d) pc k0) with
    | error u => trivial
    | ok x =>
      obtain ⟨b, c'⟩ := x
      obtain ⟨vm1, h1, f1, f2, f3, f4⟩ := round_facts hk (by exact hm) hr
      obtain ⟨hit, pause, evs, _, g0, g1, g2, g3, _⟩ := hook_facts hk f1
      have ed : (enter vm (h, d) pc k0).host.2 = d := rfl
      have ep : (enter vm (h, d) pc k0).pc = pc := rfl
      rw [ep] at g2 g3 f4
      dsimp only at g2 g3
      rw [ed, hd, if_neg (by decide)] at g2
      have hpause : pause = true := by
        rw [ed] at g0
        unfold shouldPause at g0
        simp only [bind, Except.bind, pure, Except.pure] at g0
        rw [hp] at g0
        by_cases hh : hit ≠ NONE
        · rw [if_pos hh] at g0
          cases hb : brkpAt d.dbg hit.toNat with
          | error e => rw [hb] at g0; cases g0
          | ok v =>
            rw [hb] at g0
            injection g0 with g0
            rw [← g0]
            exact Bool.or_true _
        · rw [if_neg hh] at g0
          injection g0 with g0
          rw [← g0]
          rfl
      subst hpause
      unfold BreakEvents at g1
      rw [if_pos rfl] at g1
      obtain ⟨qs, g, rfl⟩ := g1
      have key : ∀ tail, ∃ evs, d.log ++ [.beginExec pc] ++ (.beginBreak hit :: (qs.map Ev.command ++ [.go g]) ++ [.endBreak]) ++ tail = d.log ++ evs ∧
          PausesFirst pc evs := by
        intro tail
        refine ⟨_, ?_, hit, qs, g, tail, rfl⟩
        simp only [List.append_assoc, List.cons_append, List.nil_append]
      cases b with
      | false =>
        dsimp only
        rw [g2]
        exact key _
      | true =>
        have h0 : ¬ vm1.memory pc.toNat = 0 := fun e => by have := f4.mpr e; cases this
        rw [decide_eq_false h0] at g3
        have := runLoop_events (cfg := cfg) (W := W) hk n c' (by rw [f3]; exact hm) g3
        dsimp only
        cases hl : runLoop cfg (withNotes (D ω) H) (some (hook H W)) n c' with
        | undefined e => trivial
        | halted vm' hd =>
          rw [hl] at this
          obtain ⟨t1, rest, t2, t3⟩ := this
          dsimp only
          rw [t3, g2]
          simp only [List.append_assoc]
          have := key ((if vm1.memory pc.toNat = 0 then [Ev.endExec] else []) ++ (rest ++ [.endExec]))
          simpa only [List.append_assoc] using this
        | running d' =>
          rw [hl] at this
          obtain ⟨t1, rest, t2, t3⟩ := this
          dsimp only
          right
          rw [t3, g2]
          have := key ((if vm1.memory pc.toNat = 0 then [Ev.endExec] else []) ++ rest)
          simpa only [List.append_assoc] using this

/-! ## Between executions -/

theorem runLoop_size {τ : Type} (cfg : Cfg) (H : Host σ) (hk : KeepsMemSize H) (n : Nat) (c : Cpu (σ × τ)) (hm : 65536 ≤ c.vm.memSize) (vm' : VM) (x : σ × τ)
    (e : runLoop cfg (withNotes τ H) none n c = .halted vm' x) : vm'.memSize = c.vm.memSize := by
  induction n generalizing c with
  | zero => cases e
  | succ n ih =>
    unfold runLoop at e
    cases hr : round cfg (withNotes τ H) none c with
    | error u => rw [hr] at e; cases e
    | ok y =>
      obtain ⟨b, c'⟩ := y
      rw [hr] at e
      have hs : step cfg (withNotes τ H) c = .ok (b, c') := hr
      have h1 := step_memSize (keepsMemSize_notes hk) hm hs
      cases b with
      | false => cases e; exact h1
      | true => rw [ih c' (by rw [h1]; exact hm) e, h1]

theorem runLoop_hooked_size (cfg : Cfg) (H : Host σ) (hk : KeepsMemSize H) (W : Wire ω) (n : Nat) (c : Cpu (σ × D ω)) (hm : 65536 ≤ c.vm.memSize) (vm' : VM)
    (x : σ × D ω) (e : runLoop cfg (withNotes (D ω) H) (some (hook H W)) n c = .halted vm' x) : vm'.memSize = c.vm.memSize := by
  induction n generalizing c with
  | zero => cases e
  | succ n ih =>
    unfold runLoop at e
    cases hr : round cfg (withNotes (D ω) H) (some (hook H W)) c with
    | error u => rw [hr] at e; cases e
    | ok y =>
      obtain ⟨b, c'⟩ := y
      rw [hr] at e
      obtain ⟨_, _, _, _, h1, _⟩ := round_facts hk hm hr
      cases b with
      | false => cases e; exact h1
      | true => rw [ih c' (by rw [h1]; exact hm) e, h1]

/-- The state of the debugger between two executions. -/
theorem vector_ready (cfg : Cfg) (H : Host σ) (hk : KeepsMemSize H) (W : Wire ω) (k0 : Byte × Byte) (n : Nat) (vm : VM)
    (hm : 65536 ≤ vm.memSize) (h : σ) (a : Attached ω) (hd : a.d.dbg.executing = false) (pc : Short) (vm' : VM) (x : σ × D ω)
    (e : execute cfg (withNotes (D ω) H) (if a.hooked then some (hook H W) else none) k0 n vm (h, a.d) pc = .halted vm' x) :
    x.2.dbg.executing = false ∧ vm'.memSize = vm.memSize ∧
      ((a.hooked = false ∨ pc = 0) ∧ x.2 = a.d ∨ ∃ evs, Breaks n evs ∧ x.2.log = a.d.log ++ [.beginExec pc] ++ evs ++ [.endExec]) := by
  by_cases hpc : pc = 0
  · unfold execute at e
    rw [if_pos hpc] at e
    cases e
    exact ⟨hd, rfl, .inl ⟨.inr hpc, rfl⟩⟩
  · cases hh : a.hooked with
    | true =>
      rw [hh] at e
      have hE := C25_events cfg H hk W k0 n vm hm h a.d hd pc hpc
      have e : execute cfg (withNotes (D ω) H) (some (hook H W)) k0 n vm (h, a.d) pc = .halted vm' x := e
      rw [e] at hE
      refine ⟨hE.1, ?_, .inr hE.2⟩
      unfold execute at e
      rw [if_neg hpc] at e
      exact runLoop_hooked_size cfg H hk W n _ hm vm' x e
    | false =>
      rw [hh] at e
      have e : execute cfg (withNotes (D ω) H) none k0 n vm (h, a.d) pc = .halted vm' x := e
      unfold execute at e
      rw [if_neg hpc] at e
      have hu := runLoop_unhooked (cfg := cfg) hk n (enter vm (h, a.d) pc k0) hm
      rw [e] at hu
      have hu : x.2 = a.d := hu
      exact ⟨by rw [hu]; exact hd, runLoop_size cfg H hk n _ hm vm' x e, .inl ⟨.inl rfl, hu⟩⟩

/-- The events of complete executions. -/
inductive Executions (n : Nat) : List Ev → Prop
  | nil : Executions n []
  | cons (pc : Short) {evs rest : List Ev} : Breaks n evs → Executions n rest → Executions n (.beginExec pc :: (evs ++ .endExec :: rest))

theorem session_events (cfg : Cfg) (H : Host σ) (hk : KeepsMemSize H) (W : Wire ω) (n : Nat) (l : List (Step σ)) (hl : Keeping l) (vm : VM)
    (hm : 65536 ≤ vm.memSize) (h : σ) (a : Attached ω) (hd : a.d.dbg.executing = false) (vm' : VM) (h' : σ) (a' : Attached ω)
    (e : session cfg H W n l vm h a = some (vm', h', a')) :
    a'.d.dbg.executing = false ∧ vm'.memSize = vm.memSize ∧ ∃ evs, Executions n evs ∧ a'.d.log = a.d.log ++ evs := by
  induction l generalizing vm h a with
  | nil => cases e; exact ⟨hd, rfl, [], .nil, by simp⟩
  | cons s l ih =>
    have hl' : Keeping l := fun f hf => hl f (List.mem_cons_of_mem _ hf)
    cases s with
    | update p =>
      have hd' : (update p a).d.dbg.executing = false := by
        unfold update
        cases p <;> exact hd
      exact ih hl' vm hm h (update p a) hd' e
    | outside f =>
      have hs := hl f (by simp) vm h
      obtain ⟨r1, r2, r3⟩ := ih hl' _ (by rw [hs]; exact hm) _ a hd e
      exact ⟨r1, r2.trans hs, r3⟩
    | vector pc k =>
      unfold session at e
      split at e
      · rename_i vm1 x hx
        obtain ⟨q1, q2, q3⟩ := vector_ready cfg H hk W k n vm hm h a hd pc vm1 x hx
        obtain ⟨r1, r2, evs, r3, r4⟩ := ih hl' vm1 (by rw [q2]; exact hm) x.1 { a with d := x.2 } q1 e
        refine ⟨r1, r2.trans q2, ?_⟩
        rcases q3 with ⟨-, q3⟩ | ⟨bs, b1, b2⟩
        · exact ⟨evs, r3, by rw [r4]; dsimp only; rw [q3]⟩
        · refine ⟨_, .cons pc b1 r3, ?_⟩
          rw [r4]
          dsimp only
          rw [b2]
          simp
      · cases e

/-- **C73**, reports. From the time it is attached, whatever the program does, whenever requests arrive and whatever they are, the
debugger is told of complete executions only: one after the other, each with its start, its breaks and its end. -/
theorem C73_reports (cfg : Cfg) (H : Host σ) (hk : KeepsMemSize H) (W : Wire ω) (n : Nat) (l : List (Step σ)) (hl : Keeping l) (vm : VM)
    (hm : 65536 ≤ vm.memSize) (h : σ) (w : ω) (vm' : VM) (h' : σ) (a' : Attached ω)
    (e : session cfg H W n l vm h (attached w) = some (vm', h', a')) : Executions n a'.d.log := by
  obtain ⟨-, -, evs, h1, h2⟩ := session_events cfg H hk W n l hl vm hm h (attached w) rfl vm' h' a' e
  rw [h2]
  exact h1

/-- **C73**, at the start. The program pauses before the first instruction that it executes, so that breakpoints can be set. -/
theorem C73_start (cfg : Cfg) (H : Host σ) (hk : KeepsMemSize H) (W : Wire ω) (n : Nat) (vm : VM) (hm : 65536 ≤ vm.memSize) (h : σ) (w : ω)
    (pc : Short) (hpc : pc ≠ 0) (k : Byte × Byte) (vm' : VM) (h' : σ) (a' : Attached ω)
    (e : session cfg H W n [.vector pc k] vm h (attached w) = some (vm', h', a')) : PausesFirst pc a'.d.log := by
  have hp := pauses cfg H hk W k n vm hm h (attached w).d rfl rfl pc hpc
  unfold session at e
  split at e
  · rename_i vm1 x hx
    have hx : execute cfg (withNotes (D ω) H) (some (hook H W)) k n vm (h, (attached w).d) pc = .halted vm1 x := hx
    rw [hx] at hp
    cases e
    obtain ⟨evs, h1, h2⟩ := hp
    dsimp only
    rw [h1]
    exact h2
  · cases e

/-- **C73**, requests. If there is a request when the program looks for one, the next vector pauses before its first instruction,
at whatever time this is. -/
theorem C73_request (cfg : Cfg) (H : Host σ) (hk : KeepsMemSize H) (W : Wire ω) (n : Nat) (l : List (Step σ)) (hl : Keeping l) (vm : VM)
    (hm : 65536 ≤ vm.memSize) (h : σ) (w : ω) (vm1 : VM) (h1 : σ) (a1 : Attached ω)
    (e1 : session cfg H W n l vm h (attached w) = some (vm1, h1, a1)) (pc : Short) (hpc : pc ≠ 0) (k : Byte × Byte)
    (vm2 : VM) (h2 : σ) (a2 : Attached ω) (e2 : session cfg H W n [.update true, .vector pc k] vm1 h1 a1 = some (vm2, h2, a2)) :
    ∃ evs, a2.d.log = a1.d.log ++ evs ∧ PausesFirst pc evs := by
  obtain ⟨q1, q2, -⟩ := session_events cfg H hk W n l hl vm hm h (attached w) rfl vm1 h1 a1 e1
  have hm1 : 65536 ≤ vm1.memSize := by rw [q2]; exact hm
  have hp := pauses cfg H hk W k n vm1 hm1 h1 (update true a1).d q1 rfl pc hpc
  unfold session at e2
  unfold session at e2
  split at e2
  · rename_i vm' x hx
    have hx : execute cfg (withNotes (D ω) H) (some (hook H W)) k n vm1 (h1, (update true a1).d) pc = .halted vm' x := hx
    rw [hx] at hp
    cases e2
    exact hp
  · cases e2

/-- **C73**, otherwise. When there is no request, the debugger has let the program go on and no breakpoint is set, nothing is
reported until the next request, however many vectors are executed. -/
theorem C73_undisturbed (cfg : Cfg) (H : Host σ) (hk : KeepsMemSize H) (W : Wire ω) (n : Nat) (l : List (Step σ)) (hl : Keeping l)
    (hq : .update true ∉ l) (vm : VM) (hm : 65536 ≤ vm.memSize) (h : σ) (a : Attached ω) (hd : a.d.dbg.executing = false)
    (hs : a.d.dbg.standing = .execute) (hb : a.d.dbg.nbrkps = 0) (vm' : VM) (h' : σ) (a' : Attached ω)
    (e : session cfg H W n (.update false :: l) vm h a = some (vm', h', a')) : a'.d = a.d := by
  have hu : ∀ a : Attached ω, a.d.dbg.standing = .execute → a.d.dbg.nbrkps = 0 → update false a = ⟨false, a.d⟩ := by
    intro a h1 h2
    unfold update shouldHook
    simp [h1, h2]
  have e : session cfg H W n l vm h (update false a) = some (vm', h', a') := e
  rw [hu a hs hb] at e
  have key : ∀ (l : List (Step σ)) (vm : VM) (h : σ), Keeping l → .update true ∉ l → 65536 ≤ vm.memSize →
      session cfg H W n l vm h ⟨false, a.d⟩ = some (vm', h', a') → a'.d = a.d := by
    intro l
    induction l with
    | nil => intro vm h _ _ _ e; cases e; rfl
    | cons s l ih =>
      intro vm h hl hq hm e
      have hl' : Keeping l := fun f hf => hl f (List.mem_cons_of_mem _ hf)
      have hq' : .update true ∉ l := fun hx => hq (List.mem_cons_of_mem _ hx)
      cases s with
      | update p =>
        cases p with
        | true => exact absurd (List.mem_cons_self ..) hq
        | false =>
          have e : session cfg H W n l vm h (update false ⟨false, a.d⟩) = some (vm', h', a') := e
          rw [hu ⟨false, a.d⟩ hs hb] at e
          exact ih vm h hl' hq' hm e
      | outside f => exact ih _ _ hl' hq' (by rw [hl f (by simp) vm h]; exact hm) e
      | vector pc k =>
        unfold session at e
        split at e
        · rename_i vm1 x hx
          obtain ⟨-, q2, q3⟩ := vector_ready cfg H hk W k n vm hm h ⟨false, a.d⟩ hd pc vm1 x hx
          have hxd : x.2 = a.d := by
            have hx : execute cfg (withNotes (D ω) H) none k n vm (h, a.d) pc = .halted vm1 x := hx
            unfold execute at hx
            split at hx
            · cases hx; rfl
            · have hu := runLoop_unhooked (cfg := cfg) hk n (enter vm (h, a.d) pc k) hm
              rw [hx] at hu
              exact hu
          have e : session cfg H W n l vm1 x.1 ⟨false, x.2⟩ = some (vm', h', a') := e
          rw [hxd] at e
          exact ih vm1 x.1 hl' hq' (by rw [q2]; exact hm) e
        · cases e
  exact key l vm h hl hq hm e

/-! ## A debugger that only looks -/

theorem runLoop_inv {cfg : Cfg} {H : Host σ} (hk : KeepsMemSize H) {W : Wire ω} {look : Prop} {Inv : ω → Prop}
    (hl : look → QuietReads H) (hw : Looking W look Inv) (n : Nat) (c : Cpu (σ × D ω)) (hm : 65536 ≤ c.vm.memSize)
    (hi : Inv c.host.2.wire) (vm' : VM) (x : σ × D ω) (e : runLoop cfg (withNotes (D ω) H) (some (hook H W)) n c = .halted vm' x) : Inv x.2.wire := by
  induction n generalizing c with
  | zero => cases e
  | succ n ih =>
    unfold runLoop at e
    cases hr : round cfg (withNotes (D ω) H) (some (hook H W)) c with
    | error u => rw [hr] at e; cases e
    | ok y =>
      obtain ⟨b, c'⟩ := y
      rw [hr] at e
      obtain ⟨vm1, h1, f1, _, f3, _⟩ := round_facts hk hm hr
      obtain ⟨d', ef, hi'⟩ := hook_looking hl hw c.pc c.sys.vm hm c.host.1 c.host.2 hi
      rw [f1] at ef
      injection ef with ef
      injection ef with ef1 ef
      injection ef with ef2 ef
      rw [← ef] at hi'
      cases b with
      | false => cases e; exact hi'
      | true => exact ih c' (by rw [f3]; exact hm) hi' e

theorem vector_looking (cfg : Cfg) (H : Host σ) (hk : KeepsMemSize H) (W : Wire ω) {look : Prop} {Inv : ω → Prop}
    (hl : look → QuietReads H) (hw : Looking W look Inv) (k : Byte × Byte) (n : Nat) (vm : VM)
    (hm : 65536 ≤ vm.memSize) (h : σ) (a : Attached ω) (hi : Inv a.d.wire) (pc : Short) :
    match execute cfg H none k n vm h pc with
    | .halted vm' h' => ∃ d', execute cfg (withNotes (D ω) H) (if a.hooked then some (hook H W) else none) k n vm (h, a.d) pc = .halted vm' (h', d') ∧ Inv d'.wire
    | _ => ∀ vm' x, execute cfg (withNotes (D ω) H) (if a.hooked then some (hook H W) else none) k n vm (h, a.d) pc ≠ .halted vm' x := by
  by_cases hpc : pc = 0
  · unfold execute
    rw [if_pos hpc, if_pos hpc]
    exact ⟨a.d, rfl, hi⟩
  have hv : ∃ d', (execute cfg (withNotes (D ω) H) (if a.hooked then some (hook H W) else none) k n vm (h, a.d) pc).view =
      ((execute cfg H none k n vm h pc).view).addNotes d' := by
    cases a.hooked with
    | true =>
      refine ⟨_, Eq.trans ?_ (C07_hook_transparent cfg H hk (hookNote H W) k k n vm hm h a.d pc hpc)⟩
      simp only [execute, if_neg hpc]
      exact congrArg _ (runLoop_looking hk hl hw n _ hm hi)
    | false =>
      refine ⟨a.d, ?_⟩
      rw [C01_execute_is_uxn_iso cfg H hk k n vm hm h pc hpc]
      exact (C01_execute_is_uxn_iso cfg (withNotes (D ω) H) (keepsMemSize_notes hk) k n vm hm (h, a.d) pc hpc).trans
        (run_notes cfg H a.d n { vm := vm, host := h, pc := pc.toNat })
  obtain ⟨d', hv⟩ := hv
  generalize hx : execute cfg (withNotes (D ω) H) (if a.hooked then some (hook H W) else none) k n vm (h, a.d) pc = X at hv
  cases hp : execute cfg H none k n vm h pc with
  | halted vm' h' =>
    rw [hp] at hv
    cases X with
    | halted vm2 x =>
      have hv : Spec.Outcome.halted vm2 x = .halted vm' (h', d') := hv
      injection hv with h1 h2
      subst h1 h2
      refine ⟨d', rfl, ?_⟩
      cases hh : a.hooked with
      | true =>
        rw [hh] at hx
        have hx : execute cfg (withNotes (D ω) H) (some (hook H W)) k n vm (h, a.d) pc = .halted vm2 (h', d') := hx
        unfold execute at hx
        rw [if_neg hpc] at hx
        exact runLoop_inv hk hl hw n _ hm hi vm2 _ hx
      | false =>
        rw [hh] at hx
        have hx : execute cfg (withNotes (D ω) H) none k n vm (h, a.d) pc = .halted vm2 (h', d') := hx
        unfold execute at hx
        rw [if_neg hpc] at hx
        have hu := runLoop_unhooked (cfg := cfg) hk n (enter vm (h, a.d) pc k) hm
        rw [hx] at hu
        have hu : d' = a.d := hu
        rw [hu]; exact hi
    | undefined u => cases hv
    | running c => cases hv
  | undefined u =>
    rw [hp] at hv
    intro vm' x hX
    rw [hX] at hv
    cases hv
  | running c =>
    rw [hp] at hv
    intro vm' x hX
    rw [hX] at hv
    cases hv

theorem plain_size (cfg : Cfg) (H : Host σ) (hk : KeepsMemSize H) (k : Byte × Byte) (n : Nat) (vm : VM) (hm : 65536 ≤ vm.memSize) (h : σ) (pc : Short)
    (vm' : VM) (h' : σ) (e : execute cfg H none k n vm h pc = .halted vm' h') : vm'.memSize = vm.memSize := by
  unfold execute at e
  split at e
  · cases e; rfl
  · have : ∀ (n : Nat) (c : Cpu σ), 65536 ≤ c.vm.memSize → runLoop cfg H none n c = .halted vm' h' → vm'.memSize = c.vm.memSize := by
      intro n
      induction n with
      | zero => intro c _ e; cases e
      | succ n ih =>
        intro c hm e
        unfold runLoop at e
        cases hr : round cfg H none c with
        | error u => rw [hr] at e; cases e
        | ok y =>
          obtain ⟨b, c'⟩ := y
          rw [hr] at e
          have hs : step cfg H c = .ok (b, c') := hr
          have h1 := step_memSize hk hm hs
          cases b with
          | false => cases e; exact h1
          | true => rw [ih c' (by rw [h1]; exact hm) e, h1]
    exact this n _ hm e

/-- **C73**, looking. With a debugger that only looks (see C27) the whole program, from the time it is attached, does exactly what
it does without one: same memory, stacks and devices, whenever requests come and whether the hook is in place or not. -/
theorem C73_looking (cfg : Cfg) (H : Host σ) (hk : KeepsMemSize H) (W : Wire ω) {look : Prop} {Inv : ω → Prop}
    (hq : look → QuietReads H) (hw : Looking W look Inv) (n : Nat) (l : List (Step σ)) (hl : Keeping l) (vm : VM)
    (hm : 65536 ≤ vm.memSize) (h : σ) (w : ω) (hi : Inv w) :
    (session cfg H W n l vm h (attached w)).map (fun x => (x.1, x.2.1)) = plain cfg H n l vm h := by
  have key : ∀ (l : List (Step σ)) (vm : VM) (h : σ) (a : Attached ω), Keeping l → 65536 ≤ vm.memSize → Inv a.d.wire →
      (session cfg H W n l vm h a).map (fun x => (x.1, x.2.1)) = plain cfg H n l vm h := by
    intro l
    induction l with
    | nil => intro vm h a _ _ _; rfl
    | cons s l ih =>
      intro vm h a hl hm hi
      have hl' : Keeping l := fun f hf => hl f (List.mem_cons_of_mem _ hf)
      cases s with
      | update p => exact ih vm h (update p a) hl' hm hi
      | outside f => exact ih _ _ a hl' (by rw [hl f (by simp) vm h]; exact hm) hi
      | vector pc k =>
        have hv := vector_looking cfg H hk W hq hw k n vm hm h a hi pc
        unfold session plain
        cases hp : execute cfg H none k n vm h pc with
        | halted vm' h' =>
          rw [hp] at hv
          obtain ⟨d', e, hd⟩ := hv
          rw [e]
          exact ih vm' h' { a with d := d' } hl' (by rw [plain_size cfg H hk k n vm hm h pc vm' h' hp]; exact hm) hd
        | undefined u =>
          rw [hp] at hv
          split
          · rename_i hX; exact absurd hX (hv _ _)
          · rfl
        | running c =>
          rw [hp] at hv
          split
          · rename_i hX; exact absurd hX (hv _ _)
          · rfl
  exact key l vm h (attached w) hl hm hi

/-! ## A case -/

/-- The program starts, waits, gets a request, and executes another vector after something outside has changed its memory. -/
def day : List (Step Unit) := [.vector 0x100 (0, 0), .update false, .outside fun vm h => ({ vm with memory := upd vm.memory 7 5 }, h),
  .update true, .vector 0x100 (0, 0)]

example : Keeping day ∧ KeepsMemSize plainHost ∧ 65536 ≤ (booted [0x80, 3, 0x01]).memSize := by
  refine ⟨?_, ?_, by decide⟩
  · intro f hf vm h
    simp only [day, List.mem_cons, List.not_mem_nil, or_false, reduceCtorEq, false_or, Step.outside.injEq] at hf
    subst hf
    rfl
  · exact plainHost_keeps

example : ∃ vm a, session ⟨false, true⟩ plainHost curious 9 day (booted [0x80, 3, 0x01]) () (attached ()) = some (vm, (), a) ∧
    a.d.log.length = 2 * (3 * 6 + 2) ∧ vm.ws 0 = 4 ∧ vm.memory 7 = 5 := ⟨_, _, rfl, rfl, rfl, rfl⟩

end Buxn.Dbg
