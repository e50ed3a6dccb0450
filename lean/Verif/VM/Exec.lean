import Verif.VM.StepLemmas
/-! Facts about the specification and about whole executions. -/
namespace Buxn.VM
variable {σ : Type}
open Spec

theorem memSize_pushValue (r : Bool) (n v : Nat) (vm : VM) : (pushValue r n v vm).memSize = vm.memSize := by
  unfold pushValue; split <;> cases r <;> rfl
theorem memory_pushValue (r : Bool) (n v : Nat) (vm : VM) : (pushValue r n v vm).memory = vm.memory := by
  unfold pushValue; split <;> cases r <;> rfl
theorem device_pushValue (r : Bool) (n v : Nat) (vm : VM) : (pushValue r n v vm).device = vm.device := by
  unfold pushValue; split <;> cases r <;> rfl
theorem memSize_pushAll (r : Bool) (n : Nat) (vs : List Nat) (vm : VM) : (pushAll r n vs vm).memSize = vm.memSize := by
  unfold pushAll
  induction vs generalizing vm with
  | nil => rfl
  | cons v vs ih => rw [List.foldl_cons, ih, memSize_pushValue]
theorem memory_pushAll (r : Bool) (n : Nat) (vs : List Nat) (vm : VM) : (pushAll r n vs vm).memory = vm.memory := by
  unfold pushAll
  induction vs generalizing vm with
  | nil => rfl
  | cons v vs ih => rw [List.foldl_cons, ih, memory_pushValue]
theorem device_pushAll (r : Bool) (n : Nat) (vs : List Nat) (vm : VM) : (pushAll r n vs vm).device = vm.device := by
  unfold pushAll
  induction vs generalizing vm with
  | nil => rfl
  | cons v vs ih => rw [List.foldl_cons, ih, device_pushValue]
theorem memSize_setPtr (r : Bool) (p : Byte) (vm : VM) : (setPtr r p vm).memSize = vm.memSize := by cases r <;> rfl
theorem memory_setPtr (r : Bool) (p : Byte) (vm : VM) : (setPtr r p vm).memory = vm.memory := by cases r <;> rfl
theorem device_setPtr (r : Bool) (p : Byte) (vm : VM) : (setPtr r p vm).device = vm.device := by cases r <;> rfl
theorem memSize_pokeMem (vm : VM) (a p n v : Nat) : (pokeMem vm a p n v).memSize = vm.memSize := by
  unfold pokeMem; split <;> rfl

theorem deviceIn_memSize {cfg : Cfg} {H : Host σ} (hk : KeepsMemSize H) {n p : Nat} {vm : VM} {h : σ} {v : Nat} {vm' : VM}
    {h' : σ} (e : deviceIn cfg H n p vm h = .ok (v, vm', h')) : vm'.memSize = vm.memSize := by
  unfold deviceIn at e
  simp only [bind, Except.bind, pure, Except.pure] at e
  split at e
  · split at e
    · split at e
      · cases e
      · rename_i x hx
        split at e
        · cases e
        · rename_i y hy
          cases e
          rw [hk.dei _ _ _ _ _ _ hy, hk.dei _ _ _ _ _ _ hx]
    · split at e
      · cases e
      · rename_i x hx
        split at e
        · cases e
        · rename_i y hy
          cases e
          rw [hk.dei _ _ _ _ _ _ hy, hk.dei _ _ _ _ _ _ hx]
  · split at e
    · cases e
    · rename_i x hx
      cases e
      exact hk.dei _ _ _ _ _ _ hx

theorem deviceOut_memSize {H : Host σ} (hk : KeepsMemSize H) {n p v : Nat} {vm : VM} {h : σ} {vm' : VM}
    {h' : σ} (e : deviceOut H n p v vm h = .ok (vm', h')) : vm'.memSize = vm.memSize := by
  unfold deviceOut at e
  simp only [bind, Except.bind] at e
  split at e
  · split at e
    · cases e
    · rename_i x hx
      rw [hk.deo _ _ _ _ _ e, hk.deo _ _ _ _ _ hx]
  · have := hk.deo _ _ _ _ _ e
    exact this

theorem perform_memSize {cfg : Cfg} {H : Host σ} (hk : KeepsMemSize H) {r : Bool} {n pc : Nat} {vm : VM} {h : σ}
    {a : Action} {s : Sys σ} (e : perform cfg H r n pc vm h a = .ok s) : s.vm.memSize = vm.memSize := by
  cases a with
  | deviceIn p =>
    simp only [perform, bind, Except.bind, pure, Except.pure] at e
    split at e
    · cases e
    · rename_i x hx
      cases e
      exact (memSize_pushValue _ _ _ _).trans (deviceIn_memSize hk hx)
  | deviceOut p v =>
    simp only [perform, bind, Except.bind, pure, Except.pure] at e
    split at e
    · cases e
    · rename_i x hx
      cases e
      exact deviceOut_memSize hk hx
  | _ => cases e; first | exact memSize_pushAll _ _ _ _ | exact memSize_pushValue _ _ _ _ | rfl | exact memSize_pokeMem _ _ _ _ _

theorem operation_memSize {cfg : Cfg} {H : Host σ} (hk : KeepsMemSize H) {op : Op} {s r k : Bool} {pc : Nat} {vm : VM}
    {h : σ} {x : Sys σ} (e : operation cfg H op s r k pc vm h = .ok x) : x.vm.memSize = vm.memSize := by
  have := perform_memSize hk e
  rw [this]
  split
  · rfl
  · exact memSize_setPtr _ _ _

theorem spec_step_memSize {cfg : Cfg} {H : Host σ} (hk : KeepsMemSize H) {s s' : Sys σ}
    (e : Spec.step cfg H s = .ok (some s')) : s'.vm.memSize = s.vm.memSize := by
  unfold Spec.step at e
  dsimp only at e
  split at e
  · split at e
    · cases e
    · cases e; exact memSize_setPtr _ _ _
    · cases e; rfl
    · cases e; exact memSize_pushValue _ _ _ _
    · cases e; exact memSize_pushValue _ _ _ _
  · split at e
    · cases hx : operation cfg H ‹Op› (s.vm.memory s.pc |>.getLsbD 5) (s.vm.memory s.pc |>.getLsbD 6)
        (s.vm.memory s.pc |>.getLsbD 7) ((s.pc + 1) % 65536) s.vm s.host with
      | error e' => rw [hx] at e; cases e
      | ok y => rw [hx] at e; cases e; exact operation_memSize hk hx
    · cases e

theorem deviceIn_error {cfg : Cfg} {H : Host σ} {u : UB} (hk : KeepsMemSize H) (ha : Avoids u H) {n p : Nat} {vm : VM} {h : σ}
    (hm : 65536 ≤ vm.memSize) : deviceIn cfg H n p vm h ≠ .error u := by
  intro e
  unfold deviceIn at e
  simp only [bind, Except.bind, pure, Except.pure] at e
  split at e
  · split at e
    all_goals
      split at e
      · rename_i x hx; cases e; exact ha.dei _ _ _ hm hx
      · rename_i x hx
        split at e
        · rename_i x' hx'; cases e
          exact ha.dei _ _ _ (by rw [hk.dei _ _ _ _ _ _ hx]; exact hm) hx'
        · cases e
  · split at e
    · rename_i x hx; cases e; exact ha.dei _ _ _ hm hx
    · cases e

theorem deviceOut_error {H : Host σ} {u : UB} (hk : KeepsMemSize H) (ha : Avoids u H) {n p v : Nat} {vm : VM} {h : σ}
    (hm : 65536 ≤ vm.memSize) : deviceOut H n p v vm h ≠ .error u := by
  intro e
  unfold deviceOut at e
  simp only [bind, Except.bind] at e
  split at e
  · split at e
    · rename_i x hx; cases e; exact ha.deo _ _ _ (by exact hm) hx
    · rename_i x hx
      exact ha.deo _ _ _ (by rw [hk.deo _ _ _ _ _ hx]; exact hm) e
  · exact ha.deo _ _ _ (by exact hm) e

theorem perform_error {cfg : Cfg} {H : Host σ} {u : UB} (hk : KeepsMemSize H) (ha : Avoids u H) {r : Bool} {n pc : Nat}
    {vm : VM} {h : σ} (hm : 65536 ≤ vm.memSize) {a : Action} : perform cfg H r n pc vm h a ≠ .error u := by
  intro e
  cases a with
  | deviceIn p =>
    simp only [perform, bind, Except.bind, pure, Except.pure] at e
    split at e
    · rename_i hx; cases e; exact deviceIn_error hk ha hm hx
    · cases e
  | deviceOut p v =>
    simp only [perform, bind, Except.bind, pure, Except.pure] at e
    split at e
    · rename_i hx; cases e; exact deviceOut_error hk ha hm hx
    · cases e
  | _ => cases e

theorem spec_step_error {cfg : Cfg} {H : Host σ} {u : UB} (hk : KeepsMemSize H) (ha : Avoids u H) {s : Sys σ}
    (hm : 65536 ≤ s.vm.memSize) : Spec.step cfg H s ≠ .error u := by
  intro e
  unfold Spec.step at e
  dsimp only at e
  split at e
  · split at e <;> cases e
  · split at e
    · cases hx : operation cfg H ‹Op› (s.vm.memory s.pc |>.getLsbD 5) (s.vm.memory s.pc |>.getLsbD 6)
        (s.vm.memory s.pc |>.getLsbD 7) ((s.pc + 1) % 65536) s.vm s.host with
      | error e' =>
        rw [hx] at e; cases e
        refine perform_error hk ha ?_ hx
        split
        · exact hm
        · rw [memSize_setPtr]; exact hm
      | ok y => rw [hx] at e; cases e
    · cases e

theorem step_not_error {cfg : Cfg} {H : Host σ} {u : UB} (hk : KeepsMemSize H) (ha : Avoids u H)
    (hu : u = .signedOverflow → cfg.wrapv = true) {c : Cpu σ}
    (hm : 65536 ≤ c.vm.memSize) : step cfg H c ≠ .error u := by
  intro e
  by_cases ho : cfg.wrapv = true ∨ ¬ mulOverflows c.sys
  · have := step_related cfg H c hm ho
    rw [e] at this
    exact spec_step_error hk ha (by exact hm) this
  · have h1 : cfg.wrapv = false := by
      cases hw : cfg.wrapv
      · rfl
      · exact absurd (Or.inl hw) ho
    rw [step_mul_overflow cfg H c hm h1 (Classical.not_not.mp fun h => ho (Or.inr h))] at e
    cases e
    rw [hu rfl] at h1; cases h1

theorem step_memSize {cfg : Cfg} {H : Host σ} (hk : KeepsMemSize H) {c c' : Cpu σ} {b : Bool}
    (hm : 65536 ≤ c.vm.memSize) (e : step cfg H c = .ok (b, c')) : c'.vm.memSize = c.vm.memSize := by
  by_cases ho : cfg.wrapv = true ∨ ¬ mulOverflows c.sys
  · have := step_related cfg H c hm ho
    rw [e] at this
    cases b
    · have h2 := this.2.1; rw [h2]; rfl
    · exact spec_step_memSize (s := c.sys) (s' := c'.sys) hk this
  · have h1 : cfg.wrapv = false := by
      cases hw : cfg.wrapv
      · rfl
      · exact absurd (Or.inl hw) ho
    rw [step_mul_overflow cfg H c hm h1 (Classical.not_not.mp fun h => ho (Or.inr h))] at e
    cases e

/-- `Spec.cstep` relates to the interpreter without conditions. -/
theorem step_related_c (cfg : Cfg) (H : Host σ) (c : Cpu σ) (h : 65536 ≤ c.vm.memSize) :
    Related c.sys (step cfg H c) (cstep cfg H c.sys) := by
  unfold cstep
  split
  · rename_i hx
    rw [step_mul_overflow cfg H c h hx.1 hx.2]; rfl
  · rename_i hx
    apply step_related cfg H c h
    cases hw : cfg.wrapv
    · exact Or.inr fun ho => hx ⟨hw, ho⟩
    · exact Or.inl rfl

theorem cstep_memSize {cfg : Cfg} {H : Host σ} (hk : KeepsMemSize H) {s s' : Sys σ}
    (e : cstep cfg H s = .ok (some s')) : s'.vm.memSize = s.vm.memSize := by
  unfold cstep at e
  split at e
  · cases e
  · exact spec_step_memSize hk e

/-- What an observer sees of an outcome of the interpreter. -/
def Outcome.view : Outcome σ → Spec.Outcome σ
  | .halted vm h => .halted vm h
  | .undefined e => .undefined e
  | .running c => .running c.sys

theorem runLoop_view (cfg : Cfg) (H : Host σ) (hk : KeepsMemSize H) (n : Nat) (c : Cpu σ)
    (h : 65536 ≤ c.vm.memSize) :
    (runLoop cfg H none n c).view = run (cstep cfg H) n c.sys := by
  induction n generalizing c with
  | zero => rfl
  | succ n ih =>
    have hr := step_related_c cfg H c h
    have e : round cfg H none c = step cfg H c := rfl
    unfold runLoop run
    rw [e]
    cases hs : step cfg H c with
    | error u => rw [hs] at hr; rw [show cstep cfg H c.sys = .error u from hr]; rfl
    | ok x =>
      obtain ⟨b, c'⟩ := x
      rw [hs] at hr
      cases b with
      | false =>
        obtain ⟨h1, h2, h3⟩ := hr
        rw [h1]
        simp only [Outcome.view, h2, h3]
      | true =>
        have h1 : cstep cfg H c.sys = .ok (some c'.sys) := hr
        rw [h1]
        exact ih c' (by rw [step_memSize hk h hs]; exact h)

theorem round_hook (cfg : Cfg) (H : Host σ) (f : Hook σ) (c : Cpu σ) :
    round cfg H (some f) c =
      match f c.pc c.sys.vm c.host with
      | .ok (vm, h) => step cfg H { c with vm := vm, host := h }
      | .error e => .error e := by
  have h1 : round cfg H (some f) c = (do
      let x ← (match f c.pc c.sys.vm c.host with
        | .ok (vm, h) => Except.ok ((), ({ c with vm := vm, host := h } : Cpu σ))
        | .error e => .error e)
      step cfg H x.2) := rfl
  rw [h1]
  cases f c.pc c.sys.vm c.host <;> rfl

/-- Put a notebook beside a system. -/
def addN {τ : Type} (t : τ) (s : Sys σ) : Sys (σ × τ) := { vm := s.vm, host := (s.host, t), pc := s.pc }

theorem deviceIn_notes {τ : Type} (cfg : Cfg) (H : Host σ) (n p : Nat) (vm : VM) (h : σ) (t : τ) :
    deviceIn cfg (withNotes τ H) n p vm (h, t) =
      (deviceIn cfg H n p vm h).map fun x => (x.1, x.2.1, (x.2.2, t)) := by
  unfold deviceIn withNotes
  simp only [bind, Except.bind, pure, Except.pure]
  split
  · split
    all_goals
      cases H.dei _ vm h with
      | error e => rfl
      | ok x =>
        obtain ⟨x1, x2, x3⟩ := x
        simp only [Except.map]
        cases H.dei _ x2 x3 with
        | error e => rfl
        | ok y => rfl
  · cases H.dei _ vm h with
    | error e => rfl
    | ok x => rfl

theorem deviceOut_notes {τ : Type} (H : Host σ) (n p v : Nat) (vm : VM) (h : σ) (t : τ) :
    deviceOut (withNotes τ H) n p v vm (h, t) =
      (deviceOut H n p v vm h).map fun x => (x.1, (x.2, t)) := by
  unfold deviceOut withNotes
  simp only [bind, Except.bind]
  split
  · cases H.deo _ _ h with
    | error e => rfl
    | ok x => rfl
  · rfl

theorem perform_notes {τ : Type} (cfg : Cfg) (H : Host σ) (r : Bool) (n pc : Nat) (vm : VM) (h : σ) (t : τ) (a : Action) :
    perform cfg (withNotes τ H) r n pc vm (h, t) a = (perform cfg H r n pc vm h a).map (addN t) := by
  cases a with
  | deviceIn p =>
    simp only [perform, bind, Except.bind, deviceIn_notes]
    cases deviceIn cfg H n p vm h <;> rfl
  | deviceOut p v =>
    simp only [perform, bind, Except.bind, deviceOut_notes]
    cases deviceOut H n p v vm h <;> rfl
  | _ => rfl

theorem step_notes {τ : Type} (cfg : Cfg) (H : Host σ) (s : Sys σ) (t : τ) :
    Spec.step cfg (withNotes τ H) (addN t s) = (Spec.step cfg H s).map (Option.map (addN t)) := by
  unfold Spec.step
  simp only [addN]
  split
  · split <;> rfl
  · split
    · unfold operation
      simp only [perform_notes]
      cases perform cfg H _ _ _ _ _ _ <;> rfl
    · rfl

theorem cstep_notes {τ : Type} (cfg : Cfg) (H : Host σ) (s : Sys σ) (t : τ) :
    cstep cfg (withNotes τ H) (addN t s) = (cstep cfg H s).map (Option.map (addN t)) := by
  have : mulOverflows (addN t s) ↔ mulOverflows s := Iff.rfl
  unfold cstep
  simp only [this]
  split
  · rfl
  · exact step_notes cfg H s t

theorem keepsMemSize_notes {τ : Type} {H : Host σ} (hk : KeepsMemSize H) : KeepsMemSize (withNotes τ H) where
  dei a vm h v vm' h' e := by
    simp only [withNotes] at e
    cases hx : H.dei a vm h.1 with
    | error u => rw [hx] at e; cases e
    | ok x => rw [hx] at e; cases e; exact hk.dei _ _ _ _ _ _ hx
  deo a vm h vm' h' e := by
    simp only [withNotes] at e
    cases hx : H.deo a vm h.1 with
    | error u => rw [hx] at e; cases e
    | ok x => rw [hx] at e; cases e; exact hk.deo _ _ _ _ _ hx

theorem runLoop_observed {τ : Type} (cfg : Cfg) (H : Host σ) (hk : KeepsMemSize H) (note : Sys σ → τ → τ)
    (n : Nat) (c : Cpu (σ × τ)) (s : Sys σ) (t : τ) (hc : c.sys = addN t s) (h : 65536 ≤ s.vm.memSize) :
    (runLoop cfg (withNotes τ H) (some (observer note)) n c).view =
      (run (cstep cfg H) n s).addNotes ((visited (cstep cfg H) n s).foldl (fun t x => note x t) t) := by
  induction n generalizing c s t with
  | zero => simp only [runLoop, Outcome.view, hc]; rfl
  | succ n ih =>
    obtain ⟨c1, hc1, hr⟩ : ∃ c1 : Cpu (σ × τ), c1.sys = addN (note s t) s ∧
        round cfg (withNotes τ H) (some (observer note)) c = step cfg (withNotes τ H) c1 := by
      refine ⟨{ c with vm := c.sys.vm, host := (c.host.1, note { vm := c.sys.vm, host := c.host.1, pc := c.pc.toNat } c.host.2) }, ?_, ?_⟩
      · have h1 : c.host = (s.host, t) := congrArg Sys.host hc
        have h2 : c.sys.vm = s.vm := congrArg Sys.vm hc
        have h3 : c.pc.toNat = s.pc := congrArg Sys.pc hc
        have key : ∀ x : σ × τ, ({ c with vm := c.sys.vm, host := x } : Cpu (σ × τ)).sys =
            { vm := c.sys.vm, host := x, pc := c.pc.toNat } := fun _ => rfl
        rw [key, h1, h3, h2]; rfl
      · rfl
    have hm : 65536 ≤ c1.vm.memSize := by
      have := congrArg (fun s => s.vm.memSize) hc1
      rw [show c1.vm.memSize = s.vm.memSize from this]; exact h
    have hrel := step_related_c cfg (withNotes τ H) c1 hm
    rw [hc1, cstep_notes] at hrel
    unfold runLoop run visited
    rw [hr]
    cases hs : step cfg (withNotes τ H) c1 with
    | error u =>
      rw [hs] at hrel
      cases hx : cstep cfg H s with
      | error u' => rw [hx] at hrel; cases hrel; rfl
      | ok x => rw [hx] at hrel; cases hrel
    | ok x =>
      obtain ⟨b, c'⟩ := x
      rw [hs] at hrel
      cases b with
      | false =>
        obtain ⟨h1, h2, h3⟩ := hrel
        cases hx : cstep cfg H s with
        | error u' => rw [hx] at h1; cases h1
        | ok x =>
          cases x with
          | some x => rw [hx] at h1; cases h1
          | none => simp only [Outcome.view, h2, h3]; rfl
      | true =>
        have h1 : Except.map (Option.map (addN (note s t))) (cstep cfg H s) = .ok (some c'.sys) := hrel
        cases hx : cstep cfg H s with
        | error u' => rw [hx] at h1; cases h1
        | ok x =>
          cases x with
          | none => rw [hx] at h1; cases h1
          | some s' =>
            rw [hx] at h1
            have h2 : c'.sys = addN (note s t) s' := by
              simp only [Except.map, Option.map] at h1
              injection h1 with h1; injection h1 with h1; exact h1.symm
            rw [List.foldl_cons]
            exact ih c' s' (note s t) h2 (by rw [cstep_memSize hk hx]; exact h)

end Buxn.VM
