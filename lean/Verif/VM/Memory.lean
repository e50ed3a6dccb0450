import Verif.VM.Props
/-!
# C89: a program needs only the memory it addresses

The first part: the instructions of the machine address 64K, whatever the size of the memory.
-/
namespace Buxn.VM
open Spec
variable {σ : Type}

/-! ## Specification -/

/-- The machine with the first `M` bytes of its memory only. -/
def VM.cut (M : Nat) (vm : VM) : VM := { vm with memSize := M, memory := fun i => if i < M then vm.memory i else 0 }

/-- Two machines that agree on their stacks, their devices and the first `M` bytes of their memory. -/
structure Agree (M : Nat) (vm vm' : VM) : Prop where
  ws : vm.ws = vm'.ws
  rs : vm.rs = vm'.rs
  wsp : vm.wsp = vm'.wsp
  rsp : vm.rsp = vm'.rsp
  device : vm.device = vm'.device
  memory : ∀ i, i < M → vm.memory i = vm'.memory i

theorem agree_iff {M : Nat} {vm vm' : VM} : Agree M vm vm' ↔ vm.cut M = vm'.cut M := by
  constructor
  · rintro ⟨h1, h2, h3, h4, h5, h6⟩
    unfold VM.cut
    have : (fun i => if i < M then vm.memory i else 0) = fun i => if i < M then vm'.memory i else 0 := by
      funext i
      split
      · exact h6 i ‹_›
      · rfl
    rw [h1, h2, h3, h4, h5, this]
  · intro h
    refine ⟨show (vm.cut M).ws = (vm'.cut M).ws by rw [h], show (vm.cut M).rs = (vm'.cut M).rs by rw [h], show (vm.cut M).wsp = (vm'.cut M).wsp by rw [h], show (vm.cut M).rsp = (vm'.cut M).rsp by rw [h], show (vm.cut M).device = (vm'.cut M).device by rw [h], fun i hi => ?_⟩
    have := congrFun (congrArg (fun v : VM => v.memory) h) i
    simp only [VM.cut, if_pos hi] at this
    exact this

/-- At least `M` bytes of memory, and no more than 32-bit indices can address. -/
def Sized (M : Nat) (vm : VM) : Prop := M ≤ vm.memSize ∧ vm.memSize + 65536 ≤ 2 ^ 32

theorem Sized.of {M : Nat} {vm vm' : VM} (h : Sized M vm) (e : vm'.memSize = vm.memSize) : Sized M vm' := by
  unfold Sized at h ⊢
  rw [e]; exact h

/-- Devices that do not look at the memory behind the first `M` bytes and do not change it. -/
structure Within (M : Nat) (H : Host σ) : Prop where
  dei : ∀ a vm h, Sized M vm → H.dei a (vm.cut M) h = (H.dei a vm h).map fun x => (x.1, x.2.1.cut M, x.2.2)
  deo : ∀ a vm h, Sized M vm → H.deo a (vm.cut M) h = (H.deo a vm h).map fun x => (x.1.cut M, x.2)

/-! ## Instructions -/

variable {M : Nat}

theorem cut_memory {vm : VM} {i : Nat} (h : i < M) : (vm.cut M).memory i = vm.memory i := if_pos h

theorem cut_setPtr (r : Bool) (p : Byte) (vm : VM) : setPtr r p (vm.cut M) = (setPtr r p vm).cut M := by cases r <;> rfl

theorem cut_poke (r : Bool) (p : Byte) (v : Nat) (vm : VM) : poke r p v (vm.cut M) = (poke r p v vm).cut M := by cases r <;> rfl

theorem cut_ptr (r : Bool) (vm : VM) : ptr r (vm.cut M) = ptr r vm := by cases r <;> rfl

theorem cut_stack (r : Bool) (vm : VM) : stack r (vm.cut M) = stack r vm := by cases r <;> rfl

theorem cut_pushValue (r : Bool) (n v : Nat) (vm : VM) : pushValue r n v (vm.cut M) = (pushValue r n v vm).cut M := by
  unfold pushValue
  split <;> simp only [cut_ptr, cut_poke, cut_setPtr]

theorem cut_pushAll (r : Bool) (n : Nat) (vs : List Nat) (vm : VM) : pushAll r n vs (vm.cut M) = (pushAll r n vs vm).cut M := by
  unfold pushAll
  induction vs generalizing vm with
  | nil => rfl
  | cons v vs ih => rw [List.foldl_cons, List.foldl_cons, cut_pushValue, ih]

theorem cut_peekMem (vm : VM) (a page n : Nat) (hp : page = 256 ∨ page = 65536) (hM : 65536 ≤ M) : peekMem (vm.cut M) a page n = peekMem vm a page n := by
  have h : ∀ x, x % page < M := fun x => by rcases hp with rfl | rfl <;> omega
  unfold peekMem
  rw [cut_memory (h _), cut_memory (h _)]

theorem cut_upd (f : Nat → Byte) (i : Nat) (v : Byte) (h : i < M) : upd (fun i => if i < M then f i else 0) i v = fun j => if j < M then upd f i v j else 0 := by
  funext j
  unfold upd
  by_cases e : j = i
  · subst e; simp [h]
  · simp [e]

theorem cut_pokeMem (vm : VM) (a page n v : Nat) (hp : page = 256 ∨ page = 65536) (hM : 65536 ≤ M) : pokeMem (vm.cut M) a page n v = (pokeMem vm a page n v).cut M := by
  have h : ∀ x, x % page < M := fun x => by rcases hp with rfl | rfl <;> omega
  unfold pokeMem VM.cut
  dsimp only
  split
  · rw [cut_upd _ _ _ (h _), cut_upd _ _ _ (h _)]
  · rw [cut_upd _ _ _ (h _)]

/-- Results of two computations, one on the machine as it is and one on the machine that is cut. -/
theorem map_bind {α β γ δ : Type} {x : Res α} {f : α → β} {g : β → Res γ} {k : α → Res δ} {q : δ → γ} (h : ∀ a, x = .ok a → g (f a) = (k a).map q) :
    (x.map f >>= g) = (x >>= k).map q := by
  cases x with
  | error e => rfl
  | ok a => exact h a rfl

def _root_.Buxn.VM.Spec.Sys.cut (M : Nat) (s : Sys σ) : Sys σ := { s with vm := s.vm.cut M }

theorem Within.deviceIn {H : Host σ} (hw : Within M H) (hk : KeepsMemSize H) (cfg : Cfg) (n p : Nat) (vm : VM) (h : σ) (hm : Sized M vm) :
    Spec.deviceIn cfg H n p (vm.cut M) h = (Spec.deviceIn cfg H n p vm h).map fun x => (x.1, x.2.1.cut M, x.2.2) := by
  unfold Spec.deviceIn
  dsimp only
  split
  · split
    all_goals
      rw [hw.dei _ _ _ hm]
      refine map_bind ?_
      rintro ⟨x, vm1, h1⟩ e
      dsimp only
      rw [hw.dei _ _ _ (hm.of (hk.dei _ _ _ _ _ _ e))]
      exact map_bind fun _ _ => rfl
  · rw [hw.dei _ _ _ hm]
    exact map_bind fun _ _ => rfl

theorem Within.deviceOut {H : Host σ} (hw : Within M H) (hk : KeepsMemSize H) (n p v : Nat) (vm : VM) (h : σ) (hm : Sized M vm) :
    Spec.deviceOut H n p v (vm.cut M) h = (Spec.deviceOut H n p v vm h).map fun x => (x.1.cut M, x.2) := by
  unfold Spec.deviceOut
  dsimp only
  split
  · generalize hd : upd (upd vm.device (BitVec.ofNat 8 p) (BitVec.ofNat 8 (v / 256))) (BitVec.ofNat 8 (p + 1)) (BitVec.ofNat 8 v) = dev
    rw [show ({ vm.cut M with device := upd (upd (vm.cut M).device (BitVec.ofNat 8 p) (BitVec.ofNat 8 (v / 256))) (BitVec.ofNat 8 (p + 1)) (BitVec.ofNat 8 v) } : VM) =
      VM.cut M { vm with device := dev } from by rw [← hd]; rfl]
    rw [hw.deo _ { vm with device := dev } _ hm]
    refine map_bind ?_
    rintro ⟨vm1, h1⟩ e
    exact hw.deo _ _ _ (Sized.of (vm := { vm with device := dev }) hm (hk.deo _ _ _ _ _ e))
  · exact hw.deo _ { vm with device := _ } _ hm

/-- Which actions are on which pages. -/
def Paged : Action → Prop
  | .load _ page => page = 256 ∨ page = 65536
  | .store _ page _ => page = 256 ∨ page = 65536
  | _ => True

theorem action_paged (n pc : Nat) (op : Op) (l : List Nat) : Paged (action n pc op l) := by
  cases op <;> (unfold action; split <;> first | trivial | exact .inl rfl | exact .inr rfl | simp_all [Paged])

theorem Within.perform {H : Host σ} (hw : Within M H) (hk : KeepsMemSize H) (hM : 65536 ≤ M) (cfg : Cfg) (r : Bool) (n pc : Nat) (vm : VM) (h : σ) (a : Action) (ha : Paged a)
    (hm : Sized M vm) : Spec.perform cfg H r n pc (vm.cut M) h a = (Spec.perform cfg H r n pc vm h a).map (Sys.cut M) := by
  cases a with
  | push vs => simp only [Spec.perform, cut_pushAll]; rfl
  | pushByte v => simp only [Spec.perform, cut_pushValue]; rfl
  | stash v => simp only [Spec.perform, cut_pushValue]; rfl
  | jump t => rfl
  | call t => simp only [Spec.perform, cut_pushValue]; rfl
  | load x page => simp only [Spec.perform, cut_pushValue, cut_peekMem _ _ _ _ ha hM]; rfl
  | store x page v => simp only [Spec.perform, cut_pokeMem _ _ _ _ _ ha hM]; rfl
  | deviceIn p =>
    unfold Spec.perform
    dsimp only
    rw [hw.deviceIn hk _ _ _ _ _ hm]
    refine map_bind ?_
    rintro ⟨v, vm1, h1⟩ _
    show Except.ok _ = Except.ok _
    rw [cut_pushValue]
    rfl
  | deviceOut p v =>
    unfold Spec.perform
    dsimp only
    rw [hw.deviceOut hk _ _ _ _ _ hm]
    exact map_bind fun _ _ => rfl

theorem setPtr_memSize (r : Bool) (p : Byte) (vm : VM) : (setPtr r p vm).memSize = vm.memSize := by cases r <;> rfl

theorem Within.operation {H : Host σ} (hw : Within M H) (hk : KeepsMemSize H) (hM : 65536 ≤ M) (cfg : Cfg) (op : Op) (short ret keep : Bool) (pc : Nat) (vm : VM) (h : σ)
    (hm : Sized M vm) : Spec.operation cfg H op short ret keep pc (vm.cut M) h = (Spec.operation cfg H op short ret keep pc vm h).map (Sys.cut M) := by
  unfold Spec.operation
  dsimp only
  rw [cut_ptr, cut_stack]
  cases keep with
  | true => exact hw.perform hk hM _ _ _ _ _ _ _ (action_paged _ _ _ _) hm
  | false =>
    simp only [Bool.false_eq_true, if_false, cut_setPtr]
    exact hw.perform hk hM _ _ _ _ _ _ _ (action_paged _ _ _ _) (hm.of (setPtr_memSize _ _ _))

theorem Within.step {H : Host σ} (hw : Within M H) (hk : KeepsMemSize H) (hM : 65536 ≤ M) (cfg : Cfg) (s : Sys σ) (hpc : s.pc < 65536) (hm : Sized M s.vm) :
    Spec.step cfg H (s.cut M) = (Spec.step cfg H s).map (Option.map (Sys.cut M)) := by
  unfold Spec.step
  dsimp only
  rw [show (s.cut M).vm = s.vm.cut M from rfl, show (s.cut M).pc = s.pc from rfl, show (s.cut M).host = s.host from rfl, cut_memory (by omega)]
  simp only [cut_peekMem _ _ _ _ (.inr rfl) hM]
  generalize (s.vm.memory s.pc) = opc
  split
  · split
    · rfl
    · rw [show (s.vm.cut M).wsp = s.vm.wsp from rfl, show (s.vm.cut M).ws = s.vm.ws from rfl, cut_setPtr]; rfl
    · rfl
    · rw [cut_pushValue]; rfl
    · rw [cut_pushValue]; rfl
  · split
    · rw [hw.operation hk hM _ _ _ _ _ _ _ _ hm]
      cases Spec.operation cfg H _ _ _ _ _ s.vm s.host <;> rfl
    · rfl

theorem relative_lt (pc d : Nat) : relative pc d < 65536 := by unfold relative; omega

/-- Where an action goes on. -/
def Lands : Action → Prop
  | .jump t | .call t => t < 65536
  | _ => True

theorem action_lands (n pc : Nat) (hn : n = 1 ∨ n = 2) (hp : pc < 65536) (op : Op) (stk : Byte → Byte) (p : Byte) :
    Lands (action n pc op (operandsAt stk p (operandSizes n op))) := by
  have ht : ∀ q, target n pc (valueAt stk q n) < 65536 := by
    intro q
    unfold target
    split
    · exact ‹n = 2› ▸ valueAt_lt16 stk q true
    · exact relative_lt _ _
  cases op <;> first | trivial | exact ht _ | (show (if _ then _ else _) < 65536; split <;> first | exact hp | exact ht _)

theorem perform_pc {cfg : Cfg} {H : Host σ} {r : Bool} {n pc : Nat} {vm : VM} {h : σ} {a : Action} {s : Sys σ} (hl : Lands a) (hp : pc < 65536)
    (e : Spec.perform cfg H r n pc vm h a = .ok s) : s.pc < 65536 := by
  cases a with
  | jump t => cases e; exact hl
  | call t => cases e; exact hl
  | deviceIn p =>
    unfold Spec.perform at e
    dsimp only at e
    cases hd : Spec.deviceIn cfg H n p vm h with
    | error u => rw [hd] at e; cases e
    | ok x => rw [hd] at e; cases e; exact hp
  | deviceOut p v =>
    unfold Spec.perform at e
    dsimp only at e
    cases hd : Spec.deviceOut H n p v vm h with
    | error u => rw [hd] at e; cases e
    | ok x => rw [hd] at e; cases e; exact hp
  | _ => cases e; exact hp

theorem step_pc {cfg : Cfg} {H : Host σ} {s s' : Sys σ} (e : Spec.step cfg H s = .ok (some s')) : s'.pc < 65536 := by
  unfold Spec.step at e
  dsimp only at e
  split at e
  · split at e
    · cases e
    · cases e; exact Nat.mod_lt _ (by omega)
    · cases e; exact Nat.mod_lt _ (by omega)
    · cases e; exact Nat.mod_lt _ (by omega)
    · cases e; exact Nat.mod_lt _ (by omega)
  · split at e
    · unfold Spec.operation at e
      dsimp only at e
      cases hf : Spec.perform cfg H _ _ _ _ _ _ with
      | error u => rw [hf] at e; cases e
      | ok x =>
        rw [hf] at e
        cases e
        exact perform_pc (action_lands _ _ (by split <;> simp) (Nat.mod_lt _ (by omega)) _ _ _) (Nat.mod_lt _ (by omega)) hf
    · cases e

/-! ## Runs -/

/-- The outcome of a run, of whose machine only the first `M` bytes of the memory count. -/
def _root_.Buxn.VM.Spec.Outcome.cut (M : Nat) : Spec.Outcome σ → Spec.Outcome σ
  | .halted vm h => .halted (vm.cut M) h
  | .undefined e => .undefined e
  | .running s => .running (s.cut M)

theorem step_size {cfg : Cfg} {H : Host σ} (hk : KeepsMemSize H) {s s' : Sys σ} (e : Spec.step cfg H s = .ok (some s')) : s'.vm.memSize = s.vm.memSize := by
  exact spec_step_memSize hk e

theorem cut_mulOverflows (s : Sys σ) (hM : 65536 ≤ M) (hpc : s.pc < 65536) : mulOverflows (s.cut M) ↔ mulOverflows s := by
  unfold mulOverflows
  dsimp only
  rw [show (s.cut M).vm = s.vm.cut M from rfl, show (s.cut M).pc = s.pc from rfl, cut_memory (by omega), cut_stack, cut_ptr]

theorem Within.run {H : Host σ} (hw : Within M H) (hk : KeepsMemSize H) (hM : 65536 ≤ M) (cfg : Cfg) (n : Nat) (s : Sys σ) (hpc : s.pc < 65536) (hm : Sized M s.vm) :
    Spec.run (cstep cfg H) n (s.cut M) = (Spec.run (cstep cfg H) n s).cut M := by
  induction n generalizing s with
  | zero => rfl
  | succ n ih =>
    unfold Spec.run
    unfold cstep
    by_cases ho : cfg.wrapv = false ∧ mulOverflows s
    · rw [if_pos ho, if_pos ⟨ho.1, (cut_mulOverflows s hM hpc).2 ho.2⟩]; rfl
    · rw [if_neg ho, if_neg fun h => ho ⟨h.1, (cut_mulOverflows s hM hpc).1 h.2⟩, hw.step hk hM cfg s hpc hm]
      cases hs : Spec.step cfg H s with
      | error u => rfl
      | ok x =>
        cases x with
        | none => rfl
        | some s' => exact ih s' (step_pc hs) (hm.of (step_size hk hs))

/-- Two runs that end alike: both come to their end, both are undefined in the same way, or both are at the same instruction; with the same
devices, and with machines that agree on their stacks, their device pages and the first `M` bytes of their memory. -/
inductive Alike (M : Nat) : Spec.Outcome σ → Spec.Outcome σ → Prop
  | halted {vm vm' : VM} {h : σ} : Agree M vm vm' → Alike M (.halted vm h) (.halted vm' h)
  | undefined {u : UB} : Alike M (.undefined u) (.undefined u)
  | running {vm vm' : VM} {h : σ} {pc : Nat} : Agree M vm vm' → Alike M (.running ⟨vm, h, pc⟩) (.running ⟨vm', h, pc⟩)

theorem alike_of {x y : Spec.Outcome σ} (e : x.cut M = y.cut M) : Alike M x y := by
  cases x with
  | halted vm h =>
    cases y with
    | halted vm' h' =>
      have h1 : vm.cut M = vm'.cut M := by injection e
      have h2 : h = h' := by injection e
      subst h2
      exact .halted (agree_iff.2 h1)
    | _ => cases e
  | undefined u => cases y with
    | undefined u' => cases e; exact .undefined
    | _ => cases e
  | running s =>
    cases y with
    | running s' =>
      have h1 : s.cut M = s'.cut M := by injection e
      obtain ⟨vm, h, pc⟩ := s
      obtain ⟨vm', h', pc'⟩ := s'
      have h2 : vm.cut M = vm'.cut M := congrArg Sys.vm h1
      have h3 : h = h' := congrArg Sys.host h1
      have h4 : pc = pc' := congrArg Sys.pc h1
      subst h3 h4
      exact .running (agree_iff.2 h2)
    | _ => cases e

theorem Within.execute {H : Host σ} (hw : Within M H) (hk : KeepsMemSize H) (hM : 65536 ≤ M) (cfg : Cfg) (k0 k0' : Byte × Byte) (n : Nat) (vm vm' : VM) (h : σ)
    (pc : Short) (hm : Sized M vm) (hm' : Sized M vm') (ha : Agree M vm vm') :
    (execute cfg H none k0 n vm h pc).view.cut M = (execute cfg H none k0' n vm' h pc).view.cut M := by
  have he := agree_iff.1 ha
  by_cases hpc : pc = 0
  · unfold VM.execute
    rw [if_pos hpc, if_pos hpc]
    show Spec.Outcome.halted _ _ = Spec.Outcome.halted _ _
    rw [he]
  · rw [C01_execute_is_uxn_iso cfg H hk k0 n vm (Nat.le_trans hM hm.1) h pc hpc, C01_execute_is_uxn_iso cfg H hk k0' n vm' (Nat.le_trans hM hm'.1) h pc hpc,
      ← hw.run hk hM cfg n { vm := vm, host := h, pc := pc.toNat } pc.isLt hm, ← hw.run hk hM cfg n { vm := vm', host := h, pc := pc.toNat } pc.isLt hm']
    unfold Spec.Sys.cut
    dsimp only
    rw [he]

/-- **C89**, the instructions: whatever the program, on two machines with memories of any two sizes of at least `M ≥ 64K` bytes whose first `M`
bytes, stacks and device pages agree, and with devices that stay within the first `M` bytes, `buxn_vm_execute` does the same for any number of
instructions. (Whatever the uninitialised locals.) -/
theorem C89_same_run {H : Host σ} (hw : Within M H) (hk : KeepsMemSize H) (hM : 65536 ≤ M) (cfg : Cfg) (k0 k0' : Byte × Byte) (n : Nat) (vm vm' : VM) (h : σ)
    (pc : Short) (hm : Sized M vm) (hm' : Sized M vm') (ha : Agree M vm vm') :
    Alike M (execute cfg H none k0 n vm h pc).view (execute cfg H none k0' n vm' h pc).view :=
  alike_of (hw.execute hk hM cfg k0 k0' n vm vm' h pc hm hm' ha)

end Buxn.VM
