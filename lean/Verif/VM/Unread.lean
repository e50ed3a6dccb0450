import Verif.VM.Memory
/-!
# C94: memory that a program does not read before it writes it does not matter

The first part: the instructions of the machine, with devices that have no use for the memory.
-/
namespace Buxn.VM
open Spec
variable {σ : Type}

/-! ## Specification -/

/-- The cells of a value of `n` bytes at an address, in a page that addresses wrap in. -/
def cells (a page n : Nat) : List Nat := if n = 2 then [a % page, (a + 1) % page] else [a % page]

/-- What the next instruction does, if it is not one of `BRK`, `JCI`, `JMI`, `JSI` and `LIT`; with the size of its operands, and the machine without them. -/
def does (s : Sys σ) : Option (Nat × VM × Action) :=
  let opcode := s.vm.memory s.pc
  let n := if opcode.getLsbD 5 then 2 else 1
  let r := opcode.getLsbD 6
  match opcode.toNat % 32 with
  | 0 => none
  | b + 1 => (mnemonics[b]?).map fun op =>
    let bottom := ptr r s.vm - BitVec.ofNat 8 (operandSizes n op).sum
    (n, (if opcode.getLsbD 7 then s.vm else setPtr r bottom s.vm), action n ((s.pc + 1) % 65536) op (operandsAt (stack r s.vm) bottom (operandSizes n op)))

/-- The cells of the memory that the next instruction reads: its own, those of its immediate operand (of a conditional jump that is taken), and those that it loads. -/
def reads (s : Sys σ) : List Nat :=
  let opcode := s.vm.memory s.pc
  s.pc ::
    match opcode.toNat % 32, opcode.getLsbD 7, opcode.getLsbD 6, opcode.getLsbD 5 with
    | 0, false, false, false => []
    | 0, false, false, true => if s.vm.ws (s.vm.wsp - 1) = 0 then [] else cells ((s.pc + 1) % 65536) 65536 2
    | 0, false, true, _ => cells ((s.pc + 1) % 65536) 65536 2
    | 0, true, _, short => cells ((s.pc + 1) % 65536) 65536 (if short then 2 else 1)
    | _ + 1, _, _, _ =>
      match does s with
      | some (n, _, .load a page) => cells a page n
      | _ => []

/-- The cells that it writes. -/
def writes (s : Sys σ) : List Nat :=
  match does s with
  | some (n, _, .store a page _) => cells a page n
  | _ => []

/-- The calls that a write of a value to a port makes to the devices: the port, the machine and the devices at that time. -/
def calls (H : Host σ) (n p v : Nat) (vm : VM) (h : σ) : List (Byte × VM × σ) :=
  if n = 2 then
    let vm1 : VM := { vm with device := upd (upd vm.device (BitVec.ofNat 8 p) (BitVec.ofNat 8 (v / 256))) (BitVec.ofNat 8 (p + 1)) (BitVec.ofNat 8 v) }
    (BitVec.ofNat 8 p, vm1, h) ::
      match H.deo (BitVec.ofNat 8 p) vm1 h with
      | .ok (vm2, h2) => [(BitVec.ofNat 8 (p + 1), vm2, h2)]
      | .error _ => []
  else [(BitVec.ofNat 8 p, { vm with device := upd vm.device (BitVec.ofNat 8 p) (BitVec.ofNat 8 v) }, h)]

/-- Those that the next instruction makes. -/
def asks (H : Host σ) (s : Sys σ) : List (Byte × VM × σ) :=
  match does s with
  | some (n, vm, .deviceOut p v) => calls H n p v vm s.host
  | _ => []

/-- What the devices do with the memory when a port is written: the cells that they look at, and those that they fill. -/
structure Usage (σ : Type) where
  looks : Byte → VM → σ → Nat → Prop
  fills : Byte → VM → σ → Nat → Bool

/-- A cell that is read by the next instruction or, if it writes to a port, by the devices. -/
def Looks (D : Usage σ) (H : Host σ) (s : Sys σ) (i : Nat) : Prop := i ∈ reads s ∨ ∃ q ∈ asks H s, D.looks q.1 q.2.1 q.2.2 i

/-- A cell that is filled by the next instruction or, if it writes to a port, by the devices. -/
def fills (D : Usage σ) (H : Host σ) (s : Sys σ) (i : Nat) : Bool := (writes s).contains i || (asks H s).any fun q => D.fills q.1 q.2.1 q.2.2 i

/-- The machine with other bytes in the cells `U`. -/
def VM.patch (U : Nat → Bool) (f : Nat → Byte) (vm : VM) : VM := { vm with memory := fun i => if U i then f i else vm.memory i }

def _root_.Buxn.VM.Spec.Sys.patch (U : Nat → Bool) (f : Nat → Byte) (s : Sys σ) : Sys σ := { s with vm := s.vm.patch U f }

def _root_.Buxn.VM.Spec.Outcome.patch (U : Nat → Bool) (f : Nat → Byte) : Spec.Outcome σ → Spec.Outcome σ
  | .halted vm h => .halted (vm.patch U f) h
  | .undefined e => .undefined e
  | .running s => .running (s.patch U f)

/-- Without some cells. -/
def without (U F : Nat → Bool) : Nat → Bool := fun i => U i && !F i

/-- The devices use the memory as is said: they do the same whatever is in the cells that they do not look at, and leave those alone that they do not fill. -/
structure Uses (D : Usage σ) (H : Host σ) : Prop where
  dei : ∀ a vm h U f, H.dei a (vm.patch U f) h = (H.dei a vm h).map fun x => (x.1, x.2.1.patch U f, x.2.2)
  deo : ∀ a vm h U f, 65536 ≤ vm.memSize → (∀ i, D.looks a vm h i → U i = false) →
    H.deo a (vm.patch U f) h = (H.deo a vm h).map fun x => (x.1.patch (without U (D.fills a vm h)) f, x.2)

/-- The cells `U` are not read in a run, neither by the instructions nor by the devices, unless they have been filled before. -/
def Unread (D : Usage σ) (H : Host σ) (U : Nat → Bool) (run : List (Sys σ)) : Prop :=
  ∀ before u later, run = before ++ u :: later → ∀ i, Looks D H u i → U i = true → ∃ w ∈ before, fills D H w i = true

/-- Those of the cells `U` that are not filled in a run. -/
def unwritten (D : Usage σ) (H : Host σ) (U : Nat → Bool) (run : List (Sys σ)) : Nat → Bool := fun i => U i && !run.any fun u => fills D H u i

/-! ## Instructions -/

variable {U : Nat → Bool} {f : Nat → Byte}

theorem patch_memory {vm : VM} {i : Nat} (h : U i = false) : (vm.patch U f).memory i = vm.memory i := by
  show (if U i then _ else _) = _
  rw [h]; rfl

theorem patch_setPtr (r : Bool) (p : Byte) (vm : VM) : setPtr r p (vm.patch U f) = (setPtr r p vm).patch U f := by cases r <;> rfl

theorem patch_poke (r : Bool) (p : Byte) (v : Nat) (vm : VM) : poke r p v (vm.patch U f) = (poke r p v vm).patch U f := by cases r <;> rfl

theorem patch_ptr (r : Bool) (vm : VM) : ptr r (vm.patch U f) = ptr r vm := by cases r <;> rfl

theorem patch_stack (r : Bool) (vm : VM) : stack r (vm.patch U f) = stack r vm := by cases r <;> rfl

theorem patch_pushValue (r : Bool) (n v : Nat) (vm : VM) : pushValue r n v (vm.patch U f) = (pushValue r n v vm).patch U f := by
  unfold pushValue
  split <;> simp only [patch_ptr, patch_poke, patch_setPtr]

theorem patch_pushAll (r : Bool) (n : Nat) (vs : List Nat) (vm : VM) : pushAll r n vs (vm.patch U f) = (pushAll r n vs vm).patch U f := by
  unfold pushAll
  induction vs generalizing vm with
  | nil => rfl
  | cons v vs ih => rw [List.foldl_cons, List.foldl_cons, patch_pushValue, ih]

theorem patch_peekMem {vm : VM} {a page n : Nat} (h : ∀ i ∈ cells a page n, U i = false) : peekMem (vm.patch U f) a page n = peekMem vm a page n := by
  unfold peekMem cells at *
  split
  · rename_i hn
    rw [if_pos hn] at h
    rw [patch_memory (h _ (by simp)), patch_memory (h _ (by simp))]
  · rename_i hn
    rw [if_neg hn] at h
    rw [patch_memory (h _ (by simp))]

theorem without_nil : without U (fun _ => false) = U := by
  funext i
  unfold without
  simp

theorem without_without (F G : Nat → Bool) : without (without U F) G = without U (fun i => F i || G i) := by
  funext i
  unfold without
  rw [Bool.not_or, Bool.and_assoc]

theorem patch_pokeMem (vm : VM) (a page n v : Nat) : pokeMem (vm.patch U f) a page n v = (pokeMem vm a page n v).patch (without U fun i => (cells a page n).contains i) f := by
  unfold pokeMem cells without VM.patch
  split
  · dsimp only
    congr 1
    funext i
    unfold upd
    by_cases h1 : i = (a + 1) % page
    · simp [h1]
    · by_cases h2 : i = a % page
      · simp [h1, h2]
      · simp [h1, h2]
  · dsimp only
    congr 1
    funext i
    unfold upd
    by_cases h2 : i = a % page
    · simp [h2]
    · simp [h2]

variable {D : Usage σ}

theorem Uses.deviceIn {H : Host σ} (hw : Uses D H) (cfg : Cfg) (n p : Nat) (vm : VM) (h : σ) :
    Spec.deviceIn cfg H n p (vm.patch U f) h = (Spec.deviceIn cfg H n p vm h).map fun x => (x.1, x.2.1.patch U f, x.2.2) := by
  unfold Spec.deviceIn
  dsimp only
  split
  · split
    all_goals
      rw [hw.dei]
      refine map_bind ?_
      rintro ⟨x, vm1, h1⟩ e
      dsimp only
      rw [hw.dei]
      exact map_bind fun _ _ => rfl
  · rw [hw.dei]
    exact map_bind fun _ _ => rfl

theorem Uses.deviceOut {H : Host σ} (hw : Uses D H) (hk : KeepsMemSize H) (n p v : Nat) (vm : VM) (h : σ) (hm : 65536 ≤ vm.memSize)
    (hl : ∀ q ∈ calls H n p v vm h, ∀ i, D.looks q.1 q.2.1 q.2.2 i → U i = false) :
    Spec.deviceOut H n p v (vm.patch U f) h =
      (Spec.deviceOut H n p v vm h).map fun x => (x.1.patch (without U fun i => (calls H n p v vm h).any fun q => D.fills q.1 q.2.1 q.2.2 i) f, x.2) := by
  unfold Spec.deviceOut calls at *
  dsimp only at *
  split
  · rename_i hn
    rw [if_pos hn] at hl
    generalize hd : upd (upd vm.device (BitVec.ofNat 8 p) (BitVec.ofNat 8 (v / 256))) (BitVec.ofNat 8 (p + 1)) (BitVec.ofNat 8 v) = dev at *
    rw [show ({ vm.patch U f with device := upd (upd (vm.patch U f).device (BitVec.ofNat 8 p) (BitVec.ofNat 8 (v / 256))) (BitVec.ofNat 8 (p + 1)) (BitVec.ofNat 8 v) } : VM) =
      VM.patch U f { vm with device := dev } from by rw [← hd]; rfl]
    rw [hw.deo _ { vm with device := dev } _ _ _ hm (hl _ List.mem_cons_self)]
    refine map_bind ?_
    rintro ⟨vm1, h1⟩ e
    rw [e] at hl ⊢
    dsimp only at hl ⊢
    rw [hw.deo _ _ _ _ _ (by rw [hk.deo _ _ _ _ _ e]; exact hm) (fun i hi => by
      have := hl _ (List.mem_cons_of_mem _ List.mem_cons_self) i hi
      unfold without
      rw [this]; rfl), without_without]
    simp only [List.any_cons, List.any_nil, Bool.or_false]
  · rename_i hn
    rw [if_neg hn] at hl
    have := hw.deo (BitVec.ofNat 8 p) { vm with device := upd vm.device (BitVec.ofNat 8 p) (BitVec.ofNat 8 v) } h U f hm (hl _ List.mem_cons_self)
    simp only [List.any_cons, List.any_nil, Bool.or_false]
    exact this

/-- What an action fills. -/
def actionFills (D : Usage σ) (H : Host σ) (n : Nat) (vm : VM) (h : σ) : Action → Nat → Bool
  | .store a page _ => fun i => (cells a page n).contains i
  | .deviceOut p v => fun i => (calls H n p v vm h).any fun q => D.fills q.1 q.2.1 q.2.2 i
  | _ => fun _ => false

theorem Uses.perform {H : Host σ} (hw : Uses D H) (hk : KeepsMemSize H) (cfg : Cfg) (r : Bool) (n pc : Nat) (vm : VM) (h : σ) (a : Action) (hm : 65536 ≤ vm.memSize)
    (hr : ∀ x page, a = .load x page → ∀ i ∈ cells x page n, U i = false)
    (hp : ∀ p v, a = .deviceOut p v → ∀ q ∈ calls H n p v vm h, ∀ i, D.looks q.1 q.2.1 q.2.2 i → U i = false) :
    Spec.perform cfg H r n pc (vm.patch U f) h a = (Spec.perform cfg H r n pc vm h a).map (Sys.patch (without U (actionFills D H n vm h a)) f) := by
  cases a with
  | push vs => unfold actionFills; rw [without_nil]; simp only [Spec.perform, patch_pushAll]; rfl
  | pushByte v => unfold actionFills; rw [without_nil]; simp only [Spec.perform, patch_pushValue]; rfl
  | stash v => unfold actionFills; rw [without_nil]; simp only [Spec.perform, patch_pushValue]; rfl
  | jump t => unfold actionFills; rw [without_nil]; rfl
  | call t => unfold actionFills; rw [without_nil]; simp only [Spec.perform, patch_pushValue]; rfl
  | load x page => unfold actionFills; rw [without_nil]; simp only [Spec.perform, patch_pushValue, patch_peekMem (hr x page rfl)]; rfl
  | store x page v => unfold actionFills; simp only [Spec.perform, patch_pokeMem]; rfl
  | deviceIn p =>
    unfold actionFills
    rw [without_nil]
    unfold Spec.perform
    dsimp only
    rw [hw.deviceIn]
    refine map_bind ?_
    rintro ⟨v, vm1, h1⟩ _
    show Except.ok _ = Except.ok _
    rw [patch_pushValue]
    rfl
  | deviceOut p v =>
    unfold actionFills
    unfold Spec.perform
    dsimp only
    rw [hw.deviceOut hk _ _ _ _ _ hm (hp p v rfl)]
    exact map_bind fun _ _ => rfl

theorem fills_none {H : Host σ} {s : Sys σ} (h : does s = none) : fills D H s = fun _ => false := by
  funext i
  unfold fills writes asks
  rw [h]
  rfl

theorem fills_some {H : Host σ} {s : Sys σ} {n : Nat} {vm : VM} {a : Action} (h : does s = some (n, vm, a)) : fills D H s = actionFills D H n vm s.host a := by
  funext i
  unfold fills writes asks
  rw [h]
  cases a <;> (unfold actionFills; simp)

theorem Uses.step {H : Host σ} (hw : Uses D H) (hk : KeepsMemSize H) (cfg : Cfg) (s : Sys σ) (hm : 65536 ≤ s.vm.memSize) (hl : ∀ i, Looks D H s i → U i = false) :
    Spec.step cfg H (s.patch U f) = (Spec.step cfg H s).map (Option.map (Sys.patch (without U (fills D H s)) f)) := by
  have hr : ∀ i ∈ reads s, U i = false := fun i hi => hl i (.inl hi)
  have hp : ∀ q ∈ asks H s, ∀ i, D.looks q.1 q.2.1 q.2.2 i → U i = false := fun q hq i hi => hl i (.inr ⟨q, hq, hi⟩)
  have h0 : U s.pc = false := hr _ (by unfold reads; exact List.mem_cons_self)
  have hop : (s.patch U f).vm.memory (s.patch U f).pc = s.vm.memory s.pc := patch_memory h0
  unfold Spec.step
  dsimp only
  rw [hop]
  unfold reads at hr
  unfold asks at hp
  have hd : ∀ b, (s.vm.memory s.pc).toNat % 32 = b + 1 → does s = (mnemonics[b]?).map fun op =>
      ((if (s.vm.memory s.pc).getLsbD 5 then 2 else 1),
        (if (s.vm.memory s.pc).getLsbD 7 then s.vm else setPtr ((s.vm.memory s.pc).getLsbD 6)
          (ptr ((s.vm.memory s.pc).getLsbD 6) s.vm - BitVec.ofNat 8 (operandSizes (if (s.vm.memory s.pc).getLsbD 5 then 2 else 1) op).sum) s.vm),
        action (if (s.vm.memory s.pc).getLsbD 5 then 2 else 1) ((s.pc + 1) % 65536) op
        (operandsAt (stack ((s.vm.memory s.pc).getLsbD 6) s.vm)
          (ptr ((s.vm.memory s.pc).getLsbD 6) s.vm - BitVec.ofNat 8 (operandSizes (if (s.vm.memory s.pc).getLsbD 5 then 2 else 1) op).sum)
          (operandSizes (if (s.vm.memory s.pc).getLsbD 5 then 2 else 1) op))) := by
    intro b hb
    unfold does
    dsimp only
    rw [hb]
  have hd0 : (s.vm.memory s.pc).toNat % 32 = 0 → does s = none := by
    intro hb
    unfold does
    dsimp only
    rw [hb]
  rw [show (s.patch U f).vm = s.vm.patch U f from rfl, show (s.patch U f).pc = s.pc from rfl, show (s.patch U f).host = s.host from rfl]
  dsimp only at hr
  generalize (s.vm.memory s.pc) = opc at hr hd hd0
  cases hb : opc.toNat % 32 with
  | zero =>
    rw [fills_none (hd0 hb)]
    rw [hb] at hr
    dsimp only at hr ⊢
    rw [without_nil]
    cases hk : opc.getLsbD 7 <;> cases hret : opc.getLsbD 6 <;> cases hs : opc.getLsbD 5 <;> rw [hk, hret, hs] at hr <;> dsimp only at hr ⊢
    · rfl
    · show Except.ok (some _) = Except.ok (some _)
      rw [show (s.vm.patch U f).wsp = s.vm.wsp from rfl, show (s.vm.patch U f).ws = s.vm.ws from rfl, patch_setPtr]
      by_cases hz : s.vm.ws (s.vm.wsp - 1) = 0
      · rw [if_pos hz, if_pos hz]; rfl
      · rw [if_neg hz] at hr
        rw [if_neg hz, if_neg hz, patch_peekMem fun i hi => hr i (List.mem_cons_of_mem _ hi)]; rfl
    · rw [patch_peekMem fun i hi => hr i (List.mem_cons_of_mem _ hi)]; rfl
    · rw [patch_peekMem fun i hi => hr i (List.mem_cons_of_mem _ hi), patch_pushValue]; rfl
    all_goals
      rw [patch_peekMem fun i hi => hr i (List.mem_cons_of_mem _ hi), patch_pushValue]; rfl
  | succ b =>
    have hd := hd b hb
    rw [hb] at hr
    dsimp only at hr ⊢
    cases hmn : mnemonics[b]? with
    | none => rfl
    | some op =>
      rw [hmn] at hd
      dsimp only [Option.map] at hd
      rw [fills_some hd]
      rw [hd] at hr hp
      dsimp only at hr hp ⊢
      unfold Spec.operation
      dsimp only
      rw [patch_ptr, patch_stack]
      have hset : ∀ q, (if opc.getLsbD 7 = true then s.vm.patch U f else setPtr (opc.getLsbD 6) q (s.vm.patch U f)) =
          (if opc.getLsbD 7 = true then s.vm else setPtr (opc.getLsbD 6) q s.vm).patch U f := by
        intro q
        cases opc.getLsbD 7 with
        | true => rfl
        | false => exact patch_setPtr _ _ _
      rw [hset, hw.perform hk]
      · cases Spec.perform cfg H _ _ _ _ _ _ <;> rfl
      · split
        · exact hm
        · rw [setPtr_memSize]; exact hm
      · intro x page e i hi
        rw [e] at hr
        exact hr i (List.mem_cons_of_mem _ hi)
      · intro p v e
        rw [e] at hp
        exact hp

/-! ## Runs -/

theorem patch_mulOverflows (s : Sys σ) (h : U s.pc = false) : mulOverflows (s.patch U f) ↔ mulOverflows s := by
  unfold mulOverflows
  dsimp only
  rw [show (s.patch U f).vm.memory (s.patch U f).pc = s.vm.memory s.pc from patch_memory h, show (s.patch U f).vm = s.vm.patch U f from rfl, patch_stack, patch_ptr]

theorem Uses.cstep {H : Host σ} (hw : Uses D H) (hk : KeepsMemSize H) (cfg : Cfg) (s : Sys σ) (hm : 65536 ≤ s.vm.memSize) (hl : ∀ i, Looks D H s i → U i = false) :
    Spec.cstep cfg H (s.patch U f) = (Spec.cstep cfg H s).map (Option.map (Sys.patch (without U (fills D H s)) f)) := by
  have h0 : U s.pc = false := hl _ (.inl (by unfold reads; exact List.mem_cons_self))
  unfold Spec.cstep
  by_cases ho : cfg.wrapv = false ∧ mulOverflows s
  · rw [if_pos ho, if_pos ⟨ho.1, (patch_mulOverflows s h0).2 ho.2⟩]; rfl
  · rw [if_neg ho, if_neg fun h => ho ⟨h.1, (patch_mulOverflows s h0).1 h.2⟩, hw.step hk cfg s hm hl]

theorem cstep_none {H : Host σ} {cfg : Cfg} {s : Sys σ} (hs : Spec.cstep cfg H s = .ok none) : does s = none := by
  unfold Spec.cstep at hs
  split at hs
  · cases hs
  · unfold does
    unfold Spec.step at hs
    dsimp only at hs ⊢
    cases hb : (s.vm.memory s.pc).toNat % 32 with
    | zero => rfl
    | succ b =>
      rw [hb] at hs
      dsimp only at hs ⊢
      cases hm : mnemonics[b]? with
      | none => rfl
      | some op =>
        rw [hm] at hs
        dsimp only at hs
        cases ho : Spec.operation cfg H op ((s.vm.memory s.pc).getLsbD 5) ((s.vm.memory s.pc).getLsbD 6) ((s.vm.memory s.pc).getLsbD 7) ((s.pc + 1) % 65536) s.vm s.host <;>
          rw [ho] at hs <;> cases hs

theorem cstep_size {H : Host σ} (hk : KeepsMemSize H) {cfg : Cfg} {s s' : Sys σ} (h : Spec.cstep cfg H s = .ok (some s')) : s'.vm.memSize = s.vm.memSize := by
  unfold Spec.cstep at h
  split at h
  · cases h
  · exact step_size hk h

/-- **C94**, the instructions. A run that reads none of the cells `U` before they are filled does the same whatever is in these cells: the same number of instructions, the same end,
the same effects on stacks, devices and all other cells; and the cells of `U` that have not been filled are as they were. The devices are any of which it is known how they use the
memory. -/
theorem C94_run {H : Host σ} (hw : Uses D H) (hk : KeepsMemSize H) (cfg : Cfg) (n : Nat) (s : Sys σ) (hm : 65536 ≤ s.vm.memSize) (U : Nat → Bool)
    (hu : Unread D H U (visited (Spec.cstep cfg H) n s)) (f : Nat → Byte) :
    Spec.run (Spec.cstep cfg H) n (s.patch U f) = (Spec.run (Spec.cstep cfg H) n s).patch (unwritten D H U (visited (Spec.cstep cfg H) n s)) f := by
  have hnil : ∀ U, unwritten D H U ([] : List (Sys σ)) = U := by intro U; funext i; unfold unwritten; simp
  induction n generalizing s U with
  | zero =>
    show Spec.Outcome.running _ = Spec.Outcome.running _
    rw [show visited (Spec.cstep cfg H) 0 s = [] from rfl, hnil]
  | succ n ih =>
    have hv : visited (Spec.cstep cfg H) (n + 1) s = s :: (match Spec.cstep cfg H s with | .ok (some s') => visited (Spec.cstep cfg H) n s' | _ => []) := rfl
    rw [hv] at hu ⊢
    have hr : ∀ i, Looks D H s i → U i = false := by
      intro i hi
      cases hx : U i with
      | false => rfl
      | true =>
        obtain ⟨w, hw, -⟩ := hu [] s _ rfl i hi hx
        cases hw
    have hstep := hw.cstep (U := U) (f := f) hk cfg s hm hr
    have hone : ∀ l : List (Sys σ), unwritten D H U (s :: l) = unwritten D H (without U (fills D H s)) l := by
      intro l
      funext i
      unfold unwritten without
      rw [List.any_cons, Bool.not_or, Bool.and_assoc]
    unfold Spec.run
    rw [hstep]
    cases hs : Spec.cstep cfg H s with
    | error e => rfl
    | ok x =>
      cases x with
      | none =>
        show Spec.Outcome.halted (s.vm.patch U f) s.host = Spec.Outcome.halted (s.vm.patch _ f) s.host
        rw [hone, fills_none (cstep_none hs), without_nil, hnil]
      | some s' =>
        show Spec.run (Spec.cstep cfg H) n (s'.patch (without U (fills D H s)) f) = _
        rw [hs] at hu
        dsimp only at hu ⊢
        rw [hone]
        refine ih s' (by rw [cstep_size hk hs]; exact hm) (without U (fills D H s)) fun before u later e i hi hx => ?_
        unfold without at hx
        rw [Bool.and_eq_true, Bool.not_eq_true'] at hx
        obtain ⟨w, hm, hi'⟩ := hu (s :: before) u later (by rw [e]; rfl) i hi hx.1
        rcases List.mem_cons.1 hm with rfl | hm
        · rw [hi'] at hx
          cases hx.2
        · exact ⟨w, hm, hi'⟩

/-! ## Two machines -/

/-- The machines agree in all but the cells `U` of their memories. -/
structure AgreeBut (U : Nat → Bool) (vm vm' : VM) : Prop where
  memSize : vm'.memSize = vm.memSize
  ws : vm'.ws = vm.ws
  rs : vm'.rs = vm.rs
  wsp : vm'.wsp = vm.wsp
  rsp : vm'.rsp = vm.rsp
  device : vm'.device = vm.device
  memory : ∀ i, U i = false → vm'.memory i = vm.memory i

/-- Two runs have stopped alike, or are still under way alike, with the same devices and with machines that agree in all but the cells `U`. -/
inductive AlikeBut (U : Nat → Bool) : Spec.Outcome σ → Spec.Outcome σ → Prop
  | halted {vm vm' : VM} {h : σ} : AgreeBut U vm vm' → AlikeBut U (.halted vm h) (.halted vm' h)
  | undefined {u : UB} : AlikeBut U (.undefined u) (.undefined u)
  | running {vm vm' : VM} {h : σ} {pc : Nat} : AgreeBut U vm vm' → AlikeBut U (.running ⟨vm, h, pc⟩) (.running ⟨vm', h, pc⟩)

theorem AgreeBut.patch {vm vm' : VM} (h : AgreeBut U vm vm') : vm' = vm.patch U vm'.memory := by
  obtain ⟨h1, h2, h3, h4, h5, h6, h7⟩ := h
  cases vm
  cases vm'
  dsimp only at *
  subst h1 h2 h3 h4 h5 h6
  unfold VM.patch
  congr 1
  funext i
  dsimp only
  cases hu : U i with
  | true => rfl
  | false => exact h7 i hu

theorem patch_agree (vm : VM) : AgreeBut U vm (vm.patch U f) := ⟨rfl, rfl, rfl, rfl, rfl, rfl, fun _ h => patch_memory h⟩

theorem patch_alike (o : Spec.Outcome σ) : AlikeBut U o (o.patch U f) := by
  cases o with
  | halted vm h => exact .halted (patch_agree vm)
  | undefined u => exact .undefined
  | running s => exact .running (patch_agree s.vm)

/-- **C94**, `buxn_vm_execute`: two machines that agree in all but the cells `U` do the same for any number of instructions, if the run of the first reads none of these cells before
they are filled; afterwards they agree in all but the cells of `U` that have not been filled. -/
theorem C94_execute {H : Host σ} (hw : Uses D H) (hk : KeepsMemSize H) (cfg : Cfg) (k0 k0' : Byte × Byte) (n : Nat) (vm vm' : VM) (h : σ) (pc : Short) (hpc : pc ≠ 0)
    (hm : 65536 ≤ vm.memSize) (U : Nat → Bool) (ha : AgreeBut U vm vm') (hu : Unread D H U (visited (Spec.cstep cfg H) n ⟨vm, h, pc.toNat⟩)) :
    AlikeBut (unwritten D H U (visited (Spec.cstep cfg H) n ⟨vm, h, pc.toNat⟩)) (execute cfg H none k0 n vm h pc).view (execute cfg H none k0' n vm' h pc).view := by
  have hm' : 65536 ≤ vm'.memSize := by rw [ha.memSize]; exact hm
  rw [C01_execute_is_uxn_iso cfg H hk k0 n vm hm h pc hpc, C01_execute_is_uxn_iso cfg H hk k0' n vm' hm' h pc hpc]
  have e := C94_run hw hk cfg n ⟨vm, h, pc.toNat⟩ hm U hu vm'.memory
  have e1 : (⟨vm, h, pc.toNat⟩ : Sys σ).patch U vm'.memory = ⟨vm', h, pc.toNat⟩ := by
    unfold Spec.Sys.patch
    dsimp only
    rw [← ha.patch]
  rw [e1] at e
  rw [e]
  exact patch_alike _

/-- A test for `Unread`: every instruction's own reads and a list that holds all cells that the devices look at. -/
def unreadIn (D : Usage σ) (H : Host σ) (all : Byte → VM → σ → Option (List Nat)) (U : Nat → Bool) : List (Sys σ) → Bool
  | [] => true
  | u :: rest =>
    (reads u).all (fun i => !U i) &&
    (asks H u).all (fun q => match all q.1 q.2.1 q.2.2 with | some l => l.all fun i => !U i | none => false) &&
    unreadIn D H all (without U (fills D H u)) rest

theorem unread_of {H : Host σ} {all : Byte → VM → σ → Option (List Nat)} (hall : ∀ a vm h l, all a vm h = some l → ∀ i, D.looks a vm h i → i ∈ l) {run : List (Sys σ)}
    (h : unreadIn D H all U run = true) : Unread D H U run := by
  induction run generalizing U with
  | nil =>
    intro before u later e
    cases before <;> cases e
  | cons s rest ih =>
    unfold unreadIn at h
    rw [Bool.and_eq_true, Bool.and_eq_true] at h
    obtain ⟨⟨h1, h2⟩, h3⟩ := h
    intro before u later e i hi hx
    cases before with
    | nil =>
      have e1 : u = s := by injection e with e1; exact e1.symm
      subst e1
      exfalso
      rcases hi with hi | ⟨q, hq, hi⟩
      · have := List.all_eq_true.1 h1 i hi
        rw [hx] at this
        cases this
      · have := List.all_eq_true.1 h2 q hq
        cases hl : all q.1 q.2.1 q.2.2 with
        | none => rw [hl] at this; cases this
        | some l =>
          rw [hl] at this
          have := List.all_eq_true.1 this i (hall _ _ _ _ hl i hi)
          rw [hx] at this
          cases this
    | cons b before =>
      have e1 : s = b := by injection e
      have e2 : rest = before ++ u :: later := by injection e
      subst e1
      by_cases hf : fills D H s i = true
      · exact ⟨s, List.mem_cons_self, hf⟩
      · obtain ⟨w, hw, hwi⟩ := ih h3 before u later e2 i hi (by unfold without; rw [hx, Bool.eq_false_iff.2 hf]; rfl)
        exact ⟨w, List.mem_cons_of_mem _ hw, hwi⟩

end Buxn.VM
