import Verif.VM.Memory
import Verif.VM.Frame
/-!
# C91: where the stacks begin, and what lies below, does not matter

The first part: the instructions of the machine know their stacks only from the top.
-/
namespace Buxn.VM
open Spec
variable {σ : Type}

/-! ## Specification -/

/-- Both stacks with their pointers. -/
structure Stacks where
  ws : Byte → Byte
  rs : Byte → Byte
  wsp : Byte
  rsp : Byte

/-- The machine with other stacks. -/
def VM.on (S : Stacks) (vm : VM) : VM := { vm with ws := S.ws, rs := S.rs, wsp := S.wsp, rsp := S.rsp }

/-- Devices that neither look at the stacks nor change them. -/
structure Blind (H : Host σ) : Prop where
  dei : ∀ a S vm h, H.dei a (vm.on S) h = (H.dei a vm h).map fun x => (x.1, x.2.1.on S, x.2.2)
  deo : ∀ a S vm h, H.deo a (vm.on S) h = (H.deo a vm h).map fun x => (x.1.on S, x.2)

/-- The number of bytes on a stack above a given cell, its bottom. -/
def height (O : Bool → Byte) (r : Bool) (vm : VM) : Nat := (ptr r vm - O r).toNat

/-- Two machines that agree on their memory and their devices, and on what is on their stacks above the cells `O` of the one and the
cells `O'` of the other. -/
structure Same (O O' : Bool → Byte) (vm vm' : VM) : Prop where
  memSize : vm'.memSize = vm.memSize
  memory : vm'.memory = vm.memory
  device : vm'.device = vm.device
  height : ∀ r, height O' r vm' = height O r vm
  cells : ∀ r j, j < VM.height O r vm → stack r vm' (O' r + BitVec.ofNat 8 j) = stack r vm (O r + BitVec.ofNat 8 j)

/-- How many bytes the instruction with this opcode takes from a stack. -/
def takes (opcode : Byte) (r : Bool) : Nat :=
  match opcode.toNat % 32 with
  | 0 => if opcode = 0x20 ∧ r = false then 1 else 0
  | b + 1 =>
    match mnemonics[b]? with
    | some op => if r = opcode.getLsbD 6 then (operandSizes (if opcode.getLsbD 5 then 2 else 1) op).sum else 0
    | none => 0

/-- The next instruction finds its operands above the bottoms, and there is room for what it can leave: six bytes. -/
def Served (O : Bool → Byte) (s : Sys σ) : Prop :=
  ∀ r, takes (s.vm.memory s.pc) r ≤ height O r s.vm ∧ height O r s.vm ≤ 249

/-- Two runs that end alike: both come to their end, both are undefined in the same way, or both are at the same instruction; with
the same devices, and with machines of which this holds. -/
inductive Ends (P : VM → VM → Prop) : Spec.Outcome σ → Spec.Outcome σ → Prop
  | halted {vm vm' : VM} {h : σ} : P vm vm' → Ends P (.halted vm h) (.halted vm' h)
  | undefined {u : UB} : Ends P (.undefined u) (.undefined u)
  | running {vm vm' : VM} {h : σ} {pc : Nat} : P vm vm' → Ends P (.running ⟨vm, h, pc⟩) (.running ⟨vm', h, pc⟩)

/-! ## Turning the stacks -/

/-- The machine with each stack moved along its circle of 256 cells. -/
def VM.turn (T : Bool → Byte) (vm : VM) : VM :=
  vm.on ⟨fun i => vm.ws (i - T false), fun i => vm.rs (i - T true), vm.wsp + T false, vm.rsp + T true⟩

variable {T : Bool → Byte}

theorem turn_ptr (r : Bool) (vm : VM) : ptr r (vm.turn T) = ptr r vm + T r := by cases r <;> rfl
theorem turn_stack (r : Bool) (vm : VM) (p : Byte) : stack r (vm.turn T) p = stack r vm (p - T r) := by cases r <;> rfl
theorem turn_setPtr (r : Bool) (p : Byte) (vm : VM) : setPtr r (p + T r) (vm.turn T) = (setPtr r p vm).turn T := by cases r <;> rfl

theorem upd_turn (f : Byte → Byte) (p t v : Byte) : upd (fun i => f (i - t)) (p + t) v = fun i => upd f p v (i - t) := by
  funext i
  unfold upd
  by_cases h : i = p + t
  · subst h
    rw [if_pos rfl, if_pos (by bv_omega)]
  · rw [if_neg h, if_neg (by bv_omega)]

theorem turn_poke (r : Bool) (p : Byte) (v : Nat) (vm : VM) : poke r (p + T r) v (vm.turn T) = (poke r p v vm).turn T := by
  cases r
  · unfold poke VM.turn VM.on
    simp only [Bool.false_eq_true, if_false, upd_turn]
  · unfold poke VM.turn VM.on
    simp only [if_true, upd_turn]

theorem turn_pushValue (r : Bool) (n v : Nat) (vm : VM) : pushValue r n v (vm.turn T) = (pushValue r n v vm).turn T := by
  have e : ∀ p q : Byte, p + T r + q = p + q + T r := fun p q => by bv_omega
  unfold pushValue
  split <;> simp only [turn_ptr, e, turn_poke, turn_setPtr]

theorem turn_pushAll (r : Bool) (n : Nat) (vs : List Nat) (vm : VM) : pushAll r n vs (vm.turn T) = (pushAll r n vs vm).turn T := by
  unfold pushAll
  induction vs generalizing vm with
  | nil => rfl
  | cons v vs ih => rw [List.foldl_cons, List.foldl_cons, turn_pushValue, ih]

theorem turn_valueAt (r : Bool) (vm : VM) (p : Byte) (n : Nat) : valueAt (stack r (vm.turn T)) (p + T r) n = valueAt (stack r vm) p n := by
  unfold valueAt
  split <;> rw [turn_stack, show p + T r - T r = p by bv_omega]
  rw [turn_stack, show p + T r + 1 - T r = p + 1 by bv_omega]

theorem turn_operandsAt (r : Bool) (vm : VM) (p : Byte) (ns : List Nat) : operandsAt (stack r (vm.turn T)) (p + T r) ns = operandsAt (stack r vm) p ns := by
  induction ns generalizing p with
  | nil => rfl
  | cons n ns ih =>
    unfold operandsAt
    rw [turn_valueAt, show p + T r + BitVec.ofNat 8 n = p + BitVec.ofNat 8 n + T r by bv_omega, ih]

theorem turn_peekMem (vm : VM) (a page n : Nat) : peekMem (vm.turn T) a page n = peekMem vm a page n := rfl
theorem turn_pokeMem (vm : VM) (a page n v : Nat) : pokeMem (vm.turn T) a page n v = (pokeMem vm a page n v).turn T := by
  unfold pokeMem
  split <;> rfl

def VM.stacksOf (vm : VM) : Stacks := ⟨vm.ws, vm.rs, vm.wsp, vm.rsp⟩

theorem on_self (vm : VM) : vm.on vm.stacksOf = vm := rfl
theorem on_on (S S' : Stacks) (vm : VM) : (vm.on S).on S' = vm.on S' := rfl

/-- Devices that do not look at the stacks leave them alone. -/
theorem Blind.dei_keeps {H : Host σ} (hb : Blind H) {a : Byte} {vm : VM} {h : σ} {x : Byte × VM × σ} (e : H.dei a vm h = .ok x) : x.2.1.stacksOf = vm.stacksOf := by
  have h1 := hb.dei a vm.stacksOf vm h
  rw [on_self, e] at h1
  have h2 : x = (x.1, x.2.1.on vm.stacksOf, x.2.2) := Except.ok.inj h1
  have h3 : x.2.1 = x.2.1.on vm.stacksOf := congrArg (fun y => y.2.1) h2
  rw [h3]
  rfl

theorem Blind.deo_keeps {H : Host σ} (hb : Blind H) {a : Byte} {vm : VM} {h : σ} {x : VM × σ} (e : H.deo a vm h = .ok x) : x.1.stacksOf = vm.stacksOf := by
  have h1 := hb.deo a vm.stacksOf vm h
  rw [on_self, e] at h1
  have h2 : x = (x.1.on vm.stacksOf, x.2) := Except.ok.inj h1
  have h3 : x.1 = x.1.on vm.stacksOf := congrArg (fun y => y.1) h2
  rw [h3]
  rfl

theorem turn_eq {vm vm1 : VM} (e : vm1.stacksOf = vm.stacksOf) : vm1.on (vm.turn T).stacksOf = vm1.turn T := by
  obtain ⟨_, _, _, _, _, _, _⟩ := vm
  obtain ⟨_, _, _, _, _, _, _⟩ := vm1
  cases e
  rfl

theorem Blind.dei_turn {H : Host σ} (hb : Blind H) (a : Byte) (vm : VM) (h : σ) : H.dei a (vm.turn T) h = (H.dei a vm h).map fun x => (x.1, x.2.1.turn T, x.2.2) := by
  rw [show vm.turn T = vm.on (vm.turn T).stacksOf from rfl, hb.dei]
  cases e : H.dei a vm h with
  | error u => rfl
  | ok x =>
    show Except.ok (x.1, x.2.1.on _, x.2.2) = Except.ok _
    rw [turn_eq (hb.dei_keeps e)]

theorem Blind.deo_turn {H : Host σ} (hb : Blind H) (a : Byte) (vm : VM) (h : σ) : H.deo a (vm.turn T) h = (H.deo a vm h).map fun x => (x.1.turn T, x.2) := by
  rw [show vm.turn T = vm.on (vm.turn T).stacksOf from rfl, hb.deo]
  cases e : H.deo a vm h with
  | error u => rfl
  | ok x =>
    show Except.ok (x.1.on _, x.2) = Except.ok _
    rw [turn_eq (hb.deo_keeps e)]

theorem Blind.deviceIn_turn {H : Host σ} (hb : Blind H) (cfg : Cfg) (n p : Nat) (vm : VM) (h : σ) :
    Spec.deviceIn cfg H n p (vm.turn T) h = (Spec.deviceIn cfg H n p vm h).map fun x => (x.1, x.2.1.turn T, x.2.2) := by
  unfold Spec.deviceIn
  dsimp only
  split
  · split
    all_goals
      rw [hb.dei_turn]
      refine map_bind ?_
      rintro ⟨x, vm1, h1⟩ e
      dsimp only
      rw [hb.dei_turn]
      exact map_bind fun _ _ => rfl
  · rw [hb.dei_turn]
    exact map_bind fun _ _ => rfl

theorem Blind.deviceOut_turn {H : Host σ} (hb : Blind H) (n p v : Nat) (vm : VM) (h : σ) :
    Spec.deviceOut H n p v (vm.turn T) h = (Spec.deviceOut H n p v vm h).map fun x => (x.1.turn T, x.2) := by
  unfold Spec.deviceOut
  dsimp only
  split
  · rw [show ∀ dev, ({ vm.turn T with device := dev } : VM) = VM.turn T { vm with device := dev } from fun _ => rfl, hb.deo_turn]
    refine map_bind ?_
    rintro ⟨vm1, h1⟩ e
    exact hb.deo_turn _ _ _
  · exact hb.deo_turn (T := T) (BitVec.ofNat 8 p) { vm with device := upd vm.device (BitVec.ofNat 8 p) (BitVec.ofNat 8 v) } h

def _root_.Buxn.VM.Spec.Sys.turn (T : Bool → Byte) (s : Sys σ) : Sys σ := { s with vm := s.vm.turn T }

theorem Blind.perform_turn {H : Host σ} (hb : Blind H) (cfg : Cfg) (r : Bool) (n pc : Nat) (vm : VM) (h : σ) (a : Action) :
    Spec.perform cfg H r n pc (vm.turn T) h a = (Spec.perform cfg H r n pc vm h a).map (Sys.turn T) := by
  cases a with
  | push vs => simp only [Spec.perform, turn_pushAll]; rfl
  | pushByte v => simp only [Spec.perform, turn_pushValue]; rfl
  | stash v => simp only [Spec.perform, turn_pushValue]; rfl
  | jump t => rfl
  | call t => simp only [Spec.perform, turn_pushValue]; rfl
  | load x page => simp only [Spec.perform, turn_pushValue, turn_peekMem]; rfl
  | store x page v => simp only [Spec.perform, turn_pokeMem]; rfl
  | deviceIn p =>
    unfold Spec.perform
    dsimp only
    rw [hb.deviceIn_turn]
    refine map_bind ?_
    rintro ⟨v, vm1, h1⟩ _
    show Except.ok _ = Except.ok _
    rw [turn_pushValue]
    rfl
  | deviceOut p v =>
    unfold Spec.perform
    dsimp only
    rw [hb.deviceOut_turn]
    exact map_bind fun _ _ => rfl

theorem Blind.operation_turn {H : Host σ} (hb : Blind H) (cfg : Cfg) (op : Op) (short ret keep : Bool) (pc : Nat) (vm : VM) (h : σ) :
    Spec.operation cfg H op short ret keep pc (vm.turn T) h = (Spec.operation cfg H op short ret keep pc vm h).map (Sys.turn T) := by
  unfold Spec.operation
  dsimp only
  rw [turn_ptr, show ∀ q : Byte, ptr ret vm + T ret - q = ptr ret vm - q + T ret from fun q => by bv_omega, turn_operandsAt]
  cases keep with
  | true => exact hb.perform_turn _ _ _ _ _ _ _
  | false =>
    simp only [Bool.false_eq_true, if_false, turn_setPtr]
    exact hb.perform_turn _ _ _ _ _ _ _

theorem Blind.step_turn {H : Host σ} (hb : Blind H) (cfg : Cfg) (s : Sys σ) :
    Spec.step cfg H (s.turn T) = (Spec.step cfg H s).map (Option.map (Sys.turn T)) := by
  unfold Spec.step
  dsimp only
  rw [show (s.turn T).vm = s.vm.turn T from rfl, show (s.turn T).pc = s.pc from rfl, show (s.turn T).host = s.host from rfl,
    show (s.vm.turn T).memory = s.vm.memory from rfl]
  simp only [turn_peekMem]
  generalize (s.vm.memory s.pc) = opc
  split
  · split
    · rfl
    · have e1 : (s.vm.turn T).wsp - 1 = s.vm.wsp - 1 + T false := by
        show s.vm.wsp + T false - 1 = _
        bv_omega
      have e2 : (s.vm.turn T).ws (s.vm.wsp - 1 + T false) = s.vm.ws (s.vm.wsp - 1) := by
        show s.vm.ws (s.vm.wsp - 1 + T false - T false) = _
        rw [show s.vm.wsp - 1 + T false - T false = s.vm.wsp - 1 by bv_omega]
      rw [e1, e2, turn_setPtr]
      rfl
    · rfl
    · rw [turn_pushValue]; rfl
    · rw [turn_pushValue]; rfl
  · split
    · rw [hb.operation_turn]
      cases Spec.operation cfg H _ _ _ _ _ s.vm s.host <;> rfl
    · rfl

theorem turn_mulOverflows (s : Sys σ) : mulOverflows (s.turn T) ↔ mulOverflows s := by
  unfold mulOverflows
  dsimp only
  rw [show (s.turn T).vm = s.vm.turn T from rfl, show (s.turn T).pc = s.pc from rfl, show (s.vm.turn T).memory = s.vm.memory from rfl, turn_ptr]
  generalize (s.vm.memory s.pc).getLsbD 6 = r
  rw [show ∀ q : Byte, ptr r s.vm + T r - q = ptr r s.vm - q + T r from fun q => by bv_omega, turn_valueAt,
    show ∀ q : Byte, ptr r s.vm + T r - q = ptr r s.vm - q + T r from fun q => by bv_omega, turn_valueAt]

theorem Blind.cstep_turn {H : Host σ} (hb : Blind H) (cfg : Cfg) (s : Sys σ) :
    cstep cfg H (s.turn T) = (cstep cfg H s).map (Option.map (Sys.turn T)) := by
  unfold cstep
  by_cases ho : cfg.wrapv = false ∧ mulOverflows s
  · rw [if_pos ho, if_pos ⟨ho.1, (turn_mulOverflows s).2 ho.2⟩]; rfl
  · rw [if_neg ho, if_neg fun h => ho ⟨h.1, (turn_mulOverflows s).1 h.2⟩, hb.step_turn cfg s]

/-! ## What lies below -/

/-- Two machines that differ at most in stack cells that are not between the bottoms and the pointers. -/
structure Near (O : Bool → Byte) (vm vm' : VM) : Prop where
  eq : vm' = vm.on vm'.stacksOf
  ptr : ∀ r, ptr r vm' = ptr r vm
  cells : ∀ r j, j < height O r vm → stack r vm' (O r + BitVec.ofNat 8 j) = stack r vm (O r + BitVec.ofNat 8 j)

variable {O : Bool → Byte} {vm vm' : VM}

theorem Near.memory (h : Near O vm vm') : vm'.memory = vm.memory := by rw [h.eq]; rfl
theorem Near.device (h : Near O vm vm') : vm'.device = vm.device := by rw [h.eq]; rfl
theorem Near.memSize (h : Near O vm vm') : vm'.memSize = vm.memSize := by rw [h.eq]; rfl

theorem on_setPtr (r : Bool) (p : Byte) (e : vm' = vm.on vm'.stacksOf) : setPtr r p vm' = (setPtr r p vm).on (setPtr r p vm').stacksOf := by
  rw [e]
  cases r <;> rfl

theorem on_poke (r : Bool) (p : Byte) (v : Nat) (e : vm' = vm.on vm'.stacksOf) : poke r p v vm' = (poke r p v vm).on (poke r p v vm').stacksOf := by
  rw [e]
  cases r <;> rfl

theorem ptr_at (O : Bool → Byte) (r : Bool) (vm : VM) : Spec.ptr r vm = O r + BitVec.ofNat 8 (height O r vm) := by
  unfold height
  rw [BitVec.ofNat_toNat, BitVec.setWidth_eq]
  bv_omega

theorem height_lt (O : Bool → Byte) (r : Bool) (vm : VM) : height O r vm < 256 := (Spec.ptr r vm - O r).isLt

theorem height_of {r : Bool} {n : Nat} (hn : n < 256) (h : Spec.ptr r vm = O r + BitVec.ofNat 8 n) : height O r vm = n := by
  unfold height
  rw [h, show O r + BitVec.ofNat 8 n - O r = BitVec.ofNat 8 n by bv_omega, BitVec.toNat_ofNat]
  omega

theorem below (p : Byte) {m n : Nat} (h : n ≤ m) : p + BitVec.ofNat 8 m - BitVec.ofNat 8 n = p + BitVec.ofNat 8 (m - n) := by
  obtain ⟨k, rfl⟩ := Nat.exists_eq_add_of_le' h
  rw [Nat.add_sub_cancel, ← add_ofNat]
  bv_omega

theorem Near.lower (h : Near O vm vm') (r : Bool) (n : Nat) (hn : n ≤ height O r vm) :
    Near O (setPtr r (Spec.ptr r vm - BitVec.ofNat 8 n) vm) (setPtr r (Spec.ptr r vm' - BitVec.ofNat 8 n) vm') ∧
    (∀ q, height O q (setPtr r (Spec.ptr r vm - BitVec.ofNat 8 n) vm) ≤ height O q vm) ∧
    height O r (setPtr r (Spec.ptr r vm - BitVec.ofNat 8 n) vm) = height O r vm - n := by
  have hlt := height_lt O r vm
  have e : height O r (setPtr r (Spec.ptr r vm - BitVec.ofNat 8 n) vm) = height O r vm - n := by
    refine height_of (by omega) ?_
    have e1 : Spec.ptr r (setPtr r (Spec.ptr r vm - BitVec.ofNat 8 n) vm) = Spec.ptr r vm - BitVec.ofNat 8 n := by cases r <;> rfl
    rw [e1, ptr_at O r vm]
    exact below _ hn
  have e' : ∀ q, height O q (setPtr r (Spec.ptr r vm - BitVec.ofNat 8 n) vm) ≤ height O q vm := by
    intro q
    by_cases hq : q = r
    · subst hq; rw [e]; omega
    · have : Spec.ptr q (setPtr r (Spec.ptr r vm - BitVec.ofNat 8 n) vm) = Spec.ptr q vm := by cases q <;> cases r <;> first | rfl | exact absurd rfl hq
      unfold height
      rw [this]
      exact Nat.le_refl _
  refine ⟨⟨?_, ?_, ?_⟩, e', e⟩
  · rw [h.ptr]; exact on_setPtr _ _ h.eq
  · intro q
    rw [h.ptr]
    have := h.ptr q
    cases q <;> cases r <;> first | rfl | exact this
  · intro q j hj
    have e1 : ∀ (p : Byte) (v : VM), stack q (setPtr r p v) = stack q v := fun p v => by cases q <;> cases r <;> rfl
    rw [e1, e1]
    exact h.cells q j (Nat.lt_of_lt_of_le hj (e' q))

theorem upd_agree {f g : Byte → Byte} (p v x : Byte) (h : f x = g x ∨ x = p) : upd f p v x = upd g p v x := by
  unfold upd
  by_cases e : x = p
  · rw [if_pos e, if_pos e]
  · rw [if_neg e, if_neg e]; exact h.resolve_right e

theorem ptr_set (r : Bool) (p : Byte) (vm : VM) : Spec.ptr r (setPtr r p vm) = p := by cases r <;> rfl
theorem stack_poke (r : Bool) (p : Byte) (v : Nat) (vm : VM) : stack r (poke r p v vm) = upd (stack r vm) p (BitVec.ofNat 8 v) := by cases r <;> rfl

theorem Near.pushValue (h : Near O vm vm') (r : Bool) (n v : Nat) (hn : n = 1 ∨ n = 2) (hr : height O r vm + n < 256) :
    Near O (pushValue r n v vm) (pushValue r n v vm') ∧ height O r (Spec.pushValue r n v vm) = height O r vm + n ∧
    (∀ q, q ≠ r → height O q (Spec.pushValue r n v vm) = height O q vm) := by
  have hp := ptr_at O r vm
  have e : height O r (Spec.pushValue r n v vm) = height O r vm + n := by
    refine height_of hr ?_
    rw [← add_ofNat, ← hp]
    rcases hn with rfl | rfl
    · exact ptr_set _ _ _
    · exact ptr_set _ _ _
  have e' : ∀ q, q ≠ r → height O q (Spec.pushValue r n v vm) = height O q vm := by
    intro q hq
    have hq' : q = !r := by cases q <;> cases r <;> simp_all
    subst hq'
    unfold height
    rw [(pushValue_other r n v vm).1]
  refine ⟨⟨?_, ?_, ?_⟩, e, e'⟩
  · rcases hn with rfl | rfl
    · have e0 : Spec.pushValue r 1 v vm' = setPtr r (Spec.ptr r vm + 1) (poke r (Spec.ptr r vm) v vm') := by
        show setPtr r (Spec.ptr r vm' + 1) (poke r (Spec.ptr r vm') v vm') = _
        rw [h.ptr]
      rw [e0]
      exact on_setPtr _ _ (on_poke _ _ _ h.eq)
    · have e0 : Spec.pushValue r 2 v vm' = setPtr r (Spec.ptr r vm + 2) (poke r (Spec.ptr r vm + 1) v (poke r (Spec.ptr r vm) (v / 256) vm')) := by
        show setPtr r (Spec.ptr r vm' + 2) (poke r (Spec.ptr r vm' + 1) v (poke r (Spec.ptr r vm') (v / 256) vm')) = _
        rw [h.ptr]
      rw [e0]
      exact on_setPtr _ _ (on_poke _ _ _ (on_poke _ _ _ h.eq))
  · intro q
    by_cases hq : q = r
    · subst hq
      rcases hn with rfl | rfl
      · show Spec.ptr q (setPtr q _ _) = Spec.ptr q (setPtr q _ _)
        rw [ptr_set, ptr_set, h.ptr]
      · show Spec.ptr q (setPtr q _ _) = Spec.ptr q (setPtr q _ _)
        rw [ptr_set, ptr_set, h.ptr]
    · have hq' : q = !r := by cases q <;> cases r <;> simp_all
      subst hq'
      rw [(pushValue_other r n v vm).1, (pushValue_other r n v vm').1]
      exact h.ptr _
  · intro q j hj
    by_cases hq : q = r
    · subst hq
      rw [e] at hj
      have hst : ∀ p (v : VM), stack q (setPtr q p v) = stack q v := fun p v => by cases q <;> rfl
      have hx : j < height O q vm ∨ j = height O q vm ∨ j = height O q vm + 1 ∧ n = 2 := by omega
      rcases hn with rfl | rfl
      · show stack q (setPtr q _ (poke q _ v vm')) _ = stack q (setPtr q _ (poke q _ v vm)) _
        rw [hst, hst, stack_poke, stack_poke, h.ptr]
        apply upd_agree
        rcases hx with hx | hx | hx
        · exact .inl (h.cells q j hx)
        · right; rw [hx, hp]
        · omega
      · show stack q (setPtr q _ (poke q _ v (poke q _ (v / 256) vm'))) _ = stack q (setPtr q _ (poke q _ v (poke q _ (v / 256) vm))) _
        rw [hst, hst, stack_poke, stack_poke, stack_poke, stack_poke, h.ptr]
        apply upd_agree
        rcases hx with hx | hx | hx
        · exact .inl (upd_agree _ _ _ (.inl (h.cells q j hx)))
        · left; apply upd_agree; right; rw [hx, hp]
        · right
          rw [hx.1, hp, ← add_ofNat]
          rfl
    · rw [e' q hq] at hj
      have hq' : q = !r := by cases q <;> cases r <;> simp_all
      subst hq'
      rw [(pushValue_other r n v vm).2, (pushValue_other r n v vm').2]
      exact h.cells _ j hj

theorem Near.pushAll (h : Near O vm vm') (r : Bool) (n : Nat) (vs : List Nat) (hn : n = 1 ∨ n = 2) (hr : height O r vm + vs.length * n < 256) :
    Near O (pushAll r n vs vm) (pushAll r n vs vm') := by
  unfold Spec.pushAll
  induction vs generalizing vm vm' with
  | nil => exact h
  | cons v vs ih =>
    rw [List.foldl_cons, List.foldl_cons]
    have hl : (v :: vs).length * n = vs.length * n + n := by rw [List.length_cons, Nat.add_mul, Nat.one_mul]
    rw [hl] at hr
    obtain ⟨h1, h2, _⟩ := h.pushValue r n v hn (by omega)
    exact ih h1 (by rw [h2]; omega)

theorem Near.pokeMem (h : Near O vm vm') (a page n v : Nat) : Near O (pokeMem vm a page n v) (pokeMem vm' a page n v) := by
  have hp : ∀ (r : Bool) (vm : VM), Spec.ptr r (Spec.pokeMem vm a page n v) = Spec.ptr r vm := fun r vm => ptr_pokeMem _ _ _ _ _ _
  have hs : ∀ (r : Bool) (vm : VM), stack r (Spec.pokeMem vm a page n v) = stack r vm := fun r vm => stack_pokeMem _ _ _ _ _ _
  refine ⟨?_, fun r => by rw [hp, hp]; exact h.ptr r, fun r j hj => ?_⟩
  · rw [h.eq]
    unfold Spec.pokeMem
    split <;> rfl
  · rw [hs, hs]
    unfold height at hj
    rw [hp] at hj
    exact h.cells r j hj

theorem Near.peekMem (h : Near O vm vm') (a page n : Nat) : peekMem vm' a page n = peekMem vm a page n := by
  unfold Spec.peekMem
  rw [h.memory]

theorem operandsAt_near {f g : Byte → Byte} (ns : List Nat) (hns : ∀ n ∈ ns, n = 1 ∨ n = 2) (p : Byte)
    (h : ∀ i, i < ns.sum → f (p + BitVec.ofNat 8 i) = g (p + BitVec.ofNat 8 i)) : operandsAt f p ns = operandsAt g p ns := by
  induction ns generalizing p with
  | nil => rfl
  | cons n ns ih =>
    have hsum : (n :: ns).sum = n + ns.sum := List.sum_cons
    rw [hsum] at h
    unfold operandsAt
    have h0 : p + BitVec.ofNat 8 0 = p := by bv_omega
    have e1 : valueAt f p n = valueAt g p n := by
      rcases hns n (by simp) with rfl | rfl
      · have := h 0 (by omega)
        rw [h0] at this
        show (f p).toNat = (g p).toNat
        rw [this]
      · have a0 := h 0 (by omega)
        have a1 := h 1 (by omega)
        rw [h0] at a0
        show (f p).toNat * 256 + (f (p + 1)).toNat = (g p).toNat * 256 + (g (p + 1)).toNat
        rw [a0, show p + 1 = p + BitVec.ofNat 8 1 from rfl, a1]
    rw [e1, ih (fun m hm => hns m (by simp [hm])) (p + BitVec.ofNat 8 n) (fun i hi => by
      rw [add_ofNat]; exact h (n + i) (by omega))]

/-- The operands of an instruction are the same where there are enough bytes above the bottom. -/
theorem Near.operands (h : Near O vm vm') (r : Bool) (ns : List Nat) (hns : ∀ n ∈ ns, n = 1 ∨ n = 2) (hn : ns.sum ≤ height O r vm) :
    operandsAt (stack r vm') (Spec.ptr r vm' - BitVec.ofNat 8 ns.sum) ns = operandsAt (stack r vm) (Spec.ptr r vm - BitVec.ofNat 8 ns.sum) ns := by
  rw [h.ptr]
  have e : Spec.ptr r vm - BitVec.ofNat 8 ns.sum = O r + BitVec.ofNat 8 (height O r vm - ns.sum) := by
    rw [ptr_at O r vm]
    exact below _ hn
  rw [e]
  refine operandsAt_near ns hns _ fun i hi => ?_
  rw [add_ofNat]
  exact h.cells r _ (by omega)

theorem sizes_small (n : Nat) (hn : n = 1 ∨ n = 2) (op : Op) : ∀ m ∈ operandSizes n op, m = 1 ∨ m = 2 := by
  rcases hn with rfl | rfl <;> cases op <;> decide

/-- Results of two computations on near machines. -/
inductive Both (O : Bool → Byte) : Res (Sys σ) → Res (Sys σ) → Prop
  | error (u : UB) : Both O (.error u) (.error u)
  | ok {vm vm' : VM} {h : σ} {pc : Nat} : Near O vm vm' → Both O (.ok ⟨vm, h, pc⟩) (.ok ⟨vm', h, pc⟩)

/-- How many bytes an action puts on the stacks. -/
def Few (n : Nat) : Action → Prop
  | .push vs => vs.length * n ≤ 6
  | _ => True

theorem action_few (n pc : Nat) (hn : n = 1 ∨ n = 2) (op : Op) (l : List Nat) : Few n (action n pc op l) := by
  rcases hn with rfl | rfl <;> cases op <;>
    (unfold action; split <;> first | trivial | (show List.length _ * _ ≤ 6; simp only [List.length_cons, List.length_nil]; omega) | simp_all [Few])

theorem Near.after (h : Near O vm vm') {vm1 : VM} (e : vm1.stacksOf = vm.stacksOf) : Near O vm1 (vm1.on vm'.stacksOf) := by
  have e1 : ∀ r, Spec.ptr r vm1 = Spec.ptr r vm := fun r => by
    have h1 := congrArg Stacks.wsp e
    have h2 := congrArg Stacks.rsp e
    cases r
    · exact h1
    · exact h2
  have e2 : ∀ r, stack r vm1 = stack r vm := fun r => by
    have h1 := congrArg Stacks.ws e
    have h2 := congrArg Stacks.rs e
    cases r
    · exact h1
    · exact h2
  have e3 : ∀ r, Spec.ptr r (vm1.on vm'.stacksOf) = Spec.ptr r vm' := fun r => by cases r <;> rfl
  have e4 : ∀ r, stack r (vm1.on vm'.stacksOf) = stack r vm' := fun r => by cases r <;> rfl
  refine ⟨rfl, fun r => by rw [e3, e1]; exact h.ptr r, fun r j hj => ?_⟩
  rw [e4, e2]
  unfold height at hj
  rw [e1] at hj
  exact h.cells r j hj

theorem Blind.deviceIn_on {H : Host σ} (hb : Blind H) (cfg : Cfg) (n p : Nat) (S : Stacks) (vm : VM) (h : σ) :
    Spec.deviceIn cfg H n p (vm.on S) h = (Spec.deviceIn cfg H n p vm h).map fun x => (x.1, x.2.1.on S, x.2.2) := by
  unfold Spec.deviceIn
  dsimp only
  split
  · split
    all_goals
      rw [hb.dei]
      refine map_bind ?_
      rintro ⟨x, vm1, h1⟩ e
      dsimp only
      rw [hb.dei]
      exact map_bind fun _ _ => rfl
  · rw [hb.dei]
    exact map_bind fun _ _ => rfl

theorem Blind.deviceOut_on {H : Host σ} (hb : Blind H) (n p v : Nat) (S : Stacks) (vm : VM) (h : σ) :
    Spec.deviceOut H n p v (vm.on S) h = (Spec.deviceOut H n p v vm h).map fun x => (x.1.on S, x.2) := by
  unfold Spec.deviceOut
  dsimp only
  split
  · rw [show ∀ dev, ({ vm.on S with device := dev } : VM) = VM.on S { vm with device := dev } from fun _ => rfl, hb.deo]
    refine map_bind ?_
    rintro ⟨vm1, h1⟩ e
    exact hb.deo _ _ _ _
  · exact hb.deo _ S { vm with device := _ } _

theorem Blind.deviceIn_keeps {H : Host σ} (hb : Blind H) {cfg : Cfg} {n p : Nat} {vm : VM} {h : σ} {x : Nat × VM × σ}
    (e : Spec.deviceIn cfg H n p vm h = .ok x) : x.2.1.stacksOf = vm.stacksOf := by
  have h1 := hb.deviceIn_on cfg n p vm.stacksOf vm h
  rw [on_self, e] at h1
  have h2 : x = (x.1, x.2.1.on vm.stacksOf, x.2.2) := Except.ok.inj h1
  have h3 : x.2.1 = x.2.1.on vm.stacksOf := congrArg (fun y => y.2.1) h2
  rw [h3]
  rfl

theorem Blind.deviceOut_keeps {H : Host σ} (hb : Blind H) {n p v : Nat} {vm : VM} {h : σ} {x : VM × σ}
    (e : Spec.deviceOut H n p v vm h = .ok x) : x.1.stacksOf = vm.stacksOf := by
  have h1 := hb.deviceOut_on n p v vm.stacksOf vm h
  rw [on_self, e] at h1
  have h2 : x = (x.1.on vm.stacksOf, x.2) := Except.ok.inj h1
  have h3 : x.1 = x.1.on vm.stacksOf := congrArg (fun y => y.1) h2
  rw [h3]
  rfl

theorem Blind.perform_near {H : Host σ} (hb : Blind H) (cfg : Cfg) (r : Bool) (n pc : Nat) (hn : n = 1 ∨ n = 2) (hv : Near O vm vm') (h : σ) (a : Action) (ha : Few n a)
    (hr : ∀ q, height O q vm ≤ 249) : Both O (Spec.perform cfg H r n pc vm h a) (Spec.perform cfg H r n pc vm' h a) := by
  cases a with
  | push vs => exact .ok (hv.pushAll r n vs hn (by have := hr r; replace ha : vs.length * n ≤ 6 := ha; omega))
  | pushByte v => exact .ok (hv.pushValue r 1 v (.inl rfl) (by have := hr r; omega)).1
  | stash v => exact .ok (hv.pushValue (!r) n v hn (by have := hr (!r); omega)).1
  | jump t => exact .ok hv
  | call t => exact .ok (hv.pushValue (!r) 2 pc (.inr rfl) (by have := hr (!r); omega)).1
  | load x page =>
    unfold Spec.perform
    dsimp only
    rw [hv.peekMem]
    exact .ok (hv.pushValue r n _ hn (by have := hr r; omega)).1
  | store x page v => exact .ok (hv.pokeMem _ _ _ _)
  | deviceIn p =>
    unfold Spec.perform
    dsimp only
    rw [hv.eq, hb.deviceIn_on]
    cases e : Spec.deviceIn cfg H n p vm h with
    | error u => exact .error u
    | ok x =>
      refine .ok ((hv.after (hb.deviceIn_keeps e)).pushValue r n _ hn ?_).1
      have e1 : Spec.ptr r x.2.1 = Spec.ptr r vm := by
        have h0 := hb.deviceIn_keeps e
        have h1 := congrArg Stacks.wsp h0
        have h2 := congrArg Stacks.rsp h0
        cases r
        · exact h1
        · exact h2
      have := hr r
      unfold height at this ⊢
      rw [e1]
      omega
  | deviceOut p v =>
    unfold Spec.perform
    dsimp only
    rw [hv.eq, hb.deviceOut_on]
    cases e : Spec.deviceOut H n p v vm h with
    | error u => exact .error u
    | ok x => exact .ok (hv.after (hb.deviceOut_keeps e))

theorem Blind.operation_near {H : Host σ} (hb : Blind H) (cfg : Cfg) (op : Op) (short ret keep : Bool) (pc : Nat) (hv : Near O vm vm') (h : σ)
    (hn : (operandSizes (if short then 2 else 1) op).sum ≤ height O ret vm) (hr : ∀ q, height O q vm ≤ 249) :
    Both O (Spec.operation cfg H op short ret keep pc vm h) (Spec.operation cfg H op short ret keep pc vm' h) := by
  unfold Spec.operation
  dsimp only
  have hz : (if short = true then 2 else 1) = 1 ∨ (if short = true then 2 else 1) = 2 := by cases short <;> simp
  generalize (if short = true then 2 else 1) = n at hn hz
  rw [hv.operands ret _ (sizes_small n hz op) hn]
  cases keep with
  | true => exact hb.perform_near cfg ret n pc hz hv h _ (action_few _ _ hz _ _) hr
  | false =>
    obtain ⟨h1, h2, -⟩ := hv.lower ret _ hn
    exact hb.perform_near cfg ret n pc hz h1 h _ (action_few _ _ hz _ _) fun q => Nat.le_trans (h2 q) (hr q)

/-- What the next instruction of two near machines does. -/
inductive Next (O : Bool → Byte) : Res (Option (Sys σ)) → Res (Option (Sys σ)) → Prop
  | error (u : UB) : Next O (.error u) (.error u)
  | halt : Next O (.ok none) (.ok none)
  | ok {vm vm' : VM} {h : σ} {pc : Nat} : Near O vm vm' → Next O (.ok (some ⟨vm, h, pc⟩)) (.ok (some ⟨vm', h, pc⟩))

theorem Blind.step_near {H : Host σ} (hb : Blind H) (cfg : Cfg) (hv : Near O vm vm') (h : σ) (pc : Nat) (hs : Served O (⟨vm, h, pc⟩ : Sys σ)) :
    Next O (Spec.step cfg H ⟨vm, h, pc⟩) (Spec.step cfg H ⟨vm', h, pc⟩) := by
  unfold Served takes at hs
  unfold Spec.step
  dsimp only at hs ⊢
  rw [hv.memory]
  simp only [hv.peekMem]
  generalize hopc : vm.memory pc = opc at hs
  have hr : ∀ q, height O q vm ≤ 249 := fun q => (hs q).2
  cases hb0 : opc.toNat % 32 with
  | zero =>
    rw [hb0] at hs
    dsimp only at hs ⊢
    cases hk : opc.getLsbD 7 with
    | true => exact .ok (hv.pushValue _ _ _ (by split <;> simp) (by have := hr (opc.getLsbD 6); split <;> omega)).1
    | false =>
      cases hq : opc.getLsbD 6 with
      | true =>
        cases hsh : opc.getLsbD 5 with
        | true => exact .ok (hv.pushValue true 2 _ (.inr rfl) (by have := hr true; omega)).1
        | false => exact .ok hv
      | false =>
        cases hsh : opc.getLsbD 5 with
        | true =>
          have ho : opc = 0x20 := by
            have : ∀ b : Byte, b.toNat % 32 = 0 → b.getLsbD 7 = false → b.getLsbD 6 = false → b.getLsbD 5 = true → b = 0x20 := by decide +kernel
            exact this opc hb0 hk hq hsh
          have h1 : 1 ≤ height O false vm := by
            have := (hs false).1
            rw [if_pos ⟨ho, rfl⟩] at this
            exact this
          have hl := (hv.lower false 1 h1).1
          have ht := hv.operands false [1] (by decide) h1
          have ht : (vm'.ws (vm'.wsp - 1)).toNat = (vm.ws (vm.wsp - 1)).toNat := (List.cons.inj ht).1
          have ht : vm'.ws (vm'.wsp - 1) = vm.ws (vm.wsp - 1) := BitVec.eq_of_toNat_eq ht
          dsimp only
          rw [ht]
          exact .ok hl
        | false => exact .halt
  | succ b =>
    rw [hb0] at hs
    dsimp only at hs ⊢
    cases hm : mnemonics[b]? with
    | none => exact .halt
    | some op =>
      rw [hm] at hs
      dsimp only at hs ⊢
      have hn := (hs (opc.getLsbD 6)).1
      rw [if_pos rfl] at hn
      have hx := hb.operation_near cfg op (opc.getLsbD 5) (opc.getLsbD 6) (opc.getLsbD 7) ((pc + 1) % 65536) hv h hn hr
      generalize Spec.operation cfg H op (opc.getLsbD 5) (opc.getLsbD 6) (opc.getLsbD 7) ((pc + 1) % 65536) vm h = x at hx
      generalize Spec.operation cfg H op (opc.getLsbD 5) (opc.getLsbD 6) (opc.getLsbD 7) ((pc + 1) % 65536) vm' h = y at hx
      cases hx with
      | error u => exact .error u
      | ok hx => exact .ok hx

theorem near_mulOverflows (hv : Near O vm vm') (h : σ) (pc : Nat) (hs : Served O (⟨vm, h, pc⟩ : Sys σ)) :
    mulOverflows (⟨vm', h, pc⟩ : Sys σ) ↔ mulOverflows (⟨vm, h, pc⟩ : Sys σ) := by
  unfold Served at hs
  unfold mulOverflows
  dsimp only at hs ⊢
  rw [hv.memory]
  generalize vm.memory pc = opc at hs
  by_cases h1 : opc.toNat % 32 = 0x1a ∧ opc.getLsbD 5 = true
  · have h4 := (hs (opc.getLsbD 6)).1
    unfold takes at h4
    rw [h1.1] at h4
    dsimp only at h4
    rw [show mnemonics[0x19]? = some .MUL from rfl] at h4
    dsimp only at h4
    rw [if_pos rfl, h1.2, if_pos rfl] at h4
    have e := hv.operands (opc.getLsbD 6) [2, 2] (by decide) h4
    generalize opc.getLsbD 6 = r at e
    have key : ∀ (f : Byte → Byte) (p : Byte), operandsAt f (p - BitVec.ofNat 8 [2, 2].sum) [2, 2] = [valueAt f (p - 4) 2, valueAt f (p - 2) 2] := by
      intro f p
      show [valueAt f (p - 4) 2, valueAt f (p - 4 + 2) 2] = _
      rw [show p - 4 + 2 = p - 2 by bv_omega]
    rw [key, key] at e
    obtain ⟨e1, e2⟩ := List.cons.inj e
    rw [e1, (List.cons.inj e2).1]
  · constructor
    · intro h; exact absurd ⟨h.1, h.2.1⟩ h1
    · intro h; exact absurd ⟨h.1, h.2.1⟩ h1

theorem Blind.run_near {H : Host σ} (hb : Blind H) (cfg : Cfg) (n : Nat) (hv : Near O vm vm') (h : σ) (pc : Nat)
    (hs : ∀ t ∈ visited (cstep cfg H) n ⟨vm, h, pc⟩, Served O t) :
    Ends (Near O) (Spec.run (cstep cfg H) n ⟨vm, h, pc⟩) (Spec.run (cstep cfg H) n ⟨vm', h, pc⟩) := by
  induction n generalizing vm vm' h pc with
  | zero => exact .running hv
  | succ n ih =>
    have h0 : Served O (⟨vm, h, pc⟩ : Sys σ) := hs _ (by unfold visited; simp)
    have hx : Next O (cstep cfg H ⟨vm, h, pc⟩) (cstep cfg H ⟨vm', h, pc⟩) := by
      unfold cstep
      by_cases ho : cfg.wrapv = false ∧ mulOverflows (⟨vm, h, pc⟩ : Sys σ)
      · rw [if_pos ho, if_pos ⟨ho.1, (near_mulOverflows hv h pc h0).2 ho.2⟩]; exact .error _
      · rw [if_neg ho, if_neg fun h' => ho ⟨h'.1, (near_mulOverflows hv h pc h0).1 h'.2⟩]
        exact hb.step_near cfg hv h pc h0
    have hs' : ∀ t ∈ (match cstep cfg H ⟨vm, h, pc⟩ with | .ok (some s') => visited (cstep cfg H) n s' | _ => []), Served O t :=
      fun t ht => hs t (by unfold visited; exact List.mem_cons_of_mem _ ht)
    unfold Spec.run
    generalize cstep cfg H ⟨vm, h, pc⟩ = x at hx hs'
    generalize cstep cfg H ⟨vm', h, pc⟩ = y at hx
    cases hx with
    | error u => exact .undefined
    | halt => exact .halted hv
    | ok hx => exact ih hx _ _ hs'

/-! ## Both -/

theorem Ends.mono {P Q : VM → VM → Prop} {x y : Spec.Outcome σ} (h : Ends P x y) (hq : ∀ vm vm', P vm vm' → Q vm vm') : Ends Q x y := by
  cases h with
  | halted h => exact .halted (hq _ _ h)
  | undefined => exact .undefined
  | running h => exact .running (hq _ _ h)

theorem Ends.trans {P Q R : VM → VM → Prop} {x y z : Spec.Outcome σ} (h : Ends P x y) (h' : Ends Q y z) (hr : ∀ a b c, P a b → Q b c → R a c) : Ends R x z := by
  cases h with
  | halted h => cases h' with | halted h' => exact .halted (hr _ _ _ h h')
  | undefined => cases h'; exact .undefined
  | running h => cases h' with | running h' => exact .running (hr _ _ _ h h')

theorem Blind.run_turn {H : Host σ} (hb : Blind H) (cfg : Cfg) (n : Nat) (s : Sys σ) :
    Ends (fun vm vm' => vm' = vm.turn T) (Spec.run (cstep cfg H) n s) (Spec.run (cstep cfg H) n (s.turn T)) := by
  induction n generalizing s with
  | zero => exact .running rfl
  | succ n ih =>
    unfold Spec.run
    rw [hb.cstep_turn]
    cases cstep cfg H s with
    | error u => exact .undefined
    | ok x =>
      cases x with
      | none => exact .halted rfl
      | some s' => exact ih s'

/-- The amounts by which the bottoms differ. -/
def shift (O O' : Bool → Byte) : Bool → Byte := fun r => O' r - O r

theorem turn_height (O O' : Bool → Byte) (r : Bool) (vm : VM) : height O' r (vm.turn (shift O O')) = height O r vm := by
  unfold height
  rw [turn_ptr]
  unfold shift
  rw [show Spec.ptr r vm + (O' r - O r) - O' r = Spec.ptr r vm - O r by bv_omega]

theorem turn_cell (O O' : Bool → Byte) (r : Bool) (vm : VM) (j : Nat) :
    stack r (vm.turn (shift O O')) (O' r + BitVec.ofNat 8 j) = stack r vm (O r + BitVec.ofNat 8 j) := by
  rw [turn_stack]
  unfold shift
  rw [show O' r + BitVec.ofNat 8 j - (O' r - O r) = O r + BitVec.ofNat 8 j by bv_omega]

theorem same_near {O' : Bool → Byte} (h : Same O O' vm vm') : Near O' (vm.turn (shift O O')) vm' := by
  refine ⟨?_, fun r => ?_, fun r j hj => ?_⟩
  · obtain ⟨h1, h2, h3, -, -⟩ := h
    cases vm
    cases vm'
    cases h1
    cases h2
    cases h3
    rfl
  · rw [ptr_at O' r vm', ptr_at O' r (vm.turn (shift O O')), h.height, turn_height]
  · rw [turn_height] at hj
    rw [turn_cell, h.cells r j hj]

theorem near_same {O' : Bool → Byte} (h : Near O' (vm.turn (shift O O')) vm') : Same O O' vm vm' := by
  refine ⟨h.memSize, h.memory, h.device, fun r => ?_, fun r j hj => ?_⟩
  · rw [← turn_height O O' r vm]
    unfold height
    rw [h.ptr]
  · rw [← turn_cell O O' r vm j]
    exact h.cells r j (by rw [turn_height]; exact hj)

theorem visited_turn {H : Host σ} (hb : Blind H) (cfg : Cfg) (n : Nat) (s : Sys σ) :
    visited (cstep cfg H) n (s.turn T) = (visited (cstep cfg H) n s).map (Sys.turn T) := by
  induction n generalizing s with
  | zero => rfl
  | succ n ih =>
    unfold visited
    rw [hb.cstep_turn, List.map_cons]
    congr 1
    cases cstep cfg H s with
    | error u => rfl
    | ok x =>
      cases x with
      | none => rfl
      | some s' => exact ih s'

theorem served_turn {O' : Bool → Byte} {s : Sys σ} (h : Served O s) : Served O' (s.turn (shift O O')) := by
  intro r
  rw [show (s.turn (shift O O')).vm = s.vm.turn (shift O O') from rfl, turn_height]
  exact h r

theorem Blind.run_same {H : Host σ} (hb : Blind H) (cfg : Cfg) (n : Nat) {O' : Bool → Byte} (hv : Same O O' vm vm') (h : σ) (pc : Nat)
    (hs : ∀ t ∈ visited (cstep cfg H) n ⟨vm, h, pc⟩, Served O t) :
    Ends (Same O O') (Spec.run (cstep cfg H) n ⟨vm, h, pc⟩) (Spec.run (cstep cfg H) n ⟨vm', h, pc⟩) := by
  have h1 := hb.run_turn (T := shift O O') cfg n ⟨vm, h, pc⟩
  have h2 := hb.run_near (O := O') cfg n (same_near hv) h pc (fun t ht => by
    have ht : t ∈ visited (cstep cfg H) n ((⟨vm, h, pc⟩ : Sys σ).turn (shift O O')) := ht
    rw [visited_turn hb] at ht
    obtain ⟨t0, h0, rfl⟩ := List.mem_map.1 ht
    exact served_turn (hs t0 h0))
  exact h1.trans h2 fun a b c e hn => near_same (by rw [← e]; exact hn)

/-- **C91**, where the stacks begin: whatever the program, with devices that do not look at the stacks, on two machines whose stacks are the same up to
where they lie in their circle of 256 cells, `buxn_vm_execute` does the same for any number of instructions, and the stacks remain the same up to
where they lie. (Whatever the uninitialised locals.) -/
theorem C91_same_wherever {H : Host σ} (hb : Blind H) (hk : KeepsMemSize H) (cfg : Cfg) (k0 k0' : Byte × Byte) (n : Nat) (vm : VM) (hm : 65536 ≤ vm.memSize) (h : σ)
    (pc : Short) (T : Bool → Byte) :
    Ends (fun vm vm' => vm' = vm.turn T) (execute cfg H none k0 n vm h pc).view (execute cfg H none k0' n (vm.turn T) h pc).view := by
  by_cases hpc : pc = 0
  · unfold VM.execute
    rw [if_pos hpc, if_pos hpc]
    exact .halted rfl
  · rw [C01_execute_is_uxn_iso cfg H hk k0 n vm hm h pc hpc, C01_execute_is_uxn_iso cfg H hk k0' n (vm.turn T) hm h pc hpc]
    exact hb.run_turn cfg n _

/-- **C91**, what lies below: let the first run find its operands above the bottoms `O` of its stacks, and never have more than 249 bytes above them. Then
another run that begins at the same address with the same devices, the same memory and the same bytes on the stacks above the bottoms `O'` does the same, for any
number of instructions; wherever its stacks begin and whatever lies below. -/
theorem C91_same_above {H : Host σ} (hb : Blind H) (hk : KeepsMemSize H) (cfg : Cfg) (k0 k0' : Byte × Byte) (n : Nat) (O O' : Bool → Byte) (vm vm' : VM)
    (hm : 65536 ≤ vm.memSize) (hv : Same O O' vm vm') (h : σ) (pc : Short) (hs : ∀ t ∈ visited (cstep cfg H) n ⟨vm, h, pc.toNat⟩, Served O t) :
    Ends (Same O O') (execute cfg H none k0 n vm h pc).view (execute cfg H none k0' n vm' h pc).view := by
  by_cases hpc : pc = 0
  · unfold VM.execute
    rw [if_pos hpc, if_pos hpc]
    exact .halted hv
  · rw [C01_execute_is_uxn_iso cfg H hk k0 n vm hm h pc hpc, C01_execute_is_uxn_iso cfg H hk k0' n vm' (by rw [hv.memSize]; exact hm) h pc hpc]
    exact hb.run_same cfg n hv h pc.toNat hs

end Buxn.VM
