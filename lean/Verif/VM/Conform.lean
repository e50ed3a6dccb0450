import Verif.VM.Lemmas
/-! The interpreter's opcode bodies refine the specification. -/
namespace Buxn.VM
variable {σ : Type}
open Spec

theorem sz_fold (s : Bool) : (if s = true then 2 else 1) = sz s := rfl
theorem ptr_sum (p : Byte) (a b : Nat) : p - BitVec.ofNat 8 (a + b) = p - BitVec.ofNat 8 b - BitVec.ofNat 8 a := by
  apply BitVec.eq_of_toNat_eq
  simp [BitVec.toNat_sub]; omega

theorem pcRel_toNat (pc d : Short) : (pcRel pc d).toNat = relative pc.toNat (d.toNat % 256) := by
  unfold pcRel relative signed
  have h1 := pc.isLt
  have h2 := d.isLt
  simp only [BitVec.toNat_add, BitVec.toNat_signExtend, BitVec.msb_eq_decide, BitVec.toNat_setWidth, cell_lo]
  simp
  split <;> split <;> omega

theorem load_eq (s : Bool) (addr : Short) (c : Cpu σ) (h : 65536 ≤ c.vm.memSize) (page : Nat)
   (mask : Nat) (hp : ∀ n, n &&& mask = n % page) (hp' : page ≤ 65536) (hp0 : 0 < page) :
   load mask s addr c = .ok (BitVec.ofNat 16 (peekMem c.vm addr.toNat page (sz s)), c) := by
  have hlt : ∀ n, n % page < c.vm.memSize := fun n => Nat.lt_of_lt_of_le (Nat.mod_lt _ hp0) (by omega)
  cases s
  · simp [load, load1, memRead, bind, StateT.bind, Except.bind, pure, StateT.pure, Except.pure, hp, hlt, peekMem, sz]
  · simp [load, load1, memRead, bind, StateT.bind, Except.bind, pure, StateT.pure, Except.pure, hp, hlt, peekMem, sz, mk2_def]
    apply BitVec.eq_of_toNat_eq
    rw [mk2_toNat]
    have h1 := (c.vm.memory (addr.toNat % page)).isLt
    have h2 := (c.vm.memory ((addr.toNat+1) % page)).isLt
    simp; omega

theorem store_eq (s : Bool) (addr v : Short) (c : Cpu σ) (h : 65536 ≤ c.vm.memSize) (page : Nat)
   (mask : Nat) (hp : ∀ n, n &&& mask = n % page) (hp' : page ≤ 65536) (hp0 : 0 < page) :
   store mask s addr v c = .ok ((), { c with vm := pokeMem c.vm addr.toNat page (sz s) v.toNat }) := by
  have hlt : ∀ n, n % page < c.vm.memSize := fun n => Nat.lt_of_lt_of_le (Nat.mod_lt _ hp0) (by omega)
  cases s
  · simp [store, memWrite, hp, hlt, pokeMem, sz]
  · simp [store, memWrite, bind, StateT.bind, Except.bind, hp, hlt, pokeMem, sz, ← cell_hi]

theorem and_255 (n : Nat) : n &&& 255 = n % 256 := Nat.and_two_pow_sub_one_eq_mod n 8
theorem and_65535 (n : Nat) : n &&& 65535 = n % 65536 := Nat.and_two_pow_sub_one_eq_mod n 16

theorem peekMem_lt (vm : VM) (a p : Nat) (s : Bool) : peekMem vm a p (sz s) < 256 ^ sz s := by
  cases s
  · simp [peekMem, sz]; omega
  · have h1 := (vm.memory (a % p)).isLt
    have h2 := (vm.memory ((a+1) % p)).isLt
    simp [peekMem, sz]; omega


@[simp] theorem sz_false : sz false = 1 := rfl
@[simp] theorem sz_true : sz true = 2 := rfl
theorem ptr_back (p : Byte) (a : Nat) : p - BitVec.ofNat 8 a + BitVec.ofNat 8 a = p := by
  apply BitVec.eq_of_toNat_eq
  simp [BitVec.toNat_sub, BitVec.toNat_add]; omega
theorem ptr_back1 (p : Byte) : p - 1#8 + 1#8 = p := ptr_back p 1
theorem ptr_back2 (p : Byte) : p - 2#8 + 2#8 = p := ptr_back p 2

/-- An operation with its mode bits, run by the interpreter. -/
def runOp (cfg : Cfg) (H : Host σ) (op : Op) (k r s : Bool) : M σ Unit := do keepPrologue k r; opBody cfg H op k r s

macro "ops" : tactic => `(tactic| simp [runOp, opBody, keepPrologue_eq, pop_eq, push_eq, bind, StateT.bind, Except.bind,
  pure, StateT.pure, Except.pure, Except.map, sys_pushed, sys_setPopPtr, popVal_toNat, operation, operandSizes,
  operandsAt, action, perform, pushAll, ptr_sum, sz_fold, pushValue_mod, pushValue_mod16,  BitVec.toNat_add, cmpOp,
  binOp, get, getThe, MonadStateOf.get, StateT.get, ptr_back, ptr_back1, ptr_back2])

/-- The statement of conformance for one operation. -/
def Conforms (cfg : Cfg) (H : Host σ) (op : Op) (k r s : Bool) (c : Cpu σ) : Prop :=
  (runOp cfg H op k r s c).map (fun x => x.2.sys) = operation cfg H op s r k c.sys.pc c.sys.vm c.sys.host

variable (cfg : Cfg) (H : Host σ) (k r s : Bool) (c : Cpu σ)

theorem conf_INC : Conforms cfg H .INC k r s c := by unfold Conforms; ops
theorem conf_POP : Conforms cfg H .POP k r s c := by unfold Conforms; ops
theorem conf_NIP : Conforms cfg H .NIP k r s c := by unfold Conforms; ops
theorem conf_SWP : Conforms cfg H .SWP k r s c := by unfold Conforms; ops
theorem conf_ROT : Conforms cfg H .ROT k r s c := by unfold Conforms; ops
theorem conf_DUP : Conforms cfg H .DUP k r s c := by unfold Conforms; ops
theorem conf_OVR : Conforms cfg H .OVR k r s c := by unfold Conforms; ops
theorem conf_EQU : Conforms cfg H .EQU k r s c := by
  unfold Conforms; ops
  simp only [← BitVec.toNat_inj, popVal_toNat, stackOf_setPopPtr, popPtr_setPopPtr, stackOf_prologue, popPtr_prologue]
  split <;> rfl
theorem conf_NEQ : Conforms cfg H .NEQ k r s c := by
  unfold Conforms; ops
  simp only [← BitVec.toNat_inj, popVal_toNat, stackOf_setPopPtr, popPtr_setPopPtr, stackOf_prologue, popPtr_prologue]
  split <;> rfl
theorem conf_GTH : Conforms cfg H .GTH k r s c := by unfold Conforms; ops; split <;> rfl
theorem conf_LTH : Conforms cfg H .LTH k r s c := by unfold Conforms; ops; split <;> rfl
theorem conf_STH : Conforms cfg H .STH k r s c := by unfold Conforms; ops

/-- The observable effect of setting `pc`. -/
theorem sys_pc (c : Cpu σ) (p : Short) : ({ c with pc := p } : Cpu σ).sys = { c.sys with pc := p.toNat } := rfl

theorem pc_sys (c : Cpu σ) : c.pc.toNat = c.sys.pc := rfl

theorem jmp_eq (s : Bool) (a : Short) (c : Cpu σ) :
    jmp s a c = .ok ((), { c with pc := if s then a else pcRel c.pc a }) := rfl

theorem target_eq (s : Bool) (pc a : Short) (h : s = false → a.toNat < 256) :
    (if s = true then a else pcRel pc a).toNat = target (sz s) pc.toNat a.toNat := by
  cases s
  · simp [target, pcRel_toNat]; rw [Nat.mod_eq_of_lt (h rfl)]
  · simp [target]

theorem popVal_byte (k r : Bool) (c : Cpu σ) : (popVal k r false c).toNat < 256 := by
  rw [popVal_toNat]; exact valueAt_lt _ _ false

theorem conf_JMP : Conforms cfg H .JMP k r s c := by
  unfold Conforms; ops
  simp only [jmp_eq, sys_pc, sys_setPopPtr, sys_prologue]
  rw [target_eq _ _ _ (by rintro rfl; exact popVal_byte _ _ _)]
  simp [popVal_toNat, pc_sys]

theorem conf_JCN : Conforms cfg H .JCN k r s c := by
  unfold Conforms; ops
  have hz : ∀ x : Short, x = 0#16 ↔ x.toNat = 0 := fun x => by rw [← BitVec.toNat_inj]; rfl
  simp only [hz, popVal_setPopPtr, sz_false, stackOf_prologue]
  have hcomm : ptr r c.sys.vm - 1#8 - BitVec.ofNat 8 (sz s) = ptr r c.sys.vm - BitVec.ofNat 8 (sz s) - 1#8 := by
    cases s <;> simp [sub_lit, BitVec.add_assoc]
  by_cases h0 : valueAt (stack r c.sys.vm) (ptr r c.sys.vm - BitVec.ofNat 8 (sz s) - 1#8) 1 = 0
  · simp [h0, sys_setPopPtr, StateT.pure, pure, Except.pure]
  · simp only [h0, if_false, jmp_eq, sys_pc, sys_setPopPtr, sys_prologue]
    rw [target_eq _ _ _ (by rintro rfl; exact popVal_byte _ _ _)]
    simp [popVal_toNat, pc_sys]

theorem conf_JSR : Conforms cfg H .JSR k r s c := by
  unfold Conforms; ops
  simp only [jmp_eq, sys_pc, sys_setPopPtr, sys_prologue, sys_pushed]
  rw [target_eq _ _ _ (by rintro rfl; exact popVal_byte _ _ _)]
  simp [popVal_toNat, pc_sys]
  cases k <;> cases r <;> simp [pushValue, setPtr, poke, Spec.ptr]


theorem load_z (hm : 65536 ≤ c.vm.memSize) (a : Short) :
    load 255 s a c = .ok (BitVec.ofNat 16 (peekMem c.vm a.toNat 256 (sz s)), c) :=
  load_eq s a c hm 256 255 and_255 (by omega) (by omega)
theorem load_a (hm : 65536 ≤ c.vm.memSize) (a : Short) :
    load 65535 s a c = .ok (BitVec.ofNat 16 (peekMem c.vm a.toNat 65536 (sz s)), c) :=
  load_eq s a c hm 65536 65535 and_65535 (by omega) (by omega)
theorem store_z (hm : 65536 ≤ c.vm.memSize) (a v : Short) :
    store 255 s a v c = .ok ((), { c with vm := pokeMem c.vm a.toNat 256 (sz s) v.toNat }) :=
  store_eq s a v c hm 256 255 and_255 (by omega) (by omega)
theorem store_a (hm : 65536 ≤ c.vm.memSize) (a v : Short) :
    store 65535 s a v c = .ok ((), { c with vm := pokeMem c.vm a.toNat 65536 (sz s) v.toNat }) :=
  store_eq s a v c hm 65536 65535 and_65535 (by omega) (by omega)

theorem peek_toNat (vm : VM) (a p : Nat) (s : Bool) :
    (BitVec.ofNat 16 (peekMem vm a p (sz s))).toNat = peekMem vm a p (sz s) := by
  have := peekMem_lt vm a p s
  rw [BitVec.toNat_ofNat]
  apply Nat.mod_eq_of_lt
  cases s <;> simp at * <;> omega

theorem peek_sys (c : Cpu σ) (a p n : Nat) : peekMem c.vm a p n = peekMem c.sys.vm a p n := rfl
theorem peek_setPtr (vm : VM) (k r : Bool) (q : Byte) (a p n : Nat) :
    peekMem (if k = true then vm else setPtr r q vm) a p n = peekMem vm a p n := by
  cases k <;> cases r <;> rfl
theorem sys_poke (c : Cpu σ) (a p n v : Nat) :
    ({ c with vm := pokeMem c.vm a p n v } : Cpu σ).sys = { c.sys with vm := pokeMem c.sys.vm a p n v } := by
  unfold pokeMem Cpu.sys; dsimp only; split <;> rfl

theorem pcRel_pop (k r : Bool) (pc : Short) (c : Cpu σ) :
    (pcRel pc (popVal k r false c)).toNat = relative pc.toNat (popVal k r false c).toNat := by
  rw [pcRel_toNat, Nat.mod_eq_of_lt (popVal_byte _ _ _)]

theorem conf_LDZ (hm : 65536 ≤ c.vm.memSize) : Conforms cfg H .LDZ k r s c := by
  unfold Conforms; ops
  rw [load_z _ _ (by simpa using hm)]
  simp [sys_pushed, sys_setPopPtr, popVal_toNat, peek_toNat, peek_setPtr, peek_sys, -BitVec.toNat_ofNat]
theorem conf_LDR (hm : 65536 ≤ c.vm.memSize) : Conforms cfg H .LDR k r s c := by
  unfold Conforms; ops
  rw [load_a _ _ (by simpa using hm)]
  simp [sys_pushed, sys_setPopPtr, pcRel_pop, popVal_toNat, peek_toNat, peek_setPtr, peek_sys, pc_sys, -BitVec.toNat_ofNat]
theorem conf_LDA (hm : 65536 ≤ c.vm.memSize) : Conforms cfg H .LDA k r s c := by
  unfold Conforms; ops
  rw [load_a _ _ (by simpa using hm)]
  simp [sys_pushed, sys_setPopPtr, popVal_toNat, peek_toNat, peek_setPtr, peek_sys, -BitVec.toNat_ofNat]
theorem conf_STZ (hm : 65536 ≤ c.vm.memSize) : Conforms cfg H .STZ k r s c := by
  unfold Conforms; ops
  rw [store_z _ _ (by simpa using hm)]
  simp only [sys_poke, sys_setPopPtr, sys_prologue]
  simp [popVal_toNat]
theorem conf_STR (hm : 65536 ≤ c.vm.memSize) : Conforms cfg H .STR k r s c := by
  unfold Conforms; ops
  rw [store_a _ _ (by simpa using hm)]
  simp only [sys_poke, sys_setPopPtr, sys_prologue, pcRel_pop]
  simp [popVal_toNat, pc_sys]
theorem conf_STA (hm : 65536 ≤ c.vm.memSize) : Conforms cfg H .STA k r s c := by
  unfold Conforms; ops
  rw [store_a _ _ (by simpa using hm)]
  simp only [sys_poke, sys_setPopPtr, sys_prologue]
  simp [popVal_toNat]

theorem valueAt_lt16 (stk : Byte → Byte) (p : Byte) (s : Bool) : valueAt stk p (sz s) < 65536 := by
  have := valueAt_lt stk p s
  cases s <;> simp at * <;> omega

theorem conf_ADD : Conforms cfg H .ADD k r s c := by unfold Conforms; ops
theorem conf_AND : Conforms cfg H .AND k r s c := by unfold Conforms; ops
theorem conf_ORA : Conforms cfg H .ORA k r s c := by unfold Conforms; ops
theorem conf_EOR : Conforms cfg H .EOR k r s c := by unfold Conforms; ops
theorem conf_SUB : Conforms cfg H .SUB k r s c := by
  unfold Conforms; ops
  generalize ha : valueAt (stack r c.sys.vm) (ptr r c.sys.vm - BitVec.ofNat 8 (sz s) - BitVec.ofNat 8 (sz s)) (sz s) = a
  generalize hb : valueAt (stack r c.sys.vm) (ptr r c.sys.vm - BitVec.ofNat 8 (sz s)) (sz s) = b
  have h1 : a < 256 ^ sz s := ha ▸ valueAt_lt _ _ _
  have h2 : b < 256 ^ sz s := hb ▸ valueAt_lt _ _ _
  rw [← pushValue_mod]
  conv => rhs; rw [← pushValue_mod]
  congr 1
  cases s <;> simp at * <;> omega
theorem conf_DIV : Conforms cfg H .DIV k r s c := by
  unfold Conforms; ops
  have hz : ∀ x : Short, x = 0#16 ↔ x.toNat = 0 := fun x => by rw [← BitVec.toNat_inj]; rfl
  simp only [hz, popVal_toNat, stackOf_prologue, popPtr_prologue]
  split
  · rfl
  · simp [popVal_toNat]
theorem conf_MUL (hv : cfg.wrapv = true ∨ s = false ∨
    valueAt (stack r c.sys.vm) (ptr r c.sys.vm - BitVec.ofNat 8 (sz s) - BitVec.ofNat 8 (sz s)) (sz s) *
      valueAt (stack r c.sys.vm) (ptr r c.sys.vm - BitVec.ofNat 8 (sz s)) (sz s) < 2 ^ 31) :
    Conforms cfg H .MUL k r s c := by
  unfold Conforms; ops
  have : (cfg.wrapv || decide ((popVal k r s (setPopPtr k r (ptr r c.sys.vm - BitVec.ofNat 8 (sz s)) (prologue k r c))).toNat *
      (popVal k r s (prologue k r c)).toNat < 2 ^ 31)) = true := by
    rcases hv with h | rfl | h
    · simp [h]
    · have h1 := popVal_byte k r (setPopPtr k r (ptr r c.sys.vm - BitVec.ofNat 8 (sz false)) (prologue k r c))
      have h2 := popVal_byte k r (prologue k r c)
      have := Nat.mul_lt_mul'' h1 h2
      simp only [Bool.or_eq_true, decide_eq_true_eq]; right; omega
    · simp only [Bool.or_eq_true, decide_eq_true_eq]; right
      simpa [popVal_toNat] using h
  simp only [mulInt, this, if_true]
  simp [sys_pushed, sys_setPopPtr, popVal_toNat, BitVec.toNat_mul, pushValue_mod16]
theorem hi_nibble (n : Nat) (h : n < 256) : (n &&& 240) >>> 4 = n / 16 := by
  have : ∀ x : BitVec 8, (x.toNat &&& 240) >>> 4 = x.toNat / 16 := by decide +kernel
  have e := this (BitVec.ofNat 8 n)
  simpa [Nat.mod_eq_of_lt h] using e

theorem conf_SFT : Conforms cfg H .SFT k r s c := by
  unfold Conforms; ops
  have h1 : valueAt (stack r c.sys.vm) (ptr r c.sys.vm - 1#8) 1 < 256 := valueAt_lt _ _ false
  rw [hi_nibble _ h1, show ∀ n : Nat, n &&& 15 = n % 16 from fun n => Nat.and_two_pow_sub_one_eq_mod n 4,
    Nat.shiftLeft_eq, Nat.shiftRight_eq_div_pow]

theorem sys_vm_eta (c : Cpu σ) : c.sys.vm = { c.vm with wsp := c.wsp, rsp := c.rsp } := rfl

theorem port_eq (a : Short) : a.setWidth 8 = BitVec.ofNat 8 a.toNat := cell_lo a
theorem port_eq' (a : Short) : BitVec.ofNat 8 (a + 1).toNat = BitVec.ofNat 8 (a.toNat + 1) := by
  apply BitVec.eq_of_toNat_eq; simp [BitVec.toNat_add]
theorem one_ne_two : ((1 : Nat) = 2) = False := by simp

theorem mk2_ofNat (x y : Byte) : (mk2 x y) = BitVec.ofNat 16 (x.toNat * 256 + y.toNat) := by
  apply BitVec.eq_of_toNat_eq
  rw [mk2_toNat]; have := x.isLt; have := y.isLt; simp; omega

theorem w16_ofNat (x : Byte) : x.setWidth 16 = BitVec.ofNat 16 x.toNat := by
  apply BitVec.eq_of_toNat_eq; simp

theorem devIn_eq (a : Short) :
    devIn cfg H s a c =
      match deviceIn cfg H (sz s) a.toNat c.vm c.host with
      | .ok (v, vm, h) => .ok (BitVec.ofNat 16 v, { c with vm := vm, host := h })
      | .error e => .error e := by
  rcases cfg with ⟨wv, hf⟩
  cases s
  · simp only [devIn, deviceIn, callDei, bind, StateT.bind, Except.bind, pure, StateT.pure, Except.pure, sz_false,
      port_eq, Bool.false_eq_true, if_false, if_true, mk2_def, one_ne_two]
    cases hx : H.dei (BitVec.ofNat 8 a.toNat) c.vm c.host with
    | error e => rfl
    | ok v => simp [w16_ofNat, -BitVec.ofNat_toNat]
  · cases hf
    · simp only [devIn, deviceIn, callDei, bind, StateT.bind, Except.bind, pure, StateT.pure, Except.pure, sz_true,
        port_eq, port_eq', Bool.false_eq_true, if_false, if_true]
      cases hx : H.dei (BitVec.ofNat 8 (a.toNat + 1)) c.vm c.host with
      | error e => rfl
      | ok v =>
        obtain ⟨v, vm, h⟩ := v
        dsimp only
        cases hy : H.dei (BitVec.ofNat 8 a.toNat) vm h with
        | error e => rfl
        | ok w => simp [mk2_def, mk2_ofNat]
    · simp only [devIn, deviceIn, callDei, bind, StateT.bind, Except.bind, pure, StateT.pure, Except.pure, sz_true,
        port_eq, port_eq', Bool.false_eq_true, if_false, if_true]
      cases hx : H.dei (BitVec.ofNat 8 a.toNat) c.vm c.host with
      | error e => rfl
      | ok v =>
        obtain ⟨v, vm, h⟩ := v
        dsimp only
        cases hy : H.dei (BitVec.ofNat 8 (a.toNat + 1)) vm h with
        | error e => rfl
        | ok w => simp [mk2_def, mk2_ofNat]

theorem conf_DEI : Conforms cfg H .DEI k r s c := by
  unfold Conforms; ops
  simp only [saveState, loadState, modify, modifyGet, MonadStateOf.modifyGet, StateT.modifyGet, pure, Except.pure,
    devIn_eq, ← sys_vm_eta, sys_setPopPtr, popVal_toNat, host_setPopPtr, host_prologue, popPtr_prologue, sz_false,
    stackOf_prologue, sys_prologue, pc_setPopPtr, pc_prologue]
  rw [show c.host = c.sys.host from rfl]
  cases deviceIn cfg H (sz s) (valueAt (stack r c.sys.vm) (ptr r c.sys.vm - 1#8) 1)
    (if k = true then c.sys.vm else setPtr r (ptr r c.sys.vm - 1#8) c.sys.vm) c.sys.host with
  | error e => rfl
  | ok v =>
    obtain ⟨v, vm, h⟩ := v
    simp only [sys_pushed, BitVec.toNat_ofNat]
    rw [show (2 : Nat) ^ 16 = 65536 from rfl, pushValue_mod16]
    rfl

theorem cell_hi' (v : Short) : BitVec.ofNat 8 (v >>> 8).toNat = BitVec.ofNat 8 (v.toNat / 256) := by
  rw [← cell_hi, cell_lo]

theorem devOut_eq (a v : Short) :
    devOut H s a v c =
      match deviceOut H (sz s) a.toNat v.toNat c.vm c.host with
      | .ok (vm, h) => .ok ((), { c with vm := vm, host := h })
      | .error e => .error e := by
  cases s
  · simp only [devOut, deviceOut, devWrite, callDeo, bind, StateT.bind, Except.bind, pure, StateT.pure, Except.pure,
      sz_false, port_eq, Bool.false_eq_true, if_false, one_ne_two, modify, modifyGet, MonadStateOf.modifyGet,
      StateT.modifyGet]
    split <;> simp_all
  · simp only [devOut, deviceOut, devWrite, callDeo, bind, StateT.bind, Except.bind, pure, StateT.pure, Except.pure,
      sz_true, port_eq, port_eq', if_true, cell_hi', modify, modifyGet, MonadStateOf.modifyGet, StateT.modifyGet]
    generalize H.deo (BitVec.ofNat 8 a.toNat) _ c.host = x
    cases x with
    | error e => rfl
    | ok x =>
      dsimp only
      generalize H.deo (BitVec.ofNat 8 (a.toNat + 1)) _ _ = y
      cases y <;> rfl

theorem conf_DEO : Conforms cfg H .DEO k r s c := by
  unfold Conforms; ops
  simp only [saveState, loadState, modify, modifyGet, MonadStateOf.modifyGet, StateT.modifyGet, pure, Except.pure,
    devOut_eq, ← sys_vm_eta, sys_setPopPtr, popVal_toNat, host_setPopPtr, host_prologue, popPtr_prologue, sz_false,
    stackOf_prologue, sys_prologue, pc_setPopPtr, pc_prologue, popPtr_setPopPtr, stackOf_setPopPtr]
  rw [show c.host = c.sys.host from rfl]
  cases deviceOut H (sz s) (valueAt (stack r c.sys.vm) (ptr r c.sys.vm - 1#8) 1)
    (valueAt (stack r c.sys.vm) (ptr r c.sys.vm - 1#8 - BitVec.ofNat 8 (sz s)) (sz s))
    (if k = true then c.sys.vm else setPtr r (ptr r c.sys.vm - 1#8 - BitVec.ofNat 8 (sz s)) c.sys.vm) c.sys.host with
  | error e => rfl
  | ok v => rfl

/-- Every operation in every mode conforms, given 64K of memory, and for `MUL2` wrapping integer arithmetic. -/
theorem conforms (op : Op) (hm : 65536 ≤ c.vm.memSize) (hv : op = .MUL → s = true → cfg.wrapv = false →
      valueAt (stack r c.sys.vm) (ptr r c.sys.vm - 4) 2 * valueAt (stack r c.sys.vm) (ptr r c.sys.vm - 2) 2 < 2 ^ 31) :
    Conforms cfg H op k r s c := by
  cases op
  case MUL =>
    apply conf_MUL
    cases s
    · simp
    · cases hw : cfg.wrapv
      · right; right
        have := hv rfl rfl hw
        simpa [sub_lit, BitVec.add_assoc] using this
      · simp
  case LDZ => exact conf_LDZ _ _ _ _ _ _ hm
  case STZ => exact conf_STZ _ _ _ _ _ _ hm
  case LDR => exact conf_LDR _ _ _ _ _ _ hm
  case STR => exact conf_STR _ _ _ _ _ _ hm
  case LDA => exact conf_LDA _ _ _ _ _ _ hm
  case STA => exact conf_STA _ _ _ _ _ _ hm
  case INC => apply conf_INC
  case POP => apply conf_POP
  case NIP => apply conf_NIP
  case SWP => apply conf_SWP
  case ROT => apply conf_ROT
  case DUP => apply conf_DUP
  case OVR => apply conf_OVR
  case EQU => apply conf_EQU
  case NEQ => apply conf_NEQ
  case GTH => apply conf_GTH
  case LTH => apply conf_LTH
  case JMP => apply conf_JMP
  case JCN => apply conf_JCN
  case JSR => apply conf_JSR
  case STH => apply conf_STH
  case DEI => apply conf_DEI
  case DEO => apply conf_DEO
  case ADD => apply conf_ADD
  case SUB => apply conf_SUB
  case DIV => apply conf_DIV
  case AND => apply conf_AND
  case ORA => apply conf_ORA
  case EOR => apply conf_EOR
  case SFT => apply conf_SFT

end Buxn.VM
