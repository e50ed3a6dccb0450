import Verif.VM.Spec
/-! Helper lemmas for the interpreter. -/
namespace Buxn.VM
variable {σ : Type}
open Spec

/-- The observable part of the interpreter's state. -/
def Cpu.sys (c : Cpu σ) : Spec.Sys σ :=
  { vm := { c.vm with wsp := c.wsp, rsp := c.rsp }, host := c.host, pc := c.pc.toNat }

theorem sub_lit (p : Byte) (n : Nat) : p - BitVec.ofNat 8 n = p + BitVec.ofNat 8 (256 - n % 256) := by
  apply BitVec.eq_of_toNat_eq
  simp [BitVec.toNat_sub, BitVec.toNat_add]; omega

/-- The short made of two bytes. -/
def mk2 (h l : Byte) : Short := (h.setWidth 16 <<< 8) ||| l.setWidth 16

theorem mk2_def (h l : Byte) : (h.setWidth 16 <<< 8) ||| l.setWidth 16 = mk2 h l := rfl

theorem mk2_toNat (h l : Byte) : (mk2 h l).toNat = h.toNat * 256 + l.toNat := by
  unfold mk2
  rw [BitVec.toNat_or]
  have h1 := h.isLt; have h2 := l.isLt
  simp only [BitVec.toNat_shiftLeft, Nat.shiftLeft_eq, BitVec.toNat_setWidth]
  rw [show h.toNat % 2 ^ 16 * 2 ^ 8 % 2 ^ 16 = 2 ^ 8 * h.toNat by omega, show l.toNat % 2 ^ 16 = l.toNat by omega,
    ← Nat.two_pow_add_eq_or_of_lt (by omega)]
  omega

theorem w16_toNat (b : Byte) : (b.setWidth 16).toNat = b.toNat := by
  have := b.isLt
  simp only [BitVec.toNat_setWidth]; omega

theorem cell_lo (v : Short) : v.setWidth 8 = BitVec.ofNat 8 v.toNat := by
  apply BitVec.eq_of_toNat_eq; simp

theorem cell_hi (v : Short) : (v >>> 8).setWidth 8 = BitVec.ofNat 8 (v.toNat / 256) := by
  apply BitVec.eq_of_toNat_eq; simp [Nat.shiftRight_eq_div_pow]

theorem cell_mod1 (n : Nat) : BitVec.ofNat 8 (n % 256) = BitVec.ofNat 8 n := by
  apply BitVec.eq_of_toNat_eq; simp

theorem cell_mod2 (n : Nat) : BitVec.ofNat 8 (n % 65536) = BitVec.ofNat 8 n := by
  apply BitVec.eq_of_toNat_eq; simp only [BitVec.toNat_ofNat]; omega

theorem cell_mod3 (n : Nat) : BitVec.ofNat 8 (n % 65536 / 256) = BitVec.ofNat 8 (n / 256) := by
  apply BitVec.eq_of_toNat_eq; simp only [BitVec.toNat_ofNat]; omega

theorem cell_byte (b : Byte) : BitVec.ofNat 8 b.toNat = b := by simp

theorem cell_pair_hi (h l : Byte) : BitVec.ofNat 8 ((h.toNat * 256 + l.toNat) / 256) = h := by
  apply BitVec.eq_of_toNat_eq; simp only [BitVec.toNat_ofNat]
  have := h.isLt; have := l.isLt; omega

theorem cell_pair_lo (h l : Byte) : BitVec.ofNat 8 (h.toNat * 256 + l.toNat) = l := by
  apply BitVec.eq_of_toNat_eq; simp only [BitVec.toNat_ofNat]
  have := h.isLt; have := l.isLt; omega


/-! ### Micro-operations as state transformers -/

/-- Operand size in bytes. -/
def sz (s : Bool) : Nat := if s then 2 else 1

/-- The value a POP reads. -/
def popVal (k r s : Bool) (c : Cpu σ) : Short :=
  if s then mk2 (stackOf r c (popPtr k r c - 2)) (stackOf r c (popPtr k r c - 2 + 1))
  else (stackOf r c (popPtr k r c - 1)).setWidth 16

theorem pop_eq (k r s : Bool) (c : Cpu σ) :
    pop k r s c = .ok (popVal k r s c, setPopPtr k r (popPtr k r c - BitVec.ofNat 8 (sz s)) c) := by
  cases s <;> rfl

theorem popVal_toNat (k r s : Bool) (c : Cpu σ) :
    (popVal k r s c).toNat = valueAt (stackOf r c) (popPtr k r c - BitVec.ofNat 8 (sz s)) (sz s) := by
  cases s
  · simp [popVal, valueAt, w16_toNat, sz, -BitVec.toNat_setWidth]
  · simp [popVal, valueAt, mk2_toNat, sz]

theorem popVal_setPopPtr (k r s : Bool) (p : Byte) (c : Cpu σ) :
    (popVal k r s (setPopPtr k r p c)).toNat = valueAt (stackOf r c) (p - BitVec.ofNat 8 (sz s)) (sz s) := by
  rw [popVal_toNat]; cases k <;> cases r <;> rfl

@[simp] theorem popPtr_setPopPtr (k r : Bool) (p : Byte) (c : Cpu σ) :
    popPtr k r (setPopPtr k r p c) = p := by cases k <;> cases r <;> rfl

@[simp] theorem stackOf_setPopPtr (k r r' : Bool) (p : Byte) (c : Cpu σ) :
    stackOf r' (setPopPtr k r p c) = stackOf r' c := by cases k <;> cases r <;> rfl

@[simp] theorem setPopPtr_setPopPtr (k r : Bool) (p q : Byte) (c : Cpu σ) :
    setPopPtr k r q (setPopPtr k r p c) = setPopPtr k r q c := by cases k <;> cases r <;> rfl

@[simp] theorem pc_setPopPtr (k r : Bool) (p : Byte) (c : Cpu σ) :
    (setPopPtr k r p c).pc = c.pc := by cases k <;> cases r <;> rfl

@[simp] theorem host_setPopPtr (k r : Bool) (p : Byte) (c : Cpu σ) :
    (setPopPtr k r p c).host = c.host := by cases k <;> cases r <;> rfl

@[simp] theorem vm_setPopPtr (k r : Bool) (p : Byte) (c : Cpu σ) :
    (setPopPtr k r p c).vm = c.vm := by cases k <;> cases r <;> rfl

/-- The observable effect of moving the pop pointer. -/
theorem sys_setPopPtr (k r : Bool) (p : Byte) (c : Cpu σ) :
    (setPopPtr k r p c).sys =
      { c.sys with vm := if k then c.sys.vm else setPtr r p c.sys.vm } := by
  cases k <;> cases r <;> rfl

/-- State after `keepPrologue`. -/
def prologue (k r : Bool) (c : Cpu σ) : Cpu σ :=
  if k then (if r then { c with krsp := c.rsp } else { c with kwsp := c.wsp }) else c

theorem keepPrologue_eq (k r : Bool) (c : Cpu σ) : keepPrologue k r c = .ok ((), prologue k r c) := rfl

@[simp] theorem popPtr_prologue (k r : Bool) (c : Cpu σ) :
    popPtr k r (prologue k r c) = ptr r c.sys.vm := by cases k <;> cases r <;> rfl
@[simp] theorem stackOf_prologue (k r r' : Bool) (c : Cpu σ) :
    stackOf r' (prologue k r c) = stack r' c.sys.vm := by cases k <;> cases r <;> cases r' <;> rfl
@[simp] theorem sys_prologue (k r : Bool) (c : Cpu σ) : (prologue k r c).sys = c.sys := by
  cases k <;> cases r <;> rfl
@[simp] theorem pc_prologue (k r : Bool) (c : Cpu σ) : (prologue k r c).pc = c.pc := by
  cases k <;> cases r <;> rfl
@[simp] theorem vm_prologue (k r : Bool) (c : Cpu σ) : (prologue k r c).vm = c.vm := by
  cases k <;> cases r <;> rfl
@[simp] theorem host_prologue (k r : Bool) (c : Cpu σ) : (prologue k r c).host = c.host := by
  cases k <;> cases r <;> rfl

/-- State after a PUSH. -/
def pushed (r s : Bool) (v : Short) (c : Cpu σ) : Cpu σ :=
  match push r s v c with
  | .ok (_, c') => c'
  | .error _ => c

theorem push_eq (r s : Bool) (v : Short) (c : Cpu σ) : push r s v c = .ok ((), pushed r s v c) := by
  cases r <;> cases s <;> rfl

theorem sys_pushed (r s : Bool) (v : Short) (c : Cpu σ) :
    (pushed r s v c).sys = { c.sys with vm := pushValue r (sz s) v.toNat c.sys.vm } := by
  cases r <;> cases s <;>
    simp [pushed, push, push1, push2, sz, pushValue, poke, Spec.ptr, Spec.setPtr, Cpu.sys, stackOf, setStack,
      ← cell_hi]

@[simp] theorem pc_pushed (r s : Bool) (v : Short) (c : Cpu σ) : (pushed r s v c).pc = c.pc := by
  cases r <;> cases s <;> rfl

@[simp] theorem popPtr_pushed (k r s : Bool) (v : Short) (c : Cpu σ) :
    popPtr k r (pushed (!r) s v c) = popPtr k r c := by
  cases k <;> cases r <;> cases s <;> rfl

@[simp] theorem stackOf_pushed (r s : Bool) (v : Short) (c : Cpu σ) :
    stackOf r (pushed (!r) s v c) = stackOf r c := by
  cases r <;> cases s <;> rfl

theorem pushValue_mod (r s : Bool) (v : Nat) (vm : VM) :
    pushValue r (sz s) (v % 256 ^ sz s) vm = pushValue r (sz s) v vm := by
  cases s
  · simp [sz, pushValue, poke, cell_mod1]
  · simp [sz, pushValue, poke, cell_mod2, cell_mod3]

theorem pushValue_mod16 (r s : Bool) (v : Nat) (vm : VM) :
    pushValue r (sz s) (v % 65536) vm = pushValue r (sz s) v vm := by
  cases s
  · simp [sz, pushValue, poke, cell_mod2]
  · simp [sz, pushValue, poke, cell_mod2, cell_mod3]

theorem valueAt_lt (stk : Byte → Byte) (p : Byte) (s : Bool) : valueAt stk p (sz s) < 256 ^ sz s := by
  have h1 := (stk p).isLt
  have h2 := (stk (p + 1)).isLt
  cases s <;> simp [sz, valueAt] <;> omega

end Buxn.VM
