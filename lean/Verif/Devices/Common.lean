import Verif.VM.Model
/-!
# Accessors used by the devices

Models the inline functions of `/repo/include/buxn/vm/vm.h:76-122`.
-/
namespace Buxn.VM

/-- `buxn_vm_load2`, `vm.h:86-91`, on the device page: `buxn_vm_dev_load2`, `vm.h:119-122` (mask `0xff`). -/
def VM.devLoad2 (vm : VM) (addr : Byte) : Short := (vm.device addr).setWidth 16 <<< 8 ||| (vm.device (addr + 1)).setWidth 16

/-- An access of `vm->memory[i]`. -/
def VM.rd (vm : VM) (i : Nat) : Res Byte := if i < vm.memSize then .ok (vm.memory i) else .error .oob

/-- `vm->memory[i] = v`. -/
def VM.wr (vm : VM) (i : Nat) (v : Byte) : Res VM :=
  if i < vm.memSize then .ok { vm with memory := upd vm.memory i v } else .error .oob

/-- `buxn_vm_mem_load2`, `vm.h:98-101`: the parameter `addr` is a `uint16_t`, so `addr` is first reduced
modulo 64K; the second byte wraps by the mask `0xffff`. -/
def VM.memLoad2 (vm : VM) (addr : Nat) : Res Short := do
  let a := addr % 65536
  let h ← vm.rd a
  let l ← vm.rd ((a + 1) % 65536)
  return h.setWidth 16 <<< 8 ||| l.setWidth 16

theorem devLoad2_toNat (vm : VM) (a : Byte) :
    (vm.devLoad2 a).toNat = (vm.device a).toNat * 256 + (vm.device (a + 1)).toNat := by
  have h1 := (vm.device a).isLt
  have h2 := (vm.device (a + 1)).isLt
  unfold VM.devLoad2
  rw [BitVec.toNat_or, BitVec.toNat_shiftLeft, BitVec.toNat_setWidth, BitVec.toNat_setWidth,
    Nat.mod_eq_of_lt (show (vm.device a).toNat < 2 ^ 16 by omega),
    Nat.mod_eq_of_lt (show (vm.device (a+1)).toNat < 2 ^ 16 by omega), Nat.shiftLeft_eq,
    Nat.mod_eq_of_lt (show (vm.device a).toNat * 2 ^ 8 < 2 ^ 16 by omega),
    Nat.mul_comm, ← Nat.two_pow_add_eq_or_of_lt (i := 8) h2]

theorem join_toNat (h l : Byte) : (h.setWidth 16 <<< 8 ||| l.setWidth 16 : Short).toNat = h.toNat * 256 + l.toNat := by
  have h1 := h.isLt
  have h2 := l.isLt
  rw [BitVec.toNat_or, BitVec.toNat_shiftLeft, BitVec.toNat_setWidth, BitVec.toNat_setWidth,
    Nat.mod_eq_of_lt (show h.toNat < 2 ^ 16 by omega),
    Nat.mod_eq_of_lt (show l.toNat < 2 ^ 16 by omega), Nat.shiftLeft_eq,
    Nat.mod_eq_of_lt (show h.toNat * 2 ^ 8 < 2 ^ 16 by omega),
    Nat.mul_comm, ← Nat.two_pow_add_eq_or_of_lt (i := 8) h2]

theorem rd_ok (vm : VM) (i : Nat) (h : i < vm.memSize) : vm.rd i = .ok (vm.memory i) := by simp [VM.rd, h]
theorem wr_ok (vm : VM) (i : Nat) (v : Byte) (h : i < vm.memSize) :
    vm.wr i v = .ok { vm with memory := upd vm.memory i v } := by simp [VM.wr, h]

theorem memLoad2_ok (vm : VM) (a : Nat) (h : 65536 ≤ vm.memSize) :
    ∃ v, vm.memLoad2 a = .ok v ∧
      v.toNat = (vm.memory (a % 65536)).toNat * 256 + (vm.memory ((a + 1) % 65536)).toNat := by
  refine ⟨(vm.memory (a % 65536)).setWidth 16 <<< 8 ||| (vm.memory ((a + 1) % 65536)).setWidth 16, ?_, join_toNat _ _⟩
  simp only [VM.memLoad2, bind, Except.bind, pure, Except.pure]
  rw [rd_ok _ _ (by omega)]
  dsimp only
  rw [rd_ok _ _ (by omega), show (a % 65536 + 1) % 65536 = (a + 1) % 65536 by omega]

end Buxn.VM
