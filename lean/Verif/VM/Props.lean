import Verif.VM.Frame
/-!
# Theorems about the interpreter (C01 - C09)
-/
namespace Buxn.VM
variable {σ : Type}
open Spec

/-! ## Concrete objects for the non-vacuity examples -/

/-- A host without devices: reads give the device byte, writes only store it. -/
def plainHost : Host Unit where
  dei a vm h := .ok (vm.device a, vm, h)
  deo _ vm h := .ok (vm, h)

theorem plainHost_keeps : KeepsMemSize plainHost where
  dei _ _ _ _ _ _ e := by cases e; rfl
  deo _ _ _ _ _ e := by cases e; rfl

theorem plainHost_keepsStacks : KeepsStacks plainHost where
  dei _ _ _ _ _ _ e := by cases e; exact ⟨rfl, rfl, rfl, rfl⟩
  deo _ _ _ _ _ e := by cases e; exact ⟨rfl, rfl, rfl, rfl⟩

theorem plainHost_avoids (u : UB) : Avoids u plainHost where
  dei _ _ _ _ e := by cases e
  deo _ _ _ _ e := by cases e

/-- A VM with the given program at `0x100`. -/
def booted (rom : List Nat) : VM where
  memSize := 65536
  wsp := 0
  rsp := 0
  ws := fun _ => 0
  rs := fun _ => 0
  device := fun _ => 0
  memory := fun i => if 0x100 ≤ i then BitVec.ofNat 8 (rom.getD (i - 0x100) 0) else 0

/-! ## C01 -/

/-- **C01**. On a compiler where signed multiplication wraps, `buxn_vm_execute` does, for every program, every state
of the machine and any number of instructions, exactly what the instruction set says. -/
theorem C01_execute_is_uxn (cfg : Cfg) (hw : cfg.wrapv = true) (H : Host σ) (hk : KeepsMemSize H) (k0 : Byte × Byte)
    (n : Nat) (vm : VM) (hm : 65536 ≤ vm.memSize) (h : σ) (pc : Short) (hpc : pc ≠ 0) :
    (execute cfg H none k0 n vm h pc).view = run (Spec.step cfg H) n { vm := vm, host := h, pc := pc.toNat } := by
  have hc : cstep cfg H = Spec.step cfg H := by
    funext s; unfold cstep; simp [hw]
  unfold execute
  rw [if_neg hpc, runLoop_view cfg H hk n (enter vm h pc k0) hm, hc]
  rfl

/-- **C01** for a standard C compiler: the same, except that the code is undefined exactly when the specification
reaches a `MUL2` whose product exceeds `INT_MAX`. -/
theorem C01_execute_is_uxn_iso (cfg : Cfg) (H : Host σ) (hk : KeepsMemSize H) (k0 : Byte × Byte)
    (n : Nat) (vm : VM) (hm : 65536 ≤ vm.memSize) (h : σ) (pc : Short) (hpc : pc ≠ 0) :
    (execute cfg H none k0 n vm h pc).view = run (cstep cfg H) n { vm := vm, host := h, pc := pc.toNat } := by
  unfold execute
  rw [if_neg hpc, runLoop_view cfg H hk n (enter vm h pc k0) hm]
  rfl

/-- The program `LIT2 ffff LIT2 ffff MUL2 BRK`. -/
def mulRom : List Nat := [0xa0, 0xff, 0xff, 0xa0, 0xff, 0xff, 0x3a, 0x00]

/-- The property is violated by the C code as written: `0xffff * 0xffff` in `MUL2` overflows `int`
(`exec.h:374`), although the instruction set gives `0x0001`. -/
theorem C01_mul2_violated :
    execute ⟨false, true⟩ plainHost none (0, 0) 4 (booted mulRom) () 0x100 = .undefined .signedOverflow := by
  rfl

example : (booted mulRom).memSize = 65536 ∧ (0x100 : Short) ≠ 0 := by decide

/-- Non-vacuity: with wrapping multiplication the same program leaves 0x0001 on the stack. -/
example : ∃ vm, execute ⟨true, true⟩ plainHost none (0, 0) 4 (booted mulRom) () 0x100 = .halted vm () ∧
    vm.wsp = 2 ∧ vm.ws 0 = 0 ∧ vm.ws 1 = 1 := ⟨_, rfl, rfl, rfl, rfl⟩

/-! ## C02 -/

/-- A hook that keeps the memory size and has no undefined behaviour `u` of its own. -/
def HookFine (u : UB) (hook : Hook σ) : Prop :=
  ∀ pc vm h, 65536 ≤ vm.memSize → hook pc vm h ≠ .error u ∧
    ∀ vm' h', hook pc vm h = .ok (vm', h') → 65536 ≤ vm'.memSize

theorem runLoop_safe {cfg : Cfg} {H : Host σ} {u : UB} (hk : KeepsMemSize H) (ha : Avoids u H)
    (hu : u = .signedOverflow → cfg.wrapv = true) (hook : Option (Hook σ)) (hh : ∀ f ∈ hook, HookFine u f)
    (n : Nat) (c : Cpu σ) (h : 65536 ≤ c.vm.memSize) : runLoop cfg H hook n c ≠ .undefined u := by
  induction n generalizing c with
  | zero => intro e; cases e
  | succ n ih =>
    have key : ∀ c1 : Cpu σ, 65536 ≤ c1.vm.memSize →
        round cfg H hook c = step cfg H c1 → runLoop cfg H hook (n + 1) c ≠ .undefined u := by
      intro c1 hm hr
      unfold runLoop
      rw [hr]
      cases hs : step cfg H c1 with
      | error v =>
        intro e; cases e
        exact step_not_error hk ha hu hm hs
      | ok x =>
        obtain ⟨b, c'⟩ := x
        cases b with
        | false => intro e; cases e
        | true => exact ih c' (by rw [step_memSize hk hm hs]; exact hm)
    cases hook with
    | none => exact key c h rfl
    | some f =>
      have hf := hh f rfl c.pc c.sys.vm c.host h
      cases hx : f c.pc c.sys.vm c.host with
      | error v =>
        have : round cfg H (some f) c = .error v := by rw [round_hook, hx]
        unfold runLoop
        rw [this]
        intro e; cases e
        exact hf.1 hx
      | ok y =>
        obtain ⟨vm', h'⟩ := y
        refine key { c with vm := vm', host := h' } (hf.2 vm' h' hx) ?_
        rw [round_hook, hx]

/-- **C02**. Whatever the program, for any number of instructions, `buxn_vm_execute` makes no access outside of its
arrays, with or without a hook (whatever devices and hook do to the VM, as long as they keep the memory and have no
out-of-bounds access themselves). -/
theorem C02_no_out_of_bounds (cfg : Cfg) (H : Host σ) (hk : KeepsMemSize H) (ha : Avoids .oob H)
    (hook : Option (Hook σ)) (hh : ∀ f ∈ hook, HookFine .oob f) (k0 : Byte × Byte) (n : Nat) (vm : VM)
    (hm : 65536 ≤ vm.memSize) (h : σ) (pc : Short) :
    execute cfg H hook k0 n vm h pc ≠ .undefined .oob := by
  unfold execute
  split
  · intro e; cases e
  · exact runLoop_safe hk ha (fun e => by cases e) hook hh n _ hm

/-- **C02**, stronger: with wrapping multiplication there is no undefined behaviour of any kind. -/
theorem C02_no_undefined_behaviour (cfg : Cfg) (hw : cfg.wrapv = true) (H : Host σ) (hk : KeepsMemSize H)
    (ha : ∀ u, Avoids u H)
    (hook : Option (Hook σ)) (hh : ∀ u, ∀ f ∈ hook, HookFine u f) (k0 : Byte × Byte) (n : Nat) (vm : VM)
    (hm : 65536 ≤ vm.memSize) (h : σ) (pc : Short) (u : UB) :
    execute cfg H hook k0 n vm h pc ≠ .undefined u := by
  unfold execute
  split
  · intro e; cases e
  · exact runLoop_safe hk (ha u) (fun _ => hw) hook (hh u) n _ hm

/-- With a memory of fewer than 64K the interpreter does leave its arrays: the bound is needed.
The program `JMI feff` at the end of a 4K memory. -/
theorem C02_small_memory_violated :
    execute ⟨true, true⟩ plainHost none (0, 0) 2 { booted [0x40, 0xfe, 0xfc] with memSize := 4096 } () 0x100
      = .undefined .oob := by
  rfl

example : KeepsMemSize plainHost ∧ (∀ u, Avoids u plainHost) ∧ 65536 ≤ (booted mulRom).memSize :=
  ⟨plainHost_keeps, plainHost_avoids, by decide⟩
example : HookFine (σ := Unit) .oob (fun _ vm h => .ok (vm, h)) := by
  intro pc vm h hm
  exact ⟨(by intro e; cases e), by intro vm' h' e; cases e; exact hm⟩

/-! ## C03 -/

/-- **C03**. Popping what was just pushed gives the value (its low byte in byte mode) and the pointers back; a push
changes only the one or two cells at the pointer, modulo 256. -/
theorem C03_pop_after_push (r s : Bool) (v : Short) (c : Cpu σ) :
    ∃ c1 c2 : Cpu σ, push r s v c = .ok ((), c1) ∧
      pop false r s c1 = .ok (if s then v else v &&& 0xff, c2) ∧
      c2.wsp = c.wsp ∧ c2.rsp = c.rsp ∧
      c1.wsp = (if r then c.wsp else c.wsp + (if s then 2 else 1)) ∧
      c1.rsp = (if r then c.rsp + (if s then 2 else 1) else c.rsp) ∧
      (∀ q, q ≠ (if r then c.rsp else c.wsp) → (s = true → q ≠ (if r then c.rsp else c.wsp) + 1) →
        (if r then c1.vm.rs q = c.vm.rs q else c1.vm.ws q = c.vm.ws q)) ∧
      (if r then c1.vm.ws = c.vm.ws else c1.vm.rs = c.vm.rs) ∧
      c1.vm.memory = c.vm.memory ∧ c1.vm.device = c.vm.device ∧ c2.vm = c1.vm ∧ c1.pc = c.pc := by
  refine ⟨pushed r s v c, setPopPtr false r (popPtr false r (pushed r s v c) - BitVec.ofNat 8 (sz s)) (pushed r s v c),
    push_eq r s v c, ?_, ?_⟩
  · rw [pop_eq]
    congr 2
    apply BitVec.eq_of_toNat_eq
    have hv := v.isLt
    have e255 : ∀ n : Nat, n &&& 255 = n % 256 := and_255
    cases r <;> cases s <;>
      simp [popVal, pushed, popPtr, stackOf, setStack, upd, BitVec.add_sub_cancel, push, push1, push2, mk2_toNat, e255]
      <;> omega
  · cases r <;> cases s <;>
      simp [pushed, setPopPtr, popPtr, stackOf, setStack, BitVec.add_sub_cancel, push, push1, push2]
    all_goals (intro q h1; try intro h2)
    all_goals simp [upd, *]


/-- **C03**, other direction: pushing back what was just popped restores the machine. -/
theorem C03_push_after_pop (r s : Bool) (c c1 : Cpu σ) (v : Short) (e : pop false r s c = .ok (v, c1)) :
    push r s v c1 = .ok ((), c) := by
  rw [pop_eq] at e
  injection e with e
  injection e with e1 e2
  subst e1 e2
  have hupd : ∀ (f : Byte → Byte) (p : Byte), upd f p (f p) = f := by
    intro f p; funext q; unfold upd; split
    · subst_vars; rfl
    · rfl
  have hh : ∀ x y : Byte, BitVec.setWidth 8 (mk2 x y >>> 8) = x := by
    intro x y; rw [cell_hi, mk2_toNat, cell_pair_hi]
  have hl : ∀ x y : Byte, BitVec.setWidth 8 (mk2 x y) = y := by
    intro x y; rw [cell_lo, mk2_toNat, cell_pair_lo]
  cases r <;> cases s <;>
    simp [push, push1, push2, popVal, setPopPtr, popPtr, stackOf, setStack, hupd, hh, hl, ptr_back1, ptr_back2]

/-- Both operations at the wrap-around: a short pushed at pointer 255 occupies the cells 255 and 0. -/
example (c : Cpu Unit) (h : c.wsp = 255) :
    ∃ c1, push false true 0x1234 c = .ok ((), c1) ∧ c1.wsp = 1 ∧ c1.vm.ws 255 = 0x12 ∧ c1.vm.ws 0 = 0x34 := by
  refine ⟨_, push_eq _ _ _ _, ?_, ?_, ?_⟩ <;>
    simp [pushed, push, push2, setStack, stackOf, h, upd]

/-! ## C04 -/

/-- The byte at `pc` encodes the operation `op` (one that has short, return and keep variants). -/
def Encodes (b : Byte) (op : Op) : Prop := b.toNat % 32 ≠ 0 ∧ mnemonics[b.toNat % 32 - 1]? = some op

theorem spec_step_poly {cfg : Cfg} {H : Host σ} {s s' : Sys σ} {op : Op} (ho : Encodes (s.vm.memory s.pc) op)
    (e : cstep cfg H s = .ok (some s')) :
    operation cfg H op ((s.vm.memory s.pc).getLsbD 5) ((s.vm.memory s.pc).getLsbD 6) ((s.vm.memory s.pc).getLsbD 7)
      ((s.pc + 1) % 65536) s.vm s.host = .ok s' := by
  obtain ⟨h0, h1⟩ := ho
  unfold cstep at e
  split at e
  · cases e
  unfold Spec.step at e
  dsimp only at e
  split at e
  · rename_i h; omega
  · rename_i b h
    rw [h, Nat.succ_sub_one] at h1
    rw [h1] at e
    dsimp only at e
    generalize operation cfg H op ((s.vm.memory s.pc).getLsbD 5) ((s.vm.memory s.pc).getLsbD 6)
      ((s.vm.memory s.pc).getLsbD 7) ((s.pc + 1) % 65536) s.vm s.host = x at e ⊢
    cases x with
    | error u => cases e
    | ok y => cases e; rfl

theorem step_ok_cstep {cfg : Cfg} {H : Host σ} {c c' : Cpu σ} (hm : 65536 ≤ c.vm.memSize)
    (e : step cfg H c = .ok (true, c')) : cstep cfg H c.sys = .ok (some c'.sys) := by
  have := step_related_c cfg H c hm
  rw [e] at this
  exact this

/-- **C04**. An instruction moves the pointer of its operand stack by the size of its results minus, unless the keep
bit is set, the size of its operands; it changes no cell of that stack but those of the results.
(`c.sys.vm` is the VM as the host sees it, with the stack pointers stored.) -/
theorem C04_stack_effect (cfg : Cfg) (H : Host σ) (c c' : Cpu σ) (op : Op) (hm : 65536 ≤ c.vm.memSize)
    (ho : Encodes (c.vm.memory c.pc.toNat) op) (hk : op = .DEI ∨ op = .DEO → KeepsStacks H)
    (e : step cfg H c = .ok (true, c')) :
    let b := c.vm.memory c.pc.toNat
    let n := if b.getLsbD 5 then 2 else 1
    let r := b.getLsbD 6
    let base := if b.getLsbD 7 then ptr r c.sys.vm else ptr r c.sys.vm - BitVec.ofNat 8 (operandSizes n op).sum
    ptr r c'.sys.vm = base + BitVec.ofNat 8 (resultSizes n op).sum ∧
    ∀ j, (resultSizes n op).sum ≤ j → j < 256 →
      stack r c'.sys.vm (base + BitVec.ofNat 8 j) = stack r c.sys.vm (base + BitVec.ofNat 8 j) := by
  have h1 := spec_step_poly (s := c.sys) ho (step_ok_cstep hm e)
  exact operation_effect hk h1

/-- **C04**, the keep bit: the operand bytes are still in place, and still below the pointer's old position. -/
theorem C04_keep_preserves_operands (cfg : Cfg) (H : Host σ) (c c' : Cpu σ) (op : Op) (hm : 65536 ≤ c.vm.memSize)
    (ho : Encodes (c.vm.memory c.pc.toNat) op) (hk : op = .DEI ∨ op = .DEO → KeepsStacks H)
    (hkeep : (c.vm.memory c.pc.toNat).getLsbD 7 = true)
    (e : step cfg H c = .ok (true, c')) :
    let r := (c.vm.memory c.pc.toNat).getLsbD 6
    ∀ j, 0 < j → j ≤ 200 → stack r c'.sys.vm (ptr r c.sys.vm - BitVec.ofNat 8 j)
      = stack r c.sys.vm (ptr r c.sys.vm - BitVec.ofNat 8 j) := by
  intro r j h0 h1
  have h2 := (C04_stack_effect cfg H c c' op hm ho hk e).2 (256 - j) (by
    have : ∀ s : Bool, ((resultSizes (if s then 2 else 1) op).sum ≤ 6) := by cases op <;> decide
    have := this ((c.vm.memory c.pc.toNat).getLsbD 5)
    omega) (by omega)
  simp only [hkeep, if_true] at h2
  rw [sub_lit, show 256 - j % 256 = 256 - j by omega]
  exact h2

/-- The example: `ADDk` on the working stack holding 3 and 4 leaves 3, 4, 7. -/
example : ∃ c, execute ⟨false, true⟩ plainHost none (0, 0) 3 (booted [0x80, 3, 0x80, 4, 0x98]) () 0x100 = .running c ∧
    c.wsp = 3 ∧ c.vm.ws 0 = 3 ∧ c.vm.ws 1 = 4 ∧ c.vm.ws 2 = 7 := ⟨_, rfl, rfl, rfl, rfl, rfl⟩
example : Encodes 0x98 .ADD ∧ (0x98 : Byte).getLsbD 7 = true := by unfold Encodes; decide

/-! ## C05 -/

/-- **C05**. Instructions other than stores and device operations leave memory and device page alone. -/
theorem C05_no_store_no_change (cfg : Cfg) (H : Host σ) (c c' : Cpu σ) (b : Bool) (hm : 65536 ≤ c.vm.memSize)
    (h : ∀ op, op ∈ [Op.STZ, .STR, .STA, .DEI, .DEO] → ¬ Encodes (c.vm.memory c.pc.toNat) op)
    (e : step cfg H c = .ok (b, c')) :
    c'.vm.memory = c.vm.memory ∧ c'.vm.device = c.vm.device ∧ c'.host = c.host := by
  have hr := step_related_c cfg H c hm
  rw [e] at hr
  cases b with
  | false =>
    obtain ⟨-, h2, h3⟩ := hr
    exact ⟨by rw [h2]; rfl, by rw [h2]; rfl, h3⟩
  | true =>
    have hr : cstep cfg H c.sys = .ok (some c'.sys) := hr
    suffices hs : c'.sys.vm.memory = c.sys.vm.memory ∧ c'.sys.vm.device = c.sys.vm.device ∧ c'.sys.host = c.sys.host from hs
    by_cases hz : (c.vm.memory c.pc.toNat).toNat % 32 = 0
    · unfold cstep at hr
      split at hr
      · cases hr
      unfold Spec.step at hr
      dsimp only at hr
      rw [show c.sys.vm.memory c.sys.pc = c.vm.memory c.pc.toNat from rfl, hz] at hr
      dsimp only at hr
      generalize c'.sys = s' at hr ⊢
      generalize c.sys = s at hr ⊢
      split at hr
      · cases hr
      · cases hr; exact ⟨memory_setPtr _ _ _, device_setPtr _ _ _, rfl⟩
      · cases hr; exact ⟨rfl, rfl, rfl⟩
      · cases hr; exact ⟨memory_pushValue _ _ _ _, device_pushValue _ _ _ _, rfl⟩
      · cases hr; exact ⟨memory_pushValue _ _ _ _, device_pushValue _ _ _ _, rfl⟩
    · obtain ⟨op, hop⟩ := Option.isSome_iff_exists.mp (mnemonics_total _ hz)
      have hx := spec_step_poly (s := c.sys) ⟨hz, hop⟩ hr
      have hn : op ∉ [Op.STZ, .STR, .STA, .DEI, .DEO] := fun hin => h op hin ⟨hz, hop⟩
      generalize c'.sys = s' at hx ⊢
      generalize c.sys = s at hx ⊢
      unfold operation at hx
      dsimp only at hx
      have hmem : ∀ (k r : Bool) q, (if k = true then s.vm else setPtr r q s.vm).memory = s.vm.memory := by
        intro k r q; split
        · rfl
        · exact memory_setPtr _ _ _
      have hdev : ∀ (k r : Bool) q, (if k = true then s.vm else setPtr r q s.vm).device = s.vm.device := by
        intro k r q; split
        · rfl
        · exact device_setPtr _ _ _
      cases op <;> simp only [operandSizes, operandsAt, action, perform] at hx <;> first
        | (exfalso; simp at hn; done)
        | (cases hx; simp only [memory_pushAll, device_pushAll, memory_pushValue, device_pushValue, hmem, hdev]; simp; done)

/-- The address operand of a store instruction, and the page its addresses wrap in. -/
def storeTarget (next : Nat) (r : Bool) (vm : VM) : Op → Option (Nat × Nat)
  | .STZ => some ((stack r vm (ptr r vm - 1)).toNat, 256)
  | .STR => some (relative next (stack r vm (ptr r vm - 1)).toNat, 65536)
  | .STA => some ((stack r vm (ptr r vm - 2)).toNat * 256 + (stack r vm (ptr r vm - 1)).toNat, 65536)
  | _ => none

/-- Size of the address operand. -/
def addressSize : Op → Nat
  | .STA => 2
  | _ => 1

/-- **C05**, stores: a byte store puts the byte below the address operand into the addressed cell, a short store the
two bytes below it into two cells that are adjacent in the page; nothing else in memory or in the device page
changes. -/
theorem C05_store_only_there (cfg : Cfg) (H : Host σ) (c c' : Cpu σ) (op : Op) (hm : 65536 ≤ c.vm.memSize)
    (ho : Encodes (c.vm.memory c.pc.toNat) op) (a page : Nat)
    (ht : storeTarget ((c.pc.toNat + 1) % 65536) ((c.vm.memory c.pc.toNat).getLsbD 6) c.sys.vm op = some (a, page))
    (e : step cfg H c = .ok (true, c')) :
    let r := (c.vm.memory c.pc.toNat).getLsbD 6
    let top := ptr r c.sys.vm - BitVec.ofNat 8 (addressSize op)
    c'.vm.device = c.vm.device ∧
    if (c.vm.memory c.pc.toNat).getLsbD 5 then
      c'.vm.memory ((a + 1) % page) = stack r c.sys.vm (top - 1) ∧
      c'.vm.memory (a % page) = stack r c.sys.vm (top - 2) ∧
      ∀ i, i ≠ a % page → i ≠ (a + 1) % page → c'.vm.memory i = c.vm.memory i
    else
      c'.vm.memory (a % page) = stack r c.sys.vm (top - 1) ∧
      ∀ i, i ≠ a % page → c'.vm.memory i = c.vm.memory i := by
  intro r top
  have hx := spec_step_poly (s := c.sys) ho (step_ok_cstep hm e)
  have hmem : ∀ (k r : Bool) q, (if k = true then c.sys.vm else setPtr r q c.sys.vm).memory = c.sys.vm.memory := by
    intro k r q; split
    · rfl
    · exact memory_setPtr _ _ _
  have hdev : ∀ (k r : Bool) q, (if k = true then c.sys.vm else setPtr r q c.sys.vm).device = c.sys.vm.device := by
    intro k r q; split
    · rfl
    · exact device_setPtr _ _ _
  rw [show c.sys.vm.memory c.sys.pc = c.vm.memory c.pc.toNat from rfl] at hx
  have key : ∀ (vm : VM) (s : Bool) (v : Nat) (q : Byte), vm.memory = c.vm.memory → vm.device = c.vm.device →
      v = valueAt (stack r c.sys.vm) (q - BitVec.ofNat 8 (sz s)) (sz s) → (s = true → page ≠ 1) →
      0 < page →
      (pokeMem vm a page (sz s) v).device = c.vm.device ∧
      if s = true then
        (pokeMem vm a page (sz s) v).memory ((a + 1) % page) = stack r c.sys.vm (q - 1) ∧
        (pokeMem vm a page (sz s) v).memory (a % page) = stack r c.sys.vm (q - 2) ∧
        ∀ i, i ≠ a % page → i ≠ (a + 1) % page → (pokeMem vm a page (sz s) v).memory i = c.vm.memory i
      else
        (pokeMem vm a page (sz s) v).memory (a % page) = stack r c.sys.vm (q - 1) ∧
        ∀ i, i ≠ a % page → (pokeMem vm a page (sz s) v).memory i = c.vm.memory i := by
    intro vm s v q h1 h2 h3 h4 h5
    subst h3
    have hne : s = true → a % page ≠ (a + 1) % page := by
      intro hs heq
      have h4 := h4 hs
      have e1 := Nat.div_add_mod a page
      have e2 := Nat.div_add_mod (a + 1) page
      rcases Nat.lt_or_ge (a % page + 1) page with h | h
      · have : (a + 1) % page = a % page + 1 := by
          rw [Nat.add_mod, Nat.mod_eq_of_lt (show 1 < page by omega), Nat.mod_eq_of_lt h]
        omega
      · have hlt := Nat.mod_lt a h5
        have h7 : a % page = page - 1 := by omega
        have : (a + 1) % page = 0 := by
          rw [Nat.add_mod, Nat.mod_eq_of_lt (show 1 < page by omega), h7, Nat.sub_add_cancel h5, Nat.mod_self]
        omega
    cases s
    · simp only [pokeMem, sz_false, one_ne_two, if_false, Bool.false_eq_true, valueAt, cell_byte, h1, h2, upd_same,
        true_and]
      exact ⟨rfl, fun i hi => upd_other _ _ hi⟩
    · have hne := hne rfl
      simp only [pokeMem, sz_true, if_true, valueAt, cell_pair_hi, cell_pair_lo, h1, h2, upd_same,
        true_and, upd_other _ _ hne]
      refine ⟨?_, rfl, fun i hi hj => ?_⟩
      · congr 1
        simp [sub_lit, BitVec.add_assoc]
      · rw [upd_other _ _ hj, upd_other _ _ hi]
  have hvm : c'.vm.device = c'.sys.vm.device ∧ c'.vm.memory = c'.sys.vm.memory := ⟨rfl, rfl⟩
  rw [hvm.1, hvm.2]
  generalize hs5 : (c.vm.memory c.pc.toNat).getLsbD 5 = s at hx ⊢
  generalize hs7 : (c.vm.memory c.pc.toNat).getLsbD 7 = k at hx
  have hr6 : (c.vm.memory c.pc.toNat).getLsbD 6 = r := rfl
  rw [hr6] at hx ht
  clear_value r
  unfold operation at hx
  dsimp only at hx
  simp only [sz_fold] at hx
  cases op <;> simp only [storeTarget, reduceCtorEq] at ht
  all_goals
    injection ht with ht
    injection ht with ht1 ht2
    simp only [operandSizes, operandsAt, action, perform, List.sum_cons, List.sum_nil, Nat.add_zero] at hx
    injection hx with hx
    rw [← hx]
    dsimp only
    subst ht2
  · rw [ptr_sum, ptr_back, show valueAt (stack r c.sys.vm) (ptr r c.sys.vm - BitVec.ofNat 8 1) 1 = a from ht1]
    exact key _ s _ top (hmem _ _ _) (hdev _ _ _) rfl (by omega) (by omega)
  · rw [ptr_sum, ptr_back, show valueAt (stack r c.sys.vm) (ptr r c.sys.vm - BitVec.ofNat 8 1) 1 = (stack r c.sys.vm (ptr r c.sys.vm - 1)).toNat from rfl,
      show c.sys.pc = c.pc.toNat from rfl, ht1]
    exact key _ s _ top (hmem _ _ _) (hdev _ _ _) rfl (by omega) (by omega)
  · rw [ptr_sum, ptr_back, show valueAt (stack r c.sys.vm) (ptr r c.sys.vm - BitVec.ofNat 8 2) 2 = a from ?_]
    · exact key _ s _ top (hmem _ _ _) (hdev _ _ _) rfl (by omega) (by omega)
    · rw [← ht1, valueAt]
      congr 3
      simp [sub_lit, BitVec.add_assoc]

/-- `#1234 #ff STZ2` writes the cells ff and 00 of the zero page. -/
example : ∃ c, execute ⟨false, true⟩ plainHost none (0, 0) 3 (booted [0xa0, 0x12, 0x34, 0x80, 0xff, 0x31]) () 0x100 = .running c ∧
    c.vm.memory 0xff = 0x12 ∧ c.vm.memory 0 = 0x34 := ⟨_, rfl, rfl, rfl⟩


/-! ## C06 -/

/-- **C06**. Vector 0 is a no-op, whatever the devices and hook. -/
theorem C06_vector_zero (cfg : Cfg) (H : Host σ) (hook : Option (Hook σ)) (k0 : Byte × Byte) (n : Nat) (vm : VM) (h : σ) :
    execute cfg H hook k0 n vm h 0 = .halted vm h := by
  simp [execute]

theorem step_false_iff {cfg : Cfg} {H : Host σ} {c : Cpu σ} (hm : 65536 ≤ c.vm.memSize) :
    (∃ c', step cfg H c = .ok (false, c')) ↔ c.vm.memory c.pc.toNat = 0 := by
  have hr := step_related_c cfg H c hm
  have hb : cstep cfg H c.sys = .ok none ↔ c.vm.memory c.pc.toNat = 0 := by
    have e0 : c.sys.vm.memory c.sys.pc = c.vm.memory c.pc.toNat := rfl
    constructor
    · intro h
      by_cases hz : (c.vm.memory c.pc.toNat).toNat % 32 = 0
      · unfold cstep at h
        split at h
        · cases h
        unfold Spec.step at h
        rw [e0] at h
        dsimp only at h
        rw [hz] at h
        dsimp only at h
        have bits : ∀ b : Byte, b.toNat % 32 = 0 → b.getLsbD 7 = false → b.getLsbD 6 = false → b.getLsbD 5 = false →
            b = 0 := by decide +kernel
        split at h
        · exact bits _ hz ‹_› ‹_› ‹_›
        all_goals cases h
      · obtain ⟨op, hop⟩ := Option.isSome_iff_exists.mp (mnemonics_total _ hz)
        exfalso
        unfold cstep at h
        split at h
        · cases h
        unfold Spec.step at h
        rw [e0] at h
        dsimp only at h
        generalize hgen : (c.vm.memory c.pc.toNat).toNat % 32 = m at h hz hop
        cases m with
        | zero => exact hz rfl
        | succ m =>
          rw [Nat.add_sub_cancel] at hop
          dsimp only at h
          rw [hop] at h
          dsimp only at h
          generalize operation cfg H op _ _ _ _ _ _ = x at h
          cases x <;> cases h
    · intro h
      unfold cstep
      rw [if_neg (by intro ho; have := ho.2.1; rw [e0, h] at this; simp at this)]
      unfold Spec.step
      rw [e0, h]
      rfl
  rw [← hb]
  constructor
  · rintro ⟨c', e⟩
    rw [e] at hr
    exact hr.1
  · intro h
    rw [h] at hr
    cases hs : step cfg H c with
    | error u => rw [hs] at hr; cases hr
    | ok x =>
      obtain ⟨b, c'⟩ := x
      cases b with
      | false => exact ⟨c', rfl⟩
      | true => rw [hs] at hr; cases hr

theorem runLoop_halted_iff {cfg : Cfg} {H : Host σ} (hk : KeepsMemSize H) (n : Nat) (c : Cpu σ)
    (hm : 65536 ≤ c.vm.memSize) (vm' : VM) (h' : σ) :
    runLoop cfg H none n c = .halted vm' h' ↔
      ∃ m, m < n ∧ ∃ d, runLoop cfg H none m c = .running d ∧ d.vm.memory d.pc.toNat = 0 ∧ vm' = d.sys.vm ∧ h' = d.host := by
  induction n generalizing c with
  | zero =>
    constructor
    · intro e; cases e
    · rintro ⟨m, hlt, -⟩; omega
  | succ n ih =>
    have e0 : round cfg H none c = step cfg H c := rfl
    cases hs : step cfg H c with
    | error u =>
      constructor
      · intro e; unfold runLoop at e; rw [e0, hs] at e; cases e
      · rintro ⟨m, hlt, d, h1, h2, -⟩
        exfalso
        cases m with
        | zero =>
          cases h1
          obtain ⟨c', hc⟩ := (step_false_iff (cfg := cfg) (H := H) hm).mpr h2
          rw [hc] at hs; cases hs
        | succ m => unfold runLoop at h1; rw [e0, hs] at h1; cases h1
    | ok x =>
      obtain ⟨b, c'⟩ := x
      cases b with
      | false =>
        have hz := (step_false_iff (cfg := cfg) (H := H) hm).mp ⟨c', hs⟩
        have hr := step_related_c cfg H c hm
        rw [hs] at hr
        constructor
        · intro e
          unfold runLoop at e; rw [e0, hs] at e
          injection e with e1 e2
          exact ⟨0, by omega, c, rfl, hz, by rw [← e1, hr.2.1], by rw [← e2, hr.2.2]; rfl⟩
        · rintro ⟨m, hlt, d, h1, h2, h3, h4⟩
          cases m with
          | zero =>
            cases h1
            unfold runLoop; rw [e0, hs]
            simp only [h3, h4, hr.2.1, hr.2.2]; rfl
          | succ m => unfold runLoop at h1; rw [e0, hs] at h1; cases h1
      | true =>
        have hm' : 65536 ≤ c'.vm.memSize := by rw [step_memSize hk hm hs]; exact hm
        have hcons : ∀ m, runLoop cfg H none (m + 1) c = runLoop cfg H none m c' := by
          intro m; conv => lhs; unfold runLoop
          rw [e0, hs]
        rw [hcons, ih c' hm']
        constructor
        · rintro ⟨m, hlt, d, h1, h2⟩
          exact ⟨m + 1, by omega, d, by rw [hcons]; exact h1, h2⟩
        · rintro ⟨m, hlt, d, h1, h2⟩
          cases m with
          | zero =>
            cases h1
            obtain ⟨c'', hc⟩ := (step_false_iff (cfg := cfg) (H := H) hm).mpr h2.1
            rw [hc] at hs; cases hs
          | succ m => exact ⟨m, by omega, d, by rw [← hcons]; exact h1, h2⟩

/-- **C06**. An execution returns within `n` instructions exactly when after some smaller number of instructions the
byte at `pc` is 0, and the final state is the state reached there. -/
theorem C06_halts_exactly_at_brk (cfg : Cfg) (H : Host σ) (hk : KeepsMemSize H) (k0 : Byte × Byte) (n : Nat) (vm : VM)
    (hm : 65536 ≤ vm.memSize) (h : σ) (pc : Short) (hpc : pc ≠ 0) (vm' : VM) (h' : σ) :
    execute cfg H none k0 n vm h pc = .halted vm' h' ↔
      ∃ m, m < n ∧ ∃ c, execute cfg H none k0 m vm h pc = .running c ∧
        c.vm.memory c.pc.toNat = 0 ∧ vm' = c.sys.vm ∧ h' = c.host := by
  simp only [execute, if_neg hpc]
  exact runLoop_halted_iff hk n _ hm vm' h'

/-- **C06**. The result does not depend on how long one watches: a finished execution stays finished. -/
theorem C06_halted_stable (cfg : Cfg) (H : Host σ) (hook : Option (Hook σ)) (k0 : Byte × Byte) (n m : Nat) (vm : VM)
    (h : σ) (pc : Short) (vm' : VM) (h' : σ) (hnm : n ≤ m)
    (e : execute cfg H hook k0 n vm h pc = .halted vm' h') : execute cfg H hook k0 m vm h pc = .halted vm' h' := by
  unfold execute at e ⊢
  split at e
  · rw [if_pos ‹_›]; exact e
  · rw [if_neg ‹_›]
    generalize enter vm h pc k0 = c at e ⊢
    induction n generalizing c m with
    | zero => cases e
    | succ n ih =>
      obtain ⟨m, rfl⟩ : ∃ m', m = m' + 1 := ⟨m - 1, by omega⟩
      unfold runLoop at e ⊢
      cases hs : round cfg H hook c with
      | error u => rw [hs] at e; cases e
      | ok x =>
        obtain ⟨b, c'⟩ := x
        rw [hs] at e
        cases b with
        | false => exact e
        | true => exact ih m (by omega) c' e

example : ∃ vm, execute ⟨false, true⟩ plainHost none (0, 0) 2 (booted [0x80, 3]) () 0x100 = .halted vm () ∧ vm.ws 0 = 3 :=
  ⟨_, rfl, rfl⟩

/-! ## C07 -/

/-- **C07**. With a hook that observes everything and changes nothing but its notebook, the execution has the same
outcome, and the notebook has been updated exactly once per executed instruction, in order, with the state
before that instruction (stack pointers stored in the VM). -/
theorem C07_hook_transparent {τ : Type} (cfg : Cfg) (H : Host σ) (hk : KeepsMemSize H) (note : Sys σ → τ → τ)
    (k0 k1 : Byte × Byte) (n : Nat) (vm : VM) (hm : 65536 ≤ vm.memSize) (h : σ) (t : τ) (pc : Short) (hpc : pc ≠ 0) :
    (execute cfg (withNotes τ H) (some (observer note)) k0 n vm (h, t) pc).view =
      ((execute cfg H none k1 n vm h pc).view).addNotes
        ((visited (cstep cfg H) n { vm := vm, host := h, pc := pc.toNat }).foldl (fun t s => note s t) t) := by
  rw [C01_execute_is_uxn_iso cfg H hk k1 n vm hm h pc hpc]
  simp only [execute, if_neg hpc]
  exact runLoop_observed cfg H hk note n _ { vm := vm, host := h, pc := pc.toNat } t rfl hm

/-- The hook is called for `LIT`, `POP` and the final `BRK`: three notes, at 0x100, 0x102 and 0x103. -/
example : ∃ vm, execute ⟨false, true⟩ (withNotes (List Nat) plainHost) (some (observer fun s t => t ++ [s.pc])) (0, 0) 9
    (booted [0x80, 3, 0x02]) ((), []) 0x100 = .halted vm ((), [0x100, 0x102, 0x103]) := ⟨_, rfl⟩

/-! ## C08 -/

/-- **C08**. `buxn_vm_reset` with the flag byte `flags` (bit 1: zero page, bit 2: memory above it, bit 3: device page,
bit 4: stacks) clears exactly these. -/
theorem C08_reset_exact (vm : VM) (flags : Byte) (hm : 0x100 ≤ vm.memSize) :
    ∃ vm', reset vm flags = .ok vm' ∧ vm'.memSize = vm.memSize ∧
      (∀ i, vm'.memory i = if (flags.getLsbD 1 ∧ i < 0x100) ∨ (flags.getLsbD 2 ∧ 0x100 ≤ i ∧ i < vm.memSize) then 0
        else vm.memory i) ∧
      (∀ i, vm'.device i = if flags.getLsbD 3 then 0 else vm.device i) ∧
      (∀ i, vm'.ws i = if flags.getLsbD 4 then 0 else vm.ws i) ∧
      (∀ i, vm'.rs i = if flags.getLsbD 4 then 0 else vm.rs i) ∧
      vm'.wsp = (if flags.getLsbD 4 then 0 else vm.wsp) ∧
      vm'.rsp = (if flags.getLsbD 4 then 0 else vm.rsp) := by
  have b1 : ∀ f : Byte, (f &&& RESET_ZERO_PAGE ≠ 0) = (f.getLsbD 1 = true) := by decide +kernel
  have b2 : ∀ f : Byte, (f &&& RESET_HIGH_MEM ≠ 0) = (f.getLsbD 2 = true) := by decide +kernel
  have b3 : ∀ f : Byte, (f &&& RESET_DEVICE ≠ 0) = (f.getLsbD 3 = true) := by decide +kernel
  have b4 : ∀ f : Byte, (f &&& RESET_STACK ≠ 0) = (f.getLsbD 4 = true) := by decide +kernel
  unfold reset
  simp only [b1, b2, b3, b4]
  generalize flags.getLsbD 1 = f1
  generalize flags.getLsbD 2 = f2
  generalize flags.getLsbD 3 = f3
  generalize flags.getLsbD 4 = f4
  cases f1 <;> cases f2 <;> cases f3 <;> cases f4 <;>
    simp [hm, zeroRange, bind, Except.bind] <;> intro i <;>
    (repeat' split) <;> first | rfl | omega

example : ∃ vm', reset (booted mulRom) (RESET_ZERO_PAGE ||| RESET_HIGH_MEM) = .ok vm' ∧ vm'.memory 0x100 = 0 ∧
    (booted mulRom).memory 0x100 = 0xa0 := ⟨_, rfl, by decide, by decide⟩

/-! ## C09 -/

/-- **C09**. `DEO` in any mode: the operands are popped (unless kept), the value is stored in the device page, only then
the callback for the port runs; in short mode both bytes are stored first and the callbacks for port and
port + 1 (mod 256) run in this order. What the callbacks do to the VM, the stack pointers included, is the result. -/
theorem C09_deo (cfg : Cfg) (H : Host σ) (c : Cpu σ) (hm : 65536 ≤ c.vm.memSize)
    (ho : Encodes (c.vm.memory c.pc.toNat) .DEO) (c' : Cpu σ) :
    let b := c.vm.memory c.pc.toNat
    let r := b.getLsbD 6
    let p := ptr r c.sys.vm
    let st := stack r c.sys.vm
    let port := st (p - 1)
    let popped := fun size : Byte => if b.getLsbD 7 then c.sys.vm else setPtr r (p - size) c.sys.vm
    step cfg H c = .ok (true, c') →
      c'.pc = c.pc + 1 ∧
      if b.getLsbD 5 then
        ∃ vm1 h1, H.deo port { popped 3 with device := upd (upd c.vm.device port (st (p - 3))) (port + 1) (st (p - 2)) }
              c.host = .ok (vm1, h1) ∧
          H.deo (port + 1) vm1 h1 = .ok (c'.sys.vm, c'.host)
      else
        H.deo port { popped 2 with device := upd c.vm.device port (st (p - 2)) } c.host = .ok (c'.sys.vm, c'.host) := by
  intro b r p st port popped e
  have hx := spec_step_poly (s := c.sys) ho (step_ok_cstep hm e)
  rw [show c.sys.vm.memory c.sys.pc = b from rfl] at hx
  unfold operation at hx
  simp only [sz_fold, operandSizes, operandsAt, action, perform, bind, Except.bind, pure, Except.pure] at hx
  have hb1 : b.getLsbD 6 = r := rfl
  rw [hb1] at hx
  have hport : ∀ n, valueAt st (p - BitVec.ofNat 8 (n + 1) + BitVec.ofNat 8 n) 1 = port.toNat := by
    intro n
    have : p - BitVec.ofNat 8 (n + 1) + BitVec.ofNat 8 n = p - 1 := by
      apply BitVec.eq_of_toNat_eq; simp [BitVec.toNat_sub, BitVec.toNat_add]; omega
    rw [this]; rfl
  have hd2 : ∀ q, (popped q).device = c.vm.device := by
    intro q; simp only [popped]; split
    · rfl
    · exact device_setPtr _ _ _
  have hpc1 : (c.sys.pc + 1) % 65536 = (c.pc + 1).toNat := by simp [Cpu.sys, BitVec.toNat_add]
  have hports : BitVec.ofNat 8 (port.toNat + 1) = port + 1 := by
    apply BitVec.eq_of_toNat_eq; simp [BitVec.toNat_add]
  split at hx
  · cases hx
  · rename_i y hy
    injection hx with hx
    have hp : c'.pc = c.pc + 1 := by
      apply BitVec.eq_of_toNat_eq
      rw [← hpc1]; exact (congrArg Sys.pc hx).symm
    have hv : y.1 = c'.sys.vm := congrArg Sys.vm hx
    have hh : y.2 = c'.host := congrArg Sys.host hx
    refine ⟨hp, ?_⟩
    unfold deviceOut at hy
    cases hs : b.getLsbD 5
    · rw [hs] at hy
      simp only [sz_false, one_ne_two, if_false, List.sum_cons, List.sum_nil, Nat.add_zero] at hy
      rw [show (1 : Nat) + 1 = 1 + 1 from rfl, hport 1, cell_byte] at hy
      rw [if_neg (by simp)]
      rw [← hv, ← hh]
      rw [show (y.1, y.2) = y from rfl, ← hy]
      have key : ∀ (w : VM) (x y : Byte), x = y → H.deo port { w with device := upd w.device port x } c.host =
          H.deo port { w with device := upd w.device port y } c.host := by rintro w x _ rfl; rfl
      rw [← hd2 2]
      exact key (popped 2) _ _ (cell_byte _).symm
    · rw [hs] at hy
      simp only [sz_true, if_true, List.sum_cons, List.sum_nil, Nat.add_zero, bind, Except.bind] at hy
      rw [show (2 : Nat) + 1 = 2 + 1 from rfl, hport 2, cell_byte, hports] at hy
      rw [if_pos rfl]
      split at hy
      · cases hy
      · rename_i z hz
        refine ⟨z.1, z.2, ?_, ?_⟩
        · rw [show (z.1, z.2) = z from rfl, ← hz]
          have key : ∀ (w : VM) (x y x' y' : Byte), x = y → x' = y' →
              H.deo port { w with device := upd (upd w.device port x) (port + 1) x' } c.host =
              H.deo port { w with device := upd (upd w.device port y) (port + 1) y' } c.host := by
            rintro w x _ x' _ rfl rfl; rfl
          rw [← hd2 3]
          refine key (popped 3) _ _ _ _ (cell_pair_hi _ _).symm ?_
          refine ((cell_pair_lo _ _).trans ?_).symm
          show st _ = st _
          congr 1
          simp [p, sub_lit, BitVec.add_assoc]
        · rw [hy, ← hv, ← hh]



/-- **C09**. `DEI` in any mode: the port operand is popped (unless kept), then the callback is asked for the byte of the
port or, in short mode, for the bytes of port and port + 1 (mod 256), once each; which one is asked first is not
fixed by the code. The value is pushed on whatever stack pointer the callbacks left. -/
theorem C09_dei (cfg : Cfg) (H : Host σ) (c : Cpu σ) (hm : 65536 ≤ c.vm.memSize)
    (ho : Encodes (c.vm.memory c.pc.toNat) .DEI) (c' : Cpu σ) :
    let b := c.vm.memory c.pc.toNat
    let r := b.getLsbD 6
    let p := ptr r c.sys.vm
    let port := stack r c.sys.vm (p - 1)
    let vm0 := if b.getLsbD 7 then c.sys.vm else setPtr r (p - 1) c.sys.vm
    step cfg H c = .ok (true, c') →
      c'.pc = c.pc + 1 ∧
      if b.getLsbD 5 then
        ∃ x y vm1 h1 vm2,
          c'.sys.vm = pushValue r 2 (x.toNat * 256 + y.toNat) vm2 ∧
          if cfg.hiFirst then
            H.dei port vm0 c.host = .ok (x, vm1, h1) ∧ H.dei (port + 1) vm1 h1 = .ok (y, vm2, c'.host)
          else
            H.dei (port + 1) vm0 c.host = .ok (y, vm1, h1) ∧ H.dei port vm1 h1 = .ok (x, vm2, c'.host)
      else
        ∃ x vm1, H.dei port vm0 c.host = .ok (x, vm1, c'.host) ∧ c'.sys.vm = pushValue r 1 x.toNat vm1 := by
  intro b r p port vm0 e
  have hx := spec_step_poly (s := c.sys) ho (step_ok_cstep hm e)
  rw [show c.sys.vm.memory c.sys.pc = b from rfl] at hx
  unfold operation at hx
  simp only [sz_fold, operandSizes, operandsAt, action, perform, bind, Except.bind, pure, Except.pure, List.sum_cons,
    List.sum_nil, Nat.add_zero] at hx
  have hb1 : b.getLsbD 6 = r := rfl
  rw [hb1] at hx
  have hport : valueAt (stack r c.sys.vm) (ptr r c.sys.vm - BitVec.ofNat 8 1) 1 = port.toNat := rfl
  have hpc1 : (c.sys.pc + 1) % 65536 = (c.pc + 1).toNat := by simp [Cpu.sys, BitVec.toNat_add]
  have hports : BitVec.ofNat 8 (port.toNat + 1) = port + 1 := by
    apply BitVec.eq_of_toNat_eq; simp [BitVec.toNat_add]
  rw [hport] at hx
  have hvm0 : (if b.getLsbD 7 = true then c.sys.vm else setPtr r (ptr r c.sys.vm - BitVec.ofNat 8 1) c.sys.vm) = vm0 := rfl
  rw [hvm0] at hx
  clear_value vm0
  split at hx
  · cases hx
  · rename_i y hy
    injection hx with hx
    have hp : c'.pc = c.pc + 1 := by
      apply BitVec.eq_of_toNat_eq
      rw [← hpc1]; exact (congrArg Sys.pc hx).symm
    have hv : pushValue r (sz (b.getLsbD 5)) y.1 y.2.1 = c'.sys.vm := congrArg Sys.vm hx
    have hh : y.2.2 = c'.host := congrArg Sys.host hx
    refine ⟨hp, ?_⟩
    unfold deviceIn at hy
    simp only [bind, Except.bind, pure, Except.pure] at hy
    rw [cell_byte, hports, show c.sys.host = c.host from rfl] at hy
    cases hs : b.getLsbD 5
    · rw [hs] at hy hv
      simp only [sz_false, one_ne_two, if_false] at hy
      rw [if_neg (by simp)]
      split at hy
      · cases hy
      · rename_i z hz
        injection hy with hy
        subst hy
        exact ⟨z.1, z.2.1, by rw [hz, ← hh], hv.symm⟩
    · rw [hs] at hy hv
      simp only [sz_true, if_true] at hy
      rw [if_pos rfl]
      split at hy
      · rename_i hf
        split at hy
        · cases hy
        · rename_i z hz
          split at hy
          · cases hy
          · rename_i w hw
            injection hy with hy
            subst hy
            refine ⟨z.1, w.1, z.2.1, z.2.2, w.2.1, hv.symm, ?_⟩
            rw [if_pos hf]
            exact ⟨hz, by rw [hw, ← hh]⟩
      · rename_i hf
        split at hy
        · cases hy
        · rename_i z hz
          split at hy
          · cases hy
          · rename_i w hw
            injection hy with hy
            subst hy
            refine ⟨w.1, z.1, z.2.1, z.2.2, w.2.1, hv.symm, ?_⟩
            rw [if_neg hf]
            exact ⟨hz, by rw [hw, ← hh]⟩

/-- A host that logs what it is asked for, together with the two device bytes at port 0x10. -/
def loggingHost : Host (List (Bool × Byte × Byte × Byte)) where
  dei a vm h := .ok (vm.device a, vm, h ++ [(false, a, vm.device 0x10, vm.device 0x11)])
  deo a vm h := .ok (vm, h ++ [(true, a, vm.device 0x10, vm.device 0x11)])

/-- `#1234 #10 DEO2 #10 DEI2`: both device bytes are there before the first callback. -/
example : ∃ c, execute ⟨false, true⟩ loggingHost none (0, 0) 5
    (booted [0xa0, 0x12, 0x34, 0x80, 0x10, 0x37, 0x80, 0x10, 0x36]) [] 0x100 = .running c ∧
    c.host = [(true, 0x10, 0x12, 0x34), (true, 0x11, 0x12, 0x34), (false, 0x10, 0x12, 0x34), (false, 0x11, 0x12, 0x34)] ∧
    c.vm.ws 0 = 0x12 ∧ c.vm.ws 1 = 0x34 ∧ c.wsp = 2 := ⟨_, rfl, rfl, rfl, rfl, rfl⟩
example : Encodes 0x37 .DEO ∧ Encodes 0x36 .DEI := by unfold Encodes; decide

end Buxn.VM
