import Verif.VM.Conform
/-! From opcode bodies to whole instructions. -/
namespace Buxn.VM
variable {σ : Type}
open Spec

/-- The decoding of an opcode byte by its bits. -/
def decodeBits (b : Byte) : Option Instr :=
  let s := b.getLsbD 5
  let r := b.getLsbD 6
  let k := b.getLsbD 7
  match b.toNat % 32 with
  | 0 =>
    match k, r, s with
    | false, false, false => some .BRK
    | false, false, true => some .JCI
    | false, true, false => some .JMI
    | false, true, true => some .JSI
    | true, r, s => some (.LIT r s)
  | n + 1 => mnemonics[n]?.map fun op => .poly op k r s

theorem dispatch_bits : ∀ b : Byte, dispatch b = decodeBits b := by decide +kernel

theorem mnemonics_total : ∀ b : Byte, b.toNat % 32 ≠ 0 → (mnemonics[b.toNat % 32 - 1]?).isSome = true := by
  decide +kernel

theorem memRead_ok (c : Cpu σ) (h : c.pc.toNat < c.vm.memSize) :
    memRead c.pc.toNat c = .ok (c.vm.memory c.pc.toNat, c) := by simp [memRead, h]

/-- State after fetching the opcode. -/
def fetched (c : Cpu σ) : Cpu σ := { c with pc := c.pc + 1 }

theorem fetched_sys (c : Cpu σ) : (fetched c).sys = { c.sys with pc := (c.sys.pc + 1) % 65536 } := by
  simp [fetched, Cpu.sys, BitVec.toNat_add]

theorem step_eq (cfg : Cfg) (H : Host σ) (c : Cpu σ) (h : 65536 ≤ c.vm.memSize) :
    step cfg H c =
      match decodeBits (c.vm.memory c.pc.toNat) with
      | some i => instrBody cfg H i (fetched c)
      | none => .error .oob := by
  have hlt : c.pc.toNat < c.vm.memSize := Nat.lt_of_lt_of_le c.pc.isLt h
  simp only [step, bind, StateT.bind, Except.bind, get, getThe, MonadStateOf.get, StateT.get, pure, Except.pure,
    memRead_ok c hlt, modify, modifyGet, MonadStateOf.modifyGet, StateT.modifyGet, dispatch_bits]
  cases decodeBits (c.vm.memory c.pc.toNat) <;> rfl

/-- How a result of the interpreter relates to a result of the specification started in `s`. -/
def Related (s : Sys σ) : Except UB (Bool × Cpu σ) → Res (Option (Sys σ)) → Prop
  | .ok (true, c'), x => x = .ok (some c'.sys)
  | .ok (false, c'), x => x = .ok none ∧ c'.vm = s.vm ∧ c'.host = s.host
  | .error e, x => x = .error e


theorem fetched_memSize (c : Cpu σ) : (fetched c).vm.memSize = c.vm.memSize := rfl
theorem fetched_vm (c : Cpu σ) : (fetched c).vm = c.vm := rfl

theorem imm_eq (c : Cpu σ) (s : Bool) (h : 65536 ≤ c.vm.memSize) :
    load 0xffff s c.pc c = .ok (BitVec.ofNat 16 (peekMem c.sys.vm c.sys.pc 65536 (sz s)), c) :=
  load_a s c h c.pc

theorem step_related (cfg : Cfg) (H : Host σ) (c : Cpu σ) (h : 65536 ≤ c.vm.memSize)
    (hmul : cfg.wrapv = true ∨ ¬ mulOverflows c.sys) :
    Related c.sys (step cfg H c) (Spec.step cfg H c.sys) := by
  rw [step_eq cfg H c h]
  unfold decodeBits Spec.step
  simp only [show c.sys.vm.memory c.sys.pc = c.vm.memory c.pc.toNat from rfl]
  generalize hop : c.vm.memory c.pc.toNat = opcode
  have hf := fetched_sys c
  have hpc : (fetched c).sys.pc = (c.sys.pc + 1) % 65536 := by rw [hf]
  have hvm : (fetched c).sys.vm = c.sys.vm := by rw [hf]
  have hhost : (fetched c).sys.host = c.sys.host := by rw [hf]
  rw [← hpc, ← hvm, ← hhost]
  have h' : 65536 ≤ (fetched c).vm.memSize := h
  have hend : ∀ c', Related c.sys c' = Related (fetched c).sys c' := by
    intro c'; funext x; unfold Related; rw [hvm, hhost]
  rw [hend]
  have hmul' : opcode.toNat % 32 = 0x1a → opcode.getLsbD 5 = true → cfg.wrapv = false →
      valueAt (stack (opcode.getLsbD 6) (fetched c).sys.vm) (ptr (opcode.getLsbD 6) (fetched c).sys.vm - 4) 2 *
        valueAt (stack (opcode.getLsbD 6) (fetched c).sys.vm) (ptr (opcode.getLsbD 6) (fetched c).sys.vm - 2) 2
        < 2 ^ 31 := by
    intro h1 h2 h3
    rcases hmul with hm | hm
    · simp [hm] at h3
    · unfold mulOverflows at hm
      simp only [show c.sys.vm.memory c.sys.pc = c.vm.memory c.pc.toNat from rfl, hop] at hm
      rw [hvm]
      exact Nat.lt_of_not_le fun hle => hm ⟨h1, h2, hle⟩
  generalize fetched c = c at *
  clear hf hpc hvm hhost hend hmul h hop
  have hop' : opcode.toNat % 32 < 32 := Nat.mod_lt _ (by omega)
  have hz : ∀ x : Short, x = 0#16 ↔ x.toNat = 0 := fun x => by rw [← BitVec.toNat_inj]; rfl
  cases hb : opcode.toNat % 32 with
  | succ n =>
    dsimp only
    have := mnemonics_total opcode (by omega)
    rw [hb] at this
    obtain ⟨op, hop⟩ := Option.isSome_iff_exists.mp this
    simp only [Nat.add_sub_cancel] at hop
    simp only [hop, Option.map_some]
    have hc := conforms cfg H (opcode.getLsbD 7) (opcode.getLsbD 6) (opcode.getLsbD 5) c op h' (by
      intro h1 h2 h3
      apply hmul' _ h2 h3
      subst h1
      have : ∀ m : Fin 32, mnemonics[m.val]? = some Op.MUL → m.val + 1 = 0x1a := by decide +kernel
      rw [hb]
      exact this ⟨n, by omega⟩ hop)
    unfold Conforms at hc
    rw [← hc]
    simp only [instrBody, runOp, bind, StateT.bind, Except.bind, pure, StateT.pure, Except.pure]
    cases hx : keepPrologue (opcode.getLsbD 7) (opcode.getLsbD 6) c with
    | error e => simp [keepPrologue_eq] at hx
    | ok x =>
      dsimp only
      cases opBody cfg H op (opcode.getLsbD 7) (opcode.getLsbD 6) (opcode.getLsbD 5) x.2 with
      | error e => rfl
      | ok y => rfl
  | zero =>
    dsimp only
    cases opcode.getLsbD 7
    · cases opcode.getLsbD 6
      · cases opcode.getLsbD 5
        · exact ⟨rfl, rfl, rfl⟩
        · -- JCI
          have hpop : pop1 false false c = .ok (popVal false false false c, setPopPtr false false (c.wsp - 1) c) := rfl
          have hv : (popVal false false false c = 0) ↔ c.sys.vm.ws (c.sys.vm.wsp - 1) = 0 := by
            rw [← BitVec.toNat_inj, popVal_toNat, ← BitVec.toNat_inj]; rfl
          have hl := imm_eq (setPopPtr false false (c.wsp - 1) c) true h'
          simp only [instrBody, bind, StateT.bind, Except.bind, hpop, ne_eq, hv, ite_not]
          by_cases h0 : c.sys.vm.ws (c.sys.vm.wsp - 1) = 0
          · simp only [h0, if_true, modify, modifyGet, MonadStateOf.modifyGet, StateT.modifyGet, pure, StateT.pure,
              Except.pure, Related, StateT.bind, bind, Except.bind]
            simp [Cpu.sys, setPopPtr, setPtr, BitVec.toNat_add]
          · simp only [h0, if_false, modify, modifyGet, MonadStateOf.modifyGet, StateT.modifyGet, pure, StateT.pure,
              Except.pure, Related, get, getThe, MonadStateOf.get, StateT.get, StateT.bind, bind, Except.bind]
            rw [hl]
            simp only [sys_setPopPtr]
            simp only [Bool.false_eq_true, if_false, sz_true, sys_pc, BitVec.toNat_add, BitVec.toNat_ofNat,
              sys_setPopPtr, pc_setPopPtr]
            rw [show peekMem (setPtr false (c.wsp - 1) c.sys.vm) c.sys.pc 65536 2 = peekMem c.sys.vm c.sys.pc 65536 2 from rfl,
              pc_sys]
            congr 3; simp; omega
      · cases opcode.getLsbD 5
        · -- JMI
          simp only [instrBody, bind, StateT.bind, Except.bind, pure, StateT.pure, Except.pure, get, getThe,
            MonadStateOf.get, StateT.get, imm_eq c true h', modify, modifyGet, MonadStateOf.modifyGet,
            StateT.modifyGet, Related, sys_pc, BitVec.toNat_add, BitVec.toNat_ofNat, sz_true]
          rw [pc_sys]
          congr 3; simp; omega
        · -- JSI
          have hp : push2 true (c.pc + 2) c = .ok ((), pushed true true (c.pc + 2) c) := push_eq true true (c.pc + 2) c
          have hl := imm_eq (pushed true true (c.pc + 2) c) true h'
          rw [pc_pushed] at hl
          simp only [instrBody, bind, StateT.bind, Except.bind, pure, StateT.pure, Except.pure, get, getThe,
            MonadStateOf.get, StateT.get, modify, modifyGet, MonadStateOf.modifyGet, hp, hl,
            StateT.modifyGet, Related, sys_pc, BitVec.toNat_add, BitVec.toNat_ofNat, sz_true, pc_pushed, sys_pushed]
          rw [pc_sys, show ∀ v, peekMem (pushValue true 2 v c.sys.vm) c.sys.pc 65536 2
            = peekMem c.sys.vm c.sys.pc 65536 2 from fun _ => rfl]
          congr 3; simp; omega
    · -- LIT
      generalize opcode.getLsbD 6 = r
      generalize opcode.getLsbD 5 = s
      simp only [instrBody, bind, StateT.bind, Except.bind, pure, StateT.pure, Except.pure, get, getThe,
        MonadStateOf.get, StateT.get, imm_eq c s h', modify, modifyGet, MonadStateOf.modifyGet,
        StateT.modifyGet, Related, push_eq, sys_pushed, sys_pc, sz_fold, BitVec.toNat_ofNat]
      congr 3
      · rw [show (2 : Nat) ^ 16 = 65536 from rfl, pushValue_mod16]
      · cases s <;> simp [BitVec.toNat_add, pc_sys]

theorem step_mul_overflow (cfg : Cfg) (H : Host σ) (c : Cpu σ) (h : 65536 ≤ c.vm.memSize)
    (hw : cfg.wrapv = false) (ho : mulOverflows c.sys) : step cfg H c = .error .signedOverflow := by
  obtain ⟨h1, h2, h3⟩ := ho
  simp only [show c.sys.vm.memory c.sys.pc = c.vm.memory c.pc.toNat from rfl] at h1 h2 h3
  rw [step_eq cfg H c h]
  unfold decodeBits
  rw [h1]
  simp only [show mnemonics[25]? = some Op.MUL from rfl, Option.map_some, h2]
  generalize (c.vm.memory c.pc.toNat).getLsbD 6 = r at *
  generalize (c.vm.memory c.pc.toNat).getLsbD 7 = k at *
  simp only [instrBody, opBody, binOp, keepPrologue_eq, pop_eq, bind, StateT.bind, Except.bind, mulInt, hw,
    popVal_toNat, popPtr_prologue, stackOf_prologue, popPtr_setPopPtr, stackOf_setPopPtr]
  have hs : (fetched c).sys.vm = c.sys.vm := by rw [fetched_sys]
  have e : ptr r c.sys.vm - BitVec.ofNat 8 2 - BitVec.ofNat 8 2 = ptr r c.sys.vm - 4 := by
    simp [sub_lit, BitVec.add_assoc]
  have hn : ¬ (valueAt (stack r c.sys.vm) (ptr r c.sys.vm - 4) 2 * valueAt (stack r c.sys.vm) (ptr r c.sys.vm - 2#8) 2
      < 2 ^ 31) := Nat.not_lt.mpr h3
  simp only [sz_true, Bool.false_or, hs, e, decide_eq_true_eq, if_neg hn]

end Buxn.VM
