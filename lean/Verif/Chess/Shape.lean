import Verif.Chess.Stacks
/-!
# The common shape of the operations: pop operands, note something, push results
-/

namespace Buxn.Chess

open Buxn.Asm (Str)
open Buxn.VM (Instr Op dispatch)

/-! ## Frames -/

@[simp] theorem setReal_realStack (r : Bool) (s : Stack) (c : Run) : realStack r (setReal r s c) = s := by
  cases r <;> rfl

theorem setReal_other (r : Bool) (s : Stack) (c : Run) : realStack (!r) (setReal r s c) = realStack (!r) c := by
  cases r <;> rfl

@[simp] theorem setReal_terminated (r : Bool) (s : Stack) (c : Run) : (setReal r s c).terminated = c.terminated := by
  cases r <;> rfl
@[simp] theorem setReal_nodes (r : Bool) (s : Stack) (c : Run) : (setReal r s c).nodes = c.nodes := by
  cases r <;> rfl
@[simp] theorem setReal_opcode (r : Bool) (s : Stack) (c : Run) : (setReal r s c).opcode = c.opcode := by
  cases r <;> rfl
@[simp] theorem setReal_keep (r : Bool) (s : Stack) (c : Run) : (setReal r s c).keep = c.keep := by
  cases r <;> rfl
@[simp] theorem setReal_pc (r : Bool) (s : Stack) (c : Run) : (setReal r s c).pc = c.pc := by
  cases r <;> rfl
@[simp] theorem setReal_log (r : Bool) (s : Stack) (c : Run) : (setReal r s c).log = c.log := by
  cases r <;> rfl
@[simp] theorem setReal_key (r : Bool) (s : Stack) (c : Run) : (setReal r s c).key = c.key := by
  cases r <;> rfl
@[simp] theorem setReal_queue (r : Bool) (s : Stack) (c : Run) : (setReal r s c).queue = c.queue := by
  cases r <;> rfl
@[simp] theorem setReal_oob (r : Bool) (s : Stack) (c : Run) : (setReal r s c).oob = c.oob := by
  cases r <;> rfl
@[simp] theorem setReal_arcs (r : Bool) (s : Stack) (c : Run) : (setReal r s c).arcs = c.arcs := by
  cases r <;> rfl
@[simp] theorem setReal_trace (r : Bool) (s : Stack) (c : Run) : (setReal r s c).trace = c.trace := by
  cases r <;> rfl

theorem setReal_setReal (r : Bool) (s s' : Stack) (c : Run) : setReal r s' (setReal r s c) = setReal r s' c := by
  cases r <;> rfl

@[simp] theorem setPop_popStack (r : Bool) (s : Stack) (c : Run) : popStack r (setPop r s c) = s := by
  unfold setPop popStack
  by_cases h : c.keep = true
  · rw [if_pos h]
    cases r <;> simp [h]
  · rw [if_neg h]
    rw [if_neg (by rw [setReal_keep]; exact h), setReal_realStack]

@[simp] theorem setPop_terminated (r : Bool) (s : Stack) (c : Run) : (setPop r s c).terminated = c.terminated := by
  unfold setPop; split <;> cases r <;> rfl
@[simp] theorem setPop_nodes (r : Bool) (s : Stack) (c : Run) : (setPop r s c).nodes = c.nodes := by
  unfold setPop; split <;> cases r <;> rfl
@[simp] theorem setPop_opcode (r : Bool) (s : Stack) (c : Run) : (setPop r s c).opcode = c.opcode := by
  unfold setPop; split <;> cases r <;> rfl
@[simp] theorem setPop_keep (r : Bool) (s : Stack) (c : Run) : (setPop r s c).keep = c.keep := by
  unfold setPop; split <;> cases r <;> rfl
@[simp] theorem setPop_pc (r : Bool) (s : Stack) (c : Run) : (setPop r s c).pc = c.pc := by
  unfold setPop; split <;> cases r <;> rfl

theorem setPop_setPop (r : Bool) (s s' : Stack) (c : Run) : setPop r s' (setPop r s c) = setPop r s' c := by
  unfold setPop
  by_cases h : c.keep = true
  · cases r <;> simp [h]
  · rw [if_neg h, if_neg h, if_neg (by rw [setReal_keep]; exact h), setReal_setReal]

/-- Giving a stack new nodes. -/
theorem setPop_withNodes (r : Bool) (s : Stack) (m : Nodes) (c : Run) :
    { setPop r s c with nodes := m } = setPop r s { c with nodes := m } := by
  unfold setPop; split <;> cases r <;> rfl

theorem popStack_withNodes (r : Bool) (m : Nodes) (c : Run) : popStack r { c with nodes := m } = popStack r c := rfl

theorem realStack_withNodes (r : Bool) (m : Nodes) (c : Run) : realStack r { c with nodes := m } = realStack r c := rfl

/-- A pop only touches the nodes, or it reports the underflow. -/
theorem popByte_form (s : Stack) (c : Run) :
    (s.size.toNat < 1 ∧ popByte s c = (valueError, s, error .underflow c)) ∨
      (1 ≤ s.size.toNat ∧ (popByte s c).2.1.size = s.size - 1 ∧
        ∃ m o, (popByte s c).2.2 = { c with nodes := m, oob := o }) := by
  unfold popByte touchTop
  by_cases h : s.size.toNat < 1
  · left; rw [if_pos h]; exact ⟨h, rfl⟩
  · right
    rw [if_neg h]
    dsimp only
    refine ⟨by omega, ?_⟩
    by_cases h0 : s.len = 0
    · rw [if_pos h0]
      split
      · exact ⟨rfl, c.nodes, true, rfl⟩
      · exact ⟨rfl, _, true, rfl⟩
    · rw [if_neg h0]
      split
      · exact ⟨rfl, c.nodes, c.oob, rfl⟩
      · exact ⟨rfl, _, c.oob, rfl⟩

theorem popFrom_form (s : Stack) (b : Bool) (c : Run) :
    (s.size.toNat < width b ∧ popFrom s b c = (valueError, s, error .underflow c)) ∨
      (width b ≤ s.size.toNat ∧ (popFrom s b c).2.1.size.toNat + width b = s.size.toNat ∧
        ∃ m o, (popFrom s b c).2.2 = { c with nodes := m, oob := o }) := by
  cases b
  · rcases popByte_form s c with ⟨h, e⟩ | ⟨h, e, m, o, h2⟩
    · exact .inl ⟨h, e⟩
    · refine .inr ⟨h, ?_, m, o, h2⟩
      show (popByte s c).2.1.size.toNat + 1 = _
      rw [e, toNat_sub_byte _ 1 h, show (1 : Byte).toNat = 1 from rfl]
      omega
  · show (s.size.toNat < 2 ∧ popShort s c = _) ∨ (2 ≤ s.size.toNat ∧ (popShort s c).2.1.size.toNat + 2 = _ ∧ _)
    by_cases h : s.size.toNat < 2
    · left
      unfold popShort
      rw [if_pos h]
      exact ⟨h, rfl⟩
    · right
      have key : ∀ c : Run, (popByte (popByte s c).2.1 (popByte s c).2.2).2.1.size.toNat + 2 = s.size.toNat ∧
          ∃ m o, (popByte (popByte s c).2.1 (popByte s c).2.2).2.2 = { c with nodes := m, oob := o } := by
        intro c
        rcases popByte_form s c with ⟨h1, e⟩ | ⟨h1, e1, m1, o1, h2⟩
        · omega
        have e1' : (popByte s c).2.1.size.toNat = s.size.toNat - 1 := by
          rw [e1, toNat_sub_byte _ 1 h1, show (1 : Byte).toNat = 1 from rfl]
        rcases popByte_form (popByte s c).2.1 (popByte s c).2.2 with ⟨h3, e⟩ | ⟨h3, e3, m3, o3, h4⟩
        · omega
        · rw [e3, toNat_sub_byte _ 1 h3, show (1 : Byte).toNat = 1 from rfl]
          refine ⟨by omega, m3, o3, ?_⟩
          rw [h4, h2]
      refine ⟨by omega, ?_⟩
      show _ ∧ ∃ m o, (popShort s c).2.2 = _
      unfold popShort touchTop
      rw [if_neg h]
      dsimp only
      by_cases h0 : s.len = 0
      · rw [if_pos h0]
        split
        · refine ⟨?_, c.nodes, true, rfl⟩
          dsimp only
          rw [toNat_sub_byte _ _ (by rw [show (2 : Byte).toNat = 2 from rfl]; omega),
            show (2 : Byte).toNat = 2 from rfl]; omega
        · dsimp only
          split
          · exact key { c with oob := true }
          · exact key { c with oob := true }
      · rw [if_neg h0]
        split
        · refine ⟨?_, c.nodes, c.oob, rfl⟩
          dsimp only
          rw [toNat_sub_byte _ _ (by rw [show (2 : Byte).toNat = 2 from rfl]; omega),
            show (2 : Byte).toNat = 2 from rfl]; omega
        · dsimp only
          split
          · exact key { c with oob := true }
          · exact key c

@[simp] theorem popFrom_opcode (s : Stack) (b : Bool) (c : Run) : (popFrom s b c).2.2.opcode = c.opcode := by
  rcases popFrom_form s b c with ⟨_, e⟩ | ⟨_, _, m, o, e⟩
  · rw [e]; rfl
  · rw [e]

@[simp] theorem popFrom_pc (s : Stack) (b : Bool) (c : Run) : (popFrom s b c).2.2.pc = c.pc := by
  rcases popFrom_form s b c with ⟨_, e⟩ | ⟨_, _, m, o, e⟩
  · rw [e]; rfl
  · rw [e]

@[simp] theorem popEx_opcode (b r : Bool) (c : Run) : (popEx b r c).2.opcode = c.opcode := by
  unfold popEx
  split
  · rfl
  · dsimp only
    rw [setPop_opcode, popFrom_opcode]

@[simp] theorem popEx_pc (b r : Bool) (c : Run) : (popEx b r c).2.pc = c.pc := by
  unfold popEx
  split
  · rfl
  · dsimp only
    rw [setPop_pc, popFrom_pc]

/-! ## Popping several operands -/

/-- Pop operands of the given sizes (`true` for shorts); the first one popped is the first of the result. -/
def popList (r : Bool) : List Bool → Run → List Value × Run
  | [], c => ([], c)
  | b :: bs, c =>
    let (v, c) := popEx b r c
    let (vs, c) := popList r bs c
    (v :: vs, c)

/-- The bytes of some operands. -/
def widths (bs : List Bool) : Nat := (bs.map width).sum

theorem popList_terminated (r : Bool) : ∀ (bs : List Bool) (c : Run), c.terminated = true →
    popList r bs c = (bs.map fun _ => valueError, c)
  | [], c, _ => rfl
  | b :: bs, c, h => by
    rw [popList]
    unfold popEx
    rw [if_pos h]
    dsimp only
    rw [popList_terminated r bs c h]
    rfl

/-- What popping several operands does. -/
structure PoppedAll (bs : List Bool) (s : Stack) (m : Nodes) (vs : List Value) (s' : Stack) (m' : Nodes) : Prop where
  shorts : vs.map Value.short = bs
  values : ∀ v ∈ vs, Tidy m'.fresh v
  stack : s'.Ok m'
  nodes : m'.Ok
  size : s'.size.toNat + widths bs = s.size.toNat
  fresh : m.fresh ≤ m'.fresh

theorem Stack.Ok.mono {m m' : Nodes} {s : Stack} (h : s.Ok m) (hf : m.fresh ≤ m'.fresh) : s.Ok m' :=
  ⟨h.sound, fun v hv => (h.tidy v hv).mono hf⟩

theorem size_width (v : Value) : v.size = width v.short := rfl

theorem popList_ok (r : Bool) : ∀ (bs : List Bool) (c : Run), c.terminated = false → c.nodes.Ok →
    (popStack r c).Ok c.nodes → widths bs ≤ (popStack r c).size.toNat →
    ∃ vs s' m', popList r bs c = (vs, setPop r s' { c with nodes := m' }) ∧
      PoppedAll bs (popStack r c) c.nodes vs s' m'
  | [], c, _, hm, hs, _ => by
    refine ⟨[], popStack r c, c.nodes, ?_, ⟨rfl, fun v hv => (by cases hv), hs, hm, rfl, le_refl _⟩⟩
    rw [popList]
    congr
    unfold setPop popStack
    split <;> cases r <;> rfl
  | b :: bs, c, ht, hm, hs, hw => by
    have hw' : width b + widths bs ≤ (popStack r c).size.toNat := by simpa [widths] using hw
    obtain ⟨v, s1, m1, e1, p1⟩ := popFrom_ok (short := b) hm hs (by omega)
    have hz : v.size = width b := by rw [size_width, p1.short_eq]
    have hsz := p1.size
    have ih := popList_ok r bs (setPop r s1 { c with nodes := m1 }) (by rw [setPop_terminated]; exact ht)
      (by rw [setPop_nodes]; exact p1.nodes) (by rw [setPop_nodes, setPop_popStack]; exact p1.stack)
      (by rw [setPop_popStack]; omega)
    obtain ⟨vs, s2, m2, e2, p2⟩ := ih
    rw [setPop_popStack, setPop_nodes] at p2
    refine ⟨v :: vs, s2, m2, ?_, ⟨?_, ?_, p2.stack, p2.nodes, ?_, le_trans p1.fresh p2.fresh⟩⟩
    · rw [popList]
      unfold popEx
      rw [if_neg (by rw [ht]; simp), e1]
      dsimp only
      rw [e2, setPop_withNodes, setPop_setPop]
    · rw [List.map_cons, p1.short_eq, p2.shorts]
    · intro w hw2
      rcases List.mem_cons.mp hw2 with e | hw2
      · rw [e]; exact p1.value.mono p2.fresh
      · exact p2.values w hw2
    · have := p2.size
      have e3 : widths (b :: bs) = width b + widths bs := by simp [widths]
      omega

/-- Popping more than there is: the underflow is reported. -/
theorem popList_underflow (r : Bool) : ∀ (bs : List Bool) (c : Run), c.terminated = false → c.nodes.Ok →
    (popStack r c).Ok c.nodes → (popStack r c).size.toNat < widths bs →
    ∃ vs s' m', popList r bs c = (vs, setPop r s' (error .underflow { c with nodes := m' })) ∧
      s'.Ok m' ∧ m'.Ok ∧ s'.size.toNat ≤ (popStack r c).size.toNat ∧ c.nodes.fresh ≤ m'.fresh
  | [], c, _, _, _, h => by simp [widths] at h
  | b :: bs, c, ht, hm, hs, hw => by
    have hw' : (popStack r c).size.toNat < width b + widths bs := by simpa [widths] using hw
    by_cases h : width b ≤ (popStack r c).size.toNat
    · obtain ⟨v, s1, m1, e1, p1⟩ := popFrom_ok (short := b) hm hs h
      have hz : v.size = width b := by rw [size_width, p1.short_eq]
      have hsz := p1.size
      obtain ⟨vs, s2, m2, e2, h2, h3, h4, h5⟩ := popList_underflow r bs (setPop r s1 { c with nodes := m1 })
        (by rw [setPop_terminated]; exact ht)
        (by rw [setPop_nodes]; exact p1.nodes) (by rw [setPop_nodes, setPop_popStack]; exact p1.stack)
        (by rw [setPop_popStack]; omega)
      rw [setPop_popStack] at h4
      rw [setPop_nodes] at h5
      refine ⟨v :: vs, s2, m2, ?_, h2, h3, by omega, le_trans p1.fresh h5⟩
      rw [popList]
      unfold popEx
      rw [if_neg (by rw [ht]; simp), e1]
      dsimp only
      rw [e2, setPop_withNodes]
      congr 1
      unfold setPop error
      split <;> cases r <;> simp_all [setReal]
    · refine ⟨valueError :: bs.map fun _ => valueError, popStack r c, c.nodes, ?_, hs, hm, le_refl _, le_refl _⟩
      rw [popList]
      unfold popEx
      rw [if_neg (by rw [ht]; simp), popFrom_underflow _ (by omega)]
      dsimp only
      rw [popList_terminated]
      · rw [setPop_terminated]; rfl

/-! ## Pushing several results -/

theorem pushAll_nil (r : Bool) (c : Run) : pushAll r [] c = c := rfl
theorem pushAll_cons (r : Bool) (v : Value) (vs : List Value) (c : Run) :
    pushAll r (v :: vs) c = pushAll r vs (pushEx r v c) := rfl

theorem pushAll_one (r : Bool) (v : Value) (c : Run) : pushAll r [v] c = pushEx r v c := rfl

theorem pushAll_terminated (r : Bool) : ∀ (vs : List Value) (c : Run), c.terminated = true → pushAll r vs c = c
  | [], _, _ => rfl
  | v :: vs, c, h => by rw [pushAll_cons, pushEx_terminated h, pushAll_terminated r vs c h]

theorem setReal_self (r : Bool) (c : Run) : setReal r (realStack r c) c = c := by cases r <;> rfl

theorem pushAll_ok (r : Bool) : ∀ (vs : List Value) (c : Run), c.terminated = false → c.nodes.Ok →
    (realStack r c).Ok c.nodes → (∀ v ∈ vs, Tidy c.nodes.fresh v) → (realStack r c).size.toNat + total vs ≤ 255 →
    ∃ s', pushAll r vs c = setReal r s' c ∧ s'.Ok c.nodes ∧
      s'.size.toNat = (realStack r c).size.toNat + total vs
  | [], c, _, _, hs, _, _ => ⟨realStack r c, (setReal_self r c).symm, hs, rfl⟩
  | v :: vs, c, ht, hm, hs, hv, hsz => by
    rw [total_cons] at hsz
    obtain ⟨s1, e1, p1⟩ := pushEx_ok hm hs (hv v List.mem_cons_self) ht (by omega)
    have hsz1 := p1.size
    obtain ⟨s2, e2, h2, h3⟩ := pushAll_ok r vs (setReal r s1 c) (by rw [setReal_terminated]; exact ht)
      (by rw [setReal_nodes]; exact hm) (by rw [setReal_nodes, setReal_realStack]; exact p1.stack)
      (by rw [setReal_nodes]; exact fun w hw => hv w (List.mem_cons_of_mem _ hw))
      (by rw [setReal_realStack]; omega)
    rw [setReal_realStack] at h3
    rw [setReal_nodes] at h2
    refine ⟨s2, ?_, h2, by rw [total_cons]; omega⟩
    rw [pushAll_cons, e1, e2, setReal_setReal]

/-! ## The operations -/

/-- The operands of an operation in the order they are popped. -/
def operands (two : Bool) (op : Op) : List Bool :=
  match op with
  | .INC | .POP | .DUP | .JMP | .JSR | .STH => [two]
  | .NIP | .SWP | .OVR | .EQU | .NEQ | .GTH | .LTH | .ADD | .SUB | .MUL | .DIV | .AND | .ORA | .EOR => [two, two]
  | .ROT => [two, two, two]
  | .JCN => [two, false]
  | .LDZ | .LDR | .DEI => [false]
  | .LDA => [true]
  | .STZ | .STR | .DEO | .SFT => [false, two]
  | .STA => [true, two]

theorem operands_sizes (two : Bool) (op : Op) :
    (operands two op).map width = (Buxn.VM.Spec.operandSizes (width two) op).reverse := by
  cases op <;> cases two <;> rfl

theorem widths_operands (two : Bool) (op : Op) :
    widths (operands two op) = (Buxn.VM.Spec.operandSizes (width two) op).sum := by
  unfold widths
  rw [operands_sizes, List.sum_reverse]

def increment (v : Value) : Value :=
  { (if v.const then { v with value := v.value + 1 } else v) with
    nominal := false, type := [], halfHi := false, halfLo := false, whole := none }

def folded (two pointer : Bool) (f : Short → Short → Short) (a b : Value) : Value :=
  { short := two, const := a.const && b.const, value := if a.const && b.const then f a.value b.value else 0
    address := pointer && (a.address || b.address) }

/-- Whether a comparison is decided on the spot. -/
def decided (a b : Value) : Bool := a.const && b.const && a.forked && b.forked

def truth (b : Bool) : Value := { const := true, forked := true, value := if b then 1 else 0 }

def compared (f : Short → Short → Bool) (a b : Value) : Value :=
  truth (if decided a b then f a.value b.value else true)

/-- What a load pushes. -/
def loaded (P : Program) (two : Bool) (addr : Value) : Value :=
  { (if addr.const then (match P.label addr.value with
      | some sig => labelValue sig
      | none => {}) else {} : Value) with short := two }

def displaced (pc : Short) (a : Value) : Value := if a.const then { a with value := relative pc a.value } else a

/-- What an operation pushes, given its operands in the order they were popped. -/
def results (P : Program) (two : Bool) (pc : Short) : Op → List Value → List Value
  | .INC, [a] => [increment a]
  | .NIP, [b, _] => [b]
  | .SWP, [b, a] => [b, a]
  | .ROT, [z, b, a] => [b, z, a]
  | .DUP, [a] => [a, a]
  | .OVR, [b, a] => [a, b, a]
  | .EQU, [b, a] => [compared (fun a b => a == b) a b]
  | .NEQ, [b, a] => [compared (fun a b => a != b) a b]
  | .GTH, [b, a] => [compared (fun a b => decide (b.toNat < a.toNat)) a b]
  | .LTH, [b, a] => [compared (fun a b => decide (a.toNat < b.toNat)) a b]
  | .STH, [a] => [a]
  | .LDZ, [a] => [loaded P two a]
  | .LDR, [a] => [loaded P two (displaced pc a)]
  | .LDA, [a] => [loaded P two a]
  | .DEI, [_] => [{ short := two }]
  | .ADD, [b, a] => [folded two true (fun a b => a + b) a b]
  | .SUB, [b, a] => [folded two true (fun a b => a - b) a b]
  | .MUL, [b, a] => [folded two false (fun a b => a * b) a b]
  | .DIV, [b, a] => [folded two false foldDiv a b]
  | .AND, [b, a] => [folded two false (fun a b => a &&& b) a b]
  | .ORA, [b, a] => [folded two false (fun a b => a ||| b) a b]
  | .EOR, [b, a] => [folded two false (fun a b => a ^^^ b) a b]
  | .SFT, [b, a] => [folded two false foldShift a b]
  | _, _ => []

/-- The fork of an undecided comparison. -/
def branch (c : Run) : Run :=
  let e := forked c
  let e := if flagR c then { e with rst := rawPush e.rst (truth false) } else { e with wst := rawPush e.wst (truth false) }
  fork e { c with wrapped := c.wrapped || decide ((realStack (flagR c) c).size.toNat + 1 = 256) }

/-- The warnings of a load. -/
def noteLoad (P : Program) (addr : Value) (c : Run) : Run :=
  if c.terminated then c
  else
    let c := if isAddress addr then c else warning .loadNonAddress c
    if addr.const then
      match P.label addr.value with
      | some _ => c
      | none => if isOpcode P addr.value then warning .loadCode c else c
    else c

/-- What else an operation does between popping and pushing. -/
def note (P : Program) (op : Op) (vs : List Value) (c : Run) : Run :=
  match op, vs with
  | .EQU, [b, a] | .NEQ, [b, a] | .GTH, [b, a] | .LTH, [b, a] => if decided a b then c else branch c
  | .LDZ, [a] | .LDA, [a] => noteLoad P a c
  | .LDR, [a] => noteLoad P (displaced c.pc a) c
  | .STZ, [a, _] | .STA, [a, _] => store P a c
  | .STR, [a, _] => store P (displaced c.pc a) c
  | .DEI, [a] => if isAddress a then c else warning .deiNonAddress c
  | .DEO, [a, v] =>
    let c := if isAddress a then c else warning .deoNonAddress c
    if a.const && v.const then
      if v.short then tellDeo (lo v.value) (lo (a.value + 1)) (tellDeo (hi v.value) (lo a.value) c)
      else tellDeo (lo v.value) (lo a.value) c
    else c
  | .MUL, [b, a] =>
    if a.const && b.const && decide (2 ^ 31 ≤ a.value.toNat * b.value.toNat) then { c with mulOverflow := true } else c
  | _, _ => c

def isJump : Op → Bool
  | .JMP | .JCN | .JSR => true
  | _ => false

/-- The stack that results go to. -/
def dest (op : Op) (r : Bool) : Bool := if op = .STH then !r else r

theorem flag2_popEx (b r : Bool) (c : Run) : flag2 (popEx b r c).2 = flag2 c := by unfold flag2; rw [popEx_opcode]
theorem flagR_popEx (b r : Bool) (c : Run) : flagR (popEx b r c).2 = flagR c := by unfold flagR; rw [popEx_opcode]

/-- A push changes one stack, or it reports the overflow. -/
theorem pushEx_form (r : Bool) (v : Value) (c : Run) :
    pushEx r v c = c ∨ pushEx r v c = error .overflow c ∨ (∃ w, pushEx r v c = { c with oob := true, wrapped := w }) ∨
      ∃ s w, pushEx r v c = setReal r s { c with wrapped := w } := by
  unfold pushEx
  by_cases ht : c.terminated = true
  · rw [if_pos ht]; exact .inl rfl
  · rw [if_neg ht]
    dsimp only
    by_cases h : (realStack r c).size.toNat + v.size > 256
    · rw [if_pos h]; exact .inr (.inl rfl)
    · rw [if_neg h]
      generalize (if 0 < (realStack r c).len.toNat then top (realStack r c) else {} : Value) = t
      by_cases h1 : (v.halfLo && t.halfHi && (t.whole == v.whole)) = true
      · rw [if_pos h1]
        rcases t.whole with _ | n
        · exact .inr (.inr (.inl ⟨_, rfl⟩))
        · exact .inr (.inr (.inr ⟨_, _, rfl⟩))
      · rw [if_neg h1]
        exact .inr (.inr (.inr ⟨_, _, rfl⟩))

@[simp] theorem pushEx_opcode (r : Bool) (v : Value) (c : Run) : (pushEx r v c).opcode = c.opcode := by
  rcases pushEx_form r v c with e | e | ⟨w, e⟩ | ⟨s, w, e⟩ <;> rw [e]
  · rfl
  · exact setReal_opcode _ _ _

theorem flag2_pushEx (r : Bool) (v : Value) (c : Run) : flag2 (pushEx r v c) = flag2 c := by
  unfold flag2; rw [pushEx_opcode]
theorem flagR_pushEx (r : Bool) (v : Value) (c : Run) : flagR (pushEx r v c) = flagR c := by
  unfold flagR; rw [pushEx_opcode]

theorem load_shape (P : Program) (a : Value) (c : Run) :
    load P a c = pushAll (flagR c) [loaded P (flag2 c) a] (noteLoad P a c) := by
  unfold load noteLoad loaded
  by_cases ht : c.terminated = true
  · rw [if_pos ht, if_pos ht, pushAll_terminated _ _ _ ht]
  · rw [if_neg ht, if_neg ht, pushAll_cons, pushAll_nil]
    unfold push
    dsimp only
    by_cases h1 : a.const = true
    · rw [if_pos h1, if_pos h1, if_pos h1]
      rcases P.label a.value with _ | sig
      · dsimp only
        split_ifs <;> rfl
      · dsimp only
        split_ifs <;> rfl
    · rw [if_neg h1, if_neg h1, if_neg h1]
      dsimp only
      split_ifs <;> rfl

/-- Every operation but the jumps pops its operands, makes its notes and pushes its results. -/
theorem opPoly_shape (P : Program) (op : Op) (c : Run) (hj : isJump op = false) :
    opPoly P op c =
      pushAll (dest op (flagR c)) (results P (flag2 c) c.pc op (popList (flagR c) (operands (flag2 c) op) c).1)
        (note P op (popList (flagR c) (operands (flag2 c) op) c).1 (popList (flagR c) (operands (flag2 c) op) c).2) := by
  have cmp : ∀ (f : Short → Short → Bool) (b a : Value) (c : Run),
      (if a.const && b.const && a.forked && b.forked then
        push { const := true, forked := true, value := if f a.value b.value then 1 else 0 } c
      else
        push { const := true, forked := true, value := 1 }
          (fork (if flagR c then { forked c with rst := rawPush (forked c).rst (truth false) }
            else { forked c with wst := rawPush (forked c).wst (truth false) })
            { c with wrapped := c.wrapped || decide ((realStack (flagR c) c).size.toNat + 1 = 256) })) =
      pushAll (flagR c) [compared f a b] (if decided a b then c else branch c) := by
    intro f b a c
    unfold compared decided
    by_cases h : (a.const && b.const && a.forked && b.forked) = true
    · rw [if_pos h, if_pos h, if_pos h]; rfl
    · rw [if_neg h, if_neg h, if_neg h]; rfl
  have hf2 : ∀ b r c, flag2 (popEx b r c).2 = flag2 c := flag2_popEx
  have hfr : ∀ b r c, flagR (popEx b r c).2 = flagR c := flagR_popEx
  have hfp : ∀ r v c, flagR (pushEx r v c) = flagR c := flagR_pushEx
  have hpc : ∀ b r c, (popEx b r c).2.pc = c.pc := popEx_pc
  cases op
  case JMP => cases hj
  case JCN => cases hj
  case JSR => cases hj
  case EQU =>
    refine (cmp _ (pop c).1 (pop (pop c).2).1 (pop (pop c).2).2).trans ?_
    simp only [pop, operands, popList, results, note, dest, hf2, hfr]
    rfl
  case NEQ =>
    refine (cmp _ (pop c).1 (pop (pop c).2).1 (pop (pop c).2).2).trans ?_
    simp only [pop, operands, popList, results, note, dest, hf2, hfr]
    rfl
  case GTH =>
    refine (cmp (fun a b => decide (b.toNat < a.toNat)) (pop c).1 (pop (pop c).2).1 (pop (pop c).2).2).trans ?_
    simp only [pop, operands, popList, results, note, dest, hf2, hfr]
    rfl
  case LTH =>
    refine (cmp (fun a b => decide (a.toNat < b.toNat)) (pop c).1 (pop (pop c).2).1 (pop (pop c).2).2).trans ?_
    simp only [pop, operands, popList, results, note, dest, hf2, hfr]
    rfl
  case INC =>
    simp only [opPoly, opINC, pop, push, operands, popList, hf2, hfr]
    rfl
  case POP =>
    simp only [opPoly, opPOP, pop, push, operands, popList, hf2, hfr]
    rfl
  case NIP =>
    simp only [opPoly, opNIP, pop, push, operands, popList, hf2, hfr]
    rfl
  case SWP =>
    simp only [opPoly, opSWP, pop, push, operands, popList, hf2, hfr, hfp]
    rfl
  case ROT =>
    simp only [opPoly, opROT, pop, push, operands, popList, hf2, hfr, hfp]
    rfl
  case DUP =>
    simp only [opPoly, opDUP, pop, push, operands, popList, hf2, hfr, hfp]
    rfl
  case OVR =>
    simp only [opPoly, opOVR, pop, push, operands, popList, hf2, hfr, hfp]
    rfl
  case STH =>
    simp only [opPoly, opSTH, pop, push, operands, popList, hf2, hfr]
    rfl
  case DEI =>
    simp only [opPoly, opDEI, pop, push, operands, popList, hf2, hfr]
    have e2 := hf2 false (flagR c) c
    have er := hfr false (flagR c) c
    generalize popEx false (flagR c) c = p1 at *
    show _ = pushEx (flagR c) { short := flag2 c } (if isAddress p1.1 = true then p1.2 else warning .deiNonAddress p1.2)
    by_cases h : isAddress p1.1 = true
    · simp only [if_pos h]
      rw [e2, er]
    · simp only [if_neg h]
      rw [← e2, ← er]
      rfl
  case ADD =>
    simp only [opPoly, binOp, pop, push, operands, popList, hf2, hfr]
    rfl
  case SUB =>
    simp only [opPoly, binOp, pop, push, operands, popList, hf2, hfr]
    rfl
  case DIV =>
    simp only [opPoly, binOp, pop, push, operands, popList, hf2, hfr]
    rfl
  case AND =>
    simp only [opPoly, binOp, pop, push, operands, popList, hf2, hfr]
    rfl
  case ORA =>
    simp only [opPoly, binOp, pop, push, operands, popList, hf2, hfr]
    rfl
  case EOR =>
    simp only [opPoly, binOp, pop, push, operands, popList, hf2, hfr]
    rfl
  case SFT =>
    simp only [opPoly, opSFT, pop, push, operands, popList, hf2, hfr]
    rfl
  case LDZ =>
    simp only [opPoly, opLDZ, pop, operands, popList, hf2, hfr, hpc, load_shape]
    rfl
  case LDR =>
    simp only [opPoly, opLDR, pop, operands, popList, hf2, hfr, hpc, load_shape, results, note, displaced]
    rfl
  case LDA =>
    simp only [opPoly, opLDA, pop, operands, popList, hf2, hfr, hpc, load_shape]
    rfl
  case STZ =>
    simp only [opPoly, opSTZ, pop, operands, popList, hf2, hfr, hpc, load_shape]
    rfl
  case STR =>
    simp only [opPoly, opSTR, pop, operands, popList, hf2, hfr, hpc, results, note, displaced]
    rfl
  case STA =>
    simp only [opPoly, opSTA, pop, operands, popList, hf2, hfr, hpc, load_shape]
    rfl
  case DEO =>
    simp only [opPoly, opDEO, pop, operands, popList, hf2, hfr]
    rfl
  case MUL =>
    simp only [opPoly, opMUL, pop, push, operands, popList, hf2, hfr]
    have e2 := (hf2 (flag2 c) (flagR c) (popEx (flag2 c) (flagR c) c).2).trans (hf2 (flag2 c) (flagR c) c)
    have er := (hfr (flag2 c) (flagR c) (popEx (flag2 c) (flagR c) c).2).trans (hfr (flag2 c) (flagR c) c)
    generalize popEx (flag2 c) (flagR c) (popEx (flag2 c) (flagR c) c).2 = p2 at *
    generalize popEx (flag2 c) (flagR c) c = p1 at *
    show _ = pushEx (flagR c) (folded (flag2 c) false (fun a b => a * b) p2.1 p1.1)
      (if (p2.1.const && p1.1.const && decide (2 ^ 31 ≤ p2.1.value.toNat * p1.1.value.toNat)) = true then
        { p2.2 with mulOverflow := true } else p2.2)
    by_cases h : (p2.1.const && p1.1.const && decide (2 ^ 31 ≤ p2.1.value.toNat * p1.1.value.toNat)) = true
    · simp only [if_pos h]
      rw [← e2, ← er]
      rfl
    · simp only [if_neg h]
      rw [← e2, ← er]
      rfl

end Buxn.Chess
