import Verif.Chess.Shape
import Verif.VM.StepLemmas
/-!
# C45: stack accounting of the operations
-/

namespace Buxn.Chess

open Buxn.Asm (Str)
open Buxn.VM (Instr Op dispatch)

/-! ## Results -/

/-- The bytes an operation pushes, on whichever stack. -/
def gain (two : Bool) (op : Op) : Nat :=
  if op = .STH then width two else (Buxn.VM.Spec.resultSizes (width two) op).sum

theorem results_total (P : Program) (two : Bool) (pc : Short) (op : Op) (vs : List Value) (hj : isJump op = false)
    (h : vs.map Value.short = operands two op) : total (results P two pc op vs) = gain two op := by
  have hw : ∀ v : Value, v.size = width v.short := fun _ => rfl
  cases op <;> first
    | (cases hj; done)
    | (rcases vs with _ | ⟨a, _ | ⟨b, _ | ⟨d, _ | ⟨_, _⟩⟩⟩⟩ <;> simp [operands] at h <;>
        simp [results, total, gain, Buxn.VM.Spec.resultSizes, hw, h, increment, folded, compared, truth, loaded, width])
  all_goals (split <;> simp_all)

theorem truth_tidy (f : Nat) (b : Bool) : Tidy f (truth b) :=
  ⟨fun h => (by cases h), fun h => by rcases h with h | h <;> cases h⟩

theorem whole_tidy {v : Value} (f : Nat) (h1 : v.halfHi = false) (h2 : v.halfLo = false) : Tidy f v :=
  ⟨fun _ => ⟨h1, h2⟩, fun h => by rcases h with h | h <;> simp_all⟩

theorem loaded_tidy (P : Program) (f : Nat) (two : Bool) (a : Value) : Tidy f (loaded P two a) := by
  apply whole_tidy
  · unfold loaded; split
    · split <;> rfl
    · rfl
  · unfold loaded; split
    · split <;> rfl
    · rfl

theorem results_tidy (P : Program) (two : Bool) (pc : Short) (op : Op) (vs : List Value) (f : Nat)
    (h : ∀ v ∈ vs, Tidy f v) : ∀ v ∈ results P two pc op vs, Tidy f v := by
  cases op <;>
    (rcases vs with _ | ⟨a, _ | ⟨b, _ | ⟨d, _ | ⟨_, _⟩⟩⟩⟩ <;> intro v hv <;>
      simp only [results, List.mem_cons, List.not_mem_nil, or_false] at hv <;>
      first
        | (rcases hv with e | e | e <;> rw [e] <;> apply h <;> simp; done)
        | (rcases hv with e | e <;> rw [e] <;> apply h <;> simp; done)
        | (rw [hv]; apply h; simp; done)
        | (rw [hv]; exact whole_tidy _ rfl rfl)
        | (rw [hv]; exact loaded_tidy _ _ _ _))

/-! ## Notes -/

/-- Neither an error nor the news that a routine does not terminate. -/
def Harmless : Event → Prop
  | .error _ _ => False
  | .noTermination _ => False
  | _ => True

/-- The entry an undecided comparison puts aside. -/
def branchEntry (c : Run) : Entry :=
  if flagR c then { forked c with rst := rawPush c.rst (truth false) }
  else { forked c with wst := rawPush c.wst (truth false) }

theorem branch_eq (c : Run) : branch c =
    fork (branchEntry c) { c with wrapped := c.wrapped || decide ((realStack (flagR c) c).size.toNat + 1 = 256) } := rfl

def isComparison : Op → Bool
  | .EQU | .NEQ | .GTH | .LTH => true
  | _ => false

/-- What the notes of an operation touch. -/
structure Noted (c c' : Run) : Prop where
  eq : c' = { c with
    log := c'.log, queue := c'.queue, nextTrace := c'.nextTrace, mulOverflow := c'.mulOverflow, wrapped := c'.wrapped }
  log : ∃ ws, c'.log = c.log ++ ws ∧ ∀ e ∈ ws, Harmless e

theorem Noted.refl (c : Run) : Noted c c := ⟨rfl, [], by simp, fun _ h => (by cases h)⟩

theorem Noted.trans {a b c : Run} (h : Noted a b) (h' : Noted b c) : Noted a c := by
  obtain ⟨e, ws, h1, h2⟩ := h
  obtain ⟨e', ws', h1', h2'⟩ := h'
  refine ⟨?_, ws ++ ws', ?_, ?_⟩
  · rw [e', e]
  · rw [h1', h1, List.append_assoc]
  · intro x hx
    rcases List.mem_append.mp hx with hx | hx
    · exact h2 x hx
    · exact h2' x hx

theorem Noted.warning (w : Doubt) (c : Run) : Noted c (warning w c) :=
  ⟨rfl, [.warning c.trace w], rfl, fun e h => by rw [List.mem_singleton.mp h]; trivial⟩

theorem Noted.deo (v p : Byte) (c : Run) : Noted c (tellDeo v p c) :=
  ⟨rfl, [.deo c.trace v p], rfl, fun e h => by rw [List.mem_singleton.mp h]; trivial⟩

theorem Noted.fork (e : Entry) (c : Run) : Noted c (Chess.fork e c) :=
  ⟨rfl, [], by simp [Chess.fork], fun _ h => (by cases h)⟩

theorem Noted.ite {p : Prop} [Decidable p] {c a b : Run} (ha : Noted c a) (hb : Noted c b) :
    Noted c (if p then a else b) := by split <;> assumption

/-- The queue and the flag are left alone. -/
def Aside (c c' : Run) : Prop := c'.queue = c.queue ∧ c'.wrapped = c.wrapped

theorem Aside.ite {p : Prop} [Decidable p] {c a b : Run} (ha : Aside c a) (hb : Aside c b) :
    Aside c (if p then a else b) := by split <;> assumption

theorem store_noted (P : Program) (a : Value) (c : Run) : Noted c (store P a c) ∧ Aside c (store P a c) := by
  unfold store
  split
  · exact ⟨.refl _, rfl, rfl⟩
  · dsimp only
    have h0 : Noted c (if isAddress a then c else warning .storeNonAddress c) := .ite (.refl _) (.warning _ _)
    have q0 : Aside c (if isAddress a then c else warning .storeNonAddress c) := .ite ⟨rfl, rfl⟩ ⟨rfl, rfl⟩
    generalize (if isAddress a then c else warning .storeNonAddress c) = c1 at *
    split
    · split
      · exact ⟨h0, q0⟩
      · split
        · exact ⟨h0.trans (.warning _ _), q0⟩
        · exact ⟨h0, q0⟩
    · exact ⟨h0, q0⟩

theorem noteLoad_noted (P : Program) (a : Value) (c : Run) :
    Noted c (noteLoad P a c) ∧ Aside c (noteLoad P a c) := by
  unfold noteLoad
  split
  · exact ⟨.refl _, rfl, rfl⟩
  · dsimp only
    have h0 : Noted c (if isAddress a then c else warning .loadNonAddress c) := .ite (.refl _) (.warning _ _)
    have q0 : Aside c (if isAddress a then c else warning .loadNonAddress c) := .ite ⟨rfl, rfl⟩ ⟨rfl, rfl⟩
    generalize (if isAddress a then c else warning .loadNonAddress c) = c1 at *
    split
    · split
      · exact ⟨h0, q0⟩
      · split
        · exact ⟨h0.trans (.warning _ _), q0⟩
        · exact ⟨h0, q0⟩
    · exact ⟨h0, q0⟩

/-- Only an undecided comparison puts an entry aside. -/
theorem note_noted' (P : Program) (op : Op) (vs : List Value) (c : Run) :
    Noted c (note P op vs c) ∧
      (Aside c (note P op vs c) ∨
        (isComparison op = true ∧ (note P op vs c).queue = branchEntry c :: c.queue ∧
          (note P op vs c).wrapped = (c.wrapped || decide ((realStack (flagR c) c).size.toNat + 1 = 256)))) := by
  have hcmp : ∀ a b, Noted c (if decided a b then c else branch c) ∧
      (Aside c (if decided a b then c else branch c) ∨
        ((if decided a b then c else branch c).queue = branchEntry c :: c.queue ∧
          (if decided a b then c else branch c).wrapped =
            (c.wrapped || decide ((realStack (flagR c) c).size.toNat + 1 = 256)))) := by
    intro a b
    refine ⟨.ite (.refl _) ?_, ?_⟩
    · exact ⟨rfl, [], by simp [branch, Chess.fork], fun _ h => (by cases h)⟩
    split
    · exact .inl ⟨rfl, rfl⟩
    · exact .inr ⟨rfl, rfl⟩
  unfold note
  split
  case h_1 => exact ⟨(hcmp _ _).1, (hcmp _ _).2.imp id fun h => ⟨rfl, h⟩⟩
  case h_2 => exact ⟨(hcmp _ _).1, (hcmp _ _).2.imp id fun h => ⟨rfl, h⟩⟩
  case h_3 => exact ⟨(hcmp _ _).1, (hcmp _ _).2.imp id fun h => ⟨rfl, h⟩⟩
  case h_4 => exact ⟨(hcmp _ _).1, (hcmp _ _).2.imp id fun h => ⟨rfl, h⟩⟩
  case h_5 => exact ⟨(noteLoad_noted _ _ _).1, .inl (noteLoad_noted _ _ _).2⟩
  case h_6 => exact ⟨(noteLoad_noted _ _ _).1, .inl (noteLoad_noted _ _ _).2⟩
  case h_7 => exact ⟨(noteLoad_noted _ _ _).1, .inl (noteLoad_noted _ _ _).2⟩
  case h_8 => exact ⟨(store_noted _ _ _).1, .inl (store_noted _ _ _).2⟩
  case h_9 => exact ⟨(store_noted _ _ _).1, .inl (store_noted _ _ _).2⟩
  case h_10 => exact ⟨(store_noted _ _ _).1, .inl (store_noted _ _ _).2⟩
  case h_11 =>
    exact ⟨.ite (.refl _) (.warning _ _), .inl (.ite ⟨rfl, rfl⟩ ⟨rfl, rfl⟩)⟩
  case h_12 _ a v =>
    dsimp only
    have h0 : Noted c (if isAddress a then c else warning .deoNonAddress c) := .ite (.refl _) (.warning _ _)
    have q0 : Aside c (if isAddress a then c else warning .deoNonAddress c) := .ite ⟨rfl, rfl⟩ ⟨rfl, rfl⟩
    generalize (if isAddress a then c else warning .deoNonAddress c) = c1 at *
    split
    · split
      · exact ⟨(h0.trans (.deo _ _ _)).trans (.deo _ _ _), .inl q0⟩
      · exact ⟨h0.trans (.deo _ _ _), .inl q0⟩
    · exact ⟨h0, .inl q0⟩
  case h_13 =>
    split
    · exact ⟨⟨rfl, [], by simp, fun _ h => (by cases h)⟩, .inl ⟨rfl, rfl⟩⟩
    · exact ⟨.refl _, .inl ⟨rfl, rfl⟩⟩
  case h_14 => exact ⟨.refl _, .inl ⟨rfl, rfl⟩⟩

theorem note_noted (P : Program) (op : Op) (vs : List Value) (c : Run) :
    Noted c (note P op vs c) ∧
      ((note P op vs c).queue = c.queue ∨
        (isComparison op = true ∧ (note P op vs c).queue = branchEntry c :: c.queue)) :=
  ⟨(note_noted' P op vs c).1, (note_noted' P op vs c).2.imp (fun h => h.1) fun h => ⟨h.1, h.2.1⟩⟩

/-! ## One operation -/

/-- The state of the trace when an instruction has been fetched. -/
def fetched (P : Program) (c : Run) : Run :=
  { c with
    opcode := P.rom c.pc, inner := false, lowRom := c.lowRom || decide (c.pc.toNat < 256), pc := c.pc + 1
    shadowWst := if (P.rom c.pc).getLsbD 7 then c.wst else c.shadowWst
    shadowRst := if (P.rom c.pc).getLsbD 7 then c.rst else c.shadowRst
    keep := (P.rom c.pc).getLsbD 7 }

theorem instruction_fetched {P : Program} {c : Run} {s : Sym} (hs : P.sym c.pc = some s) (ht : s.type = .opcode) :
    instruction P c = applyCasts (P.cast c.pc) (perform P (fetched P c)) := by
  unfold instruction
  rw [hs]
  dsimp only
  rw [if_neg (by rw [ht]; simp)]
  congr 2
  unfold flagK fetched
  dsimp only
  cases h : (P.rom c.pc).getLsbD 7 <;> rfl

theorem poly_bits {b : Byte} {op : Op} {k r s : Bool} (h : dispatch b = some (.poly op k r s)) :
    b.getLsbD 7 = k ∧ b.getLsbD 6 = r ∧ b.getLsbD 5 = s := by
  have key : ∀ b : Byte, (match dispatch b with
      | some (.poly _ k r s) => b.getLsbD 7 == k && b.getLsbD 6 == r && b.getLsbD 5 == s
      | _ => true) = true := by decide +kernel
  have := key b
  rw [h] at this
  simpa [and_assoc] using this

theorem fetched_popStack (P : Program) (c : Run) (r : Bool) : popStack r (fetched P c) = realStack r c := by
  unfold popStack fetched realStack
  cases (P.rom c.pc).getLsbD 7 <;> cases r <;> rfl

theorem popped_real (r : Bool) (s : Stack) (m : Nodes) (c : Run) :
    realStack r (setPop r s { c with nodes := m }) = if c.keep then realStack r c else s := by
  unfold setPop
  cases h : c.keep <;> cases r <;> simp [realStack, setReal]

theorem popped_other (r : Bool) (s : Stack) (m : Nodes) (c : Run) :
    realStack (!r) (setPop r s { c with nodes := m }) = realStack (!r) c := by
  unfold setPop
  cases h : c.keep <;> cases r <;> simp [realStack, setReal]

/-- What one operation makes of the state when its operands are there and its results fit. -/
structure Performed (P : Program) (op : Op) (two r : Bool) (c c' : Run) : Prop where
  ok : c'.Ok
  running : c'.terminated = false
  unharmed : c'.oob = c.oob
  from_here : c'.key = c.key ∧ c'.trace = c.trace ∧ c'.pc = c.pc ∧ c'.arcs = c.arcs
  fresh : c.nodes.fresh ≤ c'.nodes.fresh
  log : ∃ ws, c'.log = c.log ++ ws ∧ ∀ e ∈ ws, Harmless e
  queue : c'.queue = c.queue ∨ ∃ e, c'.queue = e :: c.queue ∧ isComparison op = true ∧ e.key = c.key ∧
    e.address = c.pc ∧ e.wst.Ok c'.nodes ∧ e.rst.Ok c'.nodes ∧ e.wst.size = c'.wst.size ∧ e.rst.size = c'.rst.size

/-- The bytes left on the operand stack when the operands are gone. -/
def leftover (two : Bool) (op : Op) (keep : Bool) (size : Nat) : Nat :=
  if keep then size else size - (Buxn.VM.Spec.operandSizes (width two) op).sum

theorem Run.Ok.real {c : Run} (h : c.Ok) (r : Bool) : (realStack r c).Ok c.nodes := by
  cases r
  · exact h.wst
  · exact h.rst

theorem Run.Ok.of_real {c : Run} (hn : c.nodes.Ok) (r : Bool) (h : (realStack r c).Ok c.nodes)
    (h' : (realStack (!r) c).Ok c.nodes) : c.Ok := by
  cases r
  · exact ⟨hn, h, h'⟩
  · exact ⟨hn, h', h⟩

theorem Noted.nodes {c c' : Run} (h : Noted c c') : c'.nodes = c.nodes := by rw [h.eq]
theorem Noted.wst {c c' : Run} (h : Noted c c') : c'.wst = c.wst := by rw [h.eq]
theorem Noted.rst {c c' : Run} (h : Noted c c') : c'.rst = c.rst := by rw [h.eq]
theorem Noted.real {c c' : Run} (h : Noted c c') (r : Bool) : realStack r c' = realStack r c := by
  unfold realStack; rw [h.wst, h.rst]
theorem Noted.terminated {c c' : Run} (h : Noted c c') : c'.terminated = c.terminated := by rw [h.eq]

theorem flagR_setPop (r : Bool) (s : Stack) (c : Run) : flagR (setPop r s c) = flagR c := by
  unfold flagR; rw [setPop_opcode]

@[simp] theorem setPop_log (r : Bool) (s : Stack) (c : Run) : (setPop r s c).log = c.log := by
  unfold setPop; split <;> cases r <;> rfl
@[simp] theorem setPop_queue (r : Bool) (s : Stack) (c : Run) : (setPop r s c).queue = c.queue := by
  unfold setPop; split <;> cases r <;> rfl
@[simp] theorem setPop_oob (r : Bool) (s : Stack) (c : Run) : (setPop r s c).oob = c.oob := by
  unfold setPop; split <;> cases r <;> rfl
@[simp] theorem setPop_key (r : Bool) (s : Stack) (c : Run) : (setPop r s c).key = c.key := by
  unfold setPop; split <;> cases r <;> rfl
@[simp] theorem setPop_trace (r : Bool) (s : Stack) (c : Run) : (setPop r s c).trace = c.trace := by
  unfold setPop; split <;> cases r <;> rfl
@[simp] theorem setPop_arcs (r : Bool) (s : Stack) (c : Run) : (setPop r s c).arcs = c.arcs := by
  unfold setPop; split <;> cases r <;> rfl

theorem branchEntry_key (c : Run) : (branchEntry c).key = c.key ∧ (branchEntry c).address = c.pc := by
  unfold branchEntry; split <;> exact ⟨rfl, rfl⟩

theorem opPoly_ok (P : Program) (op : Op) (c : Run) (hj : isJump op = false) (hok : c.Ok) (ht : c.terminated = false)
    (hp : popStack (flagR c) c = realStack (flagR c) c)
    (hneed : (Buxn.VM.Spec.operandSizes (width (flag2 c)) op).sum ≤ (realStack (flagR c) c).size.toNat)
    (hfit : (if op = .STH then (realStack (!flagR c) c).size.toNat
      else leftover (flag2 c) op c.keep (realStack (flagR c) c).size.toNat) + gain (flag2 c) op ≤ 255) :
    Performed P op (flag2 c) (flagR c) c (opPoly P op c) ∧
      (realStack (flagR c) (opPoly P op c)).size.toNat =
        leftover (flag2 c) op c.keep (realStack (flagR c) c).size.toNat + (if op = .STH then 0 else gain (flag2 c) op) ∧
      (realStack (!flagR c) (opPoly P op c)).size.toNat =
        (realStack (!flagR c) c).size.toNat + (if op = .STH then gain (flag2 c) op else 0) := by
  rw [opPoly_shape P op c hj]
  have hr := hok.real (flagR c)
  have hr' := hok.real (!flagR c)
  obtain ⟨vs, s1, m1, e1, p1⟩ := popList_ok (flagR c) (operands (flag2 c) op) c ht hok.nodes (by rw [hp]; exact hr)
    (by rw [widths_operands, hp]; exact hneed)
  rw [hp] at p1
  rw [e1]
  dsimp only
  have hsz := p1.size
  rw [widths_operands] at hsz
  have hreal := popped_real (flagR c) s1 m1 c
  have hother := popped_other (flagR c) s1 m1 c
  have hflag : flagR (setPop (flagR c) s1 { c with nodes := m1 }) = flagR c := flagR_setPop _ _ _
  have hn2 : (setPop (flagR c) s1 { c with nodes := m1 }).nodes = m1 := setPop_nodes _ _ _
  have ht2 : (setPop (flagR c) s1 { c with nodes := m1 }).terminated = false := by rw [setPop_terminated]; exact ht
  have hrOk : (realStack (flagR c) (setPop (flagR c) s1 { c with nodes := m1 })).Ok m1 := by
    rw [hreal]
    split
    · exact hr.mono p1.fresh
    · exact p1.stack
  have hoOk : (realStack (!flagR c) (setPop (flagR c) s1 { c with nodes := m1 })).Ok m1 := by
    rw [hother]; exact hr'.mono p1.fresh
  have hrSz : (realStack (flagR c) (setPop (flagR c) s1 { c with nodes := m1 })).size.toNat =
      leftover (flag2 c) op c.keep (realStack (flagR c) c).size.toNat := by
    rw [hreal]
    unfold leftover
    split
    · rfl
    · omega
  have hk : (setPop (flagR c) s1 { c with nodes := m1 }).key = c.key ∧
      (setPop (flagR c) s1 { c with nodes := m1 }).trace = c.trace ∧
      (setPop (flagR c) s1 { c with nodes := m1 }).pc = c.pc ∧
      (setPop (flagR c) s1 { c with nodes := m1 }).arcs = c.arcs ∧
      (setPop (flagR c) s1 { c with nodes := m1 }).log = c.log ∧
      (setPop (flagR c) s1 { c with nodes := m1 }).queue = c.queue ∧
      (setPop (flagR c) s1 { c with nodes := m1 }).oob = c.oob := by
    simp
  generalize setPop (flagR c) s1 { c with nodes := m1 } = c2 at *
  obtain ⟨hk1, hk2, hk3, hk4, hk5, hk6, hk7⟩ := hk
  obtain ⟨hnote, hqueue⟩ := note_noted P op vs c2
  generalize note P op vs c2 = c3 at *
  have hn3 : c3.nodes = m1 := by rw [hnote.nodes, hn2]
  have ht3 : c3.terminated = false := by rw [hnote.terminated, ht2]
  have htot := results_total P (flag2 c) c.pc op vs hj p1.shorts
  have htidy := results_tidy P (flag2 c) c.pc op vs m1.fresh p1.values
  generalize results P (flag2 c) c.pc op vs = out at *
  have hdOk : ∀ r, (realStack r c3).Ok m1 := by
    intro r
    rw [hnote.real]
    by_cases hrr : r = flagR c
    · rw [hrr]; exact hrOk
    · have : r = !flagR c := by revert hrr; cases r <;> cases flagR c <;> simp
      rw [this]; exact hoOk
  have hdSz : (realStack (dest op (flagR c)) c3).size.toNat =
      if op = .STH then (realStack (!flagR c) c).size.toNat
      else leftover (flag2 c) op c.keep (realStack (flagR c) c).size.toNat := by
    rw [hnote.real]
    unfold dest
    split
    · rw [hother]
    · exact hrSz
  obtain ⟨s4, e4, h4, h5⟩ := pushAll_ok (dest op (flagR c)) out c3 ht3 (by rw [hn3]; exact p1.nodes)
    (by rw [hn3]; exact hdOk _) (by rw [hn3]; exact htidy) (by rw [hdSz, htot]; exact hfit)
  rw [e4]
  rw [hn3] at h4
  rw [htot] at h5
  have hs4 : (realStack (dest op (flagR c)) (setReal (dest op (flagR c)) s4 c3)) = s4 := setReal_realStack _ _ _
  have ho4 : (realStack (!dest op (flagR c)) (setReal (dest op (flagR c)) s4 c3)) = realStack (!dest op (flagR c)) c3 :=
    setReal_other _ _ _
  have hsizes : (realStack (flagR c) (setReal (dest op (flagR c)) s4 c3)).size.toNat =
        leftover (flag2 c) op c.keep (realStack (flagR c) c).size.toNat + (if op = .STH then 0 else gain (flag2 c) op) ∧
      (realStack (!flagR c) (setReal (dest op (flagR c)) s4 c3)).size.toNat =
        (realStack (!flagR c) c).size.toNat + (if op = .STH then gain (flag2 c) op else 0) := by
    by_cases h : op = .STH
    · rw [if_pos h] at hdSz
      have hd : dest op (flagR c) = !flagR c := by unfold dest; rw [if_pos h]
      rw [hd] at hs4 ho4 hdSz h5 ⊢
      rw [Bool.not_not] at ho4
      rw [hs4, ho4, if_pos h, if_pos h, h5, hdSz, hnote.real, hrSz]
      exact ⟨rfl, rfl⟩
    · rw [if_neg h] at hdSz
      have hd : dest op (flagR c) = flagR c := by unfold dest; rw [if_neg h]
      rw [hd] at hs4 ho4 hdSz h5 ⊢
      rw [hs4, ho4, if_neg h, if_neg h, h5, hdSz, hnote.real, hother]
      exact ⟨rfl, rfl⟩
  refine ⟨⟨?_, ?_, ?_, ?_, ?_, ?_, ?_⟩, hsizes⟩
  · refine Run.Ok.of_real (r := dest op (flagR c)) ?_ ?_ ?_
    · rw [setReal_nodes, hn3]; exact p1.nodes
    · rw [hs4, setReal_nodes, hn3]; exact h4
    · rw [ho4, setReal_nodes, hn3]; exact hdOk _
  · rw [setReal_terminated]; exact ht3
  · rw [setReal_oob, hnote.eq]; exact hk7
  · rw [setReal_key, setReal_trace, setReal_pc, setReal_arcs, hnote.eq]; exact ⟨hk1, hk2, hk3, hk4⟩
  · rw [setReal_nodes, hn3]; exact p1.fresh
  · rw [setReal_log]
    obtain ⟨ws, h1, h2⟩ := hnote.log
    exact ⟨ws, by rw [h1, hk5], h2⟩
  · rw [setReal_queue, setReal_nodes, hn3]
    rcases hqueue with hq | ⟨hc, hq⟩
    · left; rw [hq, hk6]
    · right
      have hne : op ≠ .STH := by intro e; rw [e] at hc; cases hc
      have hd : dest op (flagR c) = flagR c := by unfold dest; rw [if_neg hne]
      have hg : gain (flag2 c) op = 1 := by cases op <;> first | cases hc; done | rfl
      rw [if_neg hne, hg] at hfit
      rw [hd] at hs4 ho4 h5 ⊢
      rw [hnote.real] at h5 ho4
      refine ⟨branchEntry c2, by rw [hq, hk6], hc, by rw [(branchEntry_key c2).1, hk1],
        by rw [(branchEntry_key c2).2, hk3], ?_⟩
      have hpush := rawPush_ok (v := truth false) hrOk (truth_tidy _ _)
        (by rw [hrSz]; show _ + 1 ≤ 255; exact hfit)
      have hsz4 : (rawPush (realStack (flagR c) c2) (truth false)).size = s4.size := by
        apply BitVec.eq_of_toNat_eq
        rw [hpush.size, h5, hg]; rfl
      unfold branchEntry
      rw [hflag]
      cases hf : flagR c
      · rw [hf] at hrOk hoOk hpush hsz4 hs4 ho4
        exact ⟨hpush.stack, hoOk, hsz4, by rw [show (setReal false s4 c3).rst = c3.rst from rfl, hnote.rst]; rfl⟩
      · rw [hf] at hrOk hoOk hpush hsz4 hs4 ho4
        exact ⟨hoOk, hpush.stack, by rw [show (setReal true s4 c3).wst = c3.wst from rfl, hnote.wst]; rfl, hsz4⟩

theorem opPoly_underflow (P : Program) (op : Op) (c : Run) (hj : isJump op = false) (hok : c.Ok)
    (ht : c.terminated = false) (hp : popStack (flagR c) c = realStack (flagR c) c)
    (hneed : (realStack (flagR c) c).size.toNat < (Buxn.VM.Spec.operandSizes (width (flag2 c)) op).sum) :
    (opPoly P op c).terminated = true ∧ (opPoly P op c).success = false ∧ (opPoly P op c).errorAt c.key = true ∧
      (opPoly P op c).oob = c.oob ∧
      ∃ ws, (opPoly P op c).log = c.log ++ .error c.trace .underflow :: ws ∧ ∀ e ∈ ws, Harmless e := by
  rw [opPoly_shape P op c hj]
  obtain ⟨vs, s1, m1, e1, _⟩ := popList_underflow (flagR c) (operands (flag2 c) op) c ht hok.nodes
    (by rw [hp]; exact hok.real _) (by rw [widths_operands, hp]; exact hneed)
  rw [e1]
  dsimp only
  have h1 : (setPop (flagR c) s1 (error .underflow { c with nodes := m1 })).terminated = true := by
    rw [setPop_terminated]; rfl
  have h2 : (setPop (flagR c) s1 (error .underflow { c with nodes := m1 })).success = false := by
    unfold setPop; split <;> cases flagR c <;> rfl
  have h3 : (setPop (flagR c) s1 (error .underflow { c with nodes := m1 })).errorAt c.key = true := by
    have : (setPop (flagR c) s1 (error .underflow { c with nodes := m1 })).errorAt = upd c.errorAt c.key true := by
      unfold setPop; split <;> cases flagR c <;> rfl
    rw [this, upd_same]
  have h4 : (setPop (flagR c) s1 (error .underflow { c with nodes := m1 })).log =
      c.log ++ [.error c.trace .underflow] := by
    rw [setPop_log]; rfl
  have h5 : (setPop (flagR c) s1 (error .underflow { c with nodes := m1 })).oob = c.oob := by
    rw [setPop_oob]; rfl
  generalize setPop (flagR c) s1 (error .underflow { c with nodes := m1 }) = c2 at *
  have hn := (note_noted P op vs c2).1
  generalize note P op vs c2 = c3 at *
  rw [pushAll_terminated _ _ _ (by rw [hn.terminated]; exact h1)]
  obtain ⟨ws, e, hw⟩ := hn.log
  refine ⟨by rw [hn.terminated]; exact h1, by rw [hn.eq]; exact h2, by rw [hn.eq]; exact h3, by rw [hn.eq]; exact h5,
    ws, ?_, hw⟩
  rw [e, h4, List.append_assoc]
  rfl

/-! ## C45, per instruction -/

/-- An operation that is neither a jump nor followed by a cast: the two simulated stacks change by exactly the bytes
that the instruction set prescribes (`operandSizes`, `resultSizes`, which `C01` is about), keep mode included. `r` tells
the operand stack, `n` is the size of an operand. `STH` moves its operand to the other stack. -/
structure Balanced (op : Op) (keep r : Bool) (n : Nat) (c c' : Run) : Prop where
  operand : (realStack r c').size.toNat + (if keep then 0 else (Buxn.VM.Spec.operandSizes n op).sum) =
    (realStack r c).size.toNat + (Buxn.VM.Spec.resultSizes n op).sum
  other : (realStack (!r) c').size.toNat = (realStack (!r) c).size.toNat + (if op = .STH then n else 0)

/-- The bytes that an operation needs on its stacks fit. -/
def Fits (op : Op) (keep r : Bool) (n : Nat) (c : Run) : Prop :=
  (realStack r c).size.toNat + (Buxn.VM.Spec.resultSizes n op).sum ≤
    255 + (if keep then 0 else (Buxn.VM.Spec.operandSizes n op).sum) ∧
  (op = .STH → (realStack (!r) c).size.toNat + n ≤ 255)

theorem resultSizes_STH (n : Nat) : (Buxn.VM.Spec.resultSizes n .STH).sum = 0 := rfl

/-- The instruction of a running trace when it can be executed. -/
structure At (P : Program) (c : Run) (op : Op) (k r s : Bool) : Prop where
  running : c.terminated = false
  code : ∃ sym, P.sym c.pc = some sym ∧ sym.type = .opcode
  plain : P.cast c.pc = none
  op : dispatch (P.rom c.pc) = some (.poly op k r s)

theorem At.eq {P : Program} {c : Run} {op : Op} {k r s : Bool} (h : At P c op k r s) :
    instruction P c = opPoly P op (fetched P c) ∧ flagR (fetched P c) = r ∧ flag2 (fetched P c) = s ∧
      (fetched P c).keep = k := by
  obtain ⟨sym, h1, h2⟩ := h.code
  obtain ⟨b7, b6, b5⟩ := poly_bits h.op
  refine ⟨?_, b6, b5, b7⟩
  rw [instruction_fetched h1 h2, h.plain]
  show perform P (fetched P c) = _
  unfold perform
  rw [show (fetched P c).opcode = P.rom c.pc from rfl, h.op]

theorem fetched_ok {P : Program} {c : Run} (h : c.Ok) : (fetched P c).Ok := ⟨h.nodes, h.wst, h.rst⟩

theorem C45_operation (P : Program) (c : Run) (op : Op) (k r s : Bool) (h : At P c op k r s) (hj : isJump op = false)
    (hok : c.Ok) (hneed : (Buxn.VM.Spec.operandSizes (width s) op).sum ≤ (realStack r c).size.toNat)
    (hfit : Fits op k r (width s) c) :
    Balanced op k r (width s) c (instruction P c) ∧ (instruction P c).Ok ∧
      (instruction P c).terminated = false ∧ (instruction P c).pc = c.pc + 1 ∧ (instruction P c).oob = c.oob ∧
      (∃ ws, (instruction P c).log = c.log ++ ws ∧ ∀ e ∈ ws, Harmless e) ∧
      ((instruction P c).queue = c.queue ∨ ∃ e, (instruction P c).queue = e :: c.queue ∧ e.key = c.key ∧
        e.address = c.pc + 1 ∧ e.wst.size = (instruction P c).wst.size ∧ e.rst.size = (instruction P c).rst.size) := by
  obtain ⟨he, hr, hs, hk⟩ := h.eq
  have hreal : ∀ r, realStack r (fetched P c) = realStack r c := fun r => by cases r <;> rfl
  have hp : popStack r (fetched P c) = realStack r c := fetched_popStack P c r
  have key := opPoly_ok P op (fetched P c) hj (fetched_ok hok) h.running (by rw [hr, hp, hreal])
    (by rw [hr, hs, hreal]; exact hneed)
    (by
      rw [hr, hs, hk, hreal, hreal]
      obtain ⟨f1, f2⟩ := hfit
      unfold gain leftover
      by_cases hsth : op = .STH
      · rw [if_pos hsth, if_pos hsth]; exact f2 hsth
      · rw [if_neg hsth, if_neg hsth]
        cases k
        · simp only [Bool.false_eq_true, if_false] at f1 ⊢; omega
        · simp only [if_true] at f1 ⊢; omega)
  rw [hr, hs, hk, hreal, hreal, ← he] at key
  obtain ⟨pf, k1, k2⟩ := key
  refine ⟨⟨?_, ?_⟩, pf.ok, pf.running, pf.from_here.2.2.1, pf.unharmed, pf.log, ?_⟩
  · rw [k1]
    unfold leftover gain
    by_cases hsth : op = .STH
    · rw [if_pos hsth]
      have : (Buxn.VM.Spec.resultSizes (width s) op).sum = 0 := by rw [hsth]; rfl
      cases k
      · simp only [Bool.false_eq_true, if_false]; omega
      · simp only [if_true]; omega
    · rw [if_neg hsth, if_neg hsth]
      cases k
      · simp only [Bool.false_eq_true, if_false]; omega
      · simp only [if_true]; omega
  · rw [k2]
    unfold gain
    by_cases hsth : op = .STH
    · rw [if_pos hsth, if_pos hsth, if_pos hsth]
    · rw [if_neg hsth, if_neg hsth]
  · rcases pf.queue with q | ⟨e, q, _, q2, q3, _, _, q4, q5⟩
    · exact .inl q
    · exact .inr ⟨e, q, q2, q3, q4, q5⟩

/-- Too few bytes: the underflow is reported, before anything else, and the trace is over. -/
theorem C45_underflow (P : Program) (c : Run) (op : Op) (k r s : Bool) (h : At P c op k r s) (hj : isJump op = false)
    (hok : c.Ok) (hneed : (realStack r c).size.toNat < (Buxn.VM.Spec.operandSizes (width s) op).sum) :
    (instruction P c).terminated = true ∧ (instruction P c).success = false ∧
      (instruction P c).errorAt c.key = true ∧ (instruction P c).oob = c.oob ∧
      ∃ ws, (instruction P c).log = c.log ++ .error c.trace .underflow :: ws ∧ ∀ e ∈ ws, Harmless e := by
  obtain ⟨he, hr, hs, hk⟩ := h.eq
  have hreal : ∀ r, realStack r (fetched P c) = realStack r c := fun r => by cases r <;> rfl
  have hp : popStack r (fetched P c) = realStack r c := fetched_popStack P c r
  have key := opPoly_underflow P op (fetched P c) hj (fetched_ok hok) h.running (by rw [hr, hp, hreal])
    (by rw [hr, hs, hreal]; exact hneed)
  rw [← he] at key
  exact key

end Buxn.Chess
