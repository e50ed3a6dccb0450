import Verif.Chess.Casts
/-!
# C46: one instruction, on both sides
-/

namespace Buxn.Chess

open Buxn.VM (Instr Op dispatch VM Host Cfg)
open Buxn.VM.Spec (valueAt operandsAt pushValue ptr stack setPtr Action action operandSizes Sys KeepsStacks operation peekMem)

variable {σ : Type}

/-! ## Immediate jumps -/

/-- The operand of an immediate jump. -/
theorem immediate_sim (P : Program) (c : Run) (mem : Nat → Byte) (x : Nat) (h1 : mem c.pc.toNat = P.rom c.pc)
    (h2 : mem (c.pc + 1).toNat = P.rom (c.pc + 1))
    (hx : x = (c.pc.toNat + 2 + ((mem c.pc.toNat).toNat * 256 + (mem (c.pc + 1).toNat).toNat)) % 65536) :
    (immediate P c).2 = error .invalidJump { c with pc := c.pc + 2 } ∨
      (immediate P c).2 = { c with pc := c.pc + 2 } ∧ (immediate P c).1.short = true ∧ ∀ E, Good E (immediate P c).1 x := by
  unfold immediate
  dsimp only
  split
  · split
    · refine .inr ⟨rfl, rfl, fun E => short_good x (by omega) rfl (fun _ => ?_) rfl rfl rfl⟩
      show (c.pc + 2 + rom2 P c.pc (c.pc + 1)).toNat = x
      rw [BitVec.toNat_add, BitVec.toNat_add, rom2_toNat, hx, h1, h2]
      show ((c.pc.toNat + 2) % 65536 + _) % 65536 = _
      omega
    · exact .inl rfl
  · exact .inl rfl

theorem operand_bytes (vm : VM) (pc : Short) : peekMem vm pc.toNat 65536 2 =
    (vm.memory pc.toNat).toNat * 256 + (vm.memory (pc + 1).toNat).toNat := by
  unfold peekMem
  rw [if_pos rfl, Nat.mod_eq_of_lt pc.isLt, BitVec.toNat_add]
  rfl

theorem after_operand (pc : Short) : (pc + 2).toNat = (pc.toNat + 2) % 65536 := by rw [BitVec.toNat_add]; rfl

theorem target_short {v : Value} (h : v.short = true) (pc x : Nat) : Buxn.VM.Spec.target v.size pc x = x := by
  rw [(size_eq_two v).mpr h]; rfl

/-- The three immediate jumps; `s.pc` is the address after the opcode. -/
theorem immediates_sim {P : Program} (hP : P.Ok) (c : Run) {E : Env} {base : Bool → Byte} {vm : VM} {h : σ}
    (hsim : Sim E base vm c.stacks c.nodes) (hok : c.Ok) (ht : c.terminated = false) (hE : Exact c)
    (hm1 : vm.memory c.pc.toNat = P.rom c.pc) (hm2 : vm.memory (c.pc + 1).toNat = P.rom (c.pc + 1)) :
    (∀ s', s' = (⟨vm, h, (c.pc.toNat + 2 + peekMem vm c.pc.toNat 65536 2) % 65536⟩ : Sys σ) → Outcome P E base c (opJMI P c) s') ∧
    (∀ s', s' = (⟨pushValue true 2 ((c.pc.toNat + 2) % 65536) vm, h, (c.pc.toNat + 2 + peekMem vm c.pc.toNat 65536 2) % 65536⟩ : Sys σ) →
      Outcome P E base c (opJSI P c) s') ∧
    (∀ s', c.keep = false → s' = (⟨setPtr false (vm.wsp - 1) vm, h,
        (if vm.ws (vm.wsp - 1) = 0 then c.pc.toNat + 2 else c.pc.toNat + 2 + peekMem vm c.pc.toNat 65536 2) % 65536⟩ : Sys σ) →
      Outcome P E base c (opJCI P c) s') := by
  have hi := immediate_sim P c vm.memory _ hm1 hm2 rfl
  rw [← operand_bytes] at hi
  have hon := (immediate_plainly P c).on
  rcases hi with hbad | ⟨hc1, hsh, hg⟩
  · have hr : Reports c (immediate P c).2 := by
      rw [hbad]; exact (error_reports _ { c with pc := c.pc + 2 }).after (pc_plainly _ c).on
    have htm : (immediate P c).2.terminated = true := by rw [hbad]; rfl
    refine ⟨fun s' _ => .inr (.inl ?_), fun s' _ => .inr (.inl ?_), fun s' _ _ => .inr (.inl ?_)⟩
    · show Reports c (jump P _ (immediate P c).2)
      exact hr.then (jump_onward P _ _)
    · show Reports c (jumpStash P _ _ (immediate P c).2)
      exact hr.then (jumpStash_onward P _ _ _)
    · show Reports c (jumpConditional P _ _ (popEx false false (immediate P c).2).2)
      exact hr.then ((popEx_plainly _ _ _).on.trans (jumpConditional_onward P _ _ _))
  have ht1 : (immediate P c).2.terminated = false := by rw [hc1]; exact ht
  have hpc1 : (immediate P c).2.pc.toNat = (c.pc.toNat + 2) % 65536 := by rw [hc1]; exact after_operand c.pc
  have hok1 : (immediate P c).2.Ok := by rw [hc1]; exact ⟨hok.nodes, hok.wst, hok.rst⟩
  have hsim1 : Sim E base vm (immediate P c).2.stacks (immediate P c).2.nodes := by rw [hc1]; exact hsim
  have harcs1 : (immediate P c).2.arcs = c.arcs := by rw [hc1]
  have hk1 : (immediate P c).2.keep = c.keep := by rw [hc1]
  have hw1 : (immediate P c).2.wst = c.wst := by rw [hc1]
  have hE1 : Exact (immediate P c).2 := by
    rw [hc1]; intro r; cases r <;> [exact hE false; exact hE true]
  have eJMI : opJMI P c = jump P (immediate P c).1 (immediate P c).2 := rfl
  have eJSI : opJSI P c = jumpStash P (immediate P c).1 false (immediate P c).2 := rfl
  have eJCI : opJCI P c = jumpConditional P (popEx false false (immediate P c).2).1 (immediate P c).1
      (popEx false false (immediate P c).2).2 := rfl
  rw [eJMI, eJSI, eJCI]
  clear eJMI eJSI eJCI hc1
  generalize (immediate P c).2 = c1 at *
  generalize (immediate P c).1 = a at *
  refine ⟨?_, ?_, ?_⟩
  · rintro s' rfl
    have hj := jump_sim (h := h) hP a c1 hsim1 hok1 ht1 hE1 (hg E)
    rw [target_short hsh] at hj
    exact hj.before hon harcs1 rfl
  · rintro s' rfl
    have rd := ready_refl hsim1 hok1 ht1
    have hj := jumpStash_sim (h := h) hP a false rd (.refl _) hE1 (hg E)
    rw [target_short hsh, hpc1] at hj
    exact hj.before hon harcs1 rfl
  · rintro s' hk rfl
    have hp : popStack false c1 = realStack false c1 := by unfold popStack; rw [hk1, hk]; rfl
    refine Outcome.before hon harcs1 rfl ?_
    have e : popEx false false c1 = ((popList false [false] c1).1.headD {}, (popList false [false] c1).2) := rfl
    rw [e]
    dsimp only
    by_cases hneed : widths [false] ≤ (realStack false c1).size.toNat
    swap
    · obtain ⟨h1, h2⟩ := popList_short (bs := [false]) ht1 hok1 hp (by omega)
      exact .inr (.inl (h1.then (jumpConditional_onward P _ _ _)))
    obtain ⟨E', tk⟩ := take_sim (bs := [false]) hsim1 hok1 ht1 hp hneed (by
      show ∀ v ∈ items c1.wst, _
      rw [hw1]; exact hE false)
    have hon2 := (popList_plainly false [false] c1).on
    have rd := tk.ready ht1
    have hshs := tk.shorts
    have hgood := tk.good
    have hsm := tk.small
    generalize (popList false [false] c1).1 = vs at *
    generalize (popList false [false] c1).2 = c2 at *
    rcases vs with _ | ⟨b, _ | ⟨_, _⟩⟩
    · simp at hshs
    · cases hgood with
      | cons hg2 _ =>
        have hj := jumpConditional_sim (h := h) hP b a rd hon2 hE1 (hg E') hg2 (hsm b (by simp))
        rw [target_short hsh, rd.pc, hpc1, hk1, hk] at hj
        have ev : valueAt (stack false vm) (ptr false vm - BitVec.ofNat 8 (width false)) (width false) = (vm.ws (vm.wsp - 1)).toNat := rfl
        rw [ev] at hj
        have e1 : dropped false false (widths [false]) vm = setPtr false (vm.wsp - 1) vm := rfl
        rw [e1] at hj
        have e2 : (if (vm.ws (vm.wsp - 1)).toNat = 0 then (c.pc.toNat + 2) % 65536
            else (c.pc.toNat + 2 + peekMem vm c.pc.toNat 65536 2) % 65536) =
            (if vm.ws (vm.wsp - 1) = 0 then c.pc.toNat + 2 else c.pc.toNat + 2 + peekMem vm c.pc.toNat 65536 2) % 65536 := by
          by_cases hz : vm.ws (vm.wsp - 1) = 0
          · rw [if_pos hz, if_pos (by rw [hz]; rfl)]
          · rw [if_neg hz, if_neg (show ¬ (vm.ws (vm.wsp - 1)).toNat = 0 from fun e => hz (BitVec.eq_of_toNat_eq e))]
        rw [e2] at hj
        exact hj
    · simp at hshs

/-! ## One instruction -/

/-- The instruction adds one to what is taken for the return address; the checker goes on taking it for that. -/
def IncrementsReturn (P : Program) (c : Run) : Prop :=
  ∃ k r s v, dispatch (P.rom c.pc) = some (.poly .INC k r s) ∧ (items (realStack r c)).head? = some v ∧ v.ret = true

/-- The VM is where the trace is, and the trace describes its stacks. -/
structure Meets (E : Env) (base : Bool → Byte) (c : Run) (s : Sys σ) : Prop where
  running : c.terminated = false
  pc : s.pc = c.pc.toNat
  ok : c.Ok
  sim : Sim E base s.vm c.stacks c.nodes

/-- What the description of an instruction takes for granted: code that is as assembled, folded bytes without carry, and
no arithmetic on the return address. -/
structure Fair (P : Program) (c : Run) (mem : Nat → Byte) : Prop where
  intact : Intact P mem c.pc
  exact : Exact c
  exactCast : P.cast c.pc ≠ none → Exact (perform P (fetched P c))
  fixed : ¬ IncrementsReturn P c

theorem fetched_sim {P : Program} {E : Env} {base : Bool → Byte} {c : Run} {vm : VM} (h : Sim E base vm c.stacks c.nodes) :
    Sim E base vm (fetched P c).stacks (fetched P c).nodes :=
  ⟨h.meaning, fun r => by cases r <;> [exact h.cells false; exact h.cells true],
    fun r => by cases r <;> [exact h.alive false; exact h.alive true]⟩

theorem fetched_next (P : Program) (c : Run) : (fetched P c).pc.toNat = (c.pc.toNat + 1) % 65536 := by
  show (c.pc + 1).toNat = _
  rw [BitVec.toNat_add]
  rfl

theorem lit_bits {b : Byte} {r s : Bool} (h : dispatch b = some (.LIT r s)) : b.getLsbD 6 = r ∧ b.getLsbD 5 = s := by
  have key : ∀ b : Byte, (match dispatch b with
      | some (.LIT r s) => b.getLsbD 6 == r && b.getLsbD 5 == s
      | _ => true) = true := by decide +kernel
  have := key b
  rw [h] at this
  simpa using this

theorem jci_bits {b : Byte} (h : dispatch b = some .JCI) : b.getLsbD 7 = false := by
  have key : ∀ b : Byte, (match dispatch b with | some .JCI => !b.getLsbD 7 | _ => true) = true := by decide +kernel
  have := key b
  rw [h] at this
  simpa using this

theorem succ_succ (a : Short) : a + 1 + 1 = a + 2 := by rw [BitVec.add_assoc]; rfl

/-- The operation of an instruction. -/
theorem perform_sim {P : Program} (hP : P.Ok) {cfg : Cfg} {H : Host σ} (hk : KeepsStacks H) {E : Env} {base : Bool → Byte} {c : Run}
    {s s' : Sys σ} (h : Meets E base c s) (hf : Fair P c s.vm.memory) (hvm : Buxn.VM.Spec.step cfg H s = .ok (some s')) :
    Outcome P E base (fetched P c) (perform P (fetched P c)) s' := by
  have hmem : ∀ b ∈ operandBytes P c.pc, s.vm.memory b.toNat = P.rom b := fun b hb => hf.intact b (List.mem_cons_of_mem _ hb)
  have hop : s.vm.memory s.pc = P.rom c.pc := by rw [h.pc]; exact hf.intact c.pc List.mem_cons_self
  have hsimF := fetched_sim (P := P) h.sim
  have hokF := fetched_ok (P := P) h.ok
  have htF : (fetched P c).terminated = false := h.running
  have hnext : (s.pc + 1) % 65536 = (fetched P c).pc.toNat := by rw [fetched_next, h.pc]
  have hpcF : (fetched P c).pc = c.pc + 1 := rfl
  have hsmall : ∀ r, ∀ v ∈ items (realStack r (fetched P c)), Small v := by
    intro r; cases r
    · exact hf.exact false
    · exact hf.exact true
  have hpop : ∀ r, popStack r (fetched P c) = realStack r (fetched P c) := by
    intro r; rw [fetched_popStack]; cases r <;> rfl
  have hperf : perform P (fetched P c) = match dispatch (P.rom c.pc) with
      | some .BRK => opBRK P (fetched P c)
      | some .JCI => opJCI P (fetched P c)
      | some .JMI => opJMI P (fetched P c)
      | some .JSI => opJSI P (fetched P c)
      | some (.LIT _ _) => opLIT P (fetched P c)
      | some (.poly op _ _ _) => opPoly P op (fetched P c)
      | none => fetched P c := rfl
  rw [hperf]
  cases hi : dispatch (P.rom c.pc) with
  | none =>
    have key : ∀ b : Byte, (dispatch b).isSome = true := by decide +kernel
    have := key (P.rom c.pc)
    rw [hi] at this; cases this
  | some i =>
    have hstep := step_execute cfg H s (i := i) (by rw [hop]; exact hi)
    rw [hvm, hnext] at hstep
    have bytes2 : (i = .JCI ∨ i = .JMI ∨ i = .JSI) → s.vm.memory (fetched P c).pc.toNat = P.rom (fetched P c).pc ∧
        s.vm.memory ((fetched P c).pc + 1).toNat = P.rom ((fetched P c).pc + 1) := by
      intro hj
      rw [hpcF, succ_succ]
      refine ⟨hmem _ ?_, hmem _ ?_⟩ <;> unfold operandBytes <;> rw [hi] <;> rcases hj with rfl | rfl | rfl <;> simp
    cases i with
    | BRK => simp [execute] at hstep
    | JCI =>
      obtain ⟨b1, b2⟩ := bytes2 (.inl rfl)
      have e := Option.some.inj (Except.ok.inj hstep)
      exact (immediates_sim (h := s.host) hP (fetched P c) hsimF hokF htF hsmall b1 b2).2.2 s' (jci_bits hi) e
    | JMI =>
      obtain ⟨b1, b2⟩ := bytes2 (.inr (.inl rfl))
      have e := Option.some.inj (Except.ok.inj hstep)
      exact (immediates_sim (h := s.host) hP (fetched P c) hsimF hokF htF hsmall b1 b2).1 s' e
    | JSI =>
      obtain ⟨b1, b2⟩ := bytes2 (.inr (.inr rfl))
      have e := Option.some.inj (Except.ok.inj hstep)
      exact (immediates_sim (h := s.host) hP (fetched P c) hsimF hokF htF hsmall b1 b2).2.1 s' e
    | LIT r b =>
      obtain ⟨l6, l5⟩ := lit_bits hi
      have f6 : flagR (fetched P c) = r := l6
      have f5 : flag2 (fetched P c) = b := l5
      obtain ⟨c1, hc1, hl⟩ := opLIT_sim P (fetched P c) hsimF hokF htF (by
          intro hnone
          rw [hpcF] at hnone ⊢
          apply hmem
          unfold operandBytes
          rw [hi]
          cases b <;> simp only [hnone] <;> simp) (by
          intro h2 hcond
          rw [f5] at h2
          subst h2
          rw [hpcF, succ_succ] at hcond ⊢
          apply hmem
          unfold operandBytes
          rw [hi]
          simp only
          by_cases hx : (P.label (c.pc + 1)).isSome = true
          · rw [if_pos hx]
            rw [if_neg (fun hy => hcond ⟨hx, hy⟩)]
            simp
          · rw [if_neg hx]; simp)
      rw [f6, f5] at hl
      have e : s' = ⟨pushValue r (width b) (peekMem s.vm (fetched P c).pc.toNat 65536 (width b)) s.vm, s.host,
          ((fetched P c).pc.toNat + width b) % 65536⟩ := Option.some.inj (Except.ok.inj hstep)
      rw [e]
      show Outcome P E base (fetched P c) (opLIT P (fetched P c)) _
      rcases hl with hl | hl | hl
      · exact .inl hl
      · exact .inr (.inl ((opLIT_plainly P (fetched P c)).reports htF hl))
      · refine .inr (.inr (.inl ⟨hl.running, ?_, hl.ok, E, rfl, hl.sim⟩))
        rw [hl.pc, hc1]
        show _ = ((fetched P c).pc + BitVec.ofNat 16 (width (flag2 (fetched P c)))).toNat
        rw [f5, BitVec.toNat_add]
        cases b <;> rfl
    | poly op k r b =>
      obtain ⟨b7, b6, b5⟩ := poly_bits hi
      have f7 : (fetched P c).keep = k := b7
      have f6 : flagR (fetched P c) = r := b6
      have f5 : flag2 (fetched P c) = b := b5
      have hvm' : operation cfg H op (flag2 (fetched P c)) (flagR (fetched P c)) (fetched P c).keep (fetched P c).pc.toNat s.vm s.host = .ok s' := by
        rw [f7, f6, f5]
        have hstep : Except.ok (some s') = (operation cfg H op b r k (fetched P c).pc.toNat s.vm s.host).map some := hstep
        cases hx : operation cfg H op b r k (fetched P c).pc.toNat s.vm s.host with
        | error e => rw [hx] at hstep; cases hstep
        | ok y => rw [hx] at hstep; cases hstep; rfl
      show Outcome P E base (fetched P c) (opPoly P op (fetched P c)) s'
      by_cases hj : isJump op = true
      · have : op = .JMP ∨ op = .JCN ∨ op = .JSR := by revert hj; cases op <;> simp [isJump]
        rcases this with rfl | rfl | rfl
        · exact opJMP_sim hP (fetched P c) hsimF hokF htF (hpop _) hsmall hvm'
        · exact opJCN_sim hP (fetched P c) hsimF hokF htF (hpop _) hsmall hvm'
        · exact opJSR_sim hP (fetched P c) hsimF hokF htF (hpop _) hsmall hvm'
      · have hj : isJump op = false := by simpa using hj
        rcases opPoly_sim P hk op hj (fetched P c) hsimF hokF htF (hpop _) (hsmall _) (by
            rintro rfl v hv
            cases hr : v.ret
            · rfl
            · refine absurd ⟨k, r, b, v, hi, ?_, hr⟩ hf.fixed
              rw [f6] at hv
              cases r <;> exact hv) hvm' with h1 | h1 | h1 | ⟨e, h1, _⟩
        · exact .inl h1
        · exact .inr (.inl ((opPoly_plainly P op (fetched P c) hj).reports htF h1))
        · exact .inr (.inr (.inl h1))
        · exact .inr (.inr (.inr (.inl ⟨e, h1⟩)))

/-- **C46.** The VM and the checker execute the same instruction. -/
theorem C46_step_partial {P : Program} (hP : P.Ok) {cfg : Cfg} {H : Host σ} (hk : KeepsStacks H) {E : Env} {base : Bool → Byte}
    {c : Run} {s s' : Sys σ} (h : Meets E base c s) (hf : Fair P c s.vm.memory)
    (hvm : Buxn.VM.Spec.step cfg H s = .ok (some s')) : Outcome P E base c (instruction P c) s' (P.cast c.pc) := by
  by_cases hcode : ∃ sym, P.sym c.pc = some sym ∧ sym.type = .opcode
  swap
  · refine .inr (.inl ?_)
    unfold instruction
    dsimp only
    split
    · exact (error_reports _ _).after (.same rfl rfl rfl rfl rfl rfl rfl rfl rfl rfl)
    · rename_i sym hsym
      rw [if_pos (fun e => hcode ⟨sym, hsym, e⟩)]
      exact (error_reports _ _).after (.same rfl rfl rfl rfl rfl rfl rfl rfl rfl rfl)
  obtain ⟨sym, hsym, hty⟩ := hcode
  rw [instruction_fetched hsym hty]
  have h1 := perform_sim hP hk h hf hvm
  have hon := (fetched_plainly P c).on
  exact (h1.before hon rfl rfl).casts hP c.pc (hon.trans (perform_onward P _)) hf.exactCast

/-- **C46.** The VM halts. -/
theorem C46_halt {P : Program} (hP : P.Ok) {cfg : Cfg} {H : Host σ} {E : Env} {base : Bool → Byte}
    {c : Run} {s : Sys σ} (h : Meets E base c s) (hI : Intact P s.vm.memory c.pc)
    (hvm : Buxn.VM.Spec.step cfg H s = .ok none) :
    Reports c (instruction P c) ∨ (sigAt P c.key).kind = .vector ∧
      ∀ r, ptr r s.vm = base r + BitVec.ofNat 8 (total ((sigAt P c.key).outs r)) := by
  have hop : s.vm.memory s.pc = P.rom c.pc := by rw [h.pc]; exact hI c.pc List.mem_cons_self
  by_cases hcode : ∃ sym, P.sym c.pc = some sym ∧ sym.type = .opcode
  swap
  · left
    unfold instruction
    dsimp only
    split
    · exact (error_reports _ _).after (.same rfl rfl rfl rfl rfl rfl rfl rfl rfl rfl)
    · rename_i sym hsym
      rw [if_pos (fun e => hcode ⟨sym, hsym, e⟩)]
      exact (error_reports _ _).after (.same rfl rfl rfl rfl rfl rfl rfl rfl rfl rfl)
  obtain ⟨sym, hsym, hty⟩ := hcode
  rw [instruction_fetched hsym hty]
  have hon := (fetched_plainly P c).on
  have hbrk : dispatch (P.rom c.pc) = some .BRK := by
    cases hi : dispatch (P.rom c.pc) with
    | none =>
      have key : ∀ b : Byte, (dispatch b).isSome = true := by decide +kernel
      have := key (P.rom c.pc)
      rw [hi] at this; cases this
    | some i =>
      have hstep := step_execute cfg H s (i := i) (by rw [hop]; exact hi)
      rw [hvm] at hstep
      cases i with
      | BRK => rfl
      | poly op k r b =>
        have hstep : Except.ok none = (operation cfg H op b r k ((s.pc + 1) % 65536) s.vm s.host).map some := hstep
        cases hx : operation cfg H op b r k ((s.pc + 1) % 65536) s.vm s.host with
        | error e => rw [hx] at hstep; cases hstep
        | ok y => rw [hx] at hstep; cases hstep
      | _ => cases hstep
  have hperf : perform P (fetched P c) = opBRK P (fetched P c) := by
    show (match dispatch (P.rom c.pc) with
      | some .BRK => opBRK P (fetched P c)
      | some .JCI => opJCI P (fetched P c)
      | some .JMI => opJMI P (fetched P c)
      | some .JSI => opJSI P (fetched P c)
      | some (.LIT _ _) => opLIT P (fetched P c)
      | some (.poly op _ _ _) => opPoly P op (fetched P c)
      | none => fetched P c) = _
    rw [hbrk]
  rw [hperf]
  unfold opBRK
  dsimp only
  have hcast := fun c1 => (applyCasts_plainly (P.cast c.pc) c1).on
  by_cases hv : (sigAt P (fetched P c).key).kind = .subroutine
  · left
    rw [if_pos hv]
    refine Reports.then ?_ (hcast _)
    exact ((error_reports .brkInSubroutine (fetched P c)).after hon).then (((setTerminatedAt_plainly true _).on.trans (checkReturn_plainly P _).on).trans
      (terminate_onward _))
  · rw [if_neg hv]
    rcases endCheck (P := P) (setTerminatedAt true (fetched P c)) with h1 | h1 | ⟨h1, h2⟩
    · exact .inl (((h1.after (setTerminatedAt_plainly true _).on).after hon).then (hcast _))
    · rw [show (setTerminatedAt true (fetched P c)).terminated = c.terminated from rfl, h.running] at h1; cases h1
    · right
      refine ⟨?_, sizes_declared hP h.ok h.sim h1 h2⟩
      have : (sigAt P c.key).kind ≠ .subroutine := hv
      revert this
      cases (sigAt P c.key).kind <;> simp

end Buxn.Chess
