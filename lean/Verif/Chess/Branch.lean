import Verif.Chess.Jump
/-!
# C46: instructions that jump, on both sides
-/

namespace Buxn.Chess

open Buxn.VM (Instr Op dispatch VM Host Cfg)
open Buxn.VM.Spec (valueAt operandsAt pushValue ptr stack setPtr Action action operandSizes Sys KeepsStacks operation)

variable {σ : Type}

/-- What is known of a later state is known of an earlier one. -/
theorem Outcome.before {P : Program} {E E1 : Env} {base : Bool → Byte} {c c1 c' : Run} {s' : Sys σ} {k : Option Cast} (hon : Onward c c1)
    (ha : c1.arcs = c.arcs) (hr : E1.ret = E.ret) (h : Outcome P E1 base c1 c' s' k) : Outcome P E base c c' s' k := by
  rcases h with h | h | h | ⟨e, h⟩ | h | ⟨h0, ⟨f, h1⟩, h2, h3, E', h4, h5⟩ | h
  · exact .inl h
  · exact .inr (.inl (h.after hon))
  · obtain ⟨h1, h2, h3, E', h4, h5⟩ := h
    exact .inr (.inr (.inl ⟨h1, h2, h3, E', h4.trans hr, h5⟩))
  · obtain ⟨⟨es, h1, h2⟩, h3, h4, E', m, h5, h6⟩ := h
    obtain ⟨fs, f1, _⟩ := hon.queue
    exact .inr (.inr (.inr (.inl ⟨e, ⟨es ++ fs, by rw [h1, f1, List.append_assoc], List.mem_append_left _ h2⟩, h3.trans hon.key, h4, E', m,
      h5.trans hr, h6⟩)))
  · obtain ⟨b, x, h⟩ := h
    obtain ⟨E', e1, e2⟩ := h.sim
    exact .inr (.inr (.inr (.inr (.inl ⟨b, x, h.routine, h.pc, h.running, h.ok, h.exact, hon.trans h.onward, ⟨E', e1.trans hr, e2⟩,
      h.result, h.cast⟩))))
  · exact .inr (.inr (.inr (.inr (.inr (.inl ⟨h0, ⟨f, by rw [← ha]; exact h1⟩, h2, h3, E', h4.trans hr, h5⟩)))))
  · obtain ⟨h1, h2, h3⟩ := h
    rw [hon.key] at h1 h3
    exact .inr (.inr (.inr (.inr (.inr (.inr ⟨h1, h2.trans hr, h3⟩)))))

/-- The VM without the operands. -/
def dropped (keep r : Bool) (n : Nat) (vm : VM) : VM := if keep then vm else setPtr r (ptr r vm - BitVec.ofNat 8 n) vm

/-- What popping the operands of a jump gives. -/
structure Ready (E E' : Env) (base : Bool → Byte) (vm : VM) (c c2 : Run) : Prop where
  ret : E'.ret = E.ret
  sim : Sim E' base vm c2.stacks c2.nodes
  ok : c2.Ok
  running : c2.terminated = false
  pc : c2.pc = c.pc
  key : c2.key = c.key
  arcs : c2.arcs = c.arcs
  queue : c2.queue = c.queue
  flag : flagR c2 = flagR c
  exact : Exact c → Exact c2

theorem Took.ready {E E' : Env} {base : Bool → Byte} {vm : VM} {r : Bool} {bs : List Bool} {c c2 : Run} {vs : List Value}
    (h : Took E base vm r bs c c2 vs E') (ht : c.terminated = false) :
    Ready E E' base (dropped c.keep r (widths bs) vm) c c2 := by
  obtain ⟨s, m, e⟩ := h.form
  exact ⟨h.ret, h.sim, h.ok, by rw [e, setPop_terminated]; exact ht, by rw [e]; simp, by rw [e]; exact setPop_key _ _ _,
    by rw [e]; exact setPop_arcs _ _ _, by rw [e]; exact setPop_queue _ _ _, by rw [e]; exact flagR_setPop _ _ _, h.exact⟩

theorem popList_short {r : Bool} {bs : List Bool} {c : Run} (ht : c.terminated = false) (hok : c.Ok)
    (hp : popStack r c = realStack r c) (h : (realStack r c).size.toNat < widths bs) : Reports c (popList r bs c).2 ∧
      (popList r bs c).2.terminated = true := by
  obtain ⟨vs, s, m, e, _⟩ := popList_underflow r bs c ht hok.nodes (by rw [hp]; exact hok.real r) (by rw [hp]; exact h)
  have h1 : (popList r bs c).2.terminated = true := by rw [e, setPop_terminated]; rfl
  exact ⟨(popList_plainly r bs c).reports ht h1, h1⟩

theorem jump_stopped (P : Program) (a : Value) {c : Run} (h : c.terminated = true) : jump P a c = c := by
  unfold jump; rw [if_pos h]

/-- `JMP`. -/
theorem opJMP_sim {P : Program} (hP : P.Ok) {cfg : Cfg} {H : Host σ} (c : Run)
    {E : Env} {base : Bool → Byte} {vm : VM} {h : σ} {s' : Sys σ}
    (hsim : Sim E base vm c.stacks c.nodes) (hok : c.Ok) (ht : c.terminated = false)
    (hp : popStack (flagR c) c = realStack (flagR c) c) (hS : Exact c)
    (hvm : operation cfg H .JMP (flag2 c) (flagR c) c.keep c.pc.toNat vm h = .ok s') :
    Outcome P E base c (opJMP P c) s' := by
  have e0 : opJMP P c = jump P ((popList (flagR c) [flag2 c] c).1.headD {}) (popList (flagR c) [flag2 c] c).2 := rfl
  rw [e0]
  by_cases hneed : widths [flag2 c] ≤ (realStack (flagR c) c).size.toNat
  swap
  · obtain ⟨h1, h2⟩ := popList_short (bs := [flag2 c]) ht hok hp (by omega)
    rw [jump_stopped _ _ h2]
    exact .inr (.inl h1)
  obtain ⟨E', tk⟩ := take_sim (bs := [flag2 c]) hsim hok ht hp hneed (hS _)
  have hon := (popList_plainly (flagR c) [flag2 c] c).on
  have rd := tk.ready ht
  have hsh := tk.shorts
  have hgood := tk.good
  generalize (popList (flagR c) [flag2 c] c).1 = vs at *
  generalize (popList (flagR c) [flag2 c] c).2 = c2 at *
  rcases vs with _ | ⟨a, _ | ⟨_, _⟩⟩
  · simp at hsh
  · have ha : a.short = flag2 c := by simpa using hsh
    cases hgood with
    | cons hg _ =>
      unfold operation at hvm
      dsimp only at hvm
      rw [show (if flag2 c = true then 2 else 1) = width (flag2 c) from rfl, operandsAt_down] at hvm
      rw [show operandSizes (width (flag2 c)) Op.JMP = [width (flag2 c)] from rfl] at hvm
      have e1 : s' = ⟨dropped c.keep (flagR c) (widths [flag2 c]) vm, h, Buxn.VM.Spec.target (width (flag2 c)) c.pc.toNat
          (valueAt (stack (flagR c) vm) (ptr (flagR c) vm - BitVec.ofNat 8 (width (flag2 c))) (width (flag2 c)))⟩ := by
        have := (Except.ok.inj hvm).symm
        rw [this]
        rfl
      rw [e1]
      refine Outcome.before hon rd.arcs rd.ret ?_
      have hj := jump_sim (h := h) hP a c2 rd.sim rd.ok rd.running (rd.exact hS) hg
      rw [width_size ha, rd.pc] at hj
      exact hj
  · simp at hsh

/-- A value that is no half is not merged with anything. -/
theorem pushEx_whole {r : Bool} {v : Value} {c : Run} (ht : c.terminated = false) (h : (realStack r c).size.toNat + v.size ≤ 255)
    (hlo : v.halfLo = false) : pushEx r v c = setReal r (rawPush (realStack r c) v) c := by
  unfold pushEx
  rw [if_neg (by rw [ht]; simp)]
  dsimp only
  have hc : ({ c with wrapped := c.wrapped || decide ((realStack r c).size.toNat + v.size = 256) } : Run) = c := by
    rw [show decide ((realStack r c).size.toNat + v.size = 256) = false from decide_eq_false (by omega), Bool.or_false]
  rw [hc, if_neg (by omega), if_neg (by rw [hlo]; simp)]
  rfl

theorem pushEx_exact {r : Bool} {v : Value} {c : Run} (hok : c.Ok) (ht : c.terminated = false) (h : (realStack r c).size.toNat + v.size ≤ 255)
    (hlo : v.halfLo = false) (hv : Small v) (hE : Exact c) : Exact (pushEx r v c) := by
  rw [pushEx_whole ht h hlo]
  intro r' w hw
  by_cases e : r' = r
  · subst e
    rw [setReal_realStack] at hw
    have hl : (realStack r' c).len.toNat < 255 := by
      have := (hok.real r').sound.len_le
      have := size_pos v
      omega
    rw [show items (rawPush (realStack r' c) v) = v :: items (realStack r' c) from items_push hl v _] at hw
    rcases List.mem_cons.mp hw with e | hw
    · rw [e]; exact hv
    · exact hE r' w hw
  · have e : r' = !r := by cases r <;> cases r' <;> simp_all
    subst e
    rw [setReal_other] at hw
    exact hE _ w hw

/-- Pushing one more value. -/
theorem Ready.push {E E' : Env} {base : Bool → Byte} {vm : VM} {c c2 : Run} (rd : Ready E E' base vm c c2) (r : Bool) {v : Value}
    {x : Nat} (hg : Good E' v x) (h1 : v.halfHi = false) (h2 : v.halfLo = false) (hv : Small v) :
    (pushEx r v c2).wrapped = true ∨ (pushEx r v c2).terminated = true ∨
      Ready E E' base (pushValue r v.size x vm) c (pushEx r v c2) := by
  have htidy : Tidy c2.nodes.fresh v := whole_tidy _ h1 h2
  have hcases := pushAll_cases r [v] c2 rd.running rd.ok.nodes (rd.ok.real r) (by
    intro w hw; rw [List.mem_singleton] at hw; rw [hw]; exact htidy)
  rw [pushAll_one] at hcases
  rcases hcases with hfit | h | h
  swap
  · exact .inl h
  swap
  · exact .inr (.inl h)
  have hfit : (realStack r c2).size.toNat + v.size ≤ 255 := by rw [total_cons, total_nil] at hfit; omega
  obtain ⟨s1, e1, p1⟩ := pushEx_ok rd.ok.nodes (rd.ok.real r) htidy rd.running hfit
  have hex := fun hE => pushEx_exact rd.ok rd.running hfit h2 hv (rd.exact hE)
  have hs := pushEx_sim rd.sim rd.ok (r := r) htidy (.whole _ h1 h2) hg.1 hg.2 rd.running hfit
  rw [e1] at hs hex ⊢
  have hn : (setReal r s1 c2).nodes = c2.nodes := setReal_nodes _ _ _
  refine .inr (.inr ⟨rd.ret, hs, ?_, by rw [setReal_terminated]; exact rd.running, by rw [setReal_pc]; exact rd.pc, ?_, ?_,
    by rw [setReal_queue]; exact rd.queue, ?_, hex⟩)
  · exact Run.Ok.of_real (by rw [hn]; exact rd.ok.nodes) r (by rw [setReal_realStack, hn]; exact p1.stack)
      (by rw [setReal_other, hn]; exact rd.ok.real (!r))
  · rw [← rd.key]; cases r <;> rfl
  · rw [← rd.arcs]; cases r <;> rfl
  · rw [← rd.flag]; cases r <;> rfl

theorem ready_refl {E : Env} {base : Bool → Byte} {vm : VM} {c : Run} (hsim : Sim E base vm c.stacks c.nodes) (hok : c.Ok)
    (ht : c.terminated = false) : Ready E E base vm c c := ⟨rfl, hsim, hok, ht, rfl, rfl, rfl, rfl, rfl, id⟩

/-- The return address of a call. -/
def resume (c : Run) : Value := { short := true, address := true, const := true, value := c.pc }

theorem resume_good (E : Env) (c : Run) : Good E (resume c) c.pc.toNat := by
  have e : (resume c).size = 2 := rfl
  refine ⟨by rw [e]; exact c.pc.isLt, .of_const _ ?_ rfl rfl rfl⟩
  rw [e]
  exact Nat.mod_eq_of_lt c.pc.isLt

/-- A call whose operand is described. -/
theorem jumpStash_sim {P : Program} (hP : P.Ok) (a : Value) (r : Bool) {c c2 : Run} {E E' : Env} {base : Bool → Byte} {vm : VM} {h : σ}
    {x : Nat} (rd : Ready E E' base vm c c2) (hon : Onward c c2) (hE : Exact c) (hg : Good E' a x) :
    Outcome P E base c (jumpStash P a r c2)
      ⟨pushValue (!r) 2 c2.pc.toNat vm, h, Buxn.VM.Spec.target a.size c2.pc.toNat x⟩ := by
  have e0 : jumpStash P a r c2 = jump P a (pushEx (!r) (resume c2) c2) := rfl
  rw [e0]
  have hon3 : Onward c (pushEx (!r) (resume c2) c2) := hon.trans (pushEx_plainly (!r) (resume c2) c2).on
  rcases rd.push (!r) (resume_good E' c2) rfl rfl (fun h => (by cases h)) with hw | hterm | rd3
  · exact .inl ((jump_onward P a _).wrapped hw)
  · rw [jump_stopped _ _ hterm]
    exact .inr (.inl (((pushEx_plainly (!r) (resume c2) c2).reports rd.running hterm).after hon))
  · refine Outcome.before hon3 rd3.arcs rd3.ret ?_
    have hj := jump_sim (h := h) hP a _ rd3.sim rd3.ok rd3.running (rd3.exact hE) hg
    rw [rd3.pc, ← rd.pc] at hj
    exact hj

/-- `JSR`. -/
theorem opJSR_sim {P : Program} (hP : P.Ok) {cfg : Cfg} {H : Host σ} (c : Run)
    {E : Env} {base : Bool → Byte} {vm : VM} {h : σ} {s' : Sys σ}
    (hsim : Sim E base vm c.stacks c.nodes) (hok : c.Ok) (ht : c.terminated = false)
    (hp : popStack (flagR c) c = realStack (flagR c) c) (hS : Exact c)
    (hvm : operation cfg H .JSR (flag2 c) (flagR c) c.keep c.pc.toNat vm h = .ok s') :
    Outcome P E base c (opJSR P c) s' := by
  have e0 : opJSR P c = jumpStash P ((popList (flagR c) [flag2 c] c).1.headD {}) (flagR (popList (flagR c) [flag2 c] c).2)
    (popList (flagR c) [flag2 c] c).2 := rfl
  rw [e0]
  by_cases hneed : widths [flag2 c] ≤ (realStack (flagR c) c).size.toNat
  swap
  · obtain ⟨h1, h2⟩ := popList_short (bs := [flag2 c]) ht hok hp (by omega)
    exact .inr (.inl (h1.then (jumpStash_onward P _ _ _)))
  obtain ⟨E', tk⟩ := take_sim (bs := [flag2 c]) hsim hok ht hp hneed (hS _)
  have hon := (popList_plainly (flagR c) [flag2 c] c).on
  have rd := tk.ready ht
  have hsh := tk.shorts
  have hgood := tk.good
  generalize (popList (flagR c) [flag2 c] c).1 = vs at *
  generalize (popList (flagR c) [flag2 c] c).2 = c2 at *
  rcases vs with _ | ⟨a, _ | ⟨_, _⟩⟩
  · simp at hsh
  · have ha : a.short = flag2 c := by simpa using hsh
    cases hgood with
    | cons hg _ =>
      unfold operation at hvm
      dsimp only at hvm
      rw [show (if flag2 c = true then 2 else 1) = width (flag2 c) from rfl, operandsAt_down] at hvm
      rw [show operandSizes (width (flag2 c)) Op.JSR = [width (flag2 c)] from rfl] at hvm
      have e1 : s' = ⟨pushValue (!flagR c) 2 c.pc.toNat (dropped c.keep (flagR c) (widths [flag2 c]) vm), h,
          Buxn.VM.Spec.target (width (flag2 c)) c.pc.toNat
          (valueAt (stack (flagR c) vm) (ptr (flagR c) vm - BitVec.ofNat 8 (width (flag2 c))) (width (flag2 c)))⟩ := by
        have := (Except.ok.inj hvm).symm
        rw [this]
        rfl
      rw [e1, ← width_size ha, ← rd.pc, rd.flag]
      rw [width_size ha]
      have := jumpStash_sim (h := h) hP a (flagR c) rd hon hS hg
      rw [width_size ha] at this
      exact this
  · simp at hsh

/-- A conditional jump whose operands are described. -/
theorem jumpConditional_sim {P : Program} (hP : P.Ok) (cond a : Value) {c c2 : Run} {E E' : Env} {base : Bool → Byte} {vm : VM} {h : σ}
    {x y : Nat} (rd : Ready E E' base vm c c2) (hon : Onward c c2) (hE : Exact c) (hg : Good E' a x) (hc : Good E' cond y) (hS : Small cond) :
    Outcome P E base c (jumpConditional P cond a c2)
      ⟨vm, h, if y = 0 then c2.pc.toNat else Buxn.VM.Spec.target a.size c2.pc.toNat x⟩ := by
  unfold jumpConditional
  by_cases hd : (cond.const && cond.forked) = true
  · rw [if_pos hd]
    have hv := hc.exact hS (by rw [Bool.and_eq_true] at hd; exact hd.1)
    by_cases hz : cond.value = 0
    · rw [if_neg (by simpa using hz)]
      rw [hz] at hv
      rw [if_pos (by rw [← hv]; rfl)]
      exact .inr (.inr (.inl ⟨rd.running, rfl, rd.ok, E', rd.ret, rd.sim⟩))
    · rw [if_pos hz]
      have hy : y ≠ 0 := by
        intro e
        rw [e] at hv
        exact hz (BitVec.eq_of_toNat_eq hv)
      rw [if_neg hy]
      exact Outcome.before hon rd.arcs rd.ret (jump_sim (h := h) hP a _ rd.sim rd.ok rd.running (rd.exact hE) hg)
  · rw [if_neg hd]
    by_cases hy : y = 0
    · rw [if_pos hy]
      obtain ⟨es, h1, h2⟩ := (jump_onward P a (fork (forked c2) c2)).queue
      refine .inr (.inr (.inr (.inl ⟨forked c2, ⟨es ++ [forked c2], ?_, by simp⟩, rd.key, rfl, E', c2.nodes, rd.ret, ?_⟩)))
      · rw [h1]
        show es ++ forked c2 :: c2.queue = _
        rw [rd.queue, List.append_assoc]
        rfl
      · exact rd.sim
    · rw [if_neg hy]
      have hon3 : Onward c (fork (forked c2) c2) := hon.trans (fork_plainly _ c2 rfl).on
      exact Outcome.before hon3 rd.arcs rd.ret (jump_sim (c := fork (forked c2) c2) (h := h) hP a rd.sim ⟨rd.ok.nodes, rd.ok.wst, rd.ok.rst⟩ rd.running (rd.exact hE) hg)

/-- `JCN`. -/
theorem opJCN_sim {P : Program} (hP : P.Ok) {cfg : Cfg} {H : Host σ} (c : Run)
    {E : Env} {base : Bool → Byte} {vm : VM} {h : σ} {s' : Sys σ}
    (hsim : Sim E base vm c.stacks c.nodes) (hok : c.Ok) (ht : c.terminated = false)
    (hp : popStack (flagR c) c = realStack (flagR c) c) (hS : Exact c)
    (hvm : operation cfg H .JCN (flag2 c) (flagR c) c.keep c.pc.toNat vm h = .ok s') :
    Outcome P E base c (opJCN P c) s' := by
  have e0 : opJCN P c = jumpConditional P ((popList (flagR c) [flag2 c, false] c).1.getD 1 {})
      ((popList (flagR c) [flag2 c, false] c).1.headD {}) (popList (flagR c) [flag2 c, false] c).2 := by
    unfold opJCN pop
    dsimp only
    rw [flagR_popEx]
    rfl
  rw [e0]
  by_cases hneed : widths [flag2 c, false] ≤ (realStack (flagR c) c).size.toNat
  swap
  · obtain ⟨h1, h2⟩ := popList_short (bs := [flag2 c, false]) ht hok hp (by omega)
    exact .inr (.inl (h1.then (jumpConditional_onward P _ _ _)))
  obtain ⟨E', tk⟩ := take_sim (bs := [flag2 c, false]) hsim hok ht hp hneed (hS _)
  have hon := (popList_plainly (flagR c) [flag2 c, false] c).on
  have rd := tk.ready ht
  have hsh := tk.shorts
  have hgood := tk.good
  have hsm := tk.small
  generalize (popList (flagR c) [flag2 c, false] c).1 = vs at *
  generalize (popList (flagR c) [flag2 c, false] c).2 = c2 at *
  rcases vs with _ | ⟨a, _ | ⟨b, _ | ⟨_, _⟩⟩⟩
  · simp at hsh
  · simp at hsh
  · have ha : a.short = flag2 c := by simp at hsh; exact hsh.1
    have hb : b.short = false := by simp at hsh; exact hsh.2
    cases hgood with
    | cons hg hg' =>
      cases hg' with
      | cons hg2 _ =>
      unfold operation at hvm
      dsimp only at hvm
      rw [show (if flag2 c = true then 2 else 1) = width (flag2 c) from rfl, operandsAt_down] at hvm
      rw [show operandSizes (width (flag2 c)) Op.JCN = [1, width (flag2 c)] from rfl] at hvm
      have hsum : [1, width (flag2 c)].sum = widths [flag2 c, false] := by
        show 1 + (width (flag2 c) + 0) = width (flag2 c) + (1 + 0)
        omega
      rw [hsum] at hvm
      have e1 := (Except.ok.inj hvm).symm
      rw [e1]
      have := jumpConditional_sim (h := h) hP b a rd hon hS hg hg2 (hsm b (by simp))
      rw [width_size ha, rd.pc] at this
      exact this
  · simp at hsh

end Buxn.Chess
