import Verif.Chess.Perform
import Mathlib.Data.List.Forall2
/-!
# C46: one operation that is not a jump, on both sides
-/

namespace Buxn.Chess

open Buxn.VM (Instr Op dispatch VM Host Cfg)
open Buxn.VM.Spec (valueAt operandsAt pushValue ptr stack setPtr Action action operandSizes Sys KeepsStacks operation)

variable {σ : Type}

/-- The VM is where a trace is. -/
structure Here (E : Env) (base : Bool → Byte) (c c' : Run) (s' : Sys σ) : Prop where
  running : c'.terminated = false
  pc : s'.pc = c'.pc.toNat
  ok : c'.Ok
  sim : ∃ E', E'.ret = E.ret ∧ Sim E' base s'.vm c'.stacks c'.nodes

/-- The VM is where a trace that has just been put aside will begin. -/
structure Later (E : Env) (base : Bool → Byte) (c c' : Run) (s' : Sys σ) (e : Entry) : Prop where
  queue : ∃ es, c'.queue = es ++ c.queue ∧ e ∈ es
  key : e.key = c.key
  pc : s'.pc = e.address.toNat
  sim : ∃ E' m, E'.ret = E.ret ∧ Sim E' base s'.vm e.stacks m

theorem popFrom_ret (s : Stack) (b : Bool) (c : Run) (h : (popFrom s b c).1.ret = true) : (top s).ret = true := by
  unfold popFrom popShort popByte at h
  by_contra hc
  revert h
  cases b <;> simp only [Bool.false_eq_true, if_false, if_true] <;> split
  · exact fun h => by cases h
  · split
    · exact hc
    · exact fun h => by cases h
  · exact fun h => by cases h
  · split
    · exact hc
    · exact fun h => by cases h

theorem popList_ret {r b : Bool} {c : Run} (hp : popStack r c = realStack r c)
    (h : ∀ v, (items (realStack r c)).head? = some v → v.ret = false) (hl : (realStack r c).len ≠ 0) :
    ∀ v ∈ (popList r [b] c).1, v.ret = false := by
  intro v hv
  have e : (popList r [b] c).1 = [(popEx b r c).1] := rfl
  rw [e, List.mem_singleton] at hv
  subst hv
  unfold popEx
  split
  · rfl
  · cases hr : (popFrom (popStack r c) b c).1.ret
    · rfl
    · have := popFrom_ret _ _ _ hr
      rw [hp] at this
      rw [h (top (realStack r c)) (by rw [items_pos hl]; rfl)] at this
      cases this

theorem rawPush_describes {E : Env} {r : Bool} {vm : VM} {base : Byte} {s : Stack} {m : Nodes} (hs : s.Ok m)
    (hd : Describes E (stack r vm) base (items s) (ptr r vm)) {v : Value} {x : Nat} (hx : x < 256 ^ v.size)
    (hst : Stands E v x) (hfit : s.size.toNat + v.size ≤ 255) :
    Describes E (stack r (pushValue r v.size x vm)) base (items (rawPush s v)) (ptr r (pushValue r v.size x vm)) := by
  have htot := hs.sound
  unfold Sound at htot
  have hl : s.len.toNat < 255 := by have := hs.sound.len_le; have := size_pos v; omega
  rw [show items (rawPush s v) = v :: items s from items_push hl v _]
  exact hd.push hx hst (by omega)

/-- One operation. -/
theorem opPoly_sim (P : Program) {cfg : Cfg} {H : Host σ} (hk : KeepsStacks H) (op : Op) (hj : isJump op = false) (c : Run)
    {E : Env} {base : Bool → Byte} {vm : VM} {h : σ} {s' : Sys σ}
    (hsim : Sim E base vm c.stacks c.nodes) (hok : c.Ok) (ht : c.terminated = false)
    (hp : popStack (flagR c) c = realStack (flagR c) c) (hS : ∀ v ∈ items (realStack (flagR c) c), Small v)
    (hinc : op = .INC → ∀ v, (items (realStack (flagR c) c)).head? = some v → v.ret = false)
    (hvm : operation cfg H op (flag2 c) (flagR c) c.keep c.pc.toNat vm h = .ok s') :
    (opPoly P op c).wrapped = true ∨ (opPoly P op c).terminated = true ∨ Here E base c (opPoly P op c) s' ∨
      ∃ e, Later E base c (opPoly P op c) s' e ∧ (opPoly P op c).terminated = false := by
  by_cases hneed : (operandSizes (width (flag2 c)) op).sum ≤ (realStack (flagR c) c).size.toNat
  swap
  · exact .inr (.inl (opPoly_underflow P op c hj hok ht hp (by omega)).1)
  have hneed' : widths (operands (flag2 c) op) ≤ (realStack (flagR c) c).size.toNat := by rw [widths_operands]; exact hneed
  obtain ⟨E', tk⟩ := take_sim (bs := operands (flag2 c) op) hsim hok ht hp hneed' hS
  have hinc' : op = .INC → ∀ v ∈ (popList (flagR c) (operands (flag2 c) op) c).1, v.ret = false := by
    intro e
    have hl : (realStack (flagR c) c).len ≠ 0 := by
      refine len_ne_zero (hok.real (flagR c)).sound ?_
      subst e
      have : (operandSizes (width (flag2 c)) .INC).sum = width (flag2 c) := by simp [operandSizes]
      rw [this] at hneed
      have : 1 ≤ width (flag2 c) := by cases flag2 c <;> decide
      omega
    subst e
    exact popList_ret hp (hinc rfl) hl
  rw [opPoly_shape P op c hj]
  generalize hvs : (popList (flagR c) (operands (flag2 c) op) c).1 = vs at *
  generalize hc2 : (popList (flagR c) (operands (flag2 c) op) c).2 = c2 at *
  -- the VM
  unfold operation at hvm
  dsimp only at hvm
  rw [show (if flag2 c = true then 2 else 1) = width (flag2 c) from rfl, operandsAt_down, ← operands_sizes] at hvm
  have hops := answers E' P op hj (flag2 c) c.pc c.pc.toNat vs _ tk.shorts tk.good tk.small hinc'
  have hxl : (readDown (stack (flagR c) vm) (ptr (flagR c) vm) ((operands (flag2 c) op).map width)).length = vs.length :=
    tk.good.length_eq.symm
  generalize hxs : readDown (stack (flagR c) vm) (ptr (flagR c) vm) ((operands (flag2 c) op).map width) = xs at *
  have hsim2 := tk.sim
  rw [widths_operands] at hsim2
  generalize hvm1 : (if c.keep = true then vm else setPtr (flagR c) (ptr (flagR c) vm -
    BitVec.ofNat 8 (operandSizes (width (flag2 c)) op).sum) vm) = vm1 at *
  obtain ⟨hpc, hres⟩ := perform_answers hk hops hvm
  have hdest := action_dest (width (flag2 c)) c.pc.toNat op xs.reverse (flagR c) (by
    intro e
    have hl := congrArg List.length tk.shorts
    rw [List.length_map] at hl
    rw [List.length_reverse, hxl, hl]
    subst e; rfl)
  -- the notes
  obtain ⟨sp, mp, hform⟩ := tk.form
  have hflag2 : flagR c2 = flagR c := by rw [hform]; exact flagR_setPop _ _ _
  have ht2 : c2.terminated = false := by rw [hform, setPop_terminated]; exact ht
  have hk2 : c2.key = c.key ∧ c2.pc = c.pc ∧ c2.queue = c.queue := by
    rw [hform]; exact ⟨setPop_key _ _ _, by simp, setPop_queue _ _ _⟩
  have hnote := (note_noted P op vs c2).1
  have hst3 : (note P op vs c2).stacks = c2.stacks := by funext r; exact hnote.real r
  have hok3 : (note P op vs c2).Ok := ⟨by rw [hnote.nodes]; exact tk.ok.nodes, by rw [hnote.nodes, hnote.wst]; exact tk.ok.wst,
    by rw [hnote.nodes, hnote.rst]; exact tk.ok.rst⟩
  have ht3 : (note P op vs c2).terminated = false := by rw [hnote.terminated]; exact ht2
  have htidy := results_tidy P (flag2 c) c.pc op vs c2.nodes.fresh tk.tidy
  have halive := results_alive P (flag2 c) c.pc op vs c2.nodes tk.alive
  have hpc3 : (note P op vs c2).pc = c.pc := by rw [hnote.eq]; exact hk2.2.1
  have hcases := pushAll_cases (dest op (flagR c)) (results P (flag2 c) c.pc op vs) (note P op vs c2) ht3 hok3.nodes
    (hok3.real _) (by rw [hnote.nodes]; exact htidy)
  rcases hcases with hfit | hw | hterm
  swap
  · exact .inl hw
  swap
  · exact .inr (.inl hterm)
  obtain ⟨s4, e4, h4, h5⟩ := pushAll_ok (dest op (flagR c)) (results P (flag2 c) c.pc op vs) (note P op vs c2) ht3 hok3.nodes
    (hok3.real _) (by rw [hnote.nodes]; exact htidy) hfit
  have ht4 : (pushAll (dest op (flagR c)) (results P (flag2 c) c.pc op vs) (note P op vs c2)).terminated = false := by
    rw [e4, setReal_terminated]; exact ht3
  rcases hres with ⟨vm2, ys, a1, a2, a3, a4⟩ | ⟨b1, b2, b3, b4⟩
  · right; right; left
    refine ⟨ht4, ?_, ?_, E', tk.ret, ?_⟩
    · rw [hpc, e4, setReal_pc, hpc3]
    · rw [e4]
      refine Run.Ok.of_real (r := dest op (flagR c)) ?_ ?_ ?_
      · rw [setReal_nodes]; exact hok3.nodes
      · rw [setReal_nodes, setReal_realStack]; exact h4
      · rw [setReal_nodes, setReal_other]; exact hok3.real _
    · rw [a3, hdest]
      refine pushAll_sim (dest op (flagR c)) E' base (results P (flag2 c) c.pc op vs) ys vm2 (note P op vs c2) ?_ hok3 ht3
        (by rw [hnote.nodes]; exact htidy) (by rw [hnote.nodes]; exact halive) a4 hfit
      rw [hst3, hnote.nodes]
      exact hsim2.congr a1 a2
  · obtain ⟨hcmp, hbr⟩ := note_forks P op (flag2 c) _ _ _ vs _ c2 tk.shorts b2 b3
    rw [hbr] at ht4 ⊢
    have hqueue : (pushAll (dest op (flagR c)) (results P (flag2 c) c.pc op vs) (branch c2)).queue = branchEntry c2 :: c.queue := by
      rw [← hbr, e4, setReal_queue, hbr, branch_eq]
      show branchEntry c2 :: c2.queue = _
      rw [hk2.2.2]
    right; right; right
    refine ⟨branchEntry c2, ⟨⟨[_], hqueue, List.mem_singleton.mpr rfl⟩, by rw [(branchEntry_key c2).1, hk2.1], by rw [hpc, (branchEntry_key c2).2, hk2.2.1],
      E', c2.nodes, tk.ret, ?_⟩, ht4⟩
    have hne : op ≠ .STH := by intro e; rw [e] at hcmp; cases hcmp
    have hd : dest op (flagR c) = flagR c := by unfold dest; rw [if_neg hne]
    rw [hd, b1, hnote.real] at hfit
    have hfit' : (realStack (flagR c) c2).size.toNat + (truth false).size ≤ 255 := hfit
    have hpush := rawPush_describes (v := truth false) (x := 0) (tk.ok.real (flagR c)) (hsim2.cells (flagR c)) (by decide)
      (.of_const _ rfl rfl rfl rfl) hfit'
    have hstk : ∀ r', (branchEntry c2).stacks r' = if r' = flagR c then rawPush (realStack (flagR c) c2) (truth false)
        else realStack r' c2 := by
      intro r'
      unfold branchEntry Entry.stacks
      rw [hflag2]
      cases flagR c <;> cases r' <;> rfl
    refine ⟨hsim2.meaning, ?_, ?_⟩
    · intro r'
      rw [hstk, b4]
      by_cases e : r' = flagR c
      · rw [if_pos e, e]; exact hpush
      · rw [if_neg e]
        have e : r' = !flagR c := by revert e; cases flagR c <;> cases r' <;> simp
        rw [e]
        obtain ⟨h1, h2⟩ := Buxn.VM.pushValue_other (flagR c) 1 0 vm1
        rw [h1, h2]
        exact hsim2.cells (!flagR c)
    · intro r'
      rw [hstk]
      by_cases e : r' = flagR c
      · rw [if_pos e]
        have hl : (realStack (flagR c) c2).len.toNat < 255 := by
          have := (tk.ok.real (flagR c)).sound.len_le
          have : (truth false).size = 1 := rfl
          omega
        rw [show items (rawPush (realStack (flagR c) c2) (truth false)) = truth false :: items (realStack (flagR c) c2) from
          items_push hl _ _]
        intro v hv
        rcases List.mem_cons.mp hv with e | hv
        · rw [e]; exact .whole _ rfl rfl
        · exact hsim2.alive (flagR c) v hv
      · rw [if_neg e]; exact hsim2.alive r'

end Buxn.Chess
