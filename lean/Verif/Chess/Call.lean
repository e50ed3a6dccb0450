import Verif.Chess.C46
/-!
# C46: calling a routine that has a signature

The checker does not look into such a routine: it takes the declared inputs off the stacks, puts the declared outputs
there and goes on behind the call (`buxn_chess_short_circuit`). Here: when the routine does what its signature says,
the state the checker goes on with describes the VM after the return.
-/

namespace Buxn.Chess

open Buxn.VM (Instr Op dispatch VM Host Cfg)
open Buxn.VM.Spec (valueAt operandsAt pushValue ptr stack setPtr Sys)

variable {σ : Type}

/-- What a routine takes from a stack. -/
def Sig.ins (s : Sig) (r : Bool) : List Value := if r then s.rstIn else s.wstIn

/-- The number of bytes of a stack that belong to a routine when it is entered: its inputs, and the return address. -/
def Sig.load (s : Sig) (r : Bool) : Nat := total (s.ins r) + if r = true ∧ s.kind = .subroutine then 2 else 0

/-! ## Taking the inputs -/

theorem checkValue_keeps (d : Direction) (want got : Value) (c : Run) :
    (∀ r, realStack r (checkValue d want got c) = realStack r c) ∧ (checkValue d want got c).nodes = c.nodes ∧
      (checkValue d want got c).pc = c.pc := by
  unfold checkValue
  refine ⟨fun r => ?_, ?_, ?_⟩
  · cases r <;> (dsimp only; split <;> split <;> split <;> first | rfl | (split <;> rfl))
  · dsimp only; split <;> split <;> split <;> first | rfl | (split <;> rfl)
  · dsimp only; split <;> split <;> split <;> first | rfl | (split <;> rfl)

/-- What popping bytes off one stack leaves. -/
structure Less (r : Bool) (n : Nat) (c c' : Run) : Prop where
  nodes : c'.nodes.Ok
  stack : (realStack r c').Ok c'.nodes
  size : (realStack r c').size.toNat + n = (realStack r c).size.toNat
  other : realStack (!r) c' = realStack (!r) c
  fresh : c.nodes.fresh ≤ c'.nodes.fresh
  pc : c'.pc = c.pc

theorem checkValues_sim (d : Direction) (r : Bool) (stk : Byte → Byte) (base : Byte) : ∀ (vs : List Value) (c : Run) (E : Env),
    c.nodes.Ok → (realStack r c).Ok c.nodes → total vs ≤ (realStack r c).size.toNat →
    Meaning E c.nodes → (∀ v ∈ items (realStack r c), Alive c.nodes v) → (∀ v ∈ items (realStack r c), Small v) →
    ∀ q, Describes E stk base (items (realStack r c)) q →
    ∃ E' ps, total ps = total vs ∧
      PopSim E c.nodes stk base q ps (realStack r (checkValues d r vs c)) (checkValues d r vs c).nodes E' ∧
      Less r (total vs) c (checkValues d r vs c)
  | [], c, E, hm, hs, _, hM, hA, hS, q, hD =>
    ⟨E, [], rfl, ⟨.refl _ _, hM, hD, hA, hS⟩, ⟨hm, hs, rfl, rfl, le_refl _, rfl⟩⟩
  | v :: vs, c, E, hm, hs, hw, hM, hA, hS, q, hD => by
    rw [total_cons] at hw
    have hw1 : width v.short ≤ (realStack r c).size.toNat := by rw [← size_width]; omega
    obtain ⟨x, s1, m1, e1, p1⟩ := popFrom_ok (short := v.short) hm hs hw1
    obtain ⟨E1, q1⟩ := popFrom_sim (b := v.short) hm hs hw1 hM hA hS hD
    rw [e1] at q1
    dsimp only at q1
    have hx : x.size = v.size := by rw [size_width, size_width, p1.short_eq]
    have hsz := p1.size
    have hsub : ∀ {w}, w ∈ items s1 → w ∈ [x] ++ items s1 := fun h => List.mem_append_right _ h
    obtain ⟨hc1, hc2⟩ := (show Describes E1 stk base (x :: items s1) q from q1.cells)
    have e2 : checkValues d r (v :: vs) c = checkValues d r vs (checkValue d v x (setReal r s1 { c with nodes := m1 })) := by
      rw [checkValues]
      unfold popReal
      rw [e1]
    rw [e2]
    clear e2
    obtain ⟨k1, k2, k3⟩ := checkValue_keeps d v x (setReal r s1 { c with nodes := m1 })
    have l1 := k1 r
    have l2 := k1 (!r)
    rw [setReal_realStack] at l1
    rw [setReal_other] at l2
    rw [setReal_nodes] at k2
    rw [setReal_pc] at k3
    generalize checkValue d v x (setReal r s1 { c with nodes := m1 }) = c1 at *
    dsimp only at k2 k3
    have l2 : realStack (!r) c1 = realStack (!r) c := l2.trans (by cases r <;> rfl)
    obtain ⟨E2, ps, h1, q2, ls⟩ := checkValues_sim d r stk base vs c1 E1
      (by rw [k2]; exact p1.nodes) (by rw [k2, l1]; exact p1.stack) (by rw [l1]; omega) (by rw [k2]; exact q1.meaning)
      (by rw [k2, l1]; exact fun w hw => q1.alive w (hsub hw)) (by rw [l1]; exact fun w hw => q1.small w (hsub hw))
      _ (by rw [l1]; exact hc2)
    rw [k2] at q2
    have hav := q1.alive x (by simp)
    refine ⟨E2, x :: ps, by rw [total_cons, total_cons, h1, hx], ⟨q1.grows.trans q2.grows, q2.meaning,
      ⟨hc1.grow q2.grows hav, q2.cells⟩, ?_, ?_⟩, ⟨ls.nodes, ls.stack, ?_, ls.other.trans l2, ?_, ls.pc.trans k3⟩⟩
    · intro w hw
      rcases List.mem_cons.mp hw with e | hw
      · rw [e]; exact hav.grow q2.grows
      · exact q2.alive w hw
    · intro w hw
      rcases List.mem_cons.mp hw with e | hw
      · rw [e]; exact q1.small x (by simp)
      · exact q2.small w hw
    · have := ls.size
      rw [l1] at this
      rw [total_cons]
      omega
    · have := ls.fresh
      rw [k2] at this
      exact Nat.le_trans p1.fresh this

/-- Some bytes have been taken off one stack. -/
structure Consumed (E E' : Env) (base : Bool → Byte) (vm : VM) (r : Bool) (n : Nat) (c c' : Run) : Prop where
  ret : E'.ret = E.ret
  sim : Sim E' base (setPtr r (ptr r vm - BitVec.ofNat 8 n) vm) c'.stacks c'.nodes
  ok : c'.Ok
  exact : Exact c'
  running : c'.terminated = false
  pc : c'.pc = c.pc
  key : c'.key = c.key
  size : (realStack r c').size.toNat + n = (realStack r c).size.toNat
  other : realStack (!r) c' = realStack (!r) c

theorem not_bool {r r' : Bool} (h : r' ≠ r) : r' = !r := by cases r <;> cases r' <;> simp_all

theorem ptr_setPtr_other (r : Bool) (p : Byte) (vm : VM) : ptr (!r) (setPtr r p vm) = ptr (!r) vm := by cases r <;> rfl

theorem consumed_of {E E' : Env} {base : Bool → Byte} {vm : VM} {r : Bool} {n : Nat} {c c' : Run} {ps : List Value}
    (hsim : Sim E base vm c.stacks c.nodes) (hok : c.Ok) (hE : Exact c) (hq : PopSim E c.nodes (stack r vm) (base r) (ptr r vm) ps
      (realStack r c') c'.nodes E') (hn : total ps = n) (hl : Less r n c c') (ht : c'.terminated = false) (hk : c'.key = c.key) :
    Consumed E E' base vm r n c c' := by
  have g2 := hq.cells.split.2
  rw [hn] at g2
  have h0 := hsim.grow hq.grows hq.meaning
  refine ⟨hq.grows.ret, ⟨hq.meaning, ?_, ?_⟩, ?_, ?_, ht, hl.pc, hk, hl.size, hl.other⟩
  · intro r'
    rw [Buxn.VM.stack_setPtr]
    by_cases e : r' = r
    · subst e
      rw [Buxn.VM.ptr_setPtr]
      exact g2
    · have e := not_bool e
      subst e
      rw [ptr_setPtr_other]
      show Describes E' _ _ (items (realStack (!r) _)) _
      rw [hl.other]
      exact h0.cells (!r)
  · intro r'
    by_cases e : r' = r
    · subst e
      exact fun v hv => hq.alive v (List.mem_append_right _ hv)
    · have e := not_bool e
      subst e
      show ∀ v ∈ items (realStack (!r) _), _
      rw [hl.other]
      exact h0.alive (!r)
  · exact Run.Ok.of_real hl.nodes r hl.stack (by rw [hl.other]; exact (hok.real (!r)).mono hl.fresh)
  · intro r' v hv
    by_cases e : r' = r
    · subst e
      exact hq.small v (List.mem_append_right _ hv)
    · have e := not_bool e
      subst e
      rw [hl.other] at hv
      exact hE _ v hv

/-- Taking declared inputs. -/
theorem checkStack_sim (r : Bool) {sig : List Value} (hs : PlainArgs sig) (c : Run) {E : Env} {base : Bool → Byte} {vm : VM}
    (hsim : Sim E base vm c.stacks c.nodes) (hok : c.Ok) (ht : c.terminated = false) (hE : Exact c)
    (hrep : ¬ Reports c (checkStack .into r sig c)) :
    ∃ E', Consumed E E' base vm r (total sig) c (checkStack .into r sig c) := by
  have hon := checkStack_plainly .into r sig c
  have hterm : (checkStack .into r sig c).terminated = false := by
    cases h : (checkStack .into r sig c).terminated
    · rfl
    · exact absurd (hon.reports ht h) hrep
  have hkey := hon.on.key
  by_cases hfit : total sig ≤ (realStack r c).size.toNat
  · have e : checkStack .into r sig c = checkValues .into r sig.reverse c := by
      unfold checkStack
      dsimp only
      rw [sigSize_total hs.1]
      simp only [decide_eq_true hfit, if_true, ht, Bool.false_eq_true, if_false]
    rw [e] at hterm hkey ⊢
    obtain ⟨E', ps, h1, h2, h3⟩ := checkValues_sim .into r (stack r vm) (base r) sig.reverse c E hok.nodes (hok.real r)
      (by rw [total_reverse]; exact hfit) hsim.meaning (hsim.alive r) (hE r) (ptr r vm) (hsim.cells r)
    rw [total_reverse] at h1 h3
    exact ⟨E', consumed_of hsim hok hE h2 h1 h3 hterm hkey⟩
  · exfalso
    apply hrep
    have e : checkStack .into r sig c = error .sizeMismatch c := by
      unfold checkStack
      dsimp only
      rw [sigSize_total hs.1]
      simp only [decide_eq_false hfit, Bool.false_eq_true, if_false]
      rw [if_pos (show (error .sizeMismatch c).terminated = true from rfl)]
    rw [e]
    exact error_reports _ c

/-! ## Putting the outputs -/

/-- Declared outputs say nothing about their numbers. -/
theorem Plain.stands {v : Value} (h : Plain v) (E : Env) (x : Nat) : Stands E v x :=
  .vague E x h.1 h.2.2.1 h.2.2.2.2.1 h.2.2.2.2.2.1

theorem describes_plain {E : Env} {stk : Byte → Byte} {base : Byte} {ws : List Value} : ∀ {vs : List Value} {p : Byte},
    (∀ v ∈ vs, Plain v) → Describes E stk base ws (p - BitVec.ofNat 8 (total vs)) → Describes E stk base (vs ++ ws) p
  | [], p, _, h => by rw [total_nil] at h; simpa using h
  | v :: vs, p, hv, h => by
    refine ⟨(hv v List.mem_cons_self).stands E _, describes_plain (fun w hw => hv w (List.mem_cons_of_mem _ hw)) ?_⟩
    rw [byte_sub_sub]
    rw [total_cons] at h
    exact h

theorem pushAll_whole (r : Bool) : ∀ (vs : List Value) (c : Run), (∀ v ∈ vs, Plain v) → c.Ok → c.terminated = false →
    (realStack r c).size.toNat + total vs ≤ 255 → ∃ s, pushAll r vs c = setReal r s c ∧ items s = vs.reverse ++ items (realStack r c) ∧
      s.Ok c.nodes ∧ s.size.toNat = (realStack r c).size.toNat + total vs
  | [], c, _, hok, _, _ => ⟨realStack r c, (setReal_self r c).symm, rfl, hok.real r, rfl⟩
  | v :: vs, c, hv, hok, ht, hfit => by
    rw [total_cons] at hfit
    have hp := hv v List.mem_cons_self
    have e1 := pushEx_whole (r := r) (v := v) ht (by omega) hp.2.2.2.2.2.1
    have p1 := rawPush_ok (hok.real r) (hp.tidy c.nodes.fresh) (by omega)
    have hl : (realStack r c).len.toNat < 255 := by
      have := (hok.real r).sound.len_le
      have := size_pos v
      omega
    have hi : items (rawPush (realStack r c) v) = v :: items (realStack r c) := items_push hl v _
    have hn : (setReal r (rawPush (realStack r c) v) c).nodes = c.nodes := setReal_nodes _ _ _
    have hsz := p1.size
    have hok1 : (setReal r (rawPush (realStack r c) v) c).Ok :=
      Run.Ok.of_real (by rw [hn]; exact hok.nodes) r (by rw [setReal_realStack, hn]; exact p1.stack)
        (by rw [setReal_other, hn]; exact hok.real (!r))
    obtain ⟨s, h1, h2, h3, h4⟩ := pushAll_whole r vs (setReal r (rawPush (realStack r c) v) c)
      (fun w hw => hv w (List.mem_cons_of_mem _ hw)) hok1 (by rw [setReal_terminated]; exact ht)
      (by rw [setReal_realStack, hsz]; omega)
    rw [setReal_realStack] at h2 h4
    rw [hn] at h3
    refine ⟨s, ?_, ?_, h3, ?_⟩
    · rw [pushAll_cons, e1, h1, setReal_setReal]
    · rw [h2, hi, List.reverse_cons, List.append_assoc]; rfl
    · rw [h4, hsz, total_cons]; omega

/-- Declared outputs either fit or are reported, unless they fill the stack to the brim. -/
theorem pushAll_fits (r : Bool) (vs : List Value) (c : Run) (hv : ∀ v ∈ vs, Plain v) (hok : c.Ok) (ht : c.terminated = false)
    (hrep : ¬ Reports c (pushAll r vs c)) (hw : (pushAll r vs c).wrapped = false) : (realStack r c).size.toNat + total vs ≤ 255 := by
  rcases pushAll_cases r vs c ht hok.nodes (hok.real r) (fun v h => (hv v h).tidy _) with h | h | h
  · exact h
  · rw [hw] at h; cases h
  · exact absurd ((pushAll_plainly r vs c).reports ht h) hrep

/-! ## The whole call -/

/-- Where the stack begins that belongs to a routine which is being entered. -/
def bottom (P : Program) (b : Short) (vm : VM) (r : Bool) : Byte := ptr r vm - BitVec.ofNat 8 ((sigAt P b).load r)

/-- Where the routine will return to. -/
def returnTo (P : Program) (b : Short) (vm : VM) : Nat := valueAt (stack true vm) (bottom P b vm true) 2

/-- The VM after a routine has returned: the outputs are where the inputs were, what is below is as it was. -/
structure Restored (P : Program) (b : Short) (vm : VM) (below : Bool → Nat) (vm' : VM) : Prop where
  ptr : ∀ r, ptr r vm' = bottom P b vm r + BitVec.ofNat 8 (total ((sigAt P b).outs r))
  cells : ∀ r j, 1 ≤ j → j ≤ below r → stack r vm' (bottom P b vm r - BitVec.ofNat 8 j) = stack r vm (bottom P b vm r - BitVec.ofNat 8 j)

/-- The caller goes on when the callee has returned. -/
def GoesOn (P : Program) (E : Env) (base : Bool → Byte) (vm : VM) (b : Short) (c1 c2 : Run) : Prop :=
  c2.terminated = false ∧ c2.pc.toNat = returnTo P b vm ∧
    ∀ vm', Restored P b vm (fun r => total (items (c1.stacks r)) - (sigAt P b).load r) vm' →
      c2.Ok ∧ ∃ E', E'.ret = E.ret ∧ Sim E' base vm' c2.stacks c2.nodes

/-- The callee returns for the caller. -/
def TailCall (P : Program) (E : Env) (base : Bool → Byte) (vm : VM) (b : Short) (c1 : Run) : Prop :=
  returnTo P b vm = E.ret ∧ (sigAt P c1.key).kind = .subroutine ∧
    ∀ r, bottom P b vm r + BitVec.ofNat 8 (total ((sigAt P b).outs r)) = base r + BitVec.ofNat 8 (total ((sigAt P c1.key).outs r))

/-- What has become of a call. -/
structure Served (P : Program) (E : Env) (base : Bool → Byte) (vm : VM) (b : Short) (c1 c2 : Run) : Prop where
  fits : ∀ r, (sigAt P b).load r ≤ total (items (c1.stacks r))
  kind : (sigAt P b).kind = .vector → (sigAt P c1.key).kind = .vector
  halts : (sigAt P b).kind = .vector → ∀ r, bottom P b vm r + BitVec.ofNat 8 (total ((sigAt P b).outs r)) =
    base r + BitVec.ofNat 8 (total ((sigAt P c1.key).outs r))
  back : (sigAt P b).kind = .subroutine → TailCall P E base vm b c1 ∨ GoesOn P E base vm b c1 c2

theorem popShort_plain {s : Stack} {c : Run} (h : Plain (top s)) : (popShort s c).1.const = false ∧ (popShort s c).1.ret = false := by
  unfold popShort
  split
  · exact ⟨rfl, rfl⟩
  · dsimp only
    split
    · exact ⟨h.1, h.2.2.1⟩
    · rename_i h2
      have h1 : (top s).size = 1 := by have := size_pos (top s); have := size_le (top s); omega
      have hz : ¬ s.size.toNat < 1 := by omega
      refine ⟨?_, rfl⟩
      have key : ∀ c, (popByte s c).1 = top s := by
        intro c
        unfold popByte
        rw [if_neg hz]
        dsimp only
        rw [if_pos h1]
      show (Value.const _ && Value.const (popByte s _).1) = false
      rw [key, h.1, Bool.and_false]

theorem below_bottom (p : Byte) (a b : Nat) : p - BitVec.ofNat 8 (a + b) = p - BitVec.ofNat 8 a - BitVec.ofNat 8 b := (byte_sub_sub p a b).symm

theorem shortCircuit_sim {P : Program} (hP : P.Ok) (b : Short) (c1 : Run) {E : Env} {base : Bool → Byte} {vm : VM}
    (hsim : Sim E base vm c1.stacks c1.nodes) (hok : c1.Ok) (ht : c1.terminated = false) (hE : Exact c1)
    (hrep : ¬ Reports c1 (shortCircuit P b c1)) (hw : (shortCircuit P b c1).wrapped = false) :
    Served P E base vm b c1 (shortCircuit P b c1) := by
  have hS := sigAt_ok hP b
  by_cases hk : (sigAt P c1.key).kind = .subroutine ∧ (sigAt P b).kind = .vector
  · exfalso
    apply hrep
    unfold shortCircuit
    dsimp only
    rw [if_pos hk]
    exact error_reports _ _
  have hkind : (sigAt P b).kind = .vector → (sigAt P c1.key).kind = .vector := by
    intro h
    cases hx : (sigAt P c1.key).kind
    · rfl
    · exact absurd ⟨hx, h⟩ hk
  -- the stages
  have hfin : ∀ cD : Run, cD = pushAll true (sigAt P b).rstOut (pushAll false (sigAt P b).wstOut
      (checkStack .into true (sigAt P b).rstIn (checkStack .into false (sigAt P b).wstIn c1))) →
      Onward cD (shortCircuit P b c1) ∧ shortCircuit P b c1 =
        (if (sigAt P b).kind = .subroutine then
          if 2 ≤ cD.rst.size.toNat then
            if (absJmp P (popReal true true cD).1 (popReal true true cD).2).1 = .returned then
              setTerminatedAt (decide (b ≠ (absJmp P (popReal true true cD).1 (popReal true true cD).2).2.key))
                (absJmp P (popReal true true cD).1 (popReal true true cD).2).2
            else (absJmp P (popReal true true cD).1 (popReal true true cD).2).2
          else error .noReturnAddress cD
        else setTerminatedAt (decide (b ≠ cD.key)) (terminate (checkReturn P cD))) := by
    rintro cD rfl
    refine ⟨?_, by unfold shortCircuit; dsimp only; rw [if_neg hk]⟩
    unfold shortCircuit
    dsimp only
    rw [if_neg hk]
    refine .ite (.ite ?_ (error_plainly _ _).on) (((checkReturn_plainly P _).on.trans (terminate_onward _)).trans (setTerminatedAt_plainly _ _).on)
    exact .ite (((popReal_plainly _ _ _).on.trans (absJmp_onward P _ _)).trans (setTerminatedAt_plainly _ _).on)
      ((popReal_plainly _ _ _).on.trans (absJmp_onward P _ _))
  have hAon := (checkStack_plainly .into false (sigAt P b).wstIn c1).on
  have hBon := (checkStack_plainly .into true (sigAt P b).rstIn (checkStack .into false (sigAt P b).wstIn c1)).on
  have hCon := (pushAll_plainly false (sigAt P b).wstOut (checkStack .into true (sigAt P b).rstIn (checkStack .into false (sigAt P b).wstIn c1))).on
  have hDon := (pushAll_plainly true (sigAt P b).rstOut (pushAll false (sigAt P b).wstOut
    (checkStack .into true (sigAt P b).rstIn (checkStack .into false (sigAt P b).wstIn c1)))).on
  have hF := (hfin _ rfl).1
  have hEq := (hfin _ rfl).2
  clear hfin
  obtain ⟨EA, cA⟩ := checkStack_sim false hS.wstIn c1 hsim hok ht hE
    (fun h => hrep (h.then (((hBon.trans hCon).trans hDon).trans hF)))
  generalize checkStack .into false (sigAt P b).wstIn c1 = c_A at *
  obtain ⟨EB, cB⟩ := checkStack_sim true hS.rstIn c_A cA.sim cA.ok cA.running cA.exact
    (fun h => hrep ((h.after hAon).then ((hCon.trans hDon).trans hF)))
  generalize checkStack .into true (sigAt P b).rstIn c_A = c_B at *
  have hABon := hAon.trans hBon
  have hCfit := pushAll_fits false _ c_B hS.wstOut.2 cB.ok cB.running (fun h => hrep ((h.after hABon).then (hDon.trans hF))) (by
    cases h : (pushAll false (sigAt P b).wstOut c_B).wrapped
    · rfl
    · rw [(hDon.trans hF).wrapped h] at hw; cases hw)
  obtain ⟨sC, eC, iC, okC, szC⟩ := pushAll_whole false _ c_B hS.wstOut.2 cB.ok cB.running hCfit
  have hsA := cA.size
  have hsB := cB.size
  have oA : realStack true c_A = realStack true c1 := cA.other
  have oB : realStack false c_B = realStack false c_A := cB.other
  have fitW : total (sigAt P b).wstIn ≤ total (items (c1.stacks false)) := by
    have := hok.wst.sound
    unfold Sound at this
    show _ ≤ total (items c1.wst)
    have hsA : (realStack false c_A).size.toNat + total (sigAt P b).wstIn = c1.wst.size.toNat := hsA
    omega
  have fitR : total (sigAt P b).rstIn + (realStack true c_B).size.toNat = total (items (c1.stacks true)) := by
    have := hok.rst.sound
    unfold Sound at this
    rw [oA] at hsB
    have hsB : (realStack true c_B).size.toNat + total (sigAt P b).rstIn = c1.rst.size.toNat := hsB
    show _ = total (items c1.rst)
    omega
  rw [eC] at hEq hF hDon hCon
  have hterm3 : (setReal false sC c_B).terminated = false := by rw [setReal_terminated]; exact cB.running
  have hn3 : (setReal false sC c_B).nodes = c_B.nodes := setReal_nodes _ _ _
  have ok3 : (setReal false sC c_B).Ok := Run.Ok.of_real (r := false) (by rw [hn3]; exact cB.ok.nodes) (by rw [setReal_realStack, hn3]; exact okC)
    (by rw [setReal_other, hn3]; exact cB.ok.real true)
  have hr3 : realStack true (setReal false sC c_B) = realStack true c_B := rfl
  have hABCon := hABon.trans hCon
  have hDfit := pushAll_fits true _ (setReal false sC c_B) hS.rstOut.2 ok3 hterm3 (fun h => hrep ((h.after hABCon).then hF)) (by
    cases h : (pushAll true (sigAt P b).rstOut (setReal false sC c_B)).wrapped
    · rfl
    · rw [hF.wrapped h] at hw; cases hw)
  obtain ⟨sD, eD, iD, okD, szD⟩ := pushAll_whole true _ (setReal false sC c_B) hS.rstOut.2 ok3 hterm3 hDfit
  rw [eD] at hEq hF hDon
  rw [hr3] at iD szD
  rw [hn3] at okD
  generalize hcD : setReal true sD (setReal false sC c_B) = c_D at *
  have hallon := hABCon.trans hDon
  have hrD : realStack true c_D = sD := by rw [← hcD, setReal_realStack]
  have hwD : realStack false c_D = sC := by rw [← hcD]; rfl
  have hnD : c_D.nodes = c_B.nodes := by rw [← hcD, setReal_nodes, hn3]
  have htD : c_D.terminated = false := by rw [← hcD, setReal_terminated]; exact hterm3
  have hkD : c_D.key = c1.key := hallon.key
  by_cases hsub : (sigAt P b).kind = .subroutine
  swap
  · rw [if_neg hsub] at hEq
    refine ⟨?_, hkind, fun _ => ?_, fun h => absurd h hsub⟩
    · intro r
      unfold Sig.load
      rw [if_neg (fun h => hsub h.2)]
      cases r
      · exact fitW
      · show total (sigAt P b).rstIn ≤ _
        omega
    · rcases endCheck (P := P) c_D with h1 | h1 | ⟨h1, h2⟩
      · exfalso
        apply hrep
        rw [hEq]
        exact (h1.then (setTerminatedAt_plainly _ _).on).after hallon
      · rw [htD] at h1; cases h1
      · rw [hkD] at h1 h2
        have hSk := sigAt_ok hP c1.key
        have hb : ∀ r, bottom P b vm r = ptr r (setPtr true (ptr true (setPtr false (ptr false vm - BitVec.ofNat 8 (total (sigAt P b).wstIn)) vm) -
            BitVec.ofNat 8 (total (sigAt P b).rstIn)) (setPtr false (ptr false vm - BitVec.ofNat 8 (total (sigAt P b).wstIn)) vm)) := by
          intro r
          unfold bottom Sig.load
          rw [if_neg (fun h => hsub h.2)]
          cases r <;> rfl
        intro r
        rw [hb, (cB.sim.cells r).ptr, Buxn.VM.add_ofNat]
        congr 2
        cases r
        · show total (items (realStack false c_B)) + total (sigAt P b).wstOut = total (sigAt P c1.key).wstOut
          rw [← sigSize_total hSk.wstOut.1, ← h1, show c_D.wst = sC from hwD, szC]
          have := (cB.ok.real false).sound
          unfold Sound at this
          omega
        · show total (items (realStack true c_B)) + total (sigAt P b).rstOut = total (sigAt P c1.key).rstOut
          rw [← sigSize_total hSk.rstOut.1, ← h2, show c_D.rst = sD from hrD, szD]
          have := (cB.ok.real true).sound
          unfold Sound at this
          omega
  rw [if_pos hsub] at hEq
  by_cases h2 : 2 ≤ c_D.rst.size.toNat
  swap
  · rw [if_neg h2] at hEq
    exact absurd ((error_reports _ c_D).after hallon) (by rw [hEq] at hrep; exact hrep)
  rw [if_pos h2] at hEq
  -- no outputs on the return stack
  have hnoOut : (sigAt P b).rstOut = [] := by
    by_contra hne
    have htop : Plain (top sD) := by
      have hl : sD.len ≠ 0 := len_ne_zero okD.sound (by
        have : sD = c_D.rst := hrD.symm
        rw [this]; omega)
      have hi := items_pos hl
      rw [iD] at hi
      have : (sigAt P b).rstOut.reverse ≠ [] := by simpa using hne
      rcases hr : (sigAt P b).rstOut.reverse with _ | ⟨v, vs⟩
      · exact absurd hr this
      · rw [hr] at hi
        have e : v = top sD := by injection hi
        rw [← e]
        exact hS.rstOut.2 v (by rw [← List.mem_reverse, hr]; exact List.mem_cons_self)
    have hpop := popShort_plain (c := c_D) htop
    have e1 : (popReal true true c_D).1 = (popShort sD c_D).1 := by unfold popReal; rw [hrD]; rfl
    rw [← e1] at hpop
    apply hrep
    rw [hEq]
    have e2 : absJmp P (popReal true true c_D).1 (popReal true true c_D).2 = (.proceed, error .unknownAddress (popReal true true c_D).2) := by
      unfold absJmp
      rw [if_neg (by rw [hpop.2]; simp), if_neg (by rw [hpop.1]; simp)]
    rw [e2, if_neg (by simp)]
    exact (error_reports _ _).after (hallon.trans (popReal_plainly _ _ _).on)
  rw [hnoOut] at iD szD
  have iD : items sD = items (realStack true c_B) := iD
  have szD : sD.size.toNat = (realStack true c_B).size.toNat := by rw [szD, total_nil]; rfl
  have h2' : 2 ≤ sD.size.toNat := by rw [show sD = c_D.rst from hrD.symm]; exact h2
  -- popping the return address
  obtain ⟨a, s1, m1, e1, p1⟩ := popFrom_ok (s := sD) (short := true) (c := c_D) (by rw [hnD]; exact cB.ok.nodes) (by rw [hnD]; exact okD) h2'
  have hcellsB := cB.sim.cells true
  obtain ⟨E2, q1⟩ := popFrom_sim (s := sD) (b := true) (c := c_D) (E := EB) (by rw [hnD]; exact cB.ok.nodes) (by rw [hnD]; exact okD) h2'
    (by rw [hnD]; exact cB.sim.meaning) (by rw [hnD, iD]; exact cB.sim.alive true) (by rw [iD]; exact cB.exact true)
    (by rw [iD]; exact hcellsB)
  rw [e1] at q1
  dsimp only at q1
  have epop : popReal true true c_D = (a, setReal true s1 { c_D with nodes := m1 }) := by
    unfold popReal
    rw [hrD, e1]
  rw [epop] at hEq
  dsimp only at hEq
  have hav : a.short = true := p1.short_eq
  have haz : a.size = 2 := (size_eq_two a).mpr hav
  obtain ⟨hst, hrest⟩ := (show Describes E2 _ _ (a :: items s1) _ from q1.cells)
  have hptr1 : ptr true (setPtr true (ptr true (setPtr false (ptr false vm - BitVec.ofNat 8 (total (sigAt P b).wstIn)) vm) -
      BitVec.ofNat 8 (total (sigAt P b).rstIn)) (setPtr false (ptr false vm - BitVec.ofNat 8 (total (sigAt P b).wstIn)) vm)) =
      ptr true vm - BitVec.ofNat 8 (total (sigAt P b).rstIn) := rfl
  have hbr : bottom P b vm true = ptr true vm - BitVec.ofNat 8 (total (sigAt P b).rstIn) - BitVec.ofNat 8 2 := by
    unfold bottom Sig.load
    rw [if_pos ⟨rfl, hsub⟩, ← below_bottom]
    rfl
  have hbw : bottom P b vm false = ptr false vm - BitVec.ofNat 8 (total (sigAt P b).wstIn) := by
    unfold bottom Sig.load
    rw [if_neg (fun h => by cases h.1)]
    rfl
  rw [haz, hptr1, ← hbr] at hst hrest
  have hst : Stands E2 a (returnTo P b vm) := hst
  have hret2 : E2.ret = E.ret := q1.grows.ret.trans (cB.ret.trans cA.ret)
  have hgrow := q1.grows
  rw [hnD] at hgrow
  have hloadW : (sigAt P b).load false = total (sigAt P b).wstIn := by
    unfold Sig.load; rw [if_neg (fun h => by cases h.1)]; rfl
  have hloadR : (sigAt P b).load true = total (sigAt P b).rstIn + 2 := by
    unfold Sig.load; rw [if_pos ⟨rfl, hsub⟩]; rfl
  have hfits : ∀ r, (sigAt P b).load r ≤ total (items (c1.stacks r)) := by
    intro r
    cases r
    · rw [hloadW]; exact fitW
    · rw [hloadR]; omega
  have hwcells : Describes E2 (stack false vm) (base false) (items (realStack false c_B)) (bottom P b vm false) := by
    rw [hbw]
    exact (cB.sim.cells false).grow hgrow (cB.sim.alive false)
  have hsz1 := p1.size
  rw [haz] at hsz1
  generalize hc' : setReal true s1 { c_D with nodes := m1 } = c' at *
  have hr' : realStack true c' = s1 := by rw [← hc', setReal_realStack]
  have hw' : realStack false c' = sC := by rw [← hc', ← hwD]; rfl
  have hn' : c'.nodes = m1 := by rw [← hc', setReal_nodes]
  have ht' : c'.terminated = false := by rw [← hc', setReal_terminated]; exact htD
  have hon' : Onward c_D c' := by
    have := (popReal_plainly true true c_D).on
    rw [epop, ] at this
    exact this
  have hk' : c'.key = c1.key := hon'.key.trans hkD
  have hok' : c'.Ok := Run.Ok.of_real (r := true) (by rw [hn']; exact p1.nodes) (by rw [hr', hn']; exact p1.stack)
    (by
      show (realStack false c').Ok _
      rw [hw', hn']
      exact okC.mono (by have := p1.fresh; rw [hnD] at this; exact this))
  refine ⟨hfits, hkind, fun h => (by rw [hsub] at h; cases h), fun _ => ?_⟩
  by_cases hra : (a.address && a.ret) = true
  · left
    have hret := hst.ret (by rw [Bool.and_eq_true] at hra; exact hra.2)
    have eAbs : absJmp P a c' = (.returned, terminate (checkReturn P (setTerminatedAt true
        (if (sigAt P c'.key).kind = .vector then error .returnFromVector c' else c')))) := by
      unfold absJmp; rw [if_pos hra]
    rw [eAbs, if_pos rfl] at hEq
    dsimp only at hEq
    by_cases hv : (sigAt P c'.key).kind = .vector
    · exfalso
      apply hrep
      rw [hEq, if_pos hv]
      exact ((error_reports _ c').then ((((setTerminatedAt_plainly true _).on.trans (checkReturn_plainly P _).on).trans (terminate_onward _)).trans
        (setTerminatedAt_plainly _ _).on)).after (hallon.trans hon')
    rw [if_neg hv] at hEq
    rcases endCheck (P := P) (setTerminatedAt true c') with h1 | h1 | ⟨h1, h2⟩
    · exfalso
      apply hrep
      rw [hEq]
      exact ((h1.after (setTerminatedAt_plainly true c').on).then (setTerminatedAt_plainly _ _).on).after (hallon.trans hon')
    · rw [show (setTerminatedAt true c').terminated = c'.terminated from rfl, ht'] at h1; cases h1
    · have h1 : c'.wst.size = sigSize (sigAt P c'.key).wstOut := h1
      have h2 : c'.rst.size = sigSize (sigAt P c'.key).rstOut := h2
      rw [hk'] at h1 h2 hv
      have hSk := sigAt_ok hP c1.key
      refine ⟨by rw [hret, hret2], ?_, ?_⟩
      · cases hx : (sigAt P c1.key).kind
        · exact absurd hx hv
        · rfl
      · intro r
        cases r
        · show _ + BitVec.ofNat 8 (total (sigAt P b).wstOut) = _ + BitVec.ofNat 8 (total (sigAt P c1.key).wstOut)
          rw [hwcells.ptr, ← sigSize_total hSk.wstOut.1, ← h1, show c'.wst = sC from hw', szC, Buxn.VM.add_ofNat]
          congr 2
          have := (cB.ok.real false).sound
          unfold Sound at this
          omega
        · show _ + BitVec.ofNat 8 (total (sigAt P b).rstOut) = _ + BitVec.ofNat 8 (total (sigAt P c1.key).rstOut)
          rw [hrest.ptr, ← sigSize_total hSk.rstOut.1, ← h2, show c'.rst = s1 from hr', hnoOut, total_nil, Buxn.VM.add_ofNat]
          congr 2
          have := p1.stack.sound
          unfold Sound at this
          omega
  · right
    by_cases hc : a.const = true
    swap
    · exfalso
      apply hrep
      have eAbs : absJmp P a c' = (.proceed, error .unknownAddress c') := by
        unfold absJmp; rw [if_neg hra, if_neg hc]
      rw [hEq, eAbs, if_neg (by simp)]
      exact (error_reports _ _).after (hallon.trans hon')
    have eAbs : absJmp P a c' = (.proceed, { c' with pc := a.value }) := by
      unfold absJmp; rw [if_neg hra, if_pos hc]
    rw [eAbs, if_neg (by simp)] at hEq
    dsimp only at hEq
    rw [hEq]
    have hcv := hst.const hc
    rw [haz, Nat.mod_eq_of_lt (show a.value.toNat < 256 ^ 2 from a.value.isLt)] at hcv
    refine ⟨ht', hcv, fun vm' hre => ⟨⟨hok'.nodes, hok'.wst, hok'.rst⟩, E2, hret2, ?_, ?_, ?_⟩⟩
    · show Meaning E2 c'.nodes
      rw [hn']; exact q1.meaning
    · intro r
      cases r
      · show Describes E2 (stack false vm') (base false) (items (realStack false c')) (ptr false vm')
        rw [hw', iC]
        refine describes_plain (fun v hv => hS.wstOut.2 v (List.mem_reverse.mp hv)) ?_
        rw [total_reverse, hre.ptr false, show (sigAt P b).outs false = (sigAt P b).wstOut from rfl, byte_add_sub]
        refine hwcells.congr ?_
        intro i h1 h2
        refine (hre.cells false i h1 ?_).symm
        rw [hloadW]
        have e1 := (cB.ok.real false).sound
        have e2 := hok.wst.sound
        unfold Sound at e1 e2
        have hsA : (realStack false c_A).size.toNat + total (sigAt P b).wstIn = c1.wst.size.toNat := hsA
        show i ≤ total (items c1.wst) - _
        rw [oB] at e1 h2
        omega
      · show Describes E2 (stack true vm') (base true) (items (realStack true c')) (ptr true vm')
        rw [hr', hre.ptr true, show (sigAt P b).outs true = (sigAt P b).rstOut from rfl, hnoOut, total_nil]
        rw [show bottom P b vm true + BitVec.ofNat 8 0 = bottom P b vm true by simp]
        refine hrest.congr ?_
        intro i h1 h2
        refine (hre.cells true i h1 ?_).symm
        rw [hloadR]
        have e1 := p1.stack.sound
        unfold Sound at e1
        omega
    · intro r
      cases r
      · show ∀ v ∈ items (realStack false c'), Alive c'.nodes v
        rw [hw', iC, hn']
        intro v hv
        rcases List.mem_append.mp hv with hv | hv
        · have := hS.wstOut.2 v (List.mem_reverse.mp hv)
          exact .whole _ this.2.2.2.2.1 this.2.2.2.2.2.1
        · exact (cB.sim.alive false v hv).grow hgrow
      · show ∀ v ∈ items (realStack true c'), Alive c'.nodes v
        rw [hr', hn']
        exact fun v hv => q1.alive v (List.mem_append_right _ hv)

end Buxn.Chess
