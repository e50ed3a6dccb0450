import Verif.Chess.TagOps
import Verif.Chess.Moves
/-!
# C84: calls, jumps and casts
-/

namespace Buxn.Chess.Types

open Buxn.Asm (Str SymType)
open Buxn.VM (Instr Op dispatch)
open Buxn.VM.Spec (operandSizes)

/-! ## Checking inputs -/

theorem isPrefixOf_prefix {a b : Str} (h : a.isPrefixOf b = true) : a <+: b := List.isPrefixOf_iff_prefix.mp h

theorem checkValue_accepts {want got : Value} {c : Run} (h : (checkValue .into want got c).terminated = false) :
    want.nominal = true → got.nominal = true ∧ want.type <+: got.type := by
  intro hn
  unfold checkValue at h
  dsimp only at h
  rw [if_pos hn] at h
  simp only [reduceCtorEq, decide_false, Bool.false_and, Bool.or_false] at h
  by_cases ha : (got.nominal && want.type.isPrefixOf got.type) = true
  · rw [Bool.and_eq_true] at ha
    exact ⟨ha.1, isPrefixOf_prefix ha.2⟩
  · rw [if_neg ha] at h
    cases h

theorem checkValues_tells (r : Bool) : ∀ (vs : List Value) (c : Run) (ts : List Tag),
    c.nodes.Ok → (realStack r c).Ok c.nodes → total vs ≤ (realStack r c).size.toNat → Tells c.nodes (items (realStack r c)) ts →
    (checkValues .into r vs c).terminated = false →
    Accept vs ts ∧ Tells (checkValues .into r vs c).nodes (items (realStack r (checkValues .into r vs c))) (ts.drop (total vs)) ∧
      Less r (total vs) c (checkValues .into r vs c) ∧ Keeps c.nodes (checkValues .into r vs c).nodes
  | [], c, ts, hm, hs, _, hT, _ => ⟨trivial, hT, ⟨hm, hs, rfl, rfl, le_refl _, rfl⟩, .refl _⟩
  | v :: vs, c, ts, hm, hs, hw, hT, ht => by
    rw [total_cons] at hw
    have hw1 : width v.short ≤ (realStack r c).size.toNat := by rw [← size_width]; omega
    obtain ⟨x, s1, m1, e1, p1⟩ := popFrom_ok (short := v.short) hm hs hw1
    have q1 := popFrom_tells (b := v.short) hm hs hw1 hT
    rw [e1] at q1
    dsimp only at q1
    have hx : x.size = v.size := by rw [size_width, size_width, p1.short_eq]
    have hsz := p1.size
    obtain ⟨g1, g2, g3⟩ := q1.one
    rw [hx] at g1 g2 g3
    have e2 : checkValues .into r (v :: vs) c = checkValues .into r vs (checkValue .into v x (setReal r s1 { c with nodes := m1 })) := by
      rw [checkValues]
      unfold popReal
      rw [e1]
    rw [e2] at ht ⊢
    clear e2
    have hacc := checkValue_accepts (want := v) (got := x) (c := setReal r s1 { c with nodes := m1 }) (by
      cases h : (checkValue .into v x (setReal r s1 { c with nodes := m1 })).terminated
      · rfl
      · rw [(checkValues_plainly .into r vs _).on.stopped h] at ht; cases ht)
    obtain ⟨k1, k2, k3⟩ := checkValue_keeps .into v x (setReal r s1 { c with nodes := m1 })
    have l1 := k1 r
    have l2 := k1 (!r)
    rw [setReal_realStack] at l1
    rw [setReal_other] at l2
    rw [setReal_nodes] at k2
    rw [setReal_pc] at k3
    generalize checkValue .into v x (setReal r s1 { c with nodes := m1 }) = c1 at *
    dsimp only at k2 k3
    have l2 : realStack (!r) c1 = realStack (!r) c := l2.trans (by cases r <;> rfl)
    obtain ⟨a1, a2, ls, kp⟩ := checkValues_tells r vs c1 (ts.drop v.size)
      (by rw [k2]; exact p1.nodes) (by rw [k2, l1]; exact p1.stack) (by rw [l1]; omega) (by rw [k2, l1]; exact g2) ht
    rw [k2] at kp
    refine ⟨⟨g3, fun hn => ⟨x.type, (hacc hn).2, g1.typed (hacc hn).1⟩, a1⟩, ?_, ⟨ls.nodes, ls.stack, ?_, ls.other.trans l2, ?_,
      ls.pc.trans k3⟩, q1.keeps.trans kp⟩
    · rw [total_cons, ← List.drop_drop]
      exact a2
    · have := ls.size
      rw [l1] at this
      rw [total_cons]
      omega
    · have := ls.fresh
      rw [k2] at this
      exact Nat.le_trans p1.fresh this

/-- Taking declared inputs. -/
theorem checkStack_tells (r : Bool) {sig : List Value} (hs : PlainArgs sig) (c : Run) {T : Tags} (h : Proceeds T c)
    (hrep : ¬ Reports c (checkStack .into r sig c)) :
    Accept sig.reverse (T r) ∧ Proceeds (put r ((T r).drop (bytes sig)) T) (checkStack .into r sig c) := by
  have ht := h.running
  have hon := checkStack_plainly .into r sig c
  have hterm : (checkStack .into r sig c).terminated = false := by
    cases h : (checkStack .into r sig c).terminated
    · rfl
    · exact absurd (hon.reports ht h) hrep
  by_cases hfit : total sig ≤ (realStack r c).size.toNat
  · have e : checkStack .into r sig c = checkValues .into r sig.reverse c := by
      unfold checkStack
      dsimp only
      rw [sigSize_total hs.1]
      simp only [decide_eq_true hfit, if_true, ht, Bool.false_eq_true, if_false]
    rw [e] at hterm ⊢
    obtain ⟨h1, h2, h3, h4⟩ := checkValues_tells r sig.reverse c (T r) h.ok.nodes (h.ok.real r)
      (by rw [total_reverse]; exact hfit) (h.typed r) hterm
    rw [total_reverse] at h2 h3
    refine ⟨h1, hterm, Run.Ok.of_real h3.nodes r h3.stack (by rw [h3.other]; exact (h.ok.real (!r)).mono h3.fresh), ?_⟩
    intro r'
    by_cases e : r' = r
    · subst e
      rw [put_same]
      exact h2
    · have e := not_bool e
      subst e
      rw [put_other, h3.other]
      exact (h.typed (!r)).grow h4
  · exfalso
    apply hrep
    have e : checkStack .into r sig c = error .sizeMismatch c := by
      unfold checkStack
      dsimp only
      rw [sigSize_total hs.1]
      simp only [decide_eq_false hfit, Bool.false_eq_true, if_false]
      rw [if_pos (show (error .sizeMismatch c).terminated = true from rfl)]
    rw [e]
    exact error_reports _ c

/-! ## Pushing outputs -/

theorem outputs_tell (r : Bool) (vs : List Value) (c : Run) {T : Tags} (h : Proceeds T c) (hv : ∀ v ∈ vs, Plain v)
    (hrep : ¬ Reports c (pushAll r vs c)) (hw : (pushAll r vs c).wrapped = false) :
    Proceeds (put r (pile (vs.map declared) (T r)) T) (pushAll r vs c) := by
  have hfit := pushAll_fits r vs c hv h.ok h.running hrep hw
  have hg : List.Forall₂ (Vouched c.nodes) vs (vs.map declared) := by
    rw [List.forall₂_map_right_iff]
    exact List.forall₂_same.mpr fun v hm => .declared _ (hv v hm).2.2.2.2.1 (hv v hm).2.2.2.2.2.1
  obtain ⟨h1, h2⟩ := pushAll_tells r vs _ T c h.typed h.ok h.running (fun v hm => (hv v hm).tidy _) hg hfit
  refine ⟨?_, h2, h1⟩
  cases hx : (pushAll r vs c).terminated
  · rfl
  · exact absurd ((pushAll_plainly r vs c).reports h.running hx) hrep

/-! ## A call -/

/-- The tags when the outputs of a routine are in place, but for the return address. -/
def replaced (sig : Sig) (T : Tags) : Tags := fun r =>
  if r then pile (sig.rstOut.map declared) ((T true).drop (bytes sig.rstIn))
  else pile (sig.wstOut.map declared) ((T false).drop (bytes sig.wstIn))

theorem called_replaced (sig : Sig) (T : Tags) :
    called sig T = put true ((replaced sig T true).drop (if sig.kind = .subroutine then 2 else 0)) (replaced sig T) := by
  funext r
  cases r <;> rfl

theorem Proceeds.congr {T : Tags} {c c' : Run} (h : Proceeds T c) (h1 : c'.terminated = c.terminated) (h2 : c'.nodes = c.nodes)
    (h3 : c'.wst = c.wst) (h4 : c'.rst = c.rst) : Proceeds T c' := by
  refine ⟨h1.trans h.running, ⟨by rw [h2]; exact h.ok.nodes, by rw [h2, h3]; exact h.ok.wst, by rw [h2, h4]; exact h.ok.rst⟩, fun r => ?_⟩
  have := h.typed r
  cases r
  · show Tells c'.nodes (items c'.wst) _
    rw [h2, h3]; exact this
  · show Tells c'.nodes (items c'.rst) _
    rw [h2, h4]; exact this

/-- What is true after a routine has been taken at its word. -/
def Fulfils (P : Program) (b : Short) (T : Tags) (c' : Run) : Prop :=
  Suits (sigAt P b) T ∧ (c'.terminated = false → Proceeds (called (sigAt P b) T) c')

theorem shortCircuit_tells {P : Program} (hP : P.Ok) (b : Short) (c1 : Run) {T : Tags} (h : Proceeds T c1) :
    (shortCircuit P b c1).wrapped = true ∨ Reports c1 (shortCircuit P b c1) ∨ Fulfils P b T (shortCircuit P b c1) := by
  by_cases hw : (shortCircuit P b c1).wrapped = true
  · exact .inl hw
  by_cases hrep : Reports c1 (shortCircuit P b c1)
  · exact .inr (.inl hrep)
  refine .inr (.inr ?_)
  have hw : (shortCircuit P b c1).wrapped = false := by simpa using hw
  have hS := sigAt_ok hP b
  by_cases hk : (sigAt P c1.key).kind = .subroutine ∧ (sigAt P b).kind = .vector
  · exfalso
    apply hrep
    unfold shortCircuit
    dsimp only
    rw [if_pos hk]
    exact error_reports _ _
  -- the stages
  have hfin : ∀ cD : Run, cD = pushAll true (sigAt P b).rstOut (pushAll false (sigAt P b).wstOut
      (checkStack .into true (sigAt P b).rstIn (checkStack .into false (sigAt P b).wstIn c1))) →
      Onward cD (shortCircuit P b c1) ∧ shortCircuit P b c1 =
        (if (sigAt P b).kind = .subroutine then
          if 2 ≤ cD.rst.size.toNat then
            if (absJmp P (popReal true true cD).1 (popReal true true cD).2).1 = .returned then
              setTerminatedAt (decide (b ≠ (absJmp P (popReal true true cD).1 (popReal true true cD).2).2.key))
                (absJmp P (popReal true true cD).1 (popReal true true cD).2).2
            else (absJmp P (popReal true true cD).1 (popReal true true cD).2).2
          else error .noReturnAddress cD
        else setTerminatedAt (decide (b ≠ cD.key)) (terminate (checkReturn P cD))) := by
    rintro cD rfl
    refine ⟨?_, by unfold shortCircuit; dsimp only; rw [if_neg hk]⟩
    unfold shortCircuit
    dsimp only
    rw [if_neg hk]
    refine .ite (.ite ?_ (error_plainly _ _).on) (((checkReturn_plainly P _).on.trans (terminate_onward _)).trans (setTerminatedAt_plainly _ _).on)
    exact .ite (((popReal_plainly _ _ _).on.trans (absJmp_onward P _ _)).trans (setTerminatedAt_plainly _ _).on)
      ((popReal_plainly _ _ _).on.trans (absJmp_onward P _ _))
  have hAon := (checkStack_plainly .into false (sigAt P b).wstIn c1).on
  have hBon := (checkStack_plainly .into true (sigAt P b).rstIn (checkStack .into false (sigAt P b).wstIn c1)).on
  have hCon := (pushAll_plainly false (sigAt P b).wstOut (checkStack .into true (sigAt P b).rstIn (checkStack .into false (sigAt P b).wstIn c1))).on
  have hDon := (pushAll_plainly true (sigAt P b).rstOut (pushAll false (sigAt P b).wstOut
    (checkStack .into true (sigAt P b).rstIn (checkStack .into false (sigAt P b).wstIn c1)))).on
  have hF := (hfin _ rfl).1
  have hEq := (hfin _ rfl).2
  clear hfin
  obtain ⟨accA, cA⟩ := checkStack_tells false hS.wstIn c1 h
    (fun h => hrep (h.then (((hBon.trans hCon).trans hDon).trans hF)))
  generalize checkStack .into false (sigAt P b).wstIn c1 = c_A at *
  obtain ⟨accB, cB⟩ := checkStack_tells true hS.rstIn c_A cA
    (fun h => hrep ((h.after hAon).then ((hCon.trans hDon).trans hF)))
  generalize checkStack .into true (sigAt P b).rstIn c_A = c_B at *
  have hABon := hAon.trans hBon
  have cC := outputs_tell false _ c_B cB hS.wstOut.2 (fun h => hrep ((h.after hABon).then (hDon.trans hF))) (by
    cases h : (pushAll false (sigAt P b).wstOut c_B).wrapped
    · rfl
    · rw [(hDon.trans hF).wrapped h] at hw; cases hw)
  generalize pushAll false (sigAt P b).wstOut c_B = c_C at *
  have cD := outputs_tell true _ c_C cC hS.rstOut.2 (fun h => hrep ((h.after (hABon.trans hCon)).then hF)) (by
    cases h : (pushAll true (sigAt P b).rstOut c_C).wrapped
    · rfl
    · rw [hF.wrapped h] at hw; cases hw)
  generalize pushAll true (sigAt P b).rstOut c_C = c_D at *
  have hallon := (hABon.trans hCon).trans hDon
  have eT : ∀ T' : Tags, T' = put true (pile ((sigAt P b).rstOut.map declared)
      ((put false (pile ((sigAt P b).wstOut.map declared) ((put true ((put false ((T false).drop (bytes (sigAt P b).wstIn)) T true).drop
        (bytes (sigAt P b).rstIn)) (put false ((T false).drop (bytes (sigAt P b).wstIn)) T)) false))
        (put true ((put false ((T false).drop (bytes (sigAt P b).wstIn)) T true).drop (bytes (sigAt P b).rstIn))
          (put false ((T false).drop (bytes (sigAt P b).wstIn)) T))) true))
      (put false (pile ((sigAt P b).wstOut.map declared) ((put true ((put false ((T false).drop (bytes (sigAt P b).wstIn)) T true).drop
        (bytes (sigAt P b).rstIn)) (put false ((T false).drop (bytes (sigAt P b).wstIn)) T)) false))
        (put true ((put false ((T false).drop (bytes (sigAt P b).wstIn)) T true).drop (bytes (sigAt P b).rstIn))
          (put false ((T false).drop (bytes (sigAt P b).wstIn)) T))) → T' = replaced (sigAt P b) T := by
    rintro T' rfl
    funext r
    cases r <;> rfl
  have cD : Proceeds (replaced (sigAt P b) T) c_D := by
    have := eT _ rfl
    rw [this] at cD
    exact cD
  refine ⟨⟨accA, accB⟩, fun hterm => ?_⟩
  by_cases hsub : (sigAt P b).kind = .subroutine
  swap
  · rw [if_neg hsub] at hEq
    rw [hEq] at hterm
    cases hterm
  rw [if_pos hsub] at hEq
  by_cases h2 : 2 ≤ c_D.rst.size.toNat
  swap
  · rw [if_neg h2] at hEq
    exact absurd ((error_reports _ c_D).after hallon) (by rw [hEq] at hrep; exact hrep)
  rw [if_pos h2] at hEq
  obtain ⟨a, s1, m1, e1, p1⟩ := popFrom_ok (s := c_D.rst) (short := true) (c := c_D) cD.ok.nodes cD.ok.rst h2
  have q1 := popFrom_tells (s := c_D.rst) (b := true) (c := c_D) cD.ok.nodes cD.ok.rst h2 (cD.typed true)
  rw [e1] at q1
  dsimp only at q1
  have epop : popReal true true c_D = (a, setReal true s1 { c_D with nodes := m1 }) := by
    unfold popReal
    rw [show realStack true c_D = c_D.rst from rfl, e1]
  rw [epop] at hEq
  dsimp only at hEq
  have haz : a.size = 2 := (size_eq_two a).mpr p1.short_eq
  obtain ⟨_, g2, _⟩ := q1.one
  rw [haz] at g2
  have cE : Proceeds (called (sigAt P b) T) (setReal true s1 { c_D with nodes := m1 }) := by
    rw [called_replaced, if_pos hsub]
    refine ⟨by rw [setReal_terminated]; exact cD.running, ?_, ?_⟩
    · refine Run.Ok.of_real (r := true) (by rw [setReal_nodes]; exact p1.nodes) (by rw [setReal_realStack, setReal_nodes]; exact p1.stack) ?_
      show c_D.wst.Ok m1
      exact cD.ok.wst.mono p1.fresh
    · refine Typed.put ?_ g2
      intro r
      have := (cD.typed r).grow q1.keeps
      cases r <;> exact this
  generalize setReal true s1 { c_D with nodes := m1 } = c' at *
  by_cases hra : (a.address && a.ret) = true
  · have eAbs : absJmp P a c' = (.returned, terminate (checkReturn P (setTerminatedAt true
        (if (sigAt P c'.key).kind = .vector then error .returnFromVector c' else c')))) := by
      unfold absJmp; rw [if_pos hra]
    rw [eAbs, if_pos rfl] at hEq
    rw [hEq] at hterm
    cases hterm
  · by_cases hc : a.const = true
    swap
    · have eAbs : absJmp P a c' = (.proceed, error .unknownAddress c') := by
        unfold absJmp; rw [if_neg hra, if_neg hc]
      rw [eAbs, if_neg (by simp)] at hEq
      rw [hEq] at hterm
      cases hterm
    have eAbs : absJmp P a c' = (.proceed, { c' with pc := a.value }) := by
      unfold absJmp; rw [if_neg hra, if_pos hc]
    rw [eAbs, if_neg (by simp)] at hEq
    rw [hEq]
    exact cE.congr rfl rfl rfl rfl

/-! ## Jumps -/

/-- Where a jump goes, as far as it is known. (Not a return.) -/
def aim (pc : Short) (a : Value) : Option Short :=
  if a.short then if a.address && a.ret then none else if a.const then some a.value else none
  else if a.const then some (relative pc a.value) else none

/-- The tags when a jump has been made. -/
def landed (P : Program) (to_ : Option Short) (T : Tags) : Tags :=
  match to_ with
  | some b => if isRoutine P b then called (sigAt P b) T else T
  | none => T

/-- What is true after a jump. -/
structure Jumps (P : Program) (to_ : Option Short) (T : Tags) (c' : Run) : Prop where
  suits : ∀ b, to_ = some b → isRoutine P b = true → Suits (sigAt P b) T
  typed : c'.terminated = false → Proceeds (landed P to_ T) c'

theorem jump_tells {P : Program} (hP : P.Ok) (a : Value) (c : Run) {T : Tags} (h : Proceeds T c) :
    (jump P a c).wrapped = true ∨ Reports c (jump P a c) ∨ Jumps P (aim c.pc a) T (jump P a c) := by
  have go : ∀ b : Short, aim c.pc a = some b → landing P a c = { c with pc := b } →
      (jump P a c).wrapped = true ∨ Reports c (jump P a c) ∨ Jumps P (aim c.pc a) T (jump P a c) := by
    intro b hb hl
    have e := jump_landing h.running hl
    rw [if_neg (by rw [show ({ c with pc := b } : Run).terminated = c.terminated from rfl, h.running]; simp)] at e
    rw [hb, e]
    dsimp only
    by_cases hr : isRoutine P b = true
    · rw [if_pos hr]
      rcases shortCircuit_tells hP b { c with pc := b } (h.congr rfl rfl rfl rfl) with g | g | g
      · exact .inl g
      · exact .inr (.inl (g.after (pc_plainly b c).on))
      · refine .inr (.inr ⟨fun b' hb' _ => ?_, fun ht => ?_⟩)
        · cases hb'; exact g.1
        · unfold landed
          dsimp only
          rw [if_pos hr]
          exact g.2 ht
    · rw [if_neg hr]
      refine .inr (.inr ⟨fun b' hb' hr' => ?_, fun ht => ?_⟩)
      · cases hb'; exact absurd hr' hr
      · unfold landed
        dsimp only
        rw [if_neg hr]
        split at ht
        · cases ht
        · rename_i hn
          rw [if_neg hn]
          exact h.congr rfl rfl rfl rfl
  have stop : ∀ c1 : Run, landing P a c = c1 → c1.terminated = true → aim c.pc a = none →
      (jump P a c).wrapped = true ∨ Reports c (jump P a c) ∨ Jumps P (aim c.pc a) T (jump P a c) := by
    intro c1 hl ht hn
    rw [hn, jump_landing h.running hl, if_pos ht]
    exact .inr (.inr ⟨fun b hb => (by cases hb), fun hx => (by rw [ht] at hx; cases hx)⟩)
  cases hs : a.short
  · by_cases hc : a.const = true
    · refine go (relative c.pc a.value) ?_ ?_
      · unfold aim; rw [if_neg (by rw [hs]; simp), if_pos hc]
      · unfold landing; rw [if_neg (by rw [hs]; simp), if_pos hc]
    · refine stop (error .unknownAddress c) ?_ rfl ?_
      · unfold landing; rw [if_neg (by rw [hs]; simp), if_neg hc]
      · unfold aim; rw [if_neg (by rw [hs]; simp), if_neg hc]
  · by_cases hret : (a.address && a.ret) = true
    · refine stop (terminate (checkReturn P (setTerminatedAt true
          (if (sigAt P c.key).kind = .vector then error .returnFromVector c else c)))) ?_ rfl ?_
      · unfold landing absJmp; rw [if_pos hs, if_pos hret]
      · unfold aim; rw [if_pos hs, if_pos hret]
    · by_cases hc : a.const = true
      · refine go a.value ?_ ?_
        · unfold aim; rw [if_pos hs, if_neg hret, if_pos hc]
        · unfold landing absJmp; rw [if_pos hs, if_neg hret, if_pos hc]
      · refine stop (error .unknownAddress c) ?_ rfl ?_
        · unfold landing absJmp; rw [if_pos hs, if_neg hret, if_neg hc]
        · unfold aim; rw [if_pos hs, if_neg hret, if_neg hc]

/-- A jump that remembers where it came from. -/
theorem jumpStash_tells {P : Program} (hP : P.Ok) (a : Value) (r : Bool) (c : Run) {T : Tags} (h : Proceeds T c) :
    (jumpStash P a r c).wrapped = true ∨ Reports c (jumpStash P a r c) ∨
      Jumps P (aim c.pc a) (put (!r) (mark 2 none true ++ T (!r)) T) (jumpStash P a r c) := by
  have e0 : jumpStash P a r c = jump P a (pushEx (!r) (resume c) c) := rfl
  rw [e0]
  have hon := (pushEx_plainly (!r) (resume c) c)
  have hl : LoadingT T c := .inr (.inr h)
  rcases hl.push (!r) (v := resume c) (g := mark 2 none true) (fun m => .mark m rfl rfl (fun _ => rfl) rfl rfl) rfl rfl with g | g | g
  · exact .inl ((jump_onward P a _).wrapped g)
  · rw [jump_stopped _ _ g]
    exact .inr (.inl (hon.reports h.running g))
  · have hpc : (pushEx (!r) (resume c) c).pc = c.pc := (pushEx_stays (!r) (resume c) c).pc
    rcases jump_tells hP a _ g with k | k | k
    · exact .inl k
    · exact .inr (.inl (k.after hon.on))
    · rw [hpc] at k
      exact .inr (.inr k)

/-- Entries have been added that say what is true. -/
def Adds (T : Tags) (c c' : Run) : Prop := ∀ e ∈ c'.queue, e ∈ c.queue ∨ ∃ m, ∀ r, Tells m (items (e.stacks r)) (T r)

theorem Adds.same {T : Tags} {c c' : Run} (h : c'.queue = c.queue) : Adds T c c' := fun e he => .inl (by rw [h] at he; exact he)

theorem jumped_queue {P : Program} {c c' : Run} (h : Jumped P c c') : c'.queue = c.queue := by
  cases h with
  | ended _ t => exact t.queue
  | followed _ _ _ q _ => exact q
  | called _ _ _ _ _ t => exact t.queue

/-- The condition is known not to hold. -/
def skips (cond : Value) : Bool := cond.const && cond.forked && decide (cond.value = 0)

theorem jumpConditional_tells {P : Program} (hP : P.Ok) (cond a : Value) (c : Run) {T : Tags} (h : Proceeds T c) :
    (jumpConditional P cond a c).wrapped = true ∨ Reports c (jumpConditional P cond a c) ∨
      Jumps P (if skips cond then none else aim c.pc a) T (jumpConditional P cond a c) ∧ Adds T c (jumpConditional P cond a c) := by
  unfold jumpConditional skips
  by_cases hd : (cond.const && cond.forked) = true
  · rw [if_pos hd, hd, Bool.true_and]
    by_cases hz : cond.value = 0
    · rw [if_neg (by simpa using hz), decide_eq_true hz, if_pos rfl]
      exact .inr (.inr ⟨⟨fun b hb => (by cases hb), fun _ => h⟩, .same rfl⟩)
    · rw [if_pos hz, decide_eq_false hz, if_neg (by simp)]
      rcases jump_tells hP a c h with k | k | k
      · exact .inl k
      · exact .inr (.inl k)
      · exact .inr (.inr ⟨k, .same (jumped_queue (jump_jumped P a c))⟩)
  · rw [if_neg hd]
    have hd : (cond.const && cond.forked) = false := by simpa using hd
    rw [hd, Bool.false_and, if_neg (by simp)]
    rcases jump_tells hP a (fork (forked c) c) (h.congr rfl rfl rfl rfl) with k | k | k
    · exact .inl k
    · exact .inr (.inl (k.after (fork_plainly _ c rfl).on))
    · refine .inr (.inr ⟨k, ?_⟩)
      intro e he
      rw [(jumped_queue (jump_jumped P a (fork (forked c) c)))] at he
      have he : e ∈ forked c :: c.queue := he
      rcases List.mem_cons.mp he with rfl | he
      · refine .inr ⟨c.nodes, fun r => ?_⟩
        have := h.typed r
        cases r <;> exact this
      · exact .inl he

/-! ## Casts -/

theorem popInputs_tells (r : Bool) : ∀ (vs acc : List Value) (c : Run) (ts : List Tag),
    c.nodes.Ok → (realStack r c).Ok c.nodes → total vs ≤ (realStack r c).size.toNat → Tells c.nodes (items (realStack r c)) ts →
    ∃ ps s' m', popInputs r vs acc c = (ps.reverse ++ acc, setReal r s' { c with nodes := m' }) ∧
      ps.map Value.short = vs.map Value.short ∧ PopTells c.nodes ts ps s' m'
  | [], acc, c, ts, hm, hs, _, hT =>
    ⟨[], realStack r c, c.nodes, by rw [setReal_self]; rfl, rfl, .refl _, [], ts, rfl, .nil, hT⟩
  | v :: vs, acc, c, ts, hm, hs, hw, hT => by
    rw [total_cons] at hw
    have hw1 : width v.short ≤ (realStack r c).size.toNat := by rw [← size_width]; omega
    obtain ⟨x, s1, m1, e1, p1⟩ := popFrom_ok (short := v.short) hm hs hw1
    have q1 := popFrom_tells (b := v.short) hm hs hw1 hT
    rw [e1] at q1
    dsimp only at q1
    have hx : x.size = v.size := by rw [size_width, size_width, p1.short_eq]
    have hsz := p1.size
    obtain ⟨k1, gs1, rest1, f1, v1, t1⟩ := q1
    have hr1 : realStack r (setReal r s1 { c with nodes := m1 }) = s1 := setReal_realStack _ _ _
    have hn1 : (setReal r s1 { c with nodes := m1 }).nodes = m1 := setReal_nodes _ _ _
    obtain ⟨ps, s2, m2, e2, h1, q2⟩ := popInputs_tells r vs (x :: acc) (setReal r s1 { c with nodes := m1 }) rest1
      (by rw [hn1]; exact p1.nodes) (by rw [hr1, hn1]; exact p1.stack) (by rw [hr1]; omega) (by rw [hn1, hr1]; exact t1)
    rw [hn1] at q2
    obtain ⟨k2, gs2, rest2, f2, v2, t2⟩ := q2
    refine ⟨x :: ps, s2, m2, ?_, ?_, ?_⟩
    · have e3 : popInputs r (v :: vs) acc c = popInputs r vs (x :: acc) (setReal r s1 { c with nodes := m1 }) := by
        rw [popInputs]
        unfold popReal
        rw [e1]
      rw [e3, e2]
      simp only [List.reverse_cons, List.append_assoc, List.cons_append, List.nil_append, Prod.mk.injEq, true_and]
      cases r <;> rfl
    · rw [List.map_cons, List.map_cons, h1, p1.short_eq]
    · cases v1 with
      | cons a1 b1 =>
        cases b1
        rename_i g1
        exact ⟨k1.trans k2, g1 :: gs2, rest2, by rw [f1, f2]; simp, .cons (a1.grow k2) v2, t2⟩

theorem castValue_vouched {m : Nodes} {x y : Value} {g : List Tag} (hy : Plain y) (hs : x.short = y.short) (h : Vouched m x g)
    (hx : x.halfHi = true ∨ x.halfLo = true → x.short = false)
    (hc : y.short = false → ∀ t ∈ g, (∀ U p, t.type = some (U, p) → p = .whole) ∧ (t.address = true → y.address = true)) :
    Vouched m (castValue x y) (declared y) := by
  obtain ⟨h1, h2, h3, h4, h5, h6, h7⟩ := hy
  have hhi : (castValue x y).halfHi = x.halfHi := by show (y.halfHi || x.halfHi) = _; rw [h5, Bool.false_or]
  have hlo : (castValue x y).halfLo = x.halfLo := by show (y.halfLo || x.halfLo) = _; rw [h6, Bool.false_or]
  have hz : (declared y).length = (castValue x y).size := declared_length y
  have half : ∀ {p : Part} {n : Nat}, p ≠ .whole → x.short = false → (∀ t ∈ g, HalfOf (m.heap n) p t) → ∀ t ∈ declared y, HalfOf (m.heap n) p t := by
    intro p n hp hsx hg t ht
    have hys : y.short = false := by rw [← hs]; exact hsx
    obtain ⟨t0, e0⟩ := length_one (h.size.trans ((size_eq_one x).mpr hsx))
    have g0 := hg t0 (by rw [e0]; simp)
    obtain ⟨c1, c2⟩ := hc hys t0 (by rw [e0]; simp)
    refine ⟨fun hn => ?_, fun ha => ?_⟩
    · exact absurd (c1 _ _ (g0.typed hn)) hp
    · have := c2 (g0.addr ha)
      unfold declared at ht
      rw [mark_address _ _ _ t ht]
      exact this
  have hw : ∀ {n : Nat}, x.halfHi = true ∨ x.halfLo = true → x.whole = some n → (castValue x y).whole = some n := by
    intro n hh e
    show (if (x.halfHi || x.halfLo) = true then x.whole else y.whole) = some n
    rw [if_pos (by rcases hh with h | h <;> simp [h])]
    exact e
  refine ⟨hz, ?_, ?_, fun hh => ?_, fun hh => ?_⟩
  · exact (Vouched.declared m h5 h6).typed
  · exact (Vouched.declared m h5 h6).addr
  · rw [hhi] at hh
    obtain ⟨n, k1, k2, k3⟩ := h.high hh
    exact ⟨n, k1, hw (.inl hh) k2, half (by simp) (hx (.inl hh)) k3⟩
  · rw [hlo] at hh
    obtain ⟨n, k1, k2, k3⟩ := h.low hh
    exact ⟨n, k1, hw (.inr hh) k2, half (by simp) (hx (.inr hh)) k3⟩

/-- Values with new types on top of what was below. -/
theorem cast_tells {m : Nodes} : ∀ (ps ks : List Value) (gs : List (List Tag)) (vs : List Value) (rest : List Tag),
    ps.map Value.short = ks.map Value.short → (∀ y ∈ ks, Plain y) → List.Forall₂ (Vouched m) ps gs →
    (∀ x ∈ ps, x.halfHi = true ∨ x.halfLo = true → x.short = false) → Recast ks (gs.flatten ++ rest) → Tells m vs rest →
    Tells m (List.zipWith castValue ps ks ++ vs) ((ks.map declared).flatten ++ rest)
  | [], [], _, vs, rest, _, _, hf, _, _, hT => by cases hf; exact hT
  | [], _ :: _, _, _, _, h, _, _, _, _, _ => by cases h
  | _ :: _, [], _, _, _, h, _, _, _, _, _ => by cases h
  | x :: ps, y :: ks, g :: gs, vs, rest, h, hy, .cons hg hf, hh, hc, hT => by
    simp only [List.map_cons, List.cons.injEq] at h
    have hz : (if y.short then 2 else 1) = g.length := by rw [← size_if, hg.size, size_width, size_width, h.1]
    have e : (g :: gs).flatten ++ rest = g ++ (gs.flatten ++ rest) := by simp
    rw [e] at hc
    obtain ⟨c1, c2⟩ := hc
    rw [hz, List.drop_left] at c2
    refine ⟨declared y, (ks.map declared).flatten ++ rest, by simp, ?_, ?_⟩
    · refine castValue_vouched (hy y List.mem_cons_self) h.1 hg (hh x List.mem_cons_self) (fun hs t ht => c1 hs t ?_)
      rw [hs] at hz
      simp only [Bool.false_eq_true, if_false] at hz
      rw [hz, List.take_left]
      exact ht
    · exact cast_tells ps ks gs vs rest h.2 (fun v hv => hy v (List.mem_cons_of_mem _ hv)) hf
        (fun v hv => hh v (List.mem_cons_of_mem _ hv)) c2 hT

theorem half_byte {n : Nat} {v : Value} (h : Tidy n v) : v.halfHi = true ∨ v.halfLo = true → v.short = false := by
  intro hh
  cases hs : v.short
  · rfl
  · obtain ⟨h1, h2⟩ := h.whole_short hs
    rcases hh with k | k
    · rw [h1] at k; cases k
    · rw [h2] at k; cases k

theorem applyCast_tells (r : Bool) (cast : List Value) (c : Run) {T : Tags} (h : Proceeds T c) (hc : PlainArgs cast)
    (hre : Recast cast.reverse (T r)) (hrep : ¬ Reports c (applyCast r cast c)) :
    Proceeds (put r (pile (cast.map declared) ((T r).drop (bytes cast))) T) (applyCast r cast c) := by
  have hok := h.ok
  by_cases hf : total cast ≤ (realStack r c).size.toNat
  swap
  · exfalso
    apply hrep
    rw [applyCast_mismatch r cast c hc (by omega)]
    exact error_reports _ c
  obtain ⟨xs, s1, m1, e1, h1, h2, h3, h4, h5, h6⟩ := popInputs_ok r cast.reverse [] c hok.nodes (hok.real r)
    (by rw [total_reverse]; exact hf) (fun _ hv => (by cases hv))
  obtain ⟨ps, s1', m1', e1', h1', q1⟩ := popInputs_tells r cast.reverse [] c (T r) hok.nodes (hok.real r)
    (by rw [total_reverse]; exact hf) (h.typed r)
  rw [List.append_nil] at e1'
  rw [e1] at e1'
  have hxs := congrArg Prod.fst e1'
  have hrun := congrArg Prod.snd e1'
  dsimp only at hxs hrun
  have hst := congrArg (realStack r) hrun
  have hnd := congrArg Run.nodes hrun
  rw [setReal_realStack, setReal_realStack] at hst
  rw [setReal_nodes, setReal_nodes] at hnd
  dsimp only at hnd
  subst hst; subst hnd; subst hxs
  rw [total_reverse] at h6
  simp only [List.map_reverse, List.reverse_reverse, List.map_nil, List.append_nil] at h1
  have h1 : ps.reverse.map Value.short = cast.map Value.short := by simpa using h1
  obtain ⟨hz1, hz2⟩ := zip_cast ps.reverse cast h1 h2 hc.2
  have hlt := (realStack r c).size.isLt
  obtain ⟨h7, h8⟩ := foldl_rawPush_ok m1 (List.zipWith castValue ps.reverse cast) s1 h3 hz1 (by rw [hz2]; omega)
  have hlen : ps.length = cast.length := by
    have := congrArg List.length h1
    simpa using this
  have hitems : items ((List.zipWith castValue ps.reverse cast).foldl rawPush s1) =
      List.zipWith castValue ps cast.reverse ++ items s1 := by
    rw [foldl_rawPush_items, zipWith_reverse hlen]
    have a1 := h3.sound.len_le
    have a2 := length_le_total (List.zipWith castValue ps.reverse cast)
    omega
  have hplain : ∀ y ∈ cast.reverse, Plain y := fun y hy => hc.2 y (List.mem_reverse.mp hy)
  have eA : applyCast r cast c = setReal r ((List.zipWith castValue ps.reverse cast).foldl rawPush s1) { c with nodes := m1 } := by
    unfold applyCast
    rw [sigSize_total hc.1, if_pos hf, e1]
    dsimp only
    rw [setReal_realStack, setReal_setReal]
  obtain ⟨kp, gs, rest, f1, v1, t1⟩ := q1
  rw [f1] at hre
  have hdrop := (groups_of rest v1).2
  rw [total_shorts h1', ← total_shorts (vs := cast.reverse) rfl, total_reverse, ← f1] at hdrop
  have hct := cast_tells ps cast.reverse gs (items s1) rest h1' hplain v1
    (fun x hx => half_byte (h2 x (List.mem_reverse.mpr hx))) hre t1
  rw [eA]
  refine ⟨by rw [setReal_terminated]; exact h.running, ?_, ?_⟩
  · refine Run.Ok.of_real (by rw [setReal_nodes]; exact h4) r (by rw [setReal_realStack, setReal_nodes]; exact h7) ?_
    rw [setReal_other, setReal_nodes]
    exact (hok.real (!r)).mono h5
  · refine Typed.put (T := T) (c := { c with nodes := m1 }) (fun r' => ?_) ?_
    · have := (h.typed r').grow kp
      cases r' <;> exact this
    · rw [hitems, pile_eq, ← List.map_reverse, bytes_total, hdrop]
      exact hct

/-- A cast. -/
theorem applyCasts_tells {P : Program} (hP : P.Ok) (a : Short) (c : Run) {T : Tags} (h : Proceeds T c) (hcl : Clean (P.cast a) T) :
    Reports c (applyCasts (P.cast a) c) ∨ Proceeds (asserted (P.cast a) T) (applyCasts (P.cast a) c) := by
  by_cases hrep : Reports c (applyCasts (P.cast a) c)
  · exact .inl hrep
  right
  cases hk : P.cast a with
  | none => exact h
  | some k =>
    rw [hk] at hrep
    obtain ⟨hw, hr⟩ := hP.casts a k hk
    obtain ⟨cw, cr⟩ := hcl k hk
    have h1 := applyCast_tells false k.wst c h hw cw (fun g => hrep (g.then (applyCast_plainly _ _ _).on))
    have h2 := applyCast_tells true k.rst (applyCast false k.wst c) h1 hr cr (fun g => hrep (g.after (applyCast_plainly _ _ _).on))
    have e : asserted (some k) T = put true (pile (k.rst.map declared)
        ((put false (pile (k.wst.map declared) ((T false).drop (bytes k.wst))) T true).drop (bytes k.rst)))
        (put false (pile (k.wst.map declared) ((T false).drop (bytes k.wst))) T) := by
      funext r; cases r <;> rfl
    rw [e]
    exact h2

end Buxn.Chess.Types
