import Verif.Chess.TagSim
/-!
# C84: operations, literals, jumps, calls and casts
-/

namespace Buxn.Chess.Types

open Buxn.Asm (Str SymType)
open Buxn.VM (Instr Op dispatch)
open Buxn.VM.Spec (operandSizes)

/-- A trace goes on, and what the checker claims is true. -/
structure Proceeds (T : Tags) (c : Run) : Prop where
  running : c.terminated = false
  ok : c.Ok
  typed : Typed T c

/-! ## Operands -/

/-- Operands have been popped. -/
structure TookT (T : Tags) (r : Bool) (bs : List Bool) (c c2 : Run) (vs : List Value) (gs : List (List Tag)) : Prop where
  shorts : vs.map Value.short = bs
  good : List.Forall₂ (Vouched c2.nodes) vs gs
  groups : groups (bs.map width) (T r) = gs
  tidy : ∀ v ∈ vs, Tidy c2.nodes.fresh v
  typed : Typed (if c.keep then T else put r ((T r).drop (widths bs)) T) c2
  ok : c2.Ok
  form : ∃ s m, c2 = setPop r s { c with nodes := m }

theorem take_tells {T : Tags} {r : Bool} {bs : List Bool} {c : Run} (hT : Typed T c) (hok : c.Ok) (ht : c.terminated = false)
    (hp : popStack r c = realStack r c) (hneed : widths bs ≤ (realStack r c).size.toNat) :
    ∃ gs, TookT T r bs c (popList r bs c).2 (popList r bs c).1 gs := by
  have hr := hok.real r
  obtain ⟨vs, s1, m1, e1, p1⟩ := popList_ok r bs c ht hok.nodes (by rw [hp]; exact hr) (by rw [hp]; exact hneed)
  have q1 := popList_tells r bs c (T r) ht hok.nodes (by rw [hp]; exact hr) (by rw [hp]; exact hneed) (by rw [hp]; exact hT r)
  rw [e1] at q1 ⊢
  dsimp only at q1 ⊢
  rw [setPop_popStack, setPop_nodes] at q1
  dsimp only at q1
  obtain ⟨k1, gs, rest, f1, v1, t1⟩ := q1
  have hn2 : (setPop r s1 { c with nodes := m1 }).nodes = m1 := setPop_nodes _ _ _
  have hreal := popped_real r s1 m1 c
  have hother := popped_other r s1 m1 c
  obtain ⟨g1, g2⟩ := groups_of rest v1
  rw [sizes_shorts p1.shorts, ← f1] at g1
  rw [total_shorts p1.shorts, ← f1] at g2
  refine ⟨gs, p1.shorts, by rw [hn2]; exact v1, g1, by rw [hn2]; exact p1.values, ?_, ?_, ⟨s1, m1, rfl⟩⟩
  · intro r'
    rw [hn2]
    by_cases e : r' = r
    · subst e
      rw [hreal]
      cases hk : c.keep
      · simp only [Bool.false_eq_true, if_false]
        rw [put_same, g2]
        exact t1
      · simp only [if_true]
        exact (hT r').grow k1
    · have e := not_bool e
      subst e
      rw [hother]
      have : (if c.keep = true then T else put r ((T r).drop (widths bs)) T) (!r) = T (!r) := by
        split
        · rfl
        · exact put_other _ _ _
      rw [this]
      exact (hT (!r)).grow k1
  · refine Run.Ok.of_real (r := r) ?_ ?_ ?_
    · rw [hn2]; exact p1.nodes
    · rw [hn2, hreal]
      split
      · exact hr.mono p1.fresh
      · exact p1.stack
    · rw [hn2, hother]; exact (hok.real (!r)).mono p1.fresh

theorem TookT.running {T : Tags} {r : Bool} {bs : List Bool} {c c2 : Run} {vs : List Value} {gs : List (List Tag)}
    (h : TookT T r bs c c2 vs gs) (ht : c.terminated = false) : c2.terminated = false := by
  obtain ⟨s, m, e⟩ := h.form
  rw [e, setPop_terminated]; exact ht

/-! ## Operations -/

theorem vouched_plain {m : Nodes} {v : Value} {n : Nat} (hn : n = v.size) (h1 : v.nominal = false) (h2 : v.address = false)
    (h3 : v.halfHi = false) (h4 : v.halfLo = false) : Vouched m v (mark n none false) :=
  .mark m hn h1 (fun h => by rw [h2] at h; cases h) h3 h4

theorem loaded_facts (P : Program) (two : Bool) (a : Value) : (loaded P two a).nominal = false ∧ (loaded P two a).address = false ∧
    (loaded P two a).halfHi = false ∧ (loaded P two a).halfLo = false := by
  unfold loaded
  split
  · split <;> exact ⟨rfl, rfl, rfl, rfl⟩
  · exact ⟨rfl, rfl, rfl, rfl⟩

theorem vouched_loaded (m : Nodes) (P : Program) (two : Bool) (a : Value) : Vouched m (loaded P two a) (mark (width two) none false) := by
  obtain ⟨h1, h2, h3, h4⟩ := loaded_facts P two a
  refine vouched_plain ?_ h1 h2 h3 h4
  rw [size_width]; rfl

theorem vouched_increment {m : Nodes} {v : Value} {g : List Tag} (h : Vouched m v g) :
    Vouched m (increment v) (mark v.size none (isAddr g)) := by
  have h1 : (increment v).address = v.address := by unfold increment; split <;> rfl
  have h2 : (increment v).size = v.size := by
    rw [size_width, size_width]; unfold increment; split <;> rfl
  refine .mark m h2.symm rfl (fun ha => ?_) rfl rfl
  rw [h1] at ha
  rw [isAddr_iff]
  exact h.addr ha

theorem vouched_folded {m : Nodes} {two pointer : Bool} {f : Short → Short → Short} {v w : Value} {g g' : List Tag} (h : Vouched m v g)
    (h' : Vouched m w g') : Vouched m (folded two pointer f v w) (mark (width two) none (pointer && (isAddr g || isAddr g'))) := by
  refine .mark m rfl rfl (fun ha => ?_) rfl rfl
  have ha : (pointer && (v.address || w.address)) = true := ha
  simp only [Bool.and_eq_true, Bool.or_eq_true] at ha ⊢
  refine ⟨ha.1, ha.2.imp (fun x => ?_) (fun x => ?_)⟩
  · rw [isAddr_iff]; exact h.addr x
  · rw [isAddr_iff]; exact h'.addr x

theorem results_vouched (P : Program) (m : Nodes) (two : Bool) (pc : Short) (op : Op) (hj : isJump op = false) (vs : List Value)
    (gs : List (List Tag)) (hs : vs.map Value.short = operands two op) (hg : List.Forall₂ (Vouched m) vs gs) :
    List.Forall₂ (Vouched m) (results P two pc op vs) (meaning (width two) op gs.reverse) := by
  have sz : ∀ {v : Value}, v.short = two → v.size = width two := fun h => by rw [size_width, h]
  have truthV : ∀ b, Vouched m (truth b) (mark 1 none false) := fun b => vouched_plain rfl rfl rfl rfl rfl
  match op, hj with
  | .INC, _ | .POP, _ | .DUP, _ | .STH, _ | .LDZ, _ | .LDR, _ | .LDA, _ | .DEI, _ =>
    match vs, gs, hs, hg with
    | [v], [g], hs, .cons h .nil =>
      first
        | exact .nil
        | exact .cons h .nil
        | exact .cons h (.cons h .nil)
        | exact .cons (vouched_loaded _ _ _ _) .nil
        | exact .cons (vouched_plain rfl rfl rfl rfl rfl) .nil
        | (rw [← sz (show v.short = two by simpa [operands] using hs)]; exact .cons (vouched_increment h) .nil)
    | [], _, hs, _ => exact absurd hs (by simp [operands])
    | _ :: _ :: _, _, hs, _ => exact absurd (congrArg List.length hs) (by simp [operands])
  | .NIP, _ | .SWP, _ | .OVR, _ | .EQU, _ | .NEQ, _ | .GTH, _ | .LTH, _ | .ADD, _ | .SUB, _ | .MUL, _ | .DIV, _ | .AND, _
  | .ORA, _ | .EOR, _ | .SFT, _ | .STZ, _ | .STR, _ | .STA, _ | .DEO, _ =>
    match vs, gs, hs, hg with
    | [v, w], [g, k], hs, .cons h (.cons h' .nil) =>
      first
        | exact .nil
        | exact .cons h .nil
        | exact .cons h (.cons h' .nil)
        | exact .cons h' (.cons h (.cons h' .nil))
        | exact .cons (truthV _) .nil
        | exact .cons (vouched_folded (pointer := true) h' h) .nil
        | exact .cons (vouched_folded (pointer := false) h' h) .nil
    | [], _, hs, _ => exact absurd hs (by simp [operands])
    | [_], _, hs, _ => exact absurd (congrArg List.length hs) (by simp [operands])
    | _ :: _ :: _ :: _, _, hs, _ => exact absurd (congrArg List.length hs) (by simp [operands])
  | .ROT, _ =>
    match vs, gs, hs, hg with
    | [v, w, x], [g, k, l], hs, .cons h (.cons h' (.cons h'' .nil)) => exact .cons h' (.cons h (.cons h'' .nil))
    | [], _, hs, _ => exact absurd hs (by simp [operands])
    | [_], _, hs, _ => exact absurd (congrArg List.length hs) (by simp [operands])
    | [_, _], _, hs, _ => exact absurd (congrArg List.length hs) (by simp [operands])
    | _ :: _ :: _ :: _ :: _, _, hs, _ => exact absurd (congrArg List.length hs) (by simp [operands])

/-- The tags when the operands are gone. -/
def without (T : Tags) (k r : Bool) (n : Nat) : Tags := if k then T else put r ((T r).drop n) T

theorem operate_eq (n : Nat) (op : Op) (k r : Bool) (T : Tags) :
    operate n op k r T = put (if away op then !r else r)
      (pile (meaning n op (groups (operandSizes n op).reverse (T r)).reverse)
        (without T k r (operandSizes n op).sum (if away op then !r else r))) (without T k r (operandSizes n op).sum) := by
  unfold operate without
  funext r'
  unfold put
  dsimp only
  cases k <;> cases r <;> cases r' <;> cases away op <;> simp

theorem dest_away (op : Op) (r : Bool) (hj : isJump op = false) : dest op r = if away op then !r else r := by
  cases op <;> first | rfl | cases hj

theorem opPoly_tells (P : Program) (op : Op) (hj : isJump op = false) (c : Run) {T : Tags} (hT : Typed T c) (hok : c.Ok)
    (ht : c.terminated = false) (hp : popStack (flagR c) c = realStack (flagR c) c) :
    (opPoly P op c).wrapped = true ∨ (opPoly P op c).terminated = true ∨
      Proceeds (operate (width (flag2 c)) op c.keep (flagR c) T) (opPoly P op c) ∧
      ∀ e ∈ (opPoly P op c).queue, e ∈ c.queue ∨
        ∃ m, ∀ r, Tells m (items (e.stacks r)) (operate (width (flag2 c)) op c.keep (flagR c) T r) := by
  by_cases hneed : (operandSizes (width (flag2 c)) op).sum ≤ (realStack (flagR c) c).size.toNat
  swap
  · exact .inr (.inl (opPoly_underflow P op c hj hok ht hp (by omega)).1)
  have hneed' : widths (operands (flag2 c) op) ≤ (realStack (flagR c) c).size.toNat := by rw [widths_operands]; exact hneed
  obtain ⟨gs, tk⟩ := take_tells (bs := operands (flag2 c) op) hT hok ht hp hneed'
  rw [opPoly_shape P op c hj]
  generalize hvs : (popList (flagR c) (operands (flag2 c) op) c).1 = vs at *
  generalize hc2 : (popList (flagR c) (operands (flag2 c) op) c).2 = c2 at *
  obtain ⟨sp, mp, hform⟩ := tk.form
  have hflag2 : flagR c2 = flagR c := by rw [hform]; exact flagR_setPop _ _ _
  have ht2 := tk.running ht
  have hq2 : c2.queue = c.queue := by rw [hform]; exact setPop_queue _ _ _
  obtain ⟨hnote, hqueue⟩ := note_noted P op vs c2
  have hok3 : (note P op vs c2).Ok := ⟨by rw [hnote.nodes]; exact tk.ok.nodes, by rw [hnote.nodes, hnote.wst]; exact tk.ok.wst,
    by rw [hnote.nodes, hnote.rst]; exact tk.ok.rst⟩
  have ht3 : (note P op vs c2).terminated = false := by rw [hnote.terminated]; exact ht2
  have htidy := results_tidy P (flag2 c) c.pc op vs c2.nodes.fresh tk.tidy
  have hres := results_vouched P c2.nodes (flag2 c) c.pc op hj vs gs tk.shorts tk.good
  have hgr := tk.groups
  rw [operands_sizes] at hgr
  have htyped := tk.typed
  rw [widths_operands] at htyped
  have htyped : Typed (without T c.keep (flagR c) (operandSizes (width (flag2 c)) op).sum) c2 := htyped
  have htyped3 : Typed (without T c.keep (flagR c) (operandSizes (width (flag2 c)) op).sum) (note P op vs c2) := by
    intro r; rw [hnote.nodes, hnote.real]; exact htyped r
  have hcases := pushAll_cases (dest op (flagR c)) (results P (flag2 c) c.pc op vs) (note P op vs c2) ht3 hok3.nodes
    (hok3.real _) (by rw [hnote.nodes]; exact htidy)
  rcases hcases with hfit | hw | hterm
  swap
  · exact .inl hw
  swap
  · exact .inr (.inl hterm)
  right; right
  have hfin := pushAll_tells (dest op (flagR c)) (results P (flag2 c) c.pc op vs) _ _ (note P op vs c2) htyped3 hok3 ht3
    (by rw [hnote.nodes]; exact htidy) (by rw [hnote.nodes]; exact hres) hfit
  obtain ⟨s4, e4, h4, h5⟩ := pushAll_ok (dest op (flagR c)) (results P (flag2 c) c.pc op vs) (note P op vs c2) ht3 hok3.nodes
    (hok3.real _) (by rw [hnote.nodes]; exact htidy) hfit
  rw [dest_away op _ hj] at hfin
  rw [operate_eq, hgr]
  refine ⟨⟨by rw [e4, setReal_terminated]; exact ht3, ?_, ?_⟩, ?_⟩
  · rw [dest_away op _ hj]; exact hfin.2
  · rw [dest_away op _ hj]; exact hfin.1
  · rw [e4, setReal_queue]
    rcases hqueue with hq | ⟨hc, hq⟩
    · rw [hq, hq2]; exact fun e he => .inl he
    · rw [hq, hq2]
      intro e he
      rcases List.mem_cons.mp he with rfl | he
      swap
      · exact .inl he
      right
      have hne : op ≠ .STH := by intro e; rw [e] at hc; cases hc
      have haw : away op = false := by revert hc; cases op <;> simp [isComparison, away]
      have hd : dest op (flagR c) = flagR c := by unfold dest; rw [if_neg hne]
      have hlen : total (results P (flag2 c) c.pc op vs) = 1 := by
        rw [results_total P (flag2 c) c.pc op vs hj tk.shorts]
        cases op <;> first | cases hc; done | rfl
      have hmean : meaning (width (flag2 c)) op gs.reverse = [mark 1 none false] := by
        revert hc
        cases op <;> simp [isComparison, meaning]
      rw [hd, hlen, hnote.real] at hfit
      refine ⟨c2.nodes, fun r' => ?_⟩
      have hstk : (branchEntry c2).stacks r' = if r' = flagR c then rawPush (realStack (flagR c) c2) (truth false)
          else realStack r' c2 := by
        unfold branchEntry Entry.stacks
        rw [hflag2]
        cases flagR c <;> cases r' <;> rfl
      rw [hstk, hmean, haw]
      simp only [Bool.false_eq_true, if_false]
      unfold put
      by_cases e : r' = flagR c
      · rw [if_pos e, if_pos e]
        have hl : (realStack (flagR c) c2).len.toNat < 255 := by
          have := (tk.ok.real (flagR c)).sound.len_le
          omega
        rw [show items (rawPush (realStack (flagR c) c2) (truth false)) = truth false :: items (realStack (flagR c) c2) from
          items_push hl _ _]
        exact ⟨mark 1 none false, _, rfl, vouched_plain rfl rfl rfl rfl rfl, htyped (flagR c)⟩
      · rw [if_neg e, if_neg e]
        exact htyped r'

/-! ## Literals -/

/-- Pushing a literal so far. -/
def LoadingT (T : Tags) (c : Run) : Prop := c.wrapped = true ∨ c.terminated = true ∨ Proceeds T c

theorem LoadingT.push {T : Tags} {c : Run} (h : LoadingT T c) (r : Bool) {v : Value} {g : List Tag}
    (hg : ∀ m, Vouched m v g) (h1 : v.halfHi = false) (h2 : v.halfLo = false) :
    LoadingT (put r (g ++ T r) T) (pushEx r v c) := by
  rcases h with h | h | h
  · exact .inl ((pushEx_plainly r v c).on.wrapped h)
  · exact .inr (.inl ((pushEx_plainly r v c).on.stopped h))
  · have htd : ∀ w ∈ [v], Tidy c.nodes.fresh w := by
      intro w hw
      rw [List.mem_singleton.mp hw]
      exact whole_tidy _ h1 h2
    rcases pushAll_cases r [v] c h.running h.ok.nodes (h.ok.real r) htd with hfit | hw | hterm
    · obtain ⟨a, b⟩ := pushAll_tells r [v] [g] T c h.typed h.ok h.running htd (.cons (hg _) .nil) hfit
      refine .inr (.inr ⟨?_, b, a⟩)
      obtain ⟨s, e, _⟩ := pushAll_ok r [v] c h.running h.ok.nodes (h.ok.real r) htd hfit
      rw [pushAll_one] at e
      rw [e, setReal_terminated]; exact h.running
    · exact .inl hw
    · exact .inr (.inl hterm)

theorem LoadingT.warning {T : Tags} {c : Run} (h : LoadingT T c) (w : Doubt) : LoadingT T (warning w c) := by
  rcases h with h | h | h
  · exact .inl h
  · exact .inr (.inl h)
  · refine .inr (.inr ⟨h.running, ⟨h.ok.nodes, h.ok.wst, h.ok.rst⟩, fun r => ?_⟩)
    cases r
    · exact h.typed false
    · exact h.typed true

theorem litByte_tells {T : Tags} {c : Run} (h : LoadingT T c) (P : Program) (a : Short) (r : Bool) (hl : P.label a = none) :
    LoadingT (put r (literalByte P a ++ T r) T) (pushEx r (litByte P a (P.sym a) c).1 (litByte P a (P.sym a) c).2) := by
  unfold litByte literalByte
  rw [hl]
  cases hs : P.sym a with
  | none =>
    exact (h.warning .unlabelled).push r (v := {}) (fun m => vouched_plain rfl rfl rfl rfl rfl) rfl rfl
  | some s =>
    dsimp only
    split
    · exact h.push r (v := { address := true, const := true, value := (P.rom a).setWidth 16, nominal := true, type := s.name })
        (fun m => .whole m rfl (fun _ => mark_of 1 (.inl rfl) _ _) (fun _ t ht => mark_address _ _ _ t ht) rfl rfl) rfl rfl
    · exact h.push r (v := { const := true, value := (P.rom a).setWidth 16 }) (fun m => vouched_plain rfl rfl rfl rfl rfl) rfl rfl

theorem opLIT_tells (P : Program) (c : Run) {T : Tags} (hT : Typed T c) (hok : c.Ok) (ht : c.terminated = false)
    (hreg : flag2 c = true → (P.label (c.pc + 1)).isSome = true → (P.label c.pc).isSome = true) :
    LoadingT (put (flagR c) ((if flag2 c then literalShort P c.pc (c.pc + 1) else literalByte P c.pc) ++ T (flagR c)) T) (opLIT P c) := by
  unfold opLIT
  have start : ∀ pc : Short, LoadingT T { c with pc := pc } := fun pc => .inr (.inr ⟨ht, ⟨hok.nodes, hok.wst, hok.rst⟩, fun r => by
    cases r
    · exact hT false
    · exact hT true⟩)
  have plain1 : ∀ sig m, Vouched m (labelValue sig) (mark 1 none false) := fun _ m => vouched_plain rfl rfl rfl rfl rfl
  cases h2 : flag2 c
  · rw [if_neg (by simp)]
    simp only [Bool.false_eq_true, if_false]
    have st := start (c.pc + 1)
    cases hl : P.label c.pc with
    | some sig =>
      have e : literalByte P c.pc = mark 1 none false := by unfold literalByte; rw [hl]
      rw [e]
      exact st.push (flagR c) (plain1 sig) rfl rfl
    | none =>
      dsimp only
      have h1 := litByte_tells st P c.pc (flagR c) hl
      cases hs : P.sym c.pc with
      | some s =>
        rw [hs] at h1
        unfold push
        dsimp only
        rw [litByte_flagR]
        exact h1
      | none =>
        have e : literalByte P c.pc = mark 1 none false := by unfold literalByte; rw [hl, hs]
        rw [e]
        exact st.push (flagR c) (v := {}) (fun m => vouched_plain rfl rfl rfl rfl rfl) rfl rfl
  · rw [if_pos (by rfl)]
    simp only [if_true]
    have st := start (c.pc + 2)
    have hreg := hreg h2
    have two : ∀ {g g' : List Tag} {c' : Run}, LoadingT (put (flagR c) (g' ++ put (flagR c) (g ++ T (flagR c)) T (flagR c)) (put (flagR c) (g ++ T (flagR c)) T)) c' →
        LoadingT (put (flagR c) ((g' ++ g) ++ T (flagR c)) T) c' := by
      intro g g' c' h
      rw [put_put, put_same, ← List.append_assoc] at h
      exact h
    unfold lit2
    dsimp only
    cases hl : P.label c.pc with
    | some sig =>
      have e0 : literalByte P c.pc = mark 1 none false := by unfold literalByte; rw [hl]
      have eS : literalShort P c.pc (c.pc + 1) = literalByte P (c.pc + 1) ++ mark 1 none false := by
        unfold literalShort; rw [hl, e0]
      rw [eS]
      dsimp only
      cases hl' : P.label (c.pc + 1) with
      | some sig' =>
        have e1 : literalByte P (c.pc + 1) = mark 1 none false := by unfold literalByte; rw [hl']
        rw [e1]
        have h1 := st.push (flagR c) (plain1 sig) rfl rfl
        have h2 := h1.push (flagR c) (plain1 sig') rfl rfl
        show LoadingT _ (push _ (pushEx (flagR c) _ _))
        unfold push
        rw [flagR_pushEx]
        exact two h2
      | none =>
        dsimp only
        cases hs : P.sym (c.pc + 1) with
        | none =>
          have e1 : literalByte P (c.pc + 1) = mark 1 none false := by unfold literalByte; rw [hl', hs]
          rw [e1]
          exact st.push (flagR c) (v := { labelValue sig with short := true }) (g := mark 2 none false) (fun m => vouched_plain rfl rfl rfl rfl rfl) rfl rfl
        | some s =>
          have h1 := st.push (flagR c) (plain1 sig) rfl rfl
          have h2 := litByte_tells h1 P (c.pc + 1) (flagR c) hl'
          rw [hs] at h2
          show LoadingT _ (pushEx (flagR _) _ _)
          rw [litByte_flagR, push, flagR_pushEx]
          exact two h2
    | none =>
      have hl' : P.label (c.pc + 1) = none := by
        cases h : P.label (c.pc + 1) with
        | none => rfl
        | some x => rw [hl, h] at hreg; have := hreg rfl; cases this
      dsimp only
      cases hx : P.sym c.pc with
      | none =>
        have eS : literalShort P c.pc (c.pc + 1) = literalByte P (c.pc + 1) ++ literalByte P c.pc := by
          unfold literalShort; rw [hl, hx]
        rw [eS]
        cases hy : P.sym (c.pc + 1) with
        | none =>
          have e0 : literalByte P c.pc = mark 1 none false := by unfold literalByte; rw [hl, hx]
          have e1 : literalByte P (c.pc + 1) = mark 1 none false := by unfold literalByte; rw [hl', hy]
          rw [e0, e1]
          show LoadingT _ (if sameSym none none = true then push { short := true } (warning .unlabelled _) else _)
          rw [if_pos (show sameSym none none = true from rfl)]
          exact (st.warning .unlabelled).push (flagR c) (v := { short := true }) (g := mark 2 none false) (fun m => vouched_plain rfl rfl rfl rfl rfl) rfl rfl
        | some s =>
          rw [if_neg (show ¬ sameSym none (some s) = true from (by simp [sameSym]))]
          have h1 := litByte_tells st P c.pc (flagR c) hl
          have h2 := litByte_tells h1 P (c.pc + 1) (flagR c) hl'
          rw [hx, hy] at h2
          unfold push
          rw [litByte_flagR, litByte_flagR, flagR_pushEx, litByte_flagR]
          exact two h2
      | some s =>
        have eS : literalShort P c.pc (c.pc + 1) = if together P c.pc (c.pc + 1) then mark 2 none (decide (s.type = .labelRef))
            else literalByte P (c.pc + 1) ++ literalByte P c.pc := by
          unfold literalShort; rw [hl, hx]
        have eT : together P c.pc (c.pc + 1) = sameSym (some s) (P.sym (c.pc + 1)) := by
          unfold together sameSym; rw [hx]; cases P.sym (c.pc + 1) <;> rfl
        rw [eS, eT]
        by_cases hsame : sameSym (some s) (P.sym (c.pc + 1)) = true
        · rw [if_pos hsame, if_pos hsame]
          dsimp only
          by_cases hty : s.type = .labelRef
          · rw [if_pos hty, decide_eq_true hty]
            exact st.push (flagR c) (v := { short := true, address := true, const := true, value := rom2 P c.pc (c.pc + 1) })
              (fun m => .mark m rfl rfl (fun _ => rfl) rfl rfl) rfl rfl
          · rw [if_neg hty, decide_eq_false hty]
            split
            · exact st.push (flagR c) (v := { short := true, const := true, value := rom2 P c.pc (c.pc + 1) })
                (fun m => vouched_plain rfl rfl rfl rfl rfl) rfl rfl
            · exact (st.warning .unlabelled).push (flagR c) (v := { short := true }) (fun m => vouched_plain rfl rfl rfl rfl rfl) rfl rfl
        · rw [if_neg hsame, if_neg hsame]
          have h1 := litByte_tells st P c.pc (flagR c) hl
          have h2 := litByte_tells h1 P (c.pc + 1) (flagR c) hl'
          rw [hx] at h2
          unfold push
          rw [litByte_flagR, litByte_flagR, flagR_pushEx, litByte_flagR]
          exact two h2

end Buxn.Chess.Types
