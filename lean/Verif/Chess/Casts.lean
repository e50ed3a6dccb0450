import Verif.Chess.Literal
/-!
# C46: casts change what is said about the VM, not what is true of it
-/

namespace Buxn.Chess

open Buxn.VM (Instr Op dispatch VM Host Cfg)
open Buxn.VM.Spec (valueAt operandsAt pushValue ptr stack setPtr Sys)

variable {σ : Type}

theorem popInputs_sim (r : Bool) (stk : Byte → Byte) (base : Byte) : ∀ (vs acc : List Value) (c : Run) (E : Env),
    c.nodes.Ok → (realStack r c).Ok c.nodes → total vs ≤ (realStack r c).size.toNat →
    Meaning E c.nodes → (∀ v ∈ items (realStack r c), Alive c.nodes v) → (∀ v ∈ items (realStack r c), Small v) →
    ∀ q, Describes E stk base (items (realStack r c)) q →
    ∃ E' ps s' m', popInputs r vs acc c = (ps.reverse ++ acc, setReal r s' { c with nodes := m' }) ∧
      ps.map Value.short = vs.map Value.short ∧ PopSim E c.nodes stk base q ps s' m' E'
  | [], acc, c, E, hm, hs, _, hM, hA, hS, q, hD =>
    ⟨E, [], realStack r c, c.nodes, by rw [popInputs]; exact congrArg _ (setReal_self r c).symm, rfl, .refl _ _, hM, hD, hA, hS⟩
  | v :: vs, acc, c, E, hm, hs, hw, hM, hA, hS, q, hD => by
    rw [total_cons] at hw
    have hw1 : width v.short ≤ (realStack r c).size.toNat := by rw [← size_width]; omega
    obtain ⟨x, s1, m1, e1, p1⟩ := popFrom_ok (short := v.short) hm hs hw1
    obtain ⟨E1, q1⟩ := popFrom_sim (b := v.short) hm hs hw1 hM hA hS hD
    rw [e1] at q1
    dsimp only at q1
    have hx : x.size = v.size := by rw [size_width, size_width, p1.short_eq]
    have hsz := p1.size
    have hsub : ∀ {w}, w ∈ items s1 → w ∈ [x] ++ items s1 := fun h => List.mem_append_right _ h
    obtain ⟨hc1, hc2⟩ := (show Describes E1 stk base (x :: items s1) q from q1.cells)
    obtain ⟨E2, ps, s2, m2, e2, h1, q2⟩ := popInputs_sim r stk base vs (x :: acc) (setReal r s1 { c with nodes := m1 }) E1
      (by rw [setReal_nodes]; exact p1.nodes) (by rw [setReal_nodes, setReal_realStack]; exact p1.stack)
      (by rw [setReal_realStack]; omega) (by rw [setReal_nodes]; exact q1.meaning)
      (by rw [setReal_nodes, setReal_realStack]; exact fun w hw => q1.alive w (hsub hw))
      (by rw [setReal_realStack]; exact fun w hw => q1.small w (hsub hw)) _ (by rw [setReal_realStack]; exact hc2)
    rw [setReal_nodes] at q2
    have hav := q1.alive x (by simp)
    refine ⟨E2, x :: ps, s2, m2, ?_, by rw [List.map_cons, List.map_cons, h1, p1.short_eq], q1.grows.trans q2.grows, q2.meaning,
      ⟨hc1.grow q2.grows hav, q2.cells⟩, ?_, ?_⟩
    · rw [popInputs]
      unfold popReal
      rw [e1]
      dsimp only
      rw [e2, List.reverse_cons, List.append_assoc]
      congr 1
      cases r <;> rfl
    · intro w hw
      rcases List.mem_cons.mp hw with e | hw
      · rw [e]; exact hav.grow q2.grows
      · exact q2.alive w hw
    · intro w hw
      rcases List.mem_cons.mp hw with e | hw
      · rw [e]; exact q1.small x (by simp)
      · exact q2.small w hw

theorem castValue_stands {E : Env} {x y : Value} (hy : Plain y) (hs : x.short = y.short) {n : Nat} (h : Stands E x n) :
    Stands E (castValue x y) n := by
  obtain ⟨h1, h2, h3, h4, h5, h6, h7⟩ := hy
  have hz : (castValue x y).size = x.size := by
    rw [size_width, size_width]; show width y.short = _; rw [hs]
  constructor
  · intro hc
    have hc : (y.const || x.const) = true := hc
    rw [h1, Bool.false_or] at hc
    rw [hz]
    show (if x.const = true then x.value else y.value).toNat % _ = n
    rw [if_pos hc]
    exact h.const hc
  · intro hr
    have hr : y.ret = true := hr
    rw [h3] at hr; cases hr
  · intro hh
    have hh : (y.halfHi || x.halfHi) = true := hh
    rw [h5, Bool.false_or] at hh
    obtain ⟨k, e, hk⟩ := h.high hh
    refine ⟨k, ?_, hk⟩
    show (if (x.halfHi || x.halfLo) = true then x.whole else y.whole) = some k
    rw [if_pos (by rw [hh]; rfl)]; exact e
  · intro hh
    have hh : (y.halfLo || x.halfLo) = true := hh
    rw [h6, Bool.false_or] at hh
    obtain ⟨k, e, hk⟩ := h.low hh
    refine ⟨k, ?_, hk⟩
    show (if (x.halfHi || x.halfLo) = true then x.whole else y.whole) = some k
    rw [if_pos (by rw [hh, Bool.or_true])]; exact e

theorem castValue_alive {m : Nodes} {x y : Value} (hy : Plain y) (h : Alive m x) : Alive m (castValue x y) := by
  obtain ⟨h1, h2, h3, h4, h5, h6, h7⟩ := hy
  intro hh
  have hh' : x.halfHi = true ∨ x.halfLo = true := by
    rcases hh with hh | hh
    · have hh : (y.halfHi || x.halfHi) = true := hh
      rw [h5, Bool.false_or] at hh; exact .inl hh
    · have hh : (y.halfLo || x.halfLo) = true := hh
      rw [h6, Bool.false_or] at hh; exact .inr hh
  obtain ⟨n, hn, e⟩ := h hh'
  refine ⟨n, hn, ?_⟩
  show (if (x.halfHi || x.halfLo) = true then x.whole else y.whole) = some n
  rw [if_pos (by rcases hh' with h | h <;> simp [h])]
  exact e

/-- Saying less about the topmost values. -/
theorem Describes.recast {E : Env} {stk : Byte → Byte} {base : Byte} {ws : List Value} : ∀ {ps qs : List Value} {p : Byte},
    List.Forall₂ (fun v w => w.size = v.size ∧ ∀ x, Stands E v x → Stands E w x) ps qs →
    Describes E stk base (ps ++ ws) p → Describes E stk base (qs ++ ws) p
  | _, _, _, .nil, h => h
  | v :: ps, w :: qs, p, .cons hv hrest, ⟨h1, h2⟩ => by
    refine ⟨?_, ?_⟩
    · rw [hv.1]; exact hv.2 _ h1
    · rw [hv.1]; exact Describes.recast hrest h2

theorem foldl_rawPush_items : ∀ (vs : List Value) (s : Stack), s.len.toNat + vs.length ≤ 255 →
    items (vs.foldl rawPush s) = vs.reverse ++ items s
  | [], s, _ => rfl
  | v :: vs, s, h => by
    rw [List.length_cons] at h
    have hl : (rawPush s v).len.toNat = s.len.toNat + 1 := by
      show (s.len + 1).toNat = _
      rw [BitVec.toNat_add]
      show (s.len.toNat + 1) % 256 = _
      omega
    rw [List.foldl_cons, foldl_rawPush_items vs _ (by omega), List.reverse_cons, List.append_assoc]
    rw [show items (rawPush s v) = v :: items s from items_push (by omega) v _]
    rfl

theorem zipWith_reverse {ps cast : List Value} (h : ps.length = cast.length) :
    (List.zipWith castValue ps.reverse cast).reverse = List.zipWith castValue ps cast.reverse := by
  rw [List.reverse_zipWith (by simpa using h), List.reverse_reverse]

theorem cast_forall {E : Env} : ∀ (ps ks : List Value), ps.map Value.short = ks.map Value.short → (∀ y ∈ ks, Plain y) →
    List.Forall₂ (fun v w => w.size = v.size ∧ ∀ x, Stands E v x → Stands E w x) ps (List.zipWith castValue ps ks)
  | [], [], _, _ => .nil
  | [], _ :: _, h, _ => by cases h
  | _ :: _, [], h, _ => by cases h
  | x :: ps, y :: ks, h, hy => by
    simp only [List.map_cons, List.cons.injEq] at h
    refine .cons ⟨?_, ?_⟩ (cast_forall ps ks h.2 fun v hv => hy v (List.mem_cons_of_mem _ hv))
    · rw [size_width, size_width]; show width y.short = _; rw [h.1]
    · exact fun n hn => castValue_stands (hy y List.mem_cons_self) h.1 hn

theorem cast_alive {m : Nodes} : ∀ (ps ks : List Value), (∀ y ∈ ks, Plain y) → (∀ v ∈ ps, Alive m v) →
    ∀ v ∈ List.zipWith castValue ps ks, Alive m v
  | [], _, _, _ => fun _ h => by cases h
  | _ :: _, [], _, _ => fun _ h => by cases h
  | x :: ps, y :: ks, hy, hp => by
    intro v hv
    rw [List.zipWith_cons_cons] at hv
    rcases List.mem_cons.mp hv with e | hv
    · rw [e]; exact castValue_alive (hy y List.mem_cons_self) (hp x List.mem_cons_self)
    · exact cast_alive ps ks (fun v hv => hy v (List.mem_cons_of_mem _ hv)) (fun v hv => hp v (List.mem_cons_of_mem _ hv)) v hv

/-- A cast on one stack. -/
theorem applyCast_sim (r : Bool) (cast : List Value) (c : Run) {E : Env} {base : Bool → Byte} {vm : VM}
    (hsim : Sim E base vm c.stacks c.nodes) (hok : c.Ok) (hc : PlainArgs cast) (hS : ∀ v ∈ items (realStack r c), Small v)
    (hf : total cast ≤ (realStack r c).size.toNat) :
    ∃ E' s' m', applyCast r cast c = setReal r s' { c with nodes := m' } ∧ E'.ret = E.ret ∧
      Sim E' base vm (setReal r s' { c with nodes := m' }).stacks m' ∧ (setReal r s' { c with nodes := m' }).Ok := by
  obtain ⟨xs, s1, m1, e1, h1, h2, h3, h4, h5, h6⟩ := popInputs_ok r cast.reverse [] c hok.nodes (hok.real r)
    (by rw [total_reverse]; exact hf) (fun _ hv => (by cases hv))
  obtain ⟨E', ps, s1', m1', e1', h1', q1⟩ := popInputs_sim r (stack r vm) (base r) cast.reverse [] c E hok.nodes (hok.real r)
    (by rw [total_reverse]; exact hf) hsim.meaning (hsim.alive r) hS (ptr r vm) (hsim.cells r)
  rw [List.append_nil] at e1'
  rw [e1] at e1'
  have hxs := congrArg Prod.fst e1'
  have hrun := congrArg Prod.snd e1'
  dsimp only at hxs hrun
  have hst := congrArg (realStack r) hrun
  have hnd := congrArg Run.nodes hrun
  rw [setReal_realStack, setReal_realStack] at hst
  rw [setReal_nodes, setReal_nodes] at hnd
  dsimp only at hnd
  subst hst; subst hnd; subst hxs
  rw [total_reverse] at h6
  simp only [List.map_reverse, List.reverse_reverse, List.map_nil, List.append_nil] at h1
  have h1 : ps.reverse.map Value.short = cast.map Value.short := by simpa using h1
  obtain ⟨hz1, hz2⟩ := zip_cast ps.reverse cast h1 h2 hc.2
  have hlt := (realStack r c).size.isLt
  obtain ⟨h7, h8⟩ := foldl_rawPush_ok m1 (List.zipWith castValue ps.reverse cast) s1 h3 hz1 (by rw [hz2]; omega)
  have hlen : ps.length = cast.length := by
    have := congrArg List.length h1
    simpa using this
  have hitems : items ((List.zipWith castValue ps.reverse cast).foldl rawPush s1) =
      List.zipWith castValue ps cast.reverse ++ items s1 := by
    rw [foldl_rawPush_items, zipWith_reverse hlen]
    have a1 := h3.sound.len_le
    have a2 := length_le_total (List.zipWith castValue ps.reverse cast)
    omega
  have hplain : ∀ y ∈ cast.reverse, Plain y := fun y hy => hc.2 y (List.mem_reverse.mp hy)
  refine ⟨E', (List.zipWith castValue ps.reverse cast).foldl rawPush s1, m1, ?_, q1.grows.ret, ⟨q1.meaning, ?_, ?_⟩, ?_⟩
  · unfold applyCast
    rw [sigSize_total hc.1, if_pos hf, e1]
    dsimp only
    rw [setReal_realStack, setReal_setReal]
  · intro r'
    rw [setReal_stacks]
    by_cases e : r' = r
    · rw [if_pos e, hitems, e]
      exact q1.cells.recast (cast_forall ps cast.reverse h1' hplain)
    · rw [if_neg e]
      exact (hsim.cells r').grow q1.grows (hsim.alive r')
  · intro r'
    rw [setReal_stacks]
    by_cases e : r' = r
    · rw [if_pos e, hitems]
      intro v hv
      rcases List.mem_append.mp hv with hv | hv
      · exact cast_alive ps cast.reverse hplain (fun v hv => q1.alive v (List.mem_append_left _ hv)) v hv
      · exact q1.alive v (List.mem_append_right _ hv)
    · rw [if_neg e]
      exact fun v hv => (hsim.alive r' v hv).grow q1.grows
  · refine Run.Ok.of_real (by rw [setReal_nodes]; exact h4) r (by rw [setReal_realStack, setReal_nodes]; exact h7) ?_
    rw [setReal_other, setReal_nodes]
    exact (hok.real (!r)).mono h5

/-- Casts on both stacks. -/
theorem applyCasts_sim {P : Program} (hP : P.Ok) (a : Short) (c : Run) {E : Env} {base : Bool → Byte} {vm : VM}
    (hsim : Sim E base vm c.stacks c.nodes) (hok : c.Ok) (hE : P.cast a ≠ none → Exact c) :
    Reports c (applyCasts (P.cast a) c) ∨
      ∃ E', E'.ret = E.ret ∧ Sim E' base vm (applyCasts (P.cast a) c).stacks (applyCasts (P.cast a) c).nodes ∧
        (applyCasts (P.cast a) c).Ok ∧ (applyCasts (P.cast a) c).terminated = c.terminated ∧
        (applyCasts (P.cast a) c).pc = c.pc ∧ (applyCasts (P.cast a) c).again = c.again := by
  cases hk : P.cast a with
  | none => exact .inr ⟨E, rfl, hsim, hok, rfl, rfl, rfl⟩
  | some k =>
    have hE := hE (by rw [hk]; simp)
    obtain ⟨hw, hr⟩ := hP.casts a k hk
    show Reports c (applyCast true k.rst (applyCast false k.wst c)) ∨ _
    by_cases hf : total k.wst ≤ (realStack false c).size.toNat
    swap
    · left
      rw [applyCast_mismatch false k.wst c hw (by omega)]
      exact (error_reports _ c).then (applyCast_plainly _ _ _).on
    obtain ⟨E1, s1, m1, e1, r1, sim1, ok1⟩ := applyCast_sim false k.wst c hsim hok hw (hE false) hf
    have hon := (applyCast_plainly false k.wst c).on
    show Reports c (applyCast true k.rst (applyCast false k.wst c)) ∨ ∃ E', _ ∧ Sim E' base vm
      (applyCast true k.rst (applyCast false k.wst c)).stacks (applyCast true k.rst (applyCast false k.wst c)).nodes ∧
        (applyCast true k.rst (applyCast false k.wst c)).Ok ∧ (applyCast true k.rst (applyCast false k.wst c)).terminated = c.terminated ∧
          (applyCast true k.rst (applyCast false k.wst c)).pc = c.pc ∧ (applyCast true k.rst (applyCast false k.wst c)).again = c.again
    rw [e1] at hon ⊢
    generalize hc1 : setReal false s1 { c with nodes := m1 } = c1 at *
    have ht1 : c1.terminated = c.terminated := by rw [← hc1, setReal_terminated]
    have ha1 : c1.again = c.again := by rw [← hc1]; rfl
    have hp1 : c1.pc = c.pc := by rw [← hc1, setReal_pc]
    have hn1 : c1.nodes = m1 := by rw [← hc1, setReal_nodes]
    have hrs : realStack true c1 = realStack true c := by
      rw [← hc1]; exact setReal_other false s1 _
    by_cases hf2 : total k.rst ≤ (realStack true c1).size.toNat
    swap
    · left
      rw [applyCast_mismatch true k.rst c1 hr (by omega)]
      exact (error_reports _ c1).after hon
    obtain ⟨E2, s2, m2, e2, r2, sim2, ok2⟩ := applyCast_sim true k.rst c1 (by rw [hn1]; exact sim1) ok1 hr (by rw [hrs]; exact hE true) hf2
    right
    rw [e2]
    refine ⟨E2, r2.trans r1, ?_, ok2, by rw [setReal_terminated]; exact ht1, by rw [setReal_pc]; exact hp1, ha1⟩
    rw [setReal_nodes]
    exact sim2

/-- What is known after an operation is known after the casts. -/
theorem Outcome.casts {P : Program} (hP : P.Ok) (a : Short) {E : Env} {base : Bool → Byte} {c c1 : Run} {s' : Sys σ}
    (hon : Onward c c1) (hE : P.cast a ≠ none → Exact c1) (h : Outcome P E base c c1 s') :
    Outcome P E base c (applyCasts (P.cast a) c1) s' (P.cast a) := by
  have hon' := (applyCasts_plainly (P.cast a) c1).on
  rcases h with h | h | h | ⟨e, h⟩ | h | h | h
  · exact .inl (hon'.wrapped h)
  · exact .inr (.inl (h.then hon'))
  · obtain ⟨h1, h2, h3, E', h4, h5⟩ := h
    rcases applyCasts_sim hP a c1 h5 h3 hE with h | ⟨E2, g1, g2, g3, g4, g5, g6⟩
    · exact .inr (.inl (h.after hon))
    · exact .inr (.inr (.inl ⟨g4.trans h1, by rw [g5]; exact h2, g3, E2, g1.trans h4, g2⟩))
  · obtain ⟨⟨es, h1, h2⟩, h3, h4, h5⟩ := h
    obtain ⟨fs, f1, _⟩ := hon'.queue
    exact .inr (.inr (.inr (.inl ⟨e, ⟨fs ++ es, by rw [f1, h1, List.append_assoc], List.mem_append_right _ h2⟩, h3, h4, h5⟩)))
  · obtain ⟨b, x, h⟩ := h
    exact .inr (.inr (.inr (.inr (.inl ⟨b, x, h.routine, h.pc, h.running, h.ok, h.exact, h.onward, h.sim, by rw [h.result]; rfl,
      fun hk => ⟨by have := hE hk; rw [h.result] at this; exact this, a, rfl⟩⟩))))
  · obtain ⟨h0, h1, h2, h3, E', h4, h5⟩ := h
    rcases applyCasts_sim hP a c1 h5 h3 hE with h | ⟨E2, g1, g2, g3, g4, g5, g6⟩
    · exact .inr (.inl (h.after hon))
    · exact .inr (.inr (.inr (.inr (.inr (.inl ⟨g6.trans h0, by rw [g5]; exact h1, by rw [g5]; exact h2, g3, E2, g1.trans h4, g2⟩)))))
  · exact .inr (.inr (.inr (.inr (.inr (.inr h)))))

end Buxn.Chess
