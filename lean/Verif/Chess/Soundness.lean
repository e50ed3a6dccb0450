import Verif.Chess.Certificate
/-!
# One step of a described run
-/

namespace Buxn.Chess

open Buxn.VM (Instr Op dispatch VM Host Cfg StackEffect)
open Buxn.VM.Spec (valueAt ptr stack Sys KeepsStacks)

variable {σ : Type}

section
variable {P : Program} {S : Run → Prop} {O : Bool → Byte} {k0 : Kind} {ra0 : Nat} {B0 : Bool → Nat} {G0 : Bool → Byte}

/-- The VM is described, down to the outermost routine. -/
def Known (P : Program) (S : Run → Prop) (O : Bool → Byte) (k0 : Kind) (ra0 : Nat) (B0 : Bool → Nat) (G0 : Bool → Byte) (vm : VM) (pc : Nat) : Prop :=
  ∃ f k ra B G c E, Tracked S O f vm pc c E ∧ Owes P O f k ra B G ∧ Pending P S O k0 ra0 B0 G0 k ra B G vm

/-- A covered state describes the VM. -/
theorem Covered.tracked {f : Frame} {key pc : Short} {D : Env → (Bool → Byte) → VM → Prop} (h : Covered S key pc D) (hk : key = f.key)
    {E : Env} {vm : VM} (hr : E.ret = f.ret) (hD : D E (f.at O) vm) (ha : ∀ r, f.base r ≤ depth O r vm) : ∃ c E, Tracked S O f vm pc.toNat c E := by
  obtain ⟨c, i1, i2, i3, i4, i5, i6⟩ := h
  obtain ⟨E', j1, j2⟩ := i6 E (f.at O) vm hD
  exact ⟨c, E', i1, i2.trans hk, j1.trans hr, i4, by rw [i3], i5, j2, ha⟩

/-- When the VM has run into another routine, that routine is entered; then the next thing for both is an instruction. -/
theorem settle (hP : P.Ok) (hC : Certificate P S) {vm : VM} {pc : Nat} (h : Known P S O k0 ra0 B0 G0 vm pc) :
    ∃ f k ra B G c E, Tracked S O f vm pc c E ∧ Owes P O f k ra B G ∧ Pending P S O k0 ra0 B0 G0 k ra B G vm ∧
      round P c = instruction P c := by
  obtain ⟨f, k, ra, B, G, c, E, ht, ho, hp⟩ := h
  have zero : ∀ c : Run, S c → ¬ (¬ c.inner = true ∧ c.pc.toNat < 256) := by
    intro c hc hz
    apply hC.calm c hc
    unfold round
    rw [if_pos hz]
    exact error_reports _ _
  by_cases hin : c.pc ≠ c.key ∧ isRoutine P c.pc = true
  swap
  · exact ⟨f, k, ra, B, G, c, E, ht, ho, hp, by unfold round; rw [if_neg (zero c ht.mem), if_neg hin]⟩
  have hround : round P c = shortCircuit P c.pc { c with inner := true } := by
    unfold round; rw [if_neg (zero c ht.mem), if_pos hin]
  have hsame : Onward c { c with inner := true } := .same rfl rfl rfl rfl rfl rfl rfl rfl rfl rfl
  have hcalm := hC.calm c ht.mem
  have hnarrow := hC.narrow c ht.mem
  have hgoes := hC.goes c ht.mem
  rw [hround] at hcalm hnarrow hgoes
  have hserv := shortCircuit_sim hP c.pc { c with inner := true } (E := E) (base := f.at O) (vm := vm)
    ⟨ht.sim.meaning, fun r => by cases r <;> [exact ht.sim.cells false; exact ht.sim.cells true],
      fun r => by cases r <;> [exact ht.sim.alive false; exact ht.sim.alive true]⟩
    ⟨ht.ok.nodes, ht.ok.wst, ht.ok.rst⟩ ht.running
    (fun r => by cases r <;> [exact hC.exact c ht.mem false; exact hC.exact c ht.mem true])
    (fun hr => hcalm (hr.after hsame)) hnarrow
  obtain ⟨f', k', ra', B', G', e1, ⟨c', E', t1, t2⟩, t3, t4⟩ := enter hC ho hp hin.2 (c1 := { c with inner := true }) ht.key ht.ret
    (fun r => by cases r <;> [exact ht.size false; exact ht.size true]) hserv (by
      rintro ⟨g1, g2, g3⟩ vm' hrest ha
      obtain ⟨g4, E2, g5, g6⟩ := g3 vm' hrest
      obtain ⟨c3, E3, g7⟩ := Covered.tracked (O := O) (f := f) (vm := vm') (E := E2) (hgoes (.inl g1)) ht.key
        (g5.trans ht.ret) ⟨g4, g6⟩ ha
      exact ⟨c3, E3, by rw [← g2]; exact g7⟩)
  refine ⟨f', k', ra', B', G', c', E', by rw [ht.pc]; exact t1, t3, t4, ?_⟩
  unfold round
  rw [if_neg (zero c' t1.mem), if_neg]
  rintro ⟨h1, _⟩
  exact h1 (by rw [t2, t1.key, e1])

/-- The routine has done what its signature says. -/
structure Finished (ra : Nat) (G : Bool → Byte) (s : Sys σ) : Prop where
  pc : s.pc = ra
  ptr : ∀ r, ptr r s.vm = G r

/-- How one instruction changes the part of the stack above a frame. -/
theorem effect_depth {O : Bool → Byte} {r : Bool} {vm vm' : VM} {n m : Nat} (h : StackEffect r (ptr r vm - BitVec.ofNat 8 n) m vm vm')
    (hn : n ≤ depth O r vm) (hm : depth O r vm - n + m < 256) :
    depth O r vm' = depth O r vm - n + m ∧
      ∀ j, j < depth O r vm - n → stack r vm' (O r + BitVec.ofNat 8 j) = stack r vm (O r + BitVec.ofNat 8 j) := by
  have e : ptr r vm - BitVec.ofNat 8 n = O r + BitVec.ofNat 8 (depth O r vm - n) := by
    rw [ptr_depth O r vm]
    have : depth O r vm = (depth O r vm - n) + n := by omega
    conv_lhs => rw [this, ← Buxn.VM.add_ofNat]
    rw [BitVec.add_sub_cancel]
  obtain ⟨h1, h2⟩ := h
  rw [e] at h1 h2
  refine ⟨depth_eq hm (by rw [h1, Buxn.VM.add_ofNat]), fun j hj => ?_⟩
  have hd := depth_lt O r vm
  have e2 : O r + BitVec.ofNat 8 j = O r + BitVec.ofNat 8 (depth O r vm - n) + BitVec.ofNat 8 (256 - (depth O r vm - n) + j) := by
    rw [Buxn.VM.add_ofNat]
    congr 1
    apply BitVec.eq_of_toNat_eq
    rw [BitVec.toNat_ofNat, BitVec.toNat_ofNat]
    omega
  rw [e2]
  exact h2 _ (by omega) (by omega)

/-- The operands of the next instruction are on the stacks. -/
def Fed (O : Bool → Byte) (s : Sys σ) : Prop :=
  ∀ i, dispatch (s.vm.memory s.pc) = some i → ∀ r, reach i r ≤ depth O r s.vm

/-- Where the VM is described, it has its operands, and goes on described or has finished. -/
theorem known_step (hP : P.Ok) (hC : Certificate P S) {cfg : Cfg} {H : Host σ} (hk : KeepsStacks H) {s : Sys σ}
    (h : Known P S O k0 ra0 B0 G0 s.vm s.pc) (hI : ∀ a : Short, s.pc = a.toNat → Intact P s.vm.memory a)
    (hroom : ∀ r, depth O r s.vm ≤ 249) :
    Fed O s ∧
    (Buxn.VM.Spec.step cfg H s = .ok none → k0 = .vector ∧ ∀ r, ptr r s.vm = G0 r) ∧
    ∀ s', Buxn.VM.Spec.step cfg H s = .ok (some s') →
      Known P S O k0 ra0 B0 G0 s'.vm s'.pc ∨ k0 = .subroutine ∧ Finished ra0 G0 s' := by
  obtain ⟨f, k, ra, B, G, c, E, ht, ho, hp, hset⟩ := settle hP hC h
  have hcalm := hC.calm c ht.mem
  have hnarrow := hC.narrow c ht.mem
  have hgoes := hC.goes c ht.mem
  have hforks := hC.forks c ht.mem
  rw [hset] at hcalm hnarrow hgoes hforks
  have hint := hI c.pc ht.pc
  have hop : s.vm.memory s.pc = P.rom c.pc := by rw [ht.pc]; exact hint c.pc List.mem_cons_self
  have hmeet : Meets E (f.at O) c s := ⟨ht.running, ht.pc, ht.ok, ht.sim⟩
  have hfair : Fair P c s.vm.memory := ⟨hint, hC.exact c ht.mem, hC.exactCast c ht.mem, hC.fixed c ht.mem⟩
  have hreach : ∀ i, dispatch (s.vm.memory s.pc) = some i → ∀ r, reach i r ≤ total (items (c.stacks r)) := by
    intro i hi r
    rw [hop] at hi
    exact reach_fits hi ht.ok ht.running hcalm r
  refine ⟨fun i hi r => ?_, fun hh => ?_, fun s' hs => ?_⟩
  · have := hreach i hi r
    have := ht.size r
    omega
  · rcases C46_halt hP hmeet hint hh with h1 | ⟨h1, h2⟩
    · exact absurd h1 hcalm
    · rw [ht.key] at h1 h2
      have hkv : k = .vector := by rw [← ho.kind, h1]
      cases hp with
      | last => exact ⟨hkv, fun r => by rw [h2 r, ho.goal r]⟩
      | call => cases hkv
  -- the stacks
  obtain ⟨i, hi⟩ : ∃ i, dispatch (s.vm.memory s.pc) = some i := by
    have key : ∀ b : Byte, (dispatch b).isSome = true := by decide +kernel
    exact Option.isSome_iff_exists.mp (key _)
  have hst : ∀ r, f.base r ≤ depth O r s'.vm ∧
      ∀ j, j < f.base r → stack r s'.vm (O r + BitVec.ofNat 8 j) = stack r s.vm (O r + BitVec.ofNat 8 j) := by
    intro r
    obtain ⟨n, m, h1, h2, h3⟩ := step_effect hk hi hs r
    have h4 := hreach i hi r
    have h5 := ht.size r
    have h6 := hroom r
    obtain ⟨g1, g2⟩ := effect_depth (O := O) h3 (by omega) (by omega)
    exact ⟨by omega, fun j hj => g2 j (by omega)⟩
  have hp' : Pending P S O k0 ra0 B0 G0 k ra B G s'.vm := hp.keep fun r j hj => (hst r).2 j (by have := ho.below r; omega)
  have ha := fun r => (hst r).1
  have cover : ∀ (E' : Env), E'.ret = E.ret → Sim E' (f.at O) s'.vm (instruction P c).stacks (instruction P c).nodes →
      (instruction P c).Ok → s'.pc = (instruction P c).pc.toNat →
      ((instruction P c).terminated = false ∨ (instruction P c).again = true) → Known P S O k0 ra0 B0 G0 s'.vm s'.pc := by
    intro E' h1 h2 h3 h4 h5
    obtain ⟨c3, E3, g⟩ := Covered.tracked (O := O) (f := f) (vm := s'.vm) (E := E') (hgoes h5) ht.key
      (h1.trans ht.ret) ⟨h3, h2⟩ ha
    exact ⟨f, k, ra, B, G, c3, E3, by rw [h4]; exact g, ho, hp'⟩
  rcases C46_step_partial hP hk hmeet hfair hs with h1 | h1 | h1 | ⟨e, h1⟩ | ⟨b, c1, h1⟩ | h1 | h1
  · rw [hnarrow] at h1; cases h1
  · exact absurd h1 hcalm
  · obtain ⟨E', g1, g2⟩ := h1.sim
    exact .inl (cover E' g1 g2 h1.ok h1.pc (.inl h1.running))
  · obtain ⟨E', m, g1, g2⟩ := h1.sim
    obtain ⟨es, q1, q2⟩ := h1.queue
    have hcov := hforks e (by rw [q1]; exact List.mem_append_left _ q2) h1.key
    obtain ⟨c3, E3, g⟩ := Covered.tracked (O := O) (f := f) (vm := s'.vm) (E := E') hcov (h1.key.trans ht.key) (g1.trans ht.ret) ⟨m, g2⟩ ha
    exact .inl ⟨f, k, ra, B, G, c3, E3, by rw [h1.pc]; exact g, ho, hp'⟩
  · left
    obtain ⟨E', g1, g2⟩ := h1.sim
    have hon : Onward (shortCircuit P b c1) (instruction P c) := by
      rw [h1.result]; exact (applyCasts_plainly _ _).on
    have hrep : ¬ Reports c1 (shortCircuit P b c1) := fun hr => hcalm ((hr.then hon).after h1.onward)
    have hwr : (shortCircuit P b c1).wrapped = false := by
      cases hx : (shortCircuit P b c1).wrapped
      · rfl
      · rw [hon.wrapped hx] at hnarrow; cases hnarrow
    have hserv := shortCircuit_sim hP b c1 g2 h1.ok h1.running h1.exact hrep hwr
    have hkey : c1.key = f.key := h1.onward.key.trans ht.key
    have hsz : ∀ r, f.base r + total (items (c1.stacks r)) = depth O r s'.vm := by
      intro r
      have x1 := (g2.cells r).ptr
      have x2 : total (items (c1.stacks r)) < 256 := total_small (h1.ok.real r)
      have x3 := ha r
      have x4 := depth_lt O r s'.vm
      rw [ptr_depth O r s'.vm, Frame.at, Buxn.VM.add_ofNat] at x1
      have x5 := congrArg BitVec.toNat x1
      rw [BitVec.toNat_add, BitVec.toNat_add, BitVec.toNat_ofNat, BitVec.toNat_ofNat] at x5
      have := (O r).isLt
      omega
    obtain ⟨f', k', ra', B', G', e1, ⟨c', E2, t1, t2⟩, t3, t4⟩ := enter hC ho hp' h1.routine hkey (g1.trans ht.ret) hsz hserv (by
      rintro ⟨y1, y2, y3⟩ vm' hrest hab
      obtain ⟨y4, E3, y5, y6⟩ := y3 vm' hrest
      have fin : ∀ E4 : Env, E4.ret = E3.ret → Sim E4 (f.at O) vm' (instruction P c).stacks (instruction P c).nodes →
          (instruction P c).Ok → (instruction P c).terminated = false → (instruction P c).pc = (shortCircuit P b c1).pc →
          ∃ c E, Tracked S O f vm' (returnTo P b s'.vm) c E := by
        intro E4 z1 z2 z3 z4 z5
        obtain ⟨c5, E5, g⟩ := Covered.tracked (O := O) (f := f) (vm := vm') (E := E4)
          (hgoes (.inl z4)) ht.key
          (z1.trans (y5.trans (g1.trans ht.ret))) ⟨z3, z2⟩ hab
        exact ⟨c5, E5, by rw [← y2, ← z5]; exact g⟩
      cases hcast : P.cast c.pc with
      | none =>
        have e : instruction P c = shortCircuit P b c1 := by rw [h1.result, hcast]; rfl
        refine fin E3 rfl ?_ ?_ ?_ ?_ <;> rw [e]
        · exact y6
        · exact y4
        · exact y1
      | some kk =>
        obtain ⟨z1, a, z2⟩ := h1.cast (by rw [hcast]; simp)
        rcases applyCasts_sim hP a (shortCircuit P b c1) y6 y4 (fun _ => z1) with w | ⟨E4, w1, w2, w3, w4, w5, _⟩
        · refine absurd ?_ hcalm
          rw [h1.result, z2]
          exact w.after (h1.onward.trans (shortCircuit_onward P b c1))
        · have e : instruction P c = applyCasts (P.cast a) (shortCircuit P b c1) := by rw [h1.result, z2]
          rw [← e] at w2 w3 w4 w5
          exact fin E4 w1 w2 w3 (w4.trans y1) w5)
    exact ⟨f', k', ra', B', G', c', E2, by rw [h1.pc]; exact t1, t3, t4⟩
  · obtain ⟨E', g1, g2⟩ := h1.sim
    exact .inl (cover E' g1 g2 h1.ok h1.pc (.inr h1.again))
  · have hks := h1.kind
    have hpc := h1.pc
    have hszs := h1.sizes
    rw [ht.key] at hks hszs
    have hksub : k = .subroutine := by rw [← ho.kind, hks]
    have hG : ∀ r, ptr r s'.vm = G r := fun r => by rw [hszs r, ho.goal r]
    have hra : s'.pc = ra := by rw [hpc, ht.ret, ho.ret hksub]
    clear hset hcalm hnarrow hgoes hforks cover
    cases hp' with
    | last => exact .inr ⟨hksub, hra, hG⟩
    | call g kg ra' B' G' _ _ _ _ x1 x2 x3 x4 x5 =>
      left
      obtain ⟨c3, E3, x6⟩ := x4 s'.vm hG (fun r => le_trans (ho.below r) (ha r)) (fun _ _ _ _ => rfl)
      exact ⟨g, kg, ra', B', G', c3, E3, by rw [hra]; exact x6, x3, x5⟩

end

end Buxn.Chess
